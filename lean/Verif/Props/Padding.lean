import Verif.Lemmas.Padding
/-
Property C95: what is written beyond the values.
-/
namespace Pq.Props
open Pq.Spec

/-- **C95** for booleans: a list of booleans (definition levels of one bit, a bitmap, boolean values) is written with
every bit beyond the last value zero. -/
theorem C95_bool (xs : List Bool) (hlen : xs.length < 2 ^ 63) :
    ∃ h body, Rle.encodeBool xs = .ok (h ++ body) ∧ body = Bitmap.encodeBool xs ∧
      IsHeader h (2 * ((xs.length + 7) / 8) + 1) ∧ body.length = (xs.length + 7) / 8 ∧
      ∀ j, xs.length ≤ j → bitAt body j = false := by
  obtain ⟨h, h1, h2⟩ := Rle.header_spec xs.length (by omega)
  have hbl := Bitmap.encodeBool_length xs
  rw [Rle.ceil8_eq] at h2 hbl
  refine ⟨h, Bitmap.encodeBool xs, ?_, rfl, h2, hbl, ?_⟩
  · unfold Rle.encodeBool; rw [h1]; rfl
  · intro j hj
    rw [Bitmap.bitAt_encodeBool, List.getD_eq_getElem?_getD, List.getElem?_eq_none hj]; rfl

example : Rle.encodeBool (List.replicate 33 true) = .ok [0x0B#8, 0xFF#8, 0xFF#8, 0xFF#8, 0xFF#8, 0x01#8] := by
  decide +kernel

/-- **C95** for `u32`: every bit which is written. Up to the last value they are the values; beyond it they are
those of the values 32 places before, if there are any, and zero if not. -/
theorem C95_u32 (n : Nat) (hn : 0 < n) (hn32 : n ≤ 32) (xs : List (BitVec 32))
    (hfit : ∀ x ∈ xs, x.toNat < 2 ^ n) (hlen : 4 * xs.length < 2 ^ 63) :
    ∃ h body, Rle.encodeU32 xs n = .ok (h ++ body) ∧
      IsHeader h (2 * ((xs.length + 7) / 8) + 1) ∧ body.length = (xs.length * n + 7) / 8 ∧
      ∀ j, j < 8 * body.length → bitAt body j =
        if j / n < xs.length then (xs.getD (j / n) 0).getLsbD (j % n)
        else if 32 ≤ j / n then (xs.getD (j / n - 32) 0).getLsbD (j % n) else false := by
  obtain ⟨h, h1, h2⟩ := Rle.header_spec xs.length (by omega)
  obtain ⟨body, g1, g2, g3⟩ := Rle.bitpackedEncodeU32_bits n hn hn32 xs hfit
  rw [Rle.ceil8_eq] at h2 g2
  refine ⟨h, body, ?_, h2, g2, g3⟩
  unfold Rle.encodeU32
  rw [h1, show n % 256 = n from Nat.mod_eq_of_lt (by omega)]
  simp only
  rw [g1]
  rfl

/-- 35 values of 3 bits: of the 7 bits beyond the last, the first three are the value at 3. -/
example : (∀ x ∈ (List.range 35).map (fun i => BitVec.ofNat 32 (i % 8)), x.toNat < 2 ^ 3) ∧
    (35 * 3 + 7) / 8 = 14 ∧ 105 / 3 = 35 ∧
    (((List.range 35).map fun i => BitVec.ofNat 32 (i % 8)).getD (105 / 3 - 32) 0).getLsbD (105 % 3) = true := by
  refine ⟨?_, by decide +kernel⟩
  intro x hx
  obtain ⟨i, -, rfl⟩ := List.mem_map.1 hx
  rw [BitVec.toNat_ofNat]; omega

/-- **C95** for `u32`, which holds if there are at most 32 values or the values end with a byte. Missing: zeros
beyond more values, where `C95_violated` shows that earlier values are repeated. -/
theorem C95_u32_partial (n : Nat) (hn : 0 < n) (hn32 : n ≤ 32) (xs : List (BitVec 32))
    (hfit : ∀ x ∈ xs, x.toNat < 2 ^ n) (hlen : 4 * xs.length < 2 ^ 63)
    (h32 : xs.length ≤ 32 ∨ 8 ∣ xs.length * n) :
    ∃ h body, Rle.encodeU32 xs n = .ok (h ++ body) ∧
      IsHeader h (2 * ((xs.length + 7) / 8) + 1) ∧ body.length = (xs.length * n + 7) / 8 ∧
      ∀ j, xs.length * n ≤ j → bitAt body j = false := by
  obtain ⟨h, body, h1, h2, h3, h4⟩ := C95_u32 n hn hn32 xs hfit hlen
  refine ⟨h, body, h1, h2, h3, fun j hj => ?_⟩
  by_cases hb : 8 * body.length ≤ j
  · exact bitAt_of_ge _ _ hb
  · rw [h4 j (by omega), if_neg (by rw [Nat.div_lt_iff_lt_mul hn]; omega), if_neg]
    intro hge
    rw [Nat.le_div_iff_mul_le hn] at hge
    rcases h32 with h32 | h32
    · have : xs.length * n ≤ 32 * n := Nat.mul_le_mul_right n h32
      omega
    · obtain ⟨k, hk⟩ := h32
      omega

example : (∀ x ∈ [1#32, 7#32, 5#32], x.toNat < 2 ^ 3) ∧ [1#32, 7#32, 5#32].length ≤ 32 ∧
    8 ∣ (List.replicate 40 1#32).length * 3 := by
  simp only [List.length_replicate]; refine ⟨by simp, by decide, by decide⟩

/-- **C95** for DELTA_BINARY_PACKED, which holds for the values of one block: the bits of the miniblock beyond the
last delta are zero. Missing: further blocks, where `C95_violated` shows that the last is padded with deltas of the block
before. -/
theorem C95_delta_partial (ck : Bool) (xs : List (BitVec 64)) (out : List Byte) (h2 : 2 ≤ xs.length)
    (hl : xs.length ≤ 129) (ho : Delta.encode ck xs = .ok out) :
    ∃ h1 h2 h3 h4 z minDelta width bytes,
      out = h1 ++ h2 ++ h3 ++ h4 ++ (z ++ [BitVec.ofNat 8 width] ++ bytes) ∧
      IsHeader h1 128 ∧ IsHeader h2 1 ∧ IsHeader h3 xs.length ∧
      IsHeader h4 (zigzagNat (xs.headD 0#64).toInt) ∧ IsHeader z (zigzagNat minDelta) ∧
      width ≤ 64 ∧ bytes.length = 16 * width ∧
      ∀ j, (xs.length - 1) * width ≤ j → bitAt bytes j = false := by
  obtain ⟨a, b, c, d, z, m, w, bs, e, rest⟩ := Delta.encode_padding xs h2 hl
  refine ⟨a, b, c, d, z, m, w, bs, ?_, rest⟩
  rw [Delta.encode_any ck xs out ho, Res.ok.injEq] at e
  exact e

example : Delta.encode true [3, 7, 8, 10] = .ok ([0x80#8, 0x01#8, 0x01#8, 0x04#8, 0x06#8, 0x02#8, 0x02#8, 0x13#8] ++
    List.replicate 31 0#8) := by decide +kernel

/-- Deltas 1, 0, 1, 0, …: 130 of them, so that the last two are a block of their own. -/
def stairs : List (BitVec 64) := (List.range 131).map fun i => BitVec.ofNat 64 ((i + 1) / 2)

/-- **C95** is violated: of 33 ones of one bit the last byte has all bits set, not only the first, and the 126 missing
deltas of a block are those of the block before, where the format asks for zeros. -/
theorem C95_violated :
    (∃ h body, Rle.encodeU32 (List.replicate 33 1#32) 1 = .ok (h ++ body) ∧ IsHeader h 11 ∧ body.length = 5 ∧
      ∀ j, j < 40 → bitAt body j = true) ∧
    Delta.encode true stairs = .ok ([0x80#8, 0x01#8, 0x01#8, 0x83#8, 0x01#8, 0x00#8] ++
      ([0x00#8, 0x01#8] ++ List.replicate 16 0x55#8) ++ ([0x00#8, 0x01#8] ++ List.replicate 16 0x55#8)) := by
  refine ⟨?_, by decide +kernel⟩
  obtain ⟨h, body, h1, h2, h3, h4⟩ := C95_u32 1 (by decide) (by decide) (List.replicate 33 1#32)
    (fun x hx => by rw [List.eq_of_mem_replicate hx]; decide) (by decide +kernel)
  refine ⟨h, body, h1, h2, h3, fun j hj => ?_⟩
  rw [h4 j (by rw [h3, List.length_replicate]; omega)]
  revert j
  decide +kernel

end Pq.Props
