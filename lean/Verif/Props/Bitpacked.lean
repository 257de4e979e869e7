import Verif.Lemmas.Bitpacked
import Verif.Lemmas.Util
/-
Properties C04, C05, C06, C07 (bit-packing).
-/
namespace Pq.Props
open Pq.Spec Pq.Bitpack

/-- The four integer types `u8`, `u16`, `u32`, `u64` by their size in bytes. -/
def IntSize (b : Nat) : Prop := b = 1 ∨ b = 2 ∨ b = 4 ∨ b = 8

instance (b : Nat) : Decidable (IntSize b) := inferInstanceAs (Decidable (_ ∨ _))

/-- **C04** one block: packing a full block of values that fit in `n` bits into a zeroed buffer
succeeds, writes value `i` as the `i`-th `n`-bit field (parquet bit layout) and nothing else,
and unpacking returns the block. Covers `n = 0` and `n` = the type width. -/
theorem C04_block_roundtrip (b n m : Nat) (hb : IntSize b) (hn : n ≤ 8 * b) (hm : n * b ≤ m)
    (xs : List (BitVec (8 * b))) (hlen : xs.length = 8 * b)
    (hfit : ∀ x ∈ xs, x.toNat < 2 ^ n) :
    ∃ o, pack b xs (List.replicate m 0#8) n = .ok o ∧ o.length = m ∧
      fields o n (8 * b) = xs.map BitVec.toNat ∧
      (∀ j, n * (8 * b) ≤ j → bitAt o j = false) ∧
      unpack b o n = .ok xs := by
  have hb0 : 0 < b := by rcases hb with h | h | h | h <;> omega
  by_cases h0 : n = 0
  · subst h0
    have hz : ∀ x ∈ xs, x = 0#(8 * b) := by
      intro x hx
      have := hfit x hx
      apply BitVec.eq_of_toNat_eq
      simp at this ⊢; exact this
    have hxs : xs = List.replicate (8 * b) 0#(8 * b) := List.eq_replicate_iff.2 ⟨hlen, hz⟩
    refine ⟨List.replicate m 0#8, by simp [pack], by simp, ?_, ?_, ?_⟩
    · rw [hxs]
      apply List.ext_getElem
      · simp [fields]
      · intro i h1 h2; simp [fields, fieldAt]
    · intro j _; exact bitAt_replicate_zero _ _
    · rw [hxs]; simp [unpack]
  · obtain ⟨o, h1, h2, h3⟩ := pack_spec b n xs (List.replicate m 0#8) hb0 (by omega) hn
      (by simpa using hm) (by omega) (tame_of_fit b n xs hfit)
    rw [List.length_replicate] at h2 h3
    have hbit : ∀ j, bitAt o j = (decide (j < 8 * m) && (xs.getD (j / n) 0).getLsbD (j % n)) := by
      intro j
      by_cases hj : j < 8 * m
      · rw [h3 j hj, bitAt_replicate_zero]; simp [hj]
      · rw [bitAt_of_ge _ _ (by omega)]; simp [hj]
    have hfld : ∀ i (hi : i < 8 * b), fieldAt o n i = (xs[i]'(by omega)).toNat := by
      intro i hi
      apply Nat.eq_of_testBit_eq
      intro k
      rw [fieldAt_testBit]
      by_cases hk : k < n
      · rw [hbit]
        have hlt : i * n + k < 8 * m := by
          have h5 : (i + 1) * n ≤ 8 * b * n := Nat.mul_le_mul_right n (by omega)
          have h6 : 8 * b * n = 8 * (n * b) := by rw [Nat.mul_assoc, Nat.mul_comm b n]
          rw [Nat.add_mul] at h5; omega
        have e1 : (i * n + k) / n = i := by
          rw [Nat.mul_comm, Nat.mul_add_div (by omega), Nat.div_eq_of_lt hk]; omega
        have e2 : (i * n + k) % n = k := by
          rw [Nat.mul_comm, Nat.mul_add_mod, Nat.mod_eq_of_lt hk]
        rw [e1, e2, List.getD_eq_getElem?_getD, List.getElem?_eq_getElem (by omega)]
        simp [hk, hlt, BitVec.getLsbD]
      · have := getLsbD_of_fit _ (hfit _ (List.getElem_mem (l := xs) (n := i) (by omega))) k (by omega)
        rw [BitVec.getLsbD] at this
        simp [hk, this]
    refine ⟨o, h1, h2, ?_, ?_, ?_⟩
    · apply List.ext_getElem
      · simp [fields, hlen]
      · intro i h4 h5
        simp only [fields, List.getElem_map, List.getElem_range]
        exact hfld i (by simpa [fields] using h4)
    · intro j hj
      have : 8 * b ≤ j / n := by
        rw [Nat.le_div_iff_mul_le (by omega), Nat.mul_comm]; exact hj
      rw [hbit, List.getD_eq_getElem?_getD, List.getElem?_eq_none (by omega)]; simp
    · rw [unpack_eq b n o hb0 hn (by omega)]
      congr 1
      apply List.ext_getElem
      · simp [hlen]
      · intro i h4 h5
        simp only [List.getElem_map, List.getElem_range, fieldBV]
        rw [hfld i (by simpa using h4)]
        simp

-- a block of 16-bit words, 11 bits each, with words straddled by most values
example : IntSize 2 ∧ 11 ≤ 8 * 2 ∧ 11 * 2 ≤ 22 ∧
    ((List.range 16).map fun i => BitVec.ofNat (8 * 2) (i * 131)).length = 8 * 2 ∧
    ∀ x ∈ (List.range 16).map (fun i => BitVec.ofNat (8 * 2) (i * 131)), x.toNat < 2 ^ 11 :=
  ⟨by decide, by decide, by decide, by decide +kernel, forall_mem_of_all _ (by decide +kernel)⟩

/-- Bytes needed by the encoder for `len` values: whole blocks of `8*b` values. -/
def blockBytes (b n len : Nat) : Nat := (len + 8 * b - 1) / (8 * b) * (n * b)

/-- **C04** a short last block (`encode_pack`): the values are padded with zeros, so they are the
first fields and every bit after them is zero. -/
theorem C04_short_block (b n m : Nat) (hb : IntSize b) (hn : n ≤ 8 * b) (hm : n * b ≤ m)
    (xs : List (BitVec (8 * b))) (hlen : xs.length ≤ 8 * b) (hfit : ∀ x ∈ xs, x.toNat < 2 ^ n) :
    ∃ o, encodePack b xs n (List.replicate m 0#8) = .ok o ∧ o.length = m ∧
      fields o n xs.length = xs.map BitVec.toNat ∧
      ∀ j, n * xs.length ≤ j → bitAt o j = false := by
  have hpl : ¬ xs.length < packedLength b → xs.length = 8 * b := by
    rcases hb with rfl | rfl | rfl | rfl <;> simp only [packedLength] <;> simp <;> omega
  obtain ⟨o, h1, h2, h3, h4, -⟩ := C04_block_roundtrip b n m hb hn hm
    (xs ++ List.replicate (8 * b - xs.length) 0#(8 * b)) (by simp; omega) (by
      intro x hx
      rcases List.mem_append.1 hx with hx | hx
      · exact hfit x hx
      · rw [List.eq_of_mem_replicate hx]; simp [Nat.two_pow_pos])
  have hf : ∀ i (hi : i < 8 * b), fieldAt o n i =
      ((xs ++ List.replicate (8 * b - xs.length) 0#(8 * b))[i]'(by simp; omega)).toNat := by
    intro i hi
    have := congrArg (fun l => l[i]?) h3
    simp only [fields, List.getElem?_map] at this
    rw [List.getElem?_range hi, List.getElem?_eq_getElem (by simp; omega)] at this
    simpa only [Option.map_some, Option.some.injEq] using this
  refine ⟨o, ?_, h2, ?_, ?_⟩
  · unfold encodePack
    by_cases hp : xs.length < packedLength b
    · rw [if_pos hp, if_neg (by omega)]; exact h1
    · have e := hpl hp
      rw [if_neg hp, if_pos e]
      rw [e, Nat.sub_self, List.replicate_zero, List.append_nil] at h1
      exact h1
  · apply List.ext_getElem
    · simp [fields]
    · intro i g1 g2
      have hi : i < xs.length := by simpa [fields] using g1
      simp only [fields, List.getElem_map, List.getElem_range]
      rw [hf i (by omega), List.getElem_append_left hi]
  · intro j hj
    by_cases hj2 : n * (8 * b) ≤ j
    · exact h4 j hj2
    · have hn0 : 0 < n := by
        rcases Nat.eq_zero_or_pos n with h | h
        · subst h; simp at hj2
        · exact h
      have e1 : xs.length ≤ j / n := (Nat.le_div_iff_mul_le hn0).2 (by rw [Nat.mul_comm]; exact hj)
      have e2 : j / n < 8 * b := (Nat.div_lt_iff_lt_mul hn0).2 (by rw [Nat.mul_comm]; omega)
      have e3 := hf (j / n) e2
      rw [List.getElem_append_right e1, List.getElem_replicate] at e3
      have e4 := fieldAt_testBit o n (j / n) (j % n)
      rw [e3] at e4
      have e5 := Nat.mod_lt j hn0
      have e6 : j / n * n + j % n = j := by rw [Nat.mul_comm]; exact Nat.div_add_mod j n
      rw [e6] at e4
      simpa [e5] using e4.symm

example : IntSize 4 ∧ 3 ≤ 8 * 4 ∧ 3 * 4 ≤ 128 ∧ ([5#32, 7#32] : List (BitVec (8 * 4))).length ≤ 8 * 4 ∧
    ∀ x ∈ ([5#32, 7#32] : List (BitVec (8 * 4))), x.toNat < 2 ^ 3 :=
  ⟨by decide, by decide, by decide, by decide, forall_mem_of_all _ (by decide +kernel)⟩

/-- **C05** slices of any length: encoding into a zeroed buffer (of whole blocks) writes value
`i` as the `i`-th `n`-bit field, and decoding the used prefix returns the slice. -/
theorem C05_slice_roundtrip (b n m : Nat) (hb : IntSize b) (hn : 0 < n) (hnW : n ≤ 8 * b)
    (xs : List (BitVec (8 * b))) (hm : blockBytes b n xs.length ≤ m)
    (hfit : ∀ x ∈ xs, x.toNat < 2 ^ n) :
    ∃ o, encode b xs n (List.replicate m 0#8) = .ok o ∧ o.length = m ∧
      fields o n xs.length = xs.map BitVec.toNat ∧
      decode b (o.take (ceil8 (xs.length * n))) n xs.length = .ok xs := by
  have hb0 : 0 < b := by rcases hb with h | h | h | h <;> omega
  obtain ⟨o, h1, h2, h3⟩ := encode_spec b n hb0 hn hnW xs (List.replicate m 0#8) hfit
    (by simpa [blockBytes] using hm)
  rw [List.length_replicate] at h2 h3
  have hmb : xs.length * n ≤ 8 * m := by
    have h4 : xs.length ≤ (xs.length + 8 * b - 1) / (8 * b) * (8 * b) := by
      have h5 := Nat.div_add_mod (xs.length + 8 * b - 1) (8 * b)
      have h6 := Nat.mod_lt (xs.length + 8 * b - 1) (show 0 < 8 * b by omega)
      rw [Nat.mul_comm] at h5; omega
    have h7 := Nat.mul_le_mul_right n h4
    have h8 : (xs.length + 8 * b - 1) / (8 * b) * (8 * b) * n = 8 * blockBytes b n xs.length := by
      unfold blockBytes
      generalize (xs.length + 8 * b - 1) / (8 * b) = c
      rw [Nat.mul_assoc, Nat.mul_assoc, Nat.mul_comm b n, Nat.mul_left_comm]
    omega
  have hbit : ∀ j, j < xs.length * n → bitAt o j = (xs.getD (j / n) 0).getLsbD (j % n) := by
    intro j hj
    rw [h3 j (by omega), bitAt_replicate_zero]; simp
  have hfld : ∀ i (hi : i < xs.length), fieldAt o n i = xs[i].toNat := by
    intro i hi
    apply Nat.eq_of_testBit_eq
    intro k
    rw [fieldAt_testBit]
    by_cases hk : k < n
    · have hlt : i * n + k < xs.length * n := by
        have h5 : (i + 1) * n ≤ xs.length * n := Nat.mul_le_mul_right n (by omega)
        rw [Nat.add_mul] at h5; omega
      have e1 : (i * n + k) / n = i := by
        rw [Nat.mul_comm, Nat.mul_add_div (by omega), Nat.div_eq_of_lt hk]; omega
      have e2 : (i * n + k) % n = k := by
        rw [Nat.mul_comm, Nat.mul_add_mod, Nat.mod_eq_of_lt hk]
      rw [hbit _ hlt, e1, e2, List.getD_eq_getElem?_getD, List.getElem?_eq_getElem hi]
      simp [hk, BitVec.getLsbD]
    · have := getLsbD_of_fit _ (hfit _ (List.getElem_mem hi)) k (by omega)
      rw [BitVec.getLsbD] at this
      simp [hk, this]
  have hc8 : xs.length * n ≤ 8 * ceil8 (xs.length * n) := by
    unfold ceil8
    by_cases h : xs.length * n % 8 = 0
    · simp [h]; omega
    · simp [h]; omega
  refine ⟨o, h1, h2, ?_, ?_⟩
  · apply List.ext_getElem
    · simp [fields]
    · intro i h4 h5
      simp only [fields, List.getElem_map, List.getElem_range]
      exact hfld i (by simpa [fields] using h4)
  · rw [decode_eq b n _ hb hn hnW _ (by rw [List.length_take]; omega)]
    congr 1
    apply List.ext_getElem
    · simp
    · intro i h4 h5
      simp only [List.getElem_map, List.getElem_range]
      rw [fieldBV_congr b n hnW _ o i, fieldBV, hfld i h5]
      · simp
      · intro k hk
        have hlt : i * n + k < xs.length * n := by
          have h5 : (i + 1) * n ≤ xs.length * n := Nat.mul_le_mul_right n (by omega)
          rw [Nat.add_mul] at h5; omega
        rw [bitAt_take]
        simp [show i * n + k < 8 * ceil8 (xs.length * n) by omega]

-- 37 `u32` values of 7 bits (one full block and a remainder)
example : IntSize 4 ∧ 0 < 7 ∧ 7 ≤ 8 * 4 ∧
    blockBytes 4 7 ((List.range 37).map fun i => BitVec.ofNat (8 * 4) (3 * i)).length ≤ 56 ∧
    ∀ x ∈ (List.range 37).map (fun i => BitVec.ofNat (8 * 4) (3 * i)), x.toNat < 2 ^ 7 :=
  ⟨by decide, by decide, by decide, by decide +kernel, forall_mem_of_all _ (by decide +kernel)⟩

/-- **C06** the decoder on arbitrary bytes. With a width between 1 and the type width: the
constructor rejects exactly the buffers that are too short for `length` values; otherwise
iteration terminates without panic and yields exactly `length` values, the `k`-th being bits
`k*n .. (k+1)*n` of the buffer. Width 0 is rejected. -/
theorem C06_decode_layout (b n length : Nat) (hb : IntSize b) (hnW : n ≤ 8 * b)
    (packed : List Byte) :
    (n = 0 ∨ 8 * packed.length < length * n → decode b packed n length = .err .oos) ∧
    (0 < n → length * n ≤ 8 * packed.length →
      ∃ xs, decode b packed n length = .ok xs ∧ xs.map BitVec.toNat = fields packed n length) := by
  constructor
  · intro h
    unfold decode Decoder.tryNew
    simp only
    by_cases h0 : n = 0
    · simp [h0]
    · rw [if_neg h0, if_pos (by omega)]
  · intro hn hl
    refine ⟨_, decode_eq b n length hb hn hnW packed hl, ?_⟩
    rw [List.map_map]
    unfold fields
    apply List.map_congr_left
    intro k _
    have h1 := fieldAt_lt packed n k
    have h2 : 2 ^ n ≤ 2 ^ (8 * b) := Nat.pow_le_pow_right (by decide) hnW
    simp only [Function.comp_apply, fieldBV, BitVec.toNat_ofNat]
    exact Nat.mod_eq_of_lt (by omega)

-- the example of the parquet specification: 0..7 with 3 bits
example : decode 4 [0x88#8, 0xC6#8, 0xFA#8] 3 8 = .ok ((List.range 8).map (BitVec.ofNat 32)) := by
  decide +kernel

/-- **C06**, exact remaining length: at every point of the iteration, the number of values still
to come is what the decoder reports (`size_hint`/`ExactSizeIterator`), each `next` decreases it
by one and never panics. -/
theorem C06_exact_remaining (b n length : Nat) (hb : IntSize b) (hn : 0 < n) (hnW : n ≤ 8 * b)
    (packed : List Byte) (hl : length * n ≤ 8 * packed.length) :
    ∃ d : Nat → Decoder b, Decoder.tryNew b packed n length = .ok (d 0) ∧
      ∀ k, (d k).remaining = length - k ∧
        Decoder.next (d k) = .ok
          (if k < length then some (BitVec.ofNat _ (fieldAt packed n k)) else none, d (k + 1)) := by
  obtain ⟨d0, h1, h2, h3, h4⟩ := tryNew_inv b n length hb hn hnW packed hl
  obtain ⟨step, hstep⟩ : ∃ step : Decoder b → Decoder b, ∀ d o d',
      Decoder.next d = .ok (o, d') → step d = d' :=
    ⟨fun d => match Decoder.next d with
      | .ok (_, d') => d'
      | _ => d, fun d o d' h => by simp only [h]⟩
  have hsucc : ∀ k d, Nat.repeat step (k + 1) d = step (Nat.repeat step k d) := fun _ _ => rfl
  have key : ∀ k, k ≤ length → ∃ q, Inv (Nat.repeat step k d0) n q ∧
      (Nat.repeat step k d0).remaining = length - k ∧
      ∀ i, fieldBV b n q ((Nat.repeat step k d0).idx + i) = fieldBV b n packed (k + i) := by
    intro k
    induction k with
    | zero =>
      intro _
      refine ⟨packed, h2, h3, ?_⟩
      intro i
      show fieldBV b n packed (d0.idx + i) = _
      rw [h4]
    | succ k ih =>
      intro hk
      obtain ⟨q, g1, g2, g3⟩ := ih (by omega)
      obtain ⟨d', q', e1, e2, e3, e4⟩ := next_spec n hb hn hnW _ q g1 (by omega)
      have hs : Nat.repeat step (k + 1) d0 = d' := by
        rw [hsucc]; exact hstep _ _ _ e1
      refine ⟨q', hs ▸ e2, ?_, ?_⟩
      · rw [hs, e3, g2]; omega
      · intro i
        rw [hs, e4, Nat.add_assoc, g3]
        congr 1; omega
  have fin : ∀ k, Nat.repeat step (length + k) d0 = Nat.repeat step length d0 := by
    intro k
    induction k with
    | zero => rfl
    | succ k ih =>
      obtain ⟨q, g1, g2, g3⟩ := key length (Nat.le_refl _)
      rw [← Nat.add_assoc, hsucc, ih]
      exact hstep _ none _ (by rw [Decoder.next, if_pos (by omega)])
  refine ⟨fun k => Nat.repeat step k d0, h1, ?_⟩
  intro k
  by_cases hk : k < length
  · obtain ⟨q, g1, g2, g3⟩ := key k (by omega)
    obtain ⟨d', q', e1, e2, e3, e4⟩ := next_spec n hb hn hnW _ q g1 (by omega)
    refine ⟨g2, ?_⟩
    have hs : Nat.repeat step (k + 1) d0 = d' := by
      rw [hsucc]; exact hstep _ _ _ e1
    simp only
    rw [e1, hs, if_pos hk]
    have := g3 0
    simp only [Nat.add_zero] at this
    rw [this]; rfl
  · have e : k = length + (k - length) := by omega
    obtain ⟨q, g1, g2, g3⟩ := key length (Nat.le_refl _)
    simp only
    rw [if_neg hk, hsucc, e, fin]
    refine ⟨by omega, ?_⟩
    have hx : Decoder.next (Nat.repeat step length d0) = .ok (none, Nat.repeat step length d0) := by
      rw [Decoder.next, if_pos (by omega)]
    rw [hstep _ _ _ hx, hx]

example : ∃ d : Nat → Decoder 4, Decoder.tryNew 4 [0x88#8, 0xC6#8, 0xFA#8] 3 8 = .ok (d 0) ∧
    (d 3).remaining = 5 ∧ Decoder.next (d 3) = .ok (some 3#32, d 4) ∧ Decoder.next (d 8) = .ok (none, d 9) := by
  obtain ⟨d, h0, h⟩ := C06_exact_remaining 4 3 8 (by decide) (by decide) (by decide) [0x88#8, 0xC6#8, 0xFA#8]
    (by decide)
  exact ⟨d, h0, (h 3).1, by rw [(h 3).2]; rfl, (h 8).2⟩

/-- **C06** outside the documented range: a width larger than the type panics already in the
constructor (for a non-empty buffer that is long enough). -/
theorem C06_width_too_large_panics :
    decode 1 (List.replicate 9 0#8) 9 8 = .panic := by decide

/-- **C07** is false of the code: packing three-bit fields of `u8`, an over-wide third value
(`8`, which truncates to 0) changes how the *fourth* value is decoded. -/
theorem C07_violated :
    ∃ xs : List (BitVec (8 * 1)), xs.length = 8 ∧ xs.getD 3 0 = 0#(8 * 1) ∧
      (∀ i, i < 8 → i ≠ 2 → (xs.getD i 0).toNat < 2 ^ 3) ∧
      ∃ o ys, pack 1 xs (List.replicate 3 0#8) 3 = .ok o ∧ unpack 1 o 3 = .ok ys ∧
        ys.getD 3 0 = 1#(8 * 1) := by
  refine ⟨[0, 0, 8, 0, 0, 0, 0, 0], by decide, by decide, by decide, 
    [0x00, 0x02, 0x00], [0, 0, 0, 1, 0, 0, 0, 0], by decide, by decide, by decide⟩

/-- **C07** (partial): an over-wide value is truncated to its `n` low bits and does not disturb
its neighbours provided its field does not straddle a word boundary — in particular always when
`n` divides the word size. Missing: fields that straddle two words (`C07_violated`). -/
theorem C07_truncation_partial (b n m : Nat) (hb : IntSize b) (hn : 0 < n) (hnW : n ≤ 8 * b)
    (hm : n * b ≤ m) (xs : List (BitVec (8 * b))) (hlen : xs.length = 8 * b)
    (h : ∀ i (hi : i < xs.length), xs[i].toNat < 2 ^ n ∨ i * n % (8 * b) + n ≤ 8 * b) :
    ∃ o, pack b xs (List.replicate m 0#8) n = .ok o ∧
      unpack b o n = .ok (xs.map fun x => BitVec.ofNat (8 * b) (x.toNat % 2 ^ n)) := by
  have hb0 : 0 < b := by rcases hb with h | h | h | h <;> omega
  have ht : ∀ i, Tame b n (xs.getD i 0) i := by
    intro i
    rw [List.getD_eq_getElem?_getD]
    by_cases hi : i < xs.length
    · rw [List.getElem?_eq_getElem hi]; exact h i hi
    · rw [List.getElem?_eq_none (by omega)]; left; simp [Nat.two_pow_pos]
  obtain ⟨o, h1, h2, h3⟩ := pack_spec b n xs (List.replicate m 0#8) hb0 hn hnW
    (by simpa using hm) (by omega) ht
  rw [List.length_replicate] at h2 h3
  refine ⟨o, h1, ?_⟩
  rw [unpack_eq b n o hb0 hnW (by omega)]
  congr 1
  apply List.ext_getElem
  · simp [hlen]
  · intro i h4 h5
    simp only [List.getElem_map, List.getElem_range]
    have hi : i < 8 * b := by simpa using h4
    apply BitVec.eq_of_getLsbD_eq
    intro k hk
    rw [fieldBV_getLsbD _ _ _ _ _ hnW, BitVec.getLsbD_ofNat, Nat.testBit_mod_two_pow]
    by_cases hkn : k < n
    · have hlt : i * n + k < 8 * m := by
        have h5 : (i + 1) * n ≤ 8 * b * n := Nat.mul_le_mul_right n (by omega)
        have h6 : 8 * b * n = 8 * (n * b) := by rw [Nat.mul_assoc, Nat.mul_comm b n]
        rw [Nat.add_mul] at h5; omega
      have e1 : (i * n + k) / n = i := by
        rw [Nat.mul_comm, Nat.mul_add_div (by omega), Nat.div_eq_of_lt hkn]; omega
      have e2 : (i * n + k) % n = k := by
        rw [Nat.mul_comm, Nat.mul_add_mod, Nat.mod_eq_of_lt hkn]
      rw [h3 _ hlt, e1, e2, List.getD_eq_getElem?_getD, List.getElem?_eq_getElem (by omega),
        bitAt_replicate_zero]
      simp [hkn, hk, BitVec.getLsbD]
    · simp [hkn]

-- 4-bit fields of `u8`: all values over-wide
example : ∀ i (hi : i < (List.replicate 8 (0xF7#(8 * 1))).length),
    (List.replicate 8 (0xF7#(8 * 1)))[i].toNat < 2 ^ 4 ∨ i * 4 % (8 * 1) + 4 ≤ 8 * 1 := by
  intro i hi; right; omega

end Pq.Props
