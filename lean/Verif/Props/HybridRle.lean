import Verif.Lemmas.HybridRle2
import Verif.Lemmas.HybridValues
import Verif.Lemmas.Util
/-
Properties C08–C12 (RLE / bit-packing hybrid, bitmaps).
-/
namespace Pq.Props
open Pq.Spec Pq.Rle

/-- **C08** hybrid RLE round trip of `u32`. The output is a bit-packed header for
`ceil(len/8)` groups followed by the values in the parquet bit layout; decoding it for that many
values, whatever bytes follow, returns the list. (The length bound only says that the slice fits
in the address space.) -/
theorem C08_hybrid_u32_roundtrip (n : Nat) (hn : 0 < n) (hn32 : n ≤ 32) (xs : List U32)
    (hfit : ∀ x ∈ xs, x.toNat < 2 ^ n) (hlen : 4 * xs.length < 2 ^ 63) (rest : List Byte) :
    ∃ h body, encodeU32 xs n = .ok (h ++ body) ∧
      IsHeader h (2 * ((xs.length + 7) / 8) + 1) ∧ body.length = (xs.length * n + 7) / 8 ∧
      fields body n xs.length = xs.map BitVec.toNat ∧
      decode (h ++ (body ++ rest)) n xs.length = .ok xs := by
  obtain ⟨h, h1, h2⟩ := header_spec xs.length (by omega)
  obtain ⟨body, g1, g2, g3⟩ := bitpackedEncodeU32_spec n hn hn32 xs hfit
  rw [ceil8_eq] at h2 g2
  have hfld : ∀ i (hi : i < xs.length), fieldAt body n i = xs[i].toNat := by
    intro i hi
    apply Nat.eq_of_testBit_eq
    intro k
    rw [fieldAt_testBit]
    by_cases hk : k < n
    · have hlt : i * n + k < xs.length * n := by
        have h5 : (i + 1) * n ≤ xs.length * n := Nat.mul_le_mul_right n (by omega)
        rw [Nat.add_mul] at h5; omega
      have e1 : (i * n + k) / n = i := by
        rw [Nat.mul_comm, Nat.mul_add_div (by omega), Nat.div_eq_of_lt hk]; omega
      have e2 : (i * n + k) % n = k := by
        rw [Nat.mul_comm, Nat.mul_add_mod, Nat.mod_eq_of_lt hk]
      rw [g3 _ hlt, e1, e2, List.getD_eq_getElem?_getD, List.getElem?_eq_getElem hi]
      simp [hk, BitVec.getLsbD]
    · have := Bitpack.getLsbD_of_fit _ (hfit _ (List.getElem_mem hi)) k (by omega)
      rw [BitVec.getLsbD] at this
      simp [hk, this]
  have hmul : (xs.length * n + 7) / 8 ≤ (xs.length + 7) / 8 * n := by
    have h1 : xs.length ≤ 8 * ((xs.length + 7) / 8) := by omega
    have h2 := Nat.mul_le_mul_right n h1
    rw [Nat.mul_assoc] at h2
    omega
  have hbound : (xs.length + 7) / 8 * n < 2 ^ 64 := by
    have : (xs.length + 7) / 8 * n ≤ (xs.length + 7) / 8 * 32 := Nat.mul_le_mul_left _ hn32
    omega
  refine ⟨h, body, ?_, h2, g2, ?_, ?_⟩
  · unfold encodeU32
    rw [h1]
    simp only
    rw [Nat.mod_eq_of_lt (by omega), g1]; rfl
  · apply List.ext_getElem
    · simp [fields]
    · intro i h4 h5
      simp only [fields, List.getElem_map, List.getElem_range]
      exact hfld i (by simpa [fields] using h4)
  · rw [decode_single_packed n ((xs.length + 7) / 8) xs.length hn hn32 h body rest h2 (by omega)
      (by omega) hbound]
    congr 1
    apply List.ext_getElem
    · simp
    · intro i h4 h5
      simp only [List.getElem_map, List.getElem_range, Bitpack.fieldBV]
      rw [hfld i h5]
      simp

example : 0 < 7 ∧ 7 ≤ 32 ∧ 4 * ((List.range 41).map fun i => BitVec.ofNat 32 (3 * i)).length < 2 ^ 63 ∧
    ∀ x ∈ (List.range 41).map (fun i => BitVec.ofNat 32 (3 * i)), x.toNat < 2 ^ 7 :=
  ⟨by decide, by decide, by decide, forall_mem_of_all _ (by decide +kernel)⟩

/-- **C08** the number of bits is taken modulo 256: a greater one is not refused, the output is that of
another width. -/
theorem C08_width (n : Nat) (xs : List U32) :
    encodeU32 xs n = encodeU32 xs (n % 256) ∧
    (∀ k, 0 < k → k ≤ 32 → (∀ x ∈ xs, x.toNat < 2 ^ k) → 4 * xs.length < 2 ^ 63 →
      ∃ out, encodeU32 xs (256 + k) = .ok out ∧ decode out k xs.length = .ok xs) := by
  have e : ∀ n, encodeU32 xs n = encodeU32 xs (n % 256) := by
    intro n
    unfold encodeU32
    rw [Nat.mod_mod]
  refine ⟨e n, fun k h0 h1 hx hl => ?_⟩
  obtain ⟨h, body, h2, -, -, -, h3⟩ := C08_hybrid_u32_roundtrip k h0 h1 xs hx hl []
  refine ⟨h ++ body, ?_, by simpa using h3⟩
  rw [e, show (256 + k) % 256 = k by omega, h2]

example : ∀ x ∈ [1#32, 2#32], x.toNat < 2 ^ 2 := by simp

example : 0 < 7 ∧ 7 ≤ 32 ∧ 4 * ((List.range 41).map fun i => BitVec.ofNat 32 (3 * i)).length < 2 ^ 63 ∧
    ∀ x ∈ (List.range 41).map (fun i => BitVec.ofNat 32 (3 * i)), x.toNat < 2 ^ 7 :=
  ⟨by decide, by decide, by decide +kernel, forall_mem_of_all _ (by decide +kernel)⟩

/-- **C09** hybrid RLE of booleans: the output is a header and an LSB-first bitmap; decoding with
width 1 (whatever follows) gives 1 for `true` and 0 for `false`; the run decoder hands out the
bitmap, which the bitmap iterator turns into the booleans. -/
theorem C09_hybrid_bool_roundtrip (xs : List Bool) (hlen : xs.length < 2 ^ 63) (rest : List Byte) :
    ∃ h body, encodeBool xs = .ok (h ++ body) ∧
      IsHeader h (2 * ((xs.length + 7) / 8) + 1) ∧ body.length = (xs.length + 7) / 8 ∧
      (∀ i, bitAt body i = xs.getD i false) ∧
      decode (h ++ (body ++ rest)) 1 xs.length = .ok (xs.map fun b => if b then 1#32 else 0#32) ∧
      (xs ≠ [] → ∃ it, Runs.next ⟨h ++ (body ++ rest), 1⟩ = .ok (some (.bitpacked body), ⟨rest, 1⟩) ∧
        Bitmap.Iter.new body 0 xs.length = .ok it ∧ it.collect = .ok xs) := by
  obtain ⟨h, h1, h2⟩ := header_spec xs.length (by omega)
  rw [ceil8_eq] at h2
  have hbl := Bitmap.encodeBool_length xs
  rw [ceil8_eq] at hbl
  refine ⟨h, Bitmap.encodeBool xs, ?_, h2, hbl, Bitmap.bitAt_encodeBool xs, ?_, ?_⟩
  · unfold encodeBool; rw [h1]; rfl
  · rw [decode_single_packed 1 ((xs.length + 7) / 8) xs.length (by omega) (by omega) h _ rest h2
      (by omega) (by omega) (by omega)]
    congr 1
    apply List.ext_getElem
    · simp
    · intro i h4 h5
      simp only [List.getElem_map, List.getElem_range, Bitpack.fieldBV]
      have hi : i < xs.length := by simpa using h5
      have : fieldAt (Bitmap.encodeBool xs) 1 i = if xs[i] then 1 else 0 := by
        unfold fieldAt
        simp only [List.range_one, List.foldr_cons, List.foldr_nil, Nat.mul_one, Nat.add_zero,
          Nat.zero_add, Nat.pow_zero, Bitmap.bitAt_encodeBool, List.getD_eq_getElem?_getD,
          List.getElem?_eq_getElem hi, Option.getD_some]
      rw [this]
      cases xs[i] <;> rfl
  · intro hne
    have hpos : 0 < xs.length := List.length_pos_iff.2 hne
    have hne2 : Bitmap.encodeBool xs ++ rest ≠ [] := by
      intro he
      have := congrArg List.length he
      rw [List.length_append, List.length_nil] at this; omega
    have hnx := next_packed 1 ((xs.length + 7) / 8) (by omega) h _ rest h2 hne2 (by omega)
    rw [Nat.mul_one, ← hbl, List.take_left, List.drop_left] at hnx
    obtain ⟨it, i1, i2⟩ := Bitmap.collect_eq (Bitmap.encodeBool xs) 0 xs.length (by omega)
    refine ⟨it, hnx, i1, ?_⟩
    rw [i2]
    congr 1
    apply List.ext_getElem
    · simp
    · intro i h4 h5
      simp only [List.getElem_map, List.getElem_range, Nat.zero_add, Bitmap.bitAt_encodeBool,
        List.getD_eq_getElem?_getD, List.getElem?_eq_getElem h5, Option.getD_some]

example : encodeBool [true, false, true, true, false, false, false, false, true] =
    .ok [0x05#8, 0x0D#8, 0x01#8] := by decide

/-- **C10** exact number of items, for arbitrary bytes: collecting a decoder built for `N` values
either aborts because a run header met on the way is malformed (over-long varint, or fewer bytes
left than the repeated value needs), or yields exactly `N` values. It is never an `Err`. -/
theorem C10_exact_count (data : List Byte) (n N : Nat) (hn32 : n ≤ 32) :
    (∃ xs, decode data n N = .ok xs ∧ xs.length = N) ∨
    (decode data n N = .panic ∧ ∃ s, s <:+ data ∧ BadRun n s) := by
  by_cases h0 : n = 0
  · subst h0; left; exact ⟨_, decode_zero data N, by simp⟩
  · rw [decode_eq n (by omega) hn32]
    by_cases hp : Runs.next ⟨data, n⟩ = .panic
    · right; rw [if_pos hp]
      exact ⟨rfl, data, List.suffix_refl _, Runs.next_panic n data hp⟩
    · rw [if_neg hp]
      cases he : expand n (data.length + 1) data N with
      | ok xs => left; exact ⟨xs, rfl, expand_length _ _ _ _ _ he⟩
      | err e => exact absurd he (expand_ne_err _ _ _ _ _)
      | panic => right; exact ⟨rfl, expand_panic _ _ _ _ (by omega) he⟩

-- both outcomes occur
example : decode [0x09#8] 3 4 = .ok [0, 0, 0, 0] := by decide
example : decode [0x04#8, 7#8] 12 2 = .panic := by decide

/-- **C10** exactly what any bytes are read as, for every bit width up to 32 and every number of values; it aborts
exactly if the specification has no values. -/
theorem C10_values (data : List Byte) (n N : Nat) (hn32 : n ≤ 32) :
    decode data n N = match hybridValues n data N with
      | some xs => .ok (xs.map (BitVec.ofNat 32))
      | none => .panic := decode_values n hn32 data N

/-- A repeated value of 12 bits in 16, which are all taken; a bit-packed run cut after one value and a half; a run of no
values; the end. Then: a run whose repeated value is cut, if it is wanted, and also if nothing is wanted and it is the
first; a header of more than 64 bits. -/
example :
    hybridValues 12 [0x04#8, 0x34#8, 0xF2#8, 0x00#8, 0#8, 0#8, 0x03#8, 0xBC#8, 0x1A#8] 5 =
      some [0xF234, 0xF234, 0xABC, 0, 0] ∧
    hybridValues 12 [0x02#8, 1#8, 0#8, 0x04#8, 7#8] 2 = none ∧
    hybridValues 12 [0x02#8, 1#8, 0#8, 0x04#8, 7#8] 1 = some [1] ∧
    hybridValues 12 [0x04#8, 7#8] 0 = none ∧
    hybridValues 1 (List.replicate 10 255#8) 3 = none ∧
    hybridValues 0 (List.replicate 10 255#8) 3 = some [0, 0, 0] := by
  decide +kernel

/-- **C10**, remaining length at every step, for arbitrary decoder states: `next` returns `None`
exactly when no value remains and otherwise lowers the reported length by one. -/
theorem C10_remaining_exact (d d' : Dec) (o : Option U32) (h : d.next = .ok (o, d')) :
    (o = none ↔ d.remaining = 0) ∧ d'.remaining = d.remaining - 1 := by
  unfold Dec.next at h
  generalize d.decoder.values.length + 2 = fuel at h
  induction fuel generalizing d with
  | zero => simp [Dec.nextFuel] at h
  | succ fuel ih =>
    rw [Dec.nextFuel] at h
    split at h
    · rename_i h0
      simp only [Res.ok.injEq, Prod.mk.injEq] at h
      rw [← h.1, ← h.2]; simp [h0]
    · rename_i h0
      split at h
      · simp at h
      · simp at h
      · simp only [Res.ok.injEq, Prod.mk.injEq] at h
        rw [← h.1, ← h.2]; simp [h0]
      · split at h
        · simp at h
        · simp at h
        · have := ih _ h; exact this

example : ∃ d o d', Dec.tryNew [0x04#8, 7#8] 8 2 = .ok d ∧ d.next = .ok (o, d') ∧ o = some 7#32 :=
  ⟨_, _, _, rfl, rfl, rfl⟩

/-- **C11** every legal run sequence is understood: for any runs, serialised by any writer (any
legal varint for the headers), the decoder returns the concatenated run values cut to the
requested number; if the stream holds fewer values the rest is filled with zeros. -/
theorem C11_runs (n : Nat) (hn : 0 < n) (hn32 : n ≤ 32) (rs : List Run) (stream : List Byte)
    (hs : RunStream n rs stream) (N : Nat) :
    ∃ xs, decode stream n N = .ok xs ∧
      xs.map BitVec.toNat = (rs.flatMap (Run.values n) ++ List.replicate N 0).take N := by
  have hv : ∀ r out, Run.Ser n r out → ∀ v ∈ r.values n, v < 2 ^ 32 := by
    intro r out hr v hv
    have hpow : (2 : Nat) ^ n ≤ 2 ^ 32 := Nat.pow_le_pow_right (by decide) hn32
    cases r with
    | rle c w =>
      simp only [Run.values, List.mem_replicate] at hv
      have := hr.1
      omega
    | packed g bs =>
      simp only [Run.values, fields, List.mem_map] at hv
      obtain ⟨k, _, rfl⟩ := hv
      have := fieldAt_lt bs n k
      omega
  have hall : ∀ v ∈ rs.flatMap (Run.values n), v < 2 ^ 32 := by
    clear N
    induction hs with
    | nil => simp
    | @cons r rs out stream h1 h2 ih =>
      intro v hvm
      rw [List.flatMap_cons, List.mem_append] at hvm
      rcases hvm with h | h
      · exact hv r out h1 v h
      · exact ih v h
  have hmap : ∀ l : List Nat, (∀ v ∈ l, v < 2 ^ 32) → (l.map (BitVec.ofNat 32)).map BitVec.toNat = l := by
    intro l hl
    rw [List.map_map]
    conv => rhs; rw [← List.map_id l]
    apply List.map_congr_left
    intro v hvm
    simp [Nat.mod_eq_of_lt (hl v hvm)]
  have hflat : rs.flatMap (runBV n) = (rs.flatMap (Run.values n)).map (BitVec.ofNat 32) := by
    rw [List.map_flatMap]; rfl
  have hnp : Runs.next ⟨stream, n⟩ ≠ .panic := by
    cases hs with
    | nil => simp [Runs.next]
    | @cons r rs out stream h1 h2 =>
      cases r with
      | rle c v =>
        obtain ⟨_, h, hh, rfl⟩ := h1
        rw [List.append_assoc, next_rle n c v hn h _ hh]; simp
      | packed g bs =>
        obtain ⟨hl, hlt, h, hh, rfl⟩ := h1
        by_cases hne : bs ++ stream = []
        · rw [List.append_assoc, hne, List.append_nil, next_packed_nil n g hn h hh]; simp
        · rw [List.append_assoc, next_packed n g hn h bs _ hh hne (by omega)]; simp
  have hst := expandAll_stream n hn hn32 rs stream [] hs N
  rw [List.append_nil] at hst
  refine ⟨(rs.flatMap (runBV n)).take N ++
    List.replicate (N - (rs.flatMap (runBV n)).length) 0#32, ?_, ?_⟩
  · rw [decode_eq n hn hn32, if_neg hnp]
    change expandAll n stream N = _
    rw [hst]
    simp only [expandAll, List.length_nil, expand_nil, Res.map']
  · rw [hflat, List.map_append, List.map_take, hmap _ hall, List.take_append, List.length_map,
      List.map_replicate, List.take_replicate]
    congr 2
    omega

-- an RLE run (3 × 5), a bit-packed group, an empty RLE run, and an RLE run of length 1
example : RunStream 3 [.rle 3 5, .packed 1 [0x88#8, 0xC6#8, 0xFA#8], .rle 0 1, .rle 1 2]
    ([6#8, 5#8] ++ ([3#8, 0x88#8, 0xC6#8, 0xFA#8] ++ ([0#8, 1#8] ++ ([0x82#8, 0#8, 2#8] ++ [])))) := by
  refine .cons ⟨by decide, [6#8], ⟨by decide, by decide, by decide, by decide⟩, by decide⟩
    (.cons ⟨by decide, by decide, [3#8], ⟨by decide, by decide, by decide, by decide⟩, rfl⟩
    (.cons ⟨by decide, [0#8], ⟨by decide, by decide, by decide, by decide⟩, by decide⟩
    (.cons ⟨by decide, [0x82#8, 0#8], ⟨by decide, by decide, by decide, by decide⟩, by decide⟩ .nil)))

/-- **C11** with enough values: exactly the first `N` values of the runs. -/
theorem C11_runs_enough (n : Nat) (hn : 0 < n) (hn32 : n ≤ 32) (rs : List Run) (stream : List Byte)
    (hs : RunStream n rs stream) (N : Nat) (hN : N ≤ (rs.flatMap (Run.values n)).length) :
    ∃ xs, decode stream n N = .ok xs ∧ xs.map BitVec.toNat = (rs.flatMap (Run.values n)).take N := by
  obtain ⟨xs, h1, h2⟩ := C11_runs n hn hn32 rs stream hs N
  exact ⟨xs, h1, by rw [h2, List.take_append_of_le_length hN]⟩

example : 5 ≤ ([Run.rle 3 5, .packed 1 [0x88#8, 0xC6#8, 0xFA#8]].flatMap (Run.values 3)).length := by
  decide

/-- **C12** bitmaps: writing booleans and iterating any window inside yields exactly those
booleans. -/
theorem C12_bitmap_window (bits : List Bool) (off len : Nat) (h : off + len ≤ bits.length) :
    ∃ it, Bitmap.Iter.new (Bitmap.encodeBool bits) off len = .ok it ∧
      it.collect = .ok ((bits.drop off).take len) := by
  have hl := Bitmap.encodeBool_length bits
  rw [ceil8_eq] at hl
  obtain ⟨it, h1, h2⟩ := Bitmap.collect_eq (Bitmap.encodeBool bits) off len (by omega)
  refine ⟨it, h1, ?_⟩
  rw [h2]
  congr 1
  apply List.ext_getElem
  · simp; omega
  · intro i h3 h4
    have hi : off + i < bits.length := by simp at h3; omega
    simp only [List.getElem_map, List.getElem_range, Bitmap.bitAt_encodeBool, List.getElem_take,
      List.getElem_drop, List.getD_eq_getElem?_getD, List.getElem?_eq_getElem hi, Option.getD_some]

example : 5 + 9 ≤ (List.replicate 20 true).length := by decide

/-- **C12** arbitrary bytes: any window inside a byte buffer is read bit by bit, least
significant bit first. -/
theorem C12_bitmap_bytes (bs : List Byte) (off len : Nat) (h : off + len ≤ 8 * bs.length) :
    ∃ it, Bitmap.Iter.new bs off len = .ok it ∧
      it.collect = .ok ((List.range len).map fun k => bitAt bs (off + k)) :=
  Bitmap.collect_eq bs off len h

example : 3 + 12 ≤ 8 * [0xA5#8, 0x0F#8].length := by decide

/-- **C12** exact remaining length: every `next` lowers the reported length by one, `None` iff
it is zero. -/
theorem C12_bitmap_remaining (it : Bitmap.Iter) :
    (it.next.1 = none ↔ it.remaining = 0) ∧ it.next.2.remaining = it.remaining - 1 := by
  unfold Bitmap.Iter.next
  by_cases h : it.remaining = 0
  · simp [h]
  · rw [if_neg h]
    simp only
    split
    · split <;> simp [h]
    · simp [h]

end Pq.Props
