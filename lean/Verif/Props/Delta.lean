import Verif.Lemmas.DeltaExact
import Verif.Lemmas.DeltaBytes
import Verif.Lemmas.Util
/-
Properties C13–C18 and C56 (delta encodings, plain byte arrays).
-/
namespace Pq.Props
open Pq.Spec

/-- **C13** DELTA_BINARY_PACKED round trip, for every list of `i64` (release arithmetic). The
length bound only says that the number of values is a `usize`. -/
theorem C13_delta_roundtrip (xs : List (BitVec 64)) (hl : xs.length < 2 ^ 64) :
    ∃ out, Delta.encode false xs = .ok out ∧
      (Delta.decode false out).map' Prod.fst = .ok xs := by
  obtain ⟨out, h1, h2⟩ := Delta.encode_stream xs hl
  refine ⟨out, h1, ?_⟩
  have := Delta.decode_stream _ _ _ out [] h2
  rw [List.append_nil] at this
  rw [this]; rfl

example : ∃ out, Delta.encode false [3, BitVec.ofInt 64 (-2 ^ 63), 0x7FFFFFFFFFFFFFFF] = .ok out ∧
    (Delta.decode false out).map' Prod.fst = .ok [3, BitVec.ofInt 64 (-2 ^ 63), 0x7FFFFFFFFFFFFFFF] :=
  C13_delta_roundtrip _ (by decide)

/-- **C13** the encoder writes the parquet layout: blocks of 128 values, one miniblock each. -/
theorem C13_delta_format (xs : List (BitVec 64)) (hl : xs.length < 2 ^ 64) :
    ∃ out, Delta.encode false xs = .ok out ∧ DeltaStream 128 1 xs out :=
  Delta.encode_stream xs hl

-- the unit tests of `delta_bitpacked/encoder.rs:84-124`
example : Delta.encode false [1, 2, 3, 4, 5] = .ok [128, 1, 1, 5, 2, 2, 0] := by decide +kernel
example : Delta.encode false [1, 2, 3, 4, 5, 1] =
    .ok ([128, 1, 1, 6, 2, 7, 3, 0b01101101, 0b00001011] ++ List.replicate 46 0) := by
  decide +kernel
-- the deltas overflow `i64`
example : Delta.decode false [128, 1, 1, 2, 255, 255, 255, 255, 255, 255, 255, 255, 255, 1, 1, 0] =
    .ok ([BitVec.ofNat 64 (2 ^ 63), BitVec.ofNat 64 (2 ^ 63 - 1)], 16) := by decide +kernel
-- hypotheses: two blocks, the second padded with stale deltas
example : ((List.range 140).map fun i => BitVec.ofNat 64 (i * i * i * 7919)).length < 2 ^ 64 := by
  simp

/-- **C14** after draining, `consumed_bytes()` is the length of the encoded stream, whatever
follows it. -/
theorem C14_consumed_bytes (xs : List (BitVec 64)) (hl : xs.length < 2 ^ 64) (suffix : List Byte) :
    ∃ out, Delta.encode false xs = .ok out ∧
      Delta.decode false (out ++ suffix) = .ok (xs, out.length) := by
  obtain ⟨out, h1, h2⟩ := Delta.encode_stream xs hl
  exact ⟨out, h1, Delta.decode_stream _ _ _ out suffix h2⟩

example : Delta.decode false ([128, 1, 1, 5, 2, 2, 0] ++ [9, 9, 9]) =
    .ok ([1, 2, 3, 4, 5], 7) := by decide +kernel

/-- **C13** and builds with overflow checks: they read back what was written, followed by anything, with
or without checks, exactly if they can write it; all other streams of the encoder abort their decoder. -/
theorem C13_checked (xs : List (BitVec 64)) (hl : xs.length < 2 ^ 64) :
    ∃ out, Delta.encode false xs = .ok out ∧
      (Delta.encode true xs = .ok out ∧ (∀ suffix, Delta.decode true (out ++ suffix) = .ok (xs, out.length)) ∨
       Delta.encode true xs = .panic ∧ (∀ suffix, Delta.decode true (out ++ suffix) = .panic)) := by
  obtain ⟨out, h1, h2⟩ := Delta.decode_encoded xs hl
  refine ⟨out, h1, ?_⟩
  obtain ⟨i1, i2⟩ := Delta.encode_iff xs
  by_cases h : Delta.BlocksTight xs.length (Delta.jumpsFrom (xs.headD 0#64) xs.tail)
  · exact .inl ⟨by rw [i1 h, h1], fun suffix => (h2 suffix).1 h⟩
  · exact .inr ⟨i2 h, fun suffix => (h2 suffix).2 h⟩

-- both cases occur
example : Delta.encode true [5, BitVec.ofInt 64 (-7), 1000] ≠ .panic ∧
    Delta.encode true [BitVec.ofInt 64 (-2), BitVec.ofNat 64 (2 ^ 63 - 1)] = .panic ∧
    (Delta.encode false [BitVec.ofInt 64 (-2), BitVec.ofNat 64 (2 ^ 63 - 1)] >>= Delta.decode true) = .panic := by
  decide +kernel

/-- **C56** the decoder reads every legal DELTA_BINARY_PACKED stream (any block size that is a
multiple of 128, any number of miniblocks whose size is a multiple of 8, any bit widths up to 64,
any legal varints, missing trailing miniblocks), and reports exactly its length as consumed. -/
theorem C56_delta_legal_streams (B M : Nat) (xs : List (BitVec 64)) (out suffix : List Byte)
    (h : DeltaStream B M xs out) :
    Delta.decode false (out ++ suffix) = .ok (xs, out.length) :=
  Delta.decode_stream B M xs out suffix h

-- a stream of another writer: 4 miniblocks of 32 values, two widths used, one miniblock present
-- (`delta_byte_array/decoder.rs:48`, written by Spark)
example : DeltaStream 128 4 [5, 5] [128, 1, 4, 2, 10, 0, 0, 0, 0, 0] := by
  refine ⟨[128, 1], [4], [2], [10], [0, 0, 0, 0, 0], 5, [0], 32, by decide, by decide, by decide,
    by decide, by decide, by decide, by decide, by decide, by decide, rfl, ?_, .inr (by decide)⟩
  have := DeltaBlocks.cons (M := 4) (v := 32) (r := 1) (minDelta := 0)
    (minis := [⟨0, []⟩]) (out := [0, 0, 0, 0, 0]) (rest := []) (ds := []) (by decide) (by decide)
    ⟨[0], [0, 0, 0, 0], by decide, rfl, by decide, by decide, by simp [MiniBlock.Ok], rfl⟩ .nil
  exact this

/-- **C56** in builds with overflow checks: the deltas of a legal stream of at least one value are sums of
the smallest delta of their block and a distance. If neither these sums nor those that give the values
leave the range of `i64`, the decoder reads the stream as in release builds; else it aborts. -/
theorem C56_checked (B M : Nat) (xs : List (BitVec 64)) (out : List Byte) (hx : xs ≠ [])
    (h : DeltaStream B M xs out) :
    ∃ header body first ps v, out = header ++ body ∧ B = M * v ∧ DeltaHeader B M xs.length first header ∧
      DeltaParts M v ps.length body ps ∧ xs = valuesOfParts first ps ∧
      ∀ suffix, Delta.decode true (out ++ suffix) =
        if NoOverflow first ps then .ok (xs, out.length) else .panic := by
  obtain ⟨h1, h2, h3, h4, body, first, ds, v, hM, hB, hBM, hv8, hv, i1, i2, i3, i4, rfl, hb, hxs⟩ := h
  obtain ⟨ps, p1, p2⟩ := Delta.deltaBlocks_parts hb
  have hpl := Delta.deltaParts_length p1 hv
  have hxl : 0 < xs.length := List.length_pos_iff.2 hx
  replace hxs : xs = prefixSums first ds := by
    rcases hxs with ⟨e, _⟩ | h
    · exact absurd e hx
    · exact h
  rw [← hpl] at p1
  have hh : DeltaHeader B M xs.length first (h1 ++ h2 ++ h3 ++ h4) := ⟨h1, h2, h3, h4, i1, i2, i3, i4, rfl⟩
  refine ⟨h1 ++ h2 ++ h3 ++ h4, body, first, ps, v, rfl, hBM, hh, p1, by rw [valuesOfParts, p2, hxs], ?_⟩
  intro suffix
  rw [show xs.length = ps.length + 1 by omega] at hh
  obtain ⟨d1, d2⟩ := Delta.decode_pairs B M v first ps _ body suffix hM hB hBM hv8 hv hh p1
  rw [valuesOfParts, p2, ← hxs] at d1
  split
  · exact d1 ‹_›
  · exact d2 ‹_›

-- `first = 2^63 - 1` and a delta of 1: legal, and read without checks only
example : DeltaStream 128 1 [0x7FFFFFFFFFFFFFFF, 0x8000000000000000]
    ([128, 1, 1, 2, 254, 255, 255, 255, 255, 255, 255, 255, 255, 1, 2, 0]) := by
  refine ⟨[128, 1], [1], [2], [254, 255, 255, 255, 255, 255, 255, 255, 255, 1], [2, 0], 0x7FFFFFFFFFFFFFFF, [1],
    128, by decide, by decide, by decide,
    by decide, by decide, by decide, by decide, by decide, by decide +kernel, rfl, ?_, .inr (by decide)⟩
  have := DeltaBlocks.cons (M := 1) (v := 128) (r := 1) (minDelta := 1)
    (minis := [⟨0, []⟩]) (out := [2, 0]) (rest := []) (ds := []) (by decide) (by decide)
    ⟨[2], [0], by decide, rfl, by decide, by decide, by simp [MiniBlock.Ok], rfl⟩ .nil
  exact this
example : Delta.decode true [128, 1, 1, 2, 254, 255, 255, 255, 255, 255, 255, 255, 255, 1, 2, 0] = .panic ∧
    Delta.decode false [128, 1, 1, 2, 254, 255, 255, 255, 255, 255, 255, 255, 255, 1, 2, 0] =
      .ok ([0x7FFFFFFFFFFFFFFF, 0x8000000000000000], 16) := by decide +kernel

/-- **C15** violated: with overflow checks, the encoder panics when the difference of two
neighbours overflows `i64` … -/
theorem C15_violated :
    Delta.encode true [BitVec.ofInt 64 (-2), BitVec.ofNat 64 (2 ^ 63 - 1)] = .panic := by
  decide +kernel

/-- … and when only the spread of the deltas does (each delta is representable). -/
theorem C15_violated_spread :
    Delta.encode true [0, BitVec.ofNat 64 (2 ^ 63 - 1), BitVec.ofInt 64 (-1)] = .panic := by
  decide +kernel

/-- **C15** what holds. Release builds: every list is accepted. Builds with overflow checks: every
list whose neighbours differ by less than 2^62 is accepted, with the same bytes. Missing for the
full claim: lists with larger jumps in builds with overflow checks (`C15_violated`). -/
theorem C15_no_abort_partial (xs : List (BitVec 64)) (hl : xs.length < 2 ^ 64) :
    ∃ out, Delta.encode false xs = .ok out ∧
      ((∀ p ∈ xs.zip xs.tail, -2 ^ 62 ≤ p.2.toInt - p.1.toInt ∧ p.2.toInt - p.1.toInt < 2 ^ 62) →
        Delta.encode true xs = .ok out) := by
  obtain ⟨out, h1, h2⟩ := Delta.encode_stream xs hl
  clear h2
  refine ⟨out, h1, ?_⟩
  intro h
  rw [Delta.encode_checked, h1]
  cases xs with
  | nil => trivial
  | cons x xs =>
    clear hl h1
    simp only [List.headD_cons, List.tail_cons] at h ⊢
    induction xs generalizing x with
    | nil => trivial
    | cons y ys ih =>
      have := ih y (fun p hp => h p (by rw [List.zip_cons_cons]; exact List.mem_cons_of_mem _ hp))
      exact ⟨h (x, y) (by simp), this⟩

example : ∀ p ∈ ([5, 100, BitVec.ofInt 64 (-7)] : List (BitVec 64)).zip [100, BitVec.ofInt 64 (-7)],
    -2 ^ 62 ≤ p.2.toInt - p.1.toInt ∧ p.2.toInt - p.1.toInt < 2 ^ 62 :=
  forall_mem_of_all _ (by decide +kernel)

/-- **C15** which lists abort the encoder in builds with overflow checks, exactly: those with a difference
of neighbours that is no `i64`, or with two differences of the same block of 128 that are 2^63 or more
apart. For all others the bytes are those of release builds. -/
theorem C15_exact (xs : List (BitVec 64)) (hl : xs.length < 2 ^ 64) (jumps : List Int)
    (hj : jumps = (xs.zip xs.tail).map fun p => p.2.toInt - p.1.toInt) :
    (Delta.encode true xs = .panic ↔
      ∃ (i j : Nat) (hi : i < jumps.length) (hj : j < jumps.length), i / 128 = j / 128 ∧
        (jumps[i] < -2 ^ 63 ∨ 2 ^ 63 ≤ jumps[i] ∨ 2 ^ 63 ≤ jumps[i] - jumps[j])) ∧
    (Delta.encode true xs ≠ .panic → ∃ out, Delta.encode true xs = .ok out ∧ Delta.encode false xs = .ok out) := by
  obtain ⟨out, h1, -⟩ := Delta.encode_stream xs hl
  obtain ⟨i1, i2⟩ := Delta.encode_iff xs
  have e : Delta.jumpsFrom (xs.headD 0#64) xs.tail = jumps := by
    rw [hj]
    cases xs with
    | nil => rfl
    | cons x xs => exact Delta.jumpsFrom_zip x xs
  rw [e] at i1 i2
  have hlen : jumps.length ≤ xs.length := by
    rw [hj, List.length_map, List.length_zip, List.length_tail]
    omega
  rw [Delta.blocksTight_iff _ _ hlen] at i1 i2
  by_cases h : ∀ i j (hi : i < jumps.length) (hj : j < jumps.length), i / 128 = j / 128 →
      (-2 ^ 63 ≤ jumps[i] ∧ jumps[i] < 2 ^ 63) ∧ jumps[i] - jumps[j] < 2 ^ 63
  · rw [i1 h, h1]
    refine ⟨⟨fun h' => by simp at h', ?_⟩, fun _ => ⟨out, rfl, rfl⟩⟩
    rintro ⟨i, j, hi, hj, hij, h'⟩
    have := h i j hi hj hij
    omega
  · rw [i2 h]
    refine ⟨⟨fun _ => ?_, fun _ => rfl⟩, fun h' => absurd rfl h'⟩
    refine Classical.byContradiction fun hn => h fun i j hi hj hij => ?_
    refine Classical.byContradiction fun hc => hn ⟨i, j, hi, hj, hij, by omega⟩

-- far from each other, but in different blocks: the encoder does not abort
example : (([0, BitVec.ofNat 64 (2 ^ 63 - 1)] ++ List.replicate 127 (BitVec.ofNat 64 (2 ^ 63 - 1)) ++
    [BitVec.ofInt 64 (-1)] : List (BitVec 64)).length < 2 ^ 64) ∧
    Delta.encode true ([0, BitVec.ofNat 64 (2 ^ 63 - 1)] ++ List.replicate 127 (BitVec.ofNat 64 (2 ^ 63 - 1)) ++
      [BitVec.ofInt 64 (-1)]) ≠ .panic := by
  decide +kernel

/-- **C16** DELTA_LENGTH_BYTE_ARRAY round trip: decoding gives the lengths of the strings, and
cutting the returned bytes at these lengths gives the strings back, whatever follows, with overflow
checks (`ck`) or without. -/
theorem C16_delta_length_roundtrip (items : List (List Byte)) (hn : items.length < 2 ^ 64)
    (ht : items.flatten.length < 2 ^ 32) (suffix : List Byte) :
    ∃ out lengths bytes, (∀ ck, DeltaLength.encode ck items = .ok out) ∧
      (∀ ck, DeltaLength.decode ck (out ++ suffix) = .ok (lengths, bytes)) ∧
      lengths.map BitVec.toNat = items.map List.length ∧ bytes = items.flatten ∧
      cut (lengths.map BitVec.toNat) bytes = items := by
  obtain ⟨out, lengths, h1, h4, h3⟩ := DeltaLength.decode_encode_all items hn ht
  refine ⟨out, lengths, _, h1, fun ck => h3 ck suffix, h4, rfl, ?_⟩
  rw [h4]
  simpa using cut_flatten items []

example : ([[1, 2, 3], [], [7]] : List (List Byte)).length < 2 ^ 64 ∧
    ([[1, 2, 3], [], [7]] : List (List Byte)).flatten.length < 2 ^ 32 := by decide

/-- **C16** when every string is shorter than 2^31, the returned `i32` lengths are the
(non-negative) lengths. -/
theorem C16_lengths_nonneg (lengths : List (BitVec 32)) (items : List (List Byte))
    (h : lengths.map BitVec.toNat = items.map List.length)
    (hs : ∀ s ∈ items, s.length < 2 ^ 31) :
    lengths.map BitVec.toInt = items.map fun s => (s.length : Int) := by
  induction lengths generalizing items with
  | nil => cases items <;> simp_all
  | cons l ls ih =>
    cases items with
    | nil => simp at h
    | cons s ss =>
      simp only [List.map_cons, List.cons.injEq] at h ⊢
      refine ⟨?_, ih ss h.2 (fun x hx => hs x (List.mem_cons_of_mem _ hx))⟩
      have := hs s (List.mem_cons_self ..)
      rw [BitVec.toInt_eq_toNat_cond, if_pos (by omega), h.1]

example : ([[1, 2, 3], [], [7]] : List (List Byte)).length < 2 ^ 64 ∧
    ([[1, 2, 3], [], [7]] : List (List Byte)).flatten.length < 2 ^ 32 := by decide
example : ∃ (ls : List (BitVec 32)), ls.map BitVec.toNat = ([[1, 2], []] : List (List Byte)).map List.length ∧
    ∀ s ∈ ([[1, 2], []] : List (List Byte)), s.length < 2 ^ 31 :=
  ⟨[2, 0], by decide, forall_mem_of_all _ (by decide +kernel)⟩
-- the documentation example (`delta_length_byte_array/decoder.rs:11-30`)
example : DeltaLength.decode false
    [128, 1, 4, 2, 10, 0, 0, 0, 0, 0, 72, 101, 108, 108, 111, 87, 111, 114, 108, 100] =
    .ok ([5, 5], [72, 101, 108, 108, 111, 87, 111, 114, 108, 100]) := by decide +kernel

/-- **C17** violated: a string that is a proper prefix of its predecessor makes the encoder
panic, in every build profile and whatever the other strings are … -/
theorem C17_violated (ck : Bool) (items : List (List Byte)) (h : Shrinks [] items)
    (hn : items.length < 2 ^ 64) : DeltaByteArray.encode ck items = .panic := by
  unfold DeltaByteArray.encode
  cases ck with
  | true => rw [DeltaByteArray.prefixes_panic _ _ h]; rfl
  | false =>
    rw [DeltaByteArray.prefixes_eq]
    simp only [Res.ok_bind]
    obtain ⟨o, h1, _⟩ := Delta.encode_stream
      ((DeltaByteArray.prefixOf [] items).map (BitVec.ofNat 64))
      (by rw [List.length_map, DeltaByteArray.prefixOf_length]; exact hn)
    rw [h1]
    simp only [Res.ok_bind]
    rw [DeltaByteArray.suffixes_panic _ _ h]; rfl

/-- … e.g. `["Hello", "Hell"]`. -/
example : Shrinks [] [[72, 101, 108, 108, 111], [72, 101, 108, 108]] :=
  .inr (.inl ⟨⟨[111], rfl⟩, by decide⟩)
example : DeltaByteArray.encode false [[72, 101, 108, 108, 111], [72, 101, 108, 108]] = .panic := by
  decide +kernel

/-- **C17** what holds: when no string is a proper prefix of its predecessor, decoding returns
prefix lengths, suffix lengths and bytes from which a reader rebuilds exactly the strings, with overflow
checks (`ck`) or without.
Missing for the full claim: sequences with a shrinking neighbour (`C17_violated`). -/
theorem C17_delta_byte_array_partial (items : List (List Byte)) (h : ¬ Shrinks [] items)
    (hn : items.length < 2 ^ 64) (ht : items.flatten.length < 2 ^ 32) (suffix : List Byte) :
    ∃ out ps ls bytes, (∀ ck, DeltaByteArray.encode ck items = .ok out) ∧
      (∀ ck, DeltaByteArray.decode ck (out ++ suffix) = .ok (ps, ls, bytes)) ∧
      rebuild [] (ps.map BitVec.toNat) (ls.map BitVec.toNat) bytes = items := by
  have hpl : (DeltaByteArray.prefixOf [] items).length = items.length :=
    DeltaByteArray.prefixOf_length _ _
  have hB := DeltaByteArray.prefixOf_lt (2 ^ 32) [] items (by decide) (by
    intro x hx
    have := length_le_flatten items x hx
    omega)
  obtain ⟨o, h1, h2⟩ := Delta.decode_encode_small
    ((DeltaByteArray.prefixOf [] items).map (BitVec.ofNat 64))
    (by rw [List.length_map, hpl]; exact hn)
    (by
      intro x hx
      obtain ⟨p, hp, rfl⟩ := List.mem_map.1 hx
      have := hB p hp
      rw [BitVec.toNat_ofNat]
      omega)
  obtain ⟨o2, ls, h3, h6, h5⟩ := DeltaLength.decode_encode_all (DeltaByteArray.suffixOf [] items)
    (by rw [DeltaByteArray.suffixOf_length]; exact hn)
    (Nat.lt_of_le_of_lt (DeltaByteArray.suffixOf_flatten_le _ _) ht)
  refine ⟨o ++ o2, ((DeltaByteArray.prefixOf [] items).map (BitVec.ofNat 64)).map
    (BitVec.setWidth 32), ls, (DeltaByteArray.suffixOf [] items).flatten, ?_, ?_, ?_⟩
  · intro ck
    have hp : DeltaByteArray.prefixes ck [] items = .ok (DeltaByteArray.prefixOf [] items) := by
      cases ck with
      | true => exact DeltaByteArray.prefixes_checked _ _ h
      | false => exact DeltaByteArray.prefixes_eq _ _
    rw [DeltaByteArray.encode, hp]
    simp only [Res.ok_bind, h1]
    rw [DeltaByteArray.suffixes_eq _ _ h]
    simp only [Res.ok_bind, h3, Res.pure_eq]
  · intro ck
    obtain ⟨d, d', p1, p2, p3⟩ := Delta.decode_parts _ _ _ _ (h2 ck (o2 ++ suffix))
    have p4 := Delta.drain_remaining _ _ _ _ _ p2
    unfold DeltaByteArray.decode
    rw [List.append_assoc, p1]
    simp only [Res.ok_bind, p2, p4]
    have ha : Res.assert ((0 : Nat) == 0) = .ok () := rfl
    rw [ha]
    simp only [Res.ok_bind, p3]
    have hs : slice (o ++ (o2 ++ suffix)) o.length (o ++ (o2 ++ suffix)).length =
        .ok (o2 ++ suffix) := by
      rw [slice, if_pos (by simp only [List.length_append]; omega), List.drop_left,
        List.take_of_length_le (by simp only [List.length_append]; omega)]
    rw [hs]
    simp only [Res.ok_bind, h5, Res.pure_eq]
  · have e : (((DeltaByteArray.prefixOf [] items).map (BitVec.ofNat 64)).map
        (BitVec.setWidth 32)).map BitVec.toNat = DeltaByteArray.prefixOf [] items := by
      rw [List.map_map, List.map_map]
      conv => rhs; rw [← List.map_id (DeltaByteArray.prefixOf [] items)]
      apply List.map_congr_left
      intro p hp
      have := hB p hp
      simp only [Function.comp_apply, BitVec.toNat_setWidth, BitVec.toNat_ofNat, id]
      omega
    rw [e, h6]
    exact DeltaByteArray.rebuild_eq [] items h

example : ¬ Shrinks [] [[72, 101, 108, 108, 111], [72, 101, 108, 105], [72, 101, 108, 105, 9]] := by
  simp [Shrinks, ProperPrefix]
example : DeltaByteArray.encode false [[72, 101], [72, 101, 7], [72, 9]] >>=
    DeltaByteArray.decode false = .ok ([0, 2, 1], [2, 1, 1], [72, 101, 7, 9]) := by decide +kernel

/-- **C18** a PLAIN byte-array page of any strings (each shorter than 2^32) iterates as these
strings; fewer than four stray bytes at the end are ignored. -/
theorem C18_plain_roundtrip (items : List (List Byte)) (h : ∀ s ∈ items, s.length < 2 ^ 32)
    (length : Option Nat) (stray : List Byte) (hs : stray.length < 4) (fuel : Nat)
    (hf : (plainBytes items).length < fuel) :
    (PlainBytes.BinaryIter.mk (plainBytes items ++ stray) length).items fuel =
      some (items.map Except.ok) :=
  PlainBytes.items_plain items h fuel hf length stray hs

example : (∀ s ∈ ([[1, 2], [], [3]] : List (List Byte)), s.length < 2 ^ 32) ∧ ([7, 7] : List Byte).length < 4 ∧
    (plainBytes [[1, 2], [], [3]]).length < 16 := by decide

/-- **C18** the announced size is exact at every step: an iterator over the strings `items`,
created with their number, announces that number; its next item is the first string, after which
it is the iterator over the others, created with their number; without strings there is no item. -/
theorem C18_size_hint (items : List (List Byte)) (h : ∀ s ∈ items, s.length < 2 ^ 32)
    (stray : List Byte) (hs : stray.length < 4) :
    let it := PlainBytes.BinaryIter.mk (plainBytes items ++ stray) (some items.length)
    it.sizeHint = (items.length, some items.length) ∧
    it.next = (match items with
      | [] => none
      | s :: rest => some (.ok s, ⟨plainBytes rest ++ stray, some rest.length⟩)) := by
  refine ⟨rfl, ?_⟩
  cases items with
  | nil => exact if_pos (by simpa [plainBytes] using hs)
  | cons s items =>
    have h4 : (leBytes 4 s.length).length = 4 := by simp [leBytes]
    have e : plainBytes (s :: items) ++ stray =
        leBytes 4 s.length ++ (s ++ (plainBytes items ++ stray)) := by
      simp [plainBytes]
    have hn : leNat (leBytes 4 s.length) = s.length := by
      rw [Rle.leNat_leBytes]
      exact Nat.mod_eq_of_lt (h s (List.mem_cons_self ..))
    rw [PlainBytes.BinaryIter.next]
    simp only [e]
    rw [if_neg (by simp only [List.length_append, h4]; omega)]
    rw [List.take_append_of_le_length (by omega), List.take_of_length_le (by omega), hn,
      List.drop_append, h4, List.drop_eq_nil_of_le (by omega), List.nil_append,
      show 4 - 4 = 0 from rfl, List.drop_zero, if_neg (by simp)]
    simp

example : (∀ s ∈ ([[1, 2], [], [3]] : List (List Byte)), s.length < 2 ^ 32) ∧ ([7, 7] : List Byte).length < 4 :=
  by decide

/-- **C18** arbitrary bytes: iteration ends (after at most `len/4` items) and every string it
yields is a slice of the buffer. -/
theorem C18_plain_arbitrary (values : List Byte) (length : Option Nat) :
    ∃ xs, (PlainBytes.BinaryIter.mk values length).items (values.length + 1) = some xs ∧
      4 * xs.length ≤ values.length ∧ ∀ s, Except.ok s ∈ xs → s <:+: values :=
  PlainBytes.items_total _ _ (Nat.lt_succ_self _)

example : (∀ s ∈ ([[1, 2], [], [3]] : List (List Byte)), s.length < 2 ^ 32) ∧
    (plainBytes [[1, 2], [], [3]]).length < 20 ∧ ([0, 0] : List Byte).length < 4 :=
  ⟨forall_mem_of_all _ (by decide +kernel), by decide, by decide⟩
-- a corrupt length: an error item, then iteration goes on after the 4 bytes
example : (PlainBytes.BinaryIter.mk [9, 0, 0, 0, 1, 0, 0, 0, 7] none).items 10 =
    some [.error .oos, .ok [7]] := rfl

end Pq.Props
