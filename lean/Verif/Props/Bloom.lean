import Verif.Lemmas.Bloom
/-
C25, C26, C57: the split-block bloom filter. The hypotheses `32 ≤ length` and `length / 32 ≤ 2^32`
(128 GiB) delimit the legal filters; the length need not be a multiple of 32.
-/
namespace Pq.Props
open Spec Bloom

/-- **C25**: after any insertions into any filter, every inserted hash is reported as present; no
insertion or query aborts, in either build profile. -/
theorem C25_no_false_negatives (ck : Bool) (bitset : List Byte) (hashes : List (BitVec 64))
    (h0 : 32 ≤ bitset.length) (h1 : bitset.length / 32 ≤ 2 ^ 32) :
    ∃ out, insertAll ck bitset hashes = .ok out ∧ out.length = bitset.length ∧
      ∀ h ∈ hashes, isInSet ck out h = .ok true := by
  obtain ⟨out, e, l, b⟩ := insertAll_spec ck hashes bitset h0 h1
  refine ⟨out, e, l, ?_⟩
  intro h hm
  obtain ⟨r, er, hr⟩ := isInSet_spec ck out h (by omega) (by rw [l]; exact h1)
  have : r = true := hr.2 fun p hp => (b p).2 (Or.inr ⟨h, hm, by rw [l] at hp; exact hp⟩)
  rw [er, this]

example : 32 ≤ (List.replicate 64 0#8).length ∧ (List.replicate 64 0#8).length / 32 ≤ 2 ^ 32 := by
  decide
example : (insert true (List.replicate 64 0#8) 0xdeadbeefcafe1234#64 >>= fun o =>
    isInSet true o 0xdeadbeefcafe1234#64) = .ok true ∧
    isInSet true (List.replicate 64 0#8) 0xdeadbeefcafe1234#64 = .ok false := by decide +kernel

/-- **C26** (exact content): the bits of the filter are the initial bits and the eight bits the
parquet format prescribes for every inserted hash, nothing else. -/
theorem C26_bits (ck : Bool) (bitset : List Byte) (hashes : List (BitVec 64))
    (h0 : 32 ≤ bitset.length) (h1 : bitset.length / 32 ≤ 2 ^ 32) :
    ∃ out, insertAll ck bitset hashes = .ok out ∧ out.length = bitset.length ∧
      ∀ p, bitAt out p = true ↔
        bitAt bitset p = true ∨ ∃ h ∈ hashes, BloomPos bitset.length h.toNat p :=
  insertAll_spec ck hashes bitset h0 h1

example : 32 ≤ (List.replicate 64 0#8).length ∧ (List.replicate 64 0#8).length / 32 ≤ 2 ^ 32 ∧
    (insertAll true (List.replicate 64 0#8) [0xdeadbeefcafe1234#64, 7#64]).map'
      (fun out => (List.range 512).countP (bitAt out)) = .ok 16 := by decide +kernel

/-- **C26** (exact answer): a hash is reported as present iff all its eight bits are set. -/
theorem C26_query (ck : Bool) (bitset : List Byte) (hash : BitVec 64)
    (h0 : 32 ≤ bitset.length) (h1 : bitset.length / 32 ≤ 2 ^ 32) :
    ∃ r, isInSet ck bitset hash = .ok r ∧
      (r = true ↔ ∀ p, BloomPos bitset.length hash.toNat p → bitAt bitset p = true) :=
  isInSet_spec ck bitset hash h0 h1

example : isInSet false (List.replicate 32 0xFF#8) 5#64 = .ok true ∧ 32 ≤ (List.replicate 32 0xFF#8).length ∧
    (List.replicate 32 0xFF#8).length / 32 ≤ 2 ^ 32 := by decide +kernel

/-- **C26** (order and repetition): two sequences with the same set of hashes give the same
filter. -/
theorem C26_order_irrelevant (ck : Bool) (bitset : List Byte) (hs hs' : List (BitVec 64))
    (h0 : 32 ≤ bitset.length) (h1 : bitset.length / 32 ≤ 2 ^ 32) (hset : ∀ h, h ∈ hs ↔ h ∈ hs') :
    insertAll ck bitset hs = insertAll ck bitset hs' := by
  obtain ⟨o, e, l, b⟩ := insertAll_spec ck hs bitset h0 h1
  obtain ⟨o', e', l', b'⟩ := insertAll_spec ck hs' bitset h0 h1
  rw [e, e', bits_ext o o' (by omega)]
  intro p
  rw [b, b']
  simp only [hset]

example : ∀ h : BitVec 64, h ∈ [1#64, 2#64, 1#64] ↔ h ∈ [2#64, 1#64] := by
  intro h; simp; tauto

/-- **C26** (monotone, one block): an insertion keeps the length and all set bits, and leaves every
byte outside of one 32-byte block unchanged. -/
theorem C26_one_block (ck : Bool) (bitset : List Byte) (hash : BitVec 64)
    (h0 : 32 ≤ bitset.length) (h1 : bitset.length / 32 ≤ 2 ^ 32) :
    ∃ out block, insert ck bitset hash = .ok out ∧ out.length = bitset.length ∧
      32 * block + 32 ≤ bitset.length ∧
      (∀ p, bitAt bitset p = true → bitAt out p = true) ∧
      ∀ k, k < 32 * block ∨ 32 * block + 32 ≤ k → out[k]? = bitset[k]? := by
  obtain ⟨out, e, l, b⟩ := insert_spec ck bitset hash h0 h1
  have hlt := (blockIndex_eq ck hash bitset.length h1).2 (by omega)
  refine ⟨out, bloomBlock hash.toNat (bitset.length / 32), e, l, by omega,
    fun p hp => (b p).2 (Or.inl hp), ?_⟩
  intro k hk
  by_cases hkl : k < bitset.length
  · rw [List.getElem?_eq_getElem hkl, List.getElem?_eq_getElem (by omega)]
    congr 1
    apply BitVec.eq_of_getLsbD_eq
    intro j hj
    have key : bitAt out (8 * k + j) = bitAt bitset (8 * k + j) := by
      apply Bool.eq_iff_iff.2
      rw [b]
      constructor
      · rintro (h | ⟨i, hi, h⟩)
        · exact h
        · have := bloomBit_lt hash.toNat i
          omega
      · exact Or.inl
    unfold bitAt at key
    have e1 : (8 * k + j) / 8 = k := by omega
    have e2 : (8 * k + j) % 8 = j := by omega
    rw [e1, e2] at key
    simpa [List.getD_eq_getElem?_getD, List.getElem?_eq_getElem hkl,
      List.getElem?_eq_getElem (show k < out.length by omega)] using key
  · rw [List.getElem?_eq_none (by omega), List.getElem?_eq_none (by omega)]

example : ∃ out block, insert true (List.replicate 96 0#8) 0x80000000deadbeef#64 = .ok out ∧ block ≤ 2 ∧
    ∀ k, k < 32 * block ∨ 32 * block + 32 ≤ k → out[k]? = (List.replicate 96 0#8)[k]? := by
  obtain ⟨out, block, h, -, hb, -, hk⟩ :=
    C26_one_block true (List.replicate 96 0#8) 0x80000000deadbeef#64 (by decide) (by decide)
  refine ⟨out, block, h, ?_, hk⟩
  rw [List.length_replicate] at hb
  omega

/-- A toy codec of headers: one byte for the flags, four for the length. -/
def toySer (h : Header) : List Byte :=
  (if h.algorithmIsBlock then 1#8 else 0#8) :: (if h.compressionIsUncompressed then 1#8 else 0#8)
    :: toLe 4 h.numBytes

/-- The deserializer of the toy codec. -/
def toyParse : List Byte → Res (Header × List Byte)
  | a :: b :: rest => .ok (⟨fromLe 32 (rest.take 4), a == 1#8, b == 1#8⟩, rest.drop 4)
  | _ => .err .oos

theorem toyParse_toySer (h : Header) (rest : List Byte) : toyParse (toySer h ++ rest) = .ok (h, rest) := by
  obtain ⟨n, a, b⟩ := h
  have e1 : (toLe 4 n ++ rest).take 4 = toLe 4 n := by
    simpa using List.take_left' (l₂ := rest) (toLe_length 4 n)
  have e2 : (toLe 4 n ++ rest).drop 4 = rest := by
    simpa using List.drop_left' (l₂ := rest) (toLe_length 4 n)
  have e3 : fromLe 32 (toLe 4 n) = n := fromLe_toLe 4 n
  cases a <;> cases b <;> simp [toySer, toyParse, e1, e2, e3]

/-- **C57**: reading the filter of a column. Given a deserializer of headers that reads back what is
written, a header followed by the filter at the recorded offset gives exactly the filter. -/
theorem C57_read (parse : List Byte → Res (Header × List Byte)) (ser : Header → List Byte)
    (hrt : ∀ h rest, parse (ser h ++ rest) = .ok (h, rest))
    (pre bits post : List Byte) (offset : I64) (numBytes : I32)
    (ho : offset.toNat = pre.length) (hn : numBytes.toInt = bits.length) :
    readFilter parse (some offset) (pre ++ ser ⟨numBytes, true, true⟩ ++ bits ++ post) = .ok bits := by
  unfold readFilter
  have : (pre ++ ser ⟨numBytes, true, true⟩ ++ bits ++ post).drop offset.toNat
      = ser ⟨numBytes, true, true⟩ ++ (bits ++ post) := by
    rw [ho, List.append_assoc, List.append_assoc, List.drop_left]
  simp only [this, hrt, Res.ok_bind]
  simp [toUsize, hn]

example : readFilter toyParse (some 2#64) ([7#8, 7#8] ++ toySer ⟨3#32, true, true⟩ ++ [1#8, 2#8, 3#8] ++ [9#8])
    = .ok [1#8, 2#8, 3#8] :=
  C57_read toyParse toySer toyParse_toySer [7#8, 7#8] [1#8, 2#8, 3#8] [9#8] 2#64 3#32 rfl rfl

/-- **C57**: no filter, or one with an unsupported algorithm or compression, reads as empty; a
negative size is an error; nothing panics if the deserializer does not. -/
theorem C57_read_other (parse : List Byte → Res (Header × List Byte)) (file : List Byte) :
    readFilter parse none file = .ok [] ∧
    ∀ offset : I64,
      (∀ h rest, parse (file.drop offset.toNat) = .ok (h, rest) →
        (h.algorithmIsBlock && h.compressionIsUncompressed) = false →
          readFilter parse (some offset) file = .ok []) ∧
      (∀ h rest, parse (file.drop offset.toNat) = .ok (h, rest) →
        (h.algorithmIsBlock && h.compressionIsUncompressed) = true → h.numBytes.toInt < 0 →
          readFilter parse (some offset) file = .err .oos) ∧
      (parse (file.drop offset.toNat) ≠ .panic → readFilter parse (some offset) file ≠ .panic) := by
  refine ⟨rfl, fun offset => ⟨?_, ?_, ?_⟩⟩
  · intro h rest hp hf
    simp only [readFilter, hp, Res.ok_bind]
    cases h1 : h.algorithmIsBlock <;> cases h2 : h.compressionIsUncompressed <;> simp_all
  · intro h rest hp hf hneg
    simp only [Bool.and_eq_true] at hf
    simp [readFilter, hp, hf.1, hf.2, toUsize, show ¬ (0 ≤ h.numBytes.toInt) by omega]
  · intro hne
    simp only [readFilter]
    cases hp : parse (file.drop offset.toNat) with
    | panic => exact absurd hp hne
    | err e => simp
    | ok a =>
      simp only [Res.ok_bind]
      split
      · simp
      · split
        · simp
        · unfold toUsize; split <;> simp

example : readFilter toyParse (some 2#64) ([7#8, 7#8] ++ toySer ⟨3#32, true, true⟩ ++ [1#8, 2#8, 3#8] ++ [9#8])
    = .ok [1#8, 2#8, 3#8] := by decide +kernel

/-- **C57 is violated** in two ways: a file that ends early gives a shorter filter without an error
(the header says 32 bytes, 3 are there), and querying the empty filter `read` returns for a column
without a filter panics, as does any filter shorter than a block. -/
theorem C57_violated :
    readFilter toyParse (some 0#64) (toySer ⟨32#32, true, true⟩ ++ [1#8, 2#8, 3#8]) = .ok [1#8, 2#8, 3#8] ∧
    (∀ ck hash, isInSet ck [] hash = .panic ∧ isInSet ck [1#8, 2#8, 3#8] hash = .panic) := by
  refine ⟨by decide +kernel, ?_⟩
  intro ck hash
  have hz : ∀ len, len / 32 = 0 → hashToBlockIndex ck hash len = .ok 0 := by
    intro len h
    have := (blockIndex_eq ck hash len (by omega)).1
    rw [this, h]; simp [bloomBlock]
  constructor
  · unfold isInSet; rw [hz _ (by decide)]; simp [slice]
  · unfold isInSet; rw [hz _ (by decide)]; simp [slice]

end Pq.Props
