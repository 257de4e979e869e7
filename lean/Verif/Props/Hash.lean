import Verif.Lemmas.Hash
import Verif.Props.Bloom
/-
C78: bloom filters of the values of a column. Values are hashed by `hash_native` and `hash_byte`
(xxHash64 with seed 0); `Spec.leBytes` gives the bytes the parquet format hashes for a number.
-/
namespace Pq.Props
open Spec Bloom

/-- **C78** (no value is lost): whatever byte strings are inserted, through whatever sequence, the query
for each of them answers "present", and so does the query for a number of `b` bytes whose bytes were
inserted — `hash_native` and `hash_byte` of the same bytes agree, so that a filter built from the encoded
values may be asked for the decoded ones. -/
theorem C78_values_found (ck : Bool) (bitset : List Byte) (values : List (List Byte))
    (h0 : 32 ≤ bitset.length) (h1 : bitset.length / 32 ≤ 2 ^ 32) :
    ∃ out, insertAll ck bitset (values.map hashByte) = .ok out ∧ out.length = bitset.length ∧
      (∀ v ∈ values, isInSet ck out (hashByte v) = .ok true) ∧
      (∀ (b : Nat) (x : BitVec (8 * b)), leBytes b x.toNat ∈ values →
        isInSet ck out (hashNative b x) = .ok true) ∧
      (∀ x : Int96, leBytes 4 x.w0.toNat ++ leBytes 4 x.w1.toNat ++ leBytes 4 x.w2.toNat ∈ values →
        isInSet ck out (hashInt96 x) = .ok true) := by
  obtain ⟨out, e, l, q⟩ := C25_no_false_negatives ck bitset (values.map hashByte) h0 h1
  refine ⟨out, e, l, fun v hv => q _ (List.mem_map_of_mem hv), ?_, ?_⟩
  · intro b x hx
    rw [← toLe_eq_leBytes] at hx
    exact q _ (List.mem_map_of_mem (f := hashByte) hx)
  · intro x hx
    have e4 : ∀ w : BitVec 32, leBytes 4 w.toNat = toLe 4 w := fun w => (toLe_eq_leBytes 4 w).symm
    rw [e4, e4, e4] at hx
    exact q _ (List.mem_map_of_mem (f := hashByte) hx)

example : 32 ≤ (List.replicate 32 0#8).length ∧ (List.replicate 32 0#8).length / 32 ≤ 2 ^ 32 ∧
    leBytes 8 (42#64).toNat ∈ [[1#8], [42#8, 0#8, 0#8, 0#8, 0#8, 0#8, 0#8, 0#8]] := by decide

/-- **C78** (of a file): a filter that was built from the values of a column and stands in the file where
its metadata say, is read, and a value that it denies is not among the values. -/
theorem C78_column (parse : List Byte → Res (Header × List Byte)) (ser : Header → List Byte)
    (hrt : ∀ h rest, parse (ser h ++ rest) = .ok (h, rest)) (ck ck' : Bool)
    (pre bits post : List Byte) (offset : I64) (numBytes : I32) (values : List (List Byte))
    (ho : offset.toNat = pre.length) (hn : numBytes.toInt = bits.length) (h0 : 32 ≤ bits.length)
    (h1 : bits.length / 32 ≤ 2 ^ 32)
    (hb : insertAll ck (List.replicate bits.length 0#8) (values.map hashByte) = .ok bits) (v : List Byte)
    (hv : (readFilter parse (some offset) (pre ++ ser ⟨numBytes, true, true⟩ ++ bits ++ post) >>=
      fun filter => isInSet ck' filter (hashByte v)) = .ok false) : v ∉ values := by
  rw [C57_read parse ser hrt pre bits post offset numBytes ho hn, Res.ok_bind] at hv
  intro hm
  obtain ⟨out, e, l, b⟩ := C26_bits ck (List.replicate bits.length 0#8) (values.map hashByte)
    (by simpa using h0) (by simpa using h1)
  rw [hb] at e
  cases e
  obtain ⟨r, er, hr⟩ := C26_query ck' bits (hashByte v) h0 h1
  have : r = true := hr.2 fun p hp =>
    (b p).2 (Or.inr ⟨_, List.mem_map_of_mem hm, by rw [List.length_replicate]; exact hp⟩)
  rw [er, this] at hv
  cases hv

/-- A filter of two strings behind a header, in a file, for the example of `C78_column`. -/
def hashedFilter : List Byte :=
  [200, 1, 80, 20, 64, 68, 8, 109, 6, 37, 4, 67, 144, 80, 96, 32, 8, 132, 43, 33, 0, 5,
            99, 65, 2, 0, 224, 44, 64, 78, 96, 4]

example : insertAll true (List.replicate hashedFilter.length 0#8)
      (((List.range 10).map fun i => [97#8, BitVec.ofNat 8 (48 + i)]).map hashByte) = .ok hashedFilter ∧
    (readFilter toyParse (some 1#64) ([9#8] ++ toySer ⟨32#32, true, true⟩ ++ hashedFilter ++ [7#8]) >>=
      fun filter => isInSet false filter (hashByte [98#8, 48#8])) = .ok false ∧
    (1#64 : I64).toNat = [9#8].length ∧ (32#32 : I32).toInt = hashedFilter.length := by decide +kernel

/-- **C78** (numbers of one width never share a hash): two different numbers of 64 bits (`i64`, `f64`), or
of 32 bits (`i32`, `f32`), have different hashes. False positives for these columns come from the filter
alone, never from the hash. -/
theorem C78_distinct :
    (∀ x y : BitVec (8 * 8), hashNative 8 x = hashNative 8 y ↔ x = y) ∧
    (∀ x y : BitVec (8 * 4), hashNative 4 x = hashNative 4 y ↔ x = y) := by
  refine ⟨fun x y => ⟨fun e => ?_, congrArg _⟩, fun x y => ⟨fun e => ?_, congrArg _⟩⟩
  · rw [hashNative_eight, hashNative_eight] at e
    exact xxWord_inj (xxAvalanche_inj e)
  · rw [hashNative_four, hashNative_four] at e
    have := xxHalf_inj (xxAvalanche_inj e)
    apply BitVec.eq_of_toNat_eq
    have h := congrArg BitVec.toNat this
    have hx := x.isLt
    have hy := y.isLt
    rw [BitVec.toNat_setWidth, BitVec.toNat_setWidth, Nat.mod_eq_of_lt (by omega),
      Nat.mod_eq_of_lt (by omega)] at h
    exact h

example : hashNative 8 7#64 ≠ hashNative 8 8#64 ∧ hashNative 4 7#32 ≠ hashNative 4 8#32 := by
  decide +kernel

/-- **C78** (filters of other writers): the numbers 0 to 9 as `i64`, and the strings "a0" to "a9", give
the filters that Spark (parquet-mr) wrote for them, quoted in the tests of `bloom_filter/mod.rs`; of the
numbers 0 to 10 the first ten are present, the last is not. -/
theorem C78_other_writers (ck : Bool) :
    insertAll ck (List.replicate 32 0#8) ((List.range 10).map fun i => hashNative 8 (BitVec.ofNat 64 i)) =
      .ok [24, 130, 24, 8, 134, 8, 68, 6, 2, 101, 128, 10, 64, 2, 38, 78, 114, 1, 64, 38, 1, 192,
            194, 152, 64, 70, 0, 36, 56, 121, 64, 0] ∧
    insertAll ck (List.replicate 32 0#8)
        ((List.range 10).map fun i => hashByte [97#8, BitVec.ofNat 8 (48 + i)]) =
      .ok [200, 1, 80, 20, 64, 68, 8, 109, 6, 37, 4, 67, 144, 80, 96, 32, 8, 132, 43, 33, 0, 5,
            99, 65, 2, 0, 224, 44, 64, 78, 96, 4] ∧
    (List.range 11).map (fun i => isInSet ck [24, 130, 24, 8, 134, 8, 68, 6, 2, 101, 128, 10, 64, 2, 38,
        78, 114, 1, 64, 38, 1, 192, 194, 152, 64, 70, 0, 36, 56, 121, 64, 0]
        (hashNative 8 (BitVec.ofNat 64 i))) = List.replicate 10 (.ok true) ++ [.ok false] := by
  cases ck <;> decide +kernel

/-- **C78** the hash is xxHash64 with seed 0: its published values for the empty string, "a", "abc" and
"The quick brown fox jumps over the lazy dog" (43 bytes: a stripe of four lanes and a tail of each kind). -/
theorem C78_published :
    hashByte [] = 0xef46db3751d8e999#64 ∧ hashByte [97#8] = 0xd24ec4f1a98c6e5b#64 ∧
    hashByte [97#8, 98#8, 99#8] = 0x44bc2cf5ad770999#64 ∧
    hashByte [84, 104, 101, 32, 113, 117, 105, 99, 107, 32, 98, 114, 111, 119, 110, 32, 102, 111, 120, 32,
      106, 117, 109, 112, 115, 32, 111, 118, 101, 114, 32, 116, 104, 101, 32, 108, 97, 122, 121, 32, 100,
      111, 103] = 0x0b242d361fda71bc#64 := by
  decide +kernel

/-- **C78** (partial; floats): full claim: a query for a float that equals an inserted one answers
"present". Proved for all floats but zeros (and NaN, which equals nothing); for zeros of the same sign it
is `C78_values_found`. Missing: zeros of different sign, see `C78_violated`. `e` and `m` are the exponent
and mantissa bits: `8`, `23` for `f32` and `11`, `52` for `f64`. -/
theorem C78_floats_partial (ck : Bool) (bitset : List Byte) (h0 : 32 ≤ bitset.length)
    (h1 : bitset.length / 32 ≤ 2 ^ 32) :
    (∀ values : List (BitVec 64), ∃ out,
      insertAll ck bitset (values.map (hashNative 8)) = .ok out ∧
      ∀ (x y : BitVec 64) (a : Int), x ∈ values → floatVal 11 52 x = some a → floatVal 11 52 y = some a →
        a ≠ 0 → isInSet ck out (hashNative 8 y) = .ok true) ∧
    (∀ values : List (BitVec 32), ∃ out,
      insertAll ck bitset (values.map (hashNative 4)) = .ok out ∧
      ∀ (x y : BitVec 32) (a : Int), x ∈ values → floatVal 8 23 x = some a → floatVal 8 23 y = some a →
        a ≠ 0 → isInSet ck out (hashNative 4 y) = .ok true) := by
  constructor
  · intro values
    obtain ⟨out, e, _, q⟩ := C25_no_false_negatives ck bitset (values.map (hashNative 8)) h0 h1
    refine ⟨out, e, fun x y a hx fx fy ha => ?_⟩
    rw [← float_eq 11 52 x y a fx fy ha]
    exact q _ (List.mem_map_of_mem hx)
  · intro values
    obtain ⟨out, e, _, q⟩ := C25_no_false_negatives ck bitset (values.map (hashNative 4)) h0 h1
    refine ⟨out, e, fun x y a hx fx fy ha => ?_⟩
    rw [← float_eq 8 23 x y a fx fy ha]
    exact q _ (List.mem_map_of_mem hx)

example : (floatVal 11 52 0x3ff8000000000000#64).isSome ∧
    floatVal 11 52 0x3ff8000000000000#64 ≠ some 0 := by decide +kernel

/-- **C78** is violated: `0.0` and `-0.0` are equal, but a column of `0.0` denies that it holds `-0.0`,
for `f64` and for `f32`. -/
theorem C78_violated (ck : Bool) :
    floatVal 11 52 0x0000000000000000#64 = floatVal 11 52 0x8000000000000000#64 ∧
    (insertAll ck (List.replicate 32 0#8) [hashNative 8 0x0000000000000000#64] >>= fun filter =>
      isInSet ck filter (hashNative 8 0x8000000000000000#64)) = .ok false ∧
    floatVal 8 23 0x00000000#32 = floatVal 8 23 0x80000000#32 ∧
    (insertAll ck (List.replicate 32 0#8) [hashNative 4 0x00000000#32] >>= fun filter =>
      isInSet ck filter (hashNative 4 0x80000000#32)) = .ok false := by
  cases ck <;> decide +kernel

end Pq.Props
