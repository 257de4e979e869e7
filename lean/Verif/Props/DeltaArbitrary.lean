import Verif.Lemmas.DeltaTrunc2
import Verif.Lemmas.DeltaSound
import Verif.Lemmas.DeltaChecked
import Verif.Lemmas.DeltaOutcome
import Verif.Lemmas.Util
/-
Properties C72 (cut delta streams) and C73 (delta streams of arbitrary bytes).
-/
namespace Pq.Props
open Pq.Spec

/-! ### C72 -/

/-- **C72** violated: a stream that is cut in its header is not always rejected. Of `[5, 5]`, no
value is left when the number of values is missing; of `[5]`, another value is read when the
value is missing. -/
theorem C72_violated :
    DeltaStream 128 4 [5, 5] ([128, 1, 4] ++ [2, 10, 0, 0, 0, 0, 0]) ∧
    Delta.decode false [128, 1, 4] = .ok ([], 3) ∧
    DeltaStream 128 1 [5] ([128, 1, 1, 1] ++ [10]) ∧
    Delta.decode false [128, 1, 1, 1] = .ok ([0], 4) := by
  refine ⟨?_, by decide +kernel, ?_, by decide +kernel⟩
  · refine ⟨[128, 1], [4], [2], [10], [0, 0, 0, 0, 0], 5, [0], 32, by decide, by decide, by decide,
      by decide, by decide, by decide, by decide, by decide, by decide, rfl, ?_, .inr (by decide)⟩
    have := DeltaBlocks.cons (M := 4) (v := 32) (r := 1) (minDelta := 0)
      (minis := [⟨0, []⟩]) (out := [0, 0, 0, 0, 0]) (rest := []) (ds := []) (by decide) (by decide)
      ⟨[0], [0, 0, 0, 0], by decide, rfl, by decide, by decide, by simp [MiniBlock.Ok], rfl⟩ .nil
    exact this
  · exact ⟨[128, 1], [1], [1], [10], [], 5, [], 128, by decide, by decide, by decide,
      by decide, by decide, by decide, by decide, by decide, by decide, rfl, .nil, .inr (by decide)⟩

/-- **C72** violated: cut earlier, the decoder aborts (it divides by the missing number of
miniblocks); and of DELTA_LENGTH_BYTE_ARRAY, whose values are cut, the values abort. -/
theorem C72_violated_aborts (ck : Bool) :
    Delta.decode ck [] = .panic ∧ Delta.decode ck [128, 1] = .panic ∧
    DeltaLength.encode ck [[72, 101]] = .ok [128, 1, 1, 1, 4, 72, 101] ∧
    DeltaLength.decode ck [128, 1, 1, 1, 4, 72] = .panic := by
  cases ck <;> decide +kernel

/-- **C72** what holds: a stream that decodes, legal or not, cut anywhere after its header and
before its end, is an error, in every build profile. Missing for the full claim: cuts in the header
(`C72_violated`, `C72_violated_aborts`). -/
theorem C72_cut_partial (ck : Bool) (hdr body : List Byte) (B M c : Nat) (first : BitVec 64)
    (h : DeltaHeader B M c first hdr) (hM : 0 < M) (xs : List (BitVec 64)) (n k : Nat)
    (hd : Delta.decode ck (hdr ++ body) = .ok (xs, n)) (hk : hdr.length + k < n) :
    ∃ e, Delta.decode ck (hdr ++ body.take k) = .err e :=
  Delta.decode_cut ck hdr body B M c first h hM xs n k hd hk

-- five values in three bytes after the header, of which one is missing
example : DeltaHeader 128 1 9 1 [128, 1, 1, 9, 2] ∧
    Delta.decode true ([128, 1, 1, 9, 2] ++ ([2, 1, 0b10101010] ++ List.replicate 15 0)) =
      .ok ([1, 2, 4, 5, 7, 8, 10, 11, 13], 23) ∧ 5 + 17 < 23 ∧
    Delta.decode true ([128, 1, 1, 9, 2] ++ (([2, 1, 0b10101010] : List Byte) ++ List.replicate 15 0).take 17) =
      .err .oos :=
  ⟨⟨[128, 1], [1], [9], [2], by decide, by decide, by decide, by decide, rfl⟩,
    by decide +kernel, by decide, by decide +kernel⟩

/-- **C72** in particular every legal stream, cut after its header, is an error. -/
theorem C72_legal_cut_partial (B M c : Nat) (first : BitVec 64) (xs : List (BitVec 64))
    (hdr body : List Byte) (h : DeltaHeader B M c first hdr) (hM : 0 < M)
    (hs : DeltaStream B M xs (hdr ++ body)) (k : Nat) (hk : k < body.length) :
    ∃ e, Delta.decode false (hdr ++ body.take k) = .err e := by
  have hd := Delta.decode_stream B M xs (hdr ++ body) [] hs
  rw [List.append_nil] at hd
  exact Delta.decode_cut false hdr body B M c first h hM xs _ k hd
    (by rw [List.length_append]; omega)

example : DeltaHeader 128 4 2 5 [128, 1, 4, 2, 10] ∧ 0 < 4 ∧
    DeltaStream 128 4 [5, 5] ([128, 1, 4, 2, 10] ++ [0, 0, 0, 0, 0]) ∧
    4 < ([0, 0, 0, 0, 0] : List Byte).length :=
  ⟨⟨[128, 1], [4], [2], [10], by decide, by decide, by decide, by decide, rfl⟩, by decide,
    C72_violated.1, by decide⟩

/-- **C72** and what is decoded does not depend on the bytes that follow: any stream with a complete
header that decodes gives the same with more bytes after it. -/
theorem C72_more_partial (ck : Bool) (hdr body more : List Byte) (B M c : Nat) (first : BitVec 64)
    (h : DeltaHeader B M c first hdr) (hM : 0 < M) (xs : List (BitVec 64)) (n : Nat)
    (hd : Delta.decode ck (hdr ++ body) = .ok (xs, n)) :
    Delta.decode ck (hdr ++ body ++ more) = .ok (xs, n) ∧ n ≤ (hdr ++ body).length := by
  have hs := Delta.decode_sim ck hdr body more B M c first h hM
  rw [hd] at hs
  rcases hs with ⟨e, h1⟩ | ⟨h1, _⟩ | ⟨x, y, h1, h2, h3, h4⟩
  · simp at h1
  · simp at h1
  · simp only [Res.ok.injEq] at h1
    subst h1 h3
    exact ⟨h2, h4⟩

example : DeltaHeader 128 4 2 5 [128, 1, 4, 2, 10] ∧
    Delta.decode true ([128, 1, 4, 2, 10] ++ [0, 0, 0, 0, 0]) = .ok ([5, 5], 10) :=
  ⟨⟨[128, 1], [4], [2], [10], by decide, by decide, by decide, by decide, rfl⟩, by decide +kernel⟩

/-- **C72** DELTA_LENGTH_BYTE_ARRAY of any strings: cut in the lengths after their header, it is an
error; cut in the values, it aborts; it is never read as other strings. -/
theorem C72_delta_length_partial (items : List (List Byte)) (hn : items.length < 2 ^ 64)
    (ht : items.flatten.length < 2 ^ 32) :
    ∃ out hdr body first, DeltaLength.encode false items = .ok out ∧
      out = hdr ++ body ++ items.flatten ∧ DeltaHeader 128 1 items.length first hdr ∧
      (∀ k < body.length, ∃ e, DeltaLength.decode false (hdr ++ body.take k) = .err e) ∧
      ∀ k < items.flatten.length,
        DeltaLength.decode false (hdr ++ body ++ items.flatten.take k) = .panic := by
  obtain ⟨o, h1, h2⟩ := Delta.encode_stream (items.map fun x => BitVec.ofNat 64 x.length)
    (by rw [List.length_map]; exact hn)
  obtain ⟨hdr, body, first, rfl, hh, hM⟩ := Delta.stream_header h2
  rw [List.length_map] at hh
  refine ⟨_, hdr, body, first, by rw [DeltaLength.encode, h1]; rfl, rfl, hh, ?_, ?_⟩
  · intro k hk
    obtain ⟨e, he⟩ := C72_legal_cut_partial _ _ _ _ _ _ _ hh hM h2 k hk
    exact ⟨e, DeltaLength.decode_err _ _ he⟩
  · intro k hk
    exact DeltaLength.decode_short _ _ items h2 ht (by rw [List.length_take]; omega)

example : ([[1, 2, 3], [], [7]] : List (List Byte)).length < 2 ^ 64 ∧
    ([[1, 2, 3], [], [7]] : List (List Byte)).flatten.length < 2 ^ 32 := by decide

/-- **C72** DELTA_BYTE_ARRAY: a stream whose prefix lengths are a legal stream, cut in these after
their header, is an error; cut later, it is what the rest is as a DELTA_LENGTH_BYTE_ARRAY stream. -/
theorem C72_delta_byte_array_partial (B M c : Nat) (first : BitVec 64) (ps : List (BitVec 64))
    (hdr body : List Byte) (h : DeltaHeader B M c first hdr) (hM : 0 < M)
    (hs : DeltaStream B M ps (hdr ++ body)) :
    (∀ k < body.length, ∃ e, DeltaByteArray.decode false (hdr ++ body.take k) = .err e) ∧
    ∀ rest, DeltaByteArray.decode false (hdr ++ body ++ rest) =
      (DeltaLength.decode false rest).map' fun r => (ps.map (BitVec.setWidth 32), r.1, r.2) := by
  constructor
  · intro k hk
    obtain ⟨e, he⟩ := C72_legal_cut_partial _ _ _ _ _ _ _ h hM hs k hk
    exact ⟨e, DeltaByteArray.decode_err _ _ he⟩
  · intro rest
    exact DeltaByteArray.decode_after B M ps _ rest hs

example (rest : List Byte) : DeltaByteArray.decode false ([128, 1, 4, 2, 10] ++ [0, 0, 0, 0, 0] ++ rest) =
    (DeltaLength.decode false rest).map' fun r => ([5, 5], r.1, r.2) :=
  (C72_delta_byte_array_partial 128 4 2 5 [5, 5] [128, 1, 4, 2, 10] [0, 0, 0, 0, 0]
    ⟨[128, 1], [4], [2], [10], by decide, by decide, by decide, by decide, rfl⟩ (by decide) C72_violated.1).2 rest

/-! ### C73 -/

/-- **C73** violated: the decoder aborts, in every build profile, when the block size is not a
multiple of 128, when there are no miniblocks, when the miniblock size is not a multiple of 8, when
a bit width exceeds 64, and when a varint exceeds 64 bits. -/
theorem C73_violated (ck : Bool) :
    Delta.decode ck [1, 1, 1, 0] = .panic ∧ Delta.decode ck [128, 1, 0, 1, 0] = .panic ∧
    Delta.decode ck [128, 1, 5, 1, 0] = .panic ∧
    Delta.decode ck ([128, 1, 16, 2, 0, 0, 65] ++ List.replicate 80 0) = .panic ∧
    Delta.decode ck [255, 255, 255, 255, 255, 255, 255, 255, 255, 2] = .panic := by
  cases ck <;> decide +kernel

/-- **C73** violated: with overflow checks, the decoder aborts when a sum overflows `i64`; without,
it wraps. -/
theorem C73_violated_overflow :
    Delta.decode false ([128, 1, 1, 2] ++ [254, 255, 255, 255, 255, 255, 255, 255, 255, 1] ++ [2, 0]) =
      .ok ([BitVec.ofNat 64 (2 ^ 63 - 1), BitVec.ofNat 64 (2 ^ 63)], 16) ∧
    Delta.decode true ([128, 1, 1, 2] ++ [254, 255, 255, 255, 255, 255, 255, 255, 255, 1] ++ [2, 0]) =
      .panic := by
  constructor <;> decide +kernel

/-- **C73** violated: the number of miniblocks need not divide the block size (256 values in 31
miniblocks). -/
theorem C73_violated_accepts :
    Delta.decode true ([128, 2, 31, 2, 10, 2] ++ List.replicate 31 0) = .ok ([5, 6], 37) := by
  decide +kernel

/-- **C73** what holds: after a complete header of a block size below 2^56 that is legal, arbitrary
bytes are accepted exactly when they begin with the blocks of a legal stream, whose values are
returned and whose length is reported as consumed; these are as many values as the header says.
Missing for the full claim: other headers (`C73_violated`, `C73_violated_accepts`,
`C72_violated`). -/
theorem C73_accepts_partial (hdr body : List Byte) (B M c v : Nat) (first : BitVec 64)
    (h : DeltaHeader B M c first hdr) (hM : 0 < M) (hB : B % 128 = 0) (hBv : B = M * v)
    (hv : 0 < v) (hv8 : v % 8 = 0) (hmax : B < 2 ^ 56) (xs : List (BitVec 64)) (n : Nat) :
    Delta.decode false (hdr ++ body) = .ok (xs, n) ↔
      xs.length = c ∧ ∃ used rest, body = used ++ rest ∧ n = (hdr ++ used).length ∧
        DeltaStream B M xs (hdr ++ used) := by
  constructor
  · exact Delta.decode_sound hdr body B M c v first h hM hB hBv hv hv8 hmax xs n
  · rintro ⟨_, used, rest, rfl, rfl, hs⟩
    rw [← List.append_assoc]
    exact Delta.decode_stream B M xs (hdr ++ used) rest hs

example : DeltaHeader 128 4 2 5 [128, 1, 4, 2, 10] ∧ 0 < 4 ∧ 128 % 128 = 0 ∧ 128 = 4 * 32 ∧
    0 < 32 ∧ 32 % 8 = 0 ∧ 128 < 2 ^ 56 ∧
    Delta.decode false ([128, 1, 4, 2, 10] ++ [3, 1, 65, 66, 67, 1, 1, 1, 1, 9, 9]) =
      .ok ([5, 4], 14) :=
  ⟨⟨[128, 1], [4], [2], [10], by decide, by decide, by decide, by decide, rfl⟩, by decide,
    by decide, by decide, by decide, by decide, by decide, by decide +kernel⟩

/-- **C73** exactly how decoding arbitrary bytes ends without overflow checks, for every header: it aborts exactly at a
varint of more than 64 bits, at a block size or a number of miniblocks that is not supported and at a miniblock, of
those that are needed and there, of more than 64 bits; it is refused exactly when bytes of the widths or of a miniblock
that is needed are missing, or if the miniblocks have no values. Block sizes from 2^56 on are left out (the length of a
miniblock, computed in 64 bits, may be wrong). With overflow checks: `C73_profiles_partial`. -/
theorem C73_outcome (bytes : List Byte)
    (hsize : ∀ size rest, readVarint bytes = some (size, rest) → size < 2 ^ 56) :
    outcome (Delta.decode false bytes) = endOfDelta bytes := Delta.decode_end bytes hsize

/-- Five values in one block of 128 in miniblocks of 8: the last of four deltas is there, in one miniblock of one bit.
Then: a byte of the miniblock is missing; the widths are missing; a width of 65 bits; a width of 65 bits whose bytes
are missing; a width of 65 bits of a miniblock that is not needed; a block of 100 values; miniblocks without values. -/
example :
    (endOfDelta ([128, 1, 16, 5, 0, 0] ++ 1 :: List.replicate 15 0 ++ [255]) = .done ∧
     endOfDelta ([128, 1, 16, 5, 0, 0] ++ 1 :: List.replicate 15 0) = .refused ∧
     endOfDelta [128, 1, 16, 5, 0, 0, 1] = .refused ∧
     endOfDelta ([128, 1, 16, 5, 0, 0] ++ 65 :: List.replicate 80 0) = .aborts ∧
     endOfDelta ([128, 1, 16, 5, 0, 0] ++ 65 :: List.replicate 79 0) = .refused ∧
     endOfDelta ([128, 1, 16, 5, 0, 0] ++ 1 :: List.replicate 14 0 ++ [65, 255]) = .done ∧
     endOfDelta [100, 1, 5, 0] = .aborts ∧
     endOfDelta [0, 1, 5, 0, 0, 65, 0, 65] = .refused ∧
     endOfDelta ([0, 1, 5, 0] ++ List.replicate 10 255) = .aborts) ∧
    (∀ size rest, readVarint [128, 1, 16, 5, 0, 0, 1] = some (size, rest) → size < 2 ^ 56) ∧
    outcome (Delta.decode false ([128, 1, 16, 5, 0, 0] ++ 65 :: List.replicate 80 0)) = .aborts := by
  refine ⟨by decide +kernel, ?_, by decide +kernel⟩
  intro size rest h
  have : readVarint [128, 1, 16, 5, 0, 0, 1] = some (128, [16, 5, 0, 0, 1]) := by decide +kernel
  rw [this] at h
  simp only [Option.some.injEq, Prod.mk.injEq] at h
  omega

/-- **C73** DELTA_LENGTH_BYTE_ARRAY of arbitrary bytes, without overflow checks: it ends as its lengths do, read as
DELTA_BINARY_PACKED, and if these are read, the lengths are the low 32 bits of the numbers and the strings are as many
bytes after them as the lengths together, modulo 2^32, say; it aborts exactly if these are not there.
DELTA_BYTE_ARRAY: the prefix lengths are read likewise, and what follows is DELTA_LENGTH_BYTE_ARRAY. -/
theorem C73_strings (bytes : List Byte) :
    (DeltaLength.decode false bytes =
      match Delta.decode false bytes with
      | .ok (numbers, read) =>
        let lengths := numbers.map (BitVec.setWidth 32)
        let total := (lengths.map BitVec.toNat).sum % 2 ^ 32
        if read + total ≤ bytes.length then .ok (lengths, (bytes.drop read).take total) else .panic
      | .err e => .err e
      | .panic => .panic) ∧
    (DeltaByteArray.decode false bytes =
      match Delta.decode false bytes with
      | .ok (numbers, read) =>
        if read ≤ bytes.length then
          match DeltaLength.decode false (bytes.drop read) with
          | .ok (lengths, values) => .ok (numbers.map (BitVec.setWidth 32), lengths, values)
          | .err e => .err e
          | .panic => .panic
        else .panic
      | .err e => .err e
      | .panic => .panic) := by
  rw [DeltaLength.decode_any, DeltaByteArray.decode_any]
  cases Delta.decode false bytes with
  | err e => exact ⟨rfl, rfl⟩
  | panic => exact ⟨rfl, rfl⟩
  | ok p =>
    refine ⟨rfl, ?_⟩
    simp only [Res.ok_bind]
    split
    · cases DeltaLength.decode false (bytes.drop p.2) <;> rfl
    · rfl

/-- Lengths of 2 and −1 (which is 2^32 − 1): together they are 1, and one byte is read; without it, the program aborts. -/
example :
    Delta.decode false [128, 1, 4, 2, 4, 5, 0, 0, 0, 0, 9, 8] = .ok ([2, 0xFFFFFFFFFFFFFFFF], 10) ∧
    DeltaLength.decode false [128, 1, 4, 2, 4, 5, 0, 0, 0, 0, 9, 8] = .ok ([2, 0xFFFFFFFF], [9]) ∧
    DeltaLength.decode false [128, 1, 4, 2, 4, 5, 0, 0, 0, 0] = .panic ∧
    DeltaByteArray.decode false [128, 1, 4, 1, 10, 128, 1, 4, 2, 4, 5, 0, 0, 0, 0, 9, 8] =
      .ok ([5], [2, 0xFFFFFFFF], [9]) := by
  decide +kernel

/-- **C73** with overflow checks, decoding arbitrary bytes aborts or does what it does without:
DELTA_BINARY_PACKED, DELTA_LENGTH_BYTE_ARRAY and DELTA_BYTE_ARRAY. -/
theorem C73_profiles_partial (bytes : List Byte) :
    (Delta.decode true bytes = .panic ∨ Delta.decode true bytes = Delta.decode false bytes) ∧
    (DeltaLength.decode true bytes = .panic ∨
      DeltaLength.decode true bytes = DeltaLength.decode false bytes) ∧
    (DeltaByteArray.decode true bytes = .panic ∨
      DeltaByteArray.decode true bytes = DeltaByteArray.decode false bytes) :=
  ⟨Delta.decode_checked bytes, DeltaLength.decode_checked bytes, DeltaByteArray.decode_checked bytes⟩

example : Delta.decode true [128, 1, 4, 2, 10, 0, 0, 0, 0, 0] =
    Delta.decode false [128, 1, 4, 2, 10, 0, 0, 0, 0, 0] := by decide +kernel

end Pq.Props
