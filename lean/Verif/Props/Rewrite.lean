import Verif.Lemmas.Rewrite
import Verif.Props.EncodedSize
/-
Property C98: what was read, from any bytes, can be written again and then reads as the same.
-/
namespace Pq.Props
open Spec

/-- **C98** a number read from any bytes is written again in no more bytes than it was read from, and then reads as the
same number, followed by anything. -/
theorem C98_varint (bytes : List Byte) (hne : bytes ≠ []) (v : BitVec 64) (n : Nat)
    (h : Leb.decode bytes = .ok (v, n)) :
    ∃ out, Leb.encode v = .ok out ∧ out.length ≤ n ∧ ∀ rest, Leb.decode (out ++ rest) = .ok (v, out.length) := by
  rw [Leb.decode_any] at h
  split at h
  · simp at h
  · rename_i ho
    simp only [Res.ok.injEq, Prod.mk.injEq] at h
    obtain ⟨hv, hn⟩ := h
    obtain ⟨out, h1, -⟩ := Leb.encode_spec v
    refine ⟨out, h1, ?_, fun rest => Leb.decode_encode v out rest h1⟩
    rw [Leb.encode_size v out h1, ← hn, ← hv, BitVec.toNat_ofNat,
      Nat.mod_eq_of_lt (Leb.base128_lt_of_not_overlong 9 bytes ho)]
    exact Leb.varintSize_le_prefix _ (Leb.varintPrefix_ne_nil bytes hne)

/-- Three bytes for 300, then two; the end of the bytes within a number. -/
example : Leb.decode [0xAC#8, 0x82#8, 0x00#8, 9#8] = .ok (300#64, 3) ∧ Leb.encode 300#64 = .ok [0xAC#8, 0x02#8] ∧
    Leb.decode [0x85#8] = .ok (5#64, 1) := by
  decide +kernel

/-- **C98** the same for signed numbers. -/
theorem C98_zigzag (bytes : List Byte) (hne : bytes ≠ []) (v : BitVec 64) (n : Nat)
    (h : Leb.zigzagDecode bytes = .ok (v, n)) :
    ∃ out, Leb.zigzagEncode v = .ok out ∧ out.length ≤ n ∧
      ∀ rest, Leb.zigzagDecode (out ++ rest) = .ok (v, out.length) := by
  unfold Leb.zigzagDecode at h
  obtain ⟨⟨u, m⟩, hd, h⟩ := map'_ok _ _ _ h
  simp only [Prod.mk.injEq] at h
  obtain ⟨hv, rfl⟩ := h
  have hz : Leb.zigzag v = u := by
    have h1 := Leb.zigzag_inv v
    apply BitVec.eq_of_toNat_eq
    have h2 := Leb.unzigzag_toNat u
    rw [hv] at h2
    rw [Leb.zigzag_toNat']
    have := u.isLt
    split at h2 <;> split <;> omega
  obtain ⟨out, h1, h2, h3⟩ := C98_varint bytes hne u m hd
  refine ⟨out, by rw [Leb.zigzagEncode, hz]; exact h1, h2, fun rest => ?_⟩
  rw [Leb.zigzagDecode, h3 rest]
  simp only [Res.map', hv]

example : Leb.zigzagDecode [0x83#8, 0x80#8, 0x00#8] = .ok (BitVec.ofInt 64 (-2), 3) ∧
    Leb.zigzagEncode (BitVec.ofInt 64 (-2)) = .ok [3#8] := by
  decide +kernel

/-- **C98** the values of a delta stream of any writer, with whatever blocks and miniblocks, are written again and read
as the same, without overflow checks. (With them, see C13_checked: writing may abort.) -/
theorem C98_delta (ck : Bool) (bytes : List Byte) (xs : List (BitVec 64)) (n : Nat)
    (h : Delta.decode ck bytes = .ok (xs, n)) :
    ∃ out, Delta.encode false xs = .ok out ∧
      ∀ rest, Delta.decode false (out ++ rest) = .ok (xs, out.length) := by
  obtain ⟨out, h1, h2⟩ := Delta.encode_stream xs (Delta.decode_length ck bytes xs n h)
  exact ⟨out, h1, fun rest => Delta.decode_stream _ _ _ out rest h2⟩

/-- Five values in miniblocks of eight, of which the encoder makes one of 128. -/
example : Delta.decode true ([128, 1, 16, 5, 0, 0] ++ 1 :: List.replicate 15 0 ++ [5]) =
      .ok ([0, 1, 1, 2, 2], 23) ∧
    (Delta.encode false [0, 1, 1, 2, 2] >>= Delta.decode false).map' Prod.fst = .ok [0, 1, 1, 2, 2] := by
  decide +kernel

/-- **C98** strings read from any bytes with DELTA_LENGTH_BYTE_ARRAY are written again and read as the same, with
overflow checks and without. -/
theorem C98_delta_length (ck : Bool) (bytes body : List Byte) (lengths : List (BitVec 32))
    (h : DeltaLength.decode ck bytes = .ok (lengths, body)) :
    ∃ out lengths' body', (∀ ck, DeltaLength.encode ck (cut (lengths.map BitVec.toNat) body) = .ok out) ∧
      (∀ ck rest, DeltaLength.decode ck (out ++ rest) = .ok (lengths', body')) ∧
      cut (lengths'.map BitVec.toNat) body' = cut (lengths.map BitVec.toNat) body := by
  obtain ⟨hl, hb⟩ := DeltaLength.decode_bounds ck bytes body lengths h
  have hf := cut_flatten_length (lengths.map BitVec.toNat) body
  obtain ⟨out, ls, h1, h4, h3⟩ := DeltaLength.decode_encode_all (cut (lengths.map BitVec.toNat) body)
    (by rw [cut_length, List.length_map]; exact hl) (by omega)
  refine ⟨out, ls, _, h1, h3, ?_⟩
  rw [h4]
  simpa using cut_flatten (cut (lengths.map BitVec.toNat) body) []

example : DeltaLength.decode true [128, 1, 1, 2, 2, 2, 0, 65, 66, 67, 68] = .ok ([1, 2], [65, 66, 67]) := by
  decide +kernel

/-- **C98 (partial)** strings read from any bytes with DELTA_BYTE_ARRAY, of less than 2^32 bytes all in all, of which
none is a proper prefix of the one before, are written again and read as the same. Missing: all other strings
(`C98_violated`). -/
theorem C98_delta_byte_array_partial (ck : Bool) (bytes body : List Byte) (ps ls : List (BitVec 32))
    (h : DeltaByteArray.decode ck bytes = .ok (ps, ls, body))
    (hs : ¬ Shrinks [] (rebuild [] (ps.map BitVec.toNat) (ls.map BitVec.toNat) body))
    (ht : (rebuild [] (ps.map BitVec.toNat) (ls.map BitVec.toNat) body).flatten.length < 2 ^ 32) :
    ∃ out ps' ls' body',
      (∀ ck, DeltaByteArray.encode ck (rebuild [] (ps.map BitVec.toNat) (ls.map BitVec.toNat) body) = .ok out) ∧
      (∀ ck, DeltaByteArray.decode ck out = .ok (ps', ls', body')) ∧
      rebuild [] (ps'.map BitVec.toNat) (ls'.map BitVec.toNat) body' =
        rebuild [] (ps.map BitVec.toNat) (ls.map BitVec.toNat) body := by
  obtain ⟨out, ps', ls', body', h1, h2, h3⟩ := C17_delta_byte_array_partial _ hs
    (Nat.lt_of_le_of_lt (DeltaByteArray.rebuild_length _ _ _ _) (by
      rw [List.length_map]; exact DeltaByteArray.decode_count ck bytes body ps ls h)) ht []
  exact ⟨out, ps', ls', body', h1, by simpa using h2, h3⟩

/-- "ab" and "abc", sharing a prefix of one byte only. -/
example : DeltaByteArray.decode true [128, 1, 1, 2, 0, 2, 0, 128, 1, 1, 2, 4, 0, 0, 97, 98, 98, 99] =
      .ok ([0, 1], [2, 2], [97, 98, 98, 99]) ∧
    rebuild [] [0, 1] [2, 2] [97, 98, 98, 99] = [[97, 98], [97, 98, 99]] ∧
    ¬ Shrinks [] [[97, 98], [97, 98, 99]] :=
  ⟨by decide +kernel, by decide +kernel, by simp [Shrinks, ProperPrefix]⟩

/-- **C98** PLAIN strings: bytes that are read as strings only are these strings as a writer writes them (so writing
them again gives the same bytes), followed by less than four bytes. -/
theorem C98_plain (bytes : List Byte) (length : Option Nat) (xs : List (List Byte)) (fuel : Nat)
    (h : (PlainBytes.BinaryIter.mk bytes length).items fuel = some (xs.map Except.ok)) :
    ∃ stray, stray.length < 4 ∧ bytes = plainBytes xs ++ stray ∧ ∀ s ∈ xs, s.length < 2 ^ 32 := by
  obtain ⟨h1, stray, h2, h3⟩ := PlainBytes.items_canonical fuel _ xs h
  exact ⟨stray, h2, h3, h1⟩

example : (PlainBytes.BinaryIter.mk [1, 0, 0, 0, 65, 0, 0, 0, 0, 7] none).items 11 = some ([[65], []].map Except.ok) ∧
    plainBytes [[65], []] = [1, 0, 0, 0, 65, 0, 0, 0, 0] := by
  decide +kernel

/-- **C98 (partial)** hybrid streams: values of at most `n` bits, read from any bytes with a width of `n` bits, are
written again with this width and read as the same. Missing: a width of no bits, and repeated values that are wider
than they are said to be, which the decoder takes as they are (`C98_violated`). -/
theorem C98_hybrid_partial (data : List Byte) (n N : Nat) (hn : 0 < n) (hn32 : n ≤ 32) (xs : List Rle.U32)
    (h : Rle.decode data n N = .ok xs) (hN : 4 * N < 2 ^ 63) (hfit : ∀ x ∈ xs, x.toNat < 2 ^ n) :
    ∃ out, Rle.encodeU32 xs n = .ok out ∧ ∀ rest, Rle.decode (out ++ rest) n N = .ok xs := by
  have hl : xs.length = N := by
    rcases C10_exact_count data n N hn32 with ⟨ys, h1, h2⟩ | ⟨h1, -⟩
    · rw [h] at h1; cases h1; exact h2
    · rw [h] at h1; cases h1
  have hx : 4 * xs.length < 2 ^ 63 := by omega
  obtain ⟨hd, body, h1, -⟩ := C08_hybrid_u32_roundtrip n hn hn32 xs hfit hx []
  refine ⟨hd ++ body, h1, fun rest => ?_⟩
  obtain ⟨hd', body', h1', -, -, -, h2⟩ := C08_hybrid_u32_roundtrip n hn hn32 xs hfit hx rest
  rw [h1] at h1'
  simp only [Res.ok.injEq] at h1'
  rw [h1', List.append_assoc, ← hl]
  exact h2

/-- A run of three, and a run of a bit-packed group. -/
example : Rle.decode [0x06#8, 5#8, 0x03#8, 0x88#8, 0xC6#8, 0xFA#8] 3 6 = .ok [5, 5, 5, 0, 1, 2] ∧
    4 * 6 < 2 ^ 63 := by
  decide +kernel

/-- **C98 is violated.** (a) "ab" and "a", as a writer that shares prefixes stores them, are read, and the encoder aborts
on them. (b) A repeated value that is wider than its 12 bits is read as it is, and whatever is written for it with 12
bits is not read as it. -/
theorem C98_violated :
    (∀ ck, DeltaByteArray.decode ck [128, 1, 1, 2, 0, 2, 0, 128, 1, 1, 2, 4, 3, 0, 97, 98] =
        .ok ([0, 1], [2, 0], [97, 98]) ∧
      rebuild [] [0, 1] [2, 0] [97, 98] = [[97, 98], [97]] ∧
      DeltaByteArray.encode ck [[97, 98], [97]] = .panic) ∧
    (Rle.decode [0x02#8, 0x34#8, 0xF2#8] 12 1 = .ok [0xF234] ∧
      ∀ out, Rle.encodeU32 [0xF234] 12 = .ok out → Rle.decode out 12 1 ≠ .ok [0xF234]) := by
  refine ⟨fun ck => ⟨by revert ck; decide +kernel, by decide +kernel,
    C17_violated ck _ (by simp [Shrinks, ProperPrefix]) (by decide)⟩, by decide +kernel, fun out h hd => ?_⟩
  have hh : Rle.header 1 = .ok [3#8] := by decide +kernel
  unfold Rle.encodeU32 at h
  rw [show ([0xF234] : List Rle.U32).length = 1 from rfl, hh] at h
  obtain ⟨body, -, rfl⟩ := map'_ok _ _ _ h
  have := Rle.packed_value_lt body _ hd
  revert this
  decide

end Pq.Props
