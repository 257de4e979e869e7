import Verif.Lemmas.Leb128
/-
Properties C01, C02, C03 (LEB128 integers).
-/
namespace Pq.Props
open Pq.Spec

/-- **C01** ULEB128 round trip. Every `u64` is encoded (no panic with the 10-byte container
every caller uses) as a complete base-128 varint denoting the value, at most 10 bytes long;
decoding it, whatever follows, returns the value and exactly the number of bytes written. -/
theorem C01_uleb128_roundtrip (v : BitVec 64) (rest : List Byte) :
    ∃ bs, Leb.encode v = .ok bs ∧ bs.length ≤ 10 ∧ IsVarint bs ∧ base128 bs = v.toNat ∧
      Leb.decode (bs ++ rest) = .ok (v, bs.length) := by
  obtain ⟨bs, h0, h1, h2, h3⟩ := Leb.encode_spec v
  exact ⟨bs, h0, h3, h1, h2, Leb.decode_encode v bs rest h0⟩

-- the largest value needs ten bytes; 300 is the classical two byte example
example : Leb.encode 300#64 = .ok [0xAC#8, 0x02#8] := by decide
example : (Leb.encode (BitVec.allOnes 64)).map' List.length = .ok 10 := by decide

/-- **C01** with any caller-provided container of at least 10 bytes: only the written prefix
changes. -/
theorem C01_uleb128_container (v : BitVec 64) (container : List Byte) (h : 10 ≤ container.length) :
    ∃ bs, IsVarint bs ∧ base128 bs = v.toNat ∧
      Leb.encodeInto v container = .ok (bs ++ container.drop bs.length, bs.length) := by
  obtain ⟨bs, h1, h2, _, _, h5⟩ := Leb.encodeInto_spec 10 v container
    (Nat.lt_of_lt_of_le v.isLt (by decide)) (by decide) h
  exact ⟨bs, h1, h2, h5⟩

example : 10 ≤ (List.replicate 12 (7#8)).length := by decide

/-- **C02** (partial). Decoding *arbitrary* bytes: the outcome is completely determined. The
decoder panics exactly on over-long numbers (nine continuation bytes followed by a byte greater
than 1); otherwise it consumes the bytes up to the first one without continuation bit, which
are at most 10 and lie inside the buffer, and returns the number they denote, which fits in 64
bits. Missing from the full property: truncated varints are *not* rejected, see
`C02_truncated_accepted`. -/
theorem C02_uleb128_decode_partial (bs : List Byte) :
    (Overlong 9 bs ∧ Leb.decode bs = .panic) ∨
    (¬ Overlong 9 bs ∧ ∃ v n, Leb.decode bs = .ok (v, n) ∧ n ≤ bs.length ∧ n ≤ 10 ∧
      bs.take n = varintPrefix bs ∧ v.toNat = base128 (bs.take n)) := by
  by_cases h : Overlong 9 bs
  · exact .inl ⟨h, by rw [Leb.decode_any, if_pos h]⟩
  · refine .inr ⟨h, _, _, by rw [Leb.decode_any, if_neg h], ?_, ?_, ?_, ?_⟩
    · exact (Leb.varintPrefix_isPrefix bs).length_le
    · exact Leb.varintPrefix_length_of_not_overlong 9 bs h
    · exact List.prefix_iff_eq_take.1 (Leb.varintPrefix_isPrefix bs) |>.symm
    · rw [List.prefix_iff_eq_take.1 (Leb.varintPrefix_isPrefix bs) |>.symm, BitVec.toNat_ofNat,
        Nat.mod_eq_of_lt (Leb.base128_lt_of_not_overlong 9 bs h)]

example : Overlong 9 (List.replicate 9 0xFF#8 ++ [2#8]) := by decide
example : ¬ Overlong 9 (List.replicate 9 0xFF#8 ++ [1#8, 5#8]) := by decide

/-- **C02** the clause "a truncated varint is an error" is false of the code: there is a buffer
no prefix of which is a complete varint, yet decoding succeeds. -/
theorem C02_truncated_accepted :
    ∃ bs : List Byte, (∀ p s, bs = p ++ s → ¬ IsVarint p) ∧ Leb.decode bs = .ok (0#64, 1) := by
  refine ⟨[0x80#8], ?_, by decide⟩
  intro p s h
  rcases p with _ | ⟨a, _ | ⟨b, p⟩⟩
  · exact id
  · simp at h; obtain ⟨rfl, -⟩ := h; decide
  · simp at h

/-- **C03** zig-zag round trip: every `i64` is encoded as the varint of its zig-zag image
(0,-1,1,-2,… ↦ 0,1,2,3,…) and decoding, whatever follows, returns it and consumes exactly the
bytes written. -/
theorem C03_zigzag_roundtrip (v : BitVec 64) (rest : List Byte) :
    ∃ bs, Leb.zigzagEncode v = .ok bs ∧ bs.length ≤ 10 ∧ IsVarint bs ∧
      base128 bs = zigzagNat v.toInt ∧
      Leb.zigzagDecode (bs ++ rest) = .ok (v, bs.length) := by
  obtain ⟨bs, h0, h1, h2, h3⟩ := Leb.encode_spec (Leb.zigzag v)
  refine ⟨bs, h0, h3, h1, by rw [h2, Leb.zigzag_toNat], ?_⟩
  rw [Leb.zigzagDecode, Leb.decode_encode _ bs rest h0]
  simp only [Res.map', Leb.zigzag_inv]

example : Leb.zigzagEncode (BitVec.ofInt 64 (-2 ^ 63)) = .ok (List.replicate 9 0xFF#8 ++ [1#8]) := by
  decide
example : Leb.zigzagDecode [3#8] = .ok (BitVec.ofInt 64 (-2), 1) := by decide

end Pq.Props
