import Verif.Lemmas.EncodedSize
import Verif.Lemmas.Statistics2
import Verif.Props.HybridRle
import Verif.Props.Delta
/-
C92: how many bytes the encoders write.
-/
namespace Pq.Props
open Spec

/-- **C92**: a number takes as many bytes as seven of its bits each need, and no other varint of it is
shorter. -/
theorem C92_varint (v : BitVec 64) (bs : List Byte) (h : Leb.encode v = .ok bs) :
    bs.length = varintSize v.toNat ∧
      ∀ other, IsVarint other → base128 other = v.toNat → bs.length ≤ other.length := by
  have := Leb.encode_size v bs h
  refine ⟨this, fun other ho hv => ?_⟩
  rw [this, ← hv]
  exact varintSize_le other ho

example : Leb.encode 300#64 = .ok [0xAC#8, 0x02#8] ∧ IsVarint [0xAC#8, 0x82#8, 0x00#8] ∧
    base128 [0xAC#8, 0x82#8, 0x00#8] = 300 ∧ varintSize 300 = 2 := by
  decide +kernel

/-- **C92**: and a signed number as many as its zig-zag image. -/
theorem C92_zigzag (v : BitVec 64) (bs : List Byte) (h : Leb.zigzagEncode v = .ok bs) :
    bs.length = varintSize (zigzagNat v.toInt) ∧
      ∀ other, IsVarint other → base128 other = zigzagNat v.toInt → bs.length ≤ other.length := by
  have := Delta.zigzagEncode_size v bs h
  refine ⟨this, fun other ho hv => ?_⟩
  rw [this, ← hv]
  exact varintSize_le other ho

example : varintSize 300 = 2 ∧ varintSize 0 = 1 ∧ varintSize (2 ^ 64 - 1) = 10 ∧ varintSize 127 = 1 := by
  decide +kernel

/-- **C92**: booleans take a bit each, levels and bitmaps alike, after a header of the shortest form. -/
theorem C92_bool (xs : List Bool) (hl : xs.length < 2 ^ 63) (out : List Byte) (h : Rle.encodeBool xs = .ok out) :
    out.length = varintSize (2 * ((xs.length + 7) / 8) + 1) + (xs.length + 7) / 8 := by
  unfold Rle.encodeBool at h
  obtain ⟨hd, h1, rfl⟩ := map'_ok _ _ _ h
  have := Bitmap.encodeBool_length xs
  rw [Rle.ceil8_eq] at this
  rw [List.length_append, this, header_size _ hl _ h1]

example : [true, false, true].length < 2 ^ 63 ∧ Rle.encodeBool [true, false, true] = .ok [3#8, 5#8] := by
  decide +kernel

/-- **C92**: indices and levels of `n` bits take `n` bits each, rounded up to bytes once, at the end. -/
theorem C92_u32 (n : Nat) (hn : 0 < n) (hn32 : n ≤ 32) (xs : List Rle.U32) (hfit : ∀ x ∈ xs, x.toNat < 2 ^ n)
    (hl : 4 * xs.length < 2 ^ 63) (out : List Byte) (h : Rle.encodeU32 xs n = .ok out) :
    out.length = varintSize (2 * ((xs.length + 7) / 8) + 1) + (xs.length * n + 7) / 8 := by
  obtain ⟨hd, h1, -⟩ := Rle.header_spec xs.length (by omega)
  obtain ⟨body, g1, g2, -⟩ := Rle.bitpackedEncodeU32_spec n hn hn32 xs hfit
  rw [Rle.ceil8_eq] at g2
  unfold Rle.encodeU32 at h
  rw [h1, Nat.mod_eq_of_lt (show n < 256 by omega), g1] at h
  simp only [Res.map', Res.ok.injEq] at h
  rw [← h, List.length_append, g2, header_size _ (by omega) _ h1]

example : (∀ x ∈ [1#32, 2#32, 3#32], x.toNat < 2 ^ 2) ∧ (Rle.encodeBool [true, false, true]).map' List.length = .ok 2 := by
  refine ⟨by simp, by decide +kernel⟩

/-- **C92**: a delta stream takes its header, each number in the shortest form, and for every 128 deltas the
smallest of them, a byte, and 128 times as many bits as the greatest distance to the smallest has. -/
theorem C92_delta (ck : Bool) (xs : List (BitVec 64)) (hl : xs.length < 2 ^ 64) (out : List Byte)
    (h : Delta.encode ck xs = .ok out) : out.length = deltaSize xs :=
  Delta.encode_size xs hl out (Delta.encode_any ck xs out h)

example : [1, 2, 3, 4, 5, 1].length < 2 ^ 64 ∧
    (Delta.encode true [1, 2, 3, 4, 5, 1]).map' List.length = .ok (deltaSize [1, 2, 3, 4, 5, 1]) := by
  decide +kernel

/-- **C92**: so its size is bounded by the number of values. -/
theorem C92_delta_bound (ck : Bool) (xs : List (BitVec 64)) (hl : xs.length < 2 ^ 64) (out : List Byte)
    (h : Delta.encode ck xs = .ok out) : out.length ≤ 23 + 1035 * ((xs.length + 126) / 128) := by
  have hv : ∀ k, k < 2 ^ 64 → varintSize k ≤ 10 := by
    intro k hk
    unfold varintSize
    by_cases h0 : k = 0
    · subst h0; decide
    · have := (Nat.log2_lt h0).2 hk
      omega
  have hz : ∀ i : BitVec 64, zigzagNat i.toInt < 2 ^ 64 := by
    intro i
    rw [← Leb.zigzag_toNat]
    exact (Leb.zigzag i).isLt
  have hb : ∀ ds : List (BitVec 64), deltaBlockSize ds ≤ 1035 := by
    intro ds
    simp only [deltaBlockSize]
    by_cases h0 : ds = []
    · subst h0; decide
    obtain ⟨m1, m2⟩ := Delta.bounds_mem (ds.map BitVec.toInt) (by simpa using h0)
    generalize lowest (ds.map BitVec.toInt) = lo at *
    generalize highest (ds.map BitVec.toInt) = hi at *
    obtain ⟨d1, -, rfl⟩ := List.mem_map.1 m1
    obtain ⟨d2, -, rfl⟩ := List.mem_map.1 m2
    have := hv _ (hz d1)
    have l1 := d1.le_toInt
    have l2 := d2.toInt_lt
    have : bitSize (d2.toInt - d1.toInt).toNat ≤ 64 := (Delta.bitSize_le _ _).2 (by omega)
    omega
  have hsum : ∀ (l : List Nat) (f : Nat → List (BitVec 64)), (l.map fun i => deltaBlockSize (f i)).sum ≤ 1035 * l.length := by
    intro l f
    induction l with
    | nil => simp
    | cons i l ih =>
      have := hb (f i)
      simp only [List.map_cons, List.sum_cons, List.length_cons]
      omega
  rw [C92_delta ck xs hl out h, deltaSize]
  have a := hv _ hl
  have b := hv _ (hz (xs.headD 0#64))
  have c := hsum (List.range (((differences xs).length + 127) / 128))
    fun i => ((differences xs).drop (128 * i)).take 128
  have e : (differences xs).length = xs.length - 1 := by
    simp only [differences, List.length_zipWith, List.length_tail]; omega
  rw [List.length_range, e] at c
  rw [e]
  cases xs with
  | nil =>
    simp only [List.length_nil] at *
    omega
  | cons x xs =>
    simp only [List.length_cons] at *
    rw [show xs.length + 1 + 126 = xs.length + 1 - 1 + 127 by omega]
    omega

example : ∃ out, Delta.encode true [1, 2, 3, 4, 5, 1] = .ok out ∧ out.length ≤ 23 + 1035 * 1 := by
  have h : (Delta.encode true [1, 2, 3, 4, 5, 1]).isOk = true := by decide +kernel
  cases e : Delta.encode true [1, 2, 3, 4, 5, 1] with
  | ok out => exact ⟨out, rfl, C92_delta_bound true _ (by decide) out e⟩
  | err _ => rw [e] at h; cases h
  | panic => rw [e] at h; cases h

/-- **C92**: with deltas that are closer to each other than 2^63, no legal stream with the same blocks
is shorter by more than nine bytes for each block. -/
theorem C92_delta_shortest (ck : Bool) (xs : List (BitVec 64)) (hl : xs.length < 2 ^ 64) (hc : CloseDeltas xs)
    (out other : List Byte) (h : Delta.encode ck xs = .ok out) (ho : DeltaStream 128 1 xs other) :
    out.length ≤ other.length + 9 * ((xs.length + 126) / 128) := by
  rw [C92_delta ck xs hl out h]
  obtain ⟨h1, h2, h3, h4, body, first, ds, v, -, -, hv, -, -, i1, i2, i3, i4, rfl, hb, hx⟩ := ho
  have hv : v = 128 := by omega
  subst hv
  have e1 := varintSize_le _ i1.1
  have e2 := varintSize_le _ i2.1
  have e3 := varintSize_le _ i3.1
  have e4 := varintSize_le _ i4.1
  rw [i1.2.2.1] at e1
  rw [i2.2.2.1] at e2
  rw [i3.2.2.1] at e3
  rw [i4.2.2.1] at e4
  have f1 : varintSize 128 = 2 := by decide +kernel
  have f2 : varintSize 1 = 1 := by decide +kernel
  rcases hx with ⟨rfl, rfl⟩ | rfl
  · have g : deltaSize [] = 5 := by decide +kernel
    have : 1 ≤ varintSize (zigzagNat first.toInt) := by unfold varintSize; omega
    have : varintSize ([] : List (BitVec 64)).length = 1 := by decide +kernel
    simp only [List.length_append]
    omega
  · have hd := differences_prefixSums first ds
    have hlen : (prefixSums first ds).length = ds.length + 1 := Delta.prefixSums_length first ds
    have hs := deltaBlocks_size hb (by intro i; have := hc i; rw [hd] at this; exact this)
    have hhead : (prefixSums first ds).headD 0#64 = first := by cases ds <;> rfl
    unfold deltaSize
    simp only [hd, hhead, List.length_append]
    rw [hlen] at hs e3 ⊢
    simp only [Nat.add_sub_cancel] at hs
    rw [show ds.length + 1 + 126 = ds.length + 127 by omega]
    omega

example : CloseDeltas [5, 100, BitVec.ofInt 64 (-7)] := by
  intro i
  cases i with
  | zero => decide +kernel
  | succ i =>
    rw [List.drop_of_length_le (by simp [differences]; omega)]
    decide

/-- **C92**: strings take their bytes and the delta stream of their lengths. -/
theorem C92_delta_length (ck : Bool) (items : List (List Byte)) (hn : items.length < 2 ^ 64) (out : List Byte)
    (h : DeltaLength.encode ck items = .ok out) : out.length = deltaLengthSize items := by
  unfold DeltaLength.encode at h
  obtain ⟨o, h1, h⟩ := Res.bind_eq_ok.1 h
  simp only [Res.pure_eq, Res.ok.injEq] at h
  rw [← h, List.length_append, C92_delta ck _ (by simpa using hn) o h1, deltaLengthSize, List.length_flatten]

example : [[1, 2, 3], [], [7]].length < 2 ^ 64 ∧
    (DeltaLength.encode true [[1, 2, 3], [], [7]]).map' List.length = .ok (deltaLengthSize [[1, 2, 3], [], [7]]) := by
  decide +kernel

/-- **C92**: with shared prefixes, they take the delta streams of the lengths of the longest prefixes shared
with the string before, and of the rests, and the bytes of the rests. -/
theorem C92_delta_bytes (ck : Bool) (items : List (List Byte)) (hn : items.length < 2 ^ 64) (out : List Byte)
    (h : DeltaByteArray.encode ck items = .ok out) :
    out.length = deltaSize ((shared [] items).map fun x => BitVec.ofNat 64 x.1) +
      deltaLengthSize ((shared [] items).map Prod.snd) := by
  have hs : ¬ Shrinks [] items := fun hs => by rw [C17_violated ck items hs hn] at h; simp at h
  obtain ⟨e1, e2⟩ := DeltaByteArray.shared_eq [] items hs
  have hp : DeltaByteArray.prefixes ck [] items = .ok (DeltaByteArray.prefixOf [] items) := by
    cases ck with
    | true => exact DeltaByteArray.prefixes_checked [] items hs
    | false => exact DeltaByteArray.prefixes_eq [] items
  unfold DeltaByteArray.encode at h
  rw [hp] at h
  simp only [Res.ok_bind] at h
  obtain ⟨a, h1, h⟩ := Res.bind_eq_ok.1 h
  rw [DeltaByteArray.suffixes_eq _ _ hs] at h
  simp only [Res.ok_bind] at h
  obtain ⟨b, h2, h⟩ := Res.bind_eq_ok.1 h
  simp only [Res.pure_eq, Res.ok.injEq] at h
  have l1 := DeltaByteArray.prefixOf_length [] items
  have l2 := DeltaByteArray.suffixOf_length [] items
  rw [← h, List.length_append, C92_delta ck _ (by rw [List.length_map, l1]; exact hn) a h1,
    C92_delta_length ck _ (by rw [l2]; exact hn) b h2, e1, e2, List.map_map]
  rfl

example : (DeltaByteArray.encode true [[72, 101, 108], [72, 101, 112, 108]]).map' List.length =
    .ok (deltaSize [0, 2] + deltaLengthSize [[72, 101, 108], [112, 108]]) := by decide +kernel
example : deltaSize [1, 2, 3, 4, 5] = 7 ∧ deltaSize [1, 2, 3, 4, 5, 1] = 55 := by decide +kernel

/-- Two deltas that are 1 apart modulo 2^64, and 2^64 - 1 apart as signed numbers. -/
def farApart : List (BitVec 64) := [0#64, 0x7FFFFFFFFFFFFFFF#64, 0xFFFFFFFFFFFFFFFF#64]

/-- A stream of them with a miniblock of width 1. -/
def farApartShort : List Byte :=
  [128#8, 1#8, 1#8, 3#8, 0#8, 254#8, 255#8, 255#8, 255#8, 255#8, 255#8, 255#8, 255#8, 255#8, 1#8, 1#8, 2#8] ++
    List.replicate 15 0#8

theorem farApart_long : ∃ out, Delta.encode false farApart = .ok out ∧ out.length = 1040 := by
  obtain ⟨out, h, -⟩ := C13_delta_roundtrip farApart (by decide)
  refine ⟨out, h, ?_⟩
  rw [C92_delta false farApart (by decide) out h]
  decide +kernel

theorem farApart_short : (Delta.decode false farApartShort).map' Prod.fst = .ok farApart := by decide +kernel

/-- **C92**: so there are as many bytes after the header as the whole groups of eight values that it
announces have just if less than eight bits are missing. -/
theorem C92_groups (n : Nat) (hn : 0 < n) (hn32 : n ≤ 32) (xs : List Rle.U32)
    (hfit : ∀ x ∈ xs, x.toNat < 2 ^ n) (hl : 4 * xs.length < 2 ^ 63) (out : List Byte)
    (h : Rle.encodeU32 xs n = .ok out) :
    ∃ header body groups, out = header ++ body ∧ IsHeader header (2 * groups + 1) ∧
      groups = (xs.length + 7) / 8 ∧ body.length ≤ groups * n ∧
      (body.length = groups * n ↔ (8 * groups - xs.length) * n < 8) := by
  obtain ⟨hd, h1, h2⟩ := Rle.header_spec xs.length (by omega)
  obtain ⟨body, g1, g2, -⟩ := Rle.bitpackedEncodeU32_spec n hn hn32 xs hfit
  rw [Rle.ceil8_eq] at g2 h2
  unfold Rle.encodeU32 at h
  rw [h1, Nat.mod_eq_of_lt (show n < 256 by omega), g1] at h
  simp only [Res.map', Res.ok.injEq] at h
  refine ⟨hd, body, _, h.symm, h2, rfl, ?_⟩
  rw [g2]
  obtain ⟨r, hr⟩ : ∃ r, xs.length + r = 8 * ((xs.length + 7) / 8) := ⟨8 * ((xs.length + 7) / 8) - xs.length, by omega⟩
  generalize (xs.length + 7) / 8 = g at *
  have e : xs.length * n + r * n = 8 * (g * n) := by rw [← Nat.add_mul, hr, Nat.mul_assoc]
  rw [show 8 * g - xs.length = r by omega]
  omega

example : ∃ out, Rle.encodeU32 [1#32, 2#32, 3#32] 4 = .ok out ∧ ∃ header body, out = header ++ body ∧
    body.length ≠ 4 := by
  obtain ⟨h, bd, h1, -⟩ := C08_hybrid_u32_roundtrip 4 (by decide) (by decide) [1#32, 2#32, 3#32] (by simp) (by decide) []
  obtain ⟨header, body, groups, e, -, hg, -, h2⟩ :=
    C92_groups 4 (by decide) (by decide) [1#32, 2#32, 3#32] (by simp) (by decide) _ h1
  refine ⟨_, h1, header, body, e, fun hb => ?_⟩
  have hg : groups = 1 := hg
  subst hg
  have := h2.1 hb
  simp at this

/-- **C92 is violated** by `encode_u32`, which may write less bytes than its header announces; and by deltas
that are far from each other: the width is 64 where one bit would do, by arithmetic modulo 2^64. -/
theorem C92_violated :
    (∃ out, Rle.encodeU32 [1#32, 2#32, 3#32] 4 = .ok out ∧ out.length = 1 + 2) ∧
    (∃ out, Delta.encode false farApart = .ok out ∧ out.length = 1040) ∧
    (Delta.decode false farApartShort).map' Prod.fst = .ok farApart ∧ farApartShort.length = 32 := by
  refine ⟨?_, farApart_long, farApart_short, rfl⟩
  obtain ⟨hd, body, h, -⟩ := C08_hybrid_u32_roundtrip 4 (by decide) (by decide) [1#32, 2#32, 3#32] (by simp)
    (by decide) []
  refine ⟨_, h, ?_⟩
  rw [C92_u32 4 (by decide) (by decide) _ (by simp) (by decide) _ h]
  decide +kernel

end Pq.Props
