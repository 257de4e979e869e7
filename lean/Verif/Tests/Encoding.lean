import Verif.Model.HybridRle
import Verif.Model.DeltaBytes
import Verif.Model.Types
import Verif.Props.Bitpacked
import Verif.Props.HybridRle
import Verif.Props.Delta
/-
The unit tests of `src/encoding` and `src/read/levels.rs` with their inputs and expected results, run on
the model. They hold of the code; here the kernel checks that they hold of the model too. `cargo test` runs
in debug builds, so where the model distinguishes builds, the checks of overflows are on (`ck = true`).
Tests that are too large for the kernel to run are instances of the theorems for all inputs.
-/
namespace Pq.Tests

/-- `Result::is_ok`. -/
def isOk {α : Type} : Res α → Bool
  | .ok _ => true
  | _ => false

/-- `Result::is_err`; an abort is neither. -/
def isErr {α : Type} : Res α → Bool
  | .err _ => true
  | _ => false

-- `src/encoding/uleb128.rs:53-59` `decode_1`, 61-67 `decode_2`
example : Leb.decode [0xe5, 0x8e, 0x26, 0xDE, 0xAD, 0xBE, 0xEF] = .ok (624485, 3) := by decide +kernel
example : Leb.decode [0b00010000, 0b00000001, 0b00000011, 0b00000011] = .ok (16, 1) := by decide +kernel
-- `src/encoding/uleb128.rs:69-97` `round_trip`, `min_value`, `max_value`: the whole container is decoded
example : Leb.encodeInto 123124234 (List.replicate 10 0) = .ok ([138, 244, 218, 58, 0, 0, 0, 0, 0, 0], 4) ∧
    Leb.decode [138, 244, 218, 58, 0, 0, 0, 0, 0, 0] = .ok (123124234, 4) := by decide +kernel
example : Leb.encodeInto 0 (List.replicate 10 0) = .ok (List.replicate 10 0, 1) ∧
    Leb.decode (List.replicate 10 0) = .ok (0, 1) := by decide +kernel
example : Leb.encodeInto 0xFFFFFFFFFFFFFFFF (List.replicate 10 0) = .ok (List.replicate 9 0xFF ++ [1], 10) ∧
    Leb.decode (List.replicate 9 0xFF ++ [1]) = .ok (0xFFFFFFFFFFFFFFFF, 10) := by decide +kernel

/-- `src/encoding/zigzag_leb128.rs:25-36` and 45-56: the cases of both tests. -/
def zigzagCases : List (Byte × BitVec 64) :=
  [(0, 0), (1, -1), (2, 1), (3, -2), (4, 2), (5, -3), (6, 3), (7, -4), (8, 4), (9, -5)]

-- `src/encoding/zigzag_leb128.rs:22-41` `test_decode`, 43-62 `test_encode`, 64-70 `test_roundtrip`
example : ∀ x ∈ zigzagCases, (Leb.zigzagDecode [x.1]).map' Prod.fst = .ok x.2 := by decide +kernel
example : ∀ x ∈ zigzagCases, Leb.zigzagEncode x.2 = .ok [x.1] := by decide +kernel
example : ((Leb.zigzagEncode (-1001212312)) >>= fun bytes => (Leb.zigzagDecode bytes).map' Prod.fst) =
    .ok (-1001212312) := by decide +kernel

/-- `src/encoding/bitpacked/unpack.rs:102-137` `test_basic`, the loop of one type: all bits set. The input
has 4096 bytes in the test; the functions read no more than `b * b * 8` of them. The test asserts that
`trailing_ones` of all values is `n`. -/
def unpackOnes (b n : Nat) : Bool :=
  match Bitpack.unpack b (List.replicate (b * b * 8) 0xFF) n with
  | .ok output => output.length == 8 * b && output.all fun out => out == BitVec.ofNat (8 * b) (2 ^ n - 1)
  | _ => false

example : ∀ n ≤ 8, unpackOnes 1 n = true := by decide +kernel
example : ∀ n ≤ 16, unpackOnes 2 n = true := by decide +kernel
example : ∀ n ≤ 32, unpackOnes 4 n = true := by decide +kernel
example : ∀ n ≤ 64, unpackOnes 8 n = true := by decide +kernel

/-- `src/encoding/bitpacked/pack.rs:84`: the input of `test_basic`. -/
def once16 : List (BitVec (8 * 2)) := (List.range 16).map (BitVec.ofNat (8 * 2))

/-- `src/encoding/bitpacked/pack.rs:96-99`: the input of `test_u32`. -/
def twice16 : List (BitVec (8 * 4)) := (List.range 32).map fun i => BitVec.ofNat (8 * 4) (i % 16)

theorem once16_fit : ∀ x ∈ once16, x.toNat < 2 ^ 4 := forall_mem_of_all _ (by decide +kernel)

theorem twice16_fit : ∀ x ∈ twice16, x.toNat < 2 ^ 4 := forall_mem_of_all _ (by decide +kernel)

-- `src/encoding/bitpacked/pack.rs:83-92` `test_basic` and 95-107 `test_u32`
example : ∀ n, 4 ≤ n → n < 16 → ∃ output, Bitpack.pack 2 once16 (List.replicate 32 0#8) n = .ok output ∧
    Bitpack.unpack 2 output n = .ok once16 := by
  intro n h1 h2
  obtain ⟨o, g1, _, _, _, g2⟩ := Props.C04_block_roundtrip 2 n 32 (by decide) (by omega) (by omega)
    once16 (by decide) (fun x hx => Nat.lt_of_lt_of_le (once16_fit x hx) (Nat.pow_le_pow_right (by decide) h1))
  exact ⟨o, g1, g2⟩
example : ∀ n, 4 ≤ n → n < 32 → ∃ output, Bitpack.pack 4 twice16 (List.replicate 128 0#8) n = .ok output ∧
    Bitpack.unpack 4 output n = .ok twice16 := by
  intro n h1 h2
  obtain ⟨o, g1, _, _, _, g2⟩ := Props.C04_block_roundtrip 4 n 128 (by decide) (by omega) (by omega)
    twice16 (by decide) (fun x hx => Nat.lt_of_lt_of_le (twice16_fit x hx) (Nat.pow_le_pow_right (by decide) h1))
  exact ⟨o, g1, g2⟩

/-- `src/encoding/bitpacked/mod.rs:173-196` `case1`: the values. -/
def case1 : List (BitVec 32) := (List.range 40).map fun i => BitVec.ofNat 32 (i % 8)

/-- `src/encoding/bitpacked/mod.rs:173-196` `case1`: the bytes. -/
def case1Bytes : List Byte := (List.replicate 5 [0b10001000, 0b11000110, 0b11111010]).flatten

-- `src/encoding/bitpacked/mod.rs:198-205` `encode_large`, 207-219 `test_encode`
example : (Bitpack.encode 4 case1 3 (List.replicate 128 0)).map' (·.take 15) = .ok case1Bytes := by decide +kernel
example : (Bitpack.encode 4 [0, 1, 2, 3, 4, 5, 6, 7] 3 (List.replicate 128 0)).map' (·.take 3) =
    .ok [0b10001000, 0b11000110, 0b11111010] := by decide +kernel

-- `src/encoding/bitpacked/decode.rs:94-114` `test_decode_rle`, 117-124 `decode_large`,
-- 127-136 `test_decode_bool`, 139-148 `test_decode_u64`
example : Bitpack.decode 4 [0b10001000, 0b11000110, 0b11111010] 3 8 = .ok [0, 1, 2, 3, 4, 5, 6, 7] := by decide +kernel
example : Bitpack.decode 4 case1Bytes 3 40 = .ok case1 := by decide +kernel
example : Bitpack.decode 4 [0b10101010] 1 8 = .ok [0, 1, 0, 1, 0, 1, 0, 1] := by decide +kernel
example : Bitpack.decode 8 [0b10101010] 1 8 = .ok [0, 1, 0, 1, 0, 1, 0, 1] := by decide +kernel
-- 151-173 `even_case`, 176-200 `odd_case`
example : Bitpack.decode 4 (List.replicate 99 [0b10001000, 0b11000110, 0b00011010]).flatten 3 792 =
    .ok (List.replicate 99 [0, 1, 2, 3, 4, 5, 6, 0]).flatten := by decide +kernel
example : Bitpack.decode 4 ((List.replicate 4 [0b10001000, 0b11000110, 0b00011010]).flatten ++ [0b00000010]) 3 33 =
    .ok ((List.replicate 4 [0, 1, 2, 3, 4, 5, 6, 0]).flatten ++ [2]) := by decide +kernel
-- 203-215 `test_errors`
example : isOk (Bitpack.Decoder.tryNew 8 [] 1 0) = true ∧ isErr (Bitpack.Decoder.tryNew 8 [] 1 1) = true ∧
    isOk (Bitpack.Decoder.tryNew 8 [1] 1 8) = true ∧ isOk (Bitpack.Decoder.tryNew 8 [1, 1] 2 8) = true ∧
    isErr (Bitpack.Decoder.tryNew 8 [1] 1 9) = true ∧ isErr (Bitpack.Decoder.tryNew 8 [1] 0 1) = true := by
  decide +kernel

-- `src/encoding/hybrid_rle/decoder.rs:74-96` `basics_1`, 99-122 `basics_2`, 125-147 `basics_3`
example : (Rle.Runs.next ⟨[0b00000011, 0b00001011], 1⟩).map' Prod.fst = .ok (some (.bitpacked [0b00001011])) ∧
    Bitpack.decode 4 [0b00001011] 1 5 = .ok [1, 1, 0, 1, 0] := by decide +kernel
example : (Rle.Runs.next ⟨[0b00000101, 0b11101011, 0b00000010], 1⟩).map' Prod.fst =
      .ok (some (.bitpacked [0b11101011, 0b00000010])) ∧
    Bitpack.decode 4 [0b11101011, 0b00000010] 1 10 = .ok [1, 1, 0, 1, 0, 1, 1, 1, 0, 1] := by decide +kernel
example : (Rle.Runs.next ⟨[0b00010000, 0b00000001], 1⟩).map' Prod.fst = .ok (some (.rle [0b00000001] 8)) := by
  decide +kernel

/-- `src/encoding/hybrid_rle/mod.rs:142-211` `pyarrow_integration`: the bytes written by pyarrow for 0..1000. -/
def pyarrow : List Byte := [
  127, 0, 4, 32, 192, 0, 4, 20, 96, 192, 1, 8, 36, 160, 192, 2, 12, 52, 224, 192, 3, 16, 68, 32, 193, 4,
  20, 84, 96, 193, 5, 24, 100, 160, 193, 6, 28, 116, 224, 193, 7, 32, 132, 32, 194, 8, 36, 148, 96, 194, 9,
  40, 164, 160, 194, 10, 44, 180, 224, 194, 11, 48, 196, 32, 195, 12, 52, 212, 96, 195, 13, 56, 228, 160,
  195, 14, 60, 244, 224, 195, 15, 64, 4, 33, 196, 16, 68, 20, 97, 196, 17, 72, 36, 161, 196, 18, 76, 52,
  225, 196, 19, 80, 68, 33, 197, 20, 84, 84, 97, 197, 21, 88, 100, 161, 197, 22, 92, 116, 225, 197, 23, 96,
  132, 33, 198, 24, 100, 148, 97, 198, 25, 104, 164, 161, 198, 26, 108, 180, 225, 198, 27, 112, 196, 33,
  199, 28, 116, 212, 97, 199, 29, 120, 228, 161, 199, 30, 124, 244, 225, 199, 31, 128, 4, 34, 200, 32, 132,
  20, 98, 200, 33, 136, 36, 162, 200, 34, 140, 52, 226, 200, 35, 144, 68, 34, 201, 36, 148, 84, 98, 201,
  37, 152, 100, 162, 201, 38, 156, 116, 226, 201, 39, 160, 132, 34, 202, 40, 164, 148, 98, 202, 41, 168,
  164, 162, 202, 42, 172, 180, 226, 202, 43, 176, 196, 34, 203, 44, 180, 212, 98, 203, 45, 184, 228, 162,
  203, 46, 188, 244, 226, 203, 47, 192, 4, 35, 204, 48, 196, 20, 99, 204, 49, 200, 36, 163, 204, 50, 204,
  52, 227, 204, 51, 208, 68, 35, 205, 52, 212, 84, 99, 205, 53, 216, 100, 163, 205, 54, 220, 116, 227, 205,
  55, 224, 132, 35, 206, 56, 228, 148, 99, 206, 57, 232, 164, 163, 206, 58, 236, 180, 227, 206, 59, 240,
  196, 35, 207, 60, 244, 212, 99, 207, 61, 248, 228, 163, 207, 62, 252, 244, 227, 207, 63, 0, 5, 36, 208,
  64, 4, 21, 100, 208, 65, 8, 37, 164, 208, 66, 12, 53, 228, 208, 67, 16, 69, 36, 209, 68, 20, 85, 100,
  209, 69, 24, 101, 164, 209, 70, 28, 117, 228, 209, 71, 32, 133, 36, 210, 72, 36, 149, 100, 210, 73, 40,
  165, 164, 210, 74, 44, 181, 228, 210, 75, 48, 197, 36, 211, 76, 52, 213, 100, 211, 77, 56, 229, 164, 211,
  78, 60, 245, 228, 211, 79, 64, 5, 37, 212, 80, 68, 21, 101, 212, 81, 72, 37, 165, 212, 82, 76, 53, 229,
  212, 83, 80, 69, 37, 213, 84, 84, 85, 101, 213, 85, 88, 101, 165, 213, 86, 92, 117, 229, 213, 87, 96,
  133, 37, 214, 88, 100, 149, 101, 214, 89, 104, 165, 165, 214, 90, 108, 181, 229, 214, 91, 112, 197, 37,
  215, 92, 116, 213, 101, 215, 93, 120, 229, 165, 215, 94, 124, 245, 229, 215, 95, 128, 5, 38, 216, 96,
  132, 21, 102, 216, 97, 136, 37, 166, 216, 98, 140, 53, 230, 216, 99, 144, 69, 38, 217, 100, 148, 85, 102,
  217, 101, 152, 101, 166, 217, 102, 156, 117, 230, 217, 103, 160, 133, 38, 218, 104, 164, 149, 102, 218,
  105, 168, 165, 166, 218, 106, 172, 181, 230, 218, 107, 176, 197, 38, 219, 108, 180, 213, 102, 219, 109,
  184, 229, 166, 219, 110, 188, 245, 230, 219, 111, 192, 5, 39, 220, 112, 196, 21, 103, 220, 113, 200, 37,
  167, 220, 114, 204, 53, 231, 220, 115, 208, 69, 39, 221, 116, 212, 85, 103, 221, 117, 216, 101, 167, 221,
  118, 220, 117, 231, 221, 119, 224, 133, 39, 222, 120, 228, 149, 103, 222, 121, 232, 165, 167, 222, 122,
  236, 181, 231, 222, 123, 240, 197, 39, 223, 124, 244, 213, 103, 223, 125, 125, 248, 229, 167, 223, 126,
  252, 245, 231, 223, 127, 0, 6, 40, 224, 128, 4, 22, 104, 224, 129, 8, 38, 168, 224, 130, 12, 54, 232,
  224, 131, 16, 70, 40, 225, 132, 20, 86, 104, 225, 133, 24, 102, 168, 225, 134, 28, 118, 232, 225, 135,
  32, 134, 40, 226, 136, 36, 150, 104, 226, 137, 40, 166, 168, 226, 138, 44, 182, 232, 226, 139, 48, 198,
  40, 227, 140, 52, 214, 104, 227, 141, 56, 230, 168, 227, 142, 60, 246, 232, 227, 143, 64, 6, 41, 228,
  144, 68, 22, 105, 228, 145, 72, 38, 169, 228, 146, 76, 54, 233, 228, 147, 80, 70, 41, 229, 148, 84, 86,
  105, 229, 149, 88, 102, 169, 229, 150, 92, 118, 233, 229, 151, 96, 134, 41, 230, 152, 100, 150, 105, 230,
  153, 104, 166, 169, 230, 154, 108, 182, 233, 230, 155, 112, 198, 41, 231, 156, 116, 214, 105, 231, 157,
  120, 230, 169, 231, 158, 124, 246, 233, 231, 159, 128, 6, 42, 232, 160, 132, 22, 106, 232, 161, 136, 38,
  170, 232, 162, 140, 54, 234, 232, 163, 144, 70, 42, 233, 164, 148, 86, 106, 233, 165, 152, 102, 170, 233,
  166, 156, 118, 234, 233, 167, 160, 134, 42, 234, 168, 164, 150, 106, 234, 169, 168, 166, 170, 234, 170,
  172, 182, 234, 234, 171, 176, 198, 42, 235, 172, 180, 214, 106, 235, 173, 184, 230, 170, 235, 174, 188,
  246, 234, 235, 175, 192, 6, 43, 236, 176, 196, 22, 107, 236, 177, 200, 38, 171, 236, 178, 204, 54, 235,
  236, 179, 208, 70, 43, 237, 180, 212, 86, 107, 237, 181, 216, 102, 171, 237, 182, 220, 118, 235, 237,
  183, 224, 134, 43, 238, 184, 228, 150, 107, 238, 185, 232, 166, 171, 238, 186, 236, 182, 235, 238, 187,
  240, 198, 43, 239, 188, 244, 214, 107, 239, 189, 248, 230, 171, 239, 190, 252, 246, 235, 239, 191, 0, 7,
  44, 240, 192, 4, 23, 108, 240, 193, 8, 39, 172, 240, 194, 12, 55, 236, 240, 195, 16, 71, 44, 241, 196,
  20, 87, 108, 241, 197, 24, 103, 172, 241, 198, 28, 119, 236, 241, 199, 32, 135, 44, 242, 200, 36, 151,
  108, 242, 201, 40, 167, 172, 242, 202, 44, 183, 236, 242, 203, 48, 199, 44, 243, 204, 52, 215, 108, 243,
  205, 56, 231, 172, 243, 206, 60, 247, 236, 243, 207, 64, 7, 45, 244, 208, 68, 23, 109, 244, 209, 72, 39,
  173, 244, 210, 76, 55, 237, 244, 211, 80, 71, 45, 245, 212, 84, 87, 109, 245, 213, 88, 103, 173, 245,
  214, 92, 119, 237, 245, 215, 96, 135, 45, 246, 216, 100, 151, 109, 246, 217, 104, 167, 173, 246, 218,
  108, 183, 237, 246, 219, 112, 199, 45, 247, 220, 116, 215, 109, 247, 221, 120, 231, 173, 247, 222, 124,
  247, 237, 247, 223, 128, 7, 46, 248, 224, 132, 23, 110, 248, 225, 136, 39, 174, 248, 226, 140, 55, 238,
  248, 227, 144, 71, 46, 249, 228, 148, 87, 110, 249, 229, 152, 103, 174, 249, 230, 156, 119, 238, 249,
  231, 160, 135, 46, 250, 232, 164, 151, 110, 250, 233, 168, 167, 174, 250, 234, 172, 183, 238, 250, 235,
  176, 199, 46, 251, 236, 180, 215, 110, 251, 237, 184, 231, 174, 251, 238, 188, 247, 238, 251, 239, 192,
  7, 47, 252, 240, 196, 23, 111, 252, 241, 200, 39, 175, 252, 242, 204, 55, 239, 252, 243, 208, 71, 47,
  253, 244, 212, 87, 111, 253, 245, 216, 103, 175, 253, 246, 220, 119, 239, 253, 247, 224, 135, 47, 254,
  248, 228, 151, 111, 254, 249]

-- `src/encoding/hybrid_rle/mod.rs:123-138` `roundtrip`, 141-219 `pyarrow_integration`
example : ∃ buffer, Rle.encodeU32 ((List.range 1000).map (BitVec.ofNat 32)) 10 = .ok buffer ∧
    Rle.decode buffer 10 1000 = .ok ((List.range 1000).map (BitVec.ofNat 32)) := by
  obtain ⟨h, body, g1, _, _, _, g2⟩ := Props.C08_hybrid_u32_roundtrip 10 (by decide) (by decide)
    ((List.range 1000).map (BitVec.ofNat 32)) (fun x hx => by
      obtain ⟨i, hi, rfl⟩ := List.mem_map.1 hx
      have := List.mem_range.1 hi
      rw [BitVec.toNat_ofNat, Nat.mod_eq_of_lt (by omega)]; omega)
    (by simp) []
  refine ⟨_, g1, ?_⟩
  rw [List.append_nil] at g2
  simpa using g2
example : Rle.decode pyarrow 10 1000 = .ok ((List.range 1000).map (BitVec.ofNat 32)) := by decide +kernel
-- 222-233 `small`, 236-247 `zero_bit_width`, 250-261 `empty_values`
example : Rle.decode [3, 2] 3 1 = .ok [2] := by decide +kernel
example : Rle.decode [3] 0 2 = .ok [0, 0] := by decide +kernel
example : Rle.decode [] 1 100 = .ok (List.replicate 100 0) := by decide +kernel

-- `src/encoding/hybrid_rle/encoder.rs:101-111` `bool_basics_1`, 114-124 `bool_from_iter`
example : (do let iter ← Bitmap.Iter.new [0b10011101, 0b10011101] 0 14
              let bits ← iter.collect
              Rle.encodeBool bits) = .ok [5, 0b10011101, 0b00011101] := by decide +kernel
example : Rle.encodeBool (List.replicate 8 true) = .ok [3, 0b11111111] := by decide +kernel
-- 127-137 `test_encode_u32`, 140-155 `test_encode_u32_large`, 158-167 `test_u32_other`
example : Rle.encodeU32 [0, 1, 2, 1, 2, 1, 1, 0, 3] 2 = .ok [5, 0b01100100, 0b00010110, 0b00000011] := by
  decide +kernel
-- (the second one: the header and the values of the bytes it expects; `C08_hybrid_u32_roundtrip` says that
-- the encoder writes this header and these values)
example : Rle.header 128 = .ok [33] ∧ Bitpack.decode 4 (List.replicate 32 0b11100100) 2 128 =
    .ok ((List.range 128).map fun i => BitVec.ofNat 32 (i % 4)) := by decide +kernel
example : Rle.encodeU32 [3, 3, 0, 3, 2, 3, 3, 3, 3, 1, 3, 3, 3, 0, 3] 2 = .ok [5, 207, 254, 247, 51] := by
  decide +kernel

-- `src/encoding/delta_bitpacked/decoder.rs:251-266` `single_value`, 269-287 `test_from_spec`, 290-318 `case2`
example : Delta.decode true [128, 1, 4, 1, 2] = .ok ([1], 5) := by decide +kernel
example : Delta.decode true [128, 1, 4, 5, 2, 2, 0, 0, 0, 0] = .ok ([1, 2, 3, 4, 5], 10) := by decide +kernel
example : Delta.decode true [128, 1, 4, 6, 2, 7, 3, 0, 0, 0, 0b01101101, 0b00001011, 0, 0, 0, 0, 0, 0, 0, 0, 0, 0,
    1, 2, 3] = .ok ([1, 2, 3, 4, 5, 1], 22) := by decide +kernel
-- 321-366 `multiple_miniblocks`
example : Delta.decode true ([128, 1, 4, 65, 100, 7, 3, 4, 255, 0] ++ List.replicate 12 0 ++ List.replicate 16 0x88 ++
      [1, 2, 3]) =
    .ok ([50,
      46, 42, 38, 34, 30, 26, 22, 18, 14, 10, 6, 2, -2, -6, -10, -14, -18, -22, -26, -30, -34,
      -38, -42, -46, -50, -54, -58, -62, -66, -70, -74, -78,
      -74, -70, -66, -62, -58, -54, -50, -46, -42, -38, -34, -30, -26, -22, -18, -14, -10, -6,
      -2, 2, 6, 10, 14, 18, 22, 26, 30, 34, 38, 42, 46, 50], 38) := by decide +kernel

/-- `src/encoding/delta_bitpacked/mod.rs:14-93`: what the tests do, and that all bytes are consumed, which
only `test_another` asserts. -/
def deltaRoundTrip (data : List (BitVec 64)) : Bool :=
  match Delta.encode true data with
  | .ok buffer => Delta.decode true buffer == .ok (data, buffer.length)
  | _ => false

-- `basic`, `negative_value`, `some`, `more_than_one_block`, `test_another`
example : deltaRoundTrip [1, 3, 1, 2, 3] = true := by decide +kernel
example : deltaRoundTrip [1, 3, -1, 2, 3] = true := by decide +kernel
example : ∃ buffer, Delta.encode false [-2147483648, -1777158217, -984917788, -1533539476, -731221386, -1322398478,
      906736096] = .ok buffer ∧ (Delta.decode false buffer).map' Prod.fst =
    .ok [-2147483648, -1777158217, -984917788, -1533539476, -731221386, -1322398478, 906736096] :=
  Props.C13_delta_roundtrip _ (by decide)
example : ∃ buffer, Delta.encode false ([1, 3, -1, 2, 3, 10, 1] ++
      (List.range 128).map fun x => BitVec.ofNat 64 x - 10) = .ok buffer ∧
    (Delta.decode false buffer).map' Prod.fst =
      .ok ([1, 3, -1, 2, 3, 10, 1] ++ (List.range 128).map fun x => BitVec.ofNat 64 x - 10) :=
  Props.C13_delta_roundtrip _ (by simp)
example : deltaRoundTrip [2, 3, 1, 2, 1] = true := by decide +kernel

-- `src/encoding/delta_bitpacked/encoder.rs:85-100` `constant_delta`, 103-124 `negative_min_delta`
example : Delta.encode true [1, 2, 3, 4, 5] = .ok [128, 1, 1, 5, 2, 2, 0] := by decide +kernel
example : Delta.encode true [1, 2, 3, 4, 5, 1] =
    .ok ([128, 1, 1, 6, 2, 7, 3, 0b01101101, 0b00001011] ++ List.replicate 46 0) := by decide +kernel

/-- The UTF-8 bytes of a string. -/
def bytesOf (s : String) : List Byte := s.toUTF8.data.toList.map fun b => BitVec.ofNat 8 b.toNat

-- `src/encoding/delta_length_byte_array/mod.rs:14-28` `basic`, 31-51 `many_numbers`
example : (DeltaLength.encode true (["aa", "bbb", "a", "aa", "b"].map bytesOf) >>= DeltaLength.decode true) =
    .ok ([2, 3, 1, 2, 1], bytesOf "aabbbaaab") := by decide +kernel

/-- `src/encoding/delta_length_byte_array/mod.rs:33-36`: `format!("a{}", i)` for `i` below 136. -/
def manyNumbers : List (List Byte) :=
  (List.range 136).map fun i => 97#8 :: (Nat.toDigits 10 i).map fun c => BitVec.ofNat 8 c.toNat

example : (DeltaLength.encode true manyNumbers >>= DeltaLength.decode true) =
    .ok (manyNumbers.map (fun x => BitVec.ofNat 32 x.length), manyNumbers.flatten) := by decide +kernel

-- `src/encoding/delta_byte_array/decoder.rs:46-76` `test_bla`, 79-107 `test_with_prefix`
example : DeltaByteArray.decode true [
    128, 1, 4, 2, 0, 0, 0, 0, 0, 0, 128, 1, 4, 2, 10, 0, 0, 0, 0, 0, 72, 101, 108, 108,
    111, 87, 111, 114, 108, 100, 1, 2, 3] = .ok ([0, 0], [5, 5], bytesOf "HelloWorld") := by decide +kernel
example : DeltaByteArray.decode true [
    128, 1, 4, 2, 0, 6, 0, 0, 0, 0, 128, 1, 4, 2, 10, 4, 0, 0, 0, 0, 72, 101, 108, 108,
    111, 105, 99, 111, 112, 116, 101, 114, 1, 2, 3] = .ok ([0, 3], [5, 7], bytesOf "Helloicopter") := by
  decide +kernel
-- `src/encoding/delta_byte_array/mod.rs:13-34` `basic`
example : (DeltaByteArray.encode true (["Hello", "Helicopter"].map bytesOf) >>= DeltaByteArray.decode true) =
    .ok ([0, 3], [5, 7], bytesOf "Helloicopter") := by decide +kernel

-- `src/read/levels.rs:12-27` `test_get_bit_width`
example : [0, 1, 2, 3, 4, 5, 6, 7, 8, 15, 255, 256].map getBitWidth =
    [0, 1, 2, 2, 3, 3, 3, 3, 4, 4, 8, 9] := by decide +kernel

end Pq.Tests
