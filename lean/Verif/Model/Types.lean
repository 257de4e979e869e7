import Verif.Model.Base
/-
Model of `src/types.rs` and `src/read/levels.rs`. A native value is its bit pattern: `i32`, `f32`
are 32 bits, `i64`, `f64` 64 bits, `[u32; 3]` (int96) is a triple of words.
-/
namespace Pq

/-- `src/types.rs:22-25`: `to_le_bytes` of a native type of `b` bytes. -/
def nativeToLe (b : Nat) (x : BitVec (8 * b)) : List Byte := toLe b x

/-- `src/types.rs:135-141` `decode`: panics unless the chunk has exactly the size of the type. -/
def nativeDecode (b : Nat) (chunk : List Byte) : Res (BitVec (8 * b)) :=
  if chunk.length = b then .ok (fromLe (8 * b) chunk) else .panic

/-- `src/types.rs:47`: int96. -/
structure Int96 where
  w0 : BitVec 32
  w1 : BitVec 32
  w2 : BitVec 32
  deriving DecidableEq, Repr

/-- `src/types.rs:52-70` `to_le_bytes` of int96. -/
def int96ToLe (x : Int96) : List Byte :=
  let first := toLe 4 x.w0
  let second := toLe 4 x.w1
  let third := toLe 4 x.w2
  [first.getD 0 0, first.getD 1 0, first.getD 2 0, first.getD 3 0,
   second.getD 0 0, second.getD 1 0, second.getD 2 0, second.getD 3 0,
   third.getD 0 0, third.getD 1 0, third.getD 2 0, third.getD 3 0]

/-- `src/types.rs:73-94` `from_le_bytes` of int96. -/
def int96FromLe (b : List Byte) : Int96 :=
  { w0 := fromLe 32 [b.getD 0 0, b.getD 1 0, b.getD 2 0, b.getD 3 0]
    w1 := fromLe 32 [b.getD 4 0, b.getD 5 0, b.getD 6 0, b.getD 7 0]
    w2 := fromLe 32 [b.getD 8 0, b.getD 9 0, b.getD 10 0, b.getD 11 0] }

/-- `src/types.rs:134-141` `decode::<[u32; 3]>`. -/
def int96Decode (chunk : List Byte) : Res Int96 :=
  if chunk.length = 12 then .ok (int96FromLe chunk) else .panic

/-- `src/types.rs:103-113` `int96_to_i64_ns`, with wrapping (release) arithmetic. -/
def int96ToNs (x : Int96) : BitVec 64 :=
  let day := x.w2.setWidth 64
  let nanoseconds := (x.w1.setWidth 64 <<< 32) + x.w0.setWidth 64
  let seconds := (day - 2440588#64) * 86400#64
  seconds * 1000000000#64 + nanoseconds

/-- `src/types.rs:33-35` `ord` of a signed integer type (`partial_cmp` is total). -/
def intOrd {w : Nat} (a b : BitVec w) : Ordering := compare a.toInt b.toInt

/-- `src/types.rs:97-99` `ord` of int96. -/
def int96Ord (a b : Int96) : Ordering := intOrd (int96ToNs a) (int96ToNs b)

/-- `src/types.rs:125-131`: the loop of `ord_binary` over the zipped bytes. -/
def ordBinaryLoop : List (Byte × Byte) → Ordering
  | [] => .eq
  | (v1, v2) :: rest =>
    match compare v1.toNat v2.toNat with
    | .eq => ordBinaryLoop rest
    | other => other

/-- `src/types.rs:116-132` `ord_binary`. -/
def ordBinary (a b : List Byte) : Ordering :=
  match a.isEmpty, b.isEmpty with
  | true, true => .eq
  | true, false => .lt
  | false, true => .gt
  | false, false => ordBinaryLoop (a.zip b)

/-- `i16::leading_zeros`. -/
def leadingZeros16 (x : BitVec 16) : Nat :=
  ((List.range 16).takeWhile fun i => !x.getLsbD (15 - i)).length

/-- `src/read/levels.rs:3-5` `get_bit_width`: `16 - max_level.leading_zeros()`. -/
def getBitWidth (maxLevel : BitVec 16) : Nat := 16 - leadingZeros16 maxLevel

end Pq
