import Verif.Model.Schema
import Verif.Model.Types
/-
Model of `src/statistics/*.rs` (typed statistics and their thrift form) and of
`src/write/statistics.rs` (merging page statistics into chunk statistics).
-/
namespace Pq

/-- `src/statistics/primitive.rs:10-17` `PrimitiveStatistics<T>`. -/
structure PrimitiveStatistics (α : Type) where
  primitiveType : PrimitiveType
  nullCount : Option I64
  distinctCount : Option I64
  minValue : Option α
  maxValue : Option α
  deriving DecidableEq, Repr

/-- `src/statistics/binary.rs:12-18` `BinaryStatistics`. -/
structure BinaryStatistics where
  primitiveType : PrimitiveType
  nullCount : Option I64
  distinctCount : Option I64
  maxValue : Option (List Byte)
  minValue : Option (List Byte)
  deriving DecidableEq, Repr

/-- `src/statistics/fixed_len_binary.rs:12-18` `FixedLenStatistics`. -/
structure FixedLenStatistics where
  primitiveType : PrimitiveType
  nullCount : Option I64
  distinctCount : Option I64
  maxValue : Option (List Byte)
  minValue : Option (List Byte)
  deriving DecidableEq, Repr

/-- `src/statistics/boolean.rs:12-17` `BooleanStatistics`. -/
structure BooleanStatistics where
  nullCount : Option I64
  distinctCount : Option I64
  maxValue : Option Bool
  minValue : Option Bool
  deriving DecidableEq, Repr

/-- `src/statistics/mod.rs:20-26` `dyn Statistics`: the implementors. `f32`/`f64` values are their
bit patterns. -/
inductive Statistics where
  | boolean (s : BooleanStatistics)
  | int32 (s : PrimitiveStatistics (BitVec 32))
  | int64 (s : PrimitiveStatistics (BitVec 64))
  | int96 (s : PrimitiveStatistics Int96)
  | float (s : PrimitiveStatistics (BitVec 32))
  | double (s : PrimitiveStatistics (BitVec 64))
  | binary (s : BinaryStatistics)
  | fixedLen (s : FixedLenStatistics)
  deriving DecidableEq, Repr

/-- `physical_type` of each implementor: `src/statistics/primitive.rs:24-26`,
`binary.rs:25-27`, `fixed_len_binary.rs:25-27`, `boolean.rs:24-26`. -/
def Statistics.physicalType : Statistics → PhysicalType
  | .boolean _ => .boolean
  | .int32 _ => .int32
  | .int64 _ => .int64
  | .int96 _ => .int96
  | .float _ => .float
  | .double _ => .double
  | .binary _ => .byteArray
  | .fixedLen s => s.primitiveType.physicalType

/-- `null_count` of each implementor, e.g. `src/statistics/primitive.rs:28-30`. -/
def Statistics.nullCount : Statistics → Option I64
  | .boolean s => s.nullCount
  | .int32 s => s.nullCount
  | .int64 s => s.nullCount
  | .int96 s => s.nullCount
  | .float s => s.nullCount
  | .double s => s.nullCount
  | .binary s => s.nullCount
  | .fixedLen s => s.nullCount

/-! ### Thrift form -/

/-- The two width checks at the start of each `read`, e.g. `src/statistics/primitive.rs:37-50`. -/
def checkWidth (v : Thrift.Statistics) (size : Nat) : Res Unit := do
  match v.maxValue with
  | some x => if x.length ≠ size then .err .oos else .ok ()
  | none => .ok ()
  match v.minValue with
  | some x => if x.length ≠ size then .err .oos else .ok ()
  | none => .ok ()

/-- `Option::map` with a function that may panic. -/
def optionMapRes {α β : Type} (f : α → Res β) : Option α → Res (Option β)
  | none => .ok none
  | some x => (f x).map' some

/-- `src/statistics/primitive.rs:33-59` `read`; `decode` is `types::decode`. -/
def primitiveRead {α : Type} (size : Nat) (decode : List Byte → Res α) (v : Thrift.Statistics)
    (primitiveType : PrimitiveType) : Res (PrimitiveStatistics α) := do
  checkWidth v size
  let maxValue ← optionMapRes decode v.maxValue
  let minValue ← optionMapRes decode v.minValue
  .ok { primitiveType, nullCount := v.nullCount, distinctCount := v.distinctCount
        maxValue, minValue }

/-- `src/statistics/primitive.rs:61-70` `write`. -/
def primitiveWrite {α : Type} (toLe : α → List Byte) (v : PrimitiveStatistics α) : Thrift.Statistics :=
  { nullCount := v.nullCount, distinctCount := v.distinctCount
    maxValue := v.maxValue.map toLe, minValue := v.minValue.map toLe, min := none, max := none }

/-- `src/statistics/binary.rs:34-42` `read`. -/
def binaryRead (v : Thrift.Statistics) (primitiveType : PrimitiveType) : BinaryStatistics :=
  { primitiveType, nullCount := v.nullCount, distinctCount := v.distinctCount
    maxValue := v.maxValue, minValue := v.minValue }

/-- `src/statistics/binary.rs:44-53` `write`. -/
def binaryWrite (v : BinaryStatistics) : Thrift.Statistics :=
  { nullCount := v.nullCount, distinctCount := v.distinctCount
    maxValue := v.maxValue, minValue := v.minValue, min := none, max := none }

/-- `src/statistics/fixed_len_binary.rs:34-67` `read`. -/
def fixedLenRead (v : Thrift.Statistics) (size : Nat) (primitiveType : PrimitiveType) :
    Res FixedLenStatistics := do
  checkWidth v size
  .ok { primitiveType, nullCount := v.nullCount, distinctCount := v.distinctCount
        maxValue := v.maxValue.map (·.take size), minValue := v.minValue.map (·.take size) }

/-- `src/statistics/fixed_len_binary.rs:69-78` `write`. -/
def fixedLenWrite (v : FixedLenStatistics) : Thrift.Statistics :=
  { nullCount := v.nullCount, distinctCount := v.distinctCount
    maxValue := v.maxValue, minValue := v.minValue, min := none, max := none }

/-- `src/statistics/boolean.rs:33-63` `read`. -/
def booleanRead (v : Thrift.Statistics) : Res BooleanStatistics := do
  checkWidth v 1
  .ok { nullCount := v.nullCount, distinctCount := v.distinctCount
        maxValue := (v.maxValue.bind (·.head?)).map (· ≠ 0#8)
        minValue := (v.minValue.bind (·.head?)).map (· ≠ 0#8) }

/-- `src/statistics/boolean.rs:65-74` `write`. -/
def booleanWrite (v : BooleanStatistics) : Thrift.Statistics :=
  { nullCount := v.nullCount, distinctCount := v.distinctCount
    maxValue := v.maxValue.map fun x => [if x then 1#8 else 0#8]
    minValue := v.minValue.map fun x => [if x then 1#8 else 0#8], min := none, max := none }

/-- `src/statistics/mod.rs:98-114` `deserialize_statistics`. -/
def deserializeStatistics (statistics : Thrift.Statistics) (primitiveType : PrimitiveType) :
    Res Statistics :=
  match primitiveType.physicalType with
  | .boolean => (booleanRead statistics).map' .boolean
  | .int32 => (primitiveRead 4 (nativeDecode 4) statistics primitiveType).map' .int32
  | .int64 => (primitiveRead 8 (nativeDecode 8) statistics primitiveType).map' .int64
  | .int96 => (primitiveRead 12 int96Decode statistics primitiveType).map' .int96
  | .float => (primitiveRead 4 (nativeDecode 4) statistics primitiveType).map' .float
  | .double => (primitiveRead 8 (nativeDecode 8) statistics primitiveType).map' .double
  | .byteArray => .ok (.binary (binaryRead statistics primitiveType))
  | .fixedLenByteArray size => (fixedLenRead statistics size primitiveType).map' .fixedLen

/-- `src/statistics/mod.rs:117-134` `serialize_statistics`. A `FixedLenStatistics` whose
`primitive_type` is not a fixed-length byte array is downcast to another type: panic. -/
def serializeStatistics (statistics : Statistics) : Res Thrift.Statistics :=
  match statistics with
  | .boolean s => .ok (booleanWrite s)
  | .int32 s => .ok (primitiveWrite (nativeToLe 4) s)
  | .int64 s => .ok (primitiveWrite (nativeToLe 8) s)
  | .int96 s => .ok (primitiveWrite int96ToLe s)
  | .float s => .ok (primitiveWrite (nativeToLe 4) s)
  | .double s => .ok (primitiveWrite (nativeToLe 8) s)
  | .binary s => .ok (binaryWrite s)
  | .fixedLen s => match s.primitiveType.physicalType with
    | .fixedLenByteArray _ => .ok (fixedLenWrite s)
    | _ => .panic

/-! ### Merging -/

/-- `src/write/statistics.rs:9-16` `reduce_single`; the operation may panic. -/
def reduceSingle {α : Type} (lhs rhs : Option α) (op : α → α → Res α) : Res (Option α) :=
  match lhs, rhs with
  | none, none => .ok none
  | some x, none => .ok (some x)
  | none, some x => .ok (some x)
  | some x, some y => (op x y).map' some

/-- `i64` addition: panics on overflow with overflow checks (`ck`), wraps otherwise. -/
def addI64 (ck : Bool) (a b : I64) : Res I64 :=
  if ck ∧ ¬ (-(2 ^ 63) ≤ a.toInt + b.toInt ∧ a.toInt + b.toInt < 2 ^ 63) then .panic else .ok (a + b)

/-- `src/write/statistics.rs:106-125`: the loop of `ord_binary` over the zipped bytes, `a` and `b` the
complete strings. -/
def ordBinaryPickLoop (a b : List Byte) (max : Bool) : List (Byte × Byte) → List Byte
  | [] => a
  | (v1, v2) :: rest =>
    match compare v1.toNat v2.toNat with
    | .gt => if max then a else b
    | .lt => if max then b else a
    | .eq => ordBinaryPickLoop a b max rest

/-- `src/write/statistics.rs:105-126` `ord_binary`. -/
def ordBinaryPick (a b : List Byte) (max : Bool) : List Byte := ordBinaryPickLoop a b max (a.zip b)

/-- `src/write/statistics.rs:19-26` `reduce_vec8`. -/
def reduceVec8 (lhs rhs : Option (List Byte)) (max : Bool) : Option (List Byte) :=
  match lhs, rhs with
  | none, none => none
  | some x, none => some x
  | none, some x => some x
  | some x, some y => some (ordBinaryPick x y max)

/-- `stats.next().unwrap()` then `fold` (with a fold function that may panic). -/
def reduceFold {α : Type} (f : α → α → Res α) (stats : List α) : Res α :=
  match stats with
  | [] => .panic
  | initial :: rest => rest.foldlM f initial

/-- `src/write/statistics.rs:81-90` `reduce_binary`. -/
def reduceBinary (ck : Bool) (stats : List BinaryStatistics) : Res BinaryStatistics :=
  reduceFold (fun acc new => do
    let minValue := reduceVec8 acc.minValue new.minValue false
    let maxValue := reduceVec8 acc.maxValue new.maxValue true
    let nullCount ← reduceSingle acc.nullCount new.nullCount (addI64 ck)
    .ok { acc with minValue, maxValue, nullCount, distinctCount := none }) stats

/-- `src/write/statistics.rs:92-103` `reduce_fix_len_binary`. -/
def reduceFixLenBinary (ck : Bool) (stats : List FixedLenStatistics) : Res FixedLenStatistics :=
  reduceFold (fun acc new => do
    let minValue := reduceVec8 acc.minValue new.minValue false
    let maxValue := reduceVec8 acc.maxValue new.maxValue true
    let nullCount ← reduceSingle acc.nullCount new.nullCount (addI64 ck)
    .ok { acc with minValue, maxValue, nullCount, distinctCount := none }) stats

/-- `src/write/statistics.rs:128-147` `reduce_boolean`. -/
def reduceBoolean (ck : Bool) (stats : List BooleanStatistics) : Res BooleanStatistics :=
  reduceFold (fun acc new => do
    let minValue ← reduceSingle acc.minValue new.minValue fun x y => .ok (if x && !y then y else x)
    let maxValue ← reduceSingle acc.maxValue new.maxValue fun x y => .ok (if x && !y then x else y)
    let nullCount ← reduceSingle acc.nullCount new.nullCount (addI64 ck)
    .ok { acc with minValue, maxValue, nullCount, distinctCount := none }) stats

/-- `src/write/statistics.rs:149-172` `reduce_primitive`; `gt` is `>` of the native type. -/
def reducePrimitive {α : Type} (ck : Bool) (gt : α → α → Bool) (stats : List (PrimitiveStatistics α)) :
    Res (PrimitiveStatistics α) :=
  reduceFold (fun acc new => do
    let minValue ← reduceSingle acc.minValue new.minValue fun x y => .ok (if gt x y then y else x)
    let maxValue ← reduceSingle acc.maxValue new.maxValue fun x y => .ok (if gt x y then x else y)
    let nullCount ← reduceSingle acc.nullCount new.nullCount (addI64 ck)
    .ok { acc with minValue, maxValue, nullCount, distinctCount := none }) stats

/-- `>` of `i32`/`i64`. -/
def intGt {w : Nat} (x y : BitVec w) : Bool := decide (y.toInt < x.toInt)

/-- NaN test of an IEEE-754 pattern with `e` exponent and `m` mantissa bits. -/
def floatIsNaN (e m : Nat) (x : BitVec (1 + e + m)) : Bool :=
  decide (x.toNat / 2 ^ m % 2 ^ e = 2 ^ e - 1 ∧ x.toNat % 2 ^ m ≠ 0)

/-- Sign-magnitude reading of the pattern, which orders all numbers that are not NaN. -/
def floatKey (e m : Nat) (x : BitVec (1 + e + m)) : Int :=
  if x.toNat < 2 ^ (e + m) then x.toNat else -((x.toNat - 2 ^ (e + m) : Nat) : Int)

/-- `>` of `f32`/`f64`: false as soon as one is NaN. -/
def floatGt (e m : Nat) (x y : BitVec (1 + e + m)) : Bool :=
  !floatIsNaN e m x && !floatIsNaN e m y && decide (floatKey e m y < floatKey e m x)

/-- `x.as_any().downcast_ref().unwrap()` over all statistics: panics on a statistics of another
type. -/
def downcastAll {α : Type} (f : Statistics → Option α) : List Statistics → Res (List α)
  | [] => .ok []
  | s :: ss => do
    let x ← Res.unwrap (f s)
    let xs ← downcastAll f ss
    .ok (x :: xs)

/-- `src/write/statistics.rs:28-79` `reduce`. `todo!()` for int96 panics. -/
def reduceStatistics (ck : Bool) (stats : List (Option Statistics)) : Res (Option Statistics) :=
  if stats.isEmpty then .ok none
  else
    let stats := stats.filterMap id
    match stats with
    | [] => .ok none
    | first :: rest =>
      if ¬ rest.all (fun x => decide (x.physicalType = first.physicalType)) then .err .oos
      else
        match first.physicalType with
        | .boolean => do
          let s ← downcastAll (fun | .boolean s => some s | _ => none) stats
          (reduceBoolean ck s).map' fun x => some (.boolean x)
        | .int32 => do
          let s ← downcastAll (fun | .int32 s => some s | _ => none) stats
          (reducePrimitive ck intGt s).map' fun x => some (.int32 x)
        | .int64 => do
          let s ← downcastAll (fun | .int64 s => some s | _ => none) stats
          (reducePrimitive ck intGt s).map' fun x => some (.int64 x)
        | .float => do
          let s ← downcastAll (fun | .float s => some s | _ => none) stats
          (reducePrimitive ck (floatGt 8 23) s).map' fun x => some (.float x)
        | .double => do
          let s ← downcastAll (fun | .double s => some s | _ => none) stats
          (reducePrimitive ck (floatGt 11 52) s).map' fun x => some (.double x)
        | .byteArray => do
          let s ← downcastAll (fun | .binary s => some s | _ => none) stats
          (reduceBinary ck s).map' fun x => some (.binary x)
        | .fixedLenByteArray _ => do
          let s ← downcastAll (fun | .fixedLen s => some s | _ => none) stats
          (reduceFixLenBinary ck s).map' fun x => some (.fixedLen x)
        | .int96 => .panic

end Pq
