import Verif.Model.Statistics
import Verif.Spec.Rle
/-
What statistics mean: plain widths, numeric values, extrema, sums.
-/
namespace Pq.Spec

/-- Number of bytes of a plain-encoded bound; `none` for variable length. -/
def plainWidth : PhysicalType → Option Nat
  | .boolean => some 1
  | .int32 => some 4
  | .int64 => some 8
  | .int96 => some 12
  | .float => some 4
  | .double => some 8
  | .byteArray => none
  | .fixedLenByteArray n => some n

/-- The bounds have the width required by the physical type. -/
def WidthsOk (v : Thrift.Statistics) (t : PhysicalType) : Prop :=
  ∀ w, plainWidth t = some w →
    (∀ x, v.maxValue = some x → x.length = w) ∧ (∀ x, v.minValue = some x → x.length = w)

/-- The statistics `s` belongs to columns of type `pt`. -/
def OfType (s : Statistics) (pt : PrimitiveType) : Prop :=
  match s with
  | .boolean _ => pt.physicalType = .boolean
  | .int32 s => s.primitiveType = pt ∧ pt.physicalType = .int32
  | .int64 s => s.primitiveType = pt ∧ pt.physicalType = .int64
  | .int96 s => s.primitiveType = pt ∧ pt.physicalType = .int96
  | .float s => s.primitiveType = pt ∧ pt.physicalType = .float
  | .double s => s.primitiveType = pt ∧ pt.physicalType = .double
  | .binary s => s.primitiveType = pt ∧ pt.physicalType = .byteArray
  | .fixedLen s => s.primitiveType = pt ∧ ∃ n, pt.physicalType = .fixedLenByteArray n ∧
      (∀ x, s.maxValue = some x → x.length = n) ∧ (∀ x, s.minValue = some x → x.length = n)

/-- Plain encoding of an int96. -/
def int96Bytes (x : Int96) : List Byte :=
  leBytes 4 x.w0.toNat ++ leBytes 4 x.w1.toNat ++ leBytes 4 x.w2.toNat

/-- Plain encoding of the minimum. -/
def plainMin : Statistics → Option (List Byte)
  | .boolean s => s.minValue.map fun b => [if b then 1 else 0]
  | .int32 s => s.minValue.map fun x => leBytes 4 x.toNat
  | .int64 s => s.minValue.map fun x => leBytes 8 x.toNat
  | .int96 s => s.minValue.map int96Bytes
  | .float s => s.minValue.map fun x => leBytes 4 x.toNat
  | .double s => s.minValue.map fun x => leBytes 8 x.toNat
  | .binary s => s.minValue
  | .fixedLen s => s.minValue

/-- Plain encoding of the maximum. -/
def plainMax : Statistics → Option (List Byte)
  | .boolean s => s.maxValue.map fun b => [if b then 1 else 0]
  | .int32 s => s.maxValue.map fun x => leBytes 4 x.toNat
  | .int64 s => s.maxValue.map fun x => leBytes 8 x.toNat
  | .int96 s => s.maxValue.map int96Bytes
  | .float s => s.maxValue.map fun x => leBytes 4 x.toNat
  | .double s => s.maxValue.map fun x => leBytes 8 x.toNat
  | .binary s => s.maxValue
  | .fixedLen s => s.maxValue

/-- Number of distinct values recorded. -/
def distinctOf : Statistics → Option I64
  | .boolean s => s.distinctCount
  | .int32 s => s.distinctCount
  | .int64 s => s.distinctCount
  | .int96 s => s.distinctCount
  | .float s => s.distinctCount
  | .double s => s.distinctCount
  | .binary s => s.distinctCount
  | .fixedLen s => s.distinctCount

/-- The IEEE-754 value of a pattern with `e` exponent and `m` mantissa bits, scaled by
`2 ^ (bias + m - 1)` so that it is an integer; infinities count as the number after the largest
finite one, NaN has no value. -/
def floatVal (e m : Nat) (x : BitVec (1 + e + m)) : Option Int :=
  let mantissa := x.toNat % 2 ^ m
  let exponent := x.toNat / 2 ^ m % 2 ^ e
  let negative := 2 ^ (e + m) ≤ x.toNat
  if exponent = 2 ^ e - 1 ∧ mantissa ≠ 0 then none
  else
    let magnitude : Int := if exponent = 0 then mantissa else (2 ^ m + mantissa) * 2 ^ (exponent - 1)
    some (if negative then -magnitude else magnitude)

/-- The numeric value of a bound; `some none` is NaN. -/
def boolVal (b : Bool) : Int := if b then 1 else 0

/-- The numeric minimum of a statistics (`some none`: NaN), and `none` for other types. -/
def numMin : Statistics → Option (Option Int)
  | .boolean s => s.minValue.map (some ∘ boolVal)
  | .int32 s => s.minValue.map (some ∘ BitVec.toInt)
  | .int64 s => s.minValue.map (some ∘ BitVec.toInt)
  | .float s => s.minValue.map (floatVal 8 23)
  | .double s => s.minValue.map (floatVal 11 52)
  | _ => none

/-- The numeric maximum of a statistics. -/
def numMax : Statistics → Option (Option Int)
  | .boolean s => s.maxValue.map (some ∘ boolVal)
  | .int32 s => s.maxValue.map (some ∘ BitVec.toInt)
  | .int64 s => s.maxValue.map (some ∘ BitVec.toInt)
  | .float s => s.maxValue.map (floatVal 8 23)
  | .double s => s.maxValue.map (floatVal 11 52)
  | _ => none

/-- Byte-array minimum of a statistics. -/
def bytesMin : Statistics → Option (List Byte)
  | .binary s => s.minValue
  | .fixedLen s => s.minValue
  | _ => none

/-- Byte-array maximum of a statistics. -/
def bytesMax : Statistics → Option (List Byte)
  | .binary s => s.maxValue
  | .fixedLen s => s.maxValue
  | _ => none

/-- `r` is the extremum, for `le`, of the values present in `xs`: one of them, before all of them;
absent iff there is none. -/
def Extremum {α : Type} (le : α → α → Prop) (xs : List (Option α)) (r : Option α) : Prop :=
  match r with
  | none => ∀ x ∈ xs, x = none
  | some y => some y ∈ xs ∧ ∀ x, some x ∈ xs → le y x

/-- Order of numeric bounds; NaN is comparable to nothing. -/
def numLe (a b : Option Int) : Prop := ∃ x y, a = some x ∧ b = some y ∧ x ≤ y

/-- The reverse order. -/
def numGe (a b : Option Int) : Prop := numLe b a

/-- Lexicographic order of byte strings (unsigned bytes). -/
def lexLe : List Byte → List Byte → Prop
  | [], _ => True
  | _ :: _, [] => False
  | a :: as, b :: bs => a.toNat < b.toNat ∨ (a = b ∧ lexLe as bs)

/-- `r` is the sum of the counts present in `xs` (modulo 2^64), absent iff there is none. -/
def SumOf (xs : List (Option I64)) (r : Option I64) : Prop :=
  match r with
  | none => ∀ x ∈ xs, x = none
  | some y => (∃ x, some x ∈ xs) ∧ y = BitVec.ofInt 64 ((xs.filterMap id).map BitVec.toInt).sum

/-- The same, without modulus. -/
def ExactSumOf (xs : List (Option I64)) (r : Option I64) : Prop :=
  match r with
  | none => ∀ x ∈ xs, x = none
  | some y => (∃ x, some x ∈ xs) ∧ y.toInt = ((xs.filterMap id).map BitVec.toInt).sum

end Pq.Spec
