import Verif.Model.Statistics
import Verif.Model.Indexes
/-
Model of the equality of trait objects: `src/statistics/mod.rs:28-91` (`dyn Statistics`) and
`src/indexes/index.rs:18-70` (`dyn Index`), with the derived equalities they call. Numbers of type
`f32`/`f64` are their bit patterns and are compared as numbers.
-/
namespace Pq

/-- `==` of `f32`/`f64`: false as soon as one is NaN; the two zeros are equal. -/
def floatEq (e m : Nat) (x y : BitVec (1 + e + m)) : Bool :=
  !floatIsNaN e m x && !floatIsNaN e m y && decide (floatKey e m x = floatKey e m y)

/-- `==` of an `Option`. -/
def optionEq {α : Type} (eq : α → α → Bool) : Option α → Option α → Bool
  | none, none => true
  | some x, some y => eq x y
  | _, _ => false

/-- `==` of a `Vec`. -/
def vecEq {α : Type} (eq : α → α → Bool) : List α → List α → Bool
  | [], [] => true
  | x :: xs, y :: ys => eq x y && vecEq eq xs ys
  | _, _ => false

/-- `src/statistics/primitive.rs:10-17`: the derived `PartialEq` of `PrimitiveStatistics<T>`. -/
def PrimitiveStatistics.eq {α : Type} (eq : α → α → Bool) (a b : PrimitiveStatistics α) : Bool :=
  decide (a.primitiveType = b.primitiveType) && decide (a.nullCount = b.nullCount) &&
    decide (a.distinctCount = b.distinctCount) && optionEq eq a.minValue b.minValue &&
    optionEq eq a.maxValue b.maxValue

/-- `src/statistics/mod.rs:28-91` `eq` of `&dyn Statistics`. A `FixedLenStatistics` with the primitive type of
another physical type is downcast to the statistics of that type: panic. -/
def Statistics.eq (a b : Statistics) : Res Bool :=
  if a.physicalType ≠ b.physicalType then .ok false
  else match a.physicalType with
    | .boolean => match a, b with
      | .boolean x, .boolean y => .ok (decide (x = y))
      | _, _ => .panic
    | .int32 => match a, b with
      | .int32 x, .int32 y => .ok (x.eq (fun u v => decide (u = v)) y)
      | _, _ => .panic
    | .int64 => match a, b with
      | .int64 x, .int64 y => .ok (x.eq (fun u v => decide (u = v)) y)
      | _, _ => .panic
    | .int96 => match a, b with
      | .int96 x, .int96 y => .ok (x.eq (fun u v => decide (u = v)) y)
      | _, _ => .panic
    | .float => match a, b with
      | .float x, .float y => .ok (x.eq (floatEq 8 23) y)
      | _, _ => .panic
    | .double => match a, b with
      | .double x, .double y => .ok (x.eq (floatEq 11 52) y)
      | _, _ => .panic
    | .byteArray => match a, b with
      | .binary x, .binary y => .ok (decide (x = y))
      | _, _ => .panic
    | .fixedLenByteArray _ => match a, b with
      | .fixedLen x, .fixedLen y => .ok (decide (x = y))
      | _, _ => .panic

/-- `src/indexes/index.rs:127-135`: the derived `PartialEq` of `PageIndex<T>`. -/
def PageIndex.eq {α : Type} (eq : α → α → Bool) (a b : PageIndex α) : Bool :=
  optionEq eq a.min b.min && optionEq eq a.max b.max && decide (a.nullCount = b.nullCount)

/-- `src/indexes/index.rs:73-81`, 148-154, 208-214: the derived `PartialEq` of the indexes with a
primitive type. -/
def nativeIndexEq {α : Type} (eq : α → α → Bool) (t u : PrimitiveType) (xs ys : List (PageIndex α))
    (o p : BoundaryOrder) : Bool :=
  decide (t = u) && vecEq (PageIndex.eq eq) xs ys && decide (o = p)

/-- `src/indexes/index.rs:26-70` `equal`, which is `eq` of `dyn Index`. A `FixedLenByteIndex` with the primitive
type of another physical type is downcast to the index of that type: panic. -/
def Index.eq (a b : Index) : Res Bool :=
  if a.physicalType ≠ b.physicalType then .ok false
  else match a.physicalType with
    | .boolean => match a, b with
      | .boolean xs o, .boolean ys p =>
        .ok (vecEq (PageIndex.eq fun u v => decide (u = v)) xs ys && decide (o = p))
      | _, _ => .panic
    | .int32 => match a, b with
      | .int32 t xs o, .int32 u ys p => .ok (nativeIndexEq (fun x y => decide (x = y)) t u xs ys o p)
      | _, _ => .panic
    | .int64 => match a, b with
      | .int64 t xs o, .int64 u ys p => .ok (nativeIndexEq (fun x y => decide (x = y)) t u xs ys o p)
      | _, _ => .panic
    | .int96 => match a, b with
      | .int96 t xs o, .int96 u ys p => .ok (nativeIndexEq (fun x y => decide (x = y)) t u xs ys o p)
      | _, _ => .panic
    | .float => match a, b with
      | .float t xs o, .float u ys p => .ok (nativeIndexEq (floatEq 8 23) t u xs ys o p)
      | _, _ => .panic
    | .double => match a, b with
      | .double t xs o, .double u ys p => .ok (nativeIndexEq (floatEq 11 52) t u xs ys o p)
      | _, _ => .panic
    | .byteArray => match a, b with
      | .byteArray t xs o, .byteArray u ys p => .ok (nativeIndexEq (fun x y => decide (x = y)) t u xs ys o p)
      | _, _ => .panic
    | .fixedLenByteArray _ => match a, b with
      | .fixedLen t xs o, .fixedLen u ys p => .ok (nativeIndexEq (fun x y => decide (x = y)) t u xs ys o p)
      | _, _ => .panic

end Pq
