import Verif.Spec.Statistics
import Verif.Spec.Indexes
/-
When two statistics, or two page indexes, say the same.
-/
namespace Pq.Spec

/-- Two patterns of floats that are the same number; NaN is none. -/
def SameNumber (e m : Nat) (x y : BitVec (1 + e + m)) : Prop :=
  ∃ v, floatVal e m x = some v ∧ floatVal e m y = some v

/-- Both missing, or both there and related. -/
def BothOr {α : Type} (R : α → α → Prop) (x y : Option α) : Prop :=
  (x = none ∧ y = none) ∨ ∃ a b, x = some a ∧ y = some b ∧ R a b

/-- The fields of two statistics are the same, the bounds up to `R`. -/
def SameFields {α : Type} (R : α → α → Prop) (a b : PrimitiveStatistics α) : Prop :=
  a.primitiveType = b.primitiveType ∧ a.nullCount = b.nullCount ∧ a.distinctCount = b.distinctCount ∧
    BothOr R a.minValue b.minValue ∧ BothOr R a.maxValue b.maxValue

/-- Two statistics are of the same kind and have the same fields; bounds that are floats are the same as
numbers. -/
def SameStatistics : Statistics → Statistics → Prop
  | .float a, .float b => SameFields (SameNumber 8 23) a b
  | .double a, .double b => SameFields (SameNumber 11 52) a b
  | a, b => a = b

/-- Fixed-length statistics of a fixed-length type. -/
def SoundType : Statistics → Prop
  | .fixedLen s => ∃ n, s.primitiveType.physicalType = .fixedLenByteArray n
  | _ => True

/-- A bound is NaN. -/
def HasNaN : Statistics → Prop
  | .float s => s.minValue.map (floatVal 8 23) = some none ∨ s.maxValue.map (floatVal 8 23) = some none
  | .double s => s.minValue.map (floatVal 11 52) = some none ∨ s.maxValue.map (floatVal 11 52) = some none
  | _ => False

/-- The entries of a page are the same, the bounds up to `R`. -/
def SameEntry {α : Type} (R : α → α → Prop) (a b : PageIndex α) : Prop :=
  BothOr R a.min b.min ∧ BothOr R a.max b.max ∧ a.nullCount = b.nullCount

/-- Two indexes are of the same kind and have the same fields; bounds that are floats are the same as
numbers. -/
def SameIndex : Index → Index → Prop
  | .float t xs o, .float u ys p => t = u ∧ List.Forall₂ (SameEntry (SameNumber 8 23)) xs ys ∧ o = p
  | .double t xs o, .double u ys p => t = u ∧ List.Forall₂ (SameEntry (SameNumber 11 52)) xs ys ∧ o = p
  | a, b => a = b

/-- A fixed-length index of a fixed-length type. -/
def SoundIndex : Index → Prop
  | .fixedLen t _ _ => ∃ n, t.physicalType = .fixedLenByteArray n
  | _ => True

/-- A bound of a page is NaN. -/
def IndexHasNaN : Index → Prop
  | .float _ xs _ => ∃ e ∈ xs, e.min.map (floatVal 8 23) = some none ∨ e.max.map (floatVal 8 23) = some none
  | .double _ xs _ => ∃ e ∈ xs, e.min.map (floatVal 11 52) = some none ∨ e.max.map (floatVal 11 52) = some none
  | _ => False

end Pq.Spec
