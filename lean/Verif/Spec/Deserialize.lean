import Verif.Spec.Iter
import Verif.Spec.Rle
import Verif.Model.Deserialize
/-
Model-independent vocabulary for C19–C24: what an optional column, a row selection and a page of
values are. Only the data types of the API (`Interval`, the runs) are shared with the model.
-/
namespace Pq.Spec
open Pq.Deser (Encoded Filtered)

/-- The optional column with the given validity and the given non-null values, in order. Values
missing at the end read as null. -/
def assemble {α : Type} : List Bool → List α → List (Option α)
  | [], _ => []
  | false :: bs, vs => none :: assemble bs vs
  | true :: bs, [] => none :: assemble bs []
  | true :: bs, v :: vs => some v :: assemble bs vs

/-- The rows of a column in the given intervals. -/
def selectRows {α : Type} (ivs : List Interval) (rows : List α) : List α :=
  ivs.flatMap fun iv => (rows.drop iv.start).take iv.length

/-- Intervals in increasing order, not overlapping, none before row `pos`. -/
def SortedFrom : Nat → List Interval → Prop
  | _, [] => True
  | pos, iv :: ivs => pos ≤ iv.start ∧ SortedFrom (iv.start + iv.length) ivs

instance : ∀ pos ivs, Decidable (SortedFrom pos ivs)
  | _, [] => .isTrue trivial
  | pos, iv :: ivs =>
    have := instDecidableSortedFrom (iv.start + iv.length) ivs
    inferInstanceAs (Decidable (_ ∧ _))

/-- All the intervals end at or before row `n`. -/
def Within (n : Nat) (ivs : List Interval) : Prop := ∀ iv ∈ ivs, iv.start + iv.length ≤ n

/-- The booleans a run stands for. -/
def runBits : Encoded → List Bool
  | .bitmap bytes n => (List.range n).map (bitAt bytes)
  | .repeated b n => List.replicate n b

/-- A bitmap run does not claim more bits than it has. -/
def RunOk : Encoded → Prop
  | .bitmap bytes n => n ≤ 8 * bytes.length
  | .repeated _ _ => True

instance (e : Encoded) : Decidable (RunOk e) := by
  cases e <;> (unfold RunOk; infer_instance)

/-- The booleans of a selected part of a run (none for a skipped part). -/
def selectedBits : Filtered → List Bool
  | .bitmap bytes off n => (List.range n).map fun k => bitAt bytes (off + k)
  | .repeated b n => List.replicate n b
  | .skipped _ => []

/-- How a reader uses the filtered runs over the non-null values: a skipped run drops its number
of set values, a selected run takes one value for each set bit. -/
def consume {α : Type} : List Filtered → List α → List (Option α)
  | [], _ => []
  | .skipped n :: rest, vs => consume rest (vs.drop n)
  | item :: rest, vs =>
    assemble (selectedBits item) vs ++ consume rest (vs.drop ((selectedBits item).count true))

/-- Iterating a slice. -/
def listNext {α : Type} : List α → Res (Option α × List α)
  | [] => .ok (none, [])
  | a :: as => .ok (some a, as)

end Pq.Spec
