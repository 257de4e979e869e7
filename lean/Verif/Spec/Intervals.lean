import Verif.Spec.Deserialize
/-
Rows of intervals and legal offset indexes: vocabulary for C27, C28.
-/
namespace Pq.Spec

/-- The rows of an interval, in order. -/
def rowsOf (iv : Interval) : List Nat := List.range' iv.start iv.length

/-- The first rows of the pages of an offset index are legal: non-negative, non-decreasing, not
beyond the number of rows. -/
def LegalRows (numRows : Nat) : List Int → Prop
  | [] => True
  | [r] => 0 ≤ r ∧ r ≤ numRows
  | r :: r' :: rest => 0 ≤ r ∧ r ≤ r' ∧ LegalRows numRows (r' :: rest)

instance : ∀ n rs, Decidable (LegalRows n rs)
  | _, [] => .isTrue trivial
  | n, [r] => inferInstanceAs (Decidable (0 ≤ r ∧ r ≤ (n : Int)))
  | n, r :: r' :: rest =>
    have := instDecidableLegalRows n (r' :: rest)
    inferInstanceAs (Decidable (0 ≤ r ∧ r ≤ r' ∧ LegalRows n (r' :: rest)))

/-- Consecutive intervals from row `a` to row `b`. -/
def Consecutive : Nat → Nat → List Interval → Prop
  | a, b, [] => a = b
  | a, b, iv :: ivs => iv.start = a ∧ Consecutive (a + iv.length) b ivs

end Pq.Spec
