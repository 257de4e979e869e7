import Verif.Model.Base
/-
The two build profiles compared: with overflow checks, and without.
-/
namespace Pq.Spec

/-- With overflow checks the outcome is that without, or the program aborts. -/
def Agrees {α : Type} (checked unchecked : Res α) : Prop := checked = .panic ∨ checked = unchecked

/-- The same where there is also a state or output, all of which agrees unless the program aborts. -/
def AgreesAfter {α σ : Type} (checked unchecked : Res α × σ) : Prop := checked.1 = .panic ∨ checked = unchecked

/-- The same for an item of an iterator. -/
def AgreesItem {α σ : Type} (checked unchecked : Option (Res α) × σ) : Prop :=
  checked.1 = some .panic ∨ checked = unchecked

end Pq.Spec
