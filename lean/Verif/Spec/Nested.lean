import Verif.Spec.Client
/-
Vocabulary for C75 and C76: how the format lays down values inside optional structures and lists.
-/
namespace Pq.Spec

/-- A value inside `n` optional levels: optional structures around each other, and the field itself. -/
def Nest (α : Type) : Nat → Type
  | 0 => α
  | n + 1 => Option (Nest α n)

/-- The definition level: how many of the optional levels are there. -/
def Nest.level {α : Type} : (n : Nat) → Nest α n → Nat
  | 0, _ => 0
  | _ + 1, none => 0
  | n + 1, some x => Nest.level n x + 1

/-- The value, if all the structures around it are there. -/
def Nest.value {α : Type} : (n : Nat) → Nest α n → Option α
  | 0, x => some x
  | _ + 1, none => none
  | n + 1, some x => Nest.value n x

/-- Levels up to `max`, in any legal stream of runs of the least number of bits that holds `max`; the last run may
be longer than needed. -/
def LevelRuns (max : Nat) (lv : List Byte) (levels : List Nat) : Prop :=
  ∃ w rs, max < 2 ^ w ∧ (∀ v, max < 2 ^ v → w ≤ v) ∧ RunStream w rs lv ∧
    (rs.flatMap (Run.values w)).take levels.length = levels

/-- The definition level of an item of an optional list of optional items. -/
def itemLevel {α : Type} : Option α → Nat
  | none => 2
  | some _ => 3

/-- The levels (repetition, definition) of an optional list of optional items. -/
def listLevels {α : Type} : Option (List (Option α)) → List (Nat × Nat)
  | none => [(0, 0)]
  | some [] => [(0, 1)]
  | some (x :: xs) => (0, itemLevel x) :: xs.map fun y => (1, itemLevel y)

/-- The items of such a list that are there. -/
def listItems {α : Type} (row : Option (List (Option α))) : List α := (row.getD []).filterMap id

/-- The row is a list with items. -/
def HasItems {α : Type} (row : Option (List (Option α))) : Prop := ∃ x xs, row = some (x :: xs)

end Pq.Spec
