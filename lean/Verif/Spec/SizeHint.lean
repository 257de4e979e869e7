import Verif.Spec.Iter
/-
What the size hint of an iterator promises.
-/
namespace Pq.Spec

/-- `s'` is reached from `s` by `k` calls of `next`, each of which returned an item. -/
inductive After {σ α : Type} (next : σ → Res (Option α × σ)) : σ → Nat → σ → Prop where
  | start (s : σ) : After next s 0 s
  | call {s s' s'' : σ} {a : α} {k : Nat} :
      next s = .ok (some a, s') → After next s' k s'' → After next s (k + 1) s''

/-- The hint is the number of items to come, in `s` and after any number of calls. -/
def ExactFrom {σ α : Type} (next : σ → Res (Option α × σ)) (hint : σ → Nat × Option Nat) (s : σ) : Prop :=
  ∀ k s', After next s k s' → ∀ xs, Yields next s' xs → hint s' = (xs.length, some xs.length)

/-- The hint is the number of items to come, in every state. -/
def Exact {σ α : Type} (next : σ → Res (Option α × σ)) (hint : σ → Nat × Option Nat) : Prop :=
  ∀ s xs, Yields next s xs → hint s = (xs.length, some xs.length)

end Pq.Spec
