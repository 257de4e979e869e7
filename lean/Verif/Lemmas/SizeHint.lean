import Verif.Model.SizeHint
import Verif.Spec.SizeHint
/-
Helper lemmas: an iterator that counts down announces the number of its items.
-/
namespace Pq.Spec

theorem Exact.from {σ α : Type} {next : σ → Res (Option α × σ)} {hint : σ → Nat × Option Nat}
    (h : Exact next hint) (s : σ) : ExactFrom next hint s := fun _ s' _ xs hy => h s' xs hy

/-- An iterator that ends exactly when its count is zero, and counts down by one, is exact. -/
theorem exact_of_count {σ α : Type} (next : σ → Res (Option α × σ)) (rem : σ → Nat)
    (h : ∀ s o s', next s = .ok (o, s') → (o = none ↔ rem s = 0) ∧ rem s' = rem s - 1) :
    Exact next fun s => (rem s, some (rem s)) := by
  intro s xs hy
  have : rem s = xs.length := by
    induction hy with
    | done e => exact ((h _ _ _ e).1.1 rfl)
    | item e _ ih =>
      obtain ⟨h1, h2⟩ := h _ _ _ e
      rw [ih] at h2
      have : ¬ rem _ = 0 := fun h0 => by have := h1.2 h0; cases this
      simp only [List.length_cons]
      omega
  simp only [this]

/-- An iterator that counts down by one with each item is exact if its count is right at first. -/
theorem exactFrom_of_count {σ α : Type} (next : σ → Res (Option α × σ)) (rem : σ → Nat)
    (h : ∀ s a s', next s = .ok (some a, s') → 0 < rem s → rem s' = rem s - 1) (s : σ) (xs : List α)
    (hy : Yields next s xs) (h0 : rem s = xs.length) : ExactFrom next (fun s => (rem s, some (rem s))) s := by
  intro k s' ha
  induction ha generalizing xs with
  | start s =>
    intro ys hy'
    simp only [h0, hy.unique hy']
  | call e _ ih =>
    cases hy with
    | done e' => rw [e] at e'; cases e'
    | item e' hy =>
      rw [e] at e'
      simp only [Res.ok.injEq, Prod.mk.injEq, Option.some.injEq] at e'
      obtain ⟨rfl, rfl⟩ := e'
      simp only [List.length_cons] at h0
      have := h _ _ _ e (by omega)
      exact ih _ hy (by omega)

end Pq.Spec
