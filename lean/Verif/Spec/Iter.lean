import Verif.Model.Bitpacked
/-
Model-independent meaning of a Rust iterator given by its `next` function.
-/
namespace Pq.Spec

/-- Starting in state `s`, repeated calls of `next` return exactly the items `xs` and then `None`,
without an error or a panic. -/
inductive Yields {σ α : Type} (next : σ → Res (Option α × σ)) : σ → List α → Prop where
  | done {s s' : σ} : next s = .ok (none, s') → Yields next s []
  | item {s s' : σ} {a : α} {xs : List α} :
      next s = .ok (some a, s') → Yields next s' xs → Yields next s (a :: xs)

/-- `collect` returns the items. -/
theorem Yields.drain {σ α : Type} {next : σ → Res (Option α × σ)} {s : σ} {xs : List α}
    (h : Yields next s xs) (fuel : Nat) (hf : xs.length < fuel) : drain next fuel s = .ok xs := by
  induction h generalizing fuel with
  | done h =>
    cases fuel with
    | zero => simp at hf
    | succ fuel => simp [Pq.drain, h]
  | item h _ ih =>
    cases fuel with
    | zero => simp at hf
    | succ fuel =>
      simp only [List.length_cons] at hf
      simp [Pq.drain, h, ih fuel (by omega), Res.map']

/-- The converse: what `collect` returns is what the iterator yields. -/
theorem Yields.of_drain {σ α : Type} {next : σ → Res (Option α × σ)} {s : σ} {xs : List α}
    (fuel : Nat) (h : Pq.drain next fuel s = .ok xs) : Yields next s xs := by
  induction fuel generalizing s xs with
  | zero => simp [Pq.drain] at h
  | succ fuel ih =>
    unfold Pq.drain at h
    split at h
    · rename_i h1
      simp only [Res.ok.injEq] at h
      subst h
      exact .done h1
    · rename_i h1
      cases hd : Pq.drain next fuel _ with
      | ok ys =>
        rw [hd] at h
        simp only [Res.map', Res.ok.injEq] at h
        subst h
        exact .item h1 (ih hd)
      | err e => rw [hd] at h; simp [Res.map'] at h
      | panic => rw [hd] at h; simp [Res.map'] at h
    · simp at h
    · simp at h

/-- An iterator yields one sequence only. -/
theorem Yields.unique {σ α : Type} {next : σ → Res (Option α × σ)} {s : σ} {xs ys : List α}
    (h : Yields next s xs) (h' : Yields next s ys) : xs = ys := by
  have a := h.drain (xs.length + ys.length + 1) (by omega)
  have b := h'.drain (xs.length + ys.length + 1) (by omega)
  rw [a] at b
  simpa using b

end Pq.Spec
