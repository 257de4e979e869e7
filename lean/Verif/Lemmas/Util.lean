/- Small general-purpose lemmas. -/
namespace Pq

/-- Checks a bounded quantifier by evaluation. -/
theorem forall_mem_of_all {α : Type u} {P : α → Prop} [DecidablePred P] (l : List α)
    (h : l.all (fun x => decide (P x)) = true) : ∀ x ∈ l, P x :=
  fun x hx => of_decide_eq_true (List.all_eq_true.1 h x hx)

theorem length_le_flatten {α : Type u} (items : List (List α)) (x : List α) (hx : x ∈ items) :
    x.length ≤ items.flatten.length := by
  induction items with
  | nil => simp at hx
  | cons y ys ih =>
    rw [List.flatten_cons, List.length_append]
    rcases List.mem_cons.1 hx with rfl | hx
    · omega
    · have := ih hx; omega

end Pq
