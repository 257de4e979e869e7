import Verif.Model.Equality
import Verif.Spec.Equality
import Verif.Lemmas.Statistics
/-
Lemmas about the equality of statistics and page indexes.
-/
namespace Pq
open Spec

theorem floatEq_iff (e m : Nat) (x y : BitVec (1 + e + m)) :
    floatEq e m x y = true ↔ SameNumber e m x y := by
  rw [SameNumber, floatEq, floatVal_eq, floatVal_eq]
  cases hnx : floatIsNaN e m x with
  | true => simp
  | false =>
    cases hny : floatIsNaN e m y with
    | true => simp
    | false =>
      simp only [Bool.not_false, Bool.true_and, decide_eq_true_eq, Bool.false_eq_true, if_false,
        Option.some.injEq, exists_eq_left']
      rw [floatKey_eq, floatKey_eq]
      generalize lowBits e m x = p
      generalize lowBits e m y = q
      have hm := magnitude_strictMono m
      have h1 : magnitude m q = magnitude m p ↔ q = p := hm.injective.eq_iff
      have h0 : magnitude m 0 = 0 := magnitude_zero m
      have hp0 : magnitude m p = 0 ↔ p = 0 := by
        rw [← hm.injective.eq_iff (a := p) (b := 0), h0]
      have hq0 : magnitude m q = 0 ↔ q = 0 := by
        rw [← hm.injective.eq_iff (a := q) (b := 0), h0]
      split <;> split <;> omega

theorem optionEq_iff {α : Type} {eq : α → α → Bool} {R : α → α → Prop} (h : ∀ x y, eq x y = true ↔ R x y)
    (x y : Option α) : optionEq eq x y = true ↔ BothOr R x y := by
  cases x <;> cases y <;> simp [optionEq, BothOr, h]

theorem optionEq_eq {α : Type} [DecidableEq α] (x y : Option α) :
    optionEq (fun u v => decide (u = v)) x y = true ↔ x = y := by
  cases x <;> cases y <;> simp [optionEq]

theorem vecEq_iff {α : Type} {eq : α → α → Bool} {R : α → α → Prop} (h : ∀ x y, eq x y = true ↔ R x y)
    (xs ys : List α) : vecEq eq xs ys = true ↔ List.Forall₂ R xs ys := by
  induction xs generalizing ys with
  | nil => cases ys <;> simp [vecEq]
  | cons x xs ih => cases ys <;> simp [vecEq, h, ih]

theorem vecEq_eq {α : Type} {eq : α → α → Bool} (h : ∀ x y, eq x y = true ↔ x = y) (xs ys : List α) :
    vecEq eq xs ys = true ↔ xs = ys := by
  rw [vecEq_iff h, List.forall₂_eq_eq_eq]

theorem fieldsEq_iff {α : Type} {eq : α → α → Bool} {R : α → α → Prop} (h : ∀ x y, eq x y = true ↔ R x y)
    (a b : PrimitiveStatistics α) : a.eq eq b = true ↔ SameFields R a b := by
  simp only [PrimitiveStatistics.eq, SameFields, Bool.and_eq_true, decide_eq_true_eq, optionEq_iff h, and_assoc]

theorem fieldsEq_eq {α : Type} [DecidableEq α] (a b : PrimitiveStatistics α) :
    a.eq (fun u v => decide (u = v)) b = true ↔ a = b := by
  cases a; cases b
  simp only [PrimitiveStatistics.eq, Bool.and_eq_true, decide_eq_true_eq, optionEq_eq, and_assoc,
    PrimitiveStatistics.mk.injEq]

theorem entryEq_iff {α : Type} {eq : α → α → Bool} {R : α → α → Prop} (h : ∀ x y, eq x y = true ↔ R x y)
    (a b : PageIndex α) : a.eq eq b = true ↔ SameEntry R a b := by
  simp only [PageIndex.eq, SameEntry, Bool.and_eq_true, decide_eq_true_eq, optionEq_iff h, and_assoc]

theorem entryEq_eq {α : Type} [DecidableEq α] (a b : PageIndex α) :
    a.eq (fun u v => decide (u = v)) b = true ↔ a = b := by
  cases a; cases b
  simp only [PageIndex.eq, Bool.and_eq_true, decide_eq_true_eq, optionEq_eq, and_assoc, PageIndex.mk.injEq]

theorem nativeIndexEq_iff {α : Type} {eq : α → α → Bool} {R : α → α → Prop}
    (h : ∀ x y, eq x y = true ↔ R x y) (t u : PrimitiveType) (xs ys : List (PageIndex α))
    (o p : BoundaryOrder) :
    nativeIndexEq eq t u xs ys o p = true ↔ t = u ∧ List.Forall₂ (SameEntry R) xs ys ∧ o = p := by
  simp only [nativeIndexEq, Bool.and_eq_true, decide_eq_true_eq, vecEq_iff (entryEq_iff h), and_assoc]

theorem nativeIndexEq_eq {α : Type} [DecidableEq α] (t u : PrimitiveType) (xs ys : List (PageIndex α))
    (o p : BoundaryOrder) :
    nativeIndexEq (fun x y => decide (x = y)) t u xs ys o p = true ↔ t = u ∧ xs = ys ∧ o = p := by
  simp only [nativeIndexEq, Bool.and_eq_true, decide_eq_true_eq, vecEq_eq entryEq_eq, and_assoc]

theorem bothOr_refl {α : Type} {R : α → α → Prop} (x : Option α) :
    BothOr R x x ↔ ∀ a, x = some a → R a a := by
  cases x <;> simp [BothOr]

theorem bothOr_symm {α : Type} {R : α → α → Prop} (hR : ∀ a b, R a b → R b a) {x y : Option α}
    (h : BothOr R x y) : BothOr R y x := by
  rcases h with ⟨h1, h2⟩ | ⟨a, b, h1, h2, h3⟩
  · exact .inl ⟨h2, h1⟩
  · exact .inr ⟨b, a, h2, h1, hR _ _ h3⟩

theorem bothOr_trans {α : Type} {R : α → α → Prop} (hR : ∀ a b c, R a b → R b c → R a c) {x y z : Option α}
    (h : BothOr R x y) (h' : BothOr R y z) : BothOr R x z := by
  rcases h with ⟨h1, h2⟩ | ⟨a, b, h1, h2, h3⟩
  · rcases h' with ⟨h4, h5⟩ | ⟨c, d, h4, h5, h6⟩
    · exact .inl ⟨h1, h5⟩
    · rw [h2] at h4; cases h4
  · rcases h' with ⟨h4, h5⟩ | ⟨c, d, h4, h5, h6⟩
    · rw [h2] at h4; cases h4
    · rw [h2] at h4; injection h4 with h4; subst h4
      exact .inr ⟨a, d, h1, h5, hR _ _ _ h3 h6⟩

theorem sameNumber_symm {e m : Nat} (x y : BitVec (1 + e + m)) (h : SameNumber e m x y) :
    SameNumber e m y x := by
  obtain ⟨v, h1, h2⟩ := h
  exact ⟨v, h2, h1⟩

theorem sameNumber_trans {e m : Nat} (x y z : BitVec (1 + e + m)) (h : SameNumber e m x y)
    (h' : SameNumber e m y z) : SameNumber e m x z := by
  obtain ⟨v, h1, h2⟩ := h
  obtain ⟨w, h3, h4⟩ := h'
  rw [h2] at h3
  injection h3 with h3
  subst h3
  exact ⟨v, h1, h4⟩

/-- Bounds are the same as themselves unless they are NaN. -/
theorem bothOr_self {e m : Nat} (x : Option (BitVec (1 + e + m))) :
    BothOr (SameNumber e m) x x ↔ ¬ x.map (floatVal e m) = some none := by
  rw [bothOr_refl]
  cases x with
  | none => simp
  | some a =>
    simp only [Option.some.injEq, SameNumber, and_self, Option.map_some]
    constructor
    · intro h hn
      obtain ⟨v, hv⟩ := h a rfl
      rw [hn] at hv; cases hv
    · intro h b hb
      subst hb
      cases hv : floatVal e m a with
      | none => exact absurd hv h
      | some v => exact ⟨v, rfl⟩

theorem sameFields_symm {α : Type} {R : α → α → Prop} (hR : ∀ a b, R a b → R b a)
    {a b : PrimitiveStatistics α} (h : SameFields R a b) : SameFields R b a :=
  ⟨h.1.symm, h.2.1.symm, h.2.2.1.symm, bothOr_symm hR h.2.2.2.1, bothOr_symm hR h.2.2.2.2⟩

theorem sameFields_trans {α : Type} {R : α → α → Prop} (hR : ∀ a b c, R a b → R b c → R a c)
    {a b c : PrimitiveStatistics α} (h : SameFields R a b) (h' : SameFields R b c) : SameFields R a c :=
  ⟨h.1.trans h'.1, h.2.1.trans h'.2.1, h.2.2.1.trans h'.2.2.1, bothOr_trans hR h.2.2.2.1 h'.2.2.2.1,
    bothOr_trans hR h.2.2.2.2 h'.2.2.2.2⟩

theorem forall2_symm {α : Type} {R : α → α → Prop} (hR : ∀ a b, R a b → R b a) {xs ys : List α}
    (h : List.Forall₂ R xs ys) : List.Forall₂ R ys xs := by
  induction h with
  | nil => exact .nil
  | cons h _ ih => exact .cons (hR _ _ h) ih

theorem forall2_trans {α : Type} {R : α → α → Prop} (hR : ∀ a b c, R a b → R b c → R a c) {xs ys zs : List α}
    (h : List.Forall₂ R xs ys) (h' : List.Forall₂ R ys zs) : List.Forall₂ R xs zs := by
  induction h generalizing zs with
  | nil => cases h'; exact .nil
  | cons h _ ih =>
    cases h' with
    | cons h2 h3 => exact .cons (hR _ _ _ h h2) (ih h3)

theorem sameEntry_symm {α : Type} {R : α → α → Prop} (hR : ∀ a b, R a b → R b a) (a b : PageIndex α)
    (h : SameEntry R a b) : SameEntry R b a :=
  ⟨bothOr_symm hR h.1, bothOr_symm hR h.2.1, h.2.2.symm⟩

theorem sameEntry_trans {α : Type} {R : α → α → Prop} (hR : ∀ a b c, R a b → R b c → R a c)
    (a b c : PageIndex α) (h : SameEntry R a b) (h' : SameEntry R b c) : SameEntry R a c :=
  ⟨bothOr_trans hR h.1 h'.1, bothOr_trans hR h.2.1 h'.2.1, h.2.2.trans h'.2.2⟩

theorem forall2_self {α : Type} {R : α → α → Prop} (xs : List α) :
    List.Forall₂ R xs xs ↔ ∀ x ∈ xs, R x x := by
  induction xs with
  | nil => simp
  | cons x xs ih => simp [ih]

end Pq
