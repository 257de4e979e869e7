import Verif.Model.Intervals
import Verif.Spec.Intervals
import Verif.Lemmas.Deserialize
import Mathlib.Data.List.Range
/- Lemmas for C27, C28. -/
namespace Pq
open Spec Deser

theorem toUsize_ok {w : Nat} (x : BitVec w) (h : 0 ≤ x.toInt) : toUsize x = .ok x.toInt.toNat := by
  unfold toUsize; rw [if_pos h]

theorem toUsize_err {w : Nat} (x : BitVec w) (h : ¬ 0 ≤ x.toInt) : toUsize x = .err .oos := by
  unfold toUsize; rw [if_neg h]

theorem checkedSub_cases (a b : I64) (hb : 0 ≤ b.toInt) :
    if b.toInt ≤ a.toInt then ∃ d, checkedSubI64 a b = some d ∧ d.toInt = a.toInt - b.toInt
    else checkedSubI64 a b = none ∨ ∃ d, checkedSubI64 a b = some d ∧ d.toInt < 0 := by
  have ha := @BitVec.toInt_lt 64 a
  have key : ∀ h : -(2 ^ 63) ≤ a.toInt - b.toInt ∧ a.toInt - b.toInt < 2 ^ 63,
      (a - b).toInt = a.toInt - b.toInt := by
    intro h
    rw [BitVec.toInt_sub]
    apply Int.bmod_eq_of_le <;> omega
  unfold checkedSubI64
  simp only
  split
  · have h2 : -(2 ^ 63) ≤ a.toInt - b.toInt ∧ a.toInt - b.toInt < 2 ^ 63 := by omega
    rw [if_pos h2]
    exact ⟨_, rfl, key h2⟩
  · by_cases h2 : -(2 ^ 63) ≤ a.toInt - b.toInt ∧ a.toInt - b.toInt < 2 ^ 63
    · rw [if_pos h2]
      exact Or.inr ⟨_, rfl, by rw [key h2]; omega⟩
    · rw [if_neg h2]; exact Or.inl rfl

theorem cpri_single (l : Thrift.PageLocation) (n : Nat) :
    computePageRowIntervals [l] n = (lastInterval l n >>= fun a => .ok [a]) := by
  simp [computePageRowIntervals, windows2, collectRes]

theorem cpri_cons (l l' : Thrift.PageLocation) (rest : List Thrift.PageLocation) (n : Nat) :
    computePageRowIntervals (l :: l' :: rest) n
      = (windowInterval (l, l') >>= fun a => computePageRowIntervals (l' :: rest) n >>= fun as =>
          .ok (a :: as)) := by
  unfold computePageRowIntervals
  rw [List.getLast?_cons_cons]
  cases h : (l' :: rest).getLast? with
  | none => simp at h
  | some last => simp [windows2, collectRes]

theorem cpri_spec (ls : List Thrift.PageLocation) (n : Nat) :
    (LegalRows n (ls.map (·.firstRowIndex.toInt)) →
      ∃ ivs, computePageRowIntervals ls n = .ok ivs ∧
        ivs.map (fun iv => (iv.start : Int)) = ls.map (·.firstRowIndex.toInt) ∧
        ∀ iv ∈ ivs.head?, Consecutive iv.start n ivs) ∧
    (¬ LegalRows n (ls.map (·.firstRowIndex.toInt)) → computePageRowIntervals ls n = .err .oos) := by
  induction ls with
  | nil =>
    refine ⟨fun _ => ⟨[], rfl, rfl, by simp⟩, fun h => absurd trivial h⟩
  | cons l ls ih =>
    cases ls with
    | nil =>
      rw [cpri_single]
      simp only [List.map_cons, List.map_nil, LegalRows, lastInterval]
      by_cases h0 : 0 ≤ l.firstRowIndex.toInt
      · rw [toUsize_ok _ h0]
        simp only [Res.ok_bind]
        by_cases h1 : l.firstRowIndex.toInt.toNat ≤ n
        · rw [if_pos h1]
          refine ⟨fun _ => ⟨_, rfl, ?_, ?_⟩, fun h => absurd (by omega) h⟩
          · simp; omega
          · simp [Consecutive]; omega
        · rw [if_neg h1]
          exact ⟨fun h => absurd h (by omega), fun _ => rfl⟩
      · rw [toUsize_err _ h0]
        exact ⟨fun h => absurd h (by omega), fun _ => rfl⟩
    | cons l' rest =>
      rw [cpri_cons]
      simp only [List.map_cons, LegalRows]
      simp only [List.map_cons] at ih
      unfold windowInterval
      by_cases h0 : 0 ≤ l.firstRowIndex.toInt
      · rw [toUsize_ok _ h0]
        simp only [Res.ok_bind]
        have hc := checkedSub_cases l'.firstRowIndex l.firstRowIndex h0
        by_cases h1 : l.firstRowIndex.toInt ≤ l'.firstRowIndex.toInt
        · rw [if_pos h1] at hc
          obtain ⟨d, hd, hdi⟩ := hc
          rw [hd]
          simp only [Res.ofOption, Res.ok_bind]
          rw [toUsize_ok _ (by omega)]
          simp only [Res.ok_bind]
          constructor
          · rintro ⟨_, _, hl⟩
            obtain ⟨ivs, e1, e2, e3⟩ := ih.1 hl
            rw [e1]
            refine ⟨_, rfl, ?_, ?_⟩
            · simp only [List.map_cons, e2]
              congr 1; omega
            · cases ivs with
              | nil => simp at e2
              | cons iv ivs =>
                simp only [List.map_cons, List.cons.injEq] at e2
                have := e3 iv (by simp)
                have hs : iv.start = l.firstRowIndex.toInt.toNat + d.toInt.toNat := by omega
                simp only [List.head?_cons, Option.mem_def, Option.some.injEq, forall_eq']
                refine ⟨rfl, ?_⟩
                simp only
                rw [← hs]; exact this
          · intro h
            rw [ih.2 (fun hl => h ⟨h0, h1, hl⟩)]; rfl
        · rw [if_neg h1] at hc
          refine ⟨fun h => absurd h.2.1 h1, fun _ => ?_⟩
          rcases hc with hc | ⟨d, hd, hdn⟩
          · rw [hc]; rfl
          · rw [hd]
            simp only [Res.ofOption, Res.ok_bind]
            rw [toUsize_err _ (by omega)]; rfl
      · rw [toUsize_err _ h0]
        exact ⟨fun h => absurd h.1 h0, fun _ => rfl⟩

theorem consecutive_rows (ivs : List Interval) (a b : Nat) (h : Consecutive a b ivs) :
    a ≤ b ∧ ivs.flatMap rowsOf = List.range' a (b - a) := by
  induction ivs generalizing a with
  | nil => cases h; simp
  | cons iv ivs ih =>
    obtain ⟨h1, h2⟩ := h
    obtain ⟨h3, h4⟩ := ih _ h2
    refine ⟨by omega, ?_⟩
    rw [List.flatMap_cons, h4, rowsOf, h1]
    have := @List.range'_append a iv.length (b - (a + iv.length)) 1
    rw [Nat.one_mul] at this
    rw [this]; congr 1; omega

/-- The rows of an interval which are inside a page. -/
theorem filter_rows (p iv : Interval) :
    (rowsOf iv).filter (fun r => decide (p.start ≤ r ∧ r < p.start + p.length))
      = List.range' (max iv.start p.start)
          (min (iv.start + iv.length) (p.start + p.length) - max iv.start p.start) := by
  unfold rowsOf
  have split : ∀ s a b c, List.range' s (a + (b + c)) 1
      = List.range' s a ++ (List.range' (s + a) b ++ List.range' (s + a + b) c) := by
    intro s a b c
    rw [← @List.range'_append s a (b + c) 1, Nat.one_mul, ← @List.range'_append (s + a) b c 1,
      Nat.one_mul]
  have key : ∀ a b c, iv.length = a + (b + c) →
      (∀ r, iv.start ≤ r → r < iv.start + a → ¬ (p.start ≤ r ∧ r < p.start + p.length)) →
      (∀ r, iv.start + a ≤ r → r < iv.start + a + b → (p.start ≤ r ∧ r < p.start + p.length)) →
      (∀ r, iv.start + a + b ≤ r → r < iv.start + a + b + c →
        ¬ (p.start ≤ r ∧ r < p.start + p.length)) →
      (List.range' iv.start iv.length).filter
        (fun r => decide (p.start ≤ r ∧ r < p.start + p.length))
        = List.range' (iv.start + a) b := by
    intro a b c h1 h2 h3 h4
    rw [h1, split, List.filter_append, List.filter_append]
    rw [List.filter_eq_nil_iff.2, List.filter_eq_self.2, List.filter_eq_nil_iff.2]
    · simp
    · intro r hr
      rw [List.mem_range'_1] at hr
      simpa using h4 r hr.1 hr.2
    · intro r hr
      rw [List.mem_range'_1] at hr
      simpa using h3 r hr.1 hr.2
    · intro r hr
      rw [List.mem_range'_1] at hr
      simpa using h2 r hr.1 hr.2
  by_cases hov : max iv.start p.start < min (iv.start + iv.length) (p.start + p.length)
  · rw [key (max iv.start p.start - iv.start)
      (min (iv.start + iv.length) (p.start + p.length) - max iv.start p.start)
      (iv.start + iv.length - min (iv.start + iv.length) (p.start + p.length))]
    · congr 1; omega
    · omega
    · intro r h1 h2; omega
    · intro r h1 h2; omega
    · intro r h1 h2; omega
  · have e : min (iv.start + iv.length) (p.start + p.length) - max iv.start p.start = 0 := by omega
    rw [e, List.range'_zero, List.filter_eq_nil_iff]
    intro r hr
    rw [List.mem_range'_1] at hr
    simp only [decide_eq_true_eq]
    omega

/-- The rows of a page-relative interval of page `p`. -/
theorem isInOne_spec (ck : Bool) (p iv : Interval) (hp : p.start + p.length < 2 ^ 64)
    (hiv : iv.start + iv.length < 2 ^ 64) :
    ∃ o, isInOne ck p iv = .ok o ∧
      (∀ x ∈ o, x.start + x.length ≤ p.length ∧
        x.start = max iv.start p.start - p.start ∧
        x.length = min (iv.start + iv.length) (p.start + p.length) - max iv.start p.start ∧
        (0 < p.length → 0 < iv.length → 0 < x.length)) ∧
      (o.toList.flatMap fun x => (rowsOf x).map (p.start + ·))
        = (rowsOf iv).filter (fun r => decide (p.start ≤ r ∧ r < p.start + p.length)) := by
  unfold isInOne uadd
  rw [if_pos hiv, if_pos hp, filter_rows]
  simp only [Res.ok_bind]
  by_cases hov : p.start < iv.start + iv.length ∧ p.start + p.length > iv.start
  · rw [if_pos (by simpa using hov)]
    unfold usub
    rw [if_pos (by omega), if_pos (by omega)]
    simp only [Res.ok_bind]
    refine ⟨_, rfl, ?_, ?_⟩
    · intro x hx
      simp only [Option.mem_def, Option.some.injEq] at hx
      subst hx
      simp only
      refine ⟨?_, trivial, trivial, ?_⟩ <;> omega
    · simp only [Option.toList_some, List.flatMap_cons, List.flatMap_nil, List.append_nil, rowsOf]
      rw [List.map_add_range']
      congr 1; omega
  · rw [if_neg (by simpa using hov)]
    refine ⟨none, rfl, by simp, ?_⟩
    have e : min (iv.start + iv.length) (p.start + p.length) - max iv.start p.start = 0 := by omega
    rw [e]; simp

theorem isIn_spec (ck : Bool) (p : Interval) (hp : p.start + p.length < 2 ^ 64)
    (ivs : List Interval) (hiv : ∀ iv ∈ ivs, iv.start + iv.length < 2 ^ 64) :
    ∃ xs, isIn ck p ivs = .ok xs ∧
      Within p.length xs ∧
      (∀ a, SortedFrom a ivs → SortedFrom (a - p.start) xs) ∧
      (0 < p.length → (∀ iv ∈ ivs, 0 < iv.length) → ∀ x ∈ xs, 0 < x.length) ∧
      (xs.flatMap fun x => (rowsOf x).map (p.start + ·))
        = (ivs.flatMap rowsOf).filter
            (fun r => decide (p.start ≤ r ∧ r < p.start + p.length)) := by
  induction ivs with
  | nil =>
    exact ⟨[], rfl, by intro _ h; simp at h, fun _ _ => trivial, by simp, rfl⟩
  | cons iv ivs ih =>
    obtain ⟨xs, e, hw, hso, hne, hr⟩ := ih fun x hx => hiv x (List.mem_cons_of_mem _ hx)
    obtain ⟨o, e1, hx, hr1⟩ := isInOne_spec ck p iv hp (hiv iv (by simp))
    refine ⟨o.toList ++ xs, ?_, ?_, ?_, ?_, ?_⟩
    · simp [isIn, e1, e]
    · intro x hxm
      rcases List.mem_append.1 hxm with h | h
      · exact (hx x (by simpa using h)).1
      · exact hw x h
    · intro a ⟨h1, h2⟩
      have h3 := hso _ h2
      cases o with
      | none =>
        have : ∀ q c c', c' ≤ c → SortedFrom c q → SortedFrom c' q := by
          intro q c c' hc hs
          cases q with
          | nil => trivial
          | cons y ys => exact ⟨by have := hs.1; omega, hs.2⟩
        exact this _ _ _ (by omega) h3
      | some x =>
        obtain ⟨_, h5, h6, _⟩ := hx x rfl
        have : ∀ q c c', c' ≤ c → SortedFrom c q → SortedFrom c' q := by
          intro q c c' hc hs
          cases q with
          | nil => trivial
          | cons y ys => exact ⟨by have := hs.1; omega, hs.2⟩
        refine ⟨by omega, this _ _ _ ?_ h3⟩
        omega
    · intro h1 h2 x hxm
      rcases List.mem_append.1 hxm with h | h
      · exact (hx x (by simpa using h)).2.2.2 h1 (h2 iv (by simp))
      · exact hne h1 (fun y hy => h2 y (List.mem_cons_of_mem _ hy)) x h
    · rw [List.flatMap_append, hr1, hr, List.flatMap_cons, List.filter_append]

/-- Filtering a sorted list by consecutive pages and concatenating. -/
theorem filter_pages (L : List Nat) (hL : L.Pairwise (· ≤ ·)) (ps : List Interval) (a b : Nat)
    (h : Consecutive a b ps) :
    (ps.flatMap fun p => L.filter (fun r => decide (p.start ≤ r ∧ r < p.start + p.length)))
      = L.filter (fun r => decide (a ≤ r ∧ r < b)) := by
  have split : ∀ (L : List Nat), L.Pairwise (· ≤ ·) → ∀ a c b, a ≤ c → c ≤ b →
      L.filter (fun r => decide (a ≤ r ∧ r < c)) ++ L.filter (fun r => decide (c ≤ r ∧ r < b))
        = L.filter (fun r => decide (a ≤ r ∧ r < b)) := by
    intro L hL a c b hac hcb
    induction L with
    | nil => rfl
    | cons x xs ih =>
      rw [List.pairwise_cons] at hL
      have ih := ih hL.2
      by_cases h1 : x < a
      · rw [List.filter_cons_of_neg (by simp; omega), List.filter_cons_of_neg (by simp; omega),
          List.filter_cons_of_neg (by simp; omega)]
        exact ih
      · by_cases h2 : x < c
        · rw [List.filter_cons_of_pos (by simp; omega), List.filter_cons_of_neg (by simp; omega),
            List.filter_cons_of_pos (by simp; omega), List.cons_append, ih]
        · have hnil : xs.filter (fun r => decide (a ≤ r ∧ r < c)) = [] := by
            rw [List.filter_eq_nil_iff]
            intro r hr
            have := hL.1 r hr
            simp; omega
          rw [List.filter_cons_of_neg (by simp; omega), hnil, List.nil_append]
          rw [hnil, List.nil_append] at ih
          by_cases h3 : x < b
          · rw [List.filter_cons_of_pos (by simp; omega), List.filter_cons_of_pos (by simp; omega),
              ih]
          · rw [List.filter_cons_of_neg (by simp; omega), List.filter_cons_of_neg (by simp; omega),
              ih]
  induction ps generalizing a with
  | nil =>
    cases h
    symm
    rw [List.flatMap_nil, List.filter_eq_nil_iff]
    intro r _; simp
  | cons p ps ih =>
    obtain ⟨h1, h2⟩ := h
    rw [List.flatMap_cons, ih _ h2, h1]
    exact split L hL a (a + p.length) b (by omega) (consecutive_rows _ _ _ h2).1

theorem sorted_rows (ivs : List Interval) (a : Nat) (h : SortedFrom a ivs) :
    (ivs.flatMap rowsOf).Pairwise (· ≤ ·) ∧ ∀ r ∈ ivs.flatMap rowsOf, a ≤ r := by
  induction ivs generalizing a with
  | nil => simp
  | cons iv ivs ih =>
    obtain ⟨h1, h2⟩ := h
    obtain ⟨h3, h4⟩ := ih _ h2
    rw [List.flatMap_cons]
    constructor
    · rw [List.pairwise_append]
      refine ⟨?_, h3, ?_⟩
      · exact (List.pairwise_lt_range' (s := iv.start) (n := iv.length) (step := 1)).imp (fun h => Nat.le_of_lt h)
      · intro x hx y hy
        have := h4 y hy
        unfold rowsOf at hx
        rw [List.mem_range'_1] at hx
        omega
    · intro r hr
      rcases List.mem_append.1 hr with h | h
      · unfold rowsOf at h
        rw [List.mem_range'_1] at h
        omega
      · have := h4 r h; omega

theorem collectRes_map {α β : Type} (f : α → Res β) (g : α → β) (xs : List α)
    (h : ∀ x ∈ xs, f x = .ok (g x)) : collectRes (xs.map f) = .ok (xs.map g) := by
  induction xs with
  | nil => rfl
  | cons x xs ih =>
    simp only [List.map_cons, collectRes, h x (by simp), Res.ok_bind,
      ih fun y hy => h y (List.mem_cons_of_mem _ hy)]

theorem collectRes_ok_iff {α : Type} (xs : List (Res α)) (ys : List α) :
    collectRes xs = .ok ys ↔ xs = ys.map .ok := by
  induction xs generalizing ys with
  | nil => cases ys <;> simp [collectRes]
  | cons x xs ih =>
    cases x with
    | ok a =>
      simp only [collectRes, Res.ok_bind, Res.bind_eq_ok, ih]
      cases ys with
      | nil => simp
      | cons y ys => simp; tauto
    | err e => cases ys <;> simp [collectRes]
    | panic => cases ys <;> simp [collectRes]

/-- The first failure decides. -/
theorem collectRes_err {α : Type} (e : Err) (xs : List (Res α)) (h : ∀ x ∈ xs, x = .err e ∨ ∃ a, x = .ok a)
    (hx : ∃ x ∈ xs, x = .err e) : collectRes xs = .err e := by
  induction xs with
  | nil => simp at hx
  | cons x xs ih =>
    rcases h x (by simp) with rfl | ⟨a, rfl⟩
    · rfl
    · simp only [List.mem_cons, exists_eq_or_imp] at hx
      have : ∃ x ∈ xs, x = .err e := by
        rcases hx with h | h
        · cases h
        · exact h
      simp [collectRes, ih (fun y hy => h y (List.mem_cons_of_mem _ hy)) this]

/-- Reading rows by index. -/
theorem selectRows_eq_map {α : Type} [Inhabited α] (rows : List α) (ivs : List Interval)
    (h : Within rows.length ivs) :
    selectRows ivs rows = (ivs.flatMap rowsOf).map (fun r => rows[r]!) := by
  unfold selectRows
  rw [List.map_flatMap]
  apply List.flatMap_congr
  intro iv hiv
  have hw := h iv hiv
  unfold rowsOf
  apply List.ext_getElem
  · simp; omega
  · intro k h1 h2
    simp only [List.length_map, List.length_range'] at h2
    have : iv.start + k < rows.length := by omega
    simp [this]

end Pq
