import Verif.Lemmas.Statistics
/-
Lemmas on merging statistics.
-/
namespace Pq
open Spec

theorem downcastAll_ok {α : Type} (f : Statistics → Option α) (ctor : α → Statistics)
    (hf : ∀ s x, f s = some x → s = ctor x) :
    ∀ (ss : List Statistics) (xs : List α), downcastAll f ss = .ok xs → ss = xs.map ctor := by
  intro ss
  induction ss with
  | nil =>
    intro xs h
    simp only [downcastAll, Res.ok.injEq] at h
    subst h; rfl
  | cons s ss ih =>
    intro xs h
    simp only [downcastAll, Res.bind_eq_ok, Res.ok.injEq] at h
    obtain ⟨x, h1, ys, h2, h3⟩ := h
    subst h3
    rw [List.map_cons, ← ih ys h2]
    congr 1
    cases hs : f s with
    | none => rw [hs] at h1; simp [Res.unwrap] at h1
    | some y =>
      rw [hs] at h1
      simp only [Res.unwrap, Res.ok.injEq] at h1
      subst h1
      exact hf s y hs

/-- How a merged statistics comes about. -/
inductive Merged (ck : Bool) (stats : List Statistics) : Statistics → Prop
  | boolean (l x) : stats = l.map .boolean → reduceBoolean ck l = .ok x → Merged ck stats (.boolean x)
  | int32 (l x) : stats = l.map .int32 → reducePrimitive ck intGt l = .ok x → Merged ck stats (.int32 x)
  | int64 (l x) : stats = l.map .int64 → reducePrimitive ck intGt l = .ok x → Merged ck stats (.int64 x)
  | float (l x) : stats = l.map .float → reducePrimitive ck (floatGt 8 23) l = .ok x →
      Merged ck stats (.float x)
  | double (l x) : stats = l.map .double → reducePrimitive ck (floatGt 11 52) l = .ok x →
      Merged ck stats (.double x)
  | binary (l x) : stats = l.map .binary → reduceBinary ck l = .ok x → Merged ck stats (.binary x)
  | fixedLen (l x) : stats = l.map .fixedLen → reduceFixLenBinary ck l = .ok x →
      Merged ck stats (.fixedLen x)

theorem map'_ok {α β : Type} (f : α → β) (x : Res α) (y : β) (h : x.map' f = .ok y) :
    ∃ a, x = .ok a ∧ f a = y := by
  cases x with
  | ok a => exact ⟨a, rfl, by simpa [Res.map'] using h⟩
  | err e => simp [Res.map'] at h
  | panic => simp [Res.map'] at h

theorem reduceStatistics_ok (ck : Bool) (pages : List (Option Statistics)) (r : Statistics)
    (h : reduceStatistics ck pages = .ok (some r)) :
    Merged ck (pages.filterMap id) r ∧
      ∀ s ∈ pages.filterMap id, ∀ t ∈ pages.filterMap id, s.physicalType = t.physicalType := by
  unfold reduceStatistics at h
  split at h
  · simp at h
  · simp only at h
    split at h
    · simp at h
    · rename_i first rest heq
      split at h
      · simp at h
      · rename_i hall
        have hty : ∀ s ∈ first :: rest, s.physicalType = first.physicalType := by
          intro s hs
          rcases List.mem_cons.1 hs with rfl | hs
          · rfl
          · simp only [not_not] at hall
            have := List.all_eq_true.1 hall s hs
            simpa using this
        refine ⟨?_, fun s hs t ht => by rw [heq] at hs ht; rw [hty s hs, hty t ht]⟩
        split at h
        all_goals try (simp at h; done)
        all_goals
          rw [Res.bind_eq_ok] at h
          obtain ⟨l, h1, h2⟩ := h
          obtain ⟨x, h4, h3⟩ := map'_ok _ _ _ h2
          simp only [Option.some.injEq] at h3
          subst h3
        · exact .boolean l x (downcastAll_ok _ .boolean (by intro s x h; cases s <;> first | (cases h; rfl) | (cases h)) _ _ h1) h4
        · exact .int32 l x (downcastAll_ok _ .int32 (by intro s x h; cases s <;> first | (cases h; rfl) | (cases h)) _ _ h1) h4
        · exact .int64 l x (downcastAll_ok _ .int64 (by intro s x h; cases s <;> first | (cases h; rfl) | (cases h)) _ _ h1) h4
        · exact .float l x (downcastAll_ok _ .float (by intro s x h; cases s <;> first | (cases h; rfl) | (cases h)) _ _ h1) h4
        · exact .double l x (downcastAll_ok _ .double (by intro s x h; cases s <;> first | (cases h; rfl) | (cases h)) _ _ h1) h4
        · exact .binary l x (downcastAll_ok _ .binary (by intro s x h; cases s <;> first | (cases h; rfl) | (cases h)) _ _ h1) h4
        · exact .fixedLen l x (downcastAll_ok _ .fixedLen (by intro s x h; cases s <;> first | (cases h; rfl) | (cases h)) _ _ h1) h4

/-! ### Counts -/

/-- The counts and the declared type of the fold of any of the `reduce_*` functions. -/
structure CountsOk (ck : Bool) (nulls : List (Option I64)) (first : Option I64)
    (resultNulls resultDistinct : Option I64) : Prop where
  sum : SumOf nulls resultNulls
  exact : ck = true → ExactSumOf nulls resultNulls
  distinct : resultDistinct = if nulls.length = 1 then first else none

theorem counts_single (ck : Bool) (n d : Option I64) : CountsOk ck [n] d n d :=
  ⟨sumOf_single n, fun _ => exactSumOf_single n, by simp⟩

theorem counts_step (ck : Bool) (nulls : List (Option I64)) (first a b r d : Option I64)
    (hne : nulls ≠ []) (h : CountsOk ck nulls first a d)
    (hr : reduceSingle a b (addI64 ck) = .ok r) : CountsOk ck (nulls ++ [b]) first r none := by
  refine ⟨sumOf_step ck nulls a b r h.sum hr, ?_, ?_⟩
  · rintro rfl
    exact exactSumOf_step nulls a b r (h.exact rfl) hr
  · rw [List.length_append, List.length_singleton, if_neg]
    have : nulls.length ≠ 0 := by simpa using hne
    omega

theorem reducePrimitive_counts {α : Type} (ck : Bool) (gt : α → α → Bool)
    (l : List (PrimitiveStatistics α)) (x : PrimitiveStatistics α)
    (h : reducePrimitive ck gt l = .ok x) :
    CountsOk ck (l.map (·.nullCount)) (l.head?.bind (·.distinctCount)) x.nullCount x.distinctCount ∧
      some x.primitiveType = l.head?.map (·.primitiveType) := by
  have := reduceFold_inv _ (fun seen acc => seen ≠ [] ∧
    CountsOk ck (seen.map (·.nullCount)) (seen.head?.bind (·.distinctCount)) acc.nullCount
      acc.distinctCount ∧ some acc.primitiveType = seen.head?.map (·.primitiveType)) ?_ ?_ l x h
  · exact this.2
  · intro x
    exact ⟨by simp, counts_single ck _ _, rfl⟩
  · intro seen acc new acc' ⟨hne, hc, hp⟩ hf
    simp only [Res.bind_eq_ok, Res.ok.injEq] at hf
    obtain ⟨mn, _, mx, _, nc, hnc, rfl⟩ := hf
    obtain ⟨s, ss, rfl⟩ := List.exists_cons_of_ne_nil hne
    refine ⟨by simp, ?_, by simpa using hp⟩
    have := counts_step ck _ _ _ new.nullCount nc _ (by simp) hc hnc
    simpa using this

theorem reduceBoolean_counts (ck : Bool) (l : List BooleanStatistics) (x : BooleanStatistics)
    (h : reduceBoolean ck l = .ok x) :
    CountsOk ck (l.map (·.nullCount)) (l.head?.bind (·.distinctCount)) x.nullCount x.distinctCount := by
  have := reduceFold_inv _ (fun seen acc => seen ≠ [] ∧
    CountsOk ck (seen.map (·.nullCount)) (seen.head?.bind (·.distinctCount)) acc.nullCount
      acc.distinctCount) ?_ ?_ l x h
  · exact this.2
  · intro x
    exact ⟨by simp, counts_single ck _ _⟩
  · intro seen acc new acc' ⟨hne, hc⟩ hf
    simp only [Res.bind_eq_ok, Res.ok.injEq] at hf
    obtain ⟨mn, _, mx, _, nc, hnc, rfl⟩ := hf
    obtain ⟨s, ss, rfl⟩ := List.exists_cons_of_ne_nil hne
    refine ⟨by simp, ?_⟩
    have := counts_step ck _ _ _ new.nullCount nc _ (by simp) hc hnc
    simpa using this

theorem reduceBinary_counts (ck : Bool) (l : List BinaryStatistics) (x : BinaryStatistics)
    (h : reduceBinary ck l = .ok x) :
    CountsOk ck (l.map (·.nullCount)) (l.head?.bind (·.distinctCount)) x.nullCount x.distinctCount ∧
      some x.primitiveType = l.head?.map (·.primitiveType) := by
  have := reduceFold_inv _ (fun seen acc => seen ≠ [] ∧
    CountsOk ck (seen.map (·.nullCount)) (seen.head?.bind (·.distinctCount)) acc.nullCount
      acc.distinctCount ∧ some acc.primitiveType = seen.head?.map (·.primitiveType)) ?_ ?_ l x h
  · exact this.2
  · intro x
    exact ⟨by simp, counts_single ck _ _, rfl⟩
  · intro seen acc new acc' ⟨hne, hc, hp⟩ hf
    simp only [Res.bind_eq_ok, Res.ok.injEq] at hf
    obtain ⟨nc, hnc, rfl⟩ := hf
    obtain ⟨s, ss, rfl⟩ := List.exists_cons_of_ne_nil hne
    refine ⟨by simp, ?_, by simpa using hp⟩
    have := counts_step ck _ _ _ new.nullCount nc _ (by simp) hc hnc
    simpa using this

theorem reduceFixLenBinary_counts (ck : Bool) (l : List FixedLenStatistics) (x : FixedLenStatistics)
    (h : reduceFixLenBinary ck l = .ok x) :
    CountsOk ck (l.map (·.nullCount)) (l.head?.bind (·.distinctCount)) x.nullCount x.distinctCount ∧
      some x.primitiveType = l.head?.map (·.primitiveType) := by
  have := reduceFold_inv _ (fun seen acc => seen ≠ [] ∧
    CountsOk ck (seen.map (·.nullCount)) (seen.head?.bind (·.distinctCount)) acc.nullCount
      acc.distinctCount ∧ some acc.primitiveType = seen.head?.map (·.primitiveType)) ?_ ?_ l x h
  · exact this.2
  · intro x
    exact ⟨by simp, counts_single ck _ _, rfl⟩
  · intro seen acc new acc' ⟨hne, hc, hp⟩ hf
    simp only [Res.bind_eq_ok, Res.ok.injEq] at hf
    obtain ⟨nc, hnc, rfl⟩ := hf
    obtain ⟨s, ss, rfl⟩ := List.exists_cons_of_ne_nil hne
    refine ⟨by simp, ?_, by simpa using hp⟩
    have := counts_step ck _ _ _ new.nullCount nc _ (by simp) hc hnc
    simpa using this

/-! ### Bounds -/

/-- Merging with `if x > y { y } else { x }` or its dual, in terms of the values. -/
theorem pick_step {α : Type} (val : α → Option Int) (pick : α → α → Res α) (le : Option Int → Option Int → Prop)
    (htrans : ∀ x y z, le x y → le y z → le x z) (hrefl : ∀ v : Int, le (some v) (some v))
    (hpick : ∀ x y z (a b : Int), val x = some a → val y = some b → pick x y = .ok z →
      (z = x ∧ le (some a) (some b)) ∨ (z = y ∧ le (some b) (some a)))
    (xs : List (Option α)) (a b r : Option α)
    (hgood : ∀ x, (some x ∈ xs ∨ b = some x) → val x ≠ none)
    (ha : Extremum le (xs.map (Option.map val)) (a.map val)) (hmem : ∀ x, a = some x → some x ∈ xs)
    (h : reduceSingle a b pick = .ok r) :
    Extremum le ((xs ++ [b]).map (Option.map val)) (r.map val) ∧ (∀ x, r = some x → some x ∈ xs ++ [b]) := by
  have hv : ∀ x, val x ≠ none → ∃ v : Int, val x = some v := by
    intro x hx
    cases hvx : val x with
    | none => exact absurd hvx hx
    | some v => exact ⟨v, rfl⟩
  rw [List.map_append, List.map_singleton]
  rcases reduceSingle_ok a b r _ h with ⟨rfl, rfl⟩ | ⟨rfl, rfl⟩ | ⟨x, y, z, rfl, rfl, hz, rfl⟩
  · refine ⟨extremum_step le htrans _ _ _ _ ha ?_ (.inl ⟨rfl, rfl⟩), ?_⟩
    · intro y hy
      cases r with
      | none => simp at hy
      | some w =>
        obtain ⟨v, hv⟩ := hv w (hgood w (.inr rfl))
        simp only [Option.map_some, Option.some.injEq] at hy
        rw [← hy, hv]; exact hrefl v
    · rintro x rfl; simp
  · refine ⟨extremum_step le htrans _ _ _ _ ha (by simp) (.inr (.inl ⟨rfl, rfl⟩)), ?_⟩
    rintro x rfl
    exact List.mem_append_left _ (hmem x rfl)
  · obtain ⟨v, hvx⟩ := hv x (hgood x (.inl (hmem x rfl)))
    obtain ⟨w, hvy⟩ := hv y (hgood y (.inr rfl))
    have hp := hpick x y z v w hvx hvy hz
    refine ⟨extremum_step le htrans _ _ _ _ ha ?_ (.inr (.inr ⟨some v, some w, val z, ?_, ?_, rfl, ?_⟩)), ?_⟩
    · intro y' hy
      simp only [Option.map_some, Option.some.injEq] at hy
      rw [← hy, hvy]; exact hrefl w
    · rw [Option.map_some, hvx]
    · rw [Option.map_some, hvy]
    · rcases hp with ⟨rfl, hp⟩ | ⟨rfl, hp⟩
      · exact .inl ⟨hvx, hp⟩
      · exact .inr ⟨hvy, hp⟩
    · rintro x' hx'
      simp only [Option.some.injEq] at hx'
      subst hx'
      rcases hp with ⟨rfl, hp⟩ | ⟨rfl, hp⟩
      · exact List.mem_append_left _ (hmem _ rfl)
      · simp

theorem single_bounds {α : Type} (val : α → Option Int) (le : Option Int → Option Int → Prop)
    (hrefl : ∀ v : Int, le (some v) (some v)) (a : Option α) (hgood : ∀ x, some x = a → val x ≠ none) :
    Extremum le [a.map val] (a.map val) := by
  apply extremum_single
  intro y hy
  cases a with
  | none => simp at hy
  | some w =>
    simp only [Option.map_some, Option.some.injEq] at hy
    cases hw : val w with
    | none => exact absurd hw (hgood w rfl)
    | some v => rw [← hy, hw]; exact hrefl v

theorem reducePrimitive_bounds {α : Type} (ck : Bool) (gt : α → α → Bool) (val : α → Option Int)
    (hgt : ∀ x y a b, val x = some a → val y = some b → gt x y = decide (b < a))
    (l : List (PrimitiveStatistics α)) (x : PrimitiveStatistics α)
    (h : reducePrimitive ck gt l = .ok x)
    (hmin : ∀ s ∈ l, ∀ v, s.minValue = some v → val v ≠ none)
    (hmax : ∀ s ∈ l, ∀ v, s.maxValue = some v → val v ≠ none) :
    Extremum numLe (l.map fun s => s.minValue.map val) (x.minValue.map val) ∧
    Extremum numGe (l.map fun s => s.maxValue.map val) (x.maxValue.map val) := by
  have key := reduceFold_inv _ (fun seen acc =>
    (∀ s ∈ seen, ∀ v, s.minValue = some v → val v ≠ none) →
    (∀ s ∈ seen, ∀ v, s.maxValue = some v → val v ≠ none) →
    (Extremum numLe ((seen.map (·.minValue)).map (Option.map val)) (acc.minValue.map val) ∧
      ∀ x, acc.minValue = some x → some x ∈ seen.map (·.minValue)) ∧
    (Extremum numGe ((seen.map (·.maxValue)).map (Option.map val)) (acc.maxValue.map val) ∧
      ∀ x, acc.maxValue = some x → some x ∈ seen.map (·.maxValue))) ?_ ?_ l x h hmin hmax
  · rw [List.map_map, List.map_map] at key
    exact ⟨key.1.1, key.2.1⟩
  · intro x h1 h2
    refine ⟨⟨?_, by intro v hv; simp [hv]⟩, ⟨?_, by intro v hv; simp [hv]⟩⟩
    · exact single_bounds val numLe numLe_refl _ fun v hv => h1 x (by simp) v hv.symm
    · exact single_bounds val numGe numLe_refl _ fun v hv => h2 x (by simp) v hv.symm
  · intro seen acc new acc' ih hf h1 h2
    simp only [Res.bind_eq_ok, Res.ok.injEq] at hf
    obtain ⟨mn, hmn, mx, hmx, nc, hnc, rfl⟩ := hf
    obtain ⟨⟨i1, i2⟩, i3, i4⟩ := ih (fun s hs => h1 s (List.mem_append_left _ hs))
      (fun s hs => h2 s (List.mem_append_left _ hs))
    constructor
    · have := pick_step val _ numLe numLe_trans numLe_refl ?_ (seen.map (·.minValue)) acc.minValue
        new.minValue mn ?_ i1 i2 hmn
      · simpa using this
      · intro x y z a b ha hb hz
        simp only [hgt x y a b ha hb, decide_eq_true_eq, Res.ok.injEq] at hz
        split at hz
        · exact .inr ⟨hz.symm, b, a, rfl, rfl, by omega⟩
        · exact .inl ⟨hz.symm, a, b, rfl, rfl, by omega⟩
      · rintro x (hx | hx)
        · obtain ⟨s, hs, hsx⟩ := List.mem_map.1 hx
          exact h1 s (List.mem_append_left _ hs) x hsx
        · exact h1 new (by simp) x hx
    · have := pick_step val _ numGe numGe_trans numLe_refl ?_ (seen.map (·.maxValue)) acc.maxValue
        new.maxValue mx ?_ i3 i4 hmx
      · simpa using this
      · intro x y z a b ha hb hz
        simp only [hgt x y a b ha hb, decide_eq_true_eq, Res.ok.injEq] at hz
        split at hz
        · exact .inl ⟨hz.symm, b, a, rfl, rfl, by omega⟩
        · exact .inr ⟨hz.symm, a, b, rfl, rfl, by omega⟩
      · rintro x (hx | hx)
        · obtain ⟨s, hs, hsx⟩ := List.mem_map.1 hx
          exact h2 s (List.mem_append_left _ hs) x hsx
        · exact h2 new (by simp) x hx

theorem reduceBoolean_bounds (ck : Bool) (l : List BooleanStatistics) (x : BooleanStatistics)
    (h : reduceBoolean ck l = .ok x) :
    Extremum numLe (l.map fun s => s.minValue.map (some ∘ boolVal)) (x.minValue.map (some ∘ boolVal)) ∧
    Extremum numGe (l.map fun s => s.maxValue.map (some ∘ boolVal)) (x.maxValue.map (some ∘ boolVal)) := by
  have key := reduceFold_inv _ (fun seen acc =>
    (Extremum numLe ((seen.map (·.minValue)).map (Option.map (some ∘ boolVal)))
        (acc.minValue.map (some ∘ boolVal)) ∧
      ∀ x, acc.minValue = some x → some x ∈ seen.map (·.minValue)) ∧
    (Extremum numGe ((seen.map (·.maxValue)).map (Option.map (some ∘ boolVal)))
        (acc.maxValue.map (some ∘ boolVal)) ∧
      ∀ x, acc.maxValue = some x → some x ∈ seen.map (·.maxValue))) ?_ ?_ l x h
  · rw [List.map_map, List.map_map] at key
    exact ⟨key.1.1, key.2.1⟩
  · intro x
    refine ⟨⟨?_, by intro v hv; simp [hv]⟩, ⟨?_, by intro v hv; simp [hv]⟩⟩
    · exact single_bounds _ numLe numLe_refl _ fun v hv => by simp
    · exact single_bounds _ numGe numLe_refl _ fun v hv => by simp
  · intro seen acc new acc' ih hf
    simp only [Res.bind_eq_ok, Res.ok.injEq] at hf
    obtain ⟨mn, hmn, mx, hmx, nc, hnc, rfl⟩ := hf
    obtain ⟨⟨i1, i2⟩, i3, i4⟩ := ih
    constructor
    · have := pick_step (some ∘ boolVal) _ numLe numLe_trans numLe_refl ?_ (seen.map (·.minValue))
        acc.minValue new.minValue mn ?_ i1 i2 hmn
      · simpa using this
      · intro x y z a b ha hb hz
        simp only [Function.comp_apply, Option.some.injEq] at ha hb
        subst ha hb
        cases x <;> cases y <;> simp only [Res.ok.injEq] at hz <;> subst hz <;>
          simp [boolVal, numLe]
      · intro x _; simp
    · have := pick_step (some ∘ boolVal) _ numGe numGe_trans numLe_refl ?_ (seen.map (·.maxValue))
        acc.maxValue new.maxValue mx ?_ i3 i4 hmx
      · simpa using this
      · intro x y z a b ha hb hz
        simp only [Function.comp_apply, Option.some.injEq] at ha hb
        subst ha hb
        cases x <;> cases y <;> simp only [Res.ok.injEq] at hz <;> subst hz <;>
          simp [boolVal, numGe, numLe]
      · intro x _; simp

/-- The strings in `xs` have no proper prefixes among themselves. -/
def PrefixFree (xs : List (Option (List Byte))) : Prop :=
  ∀ a b, some a ∈ xs → some b ∈ xs → a <+: b → a = b

theorem reduceVec8_min (xs : List (Option (List Byte))) (a b : Option (List Byte))
    (hfree : PrefixFree (xs ++ [b])) (ha : Extremum lexLe xs a) :
    Extremum lexLe (xs ++ [b]) (reduceVec8 a b false) := by
  apply extremum_step lexLe lexLe_trans xs a b _ ha (fun y _ => lexLe_refl y)
  cases a with
  | none => exact .inl ⟨rfl, by cases b <;> rfl⟩
  | some x =>
    cases b with
    | none => exact .inr (.inl ⟨rfl, rfl⟩)
    | some y =>
      refine .inr (.inr ⟨x, y, _, rfl, rfl, rfl, pick_min x y ⟨?_, ?_⟩⟩)
      · exact hfree x y (List.mem_append_left _ ha.1) (by simp)
      · exact fun h => (hfree y x (by simp) (List.mem_append_left _ ha.1) h).symm

theorem reduceVec8_max (xs : List (Option (List Byte))) (a b : Option (List Byte))
    (hfree : PrefixFree (xs ++ [b])) (ha : Extremum (fun x y => lexLe y x) xs a) :
    Extremum (fun x y => lexLe y x) (xs ++ [b]) (reduceVec8 a b true) := by
  apply extremum_step (fun x y => lexLe y x) (fun x y z h1 h2 => lexLe_trans z y x h2 h1) xs a b _ ha
    (fun y _ => lexLe_refl y)
  cases a with
  | none => exact .inl ⟨rfl, by cases b <;> rfl⟩
  | some x =>
    cases b with
    | none => exact .inr (.inl ⟨rfl, rfl⟩)
    | some y =>
      refine .inr (.inr ⟨x, y, _, rfl, rfl, rfl, pick_max x y ⟨?_, ?_⟩⟩)
      · exact hfree x y (List.mem_append_left _ ha.1) (by simp)
      · exact fun h => (hfree y x (by simp) (List.mem_append_left _ ha.1) h).symm

theorem PrefixFree.left {xs ys : List (Option (List Byte))} (h : PrefixFree (xs ++ ys)) :
    PrefixFree xs :=
  fun a b ha hb => h a b (List.mem_append_left _ ha) (List.mem_append_left _ hb)

theorem reduceBinary_bounds (ck : Bool) (l : List BinaryStatistics) (x : BinaryStatistics)
    (h : reduceBinary ck l = .ok x) (hmin : PrefixFree (l.map (·.minValue)))
    (hmax : PrefixFree (l.map (·.maxValue))) :
    Extremum lexLe (l.map (·.minValue)) x.minValue ∧
    Extremum (fun a b => lexLe b a) (l.map (·.maxValue)) x.maxValue := by
  refine reduceFold_inv _ (fun seen acc => PrefixFree (seen.map (·.minValue)) →
    PrefixFree (seen.map (·.maxValue)) → Extremum lexLe (seen.map (·.minValue)) acc.minValue ∧
    Extremum (fun a b => lexLe b a) (seen.map (·.maxValue)) acc.maxValue) ?_ ?_ l x h hmin hmax
  · intro x _ _
    exact ⟨extremum_single _ _ fun y _ => lexLe_refl y, extremum_single _ _ fun y _ => lexLe_refl y⟩
  · intro seen acc new acc' ih hf h1 h2
    simp only [Res.bind_eq_ok, Res.ok.injEq] at hf
    obtain ⟨nc, hnc, rfl⟩ := hf
    rw [List.map_append, List.map_singleton] at h1 h2 ⊢
    obtain ⟨i1, i2⟩ := ih h1.left h2.left
    exact ⟨reduceVec8_min _ _ _ h1 i1, by
      rw [List.map_append]; exact reduceVec8_max _ _ _ h2 i2⟩

theorem reduceFixLenBinary_bounds (ck : Bool) (l : List FixedLenStatistics) (x : FixedLenStatistics)
    (h : reduceFixLenBinary ck l = .ok x) (hmin : PrefixFree (l.map (·.minValue)))
    (hmax : PrefixFree (l.map (·.maxValue))) :
    Extremum lexLe (l.map (·.minValue)) x.minValue ∧
    Extremum (fun a b => lexLe b a) (l.map (·.maxValue)) x.maxValue := by
  refine reduceFold_inv _ (fun seen acc => PrefixFree (seen.map (·.minValue)) →
    PrefixFree (seen.map (·.maxValue)) → Extremum lexLe (seen.map (·.minValue)) acc.minValue ∧
    Extremum (fun a b => lexLe b a) (seen.map (·.maxValue)) acc.maxValue) ?_ ?_ l x h hmin hmax
  · intro x _ _
    exact ⟨extremum_single _ _ fun y _ => lexLe_refl y, extremum_single _ _ fun y _ => lexLe_refl y⟩
  · intro seen acc new acc' ih hf h1 h2
    simp only [Res.bind_eq_ok, Res.ok.injEq] at hf
    obtain ⟨nc, hnc, rfl⟩ := hf
    rw [List.map_append, List.map_singleton] at h1 h2 ⊢
    obtain ⟨i1, i2⟩ := ih h1.left h2.left
    exact ⟨reduceVec8_min _ _ _ h1 i1, by
      rw [List.map_append]; exact reduceVec8_max _ _ _ h2 i2⟩

end Pq
