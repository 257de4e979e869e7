import Verif.Lemmas.ClientPage
import Verif.Model.ClientNested
import Verif.Spec.Nested
import Verif.Props.Types
import Verif.Props.Bitpacked
/-
Levels of nested columns.
-/
namespace Pq.Client
open Pq.Spec Pq.Deser

theorem Nest.level_le {α : Type} (n : Nat) (x : Nest α n) : Nest.level n x ≤ n := by
  induction n with
  | zero => exact Nat.le_refl 0
  | succ n ih =>
    cases x with
    | none => exact Nat.zero_le _
    | some x => exact Nat.succ_le_succ (ih x)

theorem Nest.isSome_iff {α : Type} (n : Nat) (x : Nest α n) :
    (Nest.value n x).isSome = decide (Nest.level n x = n) := by
  induction n with
  | zero => rfl
  | succ n ih =>
    cases x with
    | none => rfl
    | some x =>
      have := ih x
      simp only [Nest.value, Nest.level, this, Nat.add_right_cancel_iff]

/-- The bit width of the code is the one of the format. -/
theorem width_eq (m : BitVec 16) (hm : 0 ≤ m.toInt) (w : Nat) (h1 : m.toInt.toNat < 2 ^ w)
    (h2 : ∀ v, m.toInt.toNat < 2 ^ v → w ≤ v) : w = getBitWidth m := by
  obtain ⟨b1, b2⟩ := Props.C31_bit_width m hm
  apply Nat.le_antisymm
  · exact h2 _ (b1 m.toInt.toNat (by omega))
  · apply b2
    intro level hl
    omega

theorem dec_remaining {data : List Byte} {n N : Nat} {d : Rle.Dec} (h : Rle.Dec.tryNew data n N = .ok d) :
    d.remaining = N := by
  unfold Rle.Dec.tryNew at h
  split at h
  · injection h with h; rw [← h]
  · simp at h
  · simp at h

/-- The decoder of levels in any legal stream. -/
theorem levels_yield (m : BitVec 16) (hm : 0 < m.toInt) (lv : List Byte) (levels : List Nat)
    (h : LevelRuns m.toInt.toNat lv levels) :
    ∃ dec us, Rle.Dec.tryNew lv (getBitWidth m) levels.length = .ok dec ∧ Yields Rle.Dec.next dec us ∧
      us.map BitVec.toNat = levels ∧ dec.remaining = levels.length := by
  obtain ⟨w, rs, h1, h2, h3, h4⟩ := h
  have hw := width_eq m (by omega) w h1 h2
  have hpos : 0 < w := by
    rcases Nat.eq_zero_or_pos w with h | h
    · subst h; simp only [Nat.pow_zero] at h1; omega
    · exact h
  have h32 : w ≤ 32 := by
    apply Nat.le_trans (h2 16 _) (by omega)
    have := m.toInt_lt
    simp only [Nat.reduceSub, Nat.reducePow, Nat.cast_ofNat] at this ⊢
    omega
  have hlen : levels.length ≤ (rs.flatMap (Run.values w)).length := by
    have := congrArg List.length h4
    rw [List.length_take] at this
    omega
  obtain ⟨us, g1, g2⟩ := Props.C11_runs_enough w hpos h32 rs lv h3 levels.length hlen
  obtain ⟨dec, g3, g4⟩ := tryNew_yields g1
  rw [h4] at g2
  rw [hw] at g3
  exact ⟨dec, us, g3, g4, g2, dec_remaining g3⟩

/-- The page of an optional column, nested in structures. -/
theorem OptionalPage.ofLevels {page : DataPage} {vals : List Byte} {bits : List Bool} (levels : List Nat)
    (hf : OptionalLeaf page.descriptor) (hm : 0 < page.descriptor.maxDefLevel.toInt)
    (hn : page.numValues = levels.length) (rep lv : List Byte) (hs : splitBuffer page = .ok (rep, lv, vals))
    (hl : LevelRuns page.descriptor.maxDefLevel.toInt.toNat lv levels)
    (hb : bits = levels.map fun l => decide (l = page.descriptor.maxDefLevel.toInt.toNat)) :
    OptionalPage page bits vals := by
  have hnat : ((page.descriptor.maxDefLevel.signExtend 32).toNat : Int) = page.descriptor.maxDefLevel.toInt := by
    have h1 : (page.descriptor.maxDefLevel.signExtend 32).toInt = page.descriptor.maxDefLevel.toInt :=
      BitVec.toInt_signExtend_of_le (by omega)
    rw [BitVec.toInt_eq_toNat_of_lt] at h1
    · exact h1
    · have := BitVec.toInt_eq_toNat_cond (page.descriptor.maxDefLevel.signExtend 32)
      split at this
      · assumption
      · have := (page.descriptor.maxDefLevel.signExtend 32).isLt
        omega
  subst hb
  refine ⟨hf, by rw [List.length_map]; exact hn, ⟨rep, lv, hs⟩, ?_⟩
  by_cases h1 : page.descriptor.maxDefLevel = 1#16
  · refine ⟨_, ?_, .bitmap lv ?_⟩
    · unfold DefLevels.tryNew
      rw [hs]
      simp only [Res.ok_bind]
      rw [if_pos h1, hn, List.length_map]
    · apply levelsAre_of_stream
      obtain ⟨w, rs, g1, g2, g3, g4⟩ := hl
      rw [h1] at g1 g2
      have hw : w = 1 := by
        have e : (1#16).toInt.toNat = 1 := by decide
        rw [e] at g1 g2
        have := g2 1 (by decide)
        rcases w with _ | _ | w
        · simp at g1
        · rfl
        · omega
      subst hw
      refine ⟨rs, g3, ?_⟩
      rw [List.length_map, g4]
      apply List.map_congr_left
      intro l _
      rw [h1]
      exact Bool.beq_eq_decide_eq _ _
  · obtain ⟨dec, us, g1, g2, g3, g4⟩ := levels_yield _ hm lv levels hl
    refine ⟨.levels dec (page.descriptor.maxDefLevel.signExtend 32).toNat, ?_, .levels _ _ us g2 ?_ ?_⟩
    · unfold DefLevels.tryNew
      rw [hs]
      simp only [Res.ok_bind]
      rw [if_neg h1, hn, g1]
      rfl
    · rw [g4, ← g3, List.length_map]
    · rw [← g3, List.map_map]
      apply List.map_congr_left
      intro u _
      simp only [Function.comp, decide_eq_decide]
      omega

/-! ### Lists -/

theorem yields_decoder {dec : Rle.Dec} {us : List Rle.U32} (h : Yields Rle.Dec.next dec us) :
    Yields LevelIter.next (.decoder dec) us := by
  induction h with
  | done h => exact .done (by simp only [LevelIter.next, h, Res.ok_bind]; rfl)
  | item h _ ih => exact .item (by simp only [LevelIter.next, h, Res.ok_bind]) ih

/-- The loop over levels that are known. -/
def composeSteps {τ : Type} (next : τ → Res (Option (BitVec (8 * 8)) × τ)) :
    List (Nat × Nat) → Composer τ → Res (Composer τ)
  | [], c => .ok c
  | (r, d) :: ls, c => do
    let c ← c.repetition r
    let c ← c.definition next d
    composeSteps next ls c

theorem composeLoop_eq {τ : Type} (next : τ → Res (Option (BitVec (8 * 8)) × τ)) (ls : List (Nat × Nat))
    (reps defs : LevelIter) (us vs : List Rle.U32) (hr : Yields LevelIter.next reps us)
    (hd : Yields LevelIter.next defs vs) (h1 : us.map BitVec.toNat = ls.map Prod.fst)
    (h2 : vs.map BitVec.toNat = ls.map Prod.snd) (c : Composer τ) (fuel : Nat) (hf : ls.length < fuel) :
    composeLoop next fuel reps defs c = composeSteps next ls c := by
  induction ls generalizing reps defs us vs c fuel with
  | nil =>
    obtain ⟨fuel, rfl⟩ : ∃ k, fuel = k + 1 := ⟨fuel - 1, by simp only [List.length_nil] at hf; omega⟩
    simp only [List.map_nil, List.map_eq_nil_iff] at h1
    subst h1
    cases hr with
    | done h => simp only [composeLoop, h, Res.ok_bind, composeSteps]
  | cons l ls ih =>
    obtain ⟨r, d⟩ := l
    obtain ⟨fuel, rfl⟩ : ∃ k, fuel = k + 1 := ⟨fuel - 1, by omega⟩
    cases us with
    | nil => simp at h1
    | cons u us =>
      cases vs with
      | nil => simp at h2
      | cons v vs =>
        simp only [List.map_cons, List.cons.injEq] at h1 h2
        cases hr with
        | item hr1 hr2 =>
          cases hd with
          | item hd1 hd2 =>
            simp only [composeLoop, hr1, hd1, Res.ok_bind, composeSteps, h1.1, h2.1]
            cases c.repetition r with
            | err e => rfl
            | panic => rfl
            | ok c1 =>
              simp only [Res.ok_bind]
              cases c1.definition next d with
              | err e => rfl
              | panic => rfl
              | ok c2 =>
                simp only [Res.ok_bind]
                exact ih _ _ us vs hr2 hd2 h1.2 h2.2 c2 fuel (by simpa using hf)

theorem composeSteps_append {τ : Type} (next : τ → Res (Option (BitVec (8 * 8)) × τ)) (l1 l2 : List (Nat × Nat))
    (c : Composer τ) : composeSteps next (l1 ++ l2) c =
      (do let c ← composeSteps next l1 c
          composeSteps next l2 c) := by
  induction l1 generalizing c with
  | nil => rfl
  | cons l l1 ih =>
    obtain ⟨r, d⟩ := l
    simp only [List.cons_append, composeSteps]
    cases c.repetition r with
    | err e => rfl
    | panic => rfl
    | ok c1 =>
      simp only [Res.ok_bind]
      cases c1.definition next d with
      | err e => rfl
      | panic => rfl
      | ok c2 => simp only [Res.ok_bind]; exact ih c2

/-- The lists so far, with the one that is being read. -/
def Composer.flush {τ : Type} (c : Composer τ) : Lists :=
  if 1 < c.prevDef then c.outer ++ [some c.inner] else c.outer

/-- The items after the first one. -/
theorem composeSteps_items {τ : Type} (next : τ → Res (Option (BitVec (8 * 8)) × τ))
    (xs : List (Option (BitVec (8 * 8)))) (c : Composer τ) (rest : List (BitVec (8 * 8)))
    (hp : 1 < c.prevDef) (h : Gives next c.values (xs.filterMap id ++ rest)) :
    ∃ c', composeSteps next (xs.map fun y => (1, itemLevel y)) c = .ok c' ∧ c'.outer = c.outer ∧
      c'.inner = c.inner ++ xs ∧ 1 < c'.prevDef ∧ Gives next c'.values rest := by
  induction xs generalizing c with
  | nil => exact ⟨c, rfl, rfl, by simp, hp, h⟩
  | cons x xs ih =>
    cases x with
    | none =>
      obtain ⟨c', h1, h2, h3, h4, h5⟩ := ih { c with inner := c.inner ++ [none], prevDef := 2 } (by simp) h
      exact ⟨c', h1, h2, by rw [h3]; simp, h4, h5⟩
    | some x =>
      simp only [List.filterMap_cons, id_eq, List.cons_append] at h
      cases h with
      | @item _ t _ _ g1 g2 =>
        obtain ⟨c', h1, h2, h3, h4, h5⟩ := ih { c with inner := c.inner ++ [some x], values := t, prevDef := 3 }
          (by simp) g2
        refine ⟨c', ?_, h2, by rw [h3]; simp, h4, h5⟩
        simp only [List.map_cons, itemLevel, composeSteps, Composer.repetition, Composer.definition, Res.ok_bind, g1]
        exact h1

theorem composeSteps_row {τ : Type} (next : τ → Res (Option (BitVec (8 * 8)) × τ))
    (row : Option (List (Option (BitVec (8 * 8))))) (c : Composer τ) (rest : List (BitVec (8 * 8)))
    (hp : c.prevDef ≤ 1 → c.inner = []) (h : Gives next c.values (listItems row ++ rest)) :
    ∃ c', composeSteps next (listLevels row) c = .ok c' ∧ c'.flush = c.flush ++ [row] ∧
      (c'.prevDef ≤ 1 → c'.inner = []) ∧ (1 < c'.prevDef ↔ HasItems row) ∧ Gives next c'.values rest := by
  obtain ⟨c1, e1, e2, e3, e4⟩ : ∃ c1, c.repetition 0 = .ok c1 ∧ c1.outer = c.flush ∧ c1.inner = [] ∧
      c1.values = c.values := by
    unfold Composer.repetition Composer.flush
    by_cases hc : 1 < c.prevDef
    · simp only [hc, if_true]; exact ⟨_, rfl, rfl, rfl, rfl⟩
    · simp only [hc, if_false]; exact ⟨_, rfl, rfl, hp (by omega), rfl⟩
  rcases row with _ | ⟨_ | ⟨x, xs⟩⟩
  · refine ⟨{ c1 with outer := c1.outer ++ [none], prevDef := 0 }, ?_, ?_, fun _ => e3, ?_, ?_⟩
    · simp only [listLevels, composeSteps, e1, Res.ok_bind]; rfl
    · rw [← e2]; simp [Composer.flush]
    · simp [HasItems]
    · rw [e4]; exact h
  · refine ⟨{ c1 with outer := c1.outer ++ [some []], prevDef := 1 }, ?_, ?_, fun _ => e3, ?_, ?_⟩
    · simp only [listLevels, composeSteps, e1, Res.ok_bind]; rfl
    · rw [← e2]; simp [Composer.flush]
    · simp [HasItems]
    · rw [e4]; exact h
  · have key : ∃ c2, c1.definition next (itemLevel x) = .ok c2 ∧ c2.outer = c1.outer ∧ c2.inner = [x] ∧
        1 < c2.prevDef ∧ Gives next c2.values (xs.filterMap id ++ rest) := by
      cases x with
      | none =>
        exact ⟨{ c1 with inner := c1.inner ++ [none], prevDef := 2 }, rfl, rfl, by simp [e3], by simp,
          by rw [← e4] at h; exact h⟩
      | some x =>
        simp only [listItems, Option.getD_some, List.filterMap_cons, id_eq, List.cons_append] at h
        rw [← e4] at h
        cases h with
        | @item _ t _ _ g1 g2 =>
          refine ⟨{ c1 with inner := c1.inner ++ [some x], values := t, prevDef := 3 }, ?_, rfl, by simp [e3],
            by simp, g2⟩
          simp only [itemLevel, Composer.definition, g1, Res.ok_bind]
    obtain ⟨c2, k1, k2, k3, k4, k5⟩ := key
    obtain ⟨c', h1, h2, h3, h4, h5⟩ := composeSteps_items next xs c2 rest k4 k5
    refine ⟨c', ?_, ?_, fun hle => absurd h4 (by omega), ⟨fun _ => ⟨x, xs, rfl⟩, fun _ => h4⟩, h5⟩
    · simp only [listLevels, composeSteps, e1, k1, Res.ok_bind]
      exact h1
    · unfold Composer.flush at e2 ⊢
      rw [if_pos h4, h2, h3, k2, k3, e2]
      rfl

theorem composeSteps_rows {τ : Type} (next : τ → Res (Option (BitVec (8 * 8)) × τ)) (rows : Lists) (c : Composer τ)
    (hp : c.prevDef ≤ 1 → c.inner = []) (h : Gives next c.values (rows.flatMap listItems)) :
    ∃ c', composeSteps next (rows.flatMap listLevels) c = .ok c' ∧ c'.flush = c.flush ++ rows ∧
      (c'.prevDef ≤ 1 → c'.inner = []) ∧
      (∀ row, rows.getLast? = some row → (1 < c'.prevDef ↔ HasItems row)) ∧ (rows = [] → c' = c) := by
  induction rows generalizing c with
  | nil => exact ⟨c, rfl, by simp, hp, by simp, fun _ => rfl⟩
  | cons row rows ih =>
    rw [List.flatMap_cons] at h
    obtain ⟨c1, h1, h2, h3, h4, h5⟩ := composeSteps_row next row c _ hp h
    obtain ⟨c', g1, g2, g3, g4, g5⟩ := ih c1 h3 h5
    refine ⟨c', ?_, by rw [g2, h2]; simp, g3, ?_, by simp⟩
    · rw [List.flatMap_cons, composeSteps_append, h1]; exact g1
    · intro r hr
      cases rows with
      | nil =>
        simp only [List.getLast?_singleton, Option.some.injEq] at hr
        subst hr
        rw [g5 rfl]; exact h4
      | cons r2 rows =>
        rw [List.getLast?_cons_cons] at hr
        exact g4 r hr

/-- What is read of a page: the rows, and an empty list more unless the last row has items. -/
theorem compose_rows {τ : Type} (next : τ → Res (Option (BitVec (8 * 8)) × τ)) (rows : Lists) (values : τ)
    (h : Gives next values (rows.flatMap listItems)) (reps defs : LevelIter) (us vs : List Rle.U32)
    (hr : Yields LevelIter.next reps us) (hd : Yields LevelIter.next defs vs)
    (h1 : us.map BitVec.toNat = (rows.flatMap listLevels).map Prod.fst)
    (h2 : vs.map BitVec.toNat = (rows.flatMap listLevels).map Prod.snd) :
    ((∃ row, rows.getLast? = some row ∧ HasItems row) →
      composeArray next (rows.flatMap listLevels).length reps defs 1 3 values = .ok rows) ∧
    ((¬ ∃ row, rows.getLast? = some row ∧ HasItems row) →
      composeArray next (rows.flatMap listLevels).length reps defs 1 3 values = .ok (rows ++ [some []])) := by
  obtain ⟨c', g1, g2, g3, g4, g5⟩ := composeSteps_rows next rows
    { outer := [], inner := [], prevDef := 0, values } (fun _ => rfl) h
  have e := composeLoop_eq next (rows.flatMap listLevels) reps defs us vs hr hd h1 h2
    { outer := [], inner := [], prevDef := 0, values } _ (Nat.lt_succ_self _)
  rw [g1] at e
  have hflush : c'.flush = rows := by rw [g2]; simp [Composer.flush]
  have hval : composeArray next (rows.flatMap listLevels).length reps defs 1 3 values =
      .ok (c'.outer ++ [some c'.inner]) := by
    unfold composeArray
    simp only [Res.assert, decide_true, if_true, Res.ok_bind, e]
  rw [hval]
  unfold Composer.flush at hflush
  constructor
  · rintro ⟨row, hlast, hi⟩
    rw [if_pos ((g4 row hlast).2 hi)] at hflush
    rw [hflush]
  · intro hno
    have hle : ¬ 1 < c'.prevDef := by
      intro hlt
      cases hl : rows.getLast? with
      | none =>
        rw [List.getLast?_eq_none_iff] at hl
        rw [g5 hl] at hlt
        simp at hlt
      | some row => exact hno ⟨row, hl, (g4 row hl).1 hlt⟩
    rw [if_neg hle] at hflush
    rw [hflush, g3 (by omega)]

end Pq.Client
