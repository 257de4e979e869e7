import Verif.Spec.WriterOutcome
import Verif.Lemmas.WriterEnd
/-
Lemmas on how the calls of a writer end.
-/
namespace Pq
open Spec

/-! ### Outcomes -/

theorem outcome_bind {α β : Type} (x : Res α) (f : α → Res β) :
    outcome (x >>= f) = (outcome x).andThen (match x with | .ok a => outcome (f a) | _ => .done) := by
  cases x <;> rfl

theorem outcome_bind_ok {α β : Type} {x : Res α} {f : α → Res β} {o : Outcome}
    (h : ∀ a, x = .ok a → outcome (f a) = o) : outcome (x >>= f) = (outcome x).andThen o := by
  cases x with
  | ok a => exact h a rfl
  | err e => rfl
  | panic => rfl

theorem outcome_map' {α β : Type} (f : α → β) (x : Res α) : outcome (x.map' f) = outcome x := by
  cases x <;> rfl

theorem outcome_done {α : Type} {x : Res α} : outcome x = .done ↔ ∃ a, x = .ok a := by
  cases x <;> simp [outcome]

theorem andThen_assoc (a b c : Outcome) : (a.andThen b).andThen c = a.andThen (b.andThen c) := by
  cases a <;> rfl

theorem andThen_done (a : Outcome) : a.andThen .done = a := by cases a <;> rfl

theorem done_andThen (a : Outcome) : Outcome.andThen .done a = a := rfl

theorem andThen_eq_done {a b : Outcome} : a.andThen b = .done ↔ a = .done ∧ b = .done := by
  cases a <;> simp [Outcome.andThen]

theorem requires_pos {p : Prop} [Decidable p] (h : p) : requires p = .done := if_pos h
theorem requires_neg {p : Prop} [Decidable p] (h : ¬ p) : requires p = .refused := if_neg h
theorem expects_pos {p : Prop} [Decidable p] (h : p) : expects p = .done := if_pos h
theorem expects_neg {p : Prop} [Decidable p] (h : ¬ p) : expects p = .aborts := if_neg h

theorem requires_done {p : Prop} [Decidable p] : requires p = .done ↔ p := by
  unfold requires; split <;> simp_all
theorem expects_done {p : Prop} [Decidable p] : expects p = .done ↔ p := by
  unfold expects; split <;> simp_all

theorem requires_and {p q : Prop} [Decidable p] [Decidable q] :
    (requires p).andThen (requires q) = requires (p ∧ q) := by
  by_cases hp : p <;> by_cases hq : q <;> simp [requires, hp, hq, Outcome.andThen]

theorem expects_and {p q : Prop} [Decidable p] [Decidable q] :
    (expects p).andThen (expects q) = expects (p ∧ q) := by
  by_cases hp : p <;> by_cases hq : q <;> simp [expects, hp, hq, Outcome.andThen]

theorem requires_congr {p q : Prop} [Decidable p] [Decidable q] (h : p ↔ q) :
    requires p = requires q := by
  by_cases hp : p <;> simp [requires, hp, ← h]

theorem expects_congr {p q : Prop} [Decidable p] [Decidable q] (h : p ↔ q) :
    expects p = expects q := by
  by_cases hp : p <;> simp [expects, hp, ← h]

theorem inTurn_nil : inTurn [] = .done := rfl
theorem inTurn_cons (o : Outcome) (os : List Outcome) : inTurn (o :: os) = o.andThen (inTurn os) := rfl

theorem inTurn_append (os os' : List Outcome) :
    inTurn (os ++ os') = (inTurn os).andThen (inTurn os') := by
  induction os with
  | nil => rfl
  | cons o os ih => rw [List.cons_append, inTurn_cons, ih, inTurn_cons, andThen_assoc]

theorem inTurn_done {os : List Outcome} : inTurn os = .done ↔ ∀ o ∈ os, o = .done := by
  induction os with
  | nil => simp [inTurn_nil]
  | cons o os ih => rw [inTurn_cons, andThen_eq_done, ih]; simp

/-! ### Sums -/

/-- The sums of a list, on top of a number, fit. -/
def SumsFitFrom (a : Int) (xs : List Int) : Prop := ∀ ys, ys <+: xs → Fits64 (a + ys.sum)

theorem sumsFit_iff {xs : List Int} : SumsFit xs ↔ SumsFitFrom 0 xs := by
  simp only [SumsFit, SumsFitFrom, List.mem_inits, Int.zero_add]

instance (a : Int) (xs : List Int) : Decidable (SumsFitFrom a xs) :=
  decidable_of_iff (∀ ys ∈ xs.inits, Fits64 (a + ys.sum)) (by simp only [List.mem_inits]; exact Iff.rfl)

theorem SumsFitFrom.nil {a : Int} (h : Fits64 a) : SumsFitFrom a [] := by
  intro ys hy
  rw [List.prefix_nil.1 hy]
  simpa using h

theorem sumsFitFrom_cons {a x : Int} {xs : List Int} (h : Fits64 a) :
    SumsFitFrom a (x :: xs) ↔ Fits64 (a + x) ∧ SumsFitFrom (a + x) xs := by
  constructor
  · intro hs
    refine ⟨by simpa using hs [x] (by simp), fun ys hy => ?_⟩
    have := hs (x :: ys) ((List.prefix_cons_inj x).2 hy)
    rw [List.sum_cons] at this
    rwa [Int.add_assoc]
  · rintro ⟨-, hs⟩ ys hy
    cases ys with
    | nil => simpa using h
    | cons y ys =>
      rw [List.cons_prefix_cons] at hy
      obtain ⟨rfl, hy⟩ := hy
      rw [List.sum_cons, ← Int.add_assoc]
      exact hs ys hy

theorem toInt_fits (a : I64) : Fits64 a.toInt := by
  have h1 := BitVec.le_toInt a
  have h2 := BitVec.toInt_lt (x := a)
  constructor <;> omega

theorem outcome_addI64 (ck : Bool) (a b : I64) :
    outcome (addI64 ck a b) = expects (ck = true → Fits64 (a.toInt + b.toInt)) := by
  unfold addI64
  by_cases h : ck = true ∧ ¬ Fits64 (a.toInt + b.toInt)
  · rw [if_pos (by simpa only [Fits64] using h), expects_neg (by
      obtain ⟨h1, h2⟩ := h
      exact fun hc => h2 (hc h1))]
    rfl
  · rw [if_neg (by simpa only [Fits64] using h), expects_pos (fun hc => by
      by_contra hf
      exact h ⟨hc, hf⟩)]
    rfl

theorem addI64_exact {ck : Bool} {a b c : I64} (h : addI64 ck a b = .ok c)
    (hf : Fits64 (a.toInt + b.toInt)) : c.toInt = a.toInt + b.toInt := by
  rw [addI64_eq h, BitVec.toInt_add]
  obtain ⟨h1, h2⟩ := hf
  rw [Int.bmod_eq_of_le] <;> omega

theorem addI64_false (a b : I64) : addI64 false a b = .ok (a + b) := by
  rw [addI64, if_neg (by simp)]

theorem outcome_sumI64 (ck : Bool) (acc : I64) (xs : List I64) :
    outcome (sumI64 ck acc xs) = expects (ck = true → SumsFitFrom acc.toInt (xs.map BitVec.toInt)) := by
  cases ck with
  | false =>
    rw [expects_pos (by simp)]
    induction xs generalizing acc with
    | nil => rfl
    | cons x xs ih => rw [sumI64, addI64_false]; exact ih _
  | true =>
    rw [expects_congr (q := SumsFitFrom acc.toInt (xs.map BitVec.toInt)) (by simp)]
    induction xs generalizing acc with
    | nil => rw [expects_pos (show SumsFitFrom _ (List.map _ []) from SumsFitFrom.nil (toInt_fits acc))]; rfl
    | cons x xs ih =>
      have hc := sumsFitFrom_cons (x := x.toInt) (xs := xs.map BitVec.toInt) (toInt_fits acc)
      have ha := outcome_addI64 true acc x
      rw [sumI64]
      by_cases hf : Fits64 (acc.toInt + x.toInt)
      · rw [expects_pos (by simp [hf])] at ha
        obtain ⟨c, ha⟩ := outcome_done.1 ha
        have e := addI64_exact ha hf
        simp only [ha]
        rw [ih]
        exact expects_congr (by rw [e]; exact ⟨fun h => hc.2 ⟨hf, h⟩, fun h => (hc.1 h).2⟩)
      · rw [expects_neg (by simp [hf])] at ha
        rw [expects_neg (show ¬ SumsFitFrom _ (List.map _ (x :: xs)) from fun h => hf (hc.1 h).1)]
        cases he : addI64 true acc x with
        | ok c => rw [he] at ha; cases ha
        | err e => rw [he] at ha; cases ha
        | panic => rfl

theorem outcome_sumI64_zero (ck : Bool) (xs : List I64) :
    outcome (sumI64 ck 0 xs) = expects (ck = true → SumsFit (xs.map BitVec.toInt)) := by
  rw [outcome_sumI64]
  exact expects_congr (by rw [sumsFit_iff]; exact Iff.rfl)

theorem sum_prefix_le {xs ys : List Int} (h : ys <+: xs) (hx : ∀ x ∈ xs, 0 ≤ x) :
    0 ≤ ys.sum ∧ ys.sum ≤ xs.sum := by
  obtain ⟨zs, rfl⟩ := h
  have hn : ∀ l : List Int, (∀ x ∈ l, 0 ≤ x) → 0 ≤ l.sum := by
    intro l hl
    induction l with
    | nil => simp
    | cons x l ih =>
      have h1 := hl x List.mem_cons_self
      have h2 := ih fun y hy => hl y (List.mem_cons_of_mem _ hy)
      simp only [List.sum_cons]
      omega
  have h1 := hn ys fun x h => hx x (by simp [h])
  have h2 := hn zs fun x h => hx x (by simp [h])
  simp only [List.sum_append]
  omega

theorem SumsFit.of_nonneg {xs : List Int} (hx : ∀ x ∈ xs, 0 ≤ x) (h : xs.sum < 2 ^ 63) : SumsFit xs := by
  intro ys hy
  rw [List.mem_inits] at hy
  have := sum_prefix_le hy hx
  constructor <;> omega

theorem SumsFit.of_small {xs : List Int} (hx : ∀ x ∈ xs, -(2 ^ 31) ≤ x ∧ x < 2 ^ 31)
    (h : xs.length < 2 ^ 31) : SumsFit xs := by
  have key : ∀ l : List Int, (∀ x ∈ l, -(2 ^ 31) ≤ x ∧ x < 2 ^ 31) →
      -(2 ^ 31 * l.length) ≤ l.sum ∧ l.sum ≤ 2 ^ 31 * l.length := by
    intro l hl
    induction l with
    | nil => simp
    | cons x l ih =>
      have h1 := hl x List.mem_cons_self
      have h2 := ih fun y hy => hl y (List.mem_cons_of_mem _ hy)
      simp only [List.sum_cons, List.length_cons]
      push_cast
      omega
  intro ys hy
  rw [List.mem_inits] at hy
  have h1 := key ys fun x h => hx x (hy.subset h)
  have h2 := hy.length_le
  constructor <;> omega

/-! ### Pages -/

theorem assembleHeader_outcome (p : CompressedPage) :
    assembleHeader p = if SizesOk p then .ok (headerOf p) else .err .oos := by
  split
  · rename_i h
    cases p with
    | data p =>
      obtain ⟨h1, h2, -⟩ := h
      simp only [CompressedPage.uncompressedSize, CompressedPage.buffer] at h1 h2
      simp only [assembleHeader, assembleDataPageHeader, maybeBytes, tryI32, if_pos h1, if_pos h2,
        Res.ok_bind, headerOf]
      cases p.header <;> rfl
    | dict p =>
      obtain ⟨h1, h2, h3⟩ := h
      have h3 := h3 p rfl
      simp only [CompressedPage.uncompressedSize, CompressedPage.buffer] at h1 h2
      simp only [assembleHeader, assembleDictPageHeader, maybeBytes, tryI32, if_pos h1, if_pos h2,
        if_pos h3, Res.ok_bind, headerOf]
  · rename_i h
    have hm : ∀ u c : Nat, ¬ (u < 2 ^ 31 ∧ c < 2 ^ 31) → maybeBytes u c = .err .oos := by
      intro u c hn
      rw [maybeBytes, tryI32]
      split
      · rename_i h1
        rw [Res.ok_bind, tryI32, if_neg (fun h2 => hn ⟨h1, h2⟩)]
        rfl
      · rfl
    cases p with
    | data p =>
      have hn : ¬ (p.uncompressedPageSize < 2 ^ 31 ∧ p.buffer.length < 2 ^ 31) :=
        fun hc => h ⟨hc.1, hc.2, fun _ e => by cases e⟩
      rw [assembleHeader, assembleDataPageHeader, hm _ _ hn]
      rfl
    | dict p =>
      rw [assembleHeader, assembleDictPageHeader]
      by_cases hn : p.uncompressedPageSize < 2 ^ 31 ∧ p.buffer.length < 2 ^ 31
      · have h3 : ¬ p.numValues < 2 ^ 31 := fun hc => h ⟨hn.1, hn.2, fun _ e => by cases e; exact hc⟩
        simp only [maybeBytes, tryI32, if_pos hn.1, if_pos hn.2, if_neg h3, Res.ok_bind]
        rfl
      · rw [hm _ _ hn]
        rfl

theorem pageStatistics_outcome (p : CompressedPage) :
    outcome (pageStatistics p) = requires (StatisticsOk p) ∧ pageStatistics p ≠ .panic ∧
      ∀ e, pageStatistics p = .err e → e = .oos := by
  cases p with
  | dict p =>
    rw [requires_pos (by simp [StatisticsOk, statisticsOf])]
    exact ⟨rfl, by simp [pageStatistics], fun e he => by simp [pageStatistics] at he⟩
  | data p =>
    simp only [pageStatistics]
    have key : ∀ (o : Option Thrift.Statistics) (r : Res (Option Statistics)),
        statisticsOf (.data p) = o.map (fun s => (s, p.descriptor.primitiveType.physicalType)) →
        r = (match o with
          | none => Res.ok none
          | some s => (deserializeStatistics s p.descriptor.primitiveType).map' some) →
        outcome r = requires (StatisticsOk (.data p)) ∧ r ≠ .panic ∧ ∀ e, r = .err e → e = .oos := by
      intro o r ho hr
      cases o with
      | none =>
        rw [requires_pos (by simp [StatisticsOk, ho]), hr]
        exact ⟨rfl, by simp, fun e he => by simp at he⟩
      | some s =>
        obtain ⟨h1, h2⟩ := Props.C48_read s p.descriptor.primitiveType
        by_cases hw : WidthsOk s p.descriptor.primitiveType.physicalType
        · obtain ⟨t, ht, -⟩ := h1 hw
          rw [requires_pos (by simpa [StatisticsOk, ho] using hw), hr]
          simp only [ht]
          exact ⟨rfl, by simp [Res.map'], fun e he => by simp [Res.map'] at he⟩
        · rw [requires_neg (by simpa [StatisticsOk, ho] using hw), hr]
          simp only [h2 hw]
          refine ⟨rfl, by simp [Res.map'], fun e he => ?_⟩
          simp only [Res.map', Res.err.injEq] at he
          exact he.symm
    cases hh : p.header with
    | v1 h => exact key h.statistics _ (by simp [statisticsOf, hh]) rfl
    | v2 h => exact key h.statistics _ (by simp [statisticsOf, hh]) rfl

theorem lastSelected_outcome (o : Option (List Interval)) :
    outcome (lastSelected o) = expects (o ≠ some []) ∧ ∀ e, lastSelected o ≠ .err e := by
  cases o with
  | none => exact ⟨rfl, fun e => by simp [lastSelected]⟩
  | some x =>
    cases x with
    | nil => exact ⟨rfl, fun e => by simp [lastSelected, Res.unwrap, Res.map']⟩
    | cons i x =>
      rw [expects_pos (by simp)]
      rw [lastSelected]
      cases hl : (i :: x).getLast? with
      | none => simp at hl
      | some y => exact ⟨rfl, fun e => by simp [Res.unwrap, Res.map']⟩

/-- How writing a page ends. -/
theorem writePage_outcome (codec : Codec Thrift.PageHeader) (off : Nat) (p : CompressedPage) :
    outcome (writePage codec off p).1 = pageOutcome p := by
  rw [writePage, assembleHeader_outcome, pageOutcome]
  by_cases hs : SizesOk p
  · simp only [if_pos hs]
    rw [outcome_bind_ok (o := expects (p.selectedRows ≠ some [])), (pageStatistics_outcome p).1,
      requires_congr (p := StatisticsOk p) (q := SizesOk p ∧ StatisticsOk p) (by simp [hs])]
    intro st _
    rw [outcome_bind_ok (o := .done) (fun _ _ => rfl), andThen_done, (lastSelected_outcome _).1]
  · rw [requires_neg (fun h => hs h.1)]
    simp only [if_neg hs]
    rfl

theorem writePages_outcome (codec : Codec Thrift.PageHeader) (off : Nat)
    (items : List (Res CompressedPage)) :
    outcome (writePages codec off items).1 = inTurn (items.map itemOutcome) := by
  induction items generalizing off with
  | nil => rfl
  | cons x items ih =>
    rw [List.map_cons, inTurn_cons]
    cases x with
    | err e => rfl
    | panic => rfl
    | ok p =>
      have h := writePage_outcome codec off p
      rw [writePages, itemOutcome, ← h]
      generalize writePage codec off p = r
      obtain ⟨r, b⟩ := r
      cases r with
      | ok spec =>
        have := ih (off + spec.bytesWritten)
        rw [show outcome (Res.ok spec) = .done from rfl, done_andThen, ← this]
        exact outcome_map' (spec :: ·) _
      | err e => rfl
      | panic => rfl

/-! ### Statistics -/

theorem foldlM_outcome {α : Type} (ck : Bool) (f : α → α → Res α) (nc : α → Option I64)
    (hf : ∀ a b, (∃ x, reduceSingle (nc a) (nc b) (addI64 ck) = .ok (nc x) ∧ f a b = .ok x) ∨
      (reduceSingle (nc a) (nc b) (addI64 ck) = .panic ∧ f a b = .panic)) (a : α) (l : List α) :
    outcome (l.foldlM f a) = expects (ck = true →
      SumsFitFrom ((nc a).getD 0).toInt ((l.filterMap nc).map BitVec.toInt)) := by
  induction l generalizing a with
  | nil =>
    exact (expects_pos (fun _ => SumsFitFrom.nil (toInt_fits _))).symm
  | cons b l ih =>
    rw [List.foldlM_cons]
    have h := hf a b
    cases hb : nc b with
    | none =>
      have hr : reduceSingle (nc a) none (addI64 ck) = .ok (nc a) := by cases nc a <;> rfl
      rw [hb, hr] at h
      rcases h with ⟨x, hx, h⟩ | ⟨h, -⟩
      · injection hx with hx
        rw [h, Res.ok_bind, ih, ← hx]
        exact expects_congr (by rw [List.filterMap_cons_none hb])
      · cases h
    | some y =>
      have hl : (b :: l).filterMap nc = y :: l.filterMap nc := List.filterMap_cons_some hb
      rw [hb] at h
      cases ha : nc a with
      | none =>
        rw [ha] at h
        rcases h with ⟨x, hx, h⟩ | ⟨h, -⟩
        · injection hx with hx
          rw [h, Res.ok_bind, ih, ← hx]
          refine expects_congr (imp_congr_right fun _ => ?_)
          rw [hl, List.map_cons, sumsFitFrom_cons (toInt_fits _)]
          simp only [Option.getD_none, Option.getD_some]
          rw [show (0 : I64).toInt = 0 from rfl, Int.zero_add]
          exact ⟨fun h => ⟨toInt_fits _, h⟩, fun h => h.2⟩
        · cases h
      | some z =>
        rw [ha] at h
        simp only [reduceSingle] at h
        have hz := outcome_addI64 ck z y
        rcases h with ⟨x, hx, h⟩ | ⟨hx, h⟩
        · obtain ⟨c, hc, hx⟩ := map'_ok _ _ _ hx
          rw [hc] at hz
          have hz := expects_done.1 hz.symm
          rw [h, Res.ok_bind, ih, ← hx]
          refine expects_congr (imp_congr_right fun hck => ?_)
          rw [hl, List.map_cons, sumsFitFrom_cons (toInt_fits _)]
          simp only [Option.getD_some]
          rw [addI64_exact hc (hz hck)]
          exact ⟨fun h => ⟨hz hck, h⟩, fun h => h.2⟩
        · have hp : addI64 ck z y = .panic := by
            cases hc : addI64 ck z y with
            | ok c => rw [hc] at hx; cases hx
            | err e => rw [hc] at hx; cases hx
            | panic => rfl
          rw [hp] at hz
          rw [h, expects_neg]
          · rfl
          · intro hc
            have : expects (ck = true → Fits64 (z.toInt + y.toInt)) = .done := by
              rw [expects_done]
              intro hck
              have := hc hck
              rw [hl, List.map_cons, sumsFitFrom_cons (toInt_fits _)] at this
              exact this.1
            rw [this] at hz
            cases hz

theorem reduceFold_outcome {α : Type} (ck : Bool) (f : α → α → Res α) (nc : α → Option I64)
    (hf : ∀ a b, (∃ x, reduceSingle (nc a) (nc b) (addI64 ck) = .ok (nc x) ∧ f a b = .ok x) ∨
      (reduceSingle (nc a) (nc b) (addI64 ck) = .panic ∧ f a b = .panic)) {l : List α} (hl : l ≠ []) :
    outcome (reduceFold f l) = expects (ck = true → SumsFit ((l.filterMap nc).map BitVec.toInt)) := by
  cases l with
  | nil => exact absurd rfl hl
  | cons a l =>
    rw [reduceFold, foldlM_outcome ck f nc hf]
    refine expects_congr (imp_congr_right fun _ => ?_)
    rw [sumsFit_iff]
    cases ha : nc a with
    | none => rw [List.filterMap_cons_none ha]; exact Iff.rfl
    | some z =>
      rw [List.filterMap_cons_some ha, List.map_cons, sumsFitFrom_cons (by decide), Int.zero_add]
      exact ⟨fun h => ⟨toInt_fits _, h⟩, fun h => h.2⟩

theorem reduceSingle_cases (ck : Bool) (a b : Option I64) :
    (∃ c, reduceSingle a b (addI64 ck) = .ok c) ∨ reduceSingle a b (addI64 ck) = .panic := by
  cases a with
  | none => cases b <;> exact .inl ⟨_, rfl⟩
  | some a =>
    cases b with
    | none => exact .inl ⟨_, rfl⟩
    | some b =>
      simp only [reduceSingle, addI64]
      split
      · exact .inr rfl
      · exact .inl ⟨_, rfl⟩

theorem reduceSingle_pure {α : Type} (a b : Option α) (f : α → α → α) :
    ∃ c, reduceSingle a b (fun x y => .ok (f x y)) = .ok c := by
  cases a <;> cases b <;> exact ⟨_, rfl⟩

theorem reduceBoolean_outcome (ck : Bool) {l : List BooleanStatistics} (hl : l ≠ []) :
    outcome (reduceBoolean ck l) =
      expects (ck = true → SumsFit ((l.filterMap (·.nullCount)).map BitVec.toInt)) := by
  refine reduceFold_outcome ck _ _ (fun a b => ?_) hl
  obtain ⟨mn, h1⟩ := reduceSingle_pure a.minValue b.minValue fun x y => if x && !y then y else x
  obtain ⟨mx, h2⟩ := reduceSingle_pure a.maxValue b.maxValue fun x y => if x && !y then x else y
  simp only [h1, h2, Res.ok_bind]
  rcases reduceSingle_cases ck a.nullCount b.nullCount with ⟨c, hc⟩ | hc
  · rw [hc, Res.ok_bind]
    exact .inl ⟨_, rfl, rfl⟩
  · rw [hc]
    exact .inr ⟨rfl, rfl⟩

theorem reducePrimitive_outcome {α : Type} (ck : Bool) (gt : α → α → Bool)
    {l : List (PrimitiveStatistics α)} (hl : l ≠ []) :
    outcome (reducePrimitive ck gt l) =
      expects (ck = true → SumsFit ((l.filterMap (·.nullCount)).map BitVec.toInt)) := by
  refine reduceFold_outcome ck _ _ (fun a b => ?_) hl
  obtain ⟨mn, h1⟩ := reduceSingle_pure a.minValue b.minValue fun x y => if gt x y then y else x
  obtain ⟨mx, h2⟩ := reduceSingle_pure a.maxValue b.maxValue fun x y => if gt x y then x else y
  simp only [h1, h2, Res.ok_bind]
  rcases reduceSingle_cases ck a.nullCount b.nullCount with ⟨c, hc⟩ | hc
  · rw [hc, Res.ok_bind]
    exact .inl ⟨_, rfl, rfl⟩
  · rw [hc]
    exact .inr ⟨rfl, rfl⟩

theorem reduceBinary_outcome (ck : Bool) {l : List BinaryStatistics} (hl : l ≠ []) :
    outcome (reduceBinary ck l) =
      expects (ck = true → SumsFit ((l.filterMap (·.nullCount)).map BitVec.toInt)) := by
  refine reduceFold_outcome ck _ _ (fun a b => ?_) hl
  rcases reduceSingle_cases ck a.nullCount b.nullCount with ⟨c, hc⟩ | hc
  · simp only [hc, Res.ok_bind]
    exact .inl ⟨_, rfl, rfl⟩
  · simp only [hc]
    exact .inr ⟨trivial, rfl⟩

theorem reduceFixLenBinary_outcome (ck : Bool) {l : List FixedLenStatistics} (hl : l ≠ []) :
    outcome (reduceFixLenBinary ck l) =
      expects (ck = true → SumsFit ((l.filterMap (·.nullCount)).map BitVec.toInt)) := by
  refine reduceFold_outcome ck _ _ (fun a b => ?_) hl
  rcases reduceSingle_cases ck a.nullCount b.nullCount with ⟨c, hc⟩ | hc
  · simp only [hc, Res.ok_bind]
    exact .inl ⟨_, rfl, rfl⟩
  · simp only [hc]
    exact .inr ⟨trivial, rfl⟩

theorem downcastAll_outcome {α : Type} (f : Statistics → Option α) (nc : α → Option I64)
    {ss : List Statistics} (h : ∀ s ∈ ss, ∃ x, f s = some x ∧ nc x = s.nullCount) :
    ∃ l, downcastAll f ss = .ok l ∧ l.length = ss.length ∧
      l.filterMap nc = ss.filterMap Statistics.nullCount := by
  induction ss with
  | nil => exact ⟨[], rfl, rfl, rfl⟩
  | cons s ss ih =>
    obtain ⟨x, hx, hn⟩ := h s List.mem_cons_self
    obtain ⟨l, h1, h2, h3⟩ := ih fun t ht => h t (List.mem_cons_of_mem _ ht)
    refine ⟨x :: l, ?_, by simp [h2], ?_⟩
    · rw [downcastAll, hx, h1]; rfl
    · rw [List.filterMap_cons, List.filterMap_cons, hn, h3]

/-- The statistics are those of some type. -/
def Typed (s : Statistics) : Prop := ∃ pt, OfType s pt

theorem reduce_branch {α : Type} (ck : Bool) (f : Statistics → Option α) (nc : α → Option I64)
    (red : List α → Res α) (ctor : α → Statistics)
    (hred : ∀ l : List α, l ≠ [] → outcome (red l) =
      expects (ck = true → SumsFit ((l.filterMap nc).map BitVec.toInt)))
    {ss : List Statistics} (hne : ss ≠ []) (h : ∀ s ∈ ss, ∃ x, f s = some x ∧ nc x = s.nullCount) :
    outcome (do
      let s ← downcastAll f ss
      (red s).map' fun x => some (ctor x)) =
      expects (ck = true → SumsFit ((ss.filterMap Statistics.nullCount).map BitVec.toInt)) := by
  obtain ⟨l, h1, h2, h3⟩ := downcastAll_outcome f nc h
  rw [h1, Res.ok_bind, outcome_map', hred l, h3]
  intro hl
  rw [hl] at h2
  exact hne (List.length_eq_zero_iff.1 h2.symm)

theorem reduceStatistics_outcome (ck : Bool) (stats : List (Option Statistics))
    (ht : ∀ s ∈ stats.filterMap id, Typed s) :
    outcome (reduceStatistics ck stats) =
      (requires (∀ s ∈ (stats.filterMap id).map (·.physicalType),
        ∀ t ∈ (stats.filterMap id).map (·.physicalType), s = t)).andThen
      (expects (PhysicalType.int96 ∉ (stats.filterMap id).map (·.physicalType) ∧
        (ck = true → SumsFit (((stats.filterMap id).filterMap Statistics.nullCount).map BitVec.toInt)))) := by
  rw [reduceStatistics]
  split
  · rename_i he
    rw [List.isEmpty_iff.1 he, requires_pos (by simp), expects_pos]
    · rfl
    · exact ⟨by simp, fun _ => by decide⟩
  · generalize hss : stats.filterMap id = ss at ht ⊢
    cases ss with
    | nil =>
      rw [requires_pos (by simp), expects_pos]
      · rfl
      · exact ⟨by simp, fun _ => by decide⟩
    | cons first rest =>
      simp only
      split
      · rename_i hn
        rw [requires_neg]
        · rfl
        · intro hc
          apply hn
          rw [List.all_eq_true]
          intro x hx
          rw [decide_eq_true_eq]
          exact hc _ (by simp only [List.map_cons, List.mem_cons, List.mem_map]; exact .inr ⟨x, hx, rfl⟩)
            _ (by simp)
      · rename_i hn
        simp only [not_not] at hn
        have hall : ∀ s ∈ first :: rest, s.physicalType = first.physicalType := by
          intro s hs
          rcases List.mem_cons.1 hs with rfl | hs
          · rfl
          · simpa using List.all_eq_true.1 hn s hs
        have h96 : PhysicalType.int96 ∈ (first :: rest).map (·.physicalType) ↔
            first.physicalType = .int96 := by
          constructor
          · intro h
            obtain ⟨s, hs, h⟩ := List.mem_map.1 h
            rw [← hall s hs, h]
          · intro h
            rw [← h]
            simp
        rw [requires_pos, done_andThen]
        · have hty : ∀ s ∈ first :: rest, ∃ pt, OfType s pt := ht
          have hx : first.physicalType ≠ .int96 →
              ((PhysicalType.int96 ∉ (first :: rest).map (·.physicalType) ∧ (ck = true →
                SumsFit (((first :: rest).filterMap Statistics.nullCount).map BitVec.toInt))) ↔
              (ck = true → SumsFit (((first :: rest).filterMap Statistics.nullCount).map BitVec.toInt))) :=
            fun h => ⟨fun h => h.2, fun hf => ⟨fun hc => h (h96.1 hc), hf⟩⟩
          cases hp : first.physicalType with
          | int96 => exact (expects_neg (fun h => h.1 (h96.2 hp))).symm
          | boolean =>
            rw [hp] at hall
            rw [expects_congr (hx (by rw [hp]; simp))]
            refine reduce_branch (ss := first :: rest) ck _ (·.nullCount) _ _
              (fun l hl => reduceBoolean_outcome ck hl) (by simp) fun s hs => ?_
            have h1 := hall s hs
            obtain ⟨pt, h2⟩ := hty s hs
            cases s <;> simp_all [Statistics.physicalType, OfType, Statistics.nullCount]
          | int32 =>
            rw [hp] at hall
            rw [expects_congr (hx (by rw [hp]; simp))]
            refine reduce_branch (ss := first :: rest) ck _ (·.nullCount) _ _
              (fun l hl => reducePrimitive_outcome ck _ hl) (by simp) fun s hs => ?_
            have h1 := hall s hs
            obtain ⟨pt, h2⟩ := hty s hs
            cases s <;> simp_all [Statistics.physicalType, OfType, Statistics.nullCount]
          | int64 =>
            rw [hp] at hall
            rw [expects_congr (hx (by rw [hp]; simp))]
            refine reduce_branch (ss := first :: rest) ck _ (·.nullCount) _ _
              (fun l hl => reducePrimitive_outcome ck _ hl) (by simp) fun s hs => ?_
            have h1 := hall s hs
            obtain ⟨pt, h2⟩ := hty s hs
            cases s <;> simp_all [Statistics.physicalType, OfType, Statistics.nullCount]
          | float =>
            rw [hp] at hall
            rw [expects_congr (hx (by rw [hp]; simp))]
            refine reduce_branch (ss := first :: rest) ck _ (·.nullCount) _ _
              (fun l hl => reducePrimitive_outcome ck _ hl) (by simp) fun s hs => ?_
            have h1 := hall s hs
            obtain ⟨pt, h2⟩ := hty s hs
            cases s <;> simp_all [Statistics.physicalType, OfType, Statistics.nullCount]
          | double =>
            rw [hp] at hall
            rw [expects_congr (hx (by rw [hp]; simp))]
            refine reduce_branch (ss := first :: rest) ck _ (·.nullCount) _ _
              (fun l hl => reducePrimitive_outcome ck _ hl) (by simp) fun s hs => ?_
            have h1 := hall s hs
            obtain ⟨pt, h2⟩ := hty s hs
            cases s <;> simp_all [Statistics.physicalType, OfType, Statistics.nullCount]
          | byteArray =>
            rw [hp] at hall
            rw [expects_congr (hx (by rw [hp]; simp))]
            refine reduce_branch (ss := first :: rest) ck _ (·.nullCount) _ _
              (fun l hl => reduceBinary_outcome ck hl) (by simp) fun s hs => ?_
            have h1 := hall s hs
            obtain ⟨pt, h2⟩ := hty s hs
            cases s <;> simp_all [Statistics.physicalType, OfType, Statistics.nullCount]
          | fixedLenByteArray n =>
            rw [hp] at hall
            rw [expects_congr (hx (by rw [hp]; simp))]
            refine reduce_branch (ss := first :: rest) ck _ (·.nullCount) _ _
              (fun l hl => reduceFixLenBinary_outcome ck hl) (by simp) fun s hs => ?_
            have h1 := hall s hs
            obtain ⟨pt, h2⟩ := hty s hs
            cases s <;> simp_all [Statistics.physicalType, OfType, Statistics.nullCount]
        · intro s hs t ht
          obtain ⟨a, ha, rfl⟩ := List.mem_map.1 hs
          obtain ⟨b, hb, rfl⟩ := List.mem_map.1 ht
          rw [hall a ha, hall b hb]

/-! ### Column chunks -/

theorem pageStatistics_known {p : CompressedPage} {st : Option Statistics} (h : pageStatistics p = .ok st) :
    (st = none ∧ statisticsOf p = none) ∨
      ∃ s v t, st = some s ∧ statisticsOf p = some (v, t) ∧ Typed s ∧ s.physicalType = t ∧
        s.nullCount = v.nullCount := by
  cases p with
  | dict p =>
    injection h with h
    exact .inl ⟨h.symm, rfl⟩
  | data p =>
    have key : ∀ (o : Option Thrift.Statistics),
        statisticsOf (.data p) = o.map (fun s => (s, p.descriptor.primitiveType.physicalType)) →
        (match o with
          | none => Res.ok none
          | some s => (deserializeStatistics s p.descriptor.primitiveType).map' some) = .ok st →
        (st = none ∧ statisticsOf (.data p) = none) ∨
          ∃ s v t, st = some s ∧ statisticsOf (.data p) = some (v, t) ∧ Typed s ∧ s.physicalType = t ∧
            s.nullCount = v.nullCount := by
      intro o ho hr
      cases o with
      | none =>
        injection hr with hr
        exact .inl ⟨hr.symm, ho⟩
      | some v =>
        obtain ⟨s, h1, rfl⟩ := map'_ok _ _ _ hr
        have hw : WidthsOk v p.descriptor.primitiveType.physicalType := by
          by_contra hc
          rw [(Props.C48_read v _).2 hc] at h1
          cases h1
        obtain ⟨s', h2, h3, h4, -⟩ := (Props.C48_read v p.descriptor.primitiveType).1 hw
        rw [h1] at h2
        injection h2 with h2
        subst h2
        refine .inr ⟨s, v, _, rfl, ho, ⟨_, h3⟩, ?_, h4⟩
        cases s <;> simp_all [OfType, Statistics.physicalType]
    cases hh : p.header with
    | v1 x => exact key x.statistics (by simp [statisticsOf, hh]) (by simp only [pageStatistics, hh] at h; exact h)
    | v2 x => exact key x.statistics (by simp [statisticsOf, hh]) (by simp only [pageStatistics, hh] at h; exact h)

theorem Specs.known {codec : Codec Thrift.PageHeader} {off : Nat} {ss : List PageWriteSpec}
    {ps : List CompressedPage} (h : Specs codec off ss ps) :
    (∀ s ∈ (ss.map (·.statistics)).filterMap id, Typed s) ∧
      ((ss.map (·.statistics)).filterMap id).map (·.physicalType) = statisticsTypes ps ∧
      (((ss.map (·.statistics)).filterMap id).filterMap Statistics.nullCount).map BitVec.toInt =
        nullCounts ps := by
  induction ss generalizing off ps with
  | nil => cases ps with
    | nil => simp [statisticsTypes, nullCounts]
    | cons p ps => exact h.elim
  | cons s ss ih => cases ps with
    | nil => exact h.elim
    | cons p ps =>
      obtain ⟨i1, i2, i3⟩ := ih h.2
      rcases pageStatistics_known h.1.statistics with ⟨h1, h2⟩ | ⟨x, v, t, h1, h2, h3, h4, h5⟩
      · simp only [List.map_cons, h1]
        rw [List.filterMap_cons_none rfl, statisticsTypes, nullCounts, List.filterMap_cons_none h2]
        exact ⟨i1, i2, i3⟩
      · simp only [List.map_cons, h1]
        rw [List.filterMap_cons_some (f := id) (a := some x) (b := x) rfl, statisticsTypes, nullCounts, List.filterMap_cons_some h2]
        refine ⟨fun y hy => ?_, ?_, ?_⟩
        · rcases List.mem_cons.1 hy with rfl | hy
          · exact h3
          · exact i1 y hy
        · rw [List.map_cons, List.map_cons, i2, h4]
          rfl
        · rw [List.filterMap_cons, List.filterMap_cons, h5]
          simp only
          cases v.nullCount with
          | none => exact i3
          | some c => simp only [List.map_cons, i3]; rfl

theorem chunkCompression_outcome {codec : Codec Thrift.PageHeader} {off : Nat} {ss : List PageWriteSpec}
    {ps : List CompressedPage} (h : Specs codec off ss ps) :
    outcome (chunkCompression ss) =
      requires (∀ p ∈ ps, ∀ q ∈ ps, p.compression = q.compression) := by
  have hm := h.map_eq (·.compression) (·.compression) fun _ _ _ h => h.compression
  have hc : (∀ p ∈ ps, ∀ q ∈ ps, p.compression = q.compression) ↔
      ∀ a ∈ ss.map (·.compression), ∀ b ∈ ss.map (·.compression), a = b := by
    rw [hm]
    simp only [List.mem_map]
    constructor
    · rintro h _ ⟨p, hp, rfl⟩ _ ⟨q, hq, rfl⟩
      exact h p hp q hq
    · exact fun h p hp q hq => h _ ⟨p, hp, rfl⟩ _ ⟨q, hq, rfl⟩
  rw [requires_congr hc]
  cases ss with
  | nil => rw [requires_pos (by simp)]; rfl
  | cons s ss =>
    rw [chunkCompression]
    split
    · rename_i ha
      rw [requires_pos]
      · rfl
      · have hall : ∀ a ∈ (s :: ss).map (·.compression), a = s.compression := by
          intro a ha'
          rw [List.map_cons, List.mem_cons] at ha'
          rcases ha' with rfl | ha'
          · rfl
          · obtain ⟨x, hx, rfl⟩ := List.mem_map.1 ha'
            simpa using List.all_eq_true.1 ha x hx
        intro a ha b hb
        rw [hall a ha, hall b hb]
    · rename_i ha
      rw [requires_neg]
      · rfl
      · intro hx
        apply ha
        rw [List.all_eq_true]
        intro x hx'
        rw [beq_iff_eq]
        exact hx _ (by simp only [List.map_cons, List.mem_cons, List.mem_map]; exact .inr ⟨x, hx', rfl⟩)
          _ (by simp)

theorem Specs.collect {codec : Codec Thrift.PageHeader} {off : Nat} {ss : List PageWriteSpec}
    {ps : List CompressedPage} (h : Specs codec off ss ps) {f : PageWriteSpec → Res I64}
    {g : CompressedPage → Int}
    (hfg : ∀ off s p, p ∈ ps → SpecOf codec off s p → ∃ x, f s = .ok x ∧ x.toInt = g p) :
    ∃ xs : List I64, ss.map f = xs.map .ok ∧ xs.map BitVec.toInt = ps.map g := by
  induction ss generalizing off ps with
  | nil => cases ps with
    | nil => exact ⟨[], rfl, rfl⟩
    | cons p ps => exact h.elim
  | cons s ss ih => cases ps with
    | nil => exact h.elim
    | cons p ps =>
      obtain ⟨xs, h1, h2⟩ := ih h.2 fun o s q hq hs => hfg o s q (List.mem_cons_of_mem _ hq) hs
      obtain ⟨x, h3, h4⟩ := hfg _ s p List.mem_cons_self h.1
      exact ⟨x :: xs, by simp [h1, h3], by simp [h2, h4]⟩

theorem sumI64_value {ck : Bool} {xs : List I64} (h : SumsFit (xs.map BitVec.toInt)) :
    ∃ r, sumI64 ck 0 xs = .ok r ∧ r.toInt = (xs.map BitVec.toInt).sum := by
  have ho := outcome_sumI64_zero ck xs
  rw [expects_pos (fun _ => h)] at ho
  obtain ⟨r, hr⟩ := outcome_done.1 ho
  have := h _ (by rw [List.mem_inits])
  exact ⟨r, hr, sumI64_range hr rfl this.1 this.2⟩

theorem sumOf_value {codec : Codec Thrift.PageHeader} {ck : Bool} {off : Nat} {ss : List PageWriteSpec}
    {ps : List CompressedPage} (h : Specs codec off ss ps) {f : PageWriteSpec → Res I64}
    {g : CompressedPage → Int}
    (hfg : ∀ off s p, p ∈ ps → SpecOf codec off s p → ∃ x, f s = .ok x ∧ x.toInt = g p)
    (hs : SumsFit (ps.map g)) : ∃ r, sumOf ck f ss = .ok r ∧ r.toInt = (ps.map g).sum := by
  obtain ⟨xs, h1, h2⟩ := h.collect hfg
  rw [← h2] at hs ⊢
  obtain ⟨r, h3, h4⟩ := sumI64_value (ck := ck) hs
  refine ⟨r, ?_, h4⟩
  rw [sumOf, (collectRes_ok_iff _ _).2 h1, Res.ok_bind, h3]

theorem pageSize_value (ck : Bool) {n k : Nat} (hk : k < 2 ^ 31) (h : n + k < 2 ^ 63) :
    ∃ x, pageSize ck n (BitVec.ofNat 32 k) = .ok x ∧ x.toInt = (n + k : Nat) := by
  have e1 : (asI64 n).toInt = n := asI64_toInt_small (by omega)
  have e2 : ((BitVec.ofNat 32 k).signExtend 64).toInt = k := by
    rw [signExtend64_toInt, toInt_ofNat32 hk]
  have hf : Fits64 ((asI64 n).toInt + ((BitVec.ofNat 32 k).signExtend 64).toInt) := by
    rw [e1, e2]
    constructor <;> omega
  have ho := outcome_addI64 ck (asI64 n) ((BitVec.ofNat 32 k).signExtend 64)
  rw [expects_pos (fun _ => hf)] at ho
  obtain ⟨x, hx⟩ := outcome_done.1 ho
  refine ⟨x, hx, ?_⟩
  rw [addI64_exact hx hf, e1, e2]
  push_cast
  rfl

theorem mem_length_le {α : Type} (f : α → Nat) {ps : List α} {p : α} (h : p ∈ ps) :
    f p ≤ (ps.map f).sum := by
  induction ps with
  | nil => simp at h
  | cons q ps ih =>
    rcases List.mem_cons.1 h with rfl | h
    · simp
    · have := ih h
      simp only [List.map_cons, List.sum_cons]
      omega

theorem chunkBytes_length (codec : Codec Thrift.PageHeader) (ps : List CompressedPage) :
    (chunkBytes codec ps).length = (ps.map fun p => (pageBytes codec p).length).sum := by
  induction ps with
  | nil => rfl
  | cons p ps ih =>
    simp only [List.map_cons, List.sum_cons, ← ih, chunkBytes]
    simp

theorem specValues_value {codec : Codec Thrift.PageHeader} {off : Nat} {s : PageWriteSpec}
    {p : CompressedPage} (h : SpecOf codec off s p) : ∃ x, specValues s = .ok x ∧ x.toInt = valuesOf p := by
  rw [specValues, h.header]
  cases p with
  | dict p => exact ⟨0, rfl, rfl⟩
  | data p =>
    simp only [headerOf, valuesOf]
    cases p.header with
    | v1 x => exact ⟨_, rfl, signExtend64_toInt _⟩
    | v2 x => exact ⟨_, rfl, signExtend64_toInt _⟩

theorem valuesOf_small (p : CompressedPage) : -(2 ^ 31) ≤ valuesOf p ∧ valuesOf p < 2 ^ 31 := by
  have key : ∀ x : I32, -(2 ^ 31) ≤ x.toInt ∧ x.toInt < 2 ^ 31 := fun x => by
    have h1 := BitVec.le_toInt x
    have h2 := BitVec.toInt_lt (x := x)
    constructor <;> omega
  cases p with
  | dict p => simp [valuesOf]
  | data p =>
    simp only [valuesOf]
    cases p.header with
    | v1 x => exact key _
    | v2 x => exact key _

theorem map_cast_sum {α : Type} (f : α → Nat) (ps : List α) :
    (ps.map fun p => (f p : Int)).sum = ((ps.map f).sum : Nat) := by
  induction ps with
  | nil => rfl
  | cons p ps ih => simp only [List.map_cons, List.sum_cons, ih]; omega

theorem serialize_typed {s : Statistics} (h : ∀ x, s = .fixedLen x → ∃ n, x.primitiveType.physicalType = .fixedLenByteArray n) :
    ∃ v, serializeStatistics s = .ok v := by
  cases s with
  | fixedLen x =>
    obtain ⟨n, hn⟩ := h x rfl
    simp only [serializeStatistics, hn]
    exact ⟨_, rfl⟩
  | _ => exact ⟨_, rfl⟩

/-- How putting together the metadata of a column chunk ends. -/
theorem buildColumnChunk_outcome {codec : Codec Thrift.PageHeader} (ck : Bool) {off : Nat}
    {ss : List PageWriteSpec} {ps : List CompressedPage} (d : ColumnDescriptor)
    (h : Specs codec off ss ps) (hu : chunkUncompressed codec ps < 2 ^ 63) (hn : ps.length < 2 ^ 31)
    (hlen : off + (chunkBytes codec ps).length < 2 ^ 63) :
    outcome (buildColumnChunk ck ss d) = pagesOutcome ck ps := by
  obtain ⟨tc, htc, etc⟩ := sumOf_value (ck := ck)
    (f := fun x => pageSize ck x.headerSize x.header.compressedPageSize)
    (g := fun p => ((pageBytes codec p).length : Int)) h (by
      intro o s p hp hs
      rw [hs.header, headerOf_compressed, hs.headerSize]
      have hle := mem_length_le (fun p => (pageBytes codec p).length) hp
      rw [← chunkBytes_length] at hle
      simp only [pageBytes, List.length_append] at hle ⊢
      exact pageSize_value ck hs.sizes.2.1 (by omega))
    (SumsFit.of_nonneg (by simp) (by rw [map_cast_sum, ← chunkBytes_length]; omega))
  obtain ⟨tu, htu, -⟩ := sumOf_value (ck := ck)
    (f := fun x => pageSize ck x.headerSize x.header.uncompressedPageSize)
    (g := fun p => (uncompressedLen codec p : Int)) h (by
      intro o s p hp hs
      rw [hs.header, headerOf_uncompressed, hs.headerSize]
      have hle := mem_length_le (uncompressedLen codec) hp
      rw [← chunkUncompressed] at hle
      simp only [uncompressedLen] at hle ⊢
      exact pageSize_value ck hs.sizes.1 (by omega))
    (SumsFit.of_nonneg (by simp) (by rw [map_cast_sum, ← chunkUncompressed]; omega))
  obtain ⟨nv, hnv, -⟩ := sumOf_value (ck := ck) (f := specValues) (g := valuesOf) h
    (fun o s p _ hs => specValues_value hs)
    (SumsFit.of_small (by
      intro x hx
      obtain ⟨p, -, rfl⟩ := List.mem_map.1 hx
      exact valuesOf_small p) (by simpa using hn))
  have hes : collectRes (ss.map specEncodings) = .ok (ps.map encodingsOf) := by
    rw [collectRes_ok_iff, List.map_map]
    exact h.map_eq specEncodings (fun p => .ok (encodingsOf p)) fun _ _ _ h => specEncodings_eq h
  obtain ⟨k1, k2, k3⟩ := h.known
  have hst := reduceStatistics_outcome ck (ss.map (·.statistics)) k1
  rw [k2, k3] at hst
  rw [buildColumnChunk, pagesOutcome, ← requires_and, andThen_assoc, ← hst, ← chunkCompression_outcome h]
  refine outcome_bind_ok fun c _ => ?_
  rw [htc, Res.ok_bind, htu, Res.ok_bind]
  simp only [hnv, Res.ok_bind, hes]
  rw [← andThen_done (outcome (reduceStatistics ck _))]
  refine outcome_bind_ok fun r hr => ?_
  have hser : ∃ v, optionMapRes serializeStatistics r = .ok v := by
    cases r with
    | none => exact ⟨none, rfl⟩
    | some r =>
      obtain ⟨v, hv⟩ := serialize_typed (s := r) (by
        rintro x rfl
        obtain ⟨hm, -⟩ := reduceStatistics_ok _ _ _ hr
        obtain ⟨-, -, hc, -⟩ := Props.C46_counts _ _ _ hr
        cases hm with
        | fixedLen l x hl hx =>
          cases l with
          | nil => simp [reduceFixLenBinary, reduceFold] at hx
          | cons y l =>
            have hy : Statistics.fixedLen y ∈ (ss.map (·.statistics)).filterMap id := by
              rw [hl]; simp
            have hy' : some (Statistics.fixedLen y) ∈ ss.map (·.statistics) := by
              obtain ⟨a, ha, hb⟩ := List.mem_filterMap.1 hy
              simp only [id] at hb
              rw [← hb]
              exact ha
            have e := hc _ hy'
            obtain ⟨pt, ht⟩ := k1 _ hy
            obtain ⟨h1, n, h2, -⟩ := ht
            refine ⟨n, ?_⟩
            simp only [Statistics.physicalType] at e
            rw [← e, h1, h2])
      exact ⟨some v, by rw [optionMapRes, hv]; rfl⟩
  obtain ⟨v, hv⟩ := hser
  rw [hv, Res.ok_bind]
  have hfo : Fits64 ((asI64 ((ss.head?.map (·.offset)).getD 0)).toInt + tc.toInt) := by
    rw [etc, map_cast_sum, ← chunkBytes_length]
    cases ps with
    | nil =>
      cases ss with
      | nil => exact (by decide : Fits64 (0 + 0))
      | cons s ss => exact h.elim
    | cons p ps =>
      rw [h.head_offset (by simp), asI64_toInt_small (by omega)]
      constructor <;> omega
  have ho := outcome_addI64 ck (asI64 ((ss.head?.map (·.offset)).getD 0)) tc
  rw [expects_pos (fun _ => hfo)] at ho
  obtain ⟨x, hx⟩ := outcome_done.1 ho
  rw [hx]
  rfl

end Pq
