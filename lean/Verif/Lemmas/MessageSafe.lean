import Verif.Lemmas.MessageParse
import Verif.Lemmas.Schema
/-
Lemmas about the message parser: which errors and panics occur.
-/
namespace Pq
open Pq.Spec Pq.Message

/-- A result that is no panic and whose error, if it is one, is `OutOfSpec`. -/
def Clean {α : Type} (r : Res α) : Prop := r ≠ .panic ∧ ∀ e, r = .err e → e = .oos

theorem clean_ok {α : Type} (a : α) : Clean (.ok a : Res α) := ⟨by simp, by simp⟩
theorem clean_oos {α : Type} : Clean (.err .oos : Res α) := ⟨by simp, by simp⟩

theorem clean_bind {α β : Type} {r : Res α} {f : α → Res β} (h : Clean r) (hf : ∀ a, r = .ok a → Clean (f a)) :
    Clean (r >>= f) := by
  cases r with
  | ok a => exact hf a rfl
  | err e =>
    refine ⟨(by rintro ⟨⟩), ?_⟩
    intro e' he
    cases he
    exact h.2 e rfl
  | panic => exact absurd rfl h.1

theorem clean_toUsize (x : I32) : Clean (toUsize x) := by
  unfold toUsize
  split
  · exact clean_ok _
  · exact clean_oos

theorem clean_maxPrecision (n : Nat) : Clean (maxPrecision n) := by
  unfold maxPrecision
  simp only
  repeat' split
  all_goals first | exact clean_ok _ | exact clean_oos

theorem clean_decimal (t : PhysicalType) (p s : Nat) : Clean (checkDecimalInvariants t p s) := by
  unfold checkDecimalInvariants
  repeat' split
  all_goals first | exact clean_ok _ | exact clean_oos | skip
  · rename_i e h
    have := (clean_maxPrecision _).2 _ h
    subst this
    exact clean_oos
  · rename_i h
    exact absurd h (clean_maxPrecision _).1

theorem clean_converted (t : PhysicalType) (c : Option PrimitiveConvertedType) :
    Clean (checkConvertedInvariants t c) := by
  unfold checkConvertedInvariants
  repeat' split
  all_goals first | exact clean_ok _ | exact clean_oos | exact clean_decimal _ _ _

theorem clean_logical (t : PhysicalType) (c : Option PrimitiveLogicalType) :
    Clean (checkLogicalInvariants t c) := by
  unfold checkLogicalInvariants
  repeat' split
  all_goals first | exact clean_ok _ | exact clean_oos | exact clean_decimal _ _ _

theorem clean_tryFromPrimitive (name : String) (t : PhysicalType) (r : Repetition)
    (c : Option PrimitiveConvertedType) (l : Option PrimitiveLogicalType) (id : Option I32) :
    Clean (ParquetType.tryFromPrimitive name t r c l id) := by
  unfold ParquetType.tryFromPrimitive
  exact clean_bind (clean_converted _ _) fun _ _ => clean_bind (clean_logical _ _) fun _ _ => clean_ok _

theorem clean_physical (x : I32) (l : Option I32) : Clean (PhysicalType.ofThrift x l) := by
  unfold PhysicalType.ofThrift
  repeat' split
  all_goals first | exact clean_ok _ | exact clean_oos | skip
  all_goals
    refine clean_bind ?_ fun _ _ => clean_bind (clean_toUsize _) fun _ _ => clean_ok _
    cases l
    · exact clean_oos
    · exact clean_ok _

/-! ### what parsers do with the tokens -/

/-- Results of a parser that was given the tokens `w`: `bad` is the only reason for a panic, errors are
`OutOfSpec`, and the tokens stay the same. -/
def Fine {α : Type} (bad : Prop) (w : List String) (x : Res (α × Tokenizer)) : Prop :=
  (x = .panic → bad) ∧ (∀ e, x = .err e → e = .oos) ∧ ∀ a t', x = .ok (a, t') → whole t' = w

/-- A parser that is fine whatever the tokens. -/
def FineParse {α : Type} (p : Parse α) : Prop := ∀ t, whole t ≠ [] → Fine False (whole t) (p t)

theorem fine_weaken {α : Type} {bad bad' : Prop} {w : List String} {x : Res (α × Tokenizer)} (hb : bad → bad')
    (h : Fine bad w x) : Fine bad' w x := ⟨fun e => hb (h.1 e), h.2.1, h.2.2⟩

theorem fine_oos {α : Type} {bad : Prop} {w : List String} : Fine (α := α) bad w (.err .oos) :=
  ⟨by simp, by simp, by simp⟩

theorem fine_ok {α : Type} {bad : Prop} {w : List String} {a : α} {t : Tokenizer} (h : whole t = w) :
    Fine bad w (.ok (a, t)) := ⟨by simp, by simp, by rintro a t' ⟨⟩; exact h⟩

theorem whole_next (b r : List String) (x : String) : whole ⟨x :: b, r⟩ = whole ⟨b, x :: r⟩ := by
  simp [whole]

theorem fine_andThen_at {α β : Type} {bad : Prop} {p : Parse α} {f : α → Parse β} {t : Tokenizer}
    (h : Fine bad (whole t) (p t)) (hf : ∀ a t', p t = .ok (a, t') → Fine bad (whole t) (f a t')) :
    Fine bad (whole t) (andThen p f t) := by
  unfold andThen
  cases hp : p t with
  | panic => exact ⟨fun _ => h.1 hp, by rintro e ⟨⟩, by rintro a t' ⟨⟩⟩
  | err e =>
    refine ⟨(by rintro ⟨⟩), ?_, (by rintro a t' ⟨⟩)⟩
    intro e' he
    cases he
    exact h.2.1 e hp
  | ok x => exact hf x.1 x.2 hp

theorem fine_andThen {α β : Type} {p : Parse α} {f : α → Parse β} (h : FineParse p) (hf : ∀ a, FineParse (f a)) :
    FineParse (andThen p f) := by
  intro t ht
  refine fine_andThen_at (h t ht) ?_
  intro a t' hp
  have hw := (h t ht).2.2 a t' hp
  have := hf a t' (by rw [hw]; exact ht)
  rw [hw] at this
  exact this

theorem fine_give {α : Type} {r : Res α} (h : Clean r) : FineParse (give r) := by
  intro t _
  unfold give
  cases r with
  | panic => exact absurd rfl h.1
  | err e =>
    have := h.2 e rfl
    subst this
    exact fine_oos
  | ok a => exact fine_ok rfl

theorem fine_assertToken (e : String) : FineParse (assertToken e) := by
  rintro ⟨b, r⟩ _
  cases r with
  | nil => exact fine_oos
  | cons x r =>
    rw [assertToken_cons]
    split
    · exact fine_ok (whole_next _ _ _)
    · exact fine_oos

theorem fine_optionally_at {α : Type} {bad : Prop} {e : String} {yes no : Parse α} {b r : List String}
    (ht : whole ⟨b, r⟩ ≠ [])
    (hy : ∀ r', r = e :: r' → Fine bad (whole ⟨b, r⟩) (yes ⟨e :: b, r'⟩)) (hn : FineParse no) :
    Fine bad (whole ⟨b, r⟩) (optionally e yes no ⟨b, r⟩) := by
  cases r with
  | nil =>
    cases b with
    | nil => simp [whole] at ht
    | cons x b =>
      rw [optionally_nil]
      have := hn ⟨b, [x]⟩ (by simp [whole])
      rw [← whole_next] at this
      exact fine_weaken (fun h => h.elim) this
  | cons x r =>
    rw [optionally_cons]
    split
    · rename_i hx
      subst hx
      exact hy r rfl
    · exact fine_weaken (fun h => h.elim) (hn _ ht)

theorem fine_optionally {α : Type} {e : String} {yes no : Parse α} (hy : FineParse yes) (hn : FineParse no) :
    FineParse (optionally e yes no) := by
  rintro ⟨b, r⟩ ht
  refine fine_optionally_at ht ?_ hn
  rintro r' rfl
  have := hy ⟨e :: b, r'⟩ (by rw [whole_next]; exact ht)
  rw [whole_next] at this
  exact this

theorem fine_nextOrErr : FineParse nextOrErr := by
  rintro ⟨b, r⟩ _
  cases r with
  | nil => exact fine_oos
  | cons x r => exact fine_ok (whole_next _ _ _)

theorem fine_nextI32 : FineParse nextI32 := by
  rintro ⟨b, r⟩ _
  cases r with
  | nil => exact fine_oos
  | cons x r =>
    simp only [nextI32, next_cons]
    cases parseI32 x with
    | none => exact fine_oos
    | some n => exact fine_ok (whole_next _ _ _)

theorem fine_nextBool (cm : CaseMaps) : FineParse (nextBool cm) := by
  rintro ⟨b, r⟩ _
  cases r with
  | nil => exact fine_oos
  | cons x r =>
    simp only [nextBool, next_cons]
    repeat' split
    all_goals first | exact fine_oos | exact fine_ok (whole_next _ _ _)

theorem fine_nextTimeUnit (cm : CaseMaps) : FineParse (nextTimeUnit cm) := by
  rintro ⟨b, r⟩ _
  cases r with
  | nil => exact fine_oos
  | cons x r =>
    simp only [nextTimeUnit, next_cons]
    repeat' split
    all_goals first | exact fine_oos | exact fine_ok (whole_next _ _ _)

theorem fine_giveOk {α : Type} (a : α) : FineParse (give (.ok a)) := fine_give (clean_ok a)
theorem fine_giveErr {α : Type} : FineParse (give (.err .oos : Res α)) := fine_give clean_oos

theorem fine_convertedDecimal : FineParse parseConvertedDecimal := by
  unfold parseConvertedDecimal
  refine fine_andThen (fine_assertToken _) fun _ => fine_andThen fine_nextI32 fun _ =>
    fine_andThen (fine_optionally fine_nextI32 (fine_giveOk _)) fun _ => fine_andThen (fine_assertToken _) fun _ =>
    fine_give ?_
  exact clean_bind (clean_toUsize _) fun _ _ => clean_bind (clean_toUsize _) fun _ _ => clean_ok _

theorem fine_decimal : FineParse parseDecimal := by
  unfold parseDecimal
  refine fine_andThen (fine_optionally (fine_andThen fine_nextI32 fun _ =>
    fine_andThen (fine_optionally fine_nextI32 (fine_giveOk _)) fun _ =>
    fine_andThen (fine_assertToken _) fun _ => fine_giveOk _) (fine_giveOk _)) fun _ => fine_give ?_
  exact clean_bind (clean_toUsize _) fun _ _ => clean_bind (clean_toUsize _) fun _ _ => clean_ok _

theorem fine_unitAndZone (cm : CaseMaps) : FineParse (parseUnitAndZone cm) :=
  fine_optionally (fine_andThen (fine_nextTimeUnit cm) fun _ =>
    fine_andThen (fine_optionally (fine_nextBool cm) (fine_giveOk _)) fun _ =>
    fine_andThen (fine_assertToken _) fun _ => fine_giveOk _) (fine_giveOk _)

theorem fine_integer (cm : CaseMaps) : FineParse (parseInteger cm) :=
  fine_andThen (fine_optionally (fine_andThen fine_nextI32 fun _ =>
    fine_andThen (fine_optionally (fine_nextBool cm) fine_giveErr) fun _ =>
    fine_andThen (fine_assertToken _) fun _ => fine_giveOk _) fine_giveErr) fun _ => fine_giveOk _

theorem fine_logical (cm : CaseMaps) {s : String} (h : isLogicalType s = true) (h1 : s ≠ "MAP") (h2 : s ≠ "LIST") :
    FineParse (parseLogicalType cm s) := by
  simp only [isLogicalType, List.contains_eq_mem, List.mem_cons, List.not_mem_nil, or_false,
    decide_eq_true_eq] at h
  have hT : FineParse (andThen (parseUnitAndZone cm) fun u => give (.ok (PrimitiveLogicalType.time u.1 u.2))) :=
    fine_andThen (fine_unitAndZone cm) fun _ => fine_giveOk _
  have hTS : FineParse (andThen (parseUnitAndZone cm) fun u => give (.ok (PrimitiveLogicalType.timestamp u.1 u.2))) :=
    fine_andThen (fine_unitAndZone cm) fun _ => fine_giveOk _
  rcases h with rfl | rfl | rfl | rfl | rfl | rfl | rfl | rfl | rfl | rfl | rfl | rfl | rfl | rfl
  · exact fine_integer cm
  · exact absurd rfl h1
  · exact absurd rfl h2
  · exact fine_giveOk _
  · exact fine_decimal
  · exact fine_giveOk _
  · exact hT
  · exact hTS
  · exact fine_giveOk _
  · exact fine_giveOk _
  · exact fine_giveOk _
  · exact fine_giveOk _
  · exact fine_giveOk _
  · exact fine_giveErr

theorem fine_at {α : Type} {bad : Prop} {p : Parse α} (h : FineParse p) {t : Tokenizer} (ht : whole t ≠ []) :
    Fine bad (whole t) (p t) := fine_weaken (fun h => h.elim) (h t ht)

theorem fine_annotation (cm : CaseMaps) {bad : Prop} {b r : List String}
    (hbad : ∀ v r', r = v :: r' → (cm.upper v = "MAP" ∨ cm.upper v = "LIST") → bad)
    (ht : whole ⟨b, r⟩ ≠ []) : Fine bad (whole ⟨b, r⟩) (parseAnnotation cm ⟨b, r⟩) := by
  unfold parseAnnotation
  cases r with
  | nil => exact fine_andThen_at (by exact fine_oos) (by intro a t' h; simp at h)
  | cons v r =>
    have hb := hbad v r rfl
    rw [← whole_next] at ht ⊢
    rw [andThen_of_ok (nextOrErr_cons _ _ _)]
    by_cases hm : cm.upper v = "MAP" ∨ cm.upper v = "LIST"
    · have hbad := hb hm
      refine ⟨fun _ => hbad, ?_⟩
      have hl : isLogicalType (cm.upper v) = true := by rcases hm with h | h <;> rw [h] <;> decide
      rw [if_pos hl]
      have hp : parseLogicalType cm (cm.upper v) ⟨v :: b, r⟩ = .panic := by
        rcases hm with h | h <;> rw [h] <;> rfl
      have : (andThen (andThen (parseLogicalType cm (cm.upper v)) fun l => give (.ok (none, some l)))
        (fun r => andThen (assertToken ")") fun _ => give (.ok r)) : Parse (Option PrimitiveConvertedType × _)) ⟨v :: b, r⟩ =
          .panic := by
        unfold andThen; rw [hp]; rfl
      rw [this]
      exact ⟨by simp, by simp⟩
    · have hm' := not_or.1 hm
      refine fine_weaken (fun h => h.elim) (fine_andThen ?_ (fun a =>
        fine_andThen (fine_assertToken _) fun _ => fine_giveOk _) _ ht)
      split
      · rename_i hl
        exact fine_andThen (fine_logical cm hl hm'.1 hm'.2) fun _ => fine_giveOk _
      · split
        · split
          · exact fine_andThen fine_convertedDecimal fun _ => fine_giveOk _
          · exact fine_giveOk _
        · exact fine_giveErr

theorem fine_parseId : FineParse parseId := by
  refine fine_optionally ?_ (fine_giveOk _)
  rintro ⟨b, r⟩ _
  cases r with
  | nil => exact fine_ok rfl
  | cons x r => exact fine_ok (whole_next _ _ _)

theorem fine_length (k : I32) : FineParse (parseLength k) := by
  unfold parseLength
  split
  · exact fine_andThen (fine_assertToken _) fun _ => fine_andThen fine_nextI32 fun _ =>
      fine_andThen (fine_assertToken _) fun _ => fine_giveOk _
  · exact fine_giveOk _

theorem fine_primitive (cm : CaseMaps) (rep : Repetition) {ty : String} {k : I32}
    (hk : typeFromStr (cm.upper ty) = .ok k) (b r : List String) :
    Fine (MisplacedAnnotation cm (whole ⟨ty :: b, r⟩)) (whole ⟨ty :: b, r⟩) (addPrimitiveType cm rep k ⟨ty :: b, r⟩) := by
  have ht : whole ⟨ty :: b, r⟩ ≠ [] := by simp [whole]
  unfold addPrimitiveType
  refine fine_andThen_at (fine_at (fine_length k) ht) ?_
  intro len t1 h1
  have w1 := (fine_length k _ ht).2.2 _ _ h1
  rw [← w1] at ht ⊢
  refine fine_andThen_at (fine_at fine_nextOrErr ht) ?_
  intro name t2 h2
  have w2 := (fine_nextOrErr _ ht).2.2 _ _ h2
  rw [← w2] at ht ⊢
  have ha : Fine (MisplacedAnnotation cm (whole t2)) (whole t2)
      (optionally "(" (parseAnnotation cm) (give (.ok (none, none))) t2) := by
    obtain ⟨b2, r2⟩ := t2
    refine fine_optionally_at ht ?_ (fine_giveOk _)
    rintro r3 rfl
    rw [← whole_next]
    refine fine_annotation cm ?_ (by rw [whole_next]; exact ht)
    rintro v r4 rfl hv
    obtain ⟨b1, r1⟩ := t1
    rw [nextOrErr_ok] at h2
    obtain ⟨r5, rfl, h2⟩ := h2
    cases h2
    -- what was read for the length
    unfold parseLength at h1
    split at h1
    · rename_i hk7
      subst hk7
      rw [andThen_ok] at h1
      obtain ⟨_, ta, ha, h1⟩ := h1
      rw [assertToken_ok] at ha
      obtain ⟨ra, rfl, rfl⟩ := ha
      rw [andThen_ok] at h1
      obtain ⟨n, tb, hb, h1⟩ := h1
      rw [nextI32_ok] at hb
      obtain ⟨l, rb, rfl, hn, rfl⟩ := hb
      rw [andThen_ok] at h1
      obtain ⟨_, tc, hc, h1⟩ := h1
      rw [assertToken_ok] at hc
      obtain ⟨rc, rfl, rfl⟩ := hc
      rw [give_ok] at h1
      cases h1.2
      have hty : cm.upper ty = "FIXED_LEN_BYTE_ARRAY" := by
        rcases (typeFromStr_iff _ _).1 hk with ⟨t, ht, he⟩ | ⟨h, _⟩
        · exact absurd he.symm (physicalWords_thrift ht).1
        · exact h
      exact ⟨b.reverse, [ty, "(", l, ")"], name, v, r4, by simp [whole], .inr ⟨ty, l, n, rfl, hty, hn⟩, hv⟩
    · rename_i hk7
      rw [give_ok] at h1
      cases h1.2
      rcases (typeFromStr_iff _ _).1 hk with ⟨t, ht, he⟩ | ⟨_, h⟩
      · exact ⟨b.reverse, [ty], name, v, r4, by simp [whole], .inl ⟨ty, t, rfl, ht⟩, hv⟩
      · exact absurd h hk7
  refine fine_andThen_at ha ?_
  intro an t3 h3
  have w3 := ha.2.2 _ _ h3
  rw [← w3] at ht ⊢
  refine fine_at (fine_andThen fine_parseId fun _ => fine_andThen (fine_assertToken _) fun _ => fine_give ?_) ht
  exact clean_bind (clean_physical _ _) fun _ _ => clean_tryFromPrimitive _ _ _ _ _ _

theorem fine_groupAnnotation (cm : CaseMaps) : FineParse (parseGroupAnnotation cm) := by
  refine fine_optionally (fine_andThen fine_nextOrErr fun _ => fine_andThen (fine_give ?_) fun _ =>
    fine_andThen (fine_assertToken _) fun _ => fine_giveOk _) (fine_giveOk _)
  unfold convertedGroupFromStr
  repeat' split
  all_goals first | exact clean_ok _ | exact clean_oos

theorem clean_repetition (s : String) : Clean (repetitionFromStr s) := by
  unfold repetitionFromStr
  repeat' split
  all_goals first | exact clean_ok _ | exact clean_oos

theorem clean_type (s : String) : Clean (typeFromStr s) := by
  unfold typeFromStr
  repeat' split
  all_goals first | exact clean_ok _ | exact clean_oos

/-! ### the recursion -/

/-- What a step-bounded parser does with the tokens. -/
def FineSteps (cm : CaseMaps) {α : Type} (p : Steps α) : Prop :=
  ∀ t, whole t ≠ [] → ∀ x, p t = some x → Fine (MisplacedAnnotation cm (whole t)) (whole t) x

theorem fine_after_at {cm : CaseMaps} {α β : Type} {p : Parse α} {f : α → Steps β} {t : Tokenizer}
    (h : Fine (MisplacedAnnotation cm (whole t)) (whole t) (p t))
    (hf : ∀ a t', p t = .ok (a, t') → ∀ x, f a t' = some x → Fine (MisplacedAnnotation cm (whole t)) (whole t) x) :
    ∀ x, Steps.after p f t = some x → Fine (MisplacedAnnotation cm (whole t)) (whole t) x := by
  intro x hx
  unfold Steps.after at hx
  split at hx
  · rename_i a t' hp
    exact hf a t' hp x hx
  · rename_i e hp
    cases hx
    have := h.2.1 e hp
    subst this
    exact fine_oos
  · rename_i hp
    cases hx
    exact ⟨fun _ => h.1 hp, by simp, by simp⟩

theorem fine_after {cm : CaseMaps} {α β : Type} {p : Parse α} {f : α → Steps β} (h : FineParse p)
    (hf : ∀ a, FineSteps cm (f a)) : FineSteps cm (Steps.after p f) := by
  intro t ht
  refine fine_after_at (fine_at h ht) ?_
  intro a t' hp x hx
  have hw := (h t ht).2.2 a t' hp
  have := hf a t' (by rw [hw]; exact ht) x hx
  rw [hw] at this
  exact this

theorem fine_recursion (cm : CaseMaps) (fuel : Nat) :
    FineSteps cm (parseChildTypes cm fuel) ∧ FineSteps cm (childLoop cm fuel) ∧ FineSteps cm (addType cm fuel) ∧
    ∀ rep, FineSteps cm (addGroupType cm fuel rep) := by
  induction fuel with
  | zero =>
    refine ⟨?_, ?_, ?_, ?_⟩
    · intro t _ x h; simp [parseChildTypes] at h
    · intro t _ x h; simp [childLoop] at h
    · intro t _ x h; simp [addType] at h
    · intro rep t _ x h; simp [addGroupType] at h
  | succ fuel ih =>
    obtain ⟨ihP, ihL, ihA, ihG⟩ := ih
    refine ⟨?_, ?_, ?_, ?_⟩
    · intro t ht x h
      rw [parseChildTypes] at h
      exact fine_after (fine_assertToken _) (fun _ => ihL) t ht x h
    · rintro ⟨b, r⟩ ht x h
      rw [childLoop] at h
      cases r with
      | nil =>
        simp only [next_nil, Option.some.injEq] at h
        subst h
        exact fine_ok rfl
      | cons v r =>
        simp only [next_cons, backtrack_cons] at h
        split at h
        · cases h
          exact fine_ok (whole_next _ _ _)
        · cases hA : addType cm fuel ⟨b, v :: r⟩ with
          | none => rw [hA] at h; simp at h
          | some y =>
            have hy := ihA _ ht y hA
            rw [hA] at h
            cases y with
            | err e => cases h; have := hy.2.1 e rfl; subst this; exact fine_oos
            | panic => cases h; exact ⟨fun _ => hy.1 rfl, by simp, by simp⟩
            | ok at' =>
              obtain ⟨f, t3⟩ := at'
              have hw := hy.2.2 _ _ rfl
              simp only at h
              cases hL : childLoop cm fuel t3 with
              | none => rw [hL] at h; simp at h
              | some z =>
                have hz := ihL t3 (by rw [hw]; exact ht) z hL
                rw [hw] at hz
                rw [hL] at h
                cases z with
                | err e => cases h; exact hz
                | panic => cases h; exact hz
                | ok fs => cases h; exact fine_ok (hz.2.2 _ _ rfl)
    · intro t ht x h
      rw [addType] at h
      refine fine_after (fine_andThen fine_nextOrErr fun _ => fine_give (clean_repetition _)) ?_ t ht x h
      intro rep t2 ht2
      refine fine_after_at (fine_at fine_nextOrErr ht2) ?_
      intro ty t3 h3 x hx
      have w3 := (fine_nextOrErr _ ht2).2.2 _ _ h3
      rw [← w3] at ht2 ⊢
      split at hx
      · exact ihG rep t3 ht2 x hx
      · refine fine_after_at ?_ ?_ x hx
        · obtain ⟨b2, r2⟩ := t2
          rw [nextOrErr_ok] at h3
          obtain ⟨r3, rfl, rfl⟩ := h3
          unfold andThen
          cases hk : typeFromStr (cm.upper ty) with
          | panic => exact absurd hk (clean_type _).1
          | err e =>
            have := (clean_type _).2 e hk
            subst this
            exact fine_oos
          | ok k => exact fine_primitive cm rep hk b2 r3
        · intro f t' hp y hy
          cases hy
          refine fine_ok ?_
          obtain ⟨b2, r2⟩ := t2
          rw [nextOrErr_ok] at h3
          obtain ⟨r3, rfl, rfl⟩ := h3
          rw [andThen_ok] at hp
          obtain ⟨k, t4, h4, hp⟩ := hp
          rw [give_ok] at h4
          obtain ⟨hk, rfl⟩ := h4
          exact (fine_primitive cm rep hk b2 r3).2.2 _ _ hp
    · intro rep t ht x h
      rw [addGroupType] at h
      refine fine_after fine_nextOrErr ?_ t ht x h
      intro name
      refine fine_after (fine_groupAnnotation cm) ?_
      intro c
      refine fine_after fine_parseId ?_
      intro id t' ht' y hy
      simp only at hy
      cases hP : parseChildTypes cm fuel t' with
      | none => rw [hP] at hy; simp at hy
      | some z =>
        have hz := ihP t' ht' z hP
        rw [hP] at hy
        cases z with
        | err e => cases hy; have := hz.2.1 e rfl; subst this; exact fine_oos
        | panic => cases hy; exact ⟨fun _ => hz.1 rfl, by simp, by simp⟩
        | ok fs => cases hy; exact fine_ok (hz.2.2 _ _ rfl)

theorem fine_message (cm : CaseMaps) {fuel : Nat} {t : Tokenizer} {x : Res ParquetType}
    (h : parseMessageType cm fuel t = some x) :
    (x = .panic → MisplacedAnnotation cm (whole t)) ∧ ∀ e, x = .err e → e = .oos := by
  obtain ⟨b, r⟩ := t
  unfold parseMessageType at h
  cases r with
  | nil => simp only [next_nil, Option.some.injEq] at h; subst h; exact ⟨by simp, by simp⟩
  | cons v r =>
    simp only [next_cons] at h
    split at h
    · have ht : whole ⟨v :: b, r⟩ ≠ [] := by simp [whole]
      rw [← whole_next]
      have key : ∀ y, Steps.after nextOrErr (fun name t'' =>
          match parseChildTypes cm fuel t'' with
          | some (.ok (fields, t3)) => some (.ok (ParquetType.newRoot name fields, t3))
          | some (.err e) => some (.err e)
          | some .panic => some .panic
          | none => none) ⟨v :: b, r⟩ = some y →
          Fine (MisplacedAnnotation cm (whole ⟨v :: b, r⟩)) (whole ⟨v :: b, r⟩) y := by
        refine fine_after fine_nextOrErr ?_ _ ht
        intro name t' ht' y hy
        simp only at hy
        cases hP : parseChildTypes cm fuel t' with
        | none => rw [hP] at hy; simp at hy
        | some z =>
          have hz := (fine_recursion cm fuel).1 t' ht' z hP
          rw [hP] at hy
          cases z with
          | err e => cases hy; have := hz.2.1 e rfl; subst this; exact fine_oos
          | panic => cases hy; exact ⟨fun _ => hz.1 rfl, by simp, by simp⟩
          | ok fs => cases hy; exact fine_ok (hz.2.2 _ _ rfl)
      split at h
      · rename_i y hy
        have := key y hy
        cases h
        cases y with
        | ok a => exact ⟨by simp [Res.map'], by simp [Res.map']⟩
        | err e =>
          refine ⟨by simp [Res.map'], ?_⟩
          intro e' he
          cases he
          exact this.2.1 e rfl
        | panic => exact ⟨fun _ => this.1 rfl, by simp [Res.map']⟩
      · simp at h
    · cases h; exact ⟨by simp, by simp⟩

end Pq
