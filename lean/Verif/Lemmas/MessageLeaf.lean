import Verif.Lemmas.MessageTokens
/-
Lemmas about the parts of the message parser that are not recursive.
-/
namespace Pq
open Pq.Spec Pq.Message

/-! ### words -/

theorem repetitionFromStr_iff (s : String) (r : Repetition) :
    repetitionFromStr s = .ok r ↔ (s, r) ∈ repetitionWords := by
  unfold repetitionFromStr repetitionWords
  constructor
  · intro h
    repeat' split at h
    all_goals simp_all
  · intro h
    simp only [List.mem_cons, List.not_mem_nil, or_false, Prod.mk.injEq] at h
    rcases h with ⟨rfl, rfl⟩ | ⟨rfl, rfl⟩ | ⟨rfl, rfl⟩ <;> rfl

theorem convertedGroup_iff (s : String) (c : GroupConvertedType) :
    convertedGroupFromStr s = .ok c ↔ (s, c) ∈ groupWords := by
  unfold convertedGroupFromStr groupWords
  constructor
  · intro h
    repeat' split at h
    all_goals simp_all
  · intro h
    simp only [List.mem_cons, List.not_mem_nil, or_false, Prod.mk.injEq] at h
    rcases h with ⟨rfl, rfl⟩ | ⟨rfl, rfl⟩ | ⟨rfl, rfl⟩ <;> rfl

theorem typeFromStr_iff (s : String) (k : I32) :
    typeFromStr s = .ok k ↔
      (∃ t, (s, t) ∈ physicalWords ∧ k = t.toThrift.1) ∨ (s = "FIXED_LEN_BYTE_ARRAY" ∧ k = 7#32) := by
  unfold typeFromStr physicalWords
  constructor
  · intro h
    repeat' split at h
    all_goals simp_all [PhysicalType.toThrift]
    all_goals first | (rename_i h1; rcases h1 with rfl | rfl <;> simp [← h]) | (simp [← h])
  · intro h
    simp only [List.mem_cons, List.not_mem_nil, or_false, Prod.mk.injEq] at h
    rcases h with ⟨t, h, hk⟩ | ⟨rfl, rfl⟩
    · rcases h with ⟨rfl, rfl⟩ | ⟨rfl, rfl⟩ | ⟨rfl, rfl⟩ | ⟨rfl, rfl⟩ | ⟨rfl, rfl⟩ | ⟨rfl, rfl⟩ | ⟨rfl, rfl⟩ |
        ⟨rfl, rfl⟩ <;> (subst hk; rfl)
    · rfl

theorem physicalWords_thrift {s : String} {t : PhysicalType} (h : (s, t) ∈ physicalWords) :
    t.toThrift.1 ≠ 7#32 ∧ ∀ l, PhysicalType.ofThrift t.toThrift.1 l = .ok t := by
  simp only [physicalWords, List.mem_cons, List.not_mem_nil, or_false, Prod.mk.injEq] at h
  rcases h with ⟨rfl, rfl⟩ | ⟨rfl, rfl⟩ | ⟨rfl, rfl⟩ | ⟨rfl, rfl⟩ | ⟨rfl, rfl⟩ | ⟨rfl, rfl⟩ | ⟨rfl, rfl⟩ |
        ⟨rfl, rfl⟩ <;> exact ⟨by decide, fun l => rfl⟩

theorem integerOf_iff (w : Int) (b : Bool) (t : IntegerType) :
    IntegerType.ofThrift w b = t ↔ IntegerOf w b t := by
  unfold IntegerType.ofThrift IntegerOf integerTable
  by_cases h8 : w = 8
  · subst h8; cases b <;> cases t <;> simp <;> exact fun h => h _ rfl
  by_cases h16 : w = 16
  · subst h16; cases b <;> cases t <;> simp <;> exact fun h => h _ rfl
  by_cases h32 : w = 32
  · subst h32; cases b <;> cases t <;> simp <;> exact fun h => h _ rfl
  by_cases h64 : w = 64
  · subst h64; cases b <;> cases t <;> simp <;> exact fun h => h _ rfl
  simp only [h8, h16, h32, h64, if_false, ite_self, List.mem_cons, Prod.mk.injEq, false_and, List.not_mem_nil,
    or_false, not_false_eq_true, implies_true, true_and, false_or]
  exact eq_comm

theorem upper_ascii {cm : CaseMaps} (hcm : LawfulCase cm) (s : String) (h : ∀ c ∈ s.toList, c.toNat < 128) :
    cm.upper s = s.map Char.toUpper := hcm.upper s h

theorem upper_close {cm : CaseMaps} (hcm : LawfulCase cm) : cm.upper ")" = ")" := by
  rw [hcm.upper _ (by decide)]; decide +kernel

theorem upper_brace {cm : CaseMaps} (hcm : LawfulCase cm) : cm.upper "}" = "}" := by
  rw [hcm.upper _ (by decide)]; decide +kernel

theorem number_not_close {n : I32} : ¬ Number ")" n := by
  rw [← parseI32_iff]
  have : parseI32 ")" = none := by decide
  rw [this]
  simp

/-! ### reading tokens -/

/-- All tokens, read and unread. -/
def whole (t : Tokenizer) : List String := t.before.reverse ++ t.rest

@[simp] theorem next_cons (b r : List String) (x : String) : next ⟨b, x :: r⟩ = (some x, ⟨x :: b, r⟩) := rfl
@[simp] theorem next_nil (b : List String) : next ⟨b, []⟩ = (none, ⟨b, []⟩) := rfl
@[simp] theorem backtrack_cons (b r : List String) (x : String) : backtrack ⟨x :: b, r⟩ = .ok ⟨b, x :: r⟩ := rfl

@[simp] theorem assertToken_cons (e : String) (b r : List String) (x : String) :
    assertToken e ⟨b, x :: r⟩ = if x = e then .ok ((), ⟨x :: b, r⟩) else .err .oos := rfl
@[simp] theorem assertToken_nil (e : String) (b : List String) : assertToken e ⟨b, []⟩ = .err .oos := rfl

@[simp] theorem optionally_cons {α : Type} (e : String) (yes no : Parse α) (b r : List String) (x : String) :
    optionally e yes no ⟨b, x :: r⟩ = if x = e then yes ⟨x :: b, r⟩ else no ⟨b, x :: r⟩ := rfl
@[simp] theorem optionally_nil {α : Type} (e : String) (yes no : Parse α) (b : List String) (x : String) :
    optionally e yes no ⟨x :: b, []⟩ = no ⟨b, [x]⟩ := rfl

@[simp] theorem nextOrErr_cons (b r : List String) (x : String) : nextOrErr ⟨b, x :: r⟩ = .ok (x, ⟨x :: b, r⟩) := rfl
@[simp] theorem nextOrErr_nil (b : List String) : nextOrErr ⟨b, []⟩ = .err .oos := rfl

theorem andThen_ok {α β : Type} {p : Parse α} {f : α → Parse β} {t : Tokenizer} {b : β × Tokenizer} :
    andThen p f t = .ok b ↔ ∃ a t', p t = .ok (a, t') ∧ f a t' = .ok b := by
  unfold andThen
  rw [Res.bind_eq_ok]
  constructor
  · rintro ⟨⟨a, t'⟩, h1, h2⟩; exact ⟨a, t', h1, h2⟩
  · rintro ⟨a, t', h1, h2⟩; exact ⟨(a, t'), h1, h2⟩

theorem andThen_of_ok {α β : Type} {p : Parse α} {f : α → Parse β} {t t' : Tokenizer} {a : α}
    (h : p t = .ok (a, t')) : andThen p f t = f a t' := by
  unfold andThen; rw [h]; rfl

theorem give_ok {α : Type} {r : Res α} {t t' : Tokenizer} {a : α} :
    give r t = .ok (a, t') ↔ r = .ok a ∧ t' = t := by
  unfold give
  cases r <;> simp [Res.map', eq_comm]

theorem give_of_ok {α : Type} (a : α) (t : Tokenizer) : give (.ok a) t = .ok (a, t) := rfl

theorem assertToken_ok {e : String} {b r : List String} {t' : Tokenizer} {u : Unit} :
    assertToken e ⟨b, r⟩ = .ok (u, t') ↔ ∃ r', r = e :: r' ∧ t' = ⟨e :: b, r'⟩ := by
  cases r with
  | nil => simp
  | cons x r =>
    by_cases h : x = e
    · subst h; simp [eq_comm]
    · simp [h]

theorem assertToken_eq (e : String) (b r : List String) : assertToken e ⟨b, e :: r⟩ = .ok ((), ⟨e :: b, r⟩) := by
  simp

theorem nextOrErr_ok {b r : List String} {t' : Tokenizer} {v : String} :
    nextOrErr ⟨b, r⟩ = .ok (v, t') ↔ ∃ r', r = v :: r' ∧ t' = ⟨v :: b, r'⟩ := by
  cases r with
  | nil => simp
  | cons x r => 
    simp only [nextOrErr_cons, Res.ok.injEq, Prod.mk.injEq, List.cons.injEq]
    constructor
    · rintro ⟨rfl, rfl⟩; exact ⟨r, ⟨rfl, rfl⟩, rfl⟩
    · rintro ⟨r', ⟨rfl, rfl⟩, rfl⟩; exact ⟨rfl, rfl⟩

theorem nextI32_ok {b r : List String} {t' : Tokenizer} {n : I32} :
    nextI32 ⟨b, r⟩ = .ok (n, t') ↔ ∃ s r', r = s :: r' ∧ Number s n ∧ t' = ⟨s :: b, r'⟩ := by
  cases r with
  | nil => simp [nextI32]
  | cons x r =>
    simp only [nextI32, next_cons, List.cons.injEq]
    rw [show (∃ s r', (x = s ∧ r = r') ∧ Number s n ∧ t' = (⟨s :: b, r'⟩ : Tokenizer)) ↔
      (Number x n ∧ t' = ⟨x :: b, r⟩) from ⟨by rintro ⟨s, r', ⟨rfl, rfl⟩, h⟩; exact h, fun h => ⟨x, r, ⟨rfl, rfl⟩, h⟩⟩,
      ← parseI32_iff]
    cases parseI32 x <;> simp [Res.ofOption, Res.map', eq_comm]

theorem nextBool_ok {cm : CaseMaps} {b r : List String} {t' : Tokenizer} {v : Bool} :
    nextBool cm ⟨b, r⟩ = .ok (v, t') ↔ ∃ s r', r = s :: r' ∧ (cm.lower s, v) ∈ boolWords ∧ t' = ⟨s :: b, r'⟩ := by
  cases r with
  | nil => simp [nextBool]
  | cons x r =>
    simp only [nextBool, next_cons, List.cons.injEq]
    rw [show (∃ s r', (x = s ∧ r = r') ∧ (cm.lower s, v) ∈ boolWords ∧ t' = (⟨s :: b, r'⟩ : Tokenizer)) ↔
      ((cm.lower x, v) ∈ boolWords ∧ t' = ⟨x :: b, r⟩) from
      ⟨by rintro ⟨s, r', ⟨rfl, rfl⟩, h⟩; exact h, fun h => ⟨x, r, ⟨rfl, rfl⟩, h⟩⟩]
    unfold boolWords
    by_cases h1 : cm.lower x = "true"
    · rw [if_pos h1, h1]; cases v <;> simp [eq_comm]
    · rw [if_neg h1]
      by_cases h2 : cm.lower x = "false"
      · rw [if_pos h2, h2]; cases v <;> simp [eq_comm]
      · rw [if_neg h2]; simp [h1, h2]

theorem nextTimeUnit_ok {cm : CaseMaps} {b r : List String} {t' : Tokenizer} {v : TimeUnit} :
    nextTimeUnit cm ⟨b, r⟩ = .ok (v, t') ↔
      ∃ s r', r = s :: r' ∧ (cm.upper s, v) ∈ unitWords ∧ t' = ⟨s :: b, r'⟩ := by
  cases r with
  | nil => simp [nextTimeUnit]
  | cons x r =>
    simp only [nextTimeUnit, next_cons, List.cons.injEq]
    rw [show (∃ s r', (x = s ∧ r = r') ∧ (cm.upper s, v) ∈ unitWords ∧ t' = (⟨s :: b, r'⟩ : Tokenizer)) ↔
      ((cm.upper x, v) ∈ unitWords ∧ t' = ⟨x :: b, r⟩) from
      ⟨by rintro ⟨s, r', ⟨rfl, rfl⟩, h⟩; exact h, fun h => ⟨x, r, ⟨rfl, rfl⟩, h⟩⟩]
    unfold unitWords
    by_cases h1 : cm.upper x = "MILLIS"
    · rw [if_pos h1, h1]; cases v <;> simp [eq_comm]
    · rw [if_neg h1]
      by_cases h2 : cm.upper x = "MICROS"
      · rw [if_pos h2, h2]; cases v <;> simp [eq_comm]
      · rw [if_neg h2]
        by_cases h3 : cm.upper x = "NANOS"
        · rw [if_pos h3, h3]; cases v <;> simp [eq_comm]
        · rw [if_neg h3]; simp [h1, h2, h3]

/-! ### parameters -/

/-- What may be read as an optional second parameter up to the closing parenthesis. -/
theorem second_ok {α : Type} {item : Parse α} {value : String → α → Prop} {d : α}
    (hitem : ∀ b r a t', item ⟨b, r⟩ = .ok (a, t') ↔ ∃ s r', r = s :: r' ∧ value s a ∧ t' = ⟨s :: b, r'⟩)
    {x : String} (hx : x ≠ ")") {b r : List String} {a : α} {u : Unit} {t t' : Tokenizer} :
    (optionally "," item (give (.ok d)) ⟨x :: b, r⟩ = .ok (a, t) ∧ assertToken ")" t = .ok (u, t')) ↔
      ∃ more r', r = more ++ ")" :: r' ∧ Second value d more a ∧ t = ⟨more.reverse ++ x :: b, ")" :: r'⟩ ∧
        t' = ⟨")" :: more.reverse ++ x :: b, r'⟩ := by
  constructor
  · rintro ⟨h1, h2⟩
    cases r with
    | nil =>
      rw [optionally_nil, give_ok] at h1
      obtain ⟨_, rfl⟩ := h1
      rw [assertToken_ok] at h2
      obtain ⟨r', h, _⟩ := h2
      simp only [List.cons.injEq] at h
      exact absurd h.1 hx
    | cons y r =>
      rw [optionally_cons] at h1
      split at h1
      · rename_i hy
        subst hy
        obtain ⟨s, r', rfl, hv, rfl⟩ := (hitem _ _ _ _).1 h1
        rw [assertToken_ok] at h2
        obtain ⟨r'', rfl, rfl⟩ := h2
        exact ⟨[",", s], r'', rfl, .present hv, rfl, rfl⟩
      · rw [give_ok] at h1
        obtain ⟨h, rfl⟩ := h1
        simp only [Res.ok.injEq] at h
        subst h
        rw [assertToken_ok] at h2
        obtain ⟨r'', h, rfl⟩ := h2
        rw [h]
        exact ⟨[], r'', rfl, .absent, rfl, rfl⟩
  · rintro ⟨more, r', rfl, hs, rfl, rfl⟩
    cases hs with
    | absent => exact ⟨rfl, by simp⟩
    | @present s a hv =>
      refine ⟨?_, by simp⟩
      simp only [List.cons_append, List.nil_append, optionally_cons, if_true]
      exact (hitem _ _ _ _).2 ⟨s, _, rfl, hv, rfl⟩

/-! ### annotations -/

theorem parseDecimal_none {b r : List String} {x : String} {t : Tokenizer} {l : PrimitiveLogicalType}
    (hr : ∀ y ∈ r.head?, y ≠ "(") (h : parseDecimal ⟨x :: b, r⟩ = .ok (l, t)) :
    l = .decimal 0 0 ∧ ((r ≠ [] ∧ t = ⟨x :: b, r⟩) ∨ (r = [] ∧ t = ⟨b, [x]⟩)) := by
  unfold parseDecimal at h
  rw [andThen_ok] at h
  obtain ⟨ps, t', h1, h2⟩ := h
  cases r with
  | nil =>
    rw [optionally_nil, give_ok] at h1
    obtain ⟨hp, rfl⟩ := h1
    rw [give_ok] at h2
    obtain ⟨h2, rfl⟩ := h2
    simp only [Res.ok.injEq] at hp
    subst hp
    exact ⟨by simpa [toUsize] using h2.symm, .inr ⟨rfl, rfl⟩⟩
  | cons y r =>
    rw [optionally_cons, if_neg (hr y (by simp)), give_ok] at h1
    obtain ⟨hp, rfl⟩ := h1
    rw [give_ok] at h2
    obtain ⟨h2, rfl⟩ := h2
    simp only [Res.ok.injEq] at hp
    subst hp
    exact ⟨by simpa [toUsize] using h2.symm, .inl ⟨by simp, rfl⟩⟩

theorem parseDecimal_some {b r : List String} {t : Tokenizer} {l : PrimitiveLogicalType} :
    parseDecimal ⟨b, "(" :: r⟩ = .ok (l, t) ↔
      ∃ p precision more scale r', r = p :: more ++ ")" :: r' ∧ Natural p precision ∧
        Second Natural 0 more scale ∧ l = .decimal precision scale ∧ 
        t = ⟨")" :: more.reverse ++ p :: "(" :: b, r'⟩ := by
  unfold parseDecimal
  constructor
  · intro h
    rw [andThen_ok] at h
    obtain ⟨ps, t', h1, h2⟩ := h
    rw [optionally_cons, if_pos rfl, andThen_ok] at h1
    obtain ⟨pr, t1, h1, h3⟩ := h1
    obtain ⟨p, r1, rfl, hp, rfl⟩ := nextI32_ok.1 h1
    rw [andThen_ok] at h3
    obtain ⟨sc, t2, h3, h4⟩ := h3
    rw [andThen_ok] at h4
    obtain ⟨u, t3, h4, h5⟩ := h4
    have hne : p ≠ ")" := by rintro rfl; exact number_not_close hp
    obtain ⟨more, r', rfl, hs, rfl, rfl⟩ := (second_ok (fun _ _ _ _ => nextI32_ok) hne).1 ⟨h3, h4⟩
    rw [give_ok] at h5
    obtain ⟨h5, rfl⟩ := h5
    simp only [Res.ok.injEq] at h5
    subst h5
    rw [give_ok] at h2
    obtain ⟨h2, rfl⟩ := h2
    simp only [Res.bind_eq_ok] at h2
    obtain ⟨pn, h6, sn, h7, h8⟩ := h2
    simp only [Res.ok.injEq] at h8
    subst h8
    refine ⟨p, pn, more, sn, r', rfl, (natural_iff _ _).2 ⟨pr, (parseI32_iff _ _).2 hp, h6⟩, ?_, rfl, rfl⟩
    cases hs with
    | absent =>
      have : sn = 0 := by
        have h0 : toUsize (0#32) = Res.ok 0 := rfl
        rw [h0] at h7
        simpa using h7.symm
      subst this
      exact .absent
    | present hv => exact .present ((natural_iff _ _).2 ⟨sc, (parseI32_iff _ _).2 hv, h7⟩)
  · rintro ⟨p, precision, more, scale, r', rfl, hp, hs, rfl, rfl⟩
    obtain ⟨pw, hp1, hp2⟩ := (natural_iff _ _).1 hp
    have hp1 := (parseI32_iff _ _).1 hp1
    have hne : p ≠ ")" := by rintro rfl; exact number_not_close hp1
    have : ∃ sw : I32, Second Number 0#32 more sw ∧ toUsize sw = .ok scale := by
      cases hs with
      | absent => exact ⟨0#32, .absent, rfl⟩
      | present hv =>
        obtain ⟨sw, h1, h2⟩ := (natural_iff _ _).1 hv
        exact ⟨sw, .present ((parseI32_iff _ _).1 h1), h2⟩
    obtain ⟨sw, hs1, hs2⟩ := this
    obtain ⟨h3, h4⟩ := (second_ok (u := ()) (b := "(" :: b) (fun _ _ _ _ => nextI32_ok) hne).2
      ⟨more, r', rfl, hs1, rfl, rfl⟩
    rw [andThen_of_ok (a := (pw, sw)) (t' := ⟨")" :: more.reverse ++ p :: "(" :: b, r'⟩)]
    · rw [give_ok]
      simp [hp2, hs2]
    · rw [optionally_cons, if_pos rfl, List.cons_append, andThen_of_ok (nextI32_ok.2 ⟨p, _, rfl, hp1, rfl⟩),
        andThen_of_ok h3, andThen_of_ok h4, give_of_ok]

theorem parseUnit_none {cm : CaseMaps} {b r : List String} {x : String} {t : Tokenizer} {l : TimeUnit × Bool}
    (hr : ∀ y ∈ r.head?, y ≠ "(") (h : parseUnitAndZone cm ⟨x :: b, r⟩ = .ok (l, t)) :
    l = (.milliseconds, false) ∧ ((r ≠ [] ∧ t = ⟨x :: b, r⟩) ∨ (r = [] ∧ t = ⟨b, [x]⟩)) := by
  unfold parseUnitAndZone at h
  cases r with
  | nil =>
    rw [optionally_nil, give_ok] at h
    obtain ⟨hp, rfl⟩ := h
    simp only [Res.ok.injEq] at hp
    exact ⟨hp.symm, .inr ⟨rfl, rfl⟩⟩
  | cons y r =>
    rw [optionally_cons, if_neg (hr y (by simp)), give_ok] at h
    obtain ⟨hp, rfl⟩ := h
    simp only [Res.ok.injEq] at hp
    exact ⟨hp.symm, .inl ⟨by simp, rfl⟩⟩

theorem unit_not_close {cm : CaseMaps} (hcm : LawfulCase cm) {u : TimeUnit} : (cm.upper ")", u) ∉ unitWords := by
  rw [upper_close hcm]
  cases u <;> decide

theorem parseUnit_some {cm : CaseMaps} (hcm : LawfulCase cm) {b r : List String} {t : Tokenizer}
    {l : TimeUnit × Bool} :
    parseUnitAndZone cm ⟨b, "(" :: r⟩ = .ok (l, t) ↔
      ∃ u more r', r = u :: more ++ ")" :: r' ∧ (cm.upper u, l.1) ∈ unitWords ∧
        Second (fun b v => (cm.lower b, v) ∈ boolWords) false more l.2 ∧
        t = ⟨")" :: more.reverse ++ u :: "(" :: b, r'⟩ := by
  unfold parseUnitAndZone
  rw [optionally_cons, if_pos rfl]
  constructor
  · intro h
    rw [andThen_ok] at h
    obtain ⟨un, t1, h1, h3⟩ := h
    obtain ⟨u, r1, rfl, hp, rfl⟩ := nextTimeUnit_ok.1 h1
    rw [andThen_ok] at h3
    obtain ⟨sc, t2, h3, h4⟩ := h3
    rw [andThen_ok] at h4
    obtain ⟨_, t3, h4, h5⟩ := h4
    have hne : u ≠ ")" := by rintro rfl; exact unit_not_close hcm hp
    obtain ⟨more, r', rfl, hs, rfl, rfl⟩ := (second_ok (fun _ _ _ _ => nextBool_ok) hne).1 ⟨h3, h4⟩
    rw [give_ok] at h5
    obtain ⟨h5, rfl⟩ := h5
    simp only [Res.ok.injEq] at h5
    subst h5
    exact ⟨u, more, r', rfl, hp, hs, rfl⟩
  · rintro ⟨u, more, r', rfl, hu, hs, rfl⟩
    have hne : u ≠ ")" := by rintro rfl; exact unit_not_close hcm hu
    obtain ⟨h3, h4⟩ := (second_ok (u := ()) (b := "(" :: b) (fun _ _ _ _ => nextBool_ok) hne).2
      ⟨more, r', rfl, hs, rfl, rfl⟩
    rw [List.cons_append, andThen_of_ok (nextTimeUnit_ok.2 ⟨u, _, rfl, hu, rfl⟩), andThen_of_ok h3, andThen_of_ok h4, give_of_ok]

theorem parseInteger_ok {cm : CaseMaps} {b r : List String} {x : String} {t : Tokenizer}
    {l : PrimitiveLogicalType} :
    parseInteger cm ⟨x :: b, r⟩ = .ok (l, t) ↔
      ∃ w width bs signed it r', r = ["(", w, ",", bs, ")"] ++ r' ∧ Number w width ∧
        (cm.lower bs, signed) ∈ boolWords ∧ IntegerOf width.toInt signed it ∧ l = .integer it ∧
        t = ⟨")" :: bs :: "," :: w :: "(" :: x :: b, r'⟩ := by
  unfold parseInteger
  constructor
  · intro h
    rw [andThen_ok] at h
    obtain ⟨ws, t', h1, h2⟩ := h
    cases r with
    | nil => 
      rw [optionally_nil, give_ok] at h1
      simp at h1
    | cons y r =>
      rw [optionally_cons] at h1
      split at h1
      rotate_left
      · rw [give_ok] at h1
        simp at h1
      · rename_i hy
        subst hy
        rw [andThen_ok] at h1
        obtain ⟨width, t1, h1, h3⟩ := h1
        obtain ⟨w, r1, rfl, hw, rfl⟩ := nextI32_ok.1 h1
        rw [andThen_ok] at h3
        obtain ⟨sg, t2, h3, h4⟩ := h3
        rw [andThen_ok] at h4
        obtain ⟨_, t3, h4, h5⟩ := h4
        cases r1 with
        | nil =>
          rw [optionally_nil, give_ok] at h3
          simp at h3
        | cons z r1 =>
          rw [optionally_cons] at h3
          split at h3
          rotate_left
          · rw [give_ok] at h3
            simp at h3
          · rename_i hz
            subst hz
            obtain ⟨bs, r2, rfl, hb, rfl⟩ := nextBool_ok.1 h3
            rw [assertToken_ok] at h4
            obtain ⟨r3, rfl, rfl⟩ := h4
            rw [give_ok] at h5
            obtain ⟨h5, rfl⟩ := h5
            simp only [Res.ok.injEq] at h5
            subst h5
            rw [give_ok] at h2
            obtain ⟨h2, rfl⟩ := h2
            simp only [Res.ok.injEq] at h2
            exact ⟨w, width, bs, sg, _, r3, rfl, hw, hb, (integerOf_iff _ _ _).1 rfl, h2.symm, rfl⟩
  · rintro ⟨w, width, bs, signed, it, r', rfl, hw, hb, hi, rfl, rfl⟩
    have hi := (integerOf_iff _ _ _).2 hi
    rw [andThen_of_ok (a := (width, signed)) (t' := ⟨")" :: bs :: "," :: w :: "(" :: x :: b, r'⟩)]
    · rw [give_ok]
      simp only [hi, and_self]
    · simp only [List.cons_append, List.nil_append, optionally_cons, if_true]
      rw [andThen_of_ok (nextI32_ok.2 ⟨w, _, rfl, hw, rfl⟩)]
      rw [andThen_of_ok (a := signed) (t' := ⟨bs :: "," :: w :: "(" :: x :: b, ")" :: r'⟩)]
      · rw [andThen_of_ok (assertToken_eq _ _ _), give_of_ok]
      · simp only [optionally_cons, if_true]
        exact nextBool_ok.2 ⟨bs, _, rfl, hb, rfl⟩

theorem logical_sound {cm : CaseMaps} (hcm : LawfulCase cm) {v : String} {b r : List String} {t t' : Tokenizer}
    {l : PrimitiveLogicalType} {u : Unit} (h1 : parseLogicalType cm (cm.upper v) ⟨v :: b, r⟩ = .ok (l, t))
    (h2 : assertToken ")" t = .ok (u, t')) :
    ∃ more r', r = more ++ ")" :: r' ∧ Annotation cm (v :: more) none (some l) ∧
      t' = ⟨")" :: more.reverse ++ v :: b, r'⟩ := by
  have simple : ∀ l0 : PrimitiveLogicalType, (cm.upper v, l0) ∈ logicalWords →
      give (.ok l0) ⟨v :: b, r⟩ = .ok (l, t) →
      ∃ more r', r = more ++ ")" :: r' ∧ Annotation cm (v :: more) none (some l) ∧
        t' = ⟨")" :: more.reverse ++ v :: b, r'⟩ := by
    intro l0 hl h
    rw [give_ok] at h
    obtain ⟨h, rfl⟩ := h
    simp only [Res.ok.injEq] at h
    subst h
    rw [assertToken_ok] at h2
    obtain ⟨r', rfl, rfl⟩ := h2
    exact ⟨[], r', rfl, .logical hl, rfl⟩
  have notClose : v ≠ ")" ∨ cm.upper v = ")" := by
    by_cases h : v = ")"
    · right; rw [h, upper_close hcm]
    · exact .inl h
  have none' : ∀ l0 : PrimitiveLogicalType, (cm.upper v, l0) ∈ logicalWords → cm.upper v ≠ ")" → l = l0 →
      ((r ≠ [] ∧ t = ⟨v :: b, r⟩) ∨ (r = [] ∧ t = ⟨b, [v]⟩)) →
      ∃ more r', r = more ++ ")" :: r' ∧ Annotation cm (v :: more) none (some l) ∧
        t' = ⟨")" :: more.reverse ++ v :: b, r'⟩ := by
    rintro l0 hl hne rfl (⟨-, rfl⟩ | ⟨-, rfl⟩)
    · exact simple l hl rfl
    · rw [assertToken_ok] at h2
      obtain ⟨r', h, -⟩ := h2
      simp only [List.cons.injEq] at h
      rcases notClose with h' | h'
      · exact absurd h.1 h'
      · exact absurd h' hne
  have hd : ∀ (r : List String), (∀ y ∈ r.head?, y ≠ "(") ∨ ∃ r', r = "(" :: r' := by
    intro r
    cases r with
    | nil => left; simp
    | cons y r =>
      by_cases hy : y = "("
      · right; exact ⟨r, by rw [hy]⟩
      · left; simpa using hy
  unfold parseLogicalType at h1
  by_cases hu : cm.upper v = "ENUM"
  · rw [if_pos hu] at h1
    exact simple _ (by rw [hu]; decide) h1
  rw [if_neg hu] at h1
  by_cases hu : cm.upper v = "DATE"
  · rw [if_pos hu] at h1
    exact simple _ (by rw [hu]; decide) h1
  rw [if_neg hu] at h1
  by_cases hu : cm.upper v = "DECIMAL"
  · rw [if_pos hu] at h1
    rcases hd r with hr | ⟨r', rfl⟩
    · obtain ⟨g1, g2⟩ := parseDecimal_none hr h1
      exact none' _ (by rw [hu]; decide) (by rw [hu]; decide) g1 g2
    · obtain ⟨p, precision, more, scale, r1, rfl, hp, hs, rfl, rfl⟩ := parseDecimal_some.1 h1
      rw [assertToken_ok] at h2
      obtain ⟨r2, rfl, rfl⟩ := h2
      refine ⟨"(" :: p :: more ++ [")"], r2, by simp, ?_, by simp⟩
      have := Annotation.decimal (cm := cm) (s := v) hu hp hs
      simpa using this
  rw [if_neg hu] at h1
  by_cases hu : cm.upper v = "TIME"
  · rw [if_pos hu] at h1
    rw [andThen_ok] at h1
    obtain ⟨uz, t1, h1, h3⟩ := h1
    rw [give_ok] at h3
    obtain ⟨h3, rfl⟩ := h3
    simp only [Res.ok.injEq] at h3
    subst h3
    rcases hd r with hr | ⟨r', rfl⟩
    · obtain ⟨g1, g2⟩ := parseUnit_none hr h1
      exact none' (.time .milliseconds false) (by rw [hu]; decide) (by rw [hu]; decide) (by rw [g1]) g2
    · obtain ⟨un, more, r1, rfl, hp, hs, rfl⟩ := (parseUnit_some hcm).1 h1
      rw [assertToken_ok] at h2
      obtain ⟨r2, rfl, rfl⟩ := h2
      refine ⟨"(" :: un :: more ++ [")"], r2, by simp, ?_, by simp⟩
      have := Annotation.time (cm := cm) (s := v) hu hp hs
      simpa using this
  rw [if_neg hu] at h1
  by_cases hu : cm.upper v = "TIMESTAMP"
  · rw [if_pos hu] at h1
    rw [andThen_ok] at h1
    obtain ⟨uz, t1, h1, h3⟩ := h1
    rw [give_ok] at h3
    obtain ⟨h3, rfl⟩ := h3
    simp only [Res.ok.injEq] at h3
    subst h3
    rcases hd r with hr | ⟨r', rfl⟩
    · obtain ⟨g1, g2⟩ := parseUnit_none hr h1
      exact none' (.timestamp .milliseconds false) (by rw [hu]; decide) (by rw [hu]; decide) (by rw [g1]) g2
    · obtain ⟨un, more, r1, rfl, hp, hs, rfl⟩ := (parseUnit_some hcm).1 h1
      rw [assertToken_ok] at h2
      obtain ⟨r2, rfl, rfl⟩ := h2
      refine ⟨"(" :: un :: more ++ [")"], r2, by simp, ?_, by simp⟩
      have := Annotation.timestamp (cm := cm) (s := v) hu hp hs
      simpa using this
  rw [if_neg hu] at h1
  by_cases hu : cm.upper v = "INTEGER"
  · rw [if_pos hu] at h1
    obtain ⟨w, width, bs, signed, it, r', rfl, hw, hb, hi, rfl, rfl⟩ := parseInteger_ok.1 h1
    rw [assertToken_ok] at h2
    obtain ⟨r2, rfl, rfl⟩ := h2
    exact ⟨["(", w, ",", bs, ")"], r2, by simp, .integer hu hw hb hi, by simp⟩
  rw [if_neg hu] at h1
  by_cases hu : cm.upper v = "STRING"
  · rw [if_pos hu] at h1
    exact simple _ (by rw [hu]; decide) h1
  rw [if_neg hu] at h1
  by_cases hu : cm.upper v = "JSON"
  · rw [if_pos hu] at h1
    exact simple _ (by rw [hu]; decide) h1
  rw [if_neg hu] at h1
  by_cases hu : cm.upper v = "BSON"
  · rw [if_pos hu] at h1
    exact simple _ (by rw [hu]; decide) h1
  rw [if_neg hu] at h1
  by_cases hu : cm.upper v = "UUID"
  · rw [if_pos hu] at h1
    exact simple _ (by rw [hu]; decide) h1
  rw [if_neg hu] at h1
  by_cases hu : cm.upper v = "UNKNOWN"
  · rw [if_pos hu] at h1
    exact simple _ (by rw [hu]; decide) h1
  rw [if_neg hu] at h1
  by_cases hu : cm.upper v = "INTERVAL"
  · rw [if_pos hu] at h1
    rw [give_ok] at h1; simp at h1
  rw [if_neg hu] at h1
  rw [give_ok] at h1; simp at h1

theorem converted_iff {s : String} (h : isLogicalType s = false) (c : Option PrimitiveConvertedType) :
    (isConvertedType s = true ∧ convertedPrimitiveFromStr s = c) ↔ ∃ c', c = some c' ∧ (s, c') ∈ convertedWords := by
  constructor
  · rintro ⟨h1, rfl⟩
    simp only [isConvertedType, List.contains_eq_mem, List.mem_cons, List.not_mem_nil, or_false,
      decide_eq_true_eq] at h1
    rcases h1 with rfl | rfl | rfl | rfl | rfl | rfl | rfl | rfl | rfl | rfl | rfl | rfl | rfl | rfl | rfl | rfl |
      rfl | rfl | rfl
    all_goals first
      | exact ⟨_, rfl, by decide⟩
      | (exact absurd h (by decide))
  · rintro ⟨c', rfl, h1⟩
    simp only [convertedWords, List.mem_cons, List.not_mem_nil, or_false, Prod.mk.injEq] at h1
    rcases h1 with ⟨rfl, rfl⟩ | ⟨rfl, rfl⟩ | ⟨rfl, rfl⟩ | ⟨rfl, rfl⟩ | ⟨rfl, rfl⟩ | ⟨rfl, rfl⟩ | ⟨rfl, rfl⟩ |
      ⟨rfl, rfl⟩ | ⟨rfl, rfl⟩ | ⟨rfl, rfl⟩ | ⟨rfl, rfl⟩ | ⟨rfl, rfl⟩ | ⟨rfl, rfl⟩
    all_goals exact ⟨by decide, rfl⟩

theorem annotation_sound {cm : CaseMaps} (hcm : LawfulCase cm) {b r : List String} {t' : Tokenizer}
    {cl : Option PrimitiveConvertedType × Option PrimitiveLogicalType}
    (h : parseAnnotation cm ⟨b, r⟩ = .ok (cl, t')) :
    ∃ ts r', r = ts ++ ")" :: r' ∧ Annotation cm ts cl.1 cl.2 ∧ t' = ⟨")" :: ts.reverse ++ b, r'⟩ := by
  unfold parseAnnotation at h
  rw [andThen_ok] at h
  obtain ⟨v, t1, h1, h⟩ := h
  obtain ⟨r1, rfl, rfl⟩ := nextOrErr_ok.1 h1
  rw [andThen_ok] at h
  obtain ⟨cl', t2, h2, h⟩ := h
  rw [andThen_ok] at h
  obtain ⟨u, t3, h3, h⟩ := h
  rw [give_ok] at h
  obtain ⟨h, rfl⟩ := h
  simp only [Res.ok.injEq] at h
  subst h
  split at h2
  · rw [andThen_ok] at h2
    obtain ⟨l, t4, h2, h4⟩ := h2
    rw [give_ok] at h4
    obtain ⟨h4, rfl⟩ := h4
    simp only [Res.ok.injEq] at h4
    subst h4
    obtain ⟨more, r', rfl, ha, rfl⟩ := logical_sound hcm h2 h3
    exact ⟨v :: more, r', rfl, ha, by simp⟩
  · rename_i hl
    split at h2
    · rename_i hc
      obtain ⟨c', hc', hw⟩ := (converted_iff (by simpa using hl) _).1 ⟨hc, rfl⟩
      have : ∀ p s, c' ≠ .decimal p s := by
        rintro p s rfl
        simp [convertedWords] at hw
      rw [hc'] at h2
      have : give (.ok (some c', none)) ⟨v :: b, r1⟩ = .ok (cl', t2) := by
        cases c' with
        | decimal p s => exact absurd rfl (this p s)
        | _ => exact h2
      rw [give_ok] at this
      obtain ⟨h, rfl⟩ := this
      simp only [Res.ok.injEq] at h
      subst h
      rw [assertToken_ok] at h3
      obtain ⟨r', rfl, rfl⟩ := h3
      exact ⟨[v], r', rfl, .converted hw, rfl⟩
    · rw [give_ok] at h2
      simp at h2

theorem annotation_complete {cm : CaseMaps} (hcm : LawfulCase cm) {ts : List String}
    {c : Option PrimitiveConvertedType} {l : Option PrimitiveLogicalType} (h : Annotation cm ts c l)
    (b r : List String) :
    parseAnnotation cm ⟨b, ts ++ ")" :: r⟩ = .ok ((c, l), ⟨")" :: ts.reverse ++ b, r⟩) := by
  have key : ∀ (v : String) (more : List String) (l : PrimitiveLogicalType), isLogicalType (cm.upper v) = true →
      parseLogicalType cm (cm.upper v) ⟨v :: b, more ++ ")" :: r⟩ = .ok (l, ⟨more.reverse ++ v :: b, ")" :: r⟩) →
      parseAnnotation cm ⟨b, (v :: more) ++ ")" :: r⟩ = .ok ((none, some l), ⟨")" :: (v :: more).reverse ++ b, r⟩) := by
    intro v more l h1 h2
    unfold parseAnnotation
    rw [List.cons_append, andThen_of_ok (nextOrErr_cons _ _ _), if_pos h1,
      andThen_of_ok (a := (none, some l)) (t' := ⟨more.reverse ++ v :: b, ")" :: r⟩)]
    · rw [andThen_of_ok (assertToken_eq _ _ _), give_of_ok]
      simp
    · rw [andThen_of_ok h2, give_of_ok]
  cases h with
  | @logical s l hl =>
    apply key s [] l
    · simp only [logicalWords, List.mem_cons, List.not_mem_nil, or_false, Prod.mk.injEq] at hl
      rcases hl with ⟨h, rfl⟩ | ⟨h, rfl⟩ | ⟨h, rfl⟩ | ⟨h, rfl⟩ | ⟨h, rfl⟩ | ⟨h, rfl⟩ | ⟨h, rfl⟩ | ⟨h, rfl⟩ |
        ⟨h, rfl⟩ | ⟨h, rfl⟩ <;> (rw [h]; decide)
    · simp only [logicalWords, List.mem_cons, List.not_mem_nil, or_false, Prod.mk.injEq] at hl
      rcases hl with ⟨h, rfl⟩ | ⟨h, rfl⟩ | ⟨h, rfl⟩ | ⟨h, rfl⟩ | ⟨h, rfl⟩ | ⟨h, rfl⟩ | ⟨h, rfl⟩ | ⟨h, rfl⟩ |
        ⟨h, rfl⟩ | ⟨h, rfl⟩ <;> (rw [h]; rfl)
  | @converted s c hc =>
    have hl : isLogicalType (cm.upper s) = false := by
      simp only [convertedWords, List.mem_cons, List.not_mem_nil, or_false, Prod.mk.injEq] at hc
      rcases hc with ⟨h, rfl⟩ | ⟨h, rfl⟩ | ⟨h, rfl⟩ | ⟨h, rfl⟩ | ⟨h, rfl⟩ | ⟨h, rfl⟩ | ⟨h, rfl⟩ | ⟨h, rfl⟩ |
        ⟨h, rfl⟩ | ⟨h, rfl⟩ | ⟨h, rfl⟩ | ⟨h, rfl⟩ | ⟨h, rfl⟩ <;> (rw [h]; decide)
    obtain ⟨h1, h2⟩ := (converted_iff hl (some c)).2 ⟨c, rfl, hc⟩
    have : ∀ p s, c ≠ .decimal p s := by
      rintro p s rfl
      simp [convertedWords] at hc
    unfold parseAnnotation
    rw [List.cons_append, andThen_of_ok (nextOrErr_cons _ _ _), hl, if_neg (by simp), h1, if_pos rfl, h2,
      andThen_of_ok (a := (some c, none)) (t' := ⟨s :: b, ")" :: r⟩)]
    · rw [andThen_of_ok (assertToken_eq _ _ _), give_of_ok]
      simp
    · cases c with
      | decimal p s => exact absurd rfl (this p s)
      | _ => rfl
  | @decimal s p precision more scale hs hp hm =>
    have := key s ("(" :: p :: more ++ [")"]) (.decimal precision scale) (by rw [hs]; decide) (by
      rw [hs]
      have : parseLogicalType cm "DECIMAL" = parseDecimal := rfl
      rw [this]
      simp only [List.append_assoc, List.cons_append, List.nil_append]
      exact parseDecimal_some.2 ⟨p, precision, more, scale, _, rfl, hp, hm, rfl, by simp⟩)
    simpa using this
  | @time s u unit more utc hs hu hm =>
    have := key s ("(" :: u :: more ++ [")"]) (.time unit utc) (by rw [hs]; decide) (by
      rw [hs]
      have : parseLogicalType cm "TIME" = andThen (parseUnitAndZone cm) fun u => give (.ok (.time u.1 u.2)) := rfl
      rw [this]
      rw [show "(" :: u :: more ++ [")"] ++ ")" :: r = "(" :: (u :: more ++ ")" :: (")" :: r)) from by simp]
      rw [andThen_of_ok ((parseUnit_some hcm (l := (unit, utc))).2 ⟨u, more, _, rfl, hu, hm, rfl⟩), give_of_ok]
      simp)
    simpa using this
  | @timestamp s u unit more utc hs hu hm =>
    have := key s ("(" :: u :: more ++ [")"]) (.timestamp unit utc) (by rw [hs]; decide) (by
      rw [hs]
      have : parseLogicalType cm "TIMESTAMP" =
        andThen (parseUnitAndZone cm) fun u => give (.ok (.timestamp u.1 u.2)) := rfl
      rw [this]
      rw [show "(" :: u :: more ++ [")"] ++ ")" :: r = "(" :: (u :: more ++ ")" :: (")" :: r)) from by simp]
      rw [andThen_of_ok ((parseUnit_some hcm (l := (unit, utc))).2 ⟨u, more, _, rfl, hu, hm, rfl⟩), give_of_ok]
      simp)
    simpa using this
  | @integer s w width bs signed it hs hw hb hi =>
    have := key s ["(", w, ",", bs, ")"] (.integer it) (by rw [hs]; decide) (by
      rw [hs]
      have : parseLogicalType cm "INTEGER" = parseInteger cm := rfl
      rw [this]
      exact parseInteger_ok.2 ⟨w, width, bs, signed, it, _, rfl, hw, hb, hi, rfl, by simp⟩)
    simpa using this

end Pq
