import Verif.Lemmas.MessageLeaf
/-
Lemmas about the recursive part of the message parser: what it accepts is a message up to what may be
missing, and every message is accepted.
-/
namespace Pq
open Pq.Spec Pq.Message

/-! ### the parts of a field -/

theorem annotated_sound {cm : CaseMaps} (hcm : LawfulCase cm) {x : String} {b r : List String} {t' : Tokenizer}
    {cl : Option PrimitiveConvertedType × Option PrimitiveLogicalType}
    (h : optionally "(" (parseAnnotation cm) (give (.ok (none, none))) ⟨x :: b, r⟩ = .ok (cl, t')) :
    (∃ ts r', r = ts ++ r' ∧ Annotated cm ts cl.1 cl.2 ∧ t' = ⟨ts.reverse ++ x :: b, r'⟩ ∧
      ((ts = [] ∧ r' ≠ []) ∨ ∃ ts', ts = ts' ++ [")"])) ∨
    (r = [] ∧ cl = (none, none) ∧ t' = ⟨b, [x]⟩) := by
  cases r with
  | nil =>
    rw [optionally_nil, give_ok] at h
    obtain ⟨h, rfl⟩ := h
    simp only [Res.ok.injEq] at h
    exact .inr ⟨rfl, h.symm, rfl⟩
  | cons y r =>
    rw [optionally_cons] at h
    split at h
    · rename_i hy
      subst hy
      obtain ⟨ts, r', rfl, ha, rfl⟩ := annotation_sound hcm h
      exact .inl ⟨"(" :: ts ++ [")"], r', by simp, .present ha, by simp, .inr ⟨"(" :: ts, rfl⟩⟩
    · rw [give_ok] at h
      obtain ⟨h, rfl⟩ := h
      simp only [Res.ok.injEq] at h
      subst h
      exact .inl ⟨[], y :: r, rfl, .absent, rfl, .inl ⟨rfl, by simp⟩⟩

theorem annotated_complete {cm : CaseMaps} (hcm : LawfulCase cm) {ts : List String}
    {c : Option PrimitiveConvertedType} {l : Option PrimitiveLogicalType} (h : Annotated cm ts c l)
    (b r : List String) (y : String) (hy : y ≠ "(") :
    optionally "(" (parseAnnotation cm) (give (.ok (none, none))) ⟨b, ts ++ y :: r⟩ =
      .ok ((c, l), ⟨ts.reverse ++ b, y :: r⟩) := by
  cases h with
  | absent =>
    rw [List.nil_append, optionally_cons, if_neg hy]
    rfl
  | @present ts c l h =>
    rw [List.append_assoc, List.append_assoc, List.cons_append, optionally_cons, if_pos rfl, List.nil_append]
    have := annotation_complete hcm h ("(" :: b) (y :: r)
    simpa using this

theorem groupAnnotated_sound {cm : CaseMaps} {x : String} {b r : List String} {t' : Tokenizer}
    {c : Option GroupConvertedType} (h : parseGroupAnnotation cm ⟨x :: b, r⟩ = .ok (c, t')) :
    (∃ ts r', r = ts ++ r' ∧ GroupAnnotated cm ts c ∧ t' = ⟨ts.reverse ++ x :: b, r'⟩ ∧
      ((ts = [] ∧ r' ≠ []) ∨ ∃ ts', ts = ts' ++ [")"])) ∨
    (r = [] ∧ c = none ∧ t' = ⟨b, [x]⟩) := by
  unfold parseGroupAnnotation at h
  cases r with
  | nil =>
    rw [optionally_nil, give_ok] at h
    obtain ⟨h, rfl⟩ := h
    simp only [Res.ok.injEq] at h
    exact .inr ⟨rfl, h.symm, rfl⟩
  | cons y r =>
    rw [optionally_cons] at h
    split at h
    · rename_i hy
      subst hy
      rw [andThen_ok] at h
      obtain ⟨v, t1, h1, h⟩ := h
      obtain ⟨r1, rfl, rfl⟩ := nextOrErr_ok.1 h1
      rw [andThen_ok] at h
      obtain ⟨c', t2, h2, h⟩ := h
      rw [give_ok] at h2
      obtain ⟨h2, rfl⟩ := h2
      rw [andThen_ok] at h
      obtain ⟨u, t3, h3, h⟩ := h
      rw [assertToken_ok] at h3
      obtain ⟨r2, rfl, rfl⟩ := h3
      rw [give_ok] at h
      obtain ⟨h, rfl⟩ := h
      simp only [Res.ok.injEq] at h
      subst h
      exact .inl ⟨["(", v, ")"], r2, rfl, .present ((convertedGroup_iff _ _).1 h2), rfl, .inr ⟨["(", v], rfl⟩⟩
    · rw [give_ok] at h
      obtain ⟨h, rfl⟩ := h
      simp only [Res.ok.injEq] at h
      subst h
      exact .inl ⟨[], y :: r, rfl, .absent, rfl, .inl ⟨rfl, by simp⟩⟩

theorem groupAnnotated_complete {cm : CaseMaps} {ts : List String} {c : Option GroupConvertedType}
    (h : GroupAnnotated cm ts c) (b r : List String) (y : String) (hy : y ≠ "(") :
    parseGroupAnnotation cm ⟨b, ts ++ y :: r⟩ = .ok (c, ⟨ts.reverse ++ b, y :: r⟩) := by
  unfold parseGroupAnnotation
  cases h with
  | absent =>
    rw [List.nil_append, optionally_cons, if_neg hy]
    rfl
  | @present s c h =>
    rw [List.cons_append, optionally_cons, if_pos rfl, List.cons_append,
      andThen_of_ok (nextOrErr_cons _ _ _)]
    rw [andThen_of_ok (give_ok.2 ⟨(convertedGroup_iff _ _).2 h, rfl⟩), List.cons_append,
      andThen_of_ok (assertToken_eq _ _ _), give_of_ok]
    rfl

theorem parseId_sound {x : String} {b r : List String} {t' : Tokenizer} {id : Option I32}
    (h : parseId ⟨x :: b, r⟩ = .ok (id, t')) :
    (∃ ts r', r = ts ++ r' ∧ Ident ts id ∧ t' = ⟨ts.reverse ++ x :: b, r'⟩) ∨
    (r = [] ∧ id = none ∧ t' = ⟨b, [x]⟩) ∨ (t'.rest = []) := by
  unfold parseId at h
  cases r with
  | nil =>
    rw [optionally_nil, give_ok] at h
    obtain ⟨h, rfl⟩ := h
    simp only [Res.ok.injEq] at h
    exact .inr (.inl ⟨rfl, h.symm, rfl⟩)
  | cons y r =>
    rw [optionally_cons] at h
    split at h
    · rename_i hy
      subst hy
      cases r with
      | nil =>
        simp only [next_nil, Res.ok.injEq, Prod.mk.injEq] at h
        right; right
        rw [← h.2]
      | cons v r =>
        simp only [next_cons, Res.ok.injEq, Prod.mk.injEq] at h
        obtain ⟨rfl, rfl⟩ := h
        refine .inl ⟨["=", v], r, rfl, ?_, rfl⟩
        cases hp : parseI32 v with
        | some n => exact .present ((parseI32_iff _ _).1 hp)
        | none =>
          refine .ignored fun n hn => ?_
          rw [(parseI32_iff _ _).2 hn] at hp
          simp at hp
    · rw [give_ok] at h
      obtain ⟨h, rfl⟩ := h
      simp only [Res.ok.injEq] at h
      subst h
      exact .inl ⟨[], y :: r, rfl, .absent, rfl⟩

theorem parseId_complete {ts : List String} {id : Option I32} (h : Ident ts id) (b r : List String) (y : String)
    (hy : y ≠ "=") : parseId ⟨b, ts ++ y :: r⟩ = .ok (id, ⟨ts.reverse ++ b, y :: r⟩) := by
  unfold parseId
  cases h with
  | absent =>
    rw [List.nil_append, optionally_cons, if_neg hy]
    rfl
  | @present s n h =>
    simp only [List.cons_append, List.nil_append, optionally_cons, if_true, next_cons,
      (parseI32_iff _ _).2 h]
    rfl
  | @ignored s h =>
    have : parseI32 s = none := by
      cases hp : parseI32 s with
      | none => rfl
      | some n => exact absurd ((parseI32_iff _ _).1 hp) (h n)
    simp only [List.cons_append, List.nil_append, optionally_cons, if_true, next_cons, this]
    rfl

/-- The length of a fixed-length byte array, and with it the physical type. -/
theorem parseLength_sound {cm : CaseMaps} {ty : String} {k : I32} (hk : typeFromStr (cm.upper ty) = .ok k)
    {b r : List String} {t' : Tokenizer} {len : Option I32} (h : parseLength k ⟨b, r⟩ = .ok (len, t')) :
    ∃ ts r', r = ts ++ r' ∧ t' = ⟨ts.reverse ++ b, r'⟩ ∧
      ∀ p, PhysicalType.ofThrift k len = .ok p → Physical cm (ty :: ts) p := by
  unfold parseLength at h
  rcases (typeFromStr_iff _ _).1 hk with ⟨t, ht, rfl⟩ | ⟨hty, rfl⟩
  · obtain ⟨h7, ho⟩ := physicalWords_thrift ht
    rw [if_neg h7, give_ok] at h
    obtain ⟨h, rfl⟩ := h
    refine ⟨[], r, rfl, rfl, ?_⟩
    intro p hp
    rw [ho] at hp
    simp only [Res.ok.injEq] at hp
    subst hp
    exact .plain ht
  · rw [if_pos rfl, andThen_ok] at h
    obtain ⟨u, t1, h1, h⟩ := h
    rw [assertToken_ok] at h1
    obtain ⟨r1, rfl, rfl⟩ := h1
    rw [andThen_ok] at h
    obtain ⟨l, t2, h2, h⟩ := h
    obtain ⟨s, r2, rfl, hs, rfl⟩ := nextI32_ok.1 h2
    rw [andThen_ok] at h
    obtain ⟨u', t3, h3, h⟩ := h
    rw [assertToken_ok] at h3
    obtain ⟨r3, rfl, rfl⟩ := h3
    rw [give_ok] at h
    obtain ⟨h, rfl⟩ := h
    simp only [Res.ok.injEq] at h
    subst h
    refine ⟨["(", s, ")"], r3, rfl, rfl, ?_⟩
    intro p hp
    unfold PhysicalType.ofThrift at hp
    simp only [show (7#32 : I32) ≠ 0#32 by decide, show (7#32 : I32) ≠ 1#32 by decide,
      show (7#32 : I32) ≠ 2#32 by decide, show (7#32 : I32) ≠ 3#32 by decide, show (7#32 : I32) ≠ 4#32 by decide,
      show (7#32 : I32) ≠ 5#32 by decide, show (7#32 : I32) ≠ 6#32 by decide, if_false, if_true, Res.ofOption,
      Res.ok_bind, Res.bind_eq_ok] at hp
    obtain ⟨n, hn, hp⟩ := hp
    simp only [Res.ok.injEq] at hp
    subst hp
    exact .fixed hty ((natural_iff _ _).2 ⟨l, (parseI32_iff _ _).2 hs, hn⟩)

/-- Physical types are read with their thrift code and length. -/
theorem physical_complete {cm : CaseMaps} {ty : List String} {p : PhysicalType} (h : Physical cm ty p) :
    ∃ s ts k len, ty = s :: ts ∧ cm.upper s ≠ "GROUP" ∧ typeFromStr (cm.upper s) = .ok k ∧
      PhysicalType.ofThrift k len = .ok p ∧
      ∀ b r, parseLength k ⟨b, ts ++ r⟩ = .ok (len, ⟨ts.reverse ++ b, r⟩) := by
  cases h with
  | @plain s _ h =>
    obtain ⟨h7, ho⟩ := physicalWords_thrift h
    refine ⟨s, [], p.toThrift.1, none, rfl, ?_, (typeFromStr_iff _ _).2 (.inl ⟨p, h, rfl⟩), ho none, ?_⟩
    · intro hg
      rw [hg] at h
      simp [physicalWords] at h
    · intro b r
      unfold parseLength
      rw [if_neg h7]
      rfl
  | @fixed s l n hs hl =>
    obtain ⟨w, h1, h2⟩ := (natural_iff _ _).1 hl
    refine ⟨s, ["(", l, ")"], 7#32, some w, rfl, by rw [hs]; decide, (typeFromStr_iff _ _).2 (.inr ⟨hs, rfl⟩), ?_, ?_⟩
    · unfold PhysicalType.ofThrift
      simp [Res.ofOption, h2]
    · intro b r
      unfold parseLength
      rw [if_pos rfl, List.cons_append, andThen_of_ok (assertToken_eq _ _ _), List.cons_append,
        andThen_of_ok (nextI32_ok.2 ⟨l, _, rfl, (parseI32_iff _ _).1 h1, rfl⟩), List.cons_append,
        andThen_of_ok (assertToken_eq _ _ _), give_of_ok]
      rfl

theorem tryFromPrimitive_form {name : String} {p : PhysicalType} {rep : Repetition}
    {c : Option PrimitiveConvertedType} {l : Option PrimitiveLogicalType} {id : Option I32} {t : ParquetType}
    (h : ParquetType.tryFromPrimitive name p rep c l id = .ok t) :
    t = .primitive ⟨⟨name, rep, id⟩, l, c, p⟩ := by
  unfold ParquetType.tryFromPrimitive at h
  simp only [Res.bind_eq_ok] at h
  obtain ⟨_, _, _, _, h⟩ := h
  simpa using h.symm

/-! ### soundness -/

/-- Tokens were read that satisfy `P`, but for some missing at the end. -/
def Reads (r : List String) (t' : Tokenizer) (P : List String → Prop) : Prop :=
  ∃ body miss, r ++ miss = body ++ t'.rest ∧ (miss = [] ∨ t'.rest = []) ∧ Missing r miss ∧ P body

theorem missing_nil (r : List String) : Missing r [] := ⟨0, .inl rfl⟩

theorem missing_cons {r miss : List String} (x : String) (h : Missing r miss) : Missing (x :: r) miss := by
  obtain ⟨n, rfl | ⟨y, hy, hl, rfl⟩⟩ := h
  · exact ⟨n, .inl rfl⟩
  · refine ⟨n, .inr ⟨y, hy, ?_, rfl⟩⟩
    cases r with
    | nil => simp at hl
    | cons z r => rw [List.getLast?_cons_cons]; exact hl

theorem missing_append {r miss : List String} (x : List String) (h : Missing r miss) : Missing (x ++ r) miss := by
  induction x with
  | nil => exact h
  | cons y x ih => exact missing_cons y ih

theorem missing_snoc {r miss : List String} (h : Missing r miss) : Missing r (miss ++ ["}"]) := by
  obtain ⟨n, rfl | ⟨y, hy, hl, rfl⟩⟩ := h
  · exact ⟨n + 1, .inl (by rw [List.replicate_succ'])⟩
  · exact ⟨n + 1, .inr ⟨y, hy, hl, by rw [List.replicate_succ', List.cons_append]⟩⟩

theorem primitive_sound {cm : CaseMaps} (hcm : LawfulCase cm) {rt ty : String} {rep : Repetition} {k : I32}
    (hr : (cm.upper rt, rep) ∈ repetitionWords) (hk : typeFromStr (cm.upper ty) = .ok k)
    {b r : List String} {t' : Tokenizer} {f : ParquetType} (h : addPrimitiveType cm rep k ⟨b, r⟩ = .ok (f, t')) :
    Reads r t' fun body => FieldTokens cm (rt :: ty :: body) f := by
  unfold addPrimitiveType at h
  rw [andThen_ok] at h
  obtain ⟨len, t1, h1, h⟩ := h
  obtain ⟨ls, r1, rfl, rfl, hphys⟩ := parseLength_sound hk h1
  rw [andThen_ok] at h
  obtain ⟨name, t2, h2, h⟩ := h
  obtain ⟨r2, rfl, rfl⟩ := nextOrErr_ok.1 h2
  rw [andThen_ok] at h
  obtain ⟨cl, t3, h3, h⟩ := h
  rw [andThen_ok] at h
  obtain ⟨id, t4, h4, h⟩ := h
  rw [andThen_ok] at h
  obtain ⟨u, t5, h5, h⟩ := h
  rw [give_ok] at h
  obtain ⟨h, rfl⟩ := h
  rw [Res.bind_eq_ok] at h
  obtain ⟨p, hp, hf⟩ := h
  have hp := hphys p hp
  have hform := tryFromPrimitive_form hf
  subst hform
  rcases annotated_sound hcm h3 with ⟨an, r3, rfl, han, rfl, hlast⟩ | ⟨rfl, rfl, rfl⟩
  · -- the token before what follows the annotation
    obtain ⟨x, b3, hb3, hx⟩ : ∃ x b3, an.reverse ++ name :: (ls.reverse ++ b) = x :: b3 ∧ (r3 = [] → x = ")") := by
      rcases hlast with ⟨rfl, h⟩ | ⟨ts', rfl⟩
      · exact ⟨name, _, rfl, fun hc => absurd hc h⟩
      · exact ⟨")", ts'.reverse ++ name :: (ls.reverse ++ b), by simp, fun _ => rfl⟩
    rw [hb3] at h4
    rcases parseId_sound h4 with ⟨idt, r4, rfl, hid, rfl⟩ | ⟨rfl, rfl, rfl⟩ | hnil
    · rw [assertToken_ok] at h5
      obtain ⟨r5, rfl, rfl⟩ := h5
      refine ⟨ls ++ [name] ++ an ++ idt ++ [";"], [], by simp, .inl rfl, missing_nil _, ?_⟩
      have := FieldTokens.primitive hr hp han hid hf
      simpa using this
    · have := hx rfl
      subst this
      rw [assertToken_ok] at h5
      obtain ⟨r5, h5, _⟩ := h5
      simp at h5
    · obtain ⟨b4, r4⟩ := t4
      simp only at hnil
      subst hnil
      simp at h5
  · -- the text ends after the name
    unfold parseId at h4
    rw [optionally_cons] at h4
    split at h4
    · simp only [next_nil, Res.ok.injEq, Prod.mk.injEq] at h4
      rw [← h4.2, assertToken_nil] at h5
      simp at h5
    · rw [give_ok] at h4
      obtain ⟨h4, rfl⟩ := h4
      simp only [Res.ok.injEq] at h4
      subst h4
      rw [assertToken_ok] at h5
      obtain ⟨r5, h5, rfl⟩ := h5
      simp only [List.cons.injEq] at h5
      obtain ⟨rfl, rfl⟩ := h5
      refine ⟨ls ++ [";", ";"], [";"], by simp, .inr rfl, ⟨0, .inr ⟨";", .inl rfl, by simp, rfl⟩⟩, ?_⟩
      have := FieldTokens.primitive hr hp .absent .absent hf
      simpa using this

/-! ### soundness of the recursion -/

theorem after_ok {α β : Type} {p : Parse α} {f : α → Steps β} {t : Tokenizer} {x : β × Tokenizer} :
    Steps.after p f t = some (.ok x) ↔ ∃ a t', p t = .ok (a, t') ∧ f a t' = some (.ok x) := by
  unfold Steps.after
  constructor
  · intro h
    split at h
    · rename_i a t' hp
      exact ⟨a, t', hp, h⟩
    · simp at h
    · simp at h
  · rintro ⟨a, t', h1, h2⟩
    rw [h1]
    exact h2

theorem after_of_ok {α β : Type} {p : Parse α} {f : α → Steps β} {t t' : Tokenizer} {a : α}
    (h : p t = .ok (a, t')) : Steps.after p f t = f a t' := by
  unfold Steps.after; rw [h]

/-- What the four recursive methods read. -/
theorem recursion_sound {cm : CaseMaps} (hcm : LawfulCase cm) (fuel : Nat) :
    (∀ b r fs t', parseChildTypes cm fuel ⟨b, r⟩ = some (.ok (fs, t')) →
      Reads r t' fun body => ∃ inner, body = "{" :: inner ++ ["}"] ∧ FieldsTokens cm inner fs) ∧
    (∀ b r fs t', childLoop cm fuel ⟨b, r⟩ = some (.ok (fs, t')) →
      Reads r t' fun body => ∃ inner, body = inner ++ ["}"] ∧ FieldsTokens cm inner fs) ∧
    (∀ b r f t', addType cm fuel ⟨b, r⟩ = some (.ok (f, t')) →
      Reads r t' fun body => FieldTokens cm body f) ∧
    (∀ rep b r f t', addGroupType cm fuel rep ⟨b, r⟩ = some (.ok (f, t')) →
      ∀ rt g, (cm.upper rt, rep) ∈ repetitionWords → cm.upper g = "GROUP" →
      Reads r t' fun body => FieldTokens cm (rt :: g :: body) f) := by
  induction fuel with
  | zero =>
    refine ⟨?_, ?_, ?_, ?_⟩
    · intro b r fs t' h; simp [parseChildTypes] at h
    · intro b r fs t' h; simp [childLoop] at h
    · intro b r fs t' h; simp [addType] at h
    · intro rep b r fs t' h; simp [addGroupType] at h
  | succ fuel ih =>
    obtain ⟨ihP, ihL, ihA, ihG⟩ := ih
    refine ⟨?_, ?_, ?_, ?_⟩
    · intro b r fs t' h
      rw [parseChildTypes, after_ok] at h
      obtain ⟨u, t1, h1, h⟩ := h
      rw [assertToken_ok] at h1
      obtain ⟨r1, rfl, rfl⟩ := h1
      obtain ⟨body, miss, h2, h3, h4, inner, rfl, h5⟩ := ihL _ _ _ _ h
      exact ⟨"{" :: (inner ++ ["}"]), miss, by rw [List.cons_append, h2, List.cons_append], h3,
        missing_cons _ h4, inner, rfl, h5⟩
    · intro b r fs t' h
      rw [childLoop] at h
      cases r with
      | nil =>
        simp only [next_nil, Option.some.injEq, Res.ok.injEq, Prod.mk.injEq] at h
        obtain ⟨rfl, rfl⟩ := h
        exact ⟨["}"], ["}"], by simp, .inr rfl, ⟨1, .inl rfl⟩, [], rfl, .nil⟩
      | cons y r =>
        simp only [next_cons] at h
        split at h
        · rename_i hy
          subst hy
          simp only [Option.some.injEq, Res.ok.injEq, Prod.mk.injEq] at h
          obtain ⟨rfl, rfl⟩ := h
          exact ⟨["}"], [], by simp, .inl rfl, missing_nil _, [], rfl, .nil⟩
        · simp only [backtrack_cons] at h
          split at h
          · simp at h
          · simp at h
          · simp at h
          · rename_i f t3 hA
            obtain ⟨body, miss, h1, h2, h3, h4⟩ := ihA _ _ _ _ hA
            split at h
            · rename_i fs' t4 hL
              simp only [Option.some.injEq, Res.ok.injEq, Prod.mk.injEq] at h
              obtain ⟨rfl, rfl⟩ := h
              obtain ⟨b3, r3⟩ := t3
              obtain ⟨body2, miss2, g1, g2, g3, inner, rfl, g4⟩ := ihL _ _ _ _ hL
              simp only at h1 h2 h3 g1 g2 g3
              rcases h2 with rfl | rfl
              · rw [List.append_nil] at h1
                refine ⟨body ++ (inner ++ ["}"]), miss2, by rw [h1, List.append_assoc, g1]; simp, g2,
                  by rw [h1]; exact missing_append _ g3, body ++ inner, by simp, .cons h4 g4⟩
              · -- the text has ended
                cases hL0 : fuel with
                | zero => rw [hL0] at hL; simp [childLoop] at hL
                | succ n =>
                  rw [hL0, childLoop] at hL
                  simp only [next_nil, Option.some.injEq, Res.ok.injEq, Prod.mk.injEq] at hL
                  obtain ⟨rfl, rfl⟩ := hL
                  simp only [List.append_nil] at h1
                  refine ⟨body ++ ["}"], miss ++ ["}"], by rw [← List.append_assoc, h1]; simp, .inr rfl,
                    missing_snoc h3, body, rfl, ?_⟩
                  have := FieldsTokens.cons h4 (.nil (cm := cm))
                  simpa using this
            · rename_i hne
              exact absurd h (by
                intro hc
                exact hne _ _ hc)
    · intro b r f t' h
      rw [addType, after_ok] at h
      obtain ⟨rep, t1, h1, h⟩ := h
      rw [andThen_ok] at h1
      obtain ⟨rt, t0, h0, h1⟩ := h1
      obtain ⟨r1, rfl, rfl⟩ := nextOrErr_ok.1 h0
      rw [give_ok] at h1
      obtain ⟨h1, rfl⟩ := h1
      have hrep := (repetitionFromStr_iff _ _).1 h1
      rw [after_ok] at h
      obtain ⟨ty, t2, h2, h⟩ := h
      obtain ⟨r2, rfl, rfl⟩ := nextOrErr_ok.1 h2
      have key : (Reads r2 t' fun body => FieldTokens cm (rt :: ty :: body) f) →
          Reads (rt :: ty :: r2) t' fun body => FieldTokens cm body f := by
        rintro ⟨body, miss, g1, g2, g3, g4⟩
        exact ⟨rt :: ty :: body, miss, by simp [g1], g2, missing_cons _ (missing_cons _ g3), g4⟩
      split at h
      · rename_i hg
        exact key (ihG _ _ _ _ _ h rt ty hrep hg)
      · rw [after_ok] at h
        obtain ⟨p, t3, h3, h⟩ := h
        simp only [Option.some.injEq, Res.ok.injEq, Prod.mk.injEq] at h
        obtain ⟨rfl, rfl⟩ := h
        rw [andThen_ok] at h3
        obtain ⟨k, t4, h4, h3⟩ := h3
        rw [give_ok] at h4
        obtain ⟨h4, rfl⟩ := h4
        exact key (primitive_sound hcm hrep h4 h3)
    · intro rep b r f t' h rt g hrep hg
      rw [addGroupType, after_ok] at h
      obtain ⟨name, t1, h1, h⟩ := h
      obtain ⟨r1, rfl, rfl⟩ := nextOrErr_ok.1 h1
      rw [after_ok] at h
      obtain ⟨c, t2, h2, h⟩ := h
      rw [after_ok] at h
      obtain ⟨id, t3, h3, h⟩ := h
      split at h
      · simp at h
      · simp at h
      · simp at h
      rename_i fields t4 hP
      simp only [Option.some.injEq, Res.ok.injEq, Prod.mk.injEq] at h
      obtain ⟨rfl, rfl⟩ := h
      rcases groupAnnotated_sound h2 with ⟨an, r3, rfl, han, rfl, hlast⟩ | ⟨rfl, rfl, rfl⟩
      · obtain ⟨x, b3, hb3, hx⟩ : ∃ x b3, an.reverse ++ name :: b = x :: b3 ∧ (r3 = [] → x = ")") := by
          rcases hlast with ⟨rfl, h⟩ | ⟨ts', rfl⟩
          · exact ⟨name, _, rfl, fun hc => absurd hc h⟩
          · exact ⟨")", ts'.reverse ++ name :: b, by simp, fun _ => rfl⟩
        rw [hb3] at h3
        have noOpen : ∀ b' : List String, (∀ r', ([")"] : List String) ≠ "{" :: r') →
            ∀ r0, (r0 = [] ∨ r0 = [")"]) → parseChildTypes cm fuel ⟨b', r0⟩ ≠ some (.ok (fields, t4)) := by
          intro b' _ r0 hr0 hc
          obtain ⟨body, miss, h1, h2, h3, inner, rfl, h4⟩ := ihP _ _ _ _ hc
          cases fuel with
          | zero => simp [parseChildTypes] at hc
          | succ n =>
            rw [parseChildTypes, after_ok] at hc
            obtain ⟨u, t5, h5, _⟩ := hc
            rw [assertToken_ok] at h5
            obtain ⟨r', h5, _⟩ := h5
            rcases hr0 with rfl | rfl <;> simp at h5
        rcases parseId_sound h3 with ⟨idt, r4, rfl, hid, rfl⟩ | ⟨rfl, rfl, rfl⟩ | hnil
        · obtain ⟨body, miss, g1, g2, g3, inner, rfl, g4⟩ := ihP _ _ _ _ hP
          refine ⟨[name] ++ an ++ idt ++ ["{"] ++ inner ++ ["}"], miss, ?_, g2, ?_, ?_⟩
          · have := congrArg (fun z => [name] ++ an ++ idt ++ z) g1
            simpa using this
          · have := missing_append ([name] ++ an ++ idt) g3
            simpa using this
          · have := FieldTokens.group hrep hg han hid g4 (name := name)
            simpa using this
        · have := hx rfl
          subst this
          exact absurd hP (noOpen _ (by simp) _ (.inr rfl))
        · obtain ⟨b4, r4⟩ := t3
          simp only at hnil
          subst hnil
          exact absurd hP (noOpen _ (by simp) _ (.inl rfl))
      · -- the text ends after the name
        unfold parseId at h3
        rw [optionally_cons] at h3
        split at h3
        · simp only [next_nil, Res.ok.injEq, Prod.mk.injEq] at h3
          rw [← h3.2] at hP
          obtain ⟨body, miss, g1, g2, g3, inner, rfl, g4⟩ := ihP _ _ _ _ hP
          cases fuel with
          | zero => simp [parseChildTypes] at hP
          | succ n =>
            rw [parseChildTypes, after_ok] at hP
            obtain ⟨u, t5, h5, _⟩ := hP
            simp at h5
        · rw [give_ok] at h3
          obtain ⟨h3, rfl⟩ := h3
          simp only [Res.ok.injEq] at h3
          subst h3
          cases fuel with
          | zero => simp [parseChildTypes] at hP
          | succ n =>
            rw [parseChildTypes, after_ok] at hP
            obtain ⟨u, t5, h5, hL⟩ := hP
            rw [assertToken_ok] at h5
            obtain ⟨r5, h5, rfl⟩ := h5
            simp only [List.cons.injEq] at h5
            obtain ⟨rfl, rfl⟩ := h5
            cases n with
            | zero => simp [childLoop] at hL
            | succ n =>
              rw [childLoop] at hL
              simp only [next_nil, Option.some.injEq, Res.ok.injEq, Prod.mk.injEq] at hL
              obtain ⟨rfl, rfl⟩ := hL
              refine ⟨["{", "{", "}"], ["{", "}"], by simp, .inr rfl, ⟨1, .inr ⟨"{", .inr rfl, by simp, rfl⟩⟩, ?_⟩
              have := FieldTokens.group hrep hg .absent .absent (.nil (cm := cm)) (name := "{")
              simpa using this

/-! ### more steps change nothing -/

theorem fuel_mono {cm : CaseMaps} (fuel : Nat) :
    (∀ t x, parseChildTypes cm fuel t = some x → parseChildTypes cm (fuel + 1) t = some x) ∧
    (∀ t x, childLoop cm fuel t = some x → childLoop cm (fuel + 1) t = some x) ∧
    (∀ t x, addType cm fuel t = some x → addType cm (fuel + 1) t = some x) ∧
    (∀ rep t x, addGroupType cm fuel rep t = some x → addGroupType cm (fuel + 1) rep t = some x) := by
  have after_mono : ∀ {α β : Type} {p : Parse α} {f g : α → Steps β} {t : Tokenizer} {x : Res (β × Tokenizer)},
      (∀ a t x, f a t = some x → g a t = some x) → Steps.after p f t = some x → Steps.after p g t = some x := by
    intro α β p f g t x hfg h
    unfold Steps.after at h ⊢
    split at h
    · rename_i a t' hp
      exact hfg _ _ _ h
    · exact h
    · exact h
  induction fuel with
  | zero =>
    refine ⟨?_, ?_, ?_, ?_⟩
    · intro t x h; simp [parseChildTypes] at h
    · intro t x h; simp [childLoop] at h
    · intro t x h; simp [addType] at h
    · intro rep t x h; simp [addGroupType] at h
  | succ fuel ih =>
    obtain ⟨ihP, ihL, ihA, ihG⟩ := ih
    refine ⟨?_, ?_, ?_, ?_⟩
    · intro t x h
      rw [parseChildTypes] at h ⊢
      exact after_mono (fun _ t x h => ihL t x h) h
    · intro t x h
      rw [childLoop] at h ⊢
      split at h
      · exact h
      · rename_i value t' _
        split at h
        · rename_i hv
          rw [if_pos hv]
          exact h
        · rename_i hv
          rw [if_neg hv]
          split at h
          · exact h
          · exact h
          · rename_i t'' _
            cases hA : addType cm fuel t'' with
            | none => rw [hA] at h; simp at h
            | some y =>
              rw [ihA _ _ hA]
              rw [hA] at h
              cases y with
              | err e => exact h
              | panic => exact h
              | ok ft =>
                obtain ⟨f, t3⟩ := ft
                simp only at h ⊢
                cases hL : childLoop cm fuel t3 with
                | none => rw [hL] at h; simp at h
                | some z =>
                  rw [hL] at h
                  rw [ihL _ _ hL]
                  exact h
    · intro t x h
      rw [addType] at h ⊢
      refine after_mono ?_ h
      intro rep t x h
      refine after_mono ?_ h
      intro ty t x h
      split at h
      · rename_i hg
        rw [if_pos hg]
        exact ihG _ _ _ h
      · rename_i hg
        rw [if_neg hg]
        exact h
    · intro rep t x h
      rw [addGroupType] at h ⊢
      refine after_mono ?_ h
      intro name t x h
      refine after_mono ?_ h
      intro c t x h
      refine after_mono ?_ h
      intro id t x h
      cases hP : parseChildTypes cm fuel t with
      | none => rw [hP] at h; simp at h
      | some y =>
        rw [ihP _ _ hP]
        rw [hP] at h
        exact h

theorem message_mono {cm : CaseMaps} {fuel : Nat} {t : Tokenizer} {x : Res ParquetType}
    (h : parseMessageType cm fuel t = some x) : parseMessageType cm (fuel + 1) t = some x := by
  unfold parseMessageType at h ⊢
  split at h
  · rename_i value t' _
    split at h
    · rename_i hv
      rw [if_pos hv]
      unfold Steps.after at h ⊢
      cases hn : nextOrErr t' with
      | err e => rw [hn] at h; exact h
      | panic => rw [hn] at h; exact h
      | ok nt =>
        obtain ⟨name, t''⟩ := nt
        rw [hn] at h
        simp only at h ⊢
        cases hP : parseChildTypes cm fuel t'' with
        | none => rw [hP] at h; simp at h
        | some y =>
          rw [hP] at h
          rw [(fuel_mono fuel).1 _ _ hP]
          exact h
    · rename_i hv
      rw [if_neg hv]
      exact h
  · exact h

theorem message_mono_le {cm : CaseMaps} {fuel fuel' : Nat} (hle : fuel ≤ fuel') {t : Tokenizer}
    {x : Res ParquetType} (h : parseMessageType cm fuel t = some x) : parseMessageType cm fuel' t = some x := by
  induction hle with
  | refl => exact h
  | step _ ih => exact message_mono ih

/-! ### the number of steps suffices -/

theorem parseId_length {b r : List String} {t' : Tokenizer} {id : Option I32} (hb : b ≠ [] ∨ r ≠ [])
    (h : parseId ⟨b, r⟩ = .ok (id, t')) : t'.rest.length ≤ max r.length 1 := by
  cases r with
  | nil =>
    cases b with
    | nil => simp at hb
    | cons x b =>
      unfold parseId at h
      rw [optionally_nil, give_ok] at h
      obtain ⟨_, rfl⟩ := h
      simp
  | cons y r =>
    unfold parseId at h
    rw [optionally_cons] at h
    split at h
    · cases r with
      | nil =>
        simp only [next_nil, Res.ok.injEq, Prod.mk.injEq] at h
        rw [← h.2]
        simp
      | cons v r =>
        simp only [next_cons, Res.ok.injEq, Prod.mk.injEq] at h
        rw [← h.2]
        simp
        omega
    · rw [give_ok] at h
      obtain ⟨_, rfl⟩ := h
      simp

theorem groupAnnotation_max {cm : CaseMaps} {x : String} {b r : List String} {t' : Tokenizer}
    {c : Option GroupConvertedType} (h : parseGroupAnnotation cm ⟨x :: b, r⟩ = .ok (c, t')) :
    t'.rest.length ≤ max r.length 1 ∧ (t'.before ≠ [] ∨ t'.rest ≠ []) := by
  rcases groupAnnotated_sound h with ⟨ts, r', rfl, _, rfl, _⟩ | ⟨rfl, _, rfl⟩
  · simp
  · simp

theorem after_ne_none {α β : Type} {p : Parse α} {f : α → Steps β} {t : Tokenizer}
    (h : ∀ a t', p t = .ok (a, t') → f a t' ≠ none) : Steps.after p f t ≠ none := by
  unfold Steps.after
  split
  · rename_i a t' hp
    exact h a t' hp
  · simp
  · simp

theorem field_nonempty {cm : CaseMaps} {ts : List String} {f : ParquetType} (h : FieldTokens cm ts f) : ts ≠ [] := by
  cases h <;> simp

theorem fuel_suffices {cm : CaseMaps} (hcm : LawfulCase cm) (fuel : Nat) :
    (∀ b r, 2 * r.length ≤ fuel → 1 ≤ fuel → parseChildTypes cm fuel ⟨b, r⟩ ≠ none) ∧
    (∀ b r, 2 * r.length + 1 ≤ fuel → childLoop cm fuel ⟨b, r⟩ ≠ none) ∧
    (∀ b r, 2 * r.length ≤ fuel → 1 ≤ fuel → addType cm fuel ⟨b, r⟩ ≠ none) ∧
    (∀ rep b r, 2 * r.length + 3 ≤ fuel → addGroupType cm fuel rep ⟨b, r⟩ ≠ none) := by
  induction fuel with
  | zero =>
    refine ⟨?_, ?_, ?_, ?_⟩
    · intro b r _ h; omega
    · intro b r h; omega
    · intro b r _ h; omega
    · intro rep b r h; omega
  | succ fuel ih =>
    obtain ⟨ihP, ihL, ihA, ihG⟩ := ih
    refine ⟨?_, ?_, ?_, ?_⟩
    · intro b r h _
      rw [parseChildTypes]
      apply after_ne_none
      intro u t' h1
      rw [assertToken_ok] at h1
      obtain ⟨r', rfl, rfl⟩ := h1
      simp only [List.length_cons] at h
      exact ihL _ _ (by omega)
    · intro b r h
      rw [childLoop]
      cases r with
      | nil => simp
      | cons y r =>
        simp only [List.length_cons] at h
        simp only [next_cons, backtrack_cons]
        split
        · simp
        · have hA := ihA b (y :: r) (by simp only [List.length_cons]; omega) (by omega)
          cases hAe : addType cm fuel ⟨b, y :: r⟩ with
          | none => exact absurd hAe hA
          | some z =>
            cases z with
            | err e => simp
            | panic => simp
            | ok ft =>
              obtain ⟨f, t3⟩ := ft
              simp only
              obtain ⟨body, miss, h1, h2, _, h4⟩ := (recursion_sound hcm fuel).2.2.1 _ _ _ _ hAe
              obtain ⟨b3, r3⟩ := t3
              simp only at h1 h2
              have hlt : r3.length ≤ r.length := by
                rcases h2 with rfl | rfl
                · have h5 := congrArg List.length h1
                  have := List.length_pos_of_ne_nil (field_nonempty h4)
                  simp only [List.append_nil, List.length_cons, List.length_append] at h5
                  omega
                · simp
              have hL := ihL b3 r3 (by omega)
              split
              · simp
              · exact hL
    · intro b r h h1
      rw [addType]
      apply after_ne_none
      intro rep t1 h2
      rw [andThen_ok] at h2
      obtain ⟨rt, t0, h3, h2⟩ := h2
      obtain ⟨r1, rfl, rfl⟩ := nextOrErr_ok.1 h3
      rw [give_ok] at h2
      obtain ⟨_, rfl⟩ := h2
      apply after_ne_none
      intro ty t2 h4
      obtain ⟨r2, rfl, rfl⟩ := nextOrErr_ok.1 h4
      simp only [List.length_cons] at h
      split
      · exact ihG _ _ _ (by omega)
      · apply after_ne_none
        intro p t3 _
        simp
    · intro rep b r h
      rw [addGroupType]
      apply after_ne_none
      intro name t1 h1
      obtain ⟨r1, rfl, rfl⟩ := nextOrErr_ok.1 h1
      apply after_ne_none
      intro c t2 h2
      obtain ⟨g1, g2⟩ := groupAnnotation_max h2
      apply after_ne_none
      intro id t3 h3
      obtain ⟨b2, r2⟩ := t2
      have g3 := parseId_length g2 h3
      obtain ⟨b3, r3⟩ := t3
      simp only [List.length_cons] at h g1 g3
      have hP := ihP b3 r3 (by omega) (by omega)
      split
      · rename_i hn; exact absurd hn hP
      · simp
      · simp
      · simp

/-! ### completeness -/

theorem rest_nonempty {cm : CaseMaps} (hcm : LawfulCase cm) {rep : Repetition} : (cm.upper "}", rep) ∉ repetitionWords := by
  rw [upper_brace hcm]
  cases rep <;> decide

theorem field_head {cm : CaseMaps} (hcm : LawfulCase cm) {ts : List String} {f : ParquetType}
    (h : FieldTokens cm ts f) : ∃ x r, ts = x :: r ∧ x ≠ "}" := by
  cases h with
  | @primitive r ty name an idt rep p c l id hr hp ha hi hf =>
    refine ⟨r, _, by simp only [List.cons_append, List.nil_append]; rfl, ?_⟩
    rintro rfl
    exact rest_nonempty hcm hr
  | @group r g name an idt body rep c id fields hr hg ha hi hb =>
    refine ⟨r, _, by simp only [List.cons_append, List.nil_append]; rfl, ?_⟩
    rintro rfl
    exact rest_nonempty hcm hr

theorem ident_head {ts : List String} {id : Option I32} (h : Ident ts id) (y : String) (hy : y ≠ "(") (r : List String) :
    ∃ z r', ts ++ y :: r = z :: r' ∧ z ≠ "(" := by
  cases h with
  | absent => exact ⟨y, r, rfl, hy⟩
  | present _ => exact ⟨"=", _, rfl, by decide⟩
  | ignored _ => exact ⟨"=", _, rfl, by decide⟩

theorem primitive_complete {cm : CaseMaps} (hcm : LawfulCase cm) {ty : List String} {name : String}
    {an idt : List String} {rep : Repetition} {p : PhysicalType} {c : Option PrimitiveConvertedType}
    {l : Option PrimitiveLogicalType} {id : Option I32} {f : ParquetType}
    (hp : Physical cm ty p) (ha : Annotated cm an c l) (hi : Ident idt id)
    (hf : ParquetType.tryFromPrimitive name p rep c l id = .ok f) :
    ∃ s ts k, ty = s :: ts ∧ cm.upper s ≠ "GROUP" ∧ typeFromStr (cm.upper s) = .ok k ∧
      ∀ b r, addPrimitiveType cm rep k ⟨b, ts ++ [name] ++ an ++ idt ++ [";"] ++ r⟩ =
        .ok (f, ⟨(ts ++ [name] ++ an ++ idt ++ [";"]).reverse ++ b, r⟩) := by
  obtain ⟨s, ts, k, len, rfl, hg, hk, ho, hl⟩ := physical_complete hp
  refine ⟨s, ts, k, rfl, hg, hk, ?_⟩
  intro b r
  unfold addPrimitiveType
  simp only [List.append_assoc]
  rw [andThen_of_ok (hl _ _), List.cons_append, andThen_of_ok (nextOrErr_cons _ _ _), List.nil_append]
  obtain ⟨z, r', hz, hne⟩ := ident_head hi ";" (by decide) r
  rw [show idt ++ ([";"] ++ r) = z :: r' from hz, andThen_of_ok (annotated_complete hcm ha _ _ _ hne), ← hz,
    andThen_of_ok (parseId_complete hi _ _ _ (by decide)), andThen_of_ok (assertToken_eq _ _ _), give_ok]
  refine ⟨?_, by simp⟩
  rw [ho]
  exact hf

/-- What the parser does with the tokens of a field, and with a beginning of them that lacks closing braces
only. -/
def FieldReads (cm : CaseMaps) (ts : List String) (f : ParquetType) : Prop :=
  ∃ N, ∀ fuel, N ≤ fuel → ∀ b,
    (∀ r, addType cm fuel ⟨b, ts ++ r⟩ = some (.ok (f, ⟨ts.reverse ++ b, r⟩))) ∧
    (∀ n cut, 0 < n → ts = cut ++ List.replicate n "}" →
      addType cm fuel ⟨b, cut⟩ = some (.ok (f, ⟨cut.reverse ++ b, []⟩)))

/-- The same with the tokens of several fields. -/
def FieldsRead (cm : CaseMaps) (ts : List String) (fs : List ParquetType) : Prop :=
  ∃ N, ∀ fuel, N ≤ fuel → ∀ b,
    (∀ r, childLoop cm fuel ⟨b, ts ++ "}" :: r⟩ = some (.ok (fs, ⟨"}" :: (ts.reverse ++ b), r⟩))) ∧
    (∀ n cut, 0 < n → ts ++ ["}"] = cut ++ List.replicate n "}" →
      childLoop cm fuel ⟨b, cut⟩ = some (.ok (fs, ⟨cut.reverse ++ b, []⟩)))

theorem replicate_prefix {n : Nat} {as bs : List String} (h : List.replicate n "}" = as ++ bs) :
    as = List.replicate as.length "}" ∧ bs = List.replicate bs.length "}" := by
  have := List.eq_replicate_iff.1 h.symm
  refine ⟨List.eq_replicate_iff.2 ⟨rfl, fun b hb => this.2 b (by simp [hb])⟩,
    List.eq_replicate_iff.2 ⟨rfl, fun b hb => this.2 b (by simp [hb])⟩⟩

theorem reads_primitive {cm : CaseMaps} (hcm : LawfulCase cm) {r : String} {ty : List String} {name : String}
    {an idt : List String} {rep : Repetition} {p : PhysicalType} {c : Option PrimitiveConvertedType}
    {l : Option PrimitiveLogicalType} {id : Option I32} {f : ParquetType}
    (hr : (cm.upper r, rep) ∈ repetitionWords)
    (hp : Physical cm ty p) (ha : Annotated cm an c l) (hi : Ident idt id)
    (hf : ParquetType.tryFromPrimitive name p rep c l id = .ok f) :
    FieldReads cm ([r] ++ ty ++ [name] ++ an ++ idt ++ [";"]) f := by
  obtain ⟨s, ts, k, rfl, hg, hk, hl⟩ := primitive_complete hcm hp ha hi hf
  refine ⟨1, fun fuel hN b => ⟨fun rest => ?_, fun n cut hn h => ?_⟩⟩
  · obtain ⟨m, rfl⟩ : ∃ m, fuel = m + 1 := ⟨fuel - 1, by omega⟩
    have hrep := (repetitionFromStr_iff _ _).2 hr
    simp only [List.cons_append, List.nil_append, addType]
    rw [after_of_ok (andThen_ok.2 ⟨_, _, nextOrErr_cons _ _ _, give_ok.2 ⟨hrep, rfl⟩⟩),
      after_of_ok (nextOrErr_cons _ _ _), if_neg hg,
      after_of_ok (andThen_ok.2 ⟨_, _, give_ok.2 ⟨hk, rfl⟩, by simpa using hl _ rest⟩)]
    simp
  · exfalso
    obtain ⟨m, rfl⟩ : ∃ m, n = m + 1 := ⟨n - 1, by omega⟩
    rw [List.replicate_succ', ← List.append_assoc] at h
    have := (List.append_inj' h rfl).2
    revert this
    decide

theorem reads_group {cm : CaseMaps} (hcm : LawfulCase cm) {r g name : String}
    {an idt body : List String} {rep : Repetition} {c : Option GroupConvertedType} {id : Option I32}
    {fields : List ParquetType}
    (hr : (cm.upper r, rep) ∈ repetitionWords) (hg : cm.upper g = "GROUP") (ha : GroupAnnotated cm an c)
    (hi : Ident idt id) (ih : FieldsRead cm body fields) :
    FieldReads cm ([r, g, name] ++ an ++ idt ++ ["{"] ++ body ++ ["}"]) (.group ⟨name, rep, id⟩ none c fields) := by
  obtain ⟨N, ih⟩ := ih
  have go : ∀ fuel, N + 3 ≤ fuel → ∀ b tail before' rest',
      childLoop cm (fuel - 3) ⟨"{" :: (idt.reverse ++ (an.reverse ++ (name :: g :: r :: b))), tail⟩ =
        some (.ok (fields, ⟨before', rest'⟩)) →
      addType cm fuel ⟨b, [r, g, name] ++ an ++ idt ++ ["{"] ++ tail⟩ =
        some (.ok (.group ⟨name, rep, id⟩ none c fields, ⟨before', rest'⟩)) := by
    intro fuel hN b tail before' rest' h
    obtain ⟨m, rfl⟩ : ∃ m, fuel = m + 3 := ⟨fuel - 3, by omega⟩
    have hrep := (repetitionFromStr_iff _ _).2 hr
    obtain ⟨z, r', hz, hne⟩ := ident_head hi "{" (by decide) tail
    have e1 := groupAnnotated_complete (cm := cm) ha (name :: g :: r :: b) r' z hne
    rw [← hz] at e1
    have e2 := parseId_complete hi (an.reverse ++ (name :: g :: r :: b)) tail "{" (by decide)
    simp only [List.cons_append, List.nil_append, List.append_assoc, addType]
    rw [after_of_ok (andThen_ok.2 ⟨_, _, nextOrErr_cons _ _ _, give_ok.2 ⟨hrep, rfl⟩⟩),
      after_of_ok (nextOrErr_cons _ _ _), if_pos hg, addGroupType, after_of_ok (nextOrErr_cons _ _ _),
      after_of_ok e1, after_of_ok e2, parseChildTypes, after_of_ok (assertToken_eq _ _ _)]
    simp only [Nat.add_sub_cancel] at h
    rw [h]
  refine ⟨N + 3, fun fuel hN b => ⟨fun rest => ?_, fun n cut hn h => ?_⟩⟩
  · have := go fuel hN b (body ++ "}" :: rest) _ _ ((ih (fuel - 3) (by omega) _).1 rest)
    simpa using this
  · have fin : ∀ cut', cut = [r, g, name] ++ an ++ idt ++ ["{"] ++ cut' →
        body ++ ["}"] = cut' ++ List.replicate n "}" →
        addType cm fuel ⟨b, cut⟩ = some (.ok (.group ⟨name, rep, id⟩ none c fields, ⟨cut.reverse ++ b, []⟩)) := by
      rintro cut' rfl h'
      have := go fuel hN b cut' _ _ ((ih (fuel - 3) (by omega) _).2 n cut' hn h')
      rw [this]
      simp
    rw [List.append_assoc, List.append_eq_append_iff] at h
    rcases h with ⟨a', h1, h2⟩ | ⟨c', h1, h2⟩
    · exact fin a' h1 h2
    · rcases List.eq_nil_or_concat c' with rfl | ⟨c'', x, rfl⟩
      · exact fin [] (by simpa using h1.symm) (by simpa using h2.symm)
      · exfalso
        have e := (replicate_prefix h2).1
        rw [List.concat_eq_append] at h1 e
        rw [← List.append_assoc] at h1
        have hx := (List.append_inj' h1 rfl).2
        simp only [List.cons.injEq, and_true] at hx
        have := (List.eq_replicate_iff.1 e).2 x (by simp)
        rw [← hx] at this
        revert this
        decide

theorem read_nil {cm : CaseMaps} : FieldsRead cm [] [] := by
  refine ⟨1, fun fuel hN b => ⟨fun rest => ?_, fun n cut hn h => ?_⟩⟩
  · obtain ⟨m, rfl⟩ : ∃ m, fuel = m + 1 := ⟨fuel - 1, by omega⟩
    simp [childLoop, next]
  · obtain ⟨m, rfl⟩ : ∃ m, fuel = m + 1 := ⟨fuel - 1, by omega⟩
    have hl := congrArg List.length h
    simp at hl
    have : cut = [] := by
      rw [← List.length_eq_zero_iff]; omega
    subst this
    simp [childLoop, next]

theorem childLoop_field {cm : CaseMaps} {fuel : Nat} {b r : List String} {x : String} (hx : x ≠ "}")
    {f : ParquetType} {t' : Tokenizer} (h : addType cm fuel ⟨b, x :: r⟩ = some (.ok (f, t')))
    {fs : List ParquetType} {t'' : Tokenizer} (h2 : childLoop cm fuel t' = some (.ok (fs, t''))) :
    childLoop cm (fuel + 1) ⟨b, x :: r⟩ = some (.ok (f :: fs, t'')) := by
  simp [childLoop, next, hx, backtrack, h, h2]

theorem read_cons {cm : CaseMaps} (hcm : LawfulCase cm) {ts rest : List String} {f : ParquetType}
    {fs : List ParquetType} (hf : FieldTokens cm ts f) (ih1 : FieldReads cm ts f) (ih2 : FieldsRead cm rest fs) :
    FieldsRead cm (ts ++ rest) (f :: fs) := by
  obtain ⟨N1, ih1⟩ := ih1
  obtain ⟨N2, ih2⟩ := ih2
  obtain ⟨x, more, rfl, hx⟩ := field_head hcm hf
  refine ⟨N1 + N2 + 1, fun fuel hN b => ?_⟩
  obtain ⟨m, rfl⟩ : ∃ m, fuel = m + 1 := ⟨fuel - 1, by omega⟩
  have i1 := ih1 m (by omega) b
  have i2 := ih2 m (by omega)
  refine ⟨fun r => ?_, fun n cut hn h => ?_⟩
  · have a := i1.1 (rest ++ "}" :: r)
    rw [List.cons_append] at a
    have := childLoop_field hx a ((i2 _).1 r)
    simpa using this
  · have whole : ∀ as, cut = x :: more ++ as → rest ++ ["}"] = as ++ List.replicate n "}" →
        childLoop cm (m + 1) ⟨b, cut⟩ = some (.ok (f :: fs, ⟨cut.reverse ++ b, []⟩)) := by
      rintro as rfl h'
      have a := i1.1 as
      rw [List.cons_append] at a
      have := childLoop_field hx a ((i2 _).2 n as hn h')
      simpa using this
    rw [List.append_assoc, List.append_eq_append_iff] at h
    rcases h with ⟨a', h1, h2⟩ | ⟨c', h1, h2⟩
    · exact whole a' h1 h2
    · by_cases hc : c' = []
      · subst hc
        exact whole [] (by simpa using h1.symm) (by simpa using h2.symm)
      · obtain ⟨e1, e2⟩ := replicate_prefix h2
        have hpos : 0 < c'.length := List.length_pos_iff.2 hc
        cases cut with
        | nil =>
          exfalso
          apply hx
          exact (List.eq_replicate_iff.1 e1).2 x (by rw [List.nil_append] at h1; rw [← h1]; simp)
        | cons y cut' =>
          have hy : y = x := by simpa using (List.cons.inj h1).1.symm
          subst hy
          have a := i1.2 c'.length (y :: cut') hpos (by rw [← e1]; exact h1)
          have b' := (i2 ((y :: cut').reverse ++ b)).2 (rest ++ ["}"]).length [] (by simp) (by
            rw [List.nil_append]; exact e2)
          have := childLoop_field hx a b'
          simpa using this

theorem field_complete {cm : CaseMaps} (hcm : LawfulCase cm) {ts : List String} {f : ParquetType}
    (h : FieldTokens cm ts f) : FieldReads cm ts f :=
  FieldTokens.rec (cm := cm) (motive_1 := fun ts f _ => FieldReads cm ts f)
    (motive_2 := fun ts fs _ => FieldsRead cm ts fs)
    (fun hr hp ha hi hf => reads_primitive hcm hr hp ha hi hf)
    (fun hr hg ha hi _ ih => reads_group hcm hr hg ha hi ih)
    read_nil (fun hf _ ih1 ih2 => read_cons hcm hf ih1 ih2) h

theorem fields_complete {cm : CaseMaps} (hcm : LawfulCase cm) {ts : List String} {fs : List ParquetType}
    (h : FieldsTokens cm ts fs) : FieldsRead cm ts fs :=
  FieldsTokens.rec (cm := cm) (motive_1 := fun ts f _ => FieldReads cm ts f)
    (motive_2 := fun ts fs _ => FieldsRead cm ts fs)
    (fun hr hp ha hi hf => reads_primitive hcm hr hp ha hi hf)
    (fun hr hg ha hi _ ih => reads_group hcm hr hg ha hi ih)
    read_nil (fun hf _ ih1 ih2 => read_cons hcm hf ih1 ih2) h

end Pq
