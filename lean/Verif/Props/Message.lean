import Verif.Lemmas.MessageText
import Verif.Lemmas.MessageSafe
/-
C52: the parser of the message syntax of schemas.
-/
namespace Pq.Props
open Pq Pq.Spec Pq.Message

/-- Case conversion of ASCII letters, used in examples. -/
def asciiCase : CaseMaps := ⟨String.toUpper, String.toLower⟩

instance {α : Type} (r : Res α) : Decidable (r = .panic) :=
  match r with
  | .panic => .isTrue rfl
  | .ok _ => .isFalse (by simp)
  | .err _ => .isFalse (by simp)

theorem asciiCase_lawful : LawfulCase asciiCase := ⟨fun _ _ => rfl, fun _ _ => rfl⟩

/-- **C52** every text is divided into tokens in exactly one way, and the tokenizer finds it. -/
theorem C52_tokens (s : String) :
    Tokens s.toList (Tokenizer.fromStr s).rest ∧ (Tokenizer.fromStr s).before = [] ∧
      ∀ ts, Tokens s.toList ts → ts = (Tokenizer.fromStr s).rest := by
  refine ⟨(fromStr_iff s _).1 rfl, rfl, fun ts h => ?_⟩
  rw [(fromStr_iff s ts).2 h]

example : Tokens "a{b;\t c".toList ["a", "{", "b", ";", "c"] := (fromStr_iff _ _).1 (by decide +kernel)

/-- **C52** the parser terminates for every text: so many steps always suffice, and more do not change the
result. -/
theorem C52_terminates {cm : CaseMaps} (hcm : LawfulCase cm) (s : String) (fuel : Nat)
    (h : 2 * (Tokenizer.fromStr s).rest.length + 2 ≤ fuel) :
    fromMessageSteps cm fuel s = some (fromMessage cm s) := by
  have key : fromMessageSteps cm (2 * (Tokenizer.fromStr s).rest.length + 2) s ≠ none := by
    unfold fromMessageSteps parseMessageType
    generalize Tokenizer.fromStr s = t
    obtain ⟨b, r⟩ := t
    cases r with
    | nil => simp
    | cons v r =>
      simp only [next_cons]
      split
      · have : Steps.after nextOrErr (fun name t'' =>
            match parseChildTypes cm (2 * (v :: r).length + 2) t'' with
            | some (.ok (fields, t3)) => some (.ok (ParquetType.newRoot name fields, t3))
            | some (.err e) => some (.err e)
            | some .panic => some .panic
            | none => none) ⟨v :: b, r⟩ ≠ none := by
          apply after_ne_none
          intro name t1 h1
          obtain ⟨r1, rfl, rfl⟩ := nextOrErr_ok.1 h1
          have := (fuel_suffices hcm (2 * (v :: name :: r1).length + 2)).1 (name :: v :: b) r1
            (by simp only [List.length_cons]; omega) (by omega)
          split
          · simp
          · simp
          · simp
          · rename_i hn; exact absurd hn this
        split
        · simp
        · rename_i hn; exact absurd hn this
      · simp
  obtain ⟨r, hr⟩ := Option.ne_none_iff_exists'.1 key
  have e : fromMessage cm s = r := by unfold fromMessage; rw [hr]
  rw [e]
  exact message_mono_le h hr

example : 2 * (Tokenizer.fromStr "message m { }").rest.length + 2 ≤ 10 := by decide +kernel

/-- The result of the parser with any number of steps that suffices. -/
theorem fromMessage_of_steps {cm : CaseMaps} (hcm : LawfulCase cm) {s : String} {fuel : Nat} {x : Res ParquetType}
    (h : fromMessageSteps cm fuel s = some x) : fromMessage cm s = x := by
  have h1 := C52_terminates hcm s (max fuel (2 * (Tokenizer.fromStr s).rest.length + 2)) (by omega)
  have h2 := message_mono_le (fuel' := max fuel (2 * (Tokenizer.fromStr s).rest.length + 2)) (by omega) h
  unfold fromMessageSteps at h1
  rw [h2] at h1
  simpa using h1.symm

theorem message_of_children {cm : CaseMaps} {s name : String} {fuel : Nat} {tail : List String}
    {fields : List ParquetType} {t' : Tokenizer} (hs : Tokens s.toList ("message" :: name :: tail))
    (h : parseChildTypes cm fuel ⟨[name, "message"], tail⟩ = some (.ok (fields, t'))) :
    fromMessageSteps cm fuel s = some (.ok (ParquetType.newRoot name fields)) := by
  unfold fromMessageSteps
  rw [(fromStr_iff s _).2 hs]
  unfold parseMessageType
  simp only [next_cons, if_true, Steps.after, nextOrErr_cons, h, Res.map']

/-- **C52** a text that is a message, whatever follows it, is parsed to the schema it denotes. -/
theorem C52_parses {cm : CaseMaps} (hcm : LawfulCase cm) {s : String} {body extra : List String} {t : ParquetType}
    (hs : Tokens s.toList (body ++ extra)) (h : MessageTokens cm body t) : fromMessage cm s = .ok t := by
  cases h with
  | @mk name inner fields hf =>
    obtain ⟨N, hN⟩ := fields_complete hcm hf
    have hl := (hN N (Nat.le_refl _) ["{", name, "message"]).1 extra
    refine fromMessage_of_steps hcm (fuel := N + 1) (message_of_children (tail := "{" :: (inner ++ "}" :: extra))
      (t' := ⟨"}" :: (inner.reverse ++ ["{", name, "message"]), extra⟩) (by simpa using hs) ?_)
    rw [parseChildTypes, after_of_ok (assertToken_eq _ _ _)]
    exact hl

/-- A message with a group, for examples. -/
def sampleMessage : String :=
  "message m { Required INT32 a (integer(8,false)) = 7; optional group g (LIST) {} } trailing"

/-- The fields of that message. -/
def messageFields : List ParquetType :=
  [.primitive ⟨⟨"a", .required, some 7#32⟩, some (.integer .uint8), none, .int32⟩,
    .group ⟨"g", .optional, none⟩ none (some .list) []]

theorem sampleMessage_tokens : Tokens sampleMessage.toList
    (["message", "m", "{", "Required", "INT32", "a", "(", "integer", "(", "8", ",", "false", ")", ")", "=", "7", ";",
      "optional", "group", "g", "(", "LIST", ")", "{", "}", "}"] ++ ["trailing"]) :=
  (fromStr_iff _ _).1 (by decide +kernel)

theorem sampleMessage_grammar : MessageTokens asciiCase
    (["message", "m", "{", "Required", "INT32", "a", "(", "integer", "(", "8", ",", "false", ")", ")", "=", "7", ";",
      "optional", "group", "g", "(", "LIST", ")", "{", "}", "}"]) (ParquetType.newRoot "m" messageFields) := by
  have n8 : Number "8" 8#32 := (parseI32_iff _ _).1 (by decide +kernel)
  have n7 : Number "7" 7#32 := (parseI32_iff _ _).1 (by decide +kernel)
  have f1 : FieldTokens asciiCase
      (["Required"] ++ ["INT32"] ++ ["a"] ++ (["("] ++ ["integer", "(", "8", ",", "false", ")"] ++ [")"]) ++ ["=", "7"] ++ [";"])
      (.primitive ⟨⟨"a", .required, some 7#32⟩, some (.integer .uint8), none, .int32⟩) :=
    .primitive (by decide +kernel) (.plain (by decide +kernel))
      (.present (.integer (signed := false) (by decide +kernel) n8 (by decide +kernel) (.inl (by decide)))) (.present n7) rfl
  have f2 : FieldTokens asciiCase
      (["optional", "group", "g"] ++ ["(", "LIST", ")"] ++ [] ++ ["{"] ++ [] ++ ["}"])
      (.group ⟨"g", .optional, none⟩ none (some .list) []) :=
    .group (by decide +kernel) (by decide +kernel) (.present (by decide +kernel)) .absent .nil
  exact .mk (.cons f1 (.cons f2 .nil))

example : fromMessage asciiCase sampleMessage = .ok (ParquetType.newRoot "m" messageFields) :=
  C52_parses asciiCase_lawful sampleMessage_tokens sampleMessage_grammar

/-- **C52** the syntax is not ambiguous: a text begins with at most one message, and it denotes one schema. -/
theorem C52_unambiguous {cm : CaseMaps} (hcm : LawfulCase cm) {s : String} {body extra body' extra' : List String}
    {t t' : ParquetType} (hs : Tokens s.toList (body ++ extra)) (hs' : Tokens s.toList (body' ++ extra'))
    (h : MessageTokens cm body t) (h' : MessageTokens cm body' t') : t = t' := by
  have := C52_parses hcm hs h
  rw [C52_parses hcm hs' h'] at this
  simpa using this.symm

example : ∃ (s : String) (body extra : List String) (t : ParquetType), Tokens s.toList (body ++ extra) ∧ MessageTokens asciiCase body t :=
  ⟨_, _, _, _, sampleMessage_tokens, sampleMessage_grammar⟩

/-- **C52** what is parsed is a message, provided that the end of the text is not missing: what may be
missing is closing braces and, before them, a `;` or `{` like the one at the end of the text (`Missing`).
The property would be this without `missing`; it does not hold (`C52_violated`). -/
theorem C52_sound_partial {cm : CaseMaps} (hcm : LawfulCase cm) {s : String} {t : ParquetType}
    (h : fromMessage cm s = .ok t) :
    ∃ ts body missing extra, Tokens s.toList ts ∧ ts ++ missing = body ++ extra ∧ (missing = [] ∨ extra = []) ∧
      Missing ts missing ∧ MessageTokens cm body t := by
  have hst := C52_terminates hcm s _ (Nat.le_refl _)
  rw [h] at hst
  unfold fromMessageSteps parseMessageType at hst
  generalize hfu : 2 * (Tokenizer.fromStr s).rest.length + 2 = fuel at hst
  have htok := (C52_tokens s).1
  have hb := (C52_tokens s).2.1
  generalize Tokenizer.fromStr s = tk at hst htok hb
  obtain ⟨b, r⟩ := tk
  simp only at htok hb
  subst hb
  cases r with
  | nil => simp at hst
  | cons v r =>
    simp only [next_cons] at hst
    split at hst
    rotate_left
    · simp at hst
    rename_i hv
    subst hv
    split at hst
    rotate_left
    · simp at hst
    rename_i y hy
    simp only [Option.some.injEq] at hst
    cases y with
    | err e => simp [Res.map'] at hst
    | panic => simp [Res.map'] at hst
    | ok z =>
      simp only [Res.map', Res.ok.injEq] at hst
      subst hst
      rw [after_ok] at hy
      obtain ⟨name, t1, h1, h2⟩ := hy
      obtain ⟨r1, rfl, rfl⟩ := nextOrErr_ok.1 h1
      split at h2
      · rename_i fields t3 hP
        simp only [Option.some.injEq, Res.ok.injEq] at h2
        subst h2
        obtain ⟨body, miss, e, hm, hmiss, inner, rfl, hf⟩ := (recursion_sound hcm fuel).1 _ _ _ _ hP
        refine ⟨_, _, miss, t3.rest, htok, ?_, hm, missing_cons _ (missing_cons _ hmiss), .mk hf⟩
        simpa using e
      · simp at h2
      · simp at h2
      · simp at h2

example : ∃ t, fromMessage asciiCase sampleMessage = .ok t :=
  ⟨_, C52_parses asciiCase_lawful sampleMessage_tokens sampleMessage_grammar⟩

/-- **C52** a text that is a message but for any number of missing closing braces is accepted as if they
were there: an unterminated message is not rejected. -/
theorem C52_unterminated {cm : CaseMaps} (hcm : LawfulCase cm) {s : String} {ts : List String} {n : Nat}
    {t : ParquetType} (hs : Tokens s.toList ts) (h : MessageTokens cm (ts ++ List.replicate n "}") t) :
    fromMessage cm s = .ok t := by
  by_cases hn : n = 0
  · subst hn
    exact C52_parses hcm (extra := []) (by simpa using hs) (by simpa using h)
  · generalize hb : ts ++ List.replicate n "}" = body at h
    cases h with
    | @mk name inner fields hf =>
      obtain ⟨N, hN⟩ := fields_complete hcm hf
      have hcut : ∃ cut, ts = "message" :: name :: "{" :: cut ∧ inner ++ ["}"] = cut ++ List.replicate n "}" := by
        rw [List.append_assoc] at hb
        rw [eq_comm, List.append_eq_append_iff] at hb
        rcases hb with ⟨a', h1, h2⟩ | ⟨c', h1, h2⟩
        · exact ⟨a', by simpa using h1, h2⟩
        · rcases List.eq_nil_or_concat c' with rfl | ⟨c'', x, rfl⟩
          · exact ⟨[], by simpa using h1.symm, by simpa using h2.symm⟩
          · exfalso
            have e := (replicate_prefix h2).1
            rw [List.concat_eq_append] at h1 e
            rw [← List.append_assoc] at h1
            have hx := (List.append_inj' (s₁ := ["message", name]) (t₁ := ["{"]) h1 rfl).2
            simp only [List.cons.injEq, and_true] at hx
            have := (List.eq_replicate_iff.1 e).2 x (by simp)
            rw [← hx] at this
            revert this
            decide
      obtain ⟨cut, rfl, hc⟩ := hcut
      have hl := (hN N (Nat.le_refl _) ["{", name, "message"]).2 n cut (by omega) hc
      refine fromMessage_of_steps hcm (fuel := N + 1) (message_of_children (tail := "{" :: cut)
        (t' := ⟨cut.reverse ++ ["{", name, "message"], []⟩) hs ?_)
      rw [parseChildTypes, after_of_ok (assertToken_eq _ _ _)]
      exact hl

/-- An example of such a text, with two missing braces. -/
def unterminatedMessage : String := "message m { required group g { required boolean b;"

example : ∃ ts t, Tokens unterminatedMessage.toList ts ∧
    MessageTokens asciiCase (ts ++ List.replicate 2 "}") t := by
  refine ⟨["message", "m", "{", "required", "group", "g", "{", "required", "boolean", "b", ";"],
    .group ⟨"m", .optional, none⟩ none none
      [.group ⟨"g", .required, none⟩ none none
        [.primitive ⟨⟨"b", .required, none⟩, none, none, .boolean⟩]], (fromStr_iff _ _).1 (by decide +kernel), ?_⟩
  have f1 : FieldTokens asciiCase (["required"] ++ ["boolean"] ++ ["b"] ++ [] ++ [] ++ [";"])
      (.primitive ⟨⟨"b", .required, none⟩, none, none, .boolean⟩) :=
    .primitive (by decide +kernel) (.plain (by decide +kernel)) .absent .absent rfl
  have f2 : FieldTokens asciiCase (["required", "group", "g"] ++ [] ++ [] ++ ["{"] ++
      ((["required"] ++ ["boolean"] ++ ["b"] ++ [] ++ [] ++ [";"]) ++ []) ++ ["}"]) _ :=
    .group (c := none) (id := none) (repetition := .required) (by decide +kernel) (by decide +kernel) .absent .absent (.cons f1 .nil)
  exact .mk (name := "m") (.cons f2 .nil)

/-- **C52 violated**: texts that are no messages are accepted. In the second, the name of the field is
missing and the `;` is taken for it, and then again for the end of the field; in the third the name of the
group is missing and the brace is taken for it. -/
theorem C52_violated :
    (fromMessage asciiCase unterminatedMessage).isOk = true ∧
    (fromMessage asciiCase "message m { required int32 ;").isOk = true ∧
    (fromMessage asciiCase "message m { required group {").isOk = true := by decide +kernel

/-- **C52** the parser rejects with `OutOfSpec` only, and panics only where a primitive field is annotated with
`MAP` or `LIST`. The property would be that it never panics; it does not hold (`C52_panics`). -/
theorem C52_no_panic_partial {cm : CaseMaps} (hcm : LawfulCase cm) (s : String) :
    (fromMessage cm s = .panic → ∃ ts, Tokens s.toList ts ∧ MisplacedAnnotation cm ts) ∧
    ∀ e, fromMessage cm s = .err e → e = .oos := by
  have h := C52_terminates hcm s _ (Nat.le_refl _)
  have hf := fine_message cm h
  refine ⟨fun hp => ⟨_, (C52_tokens s).1, ?_⟩, hf.2⟩
  have := hf.1 hp
  simpa [whole, (C52_tokens s).2.1] using this

example : (fromMessage asciiCase "message m { required int32 a }").isOk = false ∧
    fromMessage asciiCase "message m { required int32 a }" ≠ .panic := by decide +kernel

/-- **C52 violated**: the parser panics (`unreachable!`). -/
theorem C52_panics : fromMessage asciiCase "message m { required int32 a (MAP); }" = .panic := by decide +kernel

/-- **C52** the schemas that can be denoted by a message are those for which `fieldsText` gives a text:
groups have no logical type, and primitives have a logical or a converted type but not both. -/
theorem C52_expressible {cm : CaseMaps} (hcm : LawfulCase cm) {fields : List ParquetType} (hw : WellNameds fields) :
    (∃ ts, FieldsTokens cm ts fields) ↔ fieldsText fields ≠ none := by
  constructor
  · rintro ⟨ts, h⟩
    exact fields_expressible h
  · intro h
    obtain ⟨ts, hts⟩ := Option.ne_none_iff_exists'.1 h
    exact ⟨ts, (fields_text hcm fields hw hts).1⟩

theorem messageFields_named : WellNameds messageFields := by
  refine ⟨⟨by decide, trivial, by simp, ?_, rfl⟩, ⟨by decide, trivial⟩, trivial⟩
  intro l hl
  cases hl
  trivial

example : WellNameds messageFields ∧ (fieldsText messageFields).isSome = true :=
  ⟨messageFields_named, by decide +kernel⟩

/-- **C52** a schema that can be expressed in the message syntax is written and parsed back to the same. -/
theorem C52_roundtrip {cm : CaseMaps} (hcm : LawfulCase cm) {name : String} {fields : List ParquetType}
    {text : String} (hn : IsWord name) (hw : WellNameds fields) (h : messageText name fields = some text) :
    fromMessage cm text = .ok (ParquetType.newRoot name fields) := by
  obtain ⟨ts, h1, h2⟩ := message_text hcm hn hw h
  exact C52_parses hcm (extra := []) (by simpa using h1) h2

example : IsWord "m" ∧ WellNameds messageFields ∧ messageText "m" messageFields = some
    "message m { REQUIRED INT32 a ( INTEGER ( 8 , false ) ) = 7 ; OPTIONAL GROUP g ( LIST ) { } } " :=
  ⟨by decide, messageFields_named, by decide +kernel⟩

end Pq.Props
