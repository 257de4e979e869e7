import Verif.Lemmas.MessageParse
/-
Lemmas about the text of a schema in the message syntax.
-/
namespace Pq
open Pq.Spec Pq.Message

theorem upper_of {cm : CaseMaps} (hcm : LawfulCase cm) (s : String) (h1 : ∀ c ∈ s.toList, c.toNat < 128)
    (h2 : s.map Char.toUpper = s) : cm.upper s = s := by rw [hcm.upper s h1, h2]

theorem lower_of {cm : CaseMaps} (hcm : LawfulCase cm) (s : String) (h1 : ∀ c ∈ s.toList, c.toNat < 128)
    (h2 : s.map Char.toLower = s) : cm.lower s = s := by rw [hcm.lower s h1, h2]

/-! ### numbers -/

/-- The digits of a number, most significant first. -/
def digitList (n : Nat) : List Nat := if n = 0 then [0] else (Nat.digits 10 n).reverse

theorem digitList_ne (n : Nat) : digitList n ≠ [] := by
  unfold digitList
  split
  · simp
  · rename_i h
    simp only [ne_eq, List.reverse_eq_nil_iff]
    exact Nat.digits_ne_nil_iff_ne_zero.2 h

theorem digitList_lt (n : Nat) : ∀ d ∈ digitList n, d < 10 := by
  unfold digitList
  split
  · intro d hd; simp at hd; omega
  · intro d hd
    rw [List.mem_reverse] at hd
    exact Nat.digits_lt_base (by omega) hd

theorem digitList_value (n : Nat) : Nat.ofDigits 10 (digitList n).reverse = n := by
  unfold digitList
  split
  · rename_i h; subst h; rfl
  · rw [List.reverse_reverse, Nat.ofDigits_digits]

theorem natText_numeral (n : Nat) : Numeral (natText n) n := by
  have := Numeral.plain (digitList_ne n) (digitList_lt n)
  rw [digitList_value] at this
  exact this

theorem intText_numeral (n : Int) : Numeral (intText n) n := by
  unfold intText
  split
  · have := Numeral.minus (digitList_ne n.natAbs) (digitList_lt n.natAbs)
    rw [digitList_value] at this
    have e : (natText n.natAbs).toList = (digitList n.natAbs).map fun d => Char.ofNat (48 + d) := by
      unfold natText; rw [String.toList_ofList]; rfl
    rw [e]
    rwa [show (n : Int) = -((n.natAbs : Nat) : Int) by omega, Int.natAbs_neg, Int.natAbs_natCast]
  · have := natText_numeral n.natAbs
    rwa [show ((n.natAbs : Nat) : Int) = n by omega] at this

theorem digit_word {d : Nat} (h : d < 10) : IsWordChar (Char.ofNat (48 + d)) := by
  interval_cases d <;> decide

theorem natText_word (n : Nat) : IsWord (natText n) := by
  have e : (natText n).toList = (digitList n).map fun d => Char.ofNat (48 + d) := by
    unfold natText; rw [String.toList_ofList]; rfl
  constructor
  · intro h
    rw [h] at e
    exact digitList_ne n (by simpa using e.symm)
  · rw [e]
    intro c hc
    rw [List.mem_map] at hc
    obtain ⟨d, hd, rfl⟩ := hc
    exact digit_word (digitList_lt n d hd)

theorem intText_word (n : Int) : IsWord (intText n) := by
  unfold intText
  split
  · constructor
    · intro h
      have := congrArg String.toList h
      simp at this
    · rw [String.toList_ofList]
      intro c hc
      rw [List.mem_cons] at hc
      rcases hc with rfl | hc
      · decide
      · exact (natText_word _).2 c hc
  · exact natText_word _

/-! ### tokens -/

/-- A word or a delimiter. -/
def IsToken (t : String) : Prop := IsWord t ∨ ∃ c, IsDelimiter c ∧ t = String.ofList [c]

theorem token_delim (c : Char) (h : IsDelimiter c) : IsToken (String.ofList [c]) := .inr ⟨c, h, rfl⟩
theorem token_semi : IsToken ";" := token_delim ';' (by decide)
theorem token_open : IsToken "(" := token_delim '(' (by decide)
theorem token_close : IsToken ")" := token_delim ')' (by decide)
theorem token_comma : IsToken "," := token_delim ',' (by decide)
theorem token_eq : IsToken "=" := token_delim '=' (by decide)
theorem token_lbrace : IsToken "{" := token_delim '{' (by decide)
theorem token_rbrace : IsToken "}" := token_delim '}' (by decide)

theorem repetition_text {cm : CaseMaps} (hcm : LawfulCase cm) (r : Repetition) :
    (cm.upper (repetitionText r), r) ∈ repetitionWords ∧ IsToken (repetitionText r) := by
  rw [upper_of hcm _ (by cases r <;> decide) (by cases r <;> decide +kernel)]
  exact ⟨by cases r <;> decide, .inl (by cases r <;> decide)⟩

theorem physical_text {cm : CaseMaps} (hcm : LawfulCase cm) (p : PhysicalType) (h : SmallPhysical p) :
    Physical cm (physicalText p) p ∧ ∀ t ∈ physicalText p, IsToken t := by
  have plain : ∀ (s : String) (p : PhysicalType), (∀ c ∈ s.toList, c.toNat < 128) → s.map Char.toUpper = s →
      (s, p) ∈ physicalWords → IsWord s → Physical cm [s] p ∧ ∀ t ∈ [s], IsToken t := by
    intro s p h1 h2 h3 h4
    refine ⟨.plain (by rw [upper_of hcm s h1 h2]; exact h3), ?_⟩
    intro t ht
    rw [List.mem_singleton] at ht
    subst ht
    exact .inl h4
  cases p with
  | fixedLenByteArray n =>
    refine ⟨.fixed (upper_of hcm _ (by decide) (by decide +kernel)) ⟨h, natText_numeral n⟩, ?_⟩
    intro t ht
    simp only [physicalText, List.mem_cons, List.not_mem_nil, or_false] at ht
    rcases ht with rfl | rfl | rfl | rfl
    · exact .inl (by decide)
    · exact token_open
    · exact .inl (natText_word n)
    · exact token_close
  | _ => exact plain _ _ (by decide) (by decide +kernel) (by decide) (by decide)

theorem bool_text {cm : CaseMaps} (hcm : LawfulCase cm) (b : Bool) :
    (cm.lower (boolText b), b) ∈ boolWords ∧ IsToken (boolText b) := by
  rw [lower_of hcm _ (by cases b <;> decide) (by cases b <;> decide +kernel)]
  exact ⟨by cases b <;> decide, .inl (by cases b <;> decide)⟩

theorem unit_text {cm : CaseMaps} (hcm : LawfulCase cm) (u : TimeUnit) :
    (cm.upper (unitText u), u) ∈ unitWords ∧ IsToken (unitText u) := by
  rw [upper_of hcm _ (by cases u <;> decide) (by cases u <;> decide +kernel)]
  exact ⟨by cases u <;> decide, .inl (by cases u <;> decide)⟩

theorem logical_text {cm : CaseMaps} (hcm : LawfulCase cm) (l : PrimitiveLogicalType) (h : SmallLogical l) :
    Annotation cm (logicalText l) none (some l) ∧ ∀ t ∈ logicalText l, IsToken t := by
  have plain : ∀ (s : String) (l : PrimitiveLogicalType), (∀ c ∈ s.toList, c.toNat < 128) →
      s.map Char.toUpper = s → (s, l) ∈ logicalWords → IsWord s →
      Annotation cm [s] none (some l) ∧ ∀ t ∈ [s], IsToken t := by
    intro s p h1 h2 h3 h4
    refine ⟨.logical (by rw [upper_of hcm s h1 h2]; exact h3), ?_⟩
    intro t ht
    rw [List.mem_singleton] at ht
    subst ht
    exact .inl h4
  have five : ∀ a b c : String, IsToken a → IsToken b → IsToken c → 
      ∀ t ∈ [a, "(", b, ",", c, ")"], IsToken t := by
    intro a b c ha hb hc t ht
    simp only [List.mem_cons, List.not_mem_nil, or_false] at ht
    rcases ht with rfl | rfl | rfl | rfl | rfl | rfl
    · exact ha
    · exact token_open
    · exact hb
    · exact token_comma
    · exact hc
    · exact token_close
  cases l with
  | decimal p s =>
    refine ⟨?_, five _ _ _ (.inl (by decide)) (.inl (natText_word p)) (.inl (natText_word s))⟩
    exact Annotation.decimal (more := [",", natText s]) (upper_of hcm _ (by decide) (by decide +kernel))
      ⟨h.1, natText_numeral p⟩ (.present ⟨h.2, natText_numeral s⟩)
  | time u b =>
    refine ⟨?_, five _ _ _ (.inl (by decide)) (unit_text hcm u).2 (bool_text hcm b).2⟩
    exact Annotation.time (more := [",", boolText b]) (upper_of hcm _ (by decide) (by decide +kernel))
      (unit_text hcm u).1 (.present (bool_text hcm b).1)
  | timestamp u b =>
    refine ⟨?_, five _ _ _ (.inl (by decide)) (unit_text hcm u).2 (bool_text hcm b).2⟩
    exact Annotation.timestamp (more := [",", boolText b]) (upper_of hcm _ (by decide) (by decide +kernel))
      (unit_text hcm u).1 (.present (bool_text hcm b).1)
  | integer t =>
    refine ⟨?_, five _ _ _ (.inl (by decide)) (.inl (natText_word _)) (bool_text hcm _).2⟩
    refine Annotation.integer (width := BitVec.ofNat 32 (integerParams t).1)
      (upper_of hcm _ (by decide) (by decide +kernel)) ?_ (bool_text hcm _).1
      (.inl (by cases t <;> decide))
    unfold Number
    have := natText_numeral (integerParams t).1
    have e : (BitVec.ofNat 32 (integerParams t).1).toInt = ((integerParams t).1 : Int) := by cases t <;> decide
    rw [e]
    exact this
  | _ => exact plain _ _ (by decide) (by decide +kernel) (by decide) (by decide)

theorem wordOf_converted {c : PrimitiveConvertedType} {w : String} (h : wordOf convertedWords c = some w) :
    (w, c) ∈ convertedWords := by
  unfold wordOf at h
  rw [Option.map_eq_some_iff] at h
  obtain ⟨⟨w', c'⟩, h1, rfl⟩ := h
  have hm := List.mem_of_find?_eq_some h1
  have he := List.find?_some h1
  simp only [decide_eq_true_eq] at he
  subst he
  exact hm

theorem annotation_text {cm : CaseMaps} (hcm : LawfulCase cm) {c : Option PrimitiveConvertedType}
    {l : Option PrimitiveLogicalType} {ts : List String} (hl : ∀ x, l = some x → SmallLogical x)
    (h : annotationText c l = some ts) : Annotated cm ts c l ∧ ∀ t ∈ ts, IsToken t := by
  unfold annotationText at h
  split at h
  · cases h
    exact ⟨.absent, by simp⟩
  · rename_i l
    cases h
    obtain ⟨h1, h2⟩ := logical_text hcm l (hl l rfl)
    refine ⟨.present h1, ?_⟩
    intro t ht
    simp only [List.mem_append, List.mem_singleton] at ht
    rcases ht with (rfl | ht) | rfl
    · exact token_open
    · exact h2 t ht
    · exact token_close
  · rename_i c
    rw [Option.map_eq_some_iff] at h
    obtain ⟨w, hw, rfl⟩ := h
    have hm := wordOf_converted hw
    have hall : ∀ e ∈ convertedWords, (∀ c ∈ e.1.toList, c.toNat < 128) ∧ e.1.map Char.toUpper = e.1 ∧ IsWord e.1 := by
      decide +kernel
    obtain ⟨h1, h2, h3⟩ := hall _ hm
    refine ⟨Annotated.present (ts := [w]) (.converted (by rw [upper_of hcm w h1 h2]; exact hm)), ?_⟩
    intro t ht
    simp only [List.mem_cons, List.not_mem_nil, or_false] at ht
    rcases ht with rfl | rfl | rfl
    · exact token_open
    · exact .inl h3
    · exact token_close
  · simp at h

theorem groupAnnotation_text {cm : CaseMaps} (hcm : LawfulCase cm) (c : Option GroupConvertedType) :
    GroupAnnotated cm (groupAnnotationText c) c ∧ ∀ t ∈ groupAnnotationText c, IsToken t := by
  have plain : ∀ (s : String) (g : GroupConvertedType), (∀ c ∈ s.toList, c.toNat < 128) →
      s.map Char.toUpper = s → (s, g) ∈ groupWords → IsWord s →
      GroupAnnotated cm ["(", s, ")"] (some g) ∧ ∀ t ∈ ["(", s, ")"], IsToken t := by
    intro s p h1 h2 h3 h4
    refine ⟨.present (by rw [upper_of hcm s h1 h2]; exact h3), ?_⟩
    intro t ht
    simp only [List.mem_cons, List.not_mem_nil, or_false] at ht
    rcases ht with rfl | rfl | rfl
    · exact token_open
    · exact .inl h4
    · exact token_close
  cases c with
  | none => exact ⟨.absent, by simp [groupAnnotationText]⟩
  | some g => cases g <;> exact plain _ _ (by decide) (by decide +kernel) (by decide) (by decide)

theorem id_text (id : Option I32) : Ident (idText id) id ∧ ∀ t ∈ idText id, IsToken t := by
  cases id with
  | none => exact ⟨.absent, by simp [idText]⟩
  | some n =>
    refine ⟨.present (intText_numeral _), ?_⟩
    intro t ht
    simp only [idText, List.mem_cons, List.not_mem_nil, or_false] at ht
    rcases ht with rfl | rfl
    · exact token_eq
    · exact .inl (intText_word _)

mutual
theorem field_text {cm : CaseMaps} (hcm : LawfulCase cm) (f : ParquetType) {ts : List String} (hw : WellNamed f)
    (h : fieldText f = some ts) : FieldTokens cm ts f ∧ ∀ t ∈ ts, IsToken t := by
  match f with
  | .primitive p =>
    rw [fieldText, Option.map_eq_some_iff] at h
    obtain ⟨an, ha, rfl⟩ := h
    rw [WellNamed] at hw
    obtain ⟨hn, hp, _, hl, hf⟩ := hw
    obtain ⟨a1, a2⟩ := annotation_text hcm hl ha
    obtain ⟨r1, r2⟩ := repetition_text hcm p.fieldInfo.repetition
    obtain ⟨p1, p2⟩ := physical_text hcm p.physicalType hp
    obtain ⟨i1, i2⟩ := id_text p.fieldInfo.id
    refine ⟨.primitive r1 p1 a1 i1 hf, ?_⟩
    intro t ht
    simp only [List.mem_append, List.mem_singleton] at ht
    rcases ht with ((((rfl | ht) | rfl) | ht) | ht) | rfl
    · exact r2
    · exact p2 t ht
    · exact .inl hn
    · exact a2 t ht
    · exact i2 t ht
    · exact token_semi
  | .group i (some _) c fields => simp [fieldText] at h
  | .group i none c fields =>
    rw [fieldText] at h
    simp only [Option.map_eq_some_iff] at h
    obtain ⟨body, hb, rfl⟩ := h
    rw [WellNamed] at hw
    obtain ⟨b1, b2⟩ := fields_text hcm fields hw.2 hb
    obtain ⟨a1, a2⟩ := groupAnnotation_text hcm c
    obtain ⟨r1, r2⟩ := repetition_text hcm i.repetition
    obtain ⟨i1, i2⟩ := id_text i.id
    refine ⟨.group r1 (upper_of hcm _ (by decide) (by decide +kernel)) a1 i1 b1, ?_⟩
    intro t ht
    simp only [List.mem_append, List.mem_cons, List.not_mem_nil, or_false] at ht
    rcases ht with ((((ht | ht) | ht) | rfl) | ht) | rfl
    · rcases ht with rfl | rfl | rfl
      · exact r2
      · exact .inl (by decide)
      · exact .inl hw.1
    · exact a2 t ht
    · exact i2 t ht
    · exact token_lbrace
    · exact b2 t ht
    · exact token_rbrace
theorem fields_text {cm : CaseMaps} (hcm : LawfulCase cm) (fs : List ParquetType) {ts : List String}
    (hw : WellNameds fs) (h : fieldsText fs = some ts) : FieldsTokens cm ts fs ∧ ∀ t ∈ ts, IsToken t := by
  match fs with
  | [] =>
    rw [fieldsText] at h
    cases h
    exact ⟨.nil, by simp⟩
  | f :: fs =>
    rw [fieldsText] at h
    rw [WellNameds] at hw
    split at h
    · rename_i a b ha hb
      cases h
      obtain ⟨a1, a2⟩ := field_text hcm f hw.1 ha
      obtain ⟨b1, b2⟩ := fields_text hcm fs hw.2 hb
      refine ⟨.cons a1 b1, ?_⟩
      intro t ht
      rw [List.mem_append] at ht
      exact ht.elim (a2 t) (b2 t)
    · simp at h
end

/-! ### what the syntax can express -/

theorem annotation_expressible {cm : CaseMaps} {ts : List String} {c : Option PrimitiveConvertedType}
    {l : Option PrimitiveLogicalType} (h : Annotated cm ts c l) : annotationText c l ≠ none := by
  cases h with
  | absent => simp [annotationText]
  | present h =>
    cases h with
    | @converted s c hc =>
      simp only [annotationText, ne_eq, Option.map_eq_none_iff]
      intro hn
      unfold wordOf at hn
      rw [Option.map_eq_none_iff, List.find?_eq_none] at hn
      exact hn _ hc (by simp)
    | _ => simp [annotationText]

theorem field_expressible {cm : CaseMaps} {ts : List String} {f : ParquetType} (h : FieldTokens cm ts f) :
    fieldText f ≠ none :=
  FieldTokens.rec (cm := cm) (motive_1 := fun _ f _ => fieldText f ≠ none)
    (motive_2 := fun _ fs _ => fieldsText fs ≠ none)
    (fun _ _ ha _ _ => by
      rw [fieldText, ne_eq, Option.map_eq_none_iff]
      exact annotation_expressible ha)
    (fun _ _ _ _ _ ih => by
      rw [fieldText]
      simpa using ih)
    (by simp [fieldsText])
    (fun _ _ ih1 ih2 => by
      rw [fieldsText]
      split
      · simp
      · rename_i h
        obtain ⟨a, ha⟩ := Option.ne_none_iff_exists'.1 ih1
        obtain ⟨b, hb⟩ := Option.ne_none_iff_exists'.1 ih2
        exact absurd hb (h a b ha)) h

theorem fields_expressible {cm : CaseMaps} {ts : List String} {fs : List ParquetType} (h : FieldsTokens cm ts fs) :
    fieldsText fs ≠ none := by
  induction fs generalizing ts with
  | nil => simp [fieldsText]
  | cons f fs ih =>
    cases h with
    | cons h1 h2 =>
      rw [fieldsText]
      obtain ⟨a, ha⟩ := Option.ne_none_iff_exists'.1 (field_expressible h1)
      obtain ⟨b, hb⟩ := Option.ne_none_iff_exists'.1 (ih h2)
      rw [ha, hb]
      simp

theorem message_text {cm : CaseMaps} (hcm : LawfulCase cm) {name : String} {fields : List ParquetType}
    {text : String} (hn : IsWord name) (hw : WellNameds fields) (h : messageText name fields = some text) :
    ∃ ts, Tokens text.toList ts ∧ MessageTokens cm ts (ParquetType.newRoot name fields) := by
  unfold messageText at h
  rw [Option.map_eq_some_iff] at h
  obtain ⟨body, hb, rfl⟩ := h
  obtain ⟨b1, b2⟩ := fields_text hcm fields hw hb
  refine ⟨_, ?_, .mk b1⟩
  rw [String.toList_ofList]
  apply tokens_spaced
  intro t ht
  simp only [List.mem_append, List.mem_cons, List.not_mem_nil, or_false] at ht
  rcases ht with (ht | ht) | rfl
  · rcases ht with rfl | rfl | rfl
    · exact .inl (by decide)
    · exact .inl hn
    · exact token_lbrace
  · exact b2 t ht
  · exact token_rbrace

end Pq
