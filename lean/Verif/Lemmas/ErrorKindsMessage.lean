import Verif.Lemmas.ErrorKinds
/-
The errors of parsing schema messages.
-/
namespace Pq.Message
open Pq Pq.Spec

/-- Errors of a parser method are out of specification (`src/schema/io_message/from_message.rs:242-617`). -/
def POos {α : Type} (p : Parse α) : Prop := ∀ t, FailsOos (p t)
/-- The same for the recursive part (`src/schema/io_message/from_message.rs:310-380`). -/
def SOos {α : Type} (p : Steps α) : Prop := ∀ t r, p t = some r → FailsOos r

theorem andThen_oos {α β : Type} {p : Parse α} {f : α → Parse β} (hp : POos p) (hf : ∀ a, POos (f a)) :
    POos (andThen p f) := by
  intro t
  exact Kinds.bind (hp t) fun x _ => hf x.1 x.2

theorem give_oos {α : Type} {r : Res α} (h : FailsOos r) : POos (give r) := fun _ => Kinds.map' h

theorem assertToken_oos (s : String) : POos (assertToken s) := by
  intro t; unfold assertToken; kinds

theorem backtrack_oos (t : Tokenizer) : FailsOos (backtrack t) := by unfold backtrack; kinds

theorem optionally_oos {α : Type} {s : String} {yes no : Parse α} (hy : POos yes) (hn : POos no) :
    POos (optionally s yes no) := by
  intro t
  unfold optionally
  split
  · exact Kinds.ite (fun _ => hy _) fun _ => Kinds.bind (backtrack_oos _) fun _ _ => hn _
  · exact Kinds.bind (backtrack_oos _) fun _ _ => hn _

theorem nextOrErr_oos : POos nextOrErr := by intro t; unfold nextOrErr; kinds
theorem nextI32_oos : POos nextI32 := by intro t; unfold nextI32; kinds
theorem nextBool_oos (cm : CaseMaps) : POos (nextBool cm) := by intro t; unfold nextBool; kinds
theorem nextTimeUnit_oos (cm : CaseMaps) : POos (nextTimeUnit cm) := by intro t; unfold nextTimeUnit; kinds

syntax "parses" : tactic
macro_rules | `(tactic| parses) => `(tactic| repeat' (first
  | exact assertToken_oos _ | exact nextOrErr_oos | exact nextI32_oos | exact nextBool_oos _
  | exact nextTimeUnit_oos _ | assumption
  | (with_reducible refine andThen_oos ?_ fun _ => ?_)
  | (with_reducible refine optionally_oos ?_ ?_)
  | (with_reducible refine give_oos ?_)
  | (with_reducible refine (iteInduction (fun _ => ?_) (fun _ => ?_)))
  | kinds))

theorem parseConvertedDecimal_oos : POos parseConvertedDecimal := by unfold parseConvertedDecimal; parses
theorem parseDecimal_oos : POos parseDecimal := by unfold parseDecimal; parses
theorem parseUnitAndZone_oos (cm : CaseMaps) : POos (parseUnitAndZone cm) := by unfold parseUnitAndZone; parses
theorem parseInteger_oos (cm : CaseMaps) : POos (parseInteger cm) := by unfold parseInteger; parses

theorem ite_oos {α : Type} {c : Prop} [Decidable c] {p q : Parse α} (hp : POos p) (hq : POos q) :
    POos (if c then p else q) := by split <;> assumption

theorem parseLogicalType_oos (cm : CaseMaps) (s : String) : POos (parseLogicalType cm s) := by
  have h1 := parseDecimal_oos
  have h2 := parseUnitAndZone_oos cm
  have h3 := parseInteger_oos cm
  unfold parseLogicalType
  repeat' (with_reducible refine ite_oos ?_ ?_)
  all_goals parses

theorem parseAnnotation_oos (cm : CaseMaps) : POos (parseAnnotation cm) := by
  have h1 := parseConvertedDecimal_oos
  unfold parseAnnotation
  refine andThen_oos nextOrErr_oos fun v => andThen_oos (ite_oos ?_ (ite_oos ?_ ?_)) fun _ => ?_
  · exact andThen_oos (parseLogicalType_oos _ _) fun _ => give_oos (Kinds.ok _)
  · split <;> parses
  · parses
  · parses

theorem parseId_oos : POos parseId := by
  unfold parseId
  refine optionally_oos ?_ ?_
  · intro t; dsimp only; split <;> exact Kinds.ok _
  · parses

theorem parseLength_oos (x : I32) : POos (parseLength x) := by
  unfold parseLength
  refine ite_oos ?_ ?_ <;> parses

theorem addPrimitiveType_oos (cm : CaseMaps) (r : Repetition) (x : I32) : POos (addPrimitiveType cm r x) := by
  have h1 := parseLength_oos x
  have h2 := parseAnnotation_oos cm
  have h3 := parseId_oos
  unfold addPrimitiveType
  parses

theorem convertedGroup_oos (s : String) : FailsOos (convertedGroupFromStr s) := by
  unfold convertedGroupFromStr; kinds
theorem repetitionFromStr_oos (s : String) : FailsOos (repetitionFromStr s) := by
  unfold repetitionFromStr; kinds
theorem typeFromStr_oos (s : String) : FailsOos (typeFromStr s) := by
  unfold typeFromStr
  repeat' (with_reducible refine Kinds.ite (fun _ => ?_) (fun _ => ?_))
  all_goals kinds

theorem parseGroupAnnotation_oos (cm : CaseMaps) : POos (parseGroupAnnotation cm) := by
  have h1 := fun v => convertedGroup_oos (cm.upper v)
  unfold parseGroupAnnotation
  exact optionally_oos (andThen_oos nextOrErr_oos fun v => andThen_oos (give_oos (h1 v)) fun _ =>
    andThen_oos (assertToken_oos _) fun _ => give_oos (Kinds.ok _)) (give_oos (Kinds.ok _))

theorem after_oos {α β : Type} {p : Parse α} {f : α → Steps β} (hp : POos p) (hf : ∀ a, SOos (f a)) :
    SOos (Steps.after p f) := by
  intro t r hr
  unfold Steps.after at hr
  have := hp t
  split at hr
  · exact hf _ _ _ hr
  · rename_i h; cases hr; exact Kinds.of_eq h this
  · cases hr; exact Kinds.panic

theorem steps_oos (cm : CaseMaps) : ∀ fuel, SOos (parseChildTypes cm fuel) ∧ SOos (childLoop cm fuel) ∧
    SOos (addType cm fuel) ∧ ∀ r, SOos (addGroupType cm fuel r)
  | 0 => by
    refine ⟨fun t r h => ?_, fun t r h => ?_, fun t r h => ?_, fun _ t r h => ?_⟩
    · unfold parseChildTypes at h; cases h
    · unfold childLoop at h; cases h
    · unfold addType at h; cases h
    · unfold addGroupType at h; cases h
  | fuel + 1 => by
    obtain ⟨h1, h2, h3, h4⟩ := steps_oos cm fuel
    refine ⟨fun t r h => ?_, fun t r h => ?_, fun t r h => ?_, fun _ t r h => ?_⟩
    · unfold parseChildTypes at h
      exact after_oos (assertToken_oos _) (fun _ => h2) t r h
    · unfold childLoop at h
      split at h
      · cases h; exact Kinds.ok _
      · split at h
        · cases h; exact Kinds.ok _
        · split at h
          · rename_i hb; cases h; exact Kinds.of_eq hb (backtrack_oos _)
          · cases h; exact Kinds.panic
          · split at h
            · cases h
            · rename_i ha; cases h; exact Kinds.of_eq rfl (h3 _ _ ha)
            · cases h; exact Kinds.panic
            · split at h
              · cases h; exact Kinds.ok _
              · exact h2 _ _ h
    · unfold addType at h
      refine after_oos (andThen_oos nextOrErr_oos fun v => give_oos (repetitionFromStr_oos _)) (fun rep =>
        after_oos nextOrErr_oos fun type => ?_) t r h
      split
      · exact h4 _
      · exact after_oos (andThen_oos (give_oos (typeFromStr_oos _)) fun x => addPrimitiveType_oos _ _ _)
          fun p t r h => by cases h; exact Kinds.ok _
    · unfold addGroupType at h
      refine after_oos nextOrErr_oos (fun name => after_oos (parseGroupAnnotation_oos _) fun c =>
        after_oos parseId_oos fun id t' r h => ?_) t r h
      split at h
      · cases h
      · rename_i ha; cases h; exact Kinds.of_eq rfl (h1 _ _ ha)
      · cases h; exact Kinds.panic
      · cases h; exact Kinds.ok _

theorem fromMessage_oos (cm : CaseMaps) (s : String) : FailsOos (fromMessage cm s) := by
  unfold fromMessage fromMessageSteps parseMessageType
  generalize 2 * (Tokenizer.fromStr s).rest.length + 2 = fuel
  have h1 := (steps_oos cm fuel).1
  split
  · rename_i r h
    split at h
    · split at h
      · split at h
        · rename_i ha
          cases h
          refine Kinds.map' (after_oos nextOrErr_oos (fun name t'' r h => ?_) _ _ ha)
          split at h
          · cases h; exact Kinds.ok _
          · rename_i hb; cases h; exact Kinds.of_eq rfl (h1 _ _ hb)
          · cases h; exact Kinds.panic
          · cases h
        · cases h
      · cases h; exact Kinds.oos
    · cases h; exact Kinds.oos
  · exact Kinds.panic

end Pq.Message
