import Verif.Lemmas.Arbitrary
import Verif.Props.HybridRle
import Verif.Props.PageState
import Verif.Props.Types
import Verif.Spec.SizeHint
/-
Property C80 (what makes a page abort the process) and C10 with overflow checks.
-/
namespace Pq.Props
open Pq.Spec Pq.Deser

/-! ### C80 -/

/-- The choice of the decoder by the code of the encoding, for the types that a dictionary may hold. -/
theorem state_by_code {ι π : Type} (page : DataPage) (dict : Option π) (plain : Res (PageState ι π))
    (bad : List Byte → Prop) (hplain : plain = .panic ↔ PageAborts page bad) :
    (page.encoding >>= fun encoding =>
      match encoding, dict with
      | .plainDictionary, some dict => dictionaryState page dict
      | .rleDictionary, some dict => dictionaryState page dict
      | .plain, _ => plain
      | _, _ => .err .featureNotSupported) = .panic ↔
    encodingCode page ∉ knownCodes ∨ (encodingCode page = 0#32 ∧ PageAborts page bad) ∨
      (dict.isSome ∧ (encodingCode page = 2#32 ∨ encodingCode page = 8#32) ∧
        PageAborts page IndicesAbort) := by
  rcases encoding_cases page with ⟨h, hk, _⟩ | ⟨e, h, hk, h0, h2, h8⟩
  · rw [h]
    exact ⟨fun _ => .inl hk, fun _ => rfl⟩
  · rw [h, Res.ok_bind]
    simp only [hk, not_true_eq_false, false_or]
    rw [← h0, ← h2, ← h8, ← hplain]
    cases dict with
    | none => cases e <;> simp
    | some d => cases e <;> simp [dictionaryState_panic]

/-- **C80** a page of a native type of `b` bytes, whatever its bytes and header: opening it aborts the
process exactly when the code of the encoding is unknown, or (plain or dictionary encoding) V2 levels
exceed the page, or the first run of the levels of an optional page with levels beyond 1 is malformed,
or the indices have no width or a malformed first run. Everything else is decoded or refused. -/
theorem C80_native {π : Type} (b : Nat) (page : DataPage) (dict : Option π) :
    nativeState b page dict = .panic ↔
      encodingCode page ∉ knownCodes ∨
      (encodingCode page = 0#32 ∧ PageAborts page fun _ => False) ∨
      (dict.isSome ∧ (encodingCode page = 2#32 ∨ encodingCode page = 8#32) ∧
        PageAborts page IndicesAbort) := by
  unfold nativeState
  apply state_by_code
  apply state_panic
  · intro h
    rw [(levels_eq page).1 h, (nativeCast_eq b page).1 h]
    split <;> rfl
  · intro e h
    rw [(levels_eq page).2 e h, (nativeCast_eq b page).2 e h]
    split <;> (intro h'; cases h')
  · intro r d v h
    have hn := nativeCast_of_split b page r d v h
    by_cases ho : isOptional page = true
    · rw [if_pos ho]
      have ho' := (isOptional_iff page).1 ho
      rcases levels_of_split page r d v h with ⟨hl, hb⟩ | ⟨⟨dl, hl⟩, hb⟩
      · rw [hl]
        exact ⟨fun _ => .inl ⟨ho', hb⟩, fun _ => rfl⟩
      · rw [hl, Res.ok_bind]
        cases hx : nativeCast b page with
        | panic => exact absurd hx hn
        | err e => simp [hb, Bind.bind, Res.bind]
        | ok x => simp [hb]
    · rw [if_neg ho]
      have ho' : ¬ DeclaredOptional page := fun h => ho ((isOptional_iff page).2 h)
      cases hx : nativeCast b page with
      | panic => exact absurd hx hn
      | err e => simp [ho', Res.map']
      | ok x => simp [ho', Res.map']

/-- **C80** the same for strings. -/
theorem C80_binary {π : Type} (page : DataPage) (dict : Option π) :
    binaryState page dict = .panic ↔
      encodingCode page ∉ knownCodes ∨
      (encodingCode page = 0#32 ∧ PageAborts page fun _ => False) ∨
      (dict.isSome ∧ (encodingCode page = 2#32 ∨ encodingCode page = 8#32) ∧
        PageAborts page IndicesAbort) := by
  unfold binaryState
  apply state_by_code
  apply state_panic
  · intro h
    rw [h]
    split <;> rfl
  · intro e h
    rw [h]
    split <;> (intro h'; cases h')
  · intro r d v h
    by_cases ho : isOptional page = true
    · rw [if_pos ho, h, Res.ok_bind]
      have ho' := (isOptional_iff page).1 ho
      rcases levels_of_split page r d v h with ⟨hl, hb⟩ | ⟨⟨dl, hl⟩, hb⟩
      · simp only [hl]
        exact ⟨fun _ => .inl ⟨ho', hb⟩, fun _ => rfl⟩
      · simp only [hl, Res.ok_bind]
        simp [hb]
    · rw [if_neg ho, h, Res.ok_bind]
      have ho' : ¬ DeclaredOptional page := fun h => ho ((isOptional_iff page).2 h)
      simp [ho']

/-- **C80** the same for fixed-length values, where plain values of length 0 abort as well; a page of
another type is refused. -/
theorem C80_fixed {π : Type} (page : DataPage) (dict : Option π) :
    fixedState page dict = .panic ↔
      ∃ size, page.descriptor.primitiveType.physicalType = .fixedLenByteArray size ∧
      (encodingCode page ∉ knownCodes ∨
      (encodingCode page = 0#32 ∧ PageAborts page fun _ => size = 0) ∨
      (dict.isSome ∧ (encodingCode page = 2#32 ∨ encodingCode page = 8#32) ∧
        PageAborts page IndicesAbort)) := by
  unfold fixedState
  cases hpt : page.descriptor.primitiveType.physicalType with
  | fixedLenByteArray size =>
    simp only [PhysicalType.fixedLenByteArray.injEq, exists_eq_left']
    apply state_by_code
    apply state_panic
    · intro h
      rw [h]
      split <;> rfl
    · intro e h
      rw [h]
      split <;> (intro h'; cases h')
    · intro r d v h
      by_cases ho : isOptional page = true
      · rw [if_pos ho, h, Res.ok_bind]
        have ho' := (isOptional_iff page).1 ho
        rcases levels_of_split page r d v h with ⟨hl, hb⟩ | ⟨⟨dl, hl⟩, hb⟩
        · simp only [hl]
          exact ⟨fun _ => .inl ⟨ho', hb⟩, fun _ => rfl⟩
        · simp only [hl, Res.ok_bind]
          unfold fixedIter
          by_cases hs : size = 0
          · rw [if_pos hs]
            exact ⟨fun _ => .inr hs, fun _ => rfl⟩
          · rw [if_neg hs]
            simp [hb, hs]
      · rw [if_neg ho, h, Res.ok_bind]
        have ho' : ¬ DeclaredOptional page := fun h => ho ((isOptional_iff page).2 h)
        simp only
        unfold fixedIter
        by_cases hs : size = 0
        · rw [if_pos hs]
          exact ⟨fun _ => .inr hs, fun _ => rfl⟩
        · rw [if_neg hs]
          simp [ho', hs, Res.map']
  | _ => simp

/-- **C80** the same for booleans, which have no dictionary. -/
theorem C80_boolean (page : DataPage) :
    booleanState page = .panic ↔
      encodingCode page ∉ knownCodes ∨
      (encodingCode page = 0#32 ∧ PageAborts page fun _ => False) := by
  unfold booleanState
  rcases encoding_cases page with ⟨h, hk, _⟩ | ⟨e, h, hk, h0, _⟩
  · rw [h]
    exact ⟨fun _ => .inl hk, fun _ => rfl⟩
  · rw [h, Res.ok_bind]
    simp only [hk, not_true_eq_false, false_or]
    by_cases he : e = .plain
    · subst he
      rw [show encodingCode page = 0#32 from h0.1 rfl]
      simp only [true_and]
      apply state_panic
      · intro h
        rw [(levels_eq page).1 h, h]
        split <;> rfl
      · intro e h
        rw [(levels_eq page).2 e h, h]
        split <;> (intro h'; cases h')
      · intro r d v h
        by_cases ho : isOptional page = true
        · rw [if_pos ho]
          have ho' := (isOptional_iff page).1 ho
          rcases levels_of_split page r d v h with ⟨hl, hb⟩ | ⟨⟨dl, hl⟩, hb⟩
          · simp only [hl]
            exact ⟨fun _ => .inl ⟨ho', hb⟩, fun _ => rfl⟩
          · simp only [hl, h, Res.ok_bind]
            simp [hb, Bitmap.Iter.new]
        · rw [if_neg ho, h, Res.ok_bind]
          have ho' : ¬ DeclaredOptional page := fun h => ho ((isOptional_iff page).2 h)
          simp [ho']
    · have : ¬ encodingCode page = 0#32 := fun h => he (h0.2 h)
      simp only [this, false_and, iff_false]
      cases e <;> simp_all

theorem drain_of_panic {σ α : Type} (next : σ → Res (Option α × σ)) (s s' : σ) (k : Nat)
    (ha : After next s k s') (hp : next s' = .panic) (fuel : Nat) : drain next fuel s = .panic := by
  induction ha generalizing fuel with
  | start s => cases fuel with
    | zero => rfl
    | succ f => rw [drain, hp]
  | call h _ ih => cases fuel with
    | zero => rfl
    | succ f => rw [drain, h]; simp only; rw [ih hp]; rfl

theorem runIter_after (it it' : RunIter) (k : Nat) (ha : After RunIter.next it k it')
    (h1 : it.iter.numBits = 1) : it'.iter.values <:+ it.iter.values ∧ it'.iter.numBits = 1 := by
  induction ha with
  | start s => exact ⟨List.suffix_refl _, h1⟩
  | @call s s' s'' a k h _ ih =>
    have step : s'.iter.values <:+ s.iter.values ∧ s'.iter.numBits = s.iter.numBits := by
      unfold RunIter.next at h
      split at h
      · cases h
      · cases hr : s.iter.next with
        | err e => rw [hr] at h; cases h
        | panic => rw [hr] at h; cases h
        | ok p =>
          obtain ⟨o, it2⟩ := p
          rw [hr] at h
          have hs := Rle.Runs.next_suffix _ _ _ hr
          have hn := Rle.Runs.next_numBits _ _ _ hr
          cases o with
          | none => cases h
          | some e =>
            cases e with
            | bitpacked p =>
              simp only [Res.ok.injEq, Prod.mk.injEq] at h
              rw [← h.2]; exact ⟨hs, hn⟩
            | rle v l =>
              simp only at h
              split at h
              · cases h
              · simp only [Res.ok.injEq, Prod.mk.injEq] at h
                rw [← h.2]; exact ⟨hs, hn⟩
    obtain ⟨a1, a2⟩ := ih (by rw [step.2, h1])
    exact ⟨a1.trans step.1, a2⟩

/-- **C80** iterating an opened page, whatever its bytes: plain native values never abort; the runs of
the validity and the indices or levels abort only at a malformed run header. -/
theorem C80_iterating :
    (∀ (π : Type) (b : Nat) (page : DataPage) (dict : Option π) (validity : DefLevels)
      (xs : List (Res (BitVec (8 * b)))),
      (nativeState b page dict = .ok (.required xs) ∨ nativeState b page dict = .ok (.optional validity xs)) →
      ∀ x ∈ xs, ∃ y, x = .ok y) ∧
    (∀ (data : List Byte) (N k : Nat) (it : RunIter),
      After RunIter.next (RunIter.new ⟨data, 1⟩ N) k it → it.next = .panic →
      ∃ s, s <:+ data ∧ BadRun 1 s) ∧
    ∀ (data : List Byte) (n N k : Nat) (d d' : Rle.Dec), n ≤ 32 → Rle.Dec.tryNew data n N = .ok d →
      After Rle.Dec.next d k d' → d'.next = .panic → ∃ s, s <:+ data ∧ BadRun n s := by
  refine ⟨?_, ?_, ?_⟩
  · intro π b page dict validity xs h
    have key : nativeCast b page = .ok xs := by
      unfold nativeState at h
      cases he : page.encoding with
      | err e => rw [he] at h; rcases h with h | h <;> cases h
      | panic => rw [he] at h; rcases h with h | h <;> cases h
      | ok e =>
        rw [he] at h
        simp only [Res.ok_bind] at h
        have hd : ∀ d : π, dictionaryState (ι := List (Res (BitVec (8 * b)))) page d ≠ .ok (.required xs) ∧
            dictionaryState page d ≠ .ok (.optional validity xs) := by
          intro d
          unfold dictionaryState
          cases DefLevels.tryNew page <;> cases dictIndicesDecoder page <;> split <;>
            constructor <;> (intro h; cases h)
        split at h
        · rcases h with h | h
          · exact absurd h (hd _).1
          · exact absurd h (hd _).2
        · rcases h with h | h
          · exact absurd h (hd _).1
          · exact absurd h (hd _).2
        · split at h
          · cases hl : DefLevels.tryNew page with
            | err e => rw [hl] at h; rcases h with h | h <;> cases h
            | panic => rw [hl] at h; rcases h with h | h <;> cases h
            | ok dl =>
              rw [hl] at h
              cases hn : nativeCast b page with
              | err e => rw [hn] at h; rcases h with h | h <;> cases h
              | panic => rw [hn] at h; rcases h with h | h <;> cases h
              | ok ys => rw [hn] at h; rcases h with h | h <;> cases h; rfl
          · cases hn : nativeCast b page with
            | err e => rw [hn] at h; rcases h with h | h <;> cases h
            | panic => rw [hn] at h; rcases h with h | h <;> cases h
            | ok ys => rw [hn] at h; rcases h with h | h <;> cases h; rfl
        · rcases h with h | h <;> cases h
    unfold nativeCast at key
    cases hs : splitBuffer page with
    | err e => rw [hs] at key; cases key
    | panic => rw [hs] at key; cases key
    | ok p =>
      rw [hs, Res.ok_bind] at key
      simp only at key
      split at key
      · cases key
      · cases key
        intro x hx
        rw [List.mem_map] at hx
        obtain ⟨c, hc, rfl⟩ := hx
        unfold chunksExact at hc
        rw [List.mem_map] at hc
        obtain ⟨i, hi, rfl⟩ := hc
        rw [List.mem_range] at hi
        obtain ⟨y, hy, _⟩ := (C29_native b 0).2.2 ((p.2.2.drop (i * b)).take b) (by
          rw [List.length_take, List.length_drop]
          have h1 : (i + 1) * b ≤ p.2.2.length := by
            calc (i + 1) * b ≤ p.2.2.length / b * b := Nat.mul_le_mul_right _ hi
              _ ≤ _ := Nat.div_mul_le_self _ _
          rw [Nat.add_mul, Nat.one_mul] at h1
          omega)
        exact ⟨y, hy⟩
  · intro data N k it ha hp
    obtain ⟨hs, h1⟩ := runIter_after _ _ _ ha rfl
    refine ⟨it.iter.values, hs, ?_⟩
    unfold RunIter.next at hp
    split at hp
    · cases hp
    · cases hr : it.iter.next with
      | err e => rw [hr] at hp; cases hp
      | panic =>
        have := Rle.Runs.next_panic 1 it.iter.values
        apply this
        rw [← hr]
        obtain ⟨⟨v, n⟩, _, _⟩ := it
        simp only at h1
        subst h1; rfl
      | ok p =>
        obtain ⟨o, it2⟩ := p
        rw [hr] at hp
        cases o with
        | none => cases hp
        | some e =>
          cases e with
          | bitpacked p => cases hp
          | rle v l =>
            cases v with
            | nil =>
              exfalso
              unfold Rle.Runs.next at hr
              split at hr
              · cases hr
              split at hr
              · cases hr
              split at hr
              · cases hr
              · cases hr
              · simp only at hr
                split at hr
                · cases hr
                split at hr
                · cases hr
                rename_i hne _
                rw [h1, show ceil8 1 = 1 from rfl] at hr
                unfold splitAt' at hr
                rw [if_pos (show 1 ≤ _ from List.length_pos_iff.2 hne)] at hr
                simp only [Res.ok.injEq, Prod.mk.injEq, Option.some.injEq, Rle.Encoded.rle.injEq] at hr
                have := congrArg List.length hr.1.1
                rw [List.length_take] at this
                have h0 := List.length_pos_iff.2 hne
                simp only [List.length_nil] at this
                omega
            | cons v vs => cases hp
  · intro data n N k d d' hn ht ha hp
    have hd : Rle.decode data n N = .panic := by
      unfold Rle.decode
      rw [ht]
      exact drain_of_panic _ _ _ _ ha hp _
    rcases C10_exact_count data n N hn with ⟨xs, h, _⟩ | ⟨_, h⟩
    · rw [hd] at h; cases h
    · exact h

-- both kinds of iterators of levels, up to a malformed run
example : After RunIter.next (RunIter.new ⟨[0x03, 0xA5, 0x04], 1⟩ 10) 1 ⟨⟨[0x04], 1⟩, 10, 8⟩ :=
  .call (a := .bitmap [0xA5] 8) (by decide) (.start _)
example : ∃ it, After RunIter.next (RunIter.new ⟨[0x03, 0xA5] ++ List.replicate 11 0x80, 1⟩ 10) 1 it ∧
    it.next = .panic :=
  ⟨⟨⟨List.replicate 11 0x80, 1⟩, 10, 8⟩, .call (a := .bitmap [0xA5] 8) (by decide) (.start _), by decide⟩

-- a column of 32-bit integers that opens, and what the conditions say of it
example :
    (nativeState (π := Unit) 4 (statePage [1, 0, 0, 0, 2, 0, 0, 0] 2#32 0#32 .int32 .required 0#16) none).noPanic = true := by
  decide

/-- **C80** the property "no page aborts the process" is violated in each of the ways above: an unknown
encoding, V2 levels longer than the page, dictionary indices without a width or with a cut run, a
malformed run of nested levels, values of length 0. -/
theorem C80_violated :
    (nativeState (π := Unit) 4 (statePage [] 0#32 1#32 .int32 .required 0#16) none).noPanic = false ∧
    (nativeState (π := Unit) 4
      { statePage [1, 2] 1#32 0#32 .int32 .required 0#16 with
        header := .v2 { numValues := 1#32, numNulls := 0#32, numRows := 1#32, encoding := 0#32
                        definitionLevelsByteLength := 2#32, repetitionLevelsByteLength := 1#32
                        isCompressed := none, statistics := none } } none).noPanic = false ∧
    (binaryState (statePage [] 1#32 8#32 .byteArray .required 0#16) (some ())).noPanic = false ∧
    (binaryState (statePage [12, 4, 7] 1#32 8#32 .byteArray .required 0#16) (some ())).noPanic = false ∧
    (nativeState (π := Unit) 4
      (statePage ([11, 0, 0, 0] ++ List.replicate 11 0x80) 1#32 0#32 .int32 .optional 2#16) none).noPanic = false ∧
    (fixedState (π := Unit) (statePage [] 0#32 0#32 (.fixedLenByteArray 0) .required 0#16) none).noPanic = false := by
  decide

/-! ### C10 with overflow checks -/

/-- **C10** the decoder as compiled with overflow checks (the debug profile) computes what the one
without computes, unless a bit-packed run on the way announces 2^64 bytes or more: then it aborts. -/
theorem C10_checked (data : List Byte) (n N : Nat) :
    Rle.decodeCk false data n N = Rle.decode data n N ∧
    (Rle.decodeCk true data n N = Rle.decode data n N ∨
      (Rle.decodeCk true data n N = .panic ∧ ∃ s, s <:+ data ∧ WideRun n s)) := by
  constructor
  · rcases Rle.decodeCk_eq false data n N with h | ⟨h, _⟩
    · exact h
    · cases h
  · rcases Rle.decodeCk_eq true data n N with h | ⟨_, h, hw⟩
    · exact .inl h
    · exact .inr ⟨h, hw⟩

-- the two differ: 2^62 + 1 groups of 4-bit values, 2^64 + 4 bytes by the header
example :
    Rle.decodeCk true [0x83, 0x80, 0x80, 0x80, 0x80, 0x80, 0x80, 0x80, 0x80, 0x01, 0x21, 0x43] 4 3 = .panic ∧
    Rle.decode [0x83, 0x80, 0x80, 0x80, 0x80, 0x80, 0x80, 0x80, 0x80, 0x01, 0x21, 0x43] 4 3 = .ok [1, 2, 3] ∧
    Rle.decodeCk true [0x03, 0x21, 0x43] 4 3 = .ok [1, 2, 3] := by
  decide +kernel

end Pq.Props
