import Verif.Model.HybridRleChecked
import Verif.Spec.Arbitrary
import Verif.Lemmas.HybridRle2
import Verif.Lemmas.Deserialize2
import Verif.Lemmas.Types
/-
Helper lemmas on arbitrary pages, and on the hybrid RLE decoder with overflow checks.
-/
namespace Pq.Rle
open Pq.Spec

theorem shiftRight_one (v : Nat) (h : v < 2 ^ 64) : (BitVec.ofNat 64 v >>> 1).toNat = v / 2 := by
  rw [BitVec.toNat_ushiftRight, BitVec.toNat_ofNat, Nat.mod_eq_of_lt h, Nat.shiftRight_eq_div_pow]

theorem Runs.nextCk_eq (ck : Bool) (d : Runs) :
    d.nextCk ck = d.next ∨ (ck = true ∧ d.nextCk ck = .panic ∧ WideRun d.numBits d.values) := by
  unfold Runs.nextCk Runs.next
  split
  · exact .inl rfl
  · split
    · exact .inl rfl
    · rw [Leb.decode_any]
      by_cases ho : Overlong 9 d.values
      · simp only [if_pos ho]; exact .inl trivial
      · simp only [if_neg ho]
        split
        · exact .inl rfl
        · rename_i hne
          split
          · rename_i hodd
            split
            · rename_i hw
              refine .inr ⟨hw.1, rfl, ho, (and_one _).1 hodd, List.length_pos_iff.2 hne, ?_⟩
              have := hw.2
              rwa [shiftRight_one _ (Leb.base128_lt_of_not_overlong 9 _ ho)] at this
            · exact .inl rfl
          · exact .inl rfl

theorem readNextCk_eq (ck : Bool) (d : Runs) (rem : Nat) :
    readNextCk ck d rem = readNext d rem ∨
      (ck = true ∧ readNextCk ck d rem = .panic ∧ WideRun d.numBits d.values) := by
  rcases Runs.nextCk_eq ck d with h | ⟨h1, h2, h3⟩
  · left; unfold readNextCk readNext; rw [h]; rfl
  · right; exact ⟨h1, by unfold readNextCk; rw [h2], h3⟩

theorem readNext_suffix (d : Runs) (rem : Nat) (st : State) (d' : Runs)
    (h : readNext d rem = .ok (st, d')) : d'.values <:+ d.values ∧ d'.numBits = d.numBits := by
  have key : ∀ o, d.next = .ok (o, d') → d'.values <:+ d.values ∧ d'.numBits = d.numBits :=
    fun o e => ⟨Runs.next_suffix _ _ _ e, Runs.next_numBits _ _ _ e⟩
  unfold readNext at h
  split at h
  · cases h
  · cases h
  · rename_i hr
    dsimp only at h
    split at h
    · cases h; exact key _ hr
    · cases h
    · cases h
  · rename_i hr
    split at h <;> (cases h; exact key _ hr)
  · rename_i hr
    cases h; exact key _ hr

theorem nextFuelCk_eq (ck : Bool) (fuel : Nat) (d : Dec) :
    Dec.nextFuelCk ck fuel d = Dec.nextFuel fuel d ∨
      (ck = true ∧ Dec.nextFuelCk ck fuel d = .panic ∧
        ∃ s, s <:+ d.decoder.values ∧ WideRun d.decoder.numBits s) := by
  induction fuel generalizing d with
  | zero => exact .inl rfl
  | succ fuel ih =>
    rw [Dec.nextFuelCk, Dec.nextFuel]
    split
    · exact .inl rfl
    · cases hst : d.state.next with
      | err e => exact .inl rfl
      | panic => exact .inl rfl
      | ok q =>
        obtain ⟨o, st⟩ := q
        cases o with
        | some x => exact .inl rfl
        | none =>
          simp only
          rcases readNextCk_eq ck d.decoder d.remaining with h | ⟨h1, h2, h3⟩
          · rw [h]
            cases hr : readNext d.decoder d.remaining with
            | err e => exact .inl rfl
            | panic => exact .inl rfl
            | ok p =>
              obtain ⟨hs, hn⟩ := readNext_suffix _ _ _ _ hr
              rcases ih { d with state := p.1, decoder := p.2 } with h | ⟨h1, h2, s, h3, h4⟩
              · exact .inl h
              · exact .inr ⟨h1, h2, s, h3.trans hs, hn ▸ h4⟩
          · rw [h2]
            exact .inr ⟨h1, rfl, _, List.suffix_refl _, h3⟩

theorem nextFuel_suffix (fuel : Nat) (d d' : Dec) (o : Option U32)
    (h : Dec.nextFuel fuel d = .ok (o, d')) :
    d'.decoder.values <:+ d.decoder.values ∧ d'.decoder.numBits = d.decoder.numBits := by
  induction fuel generalizing d with
  | zero => cases h
  | succ fuel ih =>
    rw [Dec.nextFuel] at h
    split at h
    · cases h; exact ⟨List.suffix_refl _, rfl⟩
    · split at h
      · cases h
      · cases h
      · cases h; exact ⟨List.suffix_refl _, rfl⟩
      · split at h
        · cases h
        · cases h
        · rename_i hr
          obtain ⟨hs, hn⟩ := readNext_suffix _ _ _ _ hr
          obtain ⟨h1, h2⟩ := ih _ h
          exact ⟨h1.trans hs, h2.trans hn⟩

theorem drainCk_eq (ck : Bool) (fuel : Nat) (d : Dec) :
    drain (Dec.nextCk ck) fuel d = drain Dec.next fuel d ∨
      (ck = true ∧ drain (Dec.nextCk ck) fuel d = .panic ∧
        ∃ s, s <:+ d.decoder.values ∧ WideRun d.decoder.numBits s) := by
  induction fuel generalizing d with
  | zero => exact .inl rfl
  | succ fuel ih =>
    rw [drain, drain]
    rcases nextFuelCk_eq ck (d.decoder.values.length + 2) d with h | ⟨h1, h2, h3⟩
    · rw [show Dec.nextCk ck d = Dec.next d from h]
      cases hr : Dec.next d with
      | err e => exact .inl rfl
      | panic => exact .inl rfl
      | ok p =>
        obtain ⟨o, d'⟩ := p
        cases o with
        | none => exact .inl rfl
        | some x =>
          obtain ⟨hs, hn⟩ := nextFuel_suffix _ _ _ _ hr
          rcases ih d' with h | ⟨h1, h2, s, h3, h4⟩
          · simp only [h]; exact .inl trivial
          · simp only [h2]; exact .inr ⟨h1, rfl, s, h3.trans hs, hn ▸ h4⟩
    · rw [show Dec.nextCk ck d = .panic from h2]
      exact .inr ⟨h1, rfl, h3⟩

theorem decodeCk_eq (ck : Bool) (data : List Byte) (n N : Nat) :
    decodeCk ck data n N = decode data n N ∨
      (ck = true ∧ decodeCk ck data n N = .panic ∧ ∃ s, s <:+ data ∧ WideRun n s) := by
  unfold decodeCk decode Dec.tryNewCk Dec.tryNew
  rcases readNextCk_eq ck ⟨data, n⟩ N with h | ⟨h1, h2, h3⟩
  · rw [h]
    cases hr : readNext ⟨data, n⟩ N with
    | err e => exact .inl rfl
    | panic => exact .inl rfl
    | ok p =>
      obtain ⟨hs, hn⟩ := readNext_suffix _ _ _ _ hr
      rcases drainCk_eq ck (N + 1) ⟨p.2, p.1, N⟩ with h | ⟨h1, h2, s, h3, h4⟩
      · exact .inl h
      · exact .inr ⟨h1, h2, s, h3.trans hs, by rw [show p.2.numBits = n from hn] at h4; exact h4⟩
  · rw [h2]
    exact .inr ⟨h1, rfl, data, List.suffix_refl _, h3⟩

/-- A decoder of values of up to 32 bits aborts on creation exactly if its first run is malformed. -/
theorem tryNew_panic (data : List Byte) (n N : Nat) (hn : n ≤ 32) :
    Dec.tryNew data n N = .panic ↔ n ≠ 0 ∧ BadRun n data := by
  constructor
  · intro h
    by_cases h0 : n = 0
    · subst h0
      simp [Dec.tryNew, readNext, Runs.next] at h
    refine ⟨h0, ?_⟩
    cases hr : Runs.next ⟨data, n⟩ with
    | panic => exact Runs.next_panic n data hr
    | err e => simp [Dec.tryNew, readNext, hr] at h
    | ok p =>
      obtain ⟨o, d⟩ := p
      have hnb := Runs.next_numBits _ _ _ hr
      simp only at hnb
      cases o with
      | none => simp [Dec.tryNew, readNext, hr] at h
      | some run =>
        cases run with
        | rle pack k =>
          simp only [Dec.tryNew, readNext, hr] at h
          by_cases hk : k = 1
          · simp [hk] at h
          · simp [hk] at h
        | bitpacked packed =>
          obtain ⟨b, h1, _⟩ := Bitpack.tryNew_inv 4 n (min (packed.length * 8 / n) N) (by simp)
            (by omega) (by omega) packed (by
              have := Nat.div_mul_le_self (packed.length * 8) n
              have := Nat.mul_le_mul_right n (Nat.min_le_left (packed.length * 8 / n) N)
              omega)
          simp [Dec.tryNew, readNext, hr, hnb, h1] at h
  · rintro ⟨h0, hb⟩
    have : Runs.next ⟨data, n⟩ = .panic := by
      have hne : data ≠ [] := by
        rintro rfl
        rcases hb with hb | ⟨_, _, hb, _⟩
        · exact hb
        · simp at hb
      unfold Runs.next
      simp only [h0, hne, if_false]
      rw [Leb.decode_any]
      rcases hb with hb | ⟨ho, he, hp, hl⟩
      · rw [if_pos hb]
      · rw [if_neg ho]
        simp only
        rw [if_neg (List.length_pos_iff.1 hp), if_neg (by rw [and_one]; omega), splitAt', if_neg]
        rw [ceil8_eq]; omega
    simp [Dec.tryNew, readNext, this]

end Pq.Rle

namespace Pq.Deser
open Pq.Spec

theorem split_ok (page : DataPage) (r d v : List Byte) :
    splitBuffer page = .ok (r, d, v) ↔ PageSections page r d v := by
  unfold splitBuffer PageSections LayoutV1
  cases hh : page.header with
  | v1 h => exact splitBufferV1_iff _ _ _ _ _ _
  | v2 h =>
    simp only
    unfold toUsize
    by_cases h1 : 0 ≤ h.definitionLevelsByteLength.toInt
    · by_cases h2 : 0 ≤ h.repetitionLevelsByteLength.toInt
      · rw [if_pos h1, if_pos h2, Res.ok_bind, Res.ok_bind, splitBufferV2_eq]
        split
        · rename_i hl
          simp only [Res.ok.injEq, Prod.mk.injEq]
          constructor
          · rintro ⟨rfl, rfl, rfl⟩
            refine ⟨?_, ?_, ?_⟩
            · rw [← List.drop_drop, List.append_assoc, List.take_append_drop, List.take_append_drop]
            · rw [List.length_take]; omega
            · rw [List.length_take, List.length_drop]; omega
          · rintro ⟨hb, e1, e2⟩
            rw [e1, e2]
            simp only [Int.toNat_natCast]
            rw [hb, List.append_assoc]
            refine ⟨by simp, by simp, ?_⟩
            rw [← List.append_assoc, ← List.length_append, List.drop_left]
        · rename_i hl
          constructor
          · intro e; cases e
          · rintro ⟨hb, e1, e2⟩
            exfalso; apply hl
            rw [hb, e1, e2]
            simp only [Int.toNat_natCast, List.length_append]
            omega
      · rw [if_pos h1, if_neg h2, Res.ok_bind]
        constructor
        · intro e; cases e
        · rintro ⟨_, e1, _⟩; omega
    · rw [if_neg h1]
      constructor
      · intro e; cases e
      · rintro ⟨_, _, e1⟩; omega

theorem split_panic (page : DataPage) : splitBuffer page = .panic ↔ Overrun page := by
  unfold splitBuffer Overrun
  split
  · rename_i h hh
    constructor
    · intro e; exact absurd e (splitBufferV1_ne_panic _ _ _).1
    · rintro ⟨h', e, _⟩; rw [hh] at e; cases e
  · rename_i h hh
    unfold toUsize
    constructor
    · intro e
      refine ⟨h, hh, ?_⟩
      by_cases h1 : 0 ≤ h.definitionLevelsByteLength.toInt
      · by_cases h2 : 0 ≤ h.repetitionLevelsByteLength.toInt
        · rw [if_pos h1, if_pos h2, Res.ok_bind, Res.ok_bind, splitBufferV2_eq] at e
          split at e
          · cases e
          · exact ⟨h2, h1, by omega⟩
        · rw [if_pos h1, if_neg h2, Res.ok_bind] at e; cases e
      · rw [if_neg h1] at e; cases e
    · rintro ⟨h', e, h2, h1, hl⟩
      rw [hh] at e
      cases e
      rw [if_pos h1, if_pos h2, Res.ok_bind, Res.ok_bind, splitBufferV2_eq, if_neg (by omega)]

/-- The three outcomes of splitting a page. -/
theorem split_cases (page : DataPage) :
    (splitBuffer page = .panic ∧ Overrun page) ∨
    (∃ e, splitBuffer page = .err e ∧ ¬ Overrun page ∧ ∀ r d v, ¬ PageSections page r d v) ∨
    (∃ r d v, splitBuffer page = .ok (r, d, v) ∧ ¬ Overrun page ∧ PageSections page r d v ∧
      ∀ r' d' v', PageSections page r' d' v' → r' = r ∧ d' = d ∧ v' = v) := by
  cases h : splitBuffer page with
  | panic => exact .inl ⟨rfl, (split_panic page).1 h⟩
  | err e =>
    refine .inr (.inl ⟨e, rfl, fun ho => ?_, fun r d v hs => ?_⟩)
    · rw [(split_panic page).2 ho] at h; cases h
    · rw [(split_ok page r d v).2 hs] at h; cases h
  | ok p =>
    obtain ⟨r, d, v⟩ := p
    refine .inr (.inr ⟨r, d, v, rfl, fun ho => ?_, (split_ok page r d v).1 h, fun r' d' v' hs => ?_⟩)
    · rw [(split_panic page).2 ho] at h; cases h
    · rw [(split_ok page r' d' v').2 hs] at h
      cases h; exact ⟨rfl, rfl, rfl⟩

theorem levelWidth_iff (m : BitVec 16) (w : Nat) : LevelWidth m w ↔ w = getBitWidth m := by
  obtain ⟨h1, h2⟩ := getBitWidth_spec m
  have key : ∀ v, m.toNat < 2 ^ v → getBitWidth m ≤ v := by
    intro v hv
    by_cases h0 : getBitWidth m = 0
    · omega
    · have h3 : 2 ^ (getBitWidth m - 1) < 2 ^ v := Nat.lt_of_le_of_lt (h2 h0) hv
      have := (Nat.pow_lt_pow_iff_right (by decide : 1 < 2)).1 h3
      omega
  constructor
  · rintro ⟨h, hl⟩
    exact Nat.le_antisymm (hl _ h1) (key _ h)
  · rintro rfl
    exact ⟨h1, key⟩

theorem tryNew_ne_err (data : List Byte) (n N : Nat) (hn : n ≤ 32) (e : Err) :
    Rle.Dec.tryNew data n N ≠ .err e := by
  intro h
  have hd : Rle.decode data n N = .err e := by
    unfold Rle.decode
    rw [h]
  by_cases h0 : n = 0
  · subst h0
    rw [Rle.decode_zero] at hd
    cases hd
  · rw [Rle.decode_eq n (by omega) hn] at hd
    split at hd
    · cases hd
    · exact absurd hd (Rle.expand_ne_err _ _ _ _ _)

/-- With the sections at hand, the levels abort exactly on a malformed first run. -/
theorem levels_of_split (page : DataPage) (r d v : List Byte) (h : splitBuffer page = .ok (r, d, v)) :
    (DefLevels.tryNew page = .panic ∧ LevelsAbort page d) ∨
    ((∃ dl, DefLevels.tryNew page = .ok dl) ∧ ¬ LevelsAbort page d) := by
  unfold DefLevels.tryNew LevelsAbort
  rw [h, Res.ok_bind]
  simp only
  by_cases h1 : page.descriptor.maxDefLevel = 1#16
  · rw [if_pos h1]
    exact .inr ⟨⟨_, rfl⟩, fun h => h.1 h1⟩
  · rw [if_neg h1]
    have hw : getBitWidth page.descriptor.maxDefLevel ≤ 32 := by unfold getBitWidth; omega
    cases ht : Rle.Dec.tryNew d (getBitWidth page.descriptor.maxDefLevel) page.numValues with
    | panic =>
      left
      exact ⟨rfl, h1, _, (levelWidth_iff _ _).2 rfl, (Rle.tryNew_panic _ _ _ hw).1 ht⟩
    | err e => exact absurd ht (tryNew_ne_err _ _ _ hw _)
    | ok dec =>
      right
      refine ⟨⟨_, rfl⟩, ?_⟩
      rintro ⟨_, w, hw', hb⟩
      rw [(levelWidth_iff _ _).1 hw'] at hb
      rw [(Rle.tryNew_panic _ _ page.numValues hw).2 hb] at ht
      cases ht

theorem indices_of_split (page : DataPage) (r d v : List Byte) (h : splitBuffer page = .ok (r, d, v)) :
    dictIndicesDecoder page = .panic ↔ IndicesAbort v := by
  unfold dictIndicesDecoder IndicesAbort
  rw [h, Res.ok_bind]
  cases v with
  | nil => simp
  | cons w rest =>
    simp only [reduceCtorEq, List.cons.injEq, false_or]
    by_cases hw : w.toNat > 32
    · rw [if_pos hw]
      constructor
      · intro e; cases e
      · rintro ⟨w', rest', ⟨rfl, rfl⟩, _, h32, _⟩; omega
    · rw [if_neg hw, Rle.tryNew_panic _ _ _ (by omega)]
      constructor
      · rintro ⟨h0, hb⟩; exact ⟨w, rest, ⟨rfl, rfl⟩, h0, by omega, hb⟩
      · rintro ⟨w', rest', ⟨rfl, rfl⟩, h0, _, hb⟩; exact ⟨h0, hb⟩

theorem encoding_cases (page : DataPage) :
    (page.encoding = .panic ∧ encodingCode page ∉ knownCodes ∧ encodingCode page ≠ 0#32 ∧
      encodingCode page ≠ 2#32 ∧ encodingCode page ≠ 8#32) ∨
    (∃ e, page.encoding = .ok e ∧ encodingCode page ∈ knownCodes ∧
      (e = .plain ↔ encodingCode page = 0#32) ∧ (e = .plainDictionary ↔ encodingCode page = 2#32) ∧
      (e = .rleDictionary ↔ encodingCode page = 8#32)) := by
  have h : page.encoding = Encoding.unwrapThrift (encodingCode page) := by
    unfold DataPage.encoding encodingCode
    cases page.header <;> rfl
  rw [h]
  generalize encodingCode page = c
  unfold Encoding.unwrapThrift Encoding.ofThrift knownCodes
  by_cases h0 : c = 0#32
  · subst h0; exact .inr ⟨.plain, by decide⟩
  by_cases h2 : c = 2#32
  · subst h2; exact .inr ⟨.plainDictionary, by decide⟩
  by_cases h3 : c = 3#32
  · subst h3; exact .inr ⟨.rle, by decide⟩
  by_cases h4 : c = 4#32
  · subst h4; exact .inr ⟨.bitPacked, by decide⟩
  by_cases h5 : c = 5#32
  · subst h5; exact .inr ⟨.deltaBinaryPacked, by decide⟩
  by_cases h6 : c = 6#32
  · subst h6; exact .inr ⟨.deltaLengthByteArray, by decide⟩
  by_cases h7 : c = 7#32
  · subst h7; exact .inr ⟨.deltaByteArray, by decide⟩
  by_cases h8 : c = 8#32
  · subst h8; exact .inr ⟨.rleDictionary, by decide⟩
  by_cases h9 : c = 9#32
  · subst h9; exact .inr ⟨.byteStreamSplit, by decide⟩
  left
  simp [*]

theorem nativeCast_of_split (b : Nat) (page : DataPage) (r d v : List Byte)
    (h : splitBuffer page = .ok (r, d, v)) : nativeCast b page ≠ .panic := by
  unfold nativeCast
  rw [h, Res.ok_bind]
  simp only
  split <;> simp

theorem nativeCast_eq (b : Nat) (page : DataPage) :
    (splitBuffer page = .panic → nativeCast b page = .panic) ∧
    (∀ e, splitBuffer page = .err e → nativeCast b page = .err e) := by
  unfold nativeCast
  constructor
  · intro h; rw [h]; rfl
  · intro e h; rw [h]; rfl

theorem levels_eq (page : DataPage) :
    (splitBuffer page = .panic → DefLevels.tryNew page = .panic) ∧
    (∀ e, splitBuffer page = .err e → DefLevels.tryNew page = .err e) := by
  unfold DefLevels.tryNew
  constructor
  · intro h; rw [h]; rfl
  · intro e h; rw [h]; rfl

theorem indices_eq (page : DataPage) :
    (splitBuffer page = .panic → dictIndicesDecoder page = .panic) ∧
    (∀ e, splitBuffer page = .err e → dictIndicesDecoder page = .err e) := by
  unfold dictIndicesDecoder
  constructor
  · intro h; rw [h]; rfl
  · intro e h; rw [h]; rfl

theorem isOptional_iff (page : DataPage) : isOptional page = true ↔ DeclaredOptional page := by
  unfold isOptional DeclaredOptional
  simp

/-- The shape of all states: a first part that may abort on the levels, then one that may abort on the
values. -/
theorem state_panic (page : DataPage) (f : Res α) (bad : List Byte → Prop)
    (hp : splitBuffer page = .panic → f = .panic)
    (he : ∀ e, splitBuffer page = .err e → f ≠ .panic)
    (hok : ∀ r d v, splitBuffer page = .ok (r, d, v) →
      (f = .panic ↔ (DeclaredOptional page ∧ LevelsAbort page d) ∨ bad v)) :
    f = .panic ↔ PageAborts page bad := by
  unfold PageAborts
  rcases split_cases page with ⟨h, ho⟩ | ⟨e, h, ho, hs⟩ | ⟨r, d, v, h, ho, hs, hu⟩
  · exact ⟨fun _ => .inl ho, fun _ => hp h⟩
  · constructor
    · intro hf; exact absurd hf (he e h)
    · rintro (h' | ⟨r, d, v, h', _⟩)
      · exact absurd h' ho
      · exact absurd h' (hs r d v)
  · rw [hok r d v h]
    constructor
    · intro h'; exact .inr ⟨r, d, v, hs, h'⟩
    · rintro (h' | ⟨r', d', v', hs', h'⟩)
      · exact absurd h' ho
      · obtain ⟨_, rfl, rfl⟩ := hu r' d' v' hs'
        exact h'

theorem dictionaryState_panic {ι π : Type} (page : DataPage) (dict : π) :
    dictionaryState (ι := ι) page dict = .panic ↔ PageAborts page IndicesAbort := by
  apply state_panic
  · intro h
    unfold dictionaryState
    rw [(levels_eq page).1 h, (indices_eq page).1 h]
    split <;> rfl
  · intro e h
    unfold dictionaryState
    rw [(levels_eq page).2 e h, (indices_eq page).2 e h]
    split <;> (intro h'; cases h')
  · intro r d v h
    unfold dictionaryState
    have hi := indices_of_split page r d v h
    by_cases ho : isOptional page = true
    · rw [if_pos ho]
      have ho' := (isOptional_iff page).1 ho
      rcases levels_of_split page r d v h with ⟨hl, hb⟩ | ⟨⟨dl, hl⟩, hb⟩
      · rw [hl]
        exact ⟨fun _ => .inl ⟨ho', hb⟩, fun _ => rfl⟩
      · rw [hl, Res.ok_bind, ← hi]
        cases hx : dictIndicesDecoder page with
        | panic => exact ⟨fun _ => .inr rfl, fun _ => rfl⟩
        | err e => simp [hb, Bind.bind, Res.bind]
        | ok x => simp [hb]
    · rw [if_neg ho, ← hi]
      have ho' : ¬ DeclaredOptional page := fun h => ho ((isOptional_iff page).2 h)
      cases hx : dictIndicesDecoder page with
      | panic => exact ⟨fun _ => .inr rfl, fun _ => rfl⟩
      | err e => simp [ho', Bind.bind, Res.bind]
      | ok x => simp [ho']

end Pq.Deser
