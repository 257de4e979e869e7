import Verif.Spec.Message
import Verif.Lemmas.Indexes
import Mathlib.Tactic.IntervalCases
/-
Lemmas about the tokenizer, the numbers and the tables of words of the message syntax.
-/
namespace Pq
open Pq.Spec Pq.Message

/-! ### characters -/

theorem isWhitespace_iff (c : Char) : isWhitespace c = true ↔ IsSpace c := by
  unfold isWhitespace IsSpace whitespaceRanges
  simp only [List.mem_cons, List.not_mem_nil, or_false, exists_eq_or_imp, exists_eq_left, Bool.or_eq_true,
    Bool.and_eq_true, decide_eq_true_eq]
  omega

theorem isSchemaDelim_iff (c : Char) : isSchemaDelim c = true ↔ IsDelimiter c := by
  simp [isSchemaDelim, IsDelimiter, or_assoc]

theorem delim_not_space {c : Char} (h : IsDelimiter c) : ¬ IsSpace c := by
  unfold IsDelimiter at h
  simp only [List.mem_cons, List.not_mem_nil, or_false] at h
  rw [← isWhitespace_iff]
  rcases h with rfl | rfl | rfl | rfl | rfl | rfl | rfl <;> decide

instance (c : Char) : Decidable (IsSpace c) := decidable_of_iff _ (isWhitespace_iff c)
instance (c : Char) : Decidable (IsDelimiter c) := decidable_of_iff _ (isSchemaDelim_iff c)
instance (c : Char) : Decidable (IsWordChar c) := inferInstanceAs (Decidable (_ ∧ _))
instance (s : String) : Decidable (IsWord s) := inferInstanceAs (Decidable (_ ∧ _))

/-! ### the tokenizer -/

/-- The token being read, if any. -/
def flush (h : List Char) : List String := if h.isEmpty then [] else [String.ofList h]

/-- The tokenizer in one pass. -/
def scan (h : List Char) : List Char → List String
  | [] => flush h
  | c :: cs =>
    if isWhitespace c then flush h ++ scan [] cs
    else if isSchemaDelim c then flush h ++ String.ofList [c] :: scan [] cs
    else scan (h ++ [c]) cs

theorem split_scan (cs : List Char) : ∀ (p : List Char) (E : List String) (P : List Char),
    (∀ q, splitToken [] (p ++ q) = E ++ splitToken P q) →
    (splitWhitespace p cs).flatMap (splitToken []) = E ++ scan P cs := by
  induction cs with
  | nil =>
    intro p E P h
    have h0 := h []
    simp only [List.append_nil] at h0
    have : (splitWhitespace p []).flatMap (splitToken []) = splitToken [] p := by
      cases p <;> simp [splitWhitespace, splitToken]
    rw [this, h0]
    rfl
  | cons c cs ih =>
    intro p E P h
    unfold splitWhitespace scan
    by_cases hw : isWhitespace c = true
    · rw [if_pos hw, if_pos hw]
      have hn := ih [] [] [] (fun q => by simp)
      simp only [List.nil_append] at hn
      have h0 := h []
      simp only [List.append_nil] at h0
      have : splitToken P [] = flush P := rfl
      rw [this] at h0
      cases p with
      | nil =>
        simp only [List.isEmpty_nil, if_true, hn]
        rw [← List.append_assoc, ← h0]
        simp [splitToken]
      | cons a p =>
        simp only [List.isEmpty_cons, Bool.false_eq_true, if_false, List.flatMap_cons, hn, h0, List.append_assoc]
    · rw [if_neg hw, if_neg hw]
      by_cases hd : isSchemaDelim c = true
      · rw [if_pos hd]
        have := ih (p ++ [c]) (E ++ flush P ++ [String.ofList [c]]) [] (by
          intro q
          rw [List.append_assoc, h]
          simp [splitToken, hd, flush])
        rw [this]
        simp
      · rw [if_neg hd]
        apply ih (p ++ [c]) E (P ++ [c])
        intro q
        rw [List.append_assoc, h]
        simp [splitToken, hd]

theorem fromStr_rest (s : String) : (Tokenizer.fromStr s).rest = scan [] s.toList := by
  have := split_scan s.toList [] [] [] (fun q => by simp)
  simpa [Tokenizer.fromStr] using this

theorem scan_tokens (cs : List Char) : ∀ h : List Char, (∀ c ∈ h, IsWordChar c) →
    Tokens (h ++ cs) (scan h cs) := by
  induction cs with
  | nil =>
    intro h hh
    cases h with
    | nil => exact .nil
    | cons a h => exact .word (by simp) hh (by simp) .nil
  | cons c cs ih =>
    intro h hh
    unfold scan
    have key : ∀ ts, Tokens (c :: cs) ts → ¬ IsWordChar c → Tokens (h ++ c :: cs) (flush h ++ ts) := by
      intro ts ht hc
      cases h with
      | nil => exact ht
      | cons a h => exact .word (by simp) hh (by simpa using hc) ht
    by_cases hw : isWhitespace c = true
    · rw [if_pos hw]
      have hs := (isWhitespace_iff c).1 hw
      exact key _ (.space hs (ih [] (by simp))) (fun h => h.1 hs)
    · rw [if_neg hw]
      by_cases hd : isSchemaDelim c = true
      · rw [if_pos hd]
        have hs := (isSchemaDelim_iff c).1 hd
        exact key _ (.delimiter hs (ih [] (by simp))) (fun h => h.2 hs)
      · rw [if_neg hd]
        have := ih (h ++ [c]) (by
          intro x hx
          rcases List.mem_append.1 hx with hx | hx
          · exact hh x hx
          · rw [List.mem_singleton.1 hx]
            exact ⟨fun hc => hw ((isWhitespace_iff c).2 hc), fun hc => hd ((isSchemaDelim_iff c).2 hc)⟩)
        simpa using this

theorem scan_word (w cs : List Char) (hw : ∀ c ∈ w, IsWordChar c) : ∀ h, scan h (w ++ cs) = scan (h ++ w) cs := by
  induction w with
  | nil => intro h; simp
  | cons a w ih =>
    intro h
    have ha := hw a (by simp)
    have h1 : isWhitespace a ≠ true := fun hc => ha.1 ((isWhitespace_iff a).1 hc)
    have h2 : isSchemaDelim a ≠ true := fun hc => ha.2 ((isSchemaDelim_iff a).1 hc)
    rw [List.cons_append, scan, if_neg h1, if_neg h2, ih (fun c hc => hw c (by simp [hc]))]
    simp

theorem tokens_scan {cs : List Char} {ts : List String} (h : Tokens cs ts) : ts = scan [] cs := by
  induction h with
  | nil => rfl
  | space hc _ ih => rw [scan, if_pos ((isWhitespace_iff _).2 hc), ← ih]; rfl
  | delimiter hc _ ih =>
    rw [scan, if_neg (fun h => delim_not_space hc ((isWhitespace_iff _).1 h)), if_pos ((isSchemaDelim_iff _).2 hc), ← ih]
    rfl
  | @word w cs ts hne hw hcs _ ih =>
    rw [scan_word w cs hw, List.nil_append]
    have hf : flush w = [String.ofList w] := by
      unfold flush
      rw [if_neg]
      simpa using hne
    cases cs with
    | nil => simp only [scan] at ih ⊢; rw [hf, ih]; rfl
    | cons c cs =>
      have hc := hcs c (by simp)
      rw [scan] at ih ⊢
      by_cases h1 : isWhitespace c = true
      · rw [if_pos h1] at ih ⊢
        rw [hf, ih]
        rfl
      · rw [if_neg h1] at ih ⊢
        have h2 : isSchemaDelim c = true := by
          by_contra h2
          exact hc ⟨fun h => h1 ((isWhitespace_iff c).2 h), fun h => h2 ((isSchemaDelim_iff c).2 h)⟩
        rw [if_pos h2] at ih ⊢
        rw [hf, ih]
        rfl

/-- The tokens of a text are those that the specification gives it. -/
theorem fromStr_iff (s : String) (ts : List String) :
    Tokenizer.fromStr s = { before := [], rest := ts } ↔ Tokens s.toList ts := by
  have hr := fromStr_rest s
  constructor
  · intro h
    rw [h] at hr
    simp only at hr
    rw [hr]
    exact scan_tokens s.toList [] (by simp)
  · intro h
    have := tokens_scan h
    rw [this, ← hr]
    rfl

/-- A sequence of words and delimiters, each followed by a blank, has these tokens. -/
theorem tokens_spaced (ts : List String)
    (h : ∀ t ∈ ts, IsWord t ∨ ∃ c, IsDelimiter c ∧ t = String.ofList [c]) :
    Tokens (ts.flatMap fun t => t.toList ++ [' ']) ts := by
  induction ts with
  | nil => exact .nil
  | cons t ts ih =>
    have iht := ih (fun x hx => h x (by simp [hx]))
    have hsp : IsSpace ' ' := by decide
    rw [List.flatMap_cons, List.append_assoc]
    rcases h t (by simp) with ⟨hne, hw⟩ | ⟨c, hc, rfl⟩
    · have := Tokens.word (w := t.toList) (cs := [' '] ++ ts.flatMap fun t => t.toList ++ [' ']) (ts := ts)
        (by intro h0; apply hne; rw [← String.toList_inj]; simpa using h0) hw
        (by intro c hc; simp at hc; subst hc; decide) (.space hsp iht)
      rwa [String.ofList_toList] at this
    · rw [String.toList_ofList]
      exact .delimiter hc (.space hsp iht)

/-! ### numbers -/

theorem digitChar_toNat {d : Nat} (h : d < 10) : (Char.ofNat (48 + d)).toNat = 48 + d := by
  interval_cases d <;> rfl

theorem digitValue_some {c : Char} {d : Nat} : digitValue c = some d ↔ d < 10 ∧ c = Char.ofNat (48 + d) := by
  unfold digitValue
  constructor
  · intro h
    split at h
    · simp only [Option.some.injEq] at h
      subst h
      refine ⟨by omega, ?_⟩
      rw [← Char.ofNat_toNat (c := c)]
      congr 1
      simp only [Char.ofNat_toNat]
      omega
    · simp at h
  · rintro ⟨hd, rfl⟩
    rw [if_pos (by rw [digitChar_toNat hd]; omega), digitChar_toNat hd]
    simp

theorem digitsValue_some (cs : List Char) : ∀ (acc v : Nat), digitsValue acc cs = some v ↔
    ∃ ds : List Nat, (∀ d ∈ ds, d < 10) ∧ cs = ds.map (fun d => Char.ofNat (48 + d)) ∧
      v = Nat.ofDigits 10 (ds.reverse ++ [acc]) := by
  induction cs with
  | nil =>
    intro acc v
    constructor
    · intro h
      simp only [digitsValue, Option.some.injEq] at h
      exact ⟨[], by simp, by simp, by simp [h]⟩
    · rintro ⟨ds, _, h, rfl⟩
      rw [eq_comm, List.map_eq_nil_iff] at h
      subst h
      simp [digitsValue]
  | cons c cs ih =>
    intro acc v
    have hfold : ∀ (l : List Nat) (d : Nat),
        Nat.ofDigits 10 (l ++ [10 * acc + d]) = Nat.ofDigits 10 ((l ++ [d]) ++ [acc]) := by
      intro l d
      rw [List.append_assoc, Nat.ofDigits_append, Nat.ofDigits_append]
      congr 1
      simp [Nat.ofDigits]
      omega
    constructor
    · intro h
      unfold digitsValue at h
      split at h
      · rename_i d hd
        obtain ⟨hd1, hd2⟩ := digitValue_some.1 hd
        obtain ⟨ds, h1, h2, h3⟩ := (ih _ _).1 h
        refine ⟨d :: ds, ?_, ?_, ?_⟩
        · intro x hx
          rcases List.mem_cons.1 hx with rfl | hx
          · exact hd1
          · exact h1 x hx
        · rw [List.map_cons, ← h2, ← hd2]
        · rw [h3, List.reverse_cons, hfold]
      · simp at h
    · rintro ⟨ds, h1, h2, h3⟩
      cases ds with
      | nil => simp at h2
      | cons d ds =>
        simp only [List.map_cons, List.cons.injEq] at h2
        have : digitValue c = some d := digitValue_some.2 ⟨h1 d (by simp), h2.1⟩
        unfold digitsValue
        rw [this]
        refine (ih _ _).2 ⟨ds, fun x hx => h1 x (by simp [hx]), h2.2, ?_⟩
        rw [h3, List.reverse_cons, hfold]

theorem digitsValue_zero (cs : List Char) (v : Nat) : digitsValue 0 cs = some v ↔
    ∃ ds : List Nat, (∀ d ∈ ds, d < 10) ∧ cs = ds.map (fun d => Char.ofNat (48 + d)) ∧
      v = Nat.ofDigits 10 ds.reverse := by
  rw [digitsValue_some]
  simp [Nat.ofDigits_append]

theorem digit_not_sign {d : Nat} (h : d < 10) : Char.ofNat (48 + d) ≠ '-' ∧ Char.ofNat (48 + d) ≠ '+' := by
  interval_cases d <;> decide

theorem parseI32_iff (s : String) (n : I32) : parseI32 s = some n ↔ Number s n := by
  unfold Number
  have hlo : -2 ^ 31 ≤ n.toInt := by have := @BitVec.le_toInt 32 n; simpa using this
  have hhi : n.toInt < 2 ^ 31 := by have := @BitVec.toInt_lt 32 n; simpa using this
  constructor
  · intro h
    unfold parseI32 at h
    split at h
    · simp at h
    · rename_i c cs hs
      split at h
      · rename_i hc
        subst hc
        split at h
        · simp at h
        · rename_i hne
          rw [Option.bind_eq_some_iff] at h
          obtain ⟨v, hv, h⟩ := h
          split at h
          · simp only [Option.some.injEq] at h
            obtain ⟨ds, h1, h2, h3⟩ := (digitsValue_zero _ _).1 hv
            have : n.toInt = -(v : Int) := by
              rw [← h, BitVec.toInt_ofInt]
              rw [Int.bmod_eq_of_le] <;> omega
            have hse : s = String.ofList ('-' :: ds.map fun d => Char.ofNat (48 + d)) := by
              rw [← String.toList_inj, hs, String.toList_ofList, h2]
            rw [this, h3, hse]
            refine .minus ?_ h1
            rintro rfl
            simp at h2
            simp [h2] at hne
          · simp at h
      · rename_i hc
        have key : ∀ ds' : List Char, (if ds'.isEmpty = true then none
            else (digitsValue 0 ds').bind fun n => if n < 2 ^ 31 then some (BitVec.ofNat 32 n) else none) = some n →
            ∃ ds : List Nat, ds ≠ [] ∧ (∀ d ∈ ds, d < 10) ∧ ds' = ds.map (fun d => Char.ofNat (48 + d)) ∧
              n.toInt = (Nat.ofDigits 10 ds.reverse : Nat) := by
          intro ds' h
          split at h
          · simp at h
          · rename_i hne
            rw [Option.bind_eq_some_iff] at h
            obtain ⟨v, hv, h⟩ := h
            split at h
            · simp only [Option.some.injEq] at h
              obtain ⟨ds, h1, h2, h3⟩ := (digitsValue_zero _ _).1 hv
              refine ⟨ds, ?_, h1, h2, ?_⟩
              · rintro rfl
                simp only [List.map_nil] at h2
                rw [h2] at hne
                simp at hne
              · rw [← h3, ← h, BitVec.toInt_ofNat']
                rw [Int.bmod_eq_of_le] <;> omega
            · simp at h
        by_cases hp : c = '+'
        · simp only [if_pos hp] at h
          obtain ⟨ds, hne, h1, h2, h3⟩ := key _ h
          have hse : s = String.ofList ('+' :: ds.map fun d => Char.ofNat (48 + d)) := by
            rw [← String.toList_inj, hs, String.toList_ofList, h2, hp]
          rw [h3, hse]
          exact .plus hne h1
        · simp only [if_neg hp] at h
          obtain ⟨ds, hne, h1, h2, h3⟩ := key _ h
          have hse : s = String.ofList (ds.map fun d => Char.ofNat (48 + d)) := by
            rw [← String.toList_inj, hs, String.toList_ofList, h2]
          rw [h3, hse]
          exact .plain hne h1
  · intro h
    generalize hv : n.toInt = v at h
    have hval : ∀ (ds : List Nat), (∀ d ∈ ds, d < 10) →
        digitsValue 0 (ds.map fun d => Char.ofNat (48 + d)) = some (Nat.ofDigits 10 ds.reverse) :=
      fun ds h => (digitsValue_zero _ _).2 ⟨ds, h, rfl, rfl⟩
    have hpos : ∀ m : Nat, n.toInt = m → BitVec.ofNat 32 m = n := by
      intro m hm
      apply BitVec.eq_of_toInt_eq
      rw [BitVec.toInt_ofNat', Int.bmod_eq_of_le] <;> omega
    cases h with
    | @plain ds hne hd =>
      unfold parseI32
      rw [String.toList_ofList]
      cases ds with
      | nil => exact absurd rfl hne
      | cons d ds =>
        obtain ⟨g1, g2⟩ := digit_not_sign (hd d (by simp))
        have hval' := hval (d :: ds) hd
        simp only [List.map_cons] at hval' ⊢
        rw [if_neg g1, if_neg g2]
        simp only [List.isEmpty_cons, Bool.false_eq_true, if_false, hval', Option.bind_some]
        rw [if_pos (by omega), hpos _ hv]
    | @plus ds hne hd =>
      unfold parseI32
      rw [String.toList_ofList]
      simp only
      rw [if_neg (by decide), if_pos trivial, if_neg (by simpa using hne), hval ds hd, Option.bind_some,
        if_pos (by omega), hpos _ hv]
    | @minus ds hne hd =>
      unfold parseI32
      rw [String.toList_ofList]
      simp only
      rw [if_pos trivial, if_neg (by simpa using hne), hval ds hd, Option.bind_some, if_pos (by omega)]
      simp only [Option.some.injEq]
      apply BitVec.eq_of_toInt_eq
      rw [BitVec.toInt_ofInt, Int.bmod_eq_of_le] <;> omega

theorem number_unique {s : String} {n m : I32} (h1 : Number s n) (h2 : Number s m) : n = m := by
  have := (parseI32_iff s n).2 h1
  rw [(parseI32_iff s m).2 h2] at this
  simpa using this.symm

theorem natural_iff (s : String) (n : Nat) :
    Natural s n ↔ ∃ w : I32, parseI32 s = some w ∧ toUsize w = .ok n := by
  constructor
  · rintro ⟨hn, h⟩
    refine ⟨BitVec.ofNat 32 n, (parseI32_iff _ _).2 ?_, ?_⟩
    · unfold Number
      rw [BitVec.toInt_ofNat', Int.bmod_eq_of_le (by omega) (by omega)]
      exact h
    · have := toUsize_nat (w := 32) (n := n) (by omega) (by omega)
      simpa using this
  · rintro ⟨w, h, hu⟩
    have hnum := (parseI32_iff _ _).1 h
    unfold toUsize at hu
    split at hu
    rotate_left
    · simp at hu
    · simp only [Res.ok.injEq] at hu
      have hhi : w.toInt < 2 ^ 31 := by have := @BitVec.toInt_lt 32 w; simpa using this
      refine ⟨by omega, ?_⟩
      unfold Number at hnum
      rwa [show (n : Int) = w.toInt by omega]

end Pq
