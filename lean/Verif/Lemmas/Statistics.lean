import Verif.Spec.Statistics
import Verif.Lemmas.Types
import Mathlib.Order.Monotone.Basic
import Mathlib.Tactic.Ring
/-
Lemmas on statistics.
-/
namespace Pq
open Spec

/-! ### Folding -/

theorem foldlM_inv {α : Type} (f : α → α → Res α) (P : List α → α → Prop)
    (hstep : ∀ seen acc new acc', P seen acc → f acc new = .ok acc' → P (seen ++ [new]) acc')
    (rest : List α) : ∀ (seen : List α) (acc r : α), P seen acc → rest.foldlM f acc = .ok r →
      P (seen ++ rest) r := by
  induction rest with
  | nil =>
    intro seen acc r h hr
    simp only [List.foldlM_nil, Res.pure_eq, Res.ok.injEq] at hr
    subst hr
    simpa using h
  | cons x xs ih =>
    intro seen acc r h hr
    rw [List.foldlM_cons, Res.bind_eq_ok] at hr
    obtain ⟨acc', h1, h2⟩ := hr
    have := ih (seen ++ [x]) acc' r (hstep seen acc x acc' h h1) h2
    simpa using this

theorem reduceFold_inv {α : Type} (f : α → α → Res α) (P : List α → α → Prop)
    (hinit : ∀ x, P [x] x)
    (hstep : ∀ seen acc new acc', P seen acc → f acc new = .ok acc' → P (seen ++ [new]) acc')
    (stats : List α) (r : α) (h : reduceFold f stats = .ok r) : P stats r := by
  cases stats with
  | nil => simp [reduceFold] at h
  | cons x xs => exact foldlM_inv f P hstep xs [x] x r (hinit x) h

theorem reduceSingle_ok {α : Type} (a b r : Option α) (op : α → α → Res α)
    (h : reduceSingle a b op = .ok r) :
    (a = none ∧ r = b) ∨ (b = none ∧ r = a) ∨
      ∃ x y z, a = some x ∧ b = some y ∧ op x y = .ok z ∧ r = some z := by
  cases a with
  | none =>
    cases b <;> simp only [reduceSingle, Res.ok.injEq] at h <;> exact .inl ⟨rfl, h.symm⟩
  | some x =>
    cases b with
    | none => simp only [reduceSingle, Res.ok.injEq] at h; exact .inr (.inl ⟨rfl, h.symm⟩)
    | some y =>
      simp only [reduceSingle] at h
      cases hop : op x y with
      | ok z =>
        rw [hop] at h
        simp only [Res.map', Res.ok.injEq] at h
        exact .inr (.inr ⟨x, y, z, rfl, rfl, hop, h.symm⟩)
      | err e => rw [hop] at h; simp [Res.map'] at h
      | panic => rw [hop] at h; simp [Res.map'] at h

theorem extremum_step {α : Type} (le : α → α → Prop) (htrans : ∀ x y z, le x y → le y z → le x z)
    (xs : List (Option α)) (a b r : Option α) (ha : Extremum le xs a)
    (hrefl : ∀ y, b = some y → le y y)
    (h : (a = none ∧ r = b) ∨ (b = none ∧ r = a) ∨
      ∃ x y z, a = some x ∧ b = some y ∧ r = some z ∧ ((z = x ∧ le x y) ∨ (z = y ∧ le y x))) :
    Extremum le (xs ++ [b]) r := by
  rcases h with ⟨rfl, rfl⟩ | ⟨rfl, rfl⟩ | ⟨x, y, z, rfl, rfl, rfl, h⟩
  · simp only [Extremum] at ha
    cases r with
    | none =>
      simp only [Extremum]
      intro x hx
      rcases List.mem_append.1 hx with hx | hx
      · exact ha x hx
      · simpa using hx
    | some y =>
      simp only [Extremum]
      refine ⟨by simp, fun x hx => ?_⟩
      rcases List.mem_append.1 hx with hx | hx
      · have := ha _ hx; simp at this
      · simp only [List.mem_singleton, Option.some.injEq] at hx
        subst hx
        exact hrefl _ rfl
  · cases r with
    | none =>
      simp only [Extremum] at ha ⊢
      intro x hx
      rcases List.mem_append.1 hx with hx | hx
      · exact ha x hx
      · simpa using hx
    | some y =>
      simp only [Extremum] at ha ⊢
      refine ⟨List.mem_append_left _ ha.1, fun x hx => ?_⟩
      rcases List.mem_append.1 hx with hx | hx
      · exact ha.2 x hx
      · simp at hx
  · simp only [Extremum] at ha ⊢
    rcases h with ⟨rfl, hle⟩ | ⟨rfl, hle⟩
    · refine ⟨List.mem_append_left _ ha.1, fun w hw => ?_⟩
      rcases List.mem_append.1 hw with hw | hw
      · exact ha.2 w hw
      · simp only [List.mem_singleton, Option.some.injEq] at hw
        subst hw
        exact hle
    · refine ⟨by simp, fun w hw => ?_⟩
      rcases List.mem_append.1 hw with hw | hw
      · exact htrans _ _ _ hle (ha.2 w hw)
      · simp only [List.mem_singleton, Option.some.injEq] at hw
        subst hw
        exact hrefl _ rfl

theorem extremum_single {α : Type} (le : α → α → Prop) (a : Option α)
    (hrefl : ∀ y, a = some y → le y y) : Extremum le [a] a := by
  cases a with
  | none => simp [Extremum]
  | some y => simpa [Extremum] using hrefl y rfl

theorem addI64_ok (ck : Bool) (a b c : I64) (h : addI64 ck a b = .ok c) :
    c = a + b ∧ (ck = true → c.toInt = a.toInt + b.toInt) := by
  unfold addI64 at h
  split at h
  · simp at h
  · rename_i hn
    simp only [Res.ok.injEq] at h
    subst h
    refine ⟨rfl, fun hck => ?_⟩
    have hb : -(2 ^ 63) ≤ a.toInt + b.toInt ∧ a.toInt + b.toInt < 2 ^ 63 := by
      by_contra hb
      exact hn ⟨hck, hb⟩
    rw [BitVec.toInt_add, Int.bmod_eq_of_le (by omega) (by omega)]

theorem sumOf_single (a : Option I64) : SumOf [a] a := by
  cases a with
  | none => simp [SumOf]
  | some x => simp [SumOf]

theorem exactSumOf_single (a : Option I64) : ExactSumOf [a] a := by
  cases a with
  | none => simp [ExactSumOf]
  | some x => simp [ExactSumOf]

theorem filterMap_id_none {α : Type} (xs : List (Option α)) (h : ∀ x ∈ xs, x = none) :
    xs.filterMap id = [] := by
  rw [List.filterMap_eq_nil_iff]
  exact h

theorem sumOf_step (ck : Bool) (xs : List (Option I64)) (a b r : Option I64) (ha : SumOf xs a)
    (h : reduceSingle a b (addI64 ck) = .ok r) : SumOf (xs ++ [b]) r := by
  rcases reduceSingle_ok a b r _ h with ⟨rfl, rfl⟩ | ⟨rfl, rfl⟩ | ⟨x, y, z, rfl, rfl, hz, rfl⟩
  · simp only [SumOf] at ha
    cases r with
    | none =>
      simp only [SumOf]
      intro x hx
      rcases List.mem_append.1 hx with hx | hx
      · exact ha x hx
      · simpa using hx
    | some y =>
      simp only [SumOf]
      refine ⟨⟨y, by simp⟩, ?_⟩
      rw [List.filterMap_append, filterMap_id_none xs ha]
      simp
  · cases r with
    | none =>
      simp only [SumOf] at ha ⊢
      intro x hx
      rcases List.mem_append.1 hx with hx | hx
      · exact ha x hx
      · simpa using hx
    | some y =>
      simp only [SumOf] at ha ⊢
      obtain ⟨⟨w, hw⟩, hs⟩ := ha
      refine ⟨⟨w, List.mem_append_left _ hw⟩, ?_⟩
      rw [List.filterMap_append]
      simpa using hs
  · simp only [SumOf] at ha ⊢
    refine ⟨⟨y, by simp⟩, ?_⟩
    rw [(addI64_ok ck x y z hz).1, ha.2, List.filterMap_append]
    simp [BitVec.ofInt_add]

theorem exactSumOf_step (xs : List (Option I64)) (a b r : Option I64) (ha : ExactSumOf xs a)
    (h : reduceSingle a b (addI64 true) = .ok r) : ExactSumOf (xs ++ [b]) r := by
  rcases reduceSingle_ok a b r _ h with ⟨rfl, rfl⟩ | ⟨rfl, rfl⟩ | ⟨x, y, z, rfl, rfl, hz, rfl⟩
  · simp only [ExactSumOf] at ha
    cases r with
    | none =>
      simp only [ExactSumOf]
      intro x hx
      rcases List.mem_append.1 hx with hx | hx
      · exact ha x hx
      · simpa using hx
    | some y =>
      simp only [ExactSumOf]
      refine ⟨⟨y, by simp⟩, ?_⟩
      rw [List.filterMap_append, filterMap_id_none xs ha]
      simp
  · cases r with
    | none =>
      simp only [ExactSumOf] at ha ⊢
      intro x hx
      rcases List.mem_append.1 hx with hx | hx
      · exact ha x hx
      · simpa using hx
    | some y =>
      simp only [ExactSumOf] at ha ⊢
      obtain ⟨⟨w, hw⟩, hs⟩ := ha
      refine ⟨⟨w, List.mem_append_left _ hw⟩, ?_⟩
      rw [List.filterMap_append]
      simpa using hs
  · simp only [ExactSumOf] at ha ⊢
    refine ⟨⟨y, by simp⟩, ?_⟩
    rw [(addI64_ok true x y z hz).2 rfl, ha.2, List.filterMap_append]
    simp

/-! ### Orders -/

theorem numLe_trans (x y z : Option Int) (h1 : numLe x y) (h2 : numLe y z) : numLe x z := by
  obtain ⟨a, b, rfl, rfl, h1⟩ := h1
  obtain ⟨b', c, hb, rfl, h2⟩ := h2
  simp only [Option.some.injEq] at hb
  subst hb
  exact ⟨a, c, rfl, rfl, by omega⟩

theorem numGe_trans (x y z : Option Int) (h1 : numGe x y) (h2 : numGe y z) : numGe x z :=
  numLe_trans z y x h2 h1

theorem numLe_refl (x : Int) : numLe (some x) (some x) := ⟨x, x, rfl, rfl, Int.le_refl x⟩

theorem lexLe_refl (a : List Byte) : lexLe a a := by
  induction a with
  | nil => trivial
  | cons x a ih => exact .inr ⟨rfl, ih⟩

theorem lexLe_trans : ∀ a b c : List Byte, lexLe a b → lexLe b c → lexLe a c := by
  intro a
  induction a with
  | nil => intro b c _ _; trivial
  | cons x a ih =>
    intro b c h1 h2
    cases b with
    | nil => exact h1.elim
    | cons y b =>
      cases c with
      | nil => exact h2.elim
      | cons z c =>
        simp only [lexLe] at h1 h2 ⊢
        rcases h1 with h1 | ⟨rfl, h1⟩
        · rcases h2 with h2 | ⟨rfl, h2⟩
          · exact .inl (by omega)
          · exact .inl h1
        · rcases h2 with h2 | ⟨rfl, h2⟩
          · exact .inl h2
          · exact .inr ⟨rfl, ih b c h1 h2⟩

instance lexLeDecidable : ∀ a b : List Byte, Decidable (lexLe a b)
  | [], _ => isTrue trivial
  | _ :: _, [] => isFalse id
  | a :: as, b :: bs =>
    have := lexLeDecidable as bs
    show Decidable (a.toNat < b.toNat ∨ (a = b ∧ lexLe as bs)) from inferInstance

/-- What `ord_binary` picks: the smaller (larger) string, the first one if one is a prefix of the
other. -/
theorem pickLoop (a b : List Byte) (max : Bool) : ∀ xs ys : List Byte,
    (∃ p : List Byte, a = p ++ xs ∧ b = p ++ ys) →
    ordBinaryPickLoop a b max (xs.zip ys) =
      if xs <+: ys ∨ ys <+: xs then a
      else if lexLe xs ys then (if max then b else a) else (if max then a else b) := by
  intro xs
  induction xs with
  | nil => intro ys _; simp [ordBinaryPickLoop]
  | cons x xs ih =>
    intro ys hp
    cases ys with
    | nil => simp [ordBinaryPickLoop]
    | cons y ys =>
      simp only [List.zip_cons_cons, ordBinaryPickLoop, List.cons_prefix_cons, lexLe]
      by_cases hxy : x = y
      · subst hxy
        rw [show compare x.toNat x.toNat = .eq from Nat.compare_eq_eq.2 rfl]
        obtain ⟨p, h1, h2⟩ := hp
        simp only [true_and, Nat.lt_irrefl, false_or]
        exact ih ys ⟨p ++ [x], by simp [h1], by simp [h2]⟩
      · have hne : x.toNat ≠ y.toNat := fun h => hxy (BitVec.eq_of_toNat_eq h)
        have hnp : ¬ (x = y ∧ xs <+: ys ∨ y = x ∧ ys <+: xs) := by
          rintro (h | h); exacts [hxy h.1, hxy h.1.symm]
        rw [if_neg hnp]
        rcases Nat.lt_or_ge x.toNat y.toNat with h | h
        · have hl : x.toNat < y.toNat ∨ x = y ∧ lexLe xs ys := .inl h
          rw [Nat.compare_eq_lt.2 h]
          exact (if_pos hl).symm
        · have hl : ¬ (x.toNat < y.toNat ∨ x = y ∧ lexLe xs ys) := by
            rintro (h' | h')
            · omega
            · exact hxy h'.1
          rw [Nat.compare_eq_gt.2 (by omega)]
          exact (if_neg hl).symm

theorem lexLe_prefix (a b : List Byte) (h : a <+: b) : lexLe a b := by
  obtain ⟨t, rfl⟩ := h
  induction a with
  | nil => trivial
  | cons x a ih => exact .inr ⟨rfl, ih⟩

theorem lexLe_total (a b : List Byte) : lexLe a b ∨ lexLe b a := by
  induction a generalizing b with
  | nil => exact .inl trivial
  | cons x a ih =>
    cases b with
    | nil => exact .inr trivial
    | cons y b =>
      simp only [lexLe]
      by_cases hxy : x = y
      · subst hxy
        rcases ih b with h | h
        · exact .inl (.inr ⟨rfl, h⟩)
        · exact .inr (.inr ⟨rfl, h⟩)
      · have hne : x.toNat ≠ y.toNat := fun h => hxy (BitVec.eq_of_toNat_eq h)
        rcases Nat.lt_or_ge x.toNat y.toNat with h | h
        · exact .inl (.inl h)
        · exact .inr (.inl (by omega))

/-- Neither is a proper prefix of the other. -/
def NoProperPrefix (a b : List Byte) : Prop := (a <+: b → a = b) ∧ (b <+: a → a = b)

theorem pick_min (a b : List Byte) (h : NoProperPrefix a b) :
    (ordBinaryPick a b false = a ∧ lexLe a b) ∨ (ordBinaryPick a b false = b ∧ lexLe b a) := by
  unfold ordBinaryPick
  rw [pickLoop a b false a b ⟨[], rfl, rfl⟩]
  by_cases hp : a <+: b ∨ b <+: a
  · rw [if_pos hp]
    have : a = b := by rcases hp with hp | hp; exacts [h.1 hp, h.2 hp]
    subst this
    exact .inl ⟨rfl, lexLe_refl a⟩
  · rw [if_neg hp]
    by_cases hl : lexLe a b
    · rw [if_pos hl]; exact .inl ⟨rfl, hl⟩
    · rw [if_neg hl]
      exact .inr ⟨rfl, (lexLe_total a b).resolve_left hl⟩

theorem pick_max (a b : List Byte) (h : NoProperPrefix a b) :
    (ordBinaryPick a b true = a ∧ lexLe b a) ∨ (ordBinaryPick a b true = b ∧ lexLe a b) := by
  unfold ordBinaryPick
  rw [pickLoop a b true a b ⟨[], rfl, rfl⟩]
  by_cases hp : a <+: b ∨ b <+: a
  · rw [if_pos hp]
    have : a = b := by rcases hp with hp | hp; exacts [h.1 hp, h.2 hp]
    subst this
    exact .inl ⟨rfl, lexLe_refl a⟩
  · rw [if_neg hp]
    by_cases hl : lexLe a b
    · rw [if_pos hl]; exact .inr ⟨rfl, hl⟩
    · rw [if_neg hl]
      exact .inl ⟨rfl, (lexLe_total a b).resolve_left hl⟩

/-! ### Floating point -/

/-- Magnitude of the number with exponent and mantissa bits `n`. -/
def magnitude (m n : Nat) : Nat :=
  if n / 2 ^ m = 0 then n % 2 ^ m else (2 ^ m + n % 2 ^ m) * 2 ^ (n / 2 ^ m - 1)

theorem magnitude_strictMono (m : Nat) : StrictMono (magnitude m) := by
  apply strictMono_nat_of_lt_succ
  intro n
  have hpos : 0 < 2 ^ m := Nat.two_pow_pos m
  have hdm : 2 ^ m * (n / 2 ^ m) + n % 2 ^ m = n := Nat.div_add_mod n (2 ^ m)
  have hlt : n % 2 ^ m < 2 ^ m := Nat.mod_lt _ hpos
  generalize hq : n / 2 ^ m = q at *
  generalize hr : n % 2 ^ m = r at *
  by_cases hc : r + 1 < 2 ^ m
  · have h1 : (n + 1) / 2 ^ m = q := by
      rw [← hdm, Nat.add_assoc, Nat.mul_add_div hpos, Nat.div_eq_of_lt hc, Nat.add_zero]
    have h2 : (n + 1) % 2 ^ m = r + 1 := by
      rw [← hdm, Nat.add_assoc, Nat.mul_add_mod, Nat.mod_eq_of_lt hc]
    unfold magnitude
    rw [h1, h2, hq, hr]
    split
    · omega
    · apply Nat.mul_lt_mul_of_pos_right (by omega) (Nat.two_pow_pos _)
  · have hr1 : r + 1 = 2 ^ m := by omega
    have h1 : (n + 1) / 2 ^ m = q + 1 := by
      rw [← hdm, Nat.add_assoc, hr1, Nat.mul_add_div hpos, Nat.div_self hpos]
    have h2 : (n + 1) % 2 ^ m = 0 := by
      rw [← hdm, Nat.add_assoc, hr1, Nat.mul_add_mod, Nat.mod_self]
    unfold magnitude
    rw [h1, h2, hq, hr, if_neg (Nat.succ_ne_zero q)]
    split
    · rename_i h0
      subst h0
      simp; omega
    · rename_i h0
      rw [Nat.add_zero, Nat.add_sub_cancel]
      obtain ⟨k, rfl⟩ := Nat.exists_eq_succ_of_ne_zero h0
      rw [Nat.succ_eq_add_one] at *
      rw [Nat.add_sub_cancel, Nat.pow_succ 2 k, Nat.mul_comm (2 ^ k) 2, ← Nat.mul_assoc]
      apply Nat.mul_lt_mul_of_pos_right (by omega) (Nat.two_pow_pos _)

theorem magnitude_zero (m : Nat) : magnitude m 0 = 0 := by simp [magnitude]

/-- Exponent and mantissa bits. -/
def lowBits (e m : Nat) (x : BitVec (1 + e + m)) : Nat :=
  if x.toNat < 2 ^ (e + m) then x.toNat else x.toNat - 2 ^ (e + m)

theorem lowBits_lt (e m : Nat) (x : BitVec (1 + e + m)) : lowBits e m x < 2 ^ (e + m) := by
  have h1 := x.isLt
  have h2 : 2 ^ (1 + e + m) = 2 ^ (e + m) * 2 := by
    rw [show 1 + e + m = (e + m) + 1 by omega, Nat.pow_succ]
  unfold lowBits
  split <;> omega

theorem lowBits_parts (e m : Nat) (x : BitVec (1 + e + m)) :
    x.toNat / 2 ^ m % 2 ^ e = lowBits e m x / 2 ^ m ∧ x.toNat % 2 ^ m = lowBits e m x % 2 ^ m := by
  have hl := lowBits_lt e m x
  have hq : lowBits e m x / 2 ^ m < 2 ^ e := by
    apply Nat.div_lt_of_lt_mul
    rw [← Nat.pow_add, Nat.add_comm]; exact hl
  unfold lowBits at *
  split
  · rename_i h
    rw [if_pos h] at hq
    exact ⟨Nat.mod_eq_of_lt hq, rfl⟩
  · rename_i h
    rw [if_neg h] at hq
    generalize hk : x.toNat - 2 ^ (e + m) = k at *
    have hx : x.toNat = 2 ^ m * 2 ^ e + k := by rw [← Nat.pow_add, Nat.add_comm m e]; omega
    rw [hx]
    refine ⟨?_, ?_⟩
    · rw [Nat.mul_add_div (Nat.two_pow_pos m), Nat.add_mod_left, Nat.mod_eq_of_lt hq]
    · rw [Nat.mul_add_mod]

theorem floatVal_eq (e m : Nat) (x : BitVec (1 + e + m)) :
    floatVal e m x = if floatIsNaN e m x then none
      else some (if x.toNat < 2 ^ (e + m) then (magnitude m (lowBits e m x) : Int)
        else -(magnitude m (lowBits e m x) : Int)) := by
  obtain ⟨h1, h2⟩ := lowBits_parts e m x
  unfold floatVal floatIsNaN
  simp only [h1, h2, decide_eq_true_eq]
  split
  · rfl
  · congr 1
    by_cases hs : x.toNat < 2 ^ (e + m)
    · rw [if_neg (by omega), if_pos hs]
      unfold magnitude
      split <;> push_cast <;> rfl
    · rw [if_pos (by omega), if_neg hs]
      unfold magnitude
      split <;> push_cast <;> rfl

theorem floatKey_eq (e m : Nat) (x : BitVec (1 + e + m)) :
    floatKey e m x = if x.toNat < 2 ^ (e + m) then (lowBits e m x : Int) else -(lowBits e m x : Int) := by
  unfold floatKey lowBits
  split <;> rfl

theorem floatGt_val (e m : Nat) (x y : BitVec (1 + e + m)) (a b : Int)
    (hx : floatVal e m x = some a) (hy : floatVal e m y = some b) :
    floatGt e m x y = decide (b < a) := by
  rw [floatVal_eq] at hx hy
  cases hnx : floatIsNaN e m x with
  | true => rw [hnx] at hx; simp at hx
  | false =>
    cases hny : floatIsNaN e m y with
    | true => rw [hny] at hy; simp at hy
    | false =>
      rw [hnx] at hx
      rw [hny] at hy
      simp only [Bool.false_eq_true, if_false, Option.some.injEq] at hx hy
      unfold floatGt
      rw [hnx, hny]
      simp only [Bool.not_false, Bool.true_and, decide_eq_decide]
      rw [floatKey_eq, floatKey_eq, ← hx, ← hy]
      generalize lowBits e m x = p
      generalize lowBits e m y = q
      have hm := magnitude_strictMono m
      have h1 : magnitude m q < magnitude m p ↔ q < p := hm.lt_iff_lt
      have h2 : magnitude m p < magnitude m q ↔ p < q := hm.lt_iff_lt
      have h0 : magnitude m 0 = 0 := magnitude_zero m
      have hp0 : magnitude m p = 0 ↔ p = 0 := by
        rw [← hm.injective.eq_iff (a := p) (b := 0), h0]
      have hq0 : magnitude m q = 0 ↔ q = 0 := by
        rw [← hm.injective.eq_iff (a := q) (b := 0), h0]
      split <;> split <;> omega

end Pq
