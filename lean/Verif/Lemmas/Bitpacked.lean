import Verif.Model.Bitpacked
import Verif.Lemmas.Bits
/- Helper lemmas about bit-packing. -/
namespace Pq.Bitpack
open Pq.Spec

theorem mask_getLsbD (b n k : Nat) (hn : n ≤ 8 * b) (hb : 0 < b) :
    (mask b n).getLsbD k = decide (k < n) := by
  unfold mask
  split
  · rename_i h; subst h; simp [BitVec.getLsbD_allOnes]
  · rename_i h
    have hlt : n < 8 * b := by omega
    have h1 : (1#(8*b) <<< n).toNat = 2 ^ n := by
      rw [BitVec.toNat_shiftLeft, BitVec.toNat_ofNat, Nat.shiftLeft_eq]
      have h2 : 2 ^ n < 2 ^ (8 * b) := Nat.pow_lt_pow_right (by decide) hlt
      have h3 : 1 < 2 ^ (8 * b) := Nat.one_lt_two_pow (by omega)
      rw [Nat.mod_eq_of_lt h3, Nat.one_mul, Nat.mod_eq_of_lt h2]
    have hw : (1#(8*b) <<< n - 1#(8*b)) = BitVec.ofNat (8 * b) (2 ^ n - 1) := by
      apply BitVec.eq_of_toNat_eq
      have h2 : 2 ^ n < 2 ^ (8 * b) := Nat.pow_lt_pow_right (by decide) hlt
      have h3 : 1 < 2 ^ (8 * b) := Nat.one_lt_two_pow (by omega)
      have h4 : 0 < 2 ^ n := Nat.two_pow_pos n
      rw [BitVec.toNat_sub, h1, BitVec.toNat_ofNat, BitVec.toNat_ofNat, Nat.mod_eq_of_lt h3]
      rw [show 2 ^ (8 * b) - 1 + 2 ^ n = (2 ^ n - 1) + 2 ^ (8 * b) by omega, Nat.add_mod_right]
    rw [hw, BitVec.getLsbD_ofNat, Nat.testBit_two_pow_sub_one]
    by_cases hk : k < n
    · have : k < 8 * b := by omega
      simp [hk, this]
    · simp [hk]

theorem mask_fit {b n : Nat} (hn : n ≤ 8 * b) (hb : 0 < b) (x : BitVec (8 * b))
    (hx : x.toNat < 2 ^ n) : x &&& mask b n = x := by
  apply BitVec.eq_of_getLsbD_eq
  intro i hi
  rw [BitVec.getLsbD_and, mask_getLsbD _ _ _ hn hb]
  by_cases h : i < n
  · simp [h]
  · have : x.getLsbD i = false := by
      rw [BitVec.getLsbD]
      exact Nat.testBit_lt_two_pow (Nat.lt_of_lt_of_le hx (Nat.pow_le_pow_right (by decide) (by omega)))
    simp [this]

theorem getLsbD_of_fit {w n : Nat} (x : BitVec w) (hx : x.toNat < 2 ^ n) (i : Nat) (h : n ≤ i) :
    x.getLsbD i = false := by
  rw [BitVec.getLsbD]
  exact Nat.testBit_lt_two_pow (Nat.lt_of_lt_of_le hx (Nat.pow_le_pow_right (by decide) h))

/-! ### arithmetic of word crossing -/

theorem cross_arith (W s n : Nat) (hW : 0 < W) (hn : 0 < n) (hnW : n ≤ W) :
    ((s / W ≠ (s + n) / W ∧ (s + n) % W ≠ 0) ↔ W < s % W + n) ∧
    (W < s % W + n → (s + n) / W = s / W + 1 ∧ (s + n) % W = s % W + n - W) := by
  have hlt := Nat.mod_lt s hW
  have hdm := Nat.div_add_mod s W
  generalize hq : s / W = q at *
  generalize hr : s % W = r at *
  have hs : s = W * q + r := by omega
  subst hs
  by_cases h1 : r + n < W
  · have e1 : (W * q + r + n) / W = q := by
      rw [Nat.add_assoc, Nat.mul_add_div hW, Nat.div_eq_of_lt h1]; omega
    refine ⟨?_, by omega⟩
    rw [e1]; simp; omega
  · by_cases h2 : r + n = W
    · have e1 : (W * q + r + n) % W = 0 := by
        rw [Nat.add_assoc, h2, Nat.mul_add_mod, Nat.mod_self]
      refine ⟨?_, by omega⟩
      rw [e1]; simp; omega
    · have h3 : r + n - W < W := by omega
      have e0 : W * q + r + n = W * (q + 1) + (r + n - W) := by
        rw [Nat.mul_add]; omega
      have e1 : (W * q + r + n) / W = q + 1 := by
        rw [e0, Nat.mul_add_div hW, Nat.div_eq_of_lt h3]
      have e2 : (W * q + r + n) % W = r + n - W := by
        rw [e0, Nat.mul_add_mod, Nat.mod_eq_of_lt h3]
      rw [e1, e2]
      refine ⟨?_, fun _ => ⟨rfl, rfl⟩⟩
      omega

/-! ### unpack -/

theorem readWord_getLsbD (b : Nat) (input : List Byte) (w k : Nat) :
    (readWord b input w).getLsbD k = (decide (k < 8 * b) && bitAt input (8 * b * w + k)) := by
  rw [readWord, fromLe_getLsbD, bitAt_take, bitAt_drop]
  by_cases h : k < 8 * b
  · simp only [h, decide_true, Bool.true_and]
    congr 1
    rw [Nat.mul_assoc, Nat.mul_comm b w]
  · simp [h]

theorem unpackVal_getLsbD (b n : Nat) (input : List Byte) (i k : Nat) (hb : 0 < b) (hn : 0 < n)
    (hnW : n ≤ 8 * b) :
    (unpackVal b n input i).getLsbD k = (decide (k < n) && bitAt input (i * n + k)) := by
  have hW : 0 < 8 * b := by omega
  obtain ⟨hc, hc2⟩ := cross_arith (8 * b) (i * n) n hW hn hnW
  have hdm := Nat.div_add_mod (i * n) (8 * b)
  have hlt := Nat.mod_lt (i * n) hW
  unfold unpackVal
  simp only
  by_cases hx : 8 * b < i * n % (8 * b) + n
  · rw [if_pos (hc.2 hx)]
    obtain ⟨e1, e2⟩ := hc2 hx
    rw [e1, e2]
    simp only [BitVec.getLsbD_or, BitVec.getLsbD_and, BitVec.getLsbD_ushiftRight,
      BitVec.getLsbD_shiftLeft, readWord_getLsbD, mask_getLsbD _ _ _ hnW hb]
    generalize i * n % (8 * b) = r at *
    generalize i * n / (8 * b) = q at *
    have e3 : n - (r + n - 8 * b) = 8 * b - r := by omega
    rw [e3]
    by_cases hk : k < n
    · by_cases h1 : r + k < 8 * b
      · have h2 : k < 8 * b - r := by omega
        have h3 : k < 8 * b := by omega
        simp only [h1, h2, h3, hk, decide_true, Bool.not_true, Bool.and_false, Bool.true_and,
          Bool.false_and, Bool.or_false]
        congr 1; omega
      · have h2 : ¬ k < 8 * b - r := by omega
        have h3 : k < 8 * b := by omega
        have h4 : k - (8 * b - r) < 8 * b := by omega
        simp only [h1, h2, h3, h4, hk, decide_true, decide_false, Bool.not_false, Bool.and_true,
          Bool.true_and, Bool.false_and, Bool.false_or]
        congr 1
        rw [Nat.mul_add]; omega
    · have h1 : ¬ r + k < 8 * b := by omega
      simp [hk, h1]
  · rw [if_neg (mt hc.1 hx)]
    simp only [BitVec.getLsbD_and, BitVec.getLsbD_ushiftRight, readWord_getLsbD,
      mask_getLsbD _ _ _ hnW hb]
    generalize i * n % (8 * b) = r at *
    generalize i * n / (8 * b) = q at *
    by_cases hk : k < n
    · have h1 : r + k < 8 * b := by omega
      simp only [hk, h1, decide_true, Bool.true_and, Bool.and_true]
      congr 1; omega
    · simp [hk]

/-- The `k`-th field of a bit stream as a word. -/
def fieldBV (b n : Nat) (bs : List Byte) (k : Nat) : BitVec (8 * b) :=
  BitVec.ofNat (8 * b) (fieldAt bs n k)

theorem fieldBV_getLsbD (b n : Nat) (bs : List Byte) (k i : Nat) (hn : n ≤ 8 * b) :
    (fieldBV b n bs k).getLsbD i = (decide (i < n) && bitAt bs (k * n + i)) := by
  rw [fieldBV, BitVec.getLsbD_ofNat, fieldAt_testBit]
  by_cases h : i < n
  · have : i < 8 * b := by omega
    simp [h, this]
  · simp [h]

theorem unpackVal_eq (b n : Nat) (input : List Byte) (i : Nat) (hb : 0 < b) (hn : 0 < n)
    (hnW : n ≤ 8 * b) : unpackVal b n input i = fieldBV b n input i := by
  apply BitVec.eq_of_getLsbD_eq
  intro k _
  rw [unpackVal_getLsbD _ _ _ _ _ hb hn hnW, fieldBV_getLsbD _ _ _ _ _ hnW]

theorem unpack_eq (b n : Nat) (input : List Byte) (hb : 0 < b) (hn : n ≤ 8 * b)
    (hl : n * b ≤ input.length) :
    unpack b input n = .ok ((List.range (8 * b)).map (fieldBV b n input)) := by
  unfold unpack
  rw [if_neg (by omega)]
  split
  · rename_i h0; subst h0
    congr 1
    apply List.ext_getElem
    · simp
    · intro i h1 h2
      simp [fieldBV, fieldAt]
  · rw [if_neg (by omega)]
    congr 1
    apply List.map_congr_left
    intro i _
    exact unpackVal_eq b n input i hb (by omega) hn

/-! ### pack -/

theorem orBytes_length (o : List Byte) (p : Nat) (v : List Byte) :
    (orBytes o p v).length = o.length := by simp [orBytes]

theorem bitAt_orBytes (o : List Byte) (p : Nat) (v : List Byte) (i : Nat)
    (hi : i < 8 * o.length) :
    bitAt (orBytes o p v) i = (bitAt o i || (decide (8 * p ≤ i) && bitAt v (i - 8 * p))) := by
  have hk : i / 8 < o.length := by omega
  have h8 : i % 8 < 8 := by omega
  unfold bitAt orBytes
  simp only [List.getD_eq_getElem?_getD, List.getElem?_mapIdx, List.getElem?_eq_getElem hk,
    Option.map_some, Option.getD_some]
  by_cases hp : p ≤ i / 8
  · have h1 : 8 * p ≤ i := by omega
    have e1 : (i - 8 * p) / 8 = i / 8 - p := by omega
    have e2 : (i - 8 * p) % 8 = i % 8 := by omega
    simp only [h1, decide_true, Bool.true_and, e1, e2, hp, true_and]
    split
    · rw [BitVec.getLsbD_or]
    · rename_i h
      rw [List.getElem?_eq_none (by omega)]; simp
  · have h1 : ¬ 8 * p ≤ i := by omega
    simp [hp, h1]

theorem bitAt_orBytes_word (b : Nat) (o : List Byte) (w : Nat) (x : BitVec (8 * b)) (i : Nat)
    (hi : i < 8 * o.length) :
    bitAt (orBytes o (w * b) (toLe b x)) i =
      (bitAt o i || (decide (8 * b * w ≤ i) && x.getLsbD (i - 8 * b * w))) := by
  rw [bitAt_orBytes _ _ _ _ hi, bitAt_toLe]
  rw [show 8 * (w * b) = 8 * b * w by rw [Nat.mul_assoc, Nat.mul_comm b w]]

theorem packStep_length (b n : Nat) (input : List (BitVec (8 * b))) (o : List Byte) (i : Nat) :
    (packStep b n input o i).length = o.length := by
  unfold packStep; simp only; split <;> simp [orBytes_length]

/-- Value `i` of a block either fits in `n` bits or its field lies inside one word. -/
def Tame (b n : Nat) (x : BitVec (8 * b)) (i : Nat) : Prop :=
  x.toNat < 2 ^ n ∨ i * n % (8 * b) + n ≤ 8 * b

/-- One step of `pack` on a value that fits (or whose field does not straddle two words):
exactly bits `i*n .. (i+1)*n` are OR-ed. -/
theorem packStep_bit (b n : Nat) (input : List (BitVec (8 * b))) (o : List Byte) (i j : Nat)
    (hb : 0 < b) (hn : 0 < n) (hnW : n ≤ 8 * b)
    (hfit : Tame b n (input.getD i 0) i) (hj : j < 8 * o.length) :
    bitAt (packStep b n input o i) j =
      (bitAt o j || (decide (i * n ≤ j) && (decide (j - i * n < n) &&
        (input.getD i 0).getLsbD (j - i * n)))) := by
  have hW : 0 < 8 * b := by omega
  obtain ⟨hc, hc2⟩ := cross_arith (8 * b) (i * n) n hW hn hnW
  have hdm := Nat.div_add_mod (i * n) (8 * b)
  have hlt := Nat.mod_lt (i * n) hW
  unfold packStep
  simp only
  generalize input.getD i 0 = x at *
  by_cases hx : 8 * b < i * n % (8 * b) + n
  · have hz := getLsbD_of_fit x (hfit.resolve_right (by omega))
    have hz' : (decide (j - i * n < n) && x.getLsbD (j - i * n)) = x.getLsbD (j - i * n) := by
      by_cases h : j - i * n < n
      · simp [h]
      · simp [hz (j - i * n) (by omega)]
    rw [if_pos (hc.2 hx), hz']
    obtain ⟨e1, e2⟩ := hc2 hx
    rw [e1, e2, bitAt_orBytes_word _ _ _ _ _ (by rw [orBytes_length]; exact hj),
      bitAt_orBytes_word _ _ _ _ _ hj, Bool.or_assoc]
    congr 1
    simp only [BitVec.getLsbD_and, BitVec.getLsbD_ushiftRight,
      BitVec.getLsbD_shiftLeft, mask_getLsbD _ _ _ hnW hb]
    clear hz'
    generalize i * n % (8 * b) = r at *
    generalize i * n / (8 * b) = q at *
    have e3 : n - (r + n - 8 * b) = 8 * b - r := by omega
    rw [e3, Nat.mul_add, Nat.mul_one]
    by_cases hs : i * n ≤ j
    · have h1 : 8 * b * q ≤ j := by omega
      have h2 : ¬ (j - 8 * b * q < r) := by omega
      by_cases h3 : 8 * b * q + 8 * b ≤ j
      · have h4 : ¬ (j - 8 * b * q < 8 * b) := by omega
        have e4 : 8 * b - r + (j - (8 * b * q + 8 * b)) = j - i * n := by omega
        simp only [hs, h1, h3, h4, decide_true, decide_false, Bool.false_and, Bool.and_false,
          Bool.false_or, Bool.true_and, e4]
        by_cases h5 : j - (8 * b * q + 8 * b) < n
        · simp [h5]
        · rw [hz _ (by omega)]; simp
      · have h4 : (j - 8 * b * q < 8 * b) := by omega
        have e4 : j - 8 * b * q - r = j - i * n := by omega
        simp [hs, h1, h2, h3, h4, e4]
    · have h3 : ¬ 8 * b * q + 8 * b ≤ j := by omega
      by_cases h1 : 8 * b * q ≤ j
      · have h2 : j - 8 * b * q < r := by omega
        simp [hs, h3, h2]
      · simp [hs, h1, h3]
  · rw [if_neg (mt hc.1 hx), bitAt_orBytes_word _ _ _ _ _ hj]
    congr 1
    simp only [BitVec.getLsbD_shiftLeft, BitVec.getLsbD_and, mask_getLsbD _ _ _ hnW hb]
    clear hfit
    generalize i * n % (8 * b) = r at *
    generalize i * n / (8 * b) = q at *
    by_cases hs : i * n ≤ j
    · have h1 : 8 * b * q ≤ j := by omega
      have h2 : ¬ (j - 8 * b * q < r) := by omega
      have e4 : j - 8 * b * q - r = j - i * n := by omega
      by_cases h5 : j - i * n < n
      · have h4 : (j - 8 * b * q < 8 * b) := by omega
        simp [hs, h1, h2, h4, e4, h5]
      · simp [e4, h5]
    · by_cases h1 : 8 * b * q ≤ j
      · have h2 : j - 8 * b * q < r := by omega
        simp [hs, h2]
      · simp [hs, h1]

theorem packFold_length (b n : Nat) (input : List (BitVec (8 * b))) (o : List Byte)
    (is : List Nat) : (is.foldl (packStep b n input) o).length = o.length := by
  induction is generalizing o with
  | nil => rfl
  | cons i is ih => rw [List.foldl_cons, ih, packStep_length]

theorem packFold_bit (b n : Nat) (input : List (BitVec (8 * b))) (o : List Byte) (m j : Nat)
    (hb : 0 < b) (hn : 0 < n) (hnW : n ≤ 8 * b)
    (hfit : ∀ i, Tame b n (input.getD i 0) i) (hj : j < 8 * o.length) :
    bitAt ((List.range m).foldl (packStep b n input) o) j =
      (bitAt o j || (decide (j / n < m) && (input.getD (j / n) 0).getLsbD (j % n))) := by
  induction m with
  | zero => simp
  | succ m ih =>
    rw [List.range_succ, List.foldl_append, List.foldl_cons, List.foldl_nil,
      packStep_bit _ _ _ _ _ _ hb hn hnW (hfit m) (by rw [packFold_length]; exact hj), ih]
    have hdm := Nat.div_add_mod j n
    have hmod := Nat.mod_lt j hn
    rw [Bool.or_assoc]
    congr 1
    by_cases h1 : j / n < m
    · have h2 : j / n < m + 1 := by omega
      have h3 : ¬ m * n ≤ j := by
        have : n * (j / n) + n ≤ n * m := by
          have := Nat.mul_le_mul_left n h1
          rw [Nat.mul_succ] at this; omega
        rw [Nat.mul_comm]; omega
      simp [h1, h2, h3]
    · by_cases h2 : j / n = m
      · have h3 : m * n ≤ j := by rw [← h2, Nat.mul_comm]; omega
        have h4 : j - m * n = j % n := by rw [← h2, Nat.mul_comm]; omega
        simp only [h3, decide_true, Bool.true_and, h4, h2]
        simp [hmod]
      · have h3 : ¬ j / n < m + 1 := by omega
        have h4 : m * n + n ≤ j := by
          have : n * (m + 1) ≤ n * (j / n) := Nat.mul_le_mul_left n (by omega)
          rw [Nat.mul_add, Nat.mul_comm] at this; omega
        have h5 : ¬ j - m * n < n := by omega
        simp only [h1, h3, h5]; simp


theorem tame_of_fit (b n : Nat) (input : List (BitVec (8 * b)))
    (hfit : ∀ x ∈ input, x.toNat < 2 ^ n) (i : Nat) : Tame b n (input.getD i 0) i := by
  left
  rw [List.getD_eq_getElem?_getD]
  cases h : input[i]? with
  | none => simp [Nat.two_pow_pos]
  | some x => exact hfit x (List.mem_of_getElem? h)

theorem pack_spec (b n : Nat) (input : List (BitVec (8 * b))) (o : List Byte)
    (hb : 0 < b) (hn : 0 < n) (hnW : n ≤ 8 * b) (ho : n * b ≤ o.length)
    (hlen : input.length ≤ 8 * b)
    (hfit : ∀ i, Tame b n (input.getD i 0) i) :
    ∃ o', pack b input o n = .ok o' ∧ o'.length = o.length ∧
      ∀ j, j < 8 * o.length → bitAt o' j =
        (bitAt o j || (input.getD (j / n) 0).getLsbD (j % n)) := by
  refine ⟨_, ?_, packFold_length b n input o (List.range (8 * b)), ?_⟩
  · unfold pack
    rw [if_neg (by omega), if_neg (by omega), if_neg (by omega)]
  · intro j hj
    rw [packFold_bit _ _ _ _ _ _ hb hn hnW hfit hj]
    congr 1
    by_cases h : j / n < 8 * b
    · simp [h]
    · rw [List.getD_eq_getElem?_getD, List.getElem?_eq_none (by omega)]; simp

/-! ### decode -/

theorem fieldBV_congr (b n : Nat) (hn : n ≤ 8 * b) (p q : List Byte) (k : Nat)
    (h : ∀ i, i < n → bitAt p (k * n + i) = bitAt q (k * n + i)) :
    fieldBV b n p k = fieldBV b n q k := by
  apply BitVec.eq_of_getLsbD_eq
  intro i _
  rw [fieldBV_getLsbD _ _ _ _ _ hn, fieldBV_getLsbD _ _ _ _ _ hn]
  by_cases hi : i < n
  · rw [h i hi]
  · simp [hi]

theorem decodePack_eq (b n : Nat) (hb : b = 1 ∨ b = 2 ∨ b = 4 ∨ b = 8) (hn : 0 < n)
    (hnW : n ≤ 8 * b) (packed : List Byte) :
    decodePack b (packed.take (b * n)) n = .ok ((List.range (8 * b)).map (fieldBV b n packed)) := by
  have hdiv : 8 * b * n / 8 = b * n := by rw [Nat.mul_assoc]; omega
  have hb0 : 0 < b := by omega
  have hpl : b * n ≤ packedLength b := by
    unfold packedLength
    rcases hb with rfl | rfl | rfl | rfl <;> simp <;> omega
  unfold decodePack
  rw [hdiv]
  have hbnd : ∀ k, k < 8 * b → ∀ i, i < n → k * n + i < 8 * (b * n) := by
    intro k hk i hi
    have : (k + 1) * n ≤ 8 * b * n := Nat.mul_le_mul_right n (by omega)
    rw [Nat.add_mul, Nat.mul_assoc] at this; omega
  split
  · rename_i h
    rw [if_neg (by omega), unpack_eq b n _ hb0 hnW]
    · congr 1
      apply List.map_congr_left
      intro k hk
      rw [List.mem_range] at hk
      apply fieldBV_congr _ _ hnW
      intro i hi
      have h1 := hbnd k hk i hi
      rw [bitAt_append, bitAt_replicate_zero]
      split
      · rw [bitAt_take]; simp [h1]
      · rename_i h2
        rw [List.length_take] at h2 h
        rw [bitAt_of_ge _ _ (by omega)]
    · rw [List.length_append, List.length_replicate, Nat.mul_comm]; omega
  · rename_i h
    rw [unpack_eq b n _ hb0 hnW (by rw [Nat.mul_comm]; omega)]
    congr 1
    apply List.map_congr_left
    intro k hk
    rw [List.mem_range] at hk
    apply fieldBV_congr _ _ hnW
    intro i hi
    have h1 := hbnd k hk i hi
    rw [bitAt_take]; simp [h1]

theorem fieldBV_drop (b n : Nat) (hn : n ≤ 8 * b) (q : List Byte) (k : Nat) :
    fieldBV b n (q.drop (b * n)) k = fieldBV b n q (8 * b + k) := by
  apply BitVec.eq_of_getLsbD_eq
  intro i _
  rw [fieldBV_getLsbD _ _ _ _ _ hn, fieldBV_getLsbD _ _ _ _ _ hn, bitAt_drop, Nat.add_mul,
    Nat.add_assoc, Nat.mul_assoc]

/-- State invariant of the bit-packed decoder: `q` is the byte stream from the start of the
current block. -/
structure Inv {b : Nat} (d : Decoder b) (n : Nat) (q : List Byte) : Prop where
  nb : d.numBits = n
  pk : d.packed = q.drop (b * n)
  un : d.unpacked = (List.range (8 * b)).map (fieldBV b n q)
  enough : (d.idx + d.remaining) * n ≤ 8 * q.length
  ix : d.idx < 8 * b ∨ q.drop (b * n) = []

theorem next_spec {b : Nat} (n : Nat) (hb : b = 1 ∨ b = 2 ∨ b = 4 ∨ b = 8) (hn : 0 < n)
    (hnW : n ≤ 8 * b) (d : Decoder b) (q : List Byte) (hI : Inv d n q) (hr : d.remaining ≠ 0) :
    ∃ d' q', Decoder.next d = .ok (some (fieldBV b n q d.idx), d') ∧ Inv d' n q' ∧
      d'.remaining = d.remaining - 1 ∧
      ∀ k, fieldBV b n q' (d'.idx + k) = fieldBV b n q (d.idx + 1 + k) := by
  obtain ⟨hnb, hpk, hun, hen, hix⟩ := hI
  have hidx : d.idx < 8 * b := by
    rcases hix with h | h
    · exact h
    · have h1 : q.length ≤ b * n := by
        have := congrArg List.length h; rw [List.length_drop] at this; simp at this; omega
      have h2 : (d.idx + d.remaining) * n ≤ 8 * b * n := by rw [Nat.mul_assoc]; omega
      have := Nat.le_of_mul_le_mul_right h2 hn
      omega
  unfold Decoder.next
  rw [if_neg hr, hun, List.getElem?_map, List.getElem?_range hidx]
  simp only [Option.map_some]
  split
  · rename_i he
    split
    · rename_i hp
      refine ⟨_, q, rfl, ⟨hnb, hpk, rfl, ?_, ?_⟩, rfl, fun k => rfl⟩
      · simp only; rw [show d.idx + 1 + (d.remaining - 1) = d.idx + d.remaining by omega]; exact hen
      · right; rw [← hpk]; exact hp
    · rename_i hp
      rw [hnb, decodePack_eq b n hb hn hnW]
      refine ⟨_, d.packed, rfl, ⟨by simp, rfl, rfl, ?_, ?_⟩, rfl, ?_⟩
      · simp only [Nat.zero_add]
        rw [hpk, List.length_drop]
        have h3 : (d.idx + d.remaining) * n = 8 * b * n + (d.remaining - 1) * n := by
          rw [← Nat.add_mul]; congr 1; omega
        rw [h3, Nat.mul_assoc] at hen
        omega
      · left; show 0 < 8 * b; omega
      · intro k
        simp only [Nat.zero_add]
        rw [he, ← fieldBV_drop _ _ hnW, hpk]
  · rename_i he
    refine ⟨_, q, rfl, ⟨hnb, hpk, rfl, ?_, ?_⟩, rfl, fun k => rfl⟩
    · simp only; rw [show d.idx + 1 + (d.remaining - 1) = d.idx + d.remaining by omega]; exact hen
    · left; show d.idx + 1 < 8 * b; omega

theorem drain_spec {b : Nat} (n : Nat) (hb : b = 1 ∨ b = 2 ∨ b = 4 ∨ b = 8) (hn : 0 < n)
    (hnW : n ≤ 8 * b) (r : Nat) (fuel : Nat) (hf : r < fuel) (d : Decoder b) (q : List Byte)
    (hI : Inv d n q) (hr : d.remaining = r) :
    drain Decoder.next fuel d = .ok ((List.range r).map fun k => fieldBV b n q (d.idx + k)) := by
  induction r generalizing d q fuel with
  | zero =>
    cases fuel with
    | zero => omega
    | succ fuel => simp [drain, Decoder.next, hr]
  | succ r ih =>
    cases fuel with
    | zero => omega
    | succ fuel =>
      obtain ⟨d', q', h1, h2, h3, h4⟩ := next_spec n hb hn hnW d q hI (by omega)
      rw [drain, h1]
      simp only
      rw [ih fuel (by omega) d' q' h2 (by omega)]
      simp only [Res.map', List.range_succ_eq_map, List.map_cons, List.map_map, Nat.add_zero]
      congr 2
      apply List.map_congr_left
      intro k _
      simp only [Function.comp_apply, h4]
      congr 1; omega

theorem tryNew_inv (b n length : Nat) (hb : b = 1 ∨ b = 2 ∨ b = 4 ∨ b = 8) (hn : 0 < n)
    (hnW : n ≤ 8 * b) (packed : List Byte) (hl : length * n ≤ 8 * packed.length) :
    ∃ d, Decoder.tryNew b packed n length = .ok d ∧ Inv d n packed ∧ d.remaining = length ∧
      d.idx = 0 := by
  unfold Decoder.tryNew
  simp only
  rw [if_neg (by omega), if_neg (by omega)]
  split
  · rename_i h; subst h
    have h0 : length = 0 := by
      rcases Nat.eq_zero_or_pos length with h | h
      · exact h
      · have := Nat.mul_pos h hn; simp at hl; omega
    refine ⟨_, rfl, ⟨rfl, by simp, ?_, by simp, ?_⟩, by simp [h0], rfl⟩
    · apply List.ext_getElem
      · simp
      · intro i h1 h2
        simp only [List.getElem_replicate, List.getElem_map, List.getElem_range]
        apply BitVec.eq_of_getLsbD_eq
        intro j _
        rw [fieldBV_getLsbD _ _ _ _ _ hnW, bitAt_nil]; simp
    · left; show 0 < 8 * b; omega
  · rw [decodePack_eq b n hb hn hnW]
    refine ⟨_, rfl, ⟨rfl, rfl, rfl, ?_, ?_⟩, rfl, rfl⟩
    · simpa using hl
    · left; show 0 < 8 * b; omega

theorem decode_eq (b n length : Nat) (hb : b = 1 ∨ b = 2 ∨ b = 4 ∨ b = 8) (hn : 0 < n)
    (hnW : n ≤ 8 * b) (packed : List Byte) (hl : length * n ≤ 8 * packed.length) :
    decode b packed n length = .ok ((List.range length).map (fieldBV b n packed)) := by
  obtain ⟨d, h1, h2, h3, h4⟩ := tryNew_inv b n length hb hn hnW packed hl
  unfold decode
  rw [h1]
  simp only
  rw [drain_spec n hb hn hnW length _ (by omega) d packed h2 h3, h4]
  simp

/-! ### encode -/

/-- Bits of the concatenation of chunks. -/
theorem packChunks_spec (b n : Nat) (hb : 0 < b) (hn : 0 < n) (hnW : n ≤ 8 * b)
    (exact : Bool) (chunks : List (List (BitVec (8 * b)))) (packed : List Byte)
    (hc : ∀ c ∈ chunks, c.length = 8 * b)
    (hfit : ∀ c ∈ chunks, ∀ x ∈ c, x.toNat < 2 ^ n)
    (hl : chunks.length * (n * b) ≤ packed.length) :
    ∃ o, packChunks b n (n * b) exact chunks packed = .ok o ∧ o.length = packed.length ∧
      ∀ j, j < 8 * packed.length → bitAt o j =
        (bitAt packed j || (chunks.flatten.getD (j / n) 0).getLsbD (j % n)) := by
  induction chunks generalizing packed with
  | nil => exact ⟨packed, rfl, rfl, by simp⟩
  | cons c cs ih =>
    have hnb : 0 < n * b := Nat.mul_pos hn hb
    have hl' : n * b + cs.length * (n * b) ≤ packed.length := by
      rw [List.length_cons, Nat.succ_mul] at hl; omega
    have hne : packed ≠ [] := by
      intro h; subst h; simp at hl'; omega
    obtain ⟨o1, h1, h2, h3⟩ := pack_spec b n c (packed.take (n * b)) hb hn hnW
      (by rw [List.length_take]; omega)
      (Nat.le_of_eq (hc c (List.mem_cons_self ..)))
      (tame_of_fit b n c (hfit c (List.mem_cons_self ..)))
    obtain ⟨o2, h4, h5, h6⟩ := ih (packed.drop (n * b))
      (fun c' h => hc c' (List.mem_cons_of_mem _ h))
      (fun c' h => hfit c' (List.mem_cons_of_mem _ h))
      (by rw [List.length_drop]; omega)
    have hl1 : (packed.take (n * b)).length = n * b := by rw [List.length_take]; omega
    refine ⟨o1 ++ o2, ?_, ?_, ?_⟩
    · rw [packChunks, if_neg, h1]
      · simp only [h4, Res.map']
      · rintro (h | ⟨_, h⟩)
        · exact hne h
        · omega
    · rw [List.length_append, h2, h5, List.length_take, List.length_drop]; omega
    · intro j hj
      rw [List.flatten_cons, bitAt_append, h2, hl1]
      rw [List.getD_eq_getElem?_getD, List.getElem?_append, hc c (List.mem_cons_self ..)]
      have hdm := Nat.div_add_mod j n
      by_cases hlt : j < 8 * (n * b)
      · have hq : j / n < 8 * b := by
          rw [Nat.div_lt_iff_lt_mul hn]
          calc j < 8 * (n * b) := hlt
            _ = 8 * b * n := by rw [Nat.mul_assoc, Nat.mul_comm n b]
        rw [if_pos hlt, if_pos hq, h3 j (by rw [hl1]; exact hlt), bitAt_take,
          List.getD_eq_getElem?_getD]
        simp [hlt]
      · have e : 8 * (n * b) = n * (8 * b) := by
          rw [Nat.mul_left_comm]
        have hq : ¬ j / n < 8 * b := by
          rw [Nat.div_lt_iff_lt_mul hn, Nat.mul_comm]; omega
        rw [if_neg hlt, if_neg hq, h6 _ (by rw [List.length_drop]; omega), bitAt_drop,
          List.getD_eq_getElem?_getD]
        rw [show 8 * (n * b) + (j - 8 * (n * b)) = j by omega, e, Nat.sub_mul_div, 
          Nat.sub_mul_mod (by omega)]

theorem chunksExact_spec {α : Type} (k : Nat) (hk : 0 < k) (fuel : Nat) (xs : List α)
    (hf : xs.length ≤ fuel * k ∨ xs.length ≤ fuel) :
    (∀ c ∈ (chunksExact k fuel xs).1, c.length = k) ∧
    (chunksExact k fuel xs).1.flatten ++ (chunksExact k fuel xs).2 = xs ∧
    (xs.length ≤ fuel → (chunksExact k fuel xs).2.length < k) ∧
    (chunksExact k fuel xs).1.length = (if xs.length ≤ fuel then xs.length / k else
      (chunksExact k fuel xs).1.length) := by
  induction fuel generalizing xs with
  | zero =>
    simp only [chunksExact]
    refine ⟨by simp, by simp, ?_, ?_⟩
    · intro h; omega
    · split
      · rename_i h
        have : xs.length = 0 := by omega
        simp [this]
      · rfl
  | succ fuel ih =>
    simp only [chunksExact]
    split
    · rename_i h
      have hd : (xs.drop k).length = xs.length - k := List.length_drop
      obtain ⟨h1, h2, h3, h4⟩ := ih (xs.drop k) (by
        rw [hd]
        rcases hf with hf | hf
        · left; rw [Nat.succ_mul] at hf; omega
        · right; omega)
      refine ⟨?_, ?_, ?_, ?_⟩
      · intro c hc
        rcases List.mem_cons.1 hc with rfl | hc
        · rw [List.length_take]; omega
        · exact h1 c hc
      · simp only [List.flatten_cons, List.append_assoc, h2, List.take_append_drop]
      · intro h5; exact h3 (by omega)
      · split
        · rename_i h5
          rw [if_pos (by omega)] at h4
          simp only [List.length_cons, h4, hd]
          rw [Nat.div_eq_sub_div hk h.2]
        · rfl
    · rename_i h
      have hlt : xs.length < k := by omega
      refine ⟨by simp, by simp, fun _ => hlt, ?_⟩
      split
      · rw [Nat.div_eq_of_lt hlt]; rfl
      · rfl

theorem encode_spec (b n : Nat) (hb : 0 < b) (hn : 0 < n) (hnW : n ≤ 8 * b)
    (xs : List (BitVec (8 * b))) (packed : List Byte)
    (hfit : ∀ x ∈ xs, x.toNat < 2 ^ n)
    (hl : (xs.length + 8 * b - 1) / (8 * b) * (n * b) ≤ packed.length) :
    ∃ o, encode b xs n packed = .ok o ∧ o.length = packed.length ∧
      ∀ j, j < 8 * packed.length → bitAt o j =
        (bitAt packed j || (xs.getD (j / n) 0).getLsbD (j % n)) := by
  have hps : (8 * b * n + 7) / 8 = n * b := by
    rw [Nat.mul_assoc, Nat.mul_comm b n]; omega
  have hnb : 0 < n * b := Nat.mul_pos hn hb
  obtain ⟨h1, h2, h3, h4⟩ := chunksExact_spec (8 * b) (by omega) xs.length xs (.inr (Nat.le_refl _))
  rw [if_pos (Nat.le_refl _)] at h4
  replace h3 := h3 (Nat.le_refl _)
  unfold encode
  generalize chunksExact (8 * b) xs.length xs = p at *
  obtain ⟨chunks, rem⟩ := p
  simp only at h1 h2 h3 h4 ⊢
  rw [hps, if_neg (by omega)]
  have hmem : ∀ c ∈ chunks, ∀ x ∈ c, x ∈ xs := by
    intro c hc x hx
    rw [← h2]
    exact List.mem_append_left _ (List.mem_flatten.2 ⟨c, hc, hx⟩)
  have hW : 0 < 8 * b := by omega
  have hxl : chunks.flatten.length + rem.length = xs.length := by
    rw [← List.length_append, h2]
  have hfl : chunks.flatten.length = chunks.length * (8 * b) := by
    clear h2 h4 hxl hmem
    induction chunks with
    | nil => simp
    | cons c cs ih =>
      rw [List.flatten_cons, List.length_append, h1 c (List.mem_cons_self ..),
        ih (fun c' h => h1 c' (List.mem_cons_of_mem _ h)), List.length_cons, Nat.add_mul cs.length, Nat.one_mul]; omega
  split
  · rename_i hr
    have hrl : 0 < rem.length := List.length_pos_iff.2 hr
    have hcl : (xs.length + 8 * b - 1) / (8 * b) = chunks.length + 1 := by
      rw [← hxl, hfl]
      have : chunks.length * (8 * b) + rem.length + 8 * b - 1
          = 8 * b * (chunks.length + 1) + (rem.length - 1) := by
        rw [Nat.mul_add, Nat.mul_comm (8 * b)]; omega
      rw [this, Nat.mul_add_div hW, Nat.div_eq_of_lt (by omega)]
    obtain ⟨o, g1, g2, g3⟩ := packChunks_spec b n hb hn hnW false
      (chunks ++ [rem ++ List.replicate (8 * b - rem.length) 0#(8 * b)]) packed
      (by
        intro c hc
        rcases List.mem_append.1 hc with hc | hc
        · exact h1 c hc
        · simp only [List.mem_singleton] at hc
          subst hc
          rw [List.length_append, List.length_replicate]; omega)
      (by
        intro c hc x hx
        rcases List.mem_append.1 hc with hc | hc
        · exact hfit x (hmem c hc x hx)
        · simp only [List.mem_singleton] at hc
          subst hc
          rcases List.mem_append.1 hx with hx | hx
          · apply hfit; rw [← h2]; exact List.mem_append_right _ hx
          · rw [(List.mem_replicate.1 hx).2]; simp [Nat.two_pow_pos])
      (by rw [List.length_append, List.length_singleton, ← hcl]; exact hl)
    refine ⟨o, g1, g2, ?_⟩
    intro j hj
    rw [g3 j hj, List.flatten_append, List.flatten_cons, List.flatten_nil, List.append_nil,
      ← List.append_assoc, h2]
    congr 2
    rw [List.getD_eq_getElem?_getD, List.getD_eq_getElem?_getD, List.getElem?_append]
    split
    · rfl
    · rw [List.getElem?_eq_none (l := xs) (by omega), List.getElem?_replicate]
      split <;> rfl
  · rename_i hr
    have hr : rem = [] := by simpa using hr
    subst hr
    have hcl : chunks.length ≤ (xs.length + 8 * b - 1) / (8 * b) := by
      rw [h4]; exact Nat.div_le_div_right (by omega)
    obtain ⟨o, g1, g2, g3⟩ := packChunks_spec b n hb hn hnW true chunks packed h1
      (fun c hc x hx => hfit x (hmem c hc x hx))
      (Nat.le_trans (Nat.mul_le_mul_right _ hcl) hl)
    refine ⟨o, g1, g2, ?_⟩
    intro j hj
    rw [List.append_nil] at h2
    rw [g3 j hj, h2]

end Pq.Bitpack
