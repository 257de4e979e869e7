import Verif.Spec.Bits
/- Bit-level lemmas shared by the encodings. -/
namespace Pq
open Spec

theorem bitAt_nil (i : Nat) : bitAt [] i = false := by simp [bitAt]

theorem bitAt_cons_lt (b : Byte) (bs : List Byte) (i : Nat) (h : i < 8) :
    bitAt (b :: bs) i = b.getLsbD i := by
  unfold bitAt
  rw [Nat.div_eq_of_lt h, Nat.mod_eq_of_lt h]; rfl

theorem bitAt_cons_ge (b : Byte) (bs : List Byte) (i : Nat) (h : 8 ≤ i) :
    bitAt (b :: bs) i = bitAt bs (i - 8) := by
  unfold bitAt
  have h1 : i / 8 = (i - 8) / 8 + 1 := by omega
  have h2 : i % 8 = (i - 8) % 8 := by omega
  rw [h1, h2]; rfl

theorem bitAt_of_ge (bs : List Byte) (i : Nat) (h : 8 * bs.length ≤ i) : bitAt bs i = false := by
  unfold bitAt
  rw [List.getD_eq_getElem?_getD, List.getElem?_eq_none (by omega)]; simp

theorem bitAt_append (xs ys : List Byte) (i : Nat) :
    bitAt (xs ++ ys) i = if i < 8 * xs.length then bitAt xs i else bitAt ys (i - 8 * xs.length) := by
  unfold bitAt
  simp only [List.getD_eq_getElem?_getD, List.getElem?_append]
  split
  · rename_i h
    rw [if_pos (by omega)]
  · rename_i h
    rw [if_neg (by omega)]
    have h1 : i / 8 - xs.length = (i - 8 * xs.length) / 8 := by omega
    have h2 : i % 8 = (i - 8 * xs.length) % 8 := by omega
    rw [h1, h2]

theorem bitAt_drop (bs : List Byte) (k i : Nat) : bitAt (bs.drop k) i = bitAt bs (8 * k + i) := by
  unfold bitAt
  have h1 : (8 * k + i) / 8 = k + i / 8 := by omega
  have h2 : (8 * k + i) % 8 = i % 8 := by omega
  rw [h1, h2, List.getD_eq_getElem?_getD, List.getD_eq_getElem?_getD, List.getElem?_drop]

theorem bitAt_take (bs : List Byte) (k i : Nat) :
    bitAt (bs.take k) i = (decide (i < 8 * k) && bitAt bs i) := by
  unfold bitAt
  rw [List.getD_eq_getElem?_getD, List.getD_eq_getElem?_getD, List.getElem?_take]
  by_cases h : i < 8 * k
  · rw [if_pos (by omega)]; simp [h]
  · rw [if_neg (by omega)]; simp [h]

theorem leNat_testBit (bs : List Byte) (i : Nat) : (leNat bs).testBit i = bitAt bs i := by
  induction bs generalizing i with
  | nil => simp [leNat, bitAt_nil]
  | cons b bs ih =>
    rw [leNat, Nat.add_comm]
    have hb : b.toNat < 2 ^ 8 := b.isLt
    rw [show (256 : Nat) = 2 ^ 8 by rfl, Nat.testBit_two_pow_mul_add _ hb]
    by_cases h : i < 8
    · rw [if_pos h, bitAt_cons_lt _ _ _ h]; rfl
    · rw [if_neg h, bitAt_cons_ge _ _ _ (by omega), ih]

theorem leNat_lt (bs : List Byte) : leNat bs < 2 ^ (8 * bs.length) := by
  induction bs with
  | nil => simp [leNat]
  | cons b bs ih =>
    have hb : b.toNat < 256 := b.isLt
    simp only [leNat, List.length_cons]
    rw [show 8 * (bs.length + 1) = 8 * bs.length + 8 by omega, Nat.pow_add]
    omega

theorem fromLe_getLsbD (w : Nat) (bs : List Byte) (i : Nat) :
    (fromLe w bs).getLsbD i = (decide (i < w) && bitAt bs i) := by
  rw [fromLe, BitVec.getLsbD_ofNat, leNat_testBit]

theorem toLe_length (b : Nat) (x : BitVec (8 * b)) : (toLe b x).length = b := by simp [toLe]

theorem toLe_getD (b : Nat) (x : BitVec (8 * b)) (k : Nat) (h : k < b) :
    (toLe b x).getD k 0#8 = x.extractLsb' (8 * k) 8 := by
  rw [List.getD_eq_getElem?_getD]
  simp [toLe, h]

theorem bitAt_toLe (b : Nat) (x : BitVec (8 * b)) (i : Nat) : bitAt (toLe b x) i = x.getLsbD i := by
  by_cases h : i < 8 * b
  · unfold bitAt
    rw [toLe_getD _ _ _ (by omega), BitVec.getLsbD_extractLsb']
    have : 8 * (i / 8) + i % 8 = i := by omega
    rw [this]; simp; omega
  · rw [bitAt_of_ge _ _ (by rw [toLe_length]; omega), BitVec.getLsbD_of_ge _ _ (by omega)]

theorem bitAt_replicate_zero (k i : Nat) : bitAt (List.replicate k 0#8) i = false := by
  unfold bitAt
  rw [List.getD_eq_getElem?_getD, List.getElem?_replicate]
  split <;> simp

/-- Byte strings of equal length with equal bits are equal. -/
theorem bytes_ext (xs ys : List Byte) (hl : xs.length = ys.length)
    (h : ∀ i, i < 8 * xs.length → bitAt xs i = bitAt ys i) : xs = ys := by
  apply List.ext_getElem hl
  intro k h1 h2
  apply BitVec.eq_of_getLsbD_eq
  intro j hj
  have := h (8 * k + j) (by omega)
  unfold bitAt at this
  have e1 : (8 * k + j) / 8 = k := by omega
  have e2 : (8 * k + j) % 8 = j := by omega
  rw [e1, e2, List.getD_eq_getElem?_getD, List.getD_eq_getElem?_getD,
    List.getElem?_eq_getElem h1, List.getElem?_eq_getElem h2] at this
  exact this

theorem toLe_fromLe (b : Nat) (bs : List Byte) (h : bs.length = b) :
    toLe b (fromLe (8 * b) bs) = bs := by
  apply bytes_ext
  · rw [toLe_length, h]
  · intro i hi
    rw [toLe_length] at hi
    rw [bitAt_toLe, fromLe_getLsbD]; simp [hi]

theorem fromLe_toLe (b : Nat) (x : BitVec (8 * b)) : fromLe (8 * b) (toLe b x) = x := by
  apply BitVec.eq_of_getLsbD_eq
  intro i hi
  rw [fromLe_getLsbD, bitAt_toLe]; simp [hi]

/-! `fieldAt` as a number. -/

theorem foldr_bits_testBit (f : Nat → Bool) (n : Nat) :
    (List.range n).foldr (fun j acc => acc + (if f j then 2 ^ j else 0)) 0 < 2 ^ n ∧
    ∀ i, ((List.range n).foldr (fun j acc => acc + (if f j then 2 ^ j else 0)) 0).testBit i
      = (decide (i < n) && f i) := by
  have key : ∀ n c, (List.range n).foldr (fun j acc => acc + (if f j then 2 ^ j else 0)) c
      = (List.range n).foldr (fun j acc => acc + (if f j then 2 ^ j else 0)) 0 + c := by
    intro n
    induction n with
    | zero => simp
    | succ n ih =>
      intro c
      simp only [List.range_succ, List.foldr_append, List.foldr_cons, List.foldr_nil]
      rw [ih, ih (0 + _)]
      omega
  induction n with
  | zero => simp
  | succ n ih =>
    obtain ⟨h1, h2⟩ := ih
    simp only [List.range_succ, List.foldr_append, List.foldr_cons, List.foldr_nil]
    rw [key]
    generalize (List.range n).foldr (fun j acc => acc + (if f j then 2 ^ j else 0)) 0 = x at h1 h2
    cases hf : f n with
    | false =>
      constructor
      · simp [Nat.pow_succ]; omega
      · intro i
        simp only [Bool.false_eq_true, if_false, Nat.add_zero, h2]
        by_cases hi : i = n
        · subst hi; simp [hf]
        · congr 1; simp; omega
    | true =>
      constructor
      · simp [Nat.pow_succ]; omega
      · intro i
        simp only [if_true, Nat.zero_add]
        have := Nat.testBit_two_pow_mul_add (i := n) 1 h1 i
        rw [Nat.add_comm, ← Nat.mul_one (2 ^ n), this]
        by_cases hi : i < n
        · rw [if_pos hi, h2]; simp [hi]; omega
        · rw [if_neg hi]
          by_cases hin : i = n
          · subst hin; simp [hf]
          · have : ¬ i < n + 1 := by omega
            simp only [this, decide_false, Bool.false_and]
            obtain ⟨d, hd⟩ : ∃ d, i - n = d + 1 := ⟨i - n - 1, by omega⟩
            rw [hd, Nat.testBit_succ]; simp

theorem fieldAt_lt (bs : List Byte) (n k : Nat) : fieldAt bs n k < 2 ^ n :=
  (foldr_bits_testBit (fun j => bitAt bs (k * n + j)) n).1

theorem fieldAt_testBit (bs : List Byte) (n k i : Nat) :
    (fieldAt bs n k).testBit i = (decide (i < n) && bitAt bs (k * n + i)) :=
  (foldr_bits_testBit (fun j => bitAt bs (k * n + j)) n).2 i

end Pq
