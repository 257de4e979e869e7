import Verif.Lemmas.Bitpacked
/- Bit-packing when only a prefix of the values is known to fit. -/
namespace Pq.Bitpack
open Pq.Spec

/-- A pack step never touches the bits before its field, whatever the value. -/
theorem packStep_low (b n : Nat) (input : List (BitVec (8 * b))) (o : List Byte) (i j : Nat)
    (hb : 0 < b) (hn : 0 < n) (hnW : n ≤ 8 * b) (hj : j < 8 * o.length) (hlow : j < i * n) :
    bitAt (packStep b n input o i) j = bitAt o j := by
  have hW : 0 < 8 * b := by omega
  obtain ⟨hc, hc2⟩ := cross_arith (8 * b) (i * n) n hW hn hnW
  have hdm := Nat.div_add_mod (i * n) (8 * b)
  have hlt := Nat.mod_lt (i * n) hW
  unfold packStep
  simp only
  generalize input.getD i 0 = x at *
  by_cases hx : 8 * b < i * n % (8 * b) + n
  · rw [if_pos (hc.2 hx)]
    obtain ⟨e1, e2⟩ := hc2 hx
    rw [e1, e2, bitAt_orBytes_word _ _ _ _ _ (by rw [orBytes_length]; exact hj),
      bitAt_orBytes_word _ _ _ _ _ hj, Bool.or_assoc]
    simp only [BitVec.getLsbD_and, BitVec.getLsbD_ushiftRight,
      BitVec.getLsbD_shiftLeft, mask_getLsbD _ _ _ hnW hb]
    generalize i * n % (8 * b) = r at *
    generalize i * n / (8 * b) = q at *
    rw [Nat.mul_add, Nat.mul_one]
    have h3 : ¬ 8 * b * q + 8 * b ≤ j := by omega
    by_cases h1 : 8 * b * q ≤ j
    · have h2 : j - 8 * b * q < r := by omega
      simp [h3, h2]
    · simp [h1, h3]
  · rw [if_neg (mt hc.1 hx), bitAt_orBytes_word _ _ _ _ _ hj]
    simp only [BitVec.getLsbD_shiftLeft, BitVec.getLsbD_and, mask_getLsbD _ _ _ hnW hb]
    generalize i * n % (8 * b) = r at *
    generalize i * n / (8 * b) = q at *
    by_cases h1 : 8 * b * q ≤ j
    · have h2 : j - 8 * b * q < r := by omega
      simp [h2]
    · simp [h1]

theorem packFold_bit_prefix (b n M : Nat) (input : List (BitVec (8 * b))) (o : List Byte) (m j : Nat)
    (hb : 0 < b) (hn : 0 < n) (hnW : n ≤ 8 * b)
    (hfit : ∀ i, i < M → (input.getD i 0).toNat < 2 ^ n) (hj : j < 8 * o.length)
    (hM : j < M * n) :
    bitAt ((List.range m).foldl (packStep b n input) o) j =
      (bitAt o j || (decide (j / n < m) && (input.getD (j / n) 0).getLsbD (j % n))) := by
  induction m with
  | zero => simp
  | succ m ih =>
    rw [List.range_succ, List.foldl_append, List.foldl_cons, List.foldl_nil]
    by_cases hmM : m < M
    · rw [packStep_bit _ _ _ _ _ _ hb hn hnW (.inl (hfit m hmM)) (by rw [packFold_length]; exact hj), ih]
      have hdm := Nat.div_add_mod j n
      have hmod := Nat.mod_lt j hn
      rw [Bool.or_assoc]
      congr 1
      by_cases h1 : j / n < m
      · have h2 : j / n < m + 1 := by omega
        have h3 : ¬ m * n ≤ j := by
          have : n * (j / n) + n ≤ n * m := by
            have := Nat.mul_le_mul_left n h1
            rw [Nat.mul_succ] at this; omega
          rw [Nat.mul_comm]; omega
        simp [h1, h2, h3]
      · by_cases h2 : j / n = m
        · have h3 : m * n ≤ j := by rw [← h2, Nat.mul_comm]; omega
          have h4 : j - m * n = j % n := by rw [← h2, Nat.mul_comm]; omega
          simp only [h3, decide_true, Bool.true_and, h4, h2]
          simp [hmod]
        · have h3 : ¬ j / n < m + 1 := by omega
          have h4 : m * n + n ≤ j := by
            have : n * (m + 1) ≤ n * (j / n) := Nat.mul_le_mul_left n (by omega)
            rw [Nat.mul_add, Nat.mul_comm] at this; omega
          have h5 : ¬ j - m * n < n := by omega
          simp only [h1, h3, h5]; simp
    · have h1 : j / n < M := by rw [Nat.div_lt_iff_lt_mul hn]; exact hM
      have h2 : M * n ≤ m * n := Nat.mul_le_mul_right n (by omega)
      rw [packStep_low _ _ _ _ _ _ hb hn hnW (by rw [packFold_length]; exact hj) (by omega), ih]
      have h3 : j / n < m := by omega
      have h4 : j / n < m + 1 := by omega
      simp [h3, h4]

theorem pack_prefix (b n M : Nat) (input : List (BitVec (8 * b))) (o : List Byte)
    (hb : 0 < b) (hn : 0 < n) (hnW : n ≤ 8 * b) (ho : n * b ≤ o.length)
    (hlen : input.length ≤ 8 * b)
    (hfit : ∀ i, i < M → (input.getD i 0).toNat < 2 ^ n) :
    ∃ o', pack b input o n = .ok o' ∧ o'.length = o.length ∧
      ∀ j, j < 8 * o.length → j < M * n → bitAt o' j =
        (bitAt o j || (input.getD (j / n) 0).getLsbD (j % n)) := by
  refine ⟨_, ?_, packFold_length b n input o (List.range (8 * b)), ?_⟩
  · unfold pack
    rw [if_neg (by omega), if_neg (by omega), if_neg (by omega)]
  · intro j hj hM
    rw [packFold_bit_prefix b n M _ _ _ _ hb hn hnW hfit hj hM]
    congr 1
    by_cases h : j / n < 8 * b
    · simp [h]
    · rw [List.getD_eq_getElem?_getD, List.getElem?_eq_none (by omega)]; simp

theorem packChunks_prefix (b n : Nat) (hb : 0 < b) (hn : 0 < n) (hnW : n ≤ 8 * b)
    (exact : Bool) (M : Nat) (chunks : List (List (BitVec (8 * b)))) (packed : List Byte)
    (hc : ∀ c ∈ chunks, c.length = 8 * b)
    (hfit : ∀ i, i < M → (chunks.flatten.getD i 0).toNat < 2 ^ n)
    (hl : chunks.length * (n * b) ≤ packed.length) :
    ∃ o, packChunks b n (n * b) exact chunks packed = .ok o ∧ o.length = packed.length ∧
      ∀ j, j < 8 * packed.length → j < M * n → bitAt o j =
        (bitAt packed j || (chunks.flatten.getD (j / n) 0).getLsbD (j % n)) := by
  induction chunks generalizing packed M with
  | nil => exact ⟨packed, rfl, rfl, by simp⟩
  | cons c cs ih =>
    have hnb : 0 < n * b := Nat.mul_pos hn hb
    have hl' : n * b + cs.length * (n * b) ≤ packed.length := by
      rw [List.length_cons, Nat.succ_mul] at hl; omega
    have hne : packed ≠ [] := by
      intro h; subst h; simp at hl'; omega
    have hcl := hc c (List.mem_cons_self ..)
    obtain ⟨o1, h1, h2, h3⟩ := pack_prefix b n (min M (8 * b)) c (packed.take (n * b)) hb hn hnW
      (by rw [List.length_take]; omega)
      (Nat.le_of_eq hcl)
      (by
        intro i hi
        have := hfit i (by omega)
        rw [List.flatten_cons, List.getD_eq_getElem?_getD, List.getElem?_append,
          if_pos (by omega), ← List.getD_eq_getElem?_getD] at this
        exact this)
    obtain ⟨o2, h4, h5, h6⟩ := ih (M - 8 * b) (packed.drop (n * b))
      (fun c' h => hc c' (List.mem_cons_of_mem _ h))
      (by
        intro i hi
        have := hfit (8 * b + i) (by omega)
        rw [List.flatten_cons, List.getD_eq_getElem?_getD, List.getElem?_append,
          if_neg (by omega), ← List.getD_eq_getElem?_getD, hcl, Nat.add_sub_cancel_left] at this
        exact this)
      (by rw [List.length_drop]; omega)
    have hl1 : (packed.take (n * b)).length = n * b := by rw [List.length_take]; omega
    refine ⟨o1 ++ o2, ?_, ?_, ?_⟩
    · rw [packChunks, if_neg, h1]
      · simp only [h4, Res.map']
      · rintro (h | ⟨_, h⟩)
        · exact hne h
        · omega
    · rw [List.length_append, h2, h5, List.length_take, List.length_drop]; omega
    · intro j hj hM
      rw [List.flatten_cons, bitAt_append, h2, hl1]
      rw [List.getD_eq_getElem?_getD, List.getElem?_append, hcl]
      have hdm := Nat.div_add_mod j n
      have hjM : j / n < M := by rw [Nat.div_lt_iff_lt_mul hn]; exact hM
      by_cases hlt : j < 8 * (n * b)
      · have hq : j / n < 8 * b := by
          rw [Nat.div_lt_iff_lt_mul hn]
          calc j < 8 * (n * b) := hlt
            _ = 8 * b * n := by rw [Nat.mul_assoc, Nat.mul_comm n b]
        rw [if_pos hlt, if_pos hq, h3 j (by rw [hl1]; exact hlt)
          (by rw [← Nat.div_lt_iff_lt_mul hn]; omega), bitAt_take,
          List.getD_eq_getElem?_getD]
        simp [hlt]
      · have e : 8 * (n * b) = n * (8 * b) := by
          rw [Nat.mul_left_comm]
        have hq : ¬ j / n < 8 * b := by
          rw [Nat.div_lt_iff_lt_mul hn, Nat.mul_comm]; omega
        rw [if_neg hlt, if_neg hq, h6 _ (by rw [List.length_drop]; omega)
          (by rw [← Nat.div_lt_iff_lt_mul hn, e, Nat.sub_mul_div]; omega), bitAt_drop,
          List.getD_eq_getElem?_getD]
        rw [show 8 * (n * b) + (j - 8 * (n * b)) = j by omega, e, Nat.sub_mul_div, 
          Nat.sub_mul_mod (by omega)]

/-- `encode` of a whole number `k` of blocks of which only the first `M` values are known to
fit: the bits of those are exact. -/
theorem encode_prefix (b n : Nat) (hb : 0 < b) (hn : 0 < n) (hnW : n ≤ 8 * b)
    (M k : Nat) (xs : List (BitVec (8 * b))) (packed : List Byte)
    (hx : xs.length = k * (8 * b))
    (hfit : ∀ i, i < M → (xs.getD i 0).toNat < 2 ^ n)
    (hl : k * (n * b) ≤ packed.length) :
    ∃ o, encode b xs n packed = .ok o ∧ o.length = packed.length ∧
      ∀ j, j < 8 * packed.length → j < M * n → bitAt o j =
        (bitAt packed j || (xs.getD (j / n) 0).getLsbD (j % n)) := by
  have hps : (8 * b * n + 7) / 8 = n * b := by
    rw [Nat.mul_assoc, Nat.mul_comm b n]; omega
  have hnb : 0 < n * b := Nat.mul_pos hn hb
  obtain ⟨h1, h2, h3, h4⟩ := chunksExact_spec (8 * b) (by omega) xs.length xs (.inr (Nat.le_refl _))
  rw [if_pos (Nat.le_refl _)] at h4
  replace h3 := h3 (Nat.le_refl _)
  unfold encode
  generalize chunksExact (8 * b) xs.length xs = p at *
  obtain ⟨chunks, rem⟩ := p
  simp only at h1 h2 h3 h4 ⊢
  rw [hps, if_neg (by omega)]
  have hW : 0 < 8 * b := by omega
  have hxl : chunks.flatten.length + rem.length = xs.length := by
    rw [← List.length_append, h2]
  have hfl : chunks.flatten.length = chunks.length * (8 * b) := by
    clear h2 h4 hxl
    induction chunks with
    | nil => simp
    | cons c cs ih =>
      rw [List.flatten_cons, List.length_append, h1 c (List.mem_cons_self ..),
        ih (fun c' h => h1 c' (List.mem_cons_of_mem _ h)), List.length_cons, Nat.add_mul cs.length, Nat.one_mul]; omega
  have hk : chunks.length = k := by rw [h4, hx, Nat.mul_div_cancel _ hW]
  have hr : rem = [] := by
    rw [hfl, hx, hk] at hxl
    exact List.eq_nil_of_length_eq_zero (by omega)
  subst hr
  rw [List.append_nil] at h2
  simp only [ne_eq, not_true, if_false]
  obtain ⟨o, g1, g2, g3⟩ := packChunks_prefix b n hb hn hnW true M chunks packed h1
    (by rw [h2]; exact hfit) (by rw [hk]; exact hl)
  exact ⟨o, g1, g2, by rw [h2] at g3; exact g3⟩

end Pq.Bitpack
