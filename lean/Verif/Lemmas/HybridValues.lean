import Verif.Lemmas.HybridRle2
/- Helper lemmas: what arbitrary bytes are read as by the hybrid decoder. -/
namespace Pq.Rle
open Pq.Spec

theorem readVarint_decode (bytes : List Byte) :
    Leb.decode bytes = match readVarint bytes with
      | none => .panic
      | some (n, _) => .ok (BitVec.ofNat 64 n, (varintPrefix bytes).length) := by
  rw [Leb.decode_any, readVarint]
  split <;> rfl

theorem readVarint_some {bytes rest : List Byte} {n : Nat} (h : readVarint bytes = some (n, rest)) :
    n < 2 ^ 64 ∧ rest = bytes.drop (varintPrefix bytes).length := by
  unfold readVarint at h
  split at h
  · simp at h
  · rename_i ho
    simp only [Option.some.injEq, Prod.mk.injEq] at h
    obtain ⟨rfl, rfl⟩ := h
    exact ⟨Leb.base128_lt_of_not_overlong 9 bytes ho, rfl⟩

theorem leNat_take (bs : List Byte) (k : Nat) : leNat (bs.take k) = fieldAt bs (8 * k) 0 := by
  apply Nat.eq_of_testBit_eq
  intro i
  rw [leNat_testBit, fieldAt_testBit, Nat.zero_mul, Nat.zero_add]
  unfold bitAt
  by_cases h : i < 8 * k
  · rw [List.getD_eq_getElem?_getD, List.getD_eq_getElem?_getD, List.getElem?_take_of_lt (by omega)]
    simp [h]
  · rw [List.getD_eq_getElem?_getD, List.getElem?_eq_none (by rw [List.length_take]; omega)]
    simp [h]

/-- The decoder of runs, in terms of the specification. -/
theorem runs_next_any (n : Nat) (hn : 0 < n) (v : List Byte) :
    Runs.next ⟨v, n⟩ = match readVarint v with
      | none => .panic
      | some (header, rest) =>
        if rest = [] then .ok (none, ⟨rest, n⟩)
        else if header % 2 = 1 then
          .ok (some (.bitpacked (rest.take (header / 2 * n % 2 ^ 64))), ⟨rest.drop (header / 2 * n % 2 ^ 64), n⟩)
        else if rest.length < (n + 7) / 8 then .panic
        else .ok (some (.rle (rest.take ((n + 7) / 8)) (header / 2)), ⟨rest.drop ((n + 7) / 8), n⟩) := by
  unfold Runs.next
  rw [if_neg (by simp only; omega)]
  simp only
  by_cases h0 : v = []
  · subst h0
    rfl
  · rw [if_neg h0, readVarint_decode]
    cases h : readVarint v with
    | none => rfl
    | some p =>
      obtain ⟨m, rest⟩ := p
      obtain ⟨hm, rfl⟩ := readVarint_some h
      simp only
      have e1 : (BitVec.ofNat 64 m &&& 1#64 = 1#64) ↔ m % 2 = 1 := by
        rw [← BitVec.toNat_inj, BitVec.toNat_and, BitVec.toNat_ofNat, Nat.mod_eq_of_lt hm]
        simp [Nat.and_one_is_mod]
      have e2 : (BitVec.ofNat 64 m >>> 1).toNat = m / 2 := by
        rw [BitVec.toNat_ushiftRight, BitVec.toNat_ofNat, Nat.mod_eq_of_lt hm, Nat.shiftRight_eq_div_pow]
      generalize v.drop _ = rest
      split
      · rename_i h; subst h; rfl
      · by_cases h1 : m % 2 = 1
        · rw [if_pos (e1.2 h1), if_pos h1, e2]
          have : ∀ k, rest.take (min k rest.length) = rest.take k ∧ rest.drop (min k rest.length) = rest.drop k := by
            intro k
            by_cases h : k ≤ rest.length
            · rw [Nat.min_eq_left h]; exact ⟨rfl, rfl⟩
            · rw [Nat.min_eq_right (by omega), List.take_of_length_le (by omega), List.take_of_length_le (by omega),
                List.drop_of_length_le (by omega), List.drop_of_length_le (by omega)]
              exact ⟨rfl, rfl⟩
          rw [(this _).1, (this _).2]
        · rw [if_neg (mt e1.1 h1), if_neg h1, e2, splitAt', ceil8_eq]
          by_cases h2 : rest.length < (n + 7) / 8
          · rw [if_neg (by omega), if_pos h2]
          · rw [if_pos (by omega), if_neg h2]

theorem runs_next_panic (n : Nat) (hn : 0 < n) (v : List Byte) : Runs.next ⟨v, n⟩ = .panic ↔ BadRun n v := by
  rw [runs_next_any n hn, BadRun, readVarint]
  by_cases ho : Overlong 9 v
  · simp [ho]
  · simp only [ho, false_or, not_false_eq_true, true_and, if_false]
    generalize v.drop _ = rest
    generalize base128 _ = m
    by_cases hr : rest = []
    · subst hr; simp
    · have : 0 < rest.length := List.length_pos_iff.2 hr
      rw [if_neg hr]
      by_cases h1 : m % 2 = 1
      · rw [if_pos h1]; simp; omega
      · rw [if_neg h1]
        by_cases h2 : rest.length < (n + 7) / 8
        · rw [if_pos h2]; simp only [true_iff]; omega
        · rw [if_neg h2]; simp; omega

theorem expand_values (n : Nat) (hn : 0 < n) (hn32 : n ≤ 32) (f : Nat) (v : List Byte) (rem : Nat) (hf : v.length < f) :
    expand n f v rem = match valuesOfRuns n f v rem with
      | some xs => .ok (xs.map (BitVec.ofNat 32))
      | none => .panic := by
  induction f generalizing v rem with
  | zero => omega
  | succ f ih =>
    rw [expand, valuesOfRuns]
    by_cases hr : rem = 0
    · simp [hr]
    · rw [if_neg hr, if_neg hr]
      have hdec := Runs.next_dec ⟨v, n⟩
      rw [runs_next_any n hn] at hdec ⊢
      cases h : readVarint v with
      | none => rfl
      | some p =>
        obtain ⟨m, rest⟩ := p
        simp only [h] at hdec ⊢
        by_cases h0 : rest = []
        · simp [h0]
        · simp only [if_neg h0] at hdec ⊢
          by_cases h1 : m % 2 = 1
          · simp only [if_pos h1] at hdec ⊢
            have hd := hdec _ _ rfl
            simp only at hd
            have e1 : rest.drop (rest.take (m / 2 * n % 2 ^ 64)).length = rest.drop (m / 2 * n % 2 ^ 64) := by
              rw [List.length_take]
              by_cases h : m / 2 * n % 2 ^ 64 ≤ rest.length
              · rw [Nat.min_eq_left h]
              · rw [Nat.min_eq_right (by omega), List.drop_of_length_le (by omega), List.drop_of_length_le (by omega)]
            rw [ih _ _ (by omega), e1]
            simp only [runValues, fields, List.length_map, List.length_range]
            cases valuesOfRuns n f _ _ with
            | none => rfl
            | some xs =>
              simp only [Res.map', Option.map_some, List.map_append, List.map_map]
              rw [List.take_of_length_le (by simp; omega)]
              rfl
          · simp only [if_neg h1] at hdec ⊢
            by_cases h2 : rest.length < (n + 7) / 8
            · simp only [if_pos h2]
            · simp only [if_neg h2] at hdec ⊢
              have hd := hdec _ _ rfl
              simp only at hd
              rw [ih _ _ (by omega)]
              have e2 : rleValue (rest.take ((n + 7) / 8)) = BitVec.ofNat 32 (fieldAt rest (8 * ((n + 7) / 8)) 0) := by
                rw [rleValue, List.take_take, Nat.min_eq_right (by omega), fromLe, leNat_take]
              simp only [runValues, List.length_replicate, e2, List.take_replicate]
              rw [show rem - min (m / 2) rem = rem - m / 2 by omega, Nat.min_comm]
              cases valuesOfRuns n f _ _ with
              | none => rfl
              | some xs => simp [Res.map']

theorem decode_values (n : Nat) (hn32 : n ≤ 32) (data : List Byte) (N : Nat) :
    decode data n N = match hybridValues n data N with
      | some xs => .ok (xs.map (BitVec.ofNat 32))
      | none => .panic := by
  unfold hybridValues
  by_cases h0 : n = 0
  · subst h0
    rw [decode_zero]
    simp
  · rw [decode_eq n (by omega) hn32, if_neg h0]
    simp only [runs_next_panic n (by omega)]
    split
    · rfl
    · exact expand_values n (by omega) hn32 _ _ _ (by omega)

end Pq.Rle
