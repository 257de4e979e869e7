import Verif.Model.Bloom
import Verif.Spec.Bloom
import Verif.Lemmas.Deserialize2
import Mathlib.Tactic.IntervalCases
/- Bit-level characterisation of the bloom filter. -/
namespace Pq.Bloom
open Spec Deser

theorem newMask_length (x : BitVec 32) : (newMask x).length = 8 := rfl

/-- The mask of word `i` has exactly the bit of the format set. -/
theorem newMask_bit (hash : BitVec 64) (i k : Nat) (hi : i < 8) :
    ((newMask (hash.setWidth 32)).getD i 0#32).getLsbD k
      = decide (k = bloomBit hash.toNat i) := by
  have key : ∀ s : BitVec 32, (1#32 <<< ((hash.setWidth 32 * s) >>> 27)).getLsbD k
      = decide (k = (hash.toNat % 2 ^ 32) * s.toNat % 2 ^ 32 / 2 ^ 27) := by
    intro s
    have hv : ((hash.setWidth 32 * s) >>> 27).toNat
        = (hash.toNat % 2 ^ 32) * s.toNat % 2 ^ 32 / 2 ^ 27 := by
      simp [BitVec.toNat_ushiftRight, Nat.shiftRight_eq_div_pow, BitVec.toNat_mul]
    have hlt : (hash.toNat % 2 ^ 32) * s.toNat % 2 ^ 32 / 2 ^ 27 < 32 := by
      have : (hash.toNat % 2 ^ 32) * s.toNat % 2 ^ 32 < 2 ^ 32 := Nat.mod_lt _ (by decide)
      omega
    generalize hz : (hash.setWidth 32 * s) >>> 27 = z at hv
    rw [BitVec.shiftLeft_eq', BitVec.getLsbD_shiftLeft]
    rw [hv]
    generalize (hash.toNat % 2 ^ 32) * s.toNat % 2 ^ 32 / 2 ^ 27 = m at *
    rw [BitVec.getLsbD_one]
    by_cases h : k = m
    · subst h; simp [hlt]
    · simp only [h, decide_false]
      by_cases h1 : k < m
      · simp [h1]
      · have : k - m ≠ 0 := by omega
        simp [this]
  unfold newMask
  interval_cases i <;> exact key _

theorem loadBlock_length (s : List Byte) : (loadBlock s).length = 8 := by
  simp [loadBlock]

theorem loadBlock_bit (s : List Byte) (hs : s.length = 32) (i k : Nat) (hi : i < 8) (hk : k < 32) :
    ((loadBlock s).getD i 0#32).getLsbD k = bitAt s (32 * i + k) := by
  have hl : (chunksExact 4 s).length = 8 := by rw [chunksExact_length, hs]
  unfold loadBlock
  rw [List.take_of_length_le (by omega)]
  simp only [List.length_map, hl, Nat.sub_self, List.replicate_zero, List.append_nil]
  rw [List.getD_eq_getElem?_getD, List.getElem?_map]
  have : (chunksExact 4 s)[i]? = some ((s.drop (i * 4)).take 4) := by
    simp [chunksExact, hs, hi]
  rw [this]
  simp only [Option.map_some, Option.getD_some]
  rw [fromLe_getLsbD, bitAt_take, bitAt_drop]
  have e : 8 * (i * 4) + k = 32 * i + k := by omega
  simp [hk, e]

theorem bitAt_words (ws : List (BitVec 32)) (p : Nat) :
    bitAt (ws.map (fun a => toLe 4 a)).flatten p = (ws.getD (p / 32) 0#32).getLsbD (p % 32) := by
  induction ws generalizing p with
  | nil => simp [bitAt_nil]
  | cons w ws ih =>
    rw [List.map_cons, List.flatten_cons, bitAt_append, toLe_length]
    split
    · rename_i h
      rw [bitAt_toLe, Nat.div_eq_of_lt (by omega), Nat.mod_eq_of_lt (by omega)]; rfl
    · rw [ih]
      have h1 : p / 32 = (p - 8 * 4) / 32 + 1 := by omega
      have h2 : p % 32 = (p - 8 * 4) % 32 := by omega
      rw [h1, h2, List.getD_cons_succ]

theorem unloadBlock_eq (ws : List (BitVec 32)) (hw : ws.length = 8) (s : List Byte)
    (hs : s.length = 32) : unloadBlock ws s = (ws.map (fun a => toLe 4 a)).flatten := by
  have hl : (chunksExact 4 s).length = 8 := by rw [chunksExact_length, hs]
  unfold unloadBlock
  rw [List.take_of_length_le (by omega)]
  have : List.zipWith (fun (a : BitVec 32) (_ : List Byte) => toLe 4 a) ws (chunksExact 4 s)
      = ws.map (fun a => toLe 4 a) := by
    apply List.ext_getElem
    · simp [hw, hl]
    · intro k h1 h2; simp
  simp only [this, List.length_map, hw]
  rw [List.drop_eq_nil_of_le (by omega), List.append_nil]

theorem words_length (ws : List (BitVec 32)) :
    (ws.map (fun a => toLe 4 a)).flatten.length = 4 * ws.length := by
  induction ws with
  | nil => rfl
  | cons w ws ih => simp only [List.map_cons, List.flatten_cons, List.length_append, ih,
      toLe_length, List.length_cons]; omega

/-- What the loop of `insert` computes: all remaining words of the block are or-ed and the block is
written back. -/
theorem insertLoop_eq (mask : List (BitVec 32)) (b : Nat) (n i : Nat) (block : List (BitVec 32))
    (pre s post : List Byte) (hb : block.length = 8) (hp : pre.length = b * 32)
    (hs : s.length = 32) (hn : 0 < n) (hi : i + n = 8) :
    ∃ block' : List (BitVec 32), insertLoop mask b n i block (pre ++ s ++ post)
        = .ok (pre ++ (block'.map (fun a => toLe 4 a)).flatten ++ post) ∧ block'.length = 8 ∧
      ∀ j, block'.getD j 0#32
        = if i ≤ j ∧ j < 8 then block.getD j 0#32 ||| mask.getD j 0#32 else block.getD j 0#32 := by
  induction n generalizing i block s with
  | zero => omega
  | succ n ih =>
    unfold insertLoop modifySlice slice
    have hsl : ((pre ++ s ++ post).drop (b * 32)).take ((b + 1) * 32 - b * 32) = s := by
      have : (b + 1) * 32 - b * 32 = 32 := by omega
      rw [this, List.append_assoc, ← hp, List.drop_left, ← hs, List.take_left]
    rw [if_pos (by simp only [List.length_append]; omega), hsl]
    have h1 : (pre ++ s ++ post).take (b * 32) = pre := by
      rw [List.append_assoc, ← hp, List.take_left]
    have h2 : (pre ++ s ++ post).drop ((b + 1) * 32) = post := by
      have : (b + 1) * 32 = (pre ++ s).length := by simp only [List.length_append]; omega
      rw [this, List.drop_left]
    simp only [Res.ok_bind, h1, h2]
    generalize hbl : block.set i (block.getD i 0#32 ||| mask.getD i 0#32) = block1
    have hb1 : block1.length = 8 := by rw [← hbl]; simp [hb]
    have hget : ∀ j, block1.getD j 0#32
        = if j = i then block.getD i 0#32 ||| mask.getD i 0#32 else block.getD j 0#32 := by
      intro j
      rw [← hbl]
      simp only [List.getD_eq_getElem?_getD, List.getElem?_set]
      by_cases h : i = j
      · subst h; simp [hb, show i < 8 by omega]
      · have : ¬ j = i := fun e => h e.symm
        simp [h, this]
    rw [unloadBlock_eq _ hb1 _ hs]
    by_cases hn0 : n = 0
    · subst hn0
      refine ⟨block1, by simp [insertLoop], hb1, ?_⟩
      intro j
      rw [hget]
      by_cases h : j = i
      · subst h; simp [show j < 8 by omega]
      · rw [if_neg h, if_neg (by omega)]
    · obtain ⟨block', e1, e2, e3⟩ := ih (i + 1) block1
        (block1.map (fun a => toLe 4 a)).flatten hb1 (by rw [words_length, hb1]) (by omega) (by omega)
      refine ⟨block', e1, e2, ?_⟩
      intro j
      rw [e3, hget]
      by_cases h : j = i
      · subst h; rw [if_neg (by omega), if_pos rfl, if_pos (by omega)]
      · rw [if_neg h]
        by_cases h3 : i + 1 ≤ j ∧ j < 8
        · rw [if_pos h3, if_pos (by omega)]
        · rw [if_neg h3, if_neg (by omega)]

theorem blockIndex_eq (ck : Bool) (hash : BitVec 64) (len : Nat) (hlen : len / 32 ≤ 2 ^ 32) :
    hashToBlockIndex ck hash len = .ok (bloomBlock hash.toNat (len / 32)) ∧
      (0 < len / 32 → bloomBlock hash.toNat (len / 32) < len / 32) := by
  unfold hashToBlockIndex bloomBlock
  have hsh : (hash >>> 32).toNat = hash.toNat / 2 ^ 32 := by
    rw [BitVec.toNat_ushiftRight, Nat.shiftRight_eq_div_pow]
  have hh : hash.toNat / 2 ^ 32 < 2 ^ 32 := by have := hash.isLt; omega
  generalize hx : hash.toNat / 2 ^ 32 = x at *
  generalize hn : len / 32 = n at *
  have hmul : x * n ≤ (2 ^ 32 - 1) * n := Nat.mul_le_mul_right _ (by omega)
  have hlt : x * n < 2 ^ 64 := by
    have : (2 ^ 32 - 1) * n ≤ (2 ^ 32 - 1) * 2 ^ 32 := Nat.mul_le_mul_left _ hlen
    omega
  simp only [hsh]
  rw [if_neg (by omega)]
  constructor
  · congr 1
    rw [BitVec.toNat_setWidth, BitVec.toNat_ushiftRight, BitVec.toNat_mul, hsh, BitVec.toNat_ofNat,
      Nat.mod_eq_of_lt (show n < 2 ^ 64 by omega), Nat.mod_eq_of_lt hlt, Nat.shiftRight_eq_div_pow,
      Nat.mod_eq_of_lt (by omega)]
  · intro h0
    rw [Nat.div_lt_iff_lt_mul (by decide)]
    omega

theorem bloomBit_lt (h i : Nat) : bloomBit h i < 32 := by
  unfold bloomBit
  have : (h % 2 ^ 32) * bloomSalt.getD i 0 % 2 ^ 32 < 2 ^ 32 := Nat.mod_lt _ (by decide)
  omega

/-- The bit-level meaning of `insert`. -/
theorem insert_spec (ck : Bool) (bitset : List Byte) (hash : BitVec 64)
    (h0 : 32 ≤ bitset.length) (h1 : bitset.length / 32 ≤ 2 ^ 32) :
    ∃ out, insert ck bitset hash = .ok out ∧ out.length = bitset.length ∧
      ∀ p, bitAt out p = true ↔ bitAt bitset p = true ∨ BloomPos bitset.length hash.toNat p := by
  obtain ⟨hidx, hlt⟩ := blockIndex_eq ck hash bitset.length h1
  have hlt := hlt (by omega)
  unfold insert
  rw [hidx]
  simp only [Res.ok_bind, slice]
  unfold BloomPos
  generalize bloomBlock hash.toNat (bitset.length / 32) = b at *
  have hle : (b + 1) * 32 ≤ bitset.length := by omega
  rw [if_pos (by omega)]
  simp only [Res.ok_bind]
  have e32 : (b + 1) * 32 - b * 32 = 32 := by omega
  rw [e32]
  generalize hs : (bitset.drop (b * 32)).take 32 = s
  have hsl : s.length = 32 := by rw [← hs]; simp; omega
  have hdec : bitset = bitset.take (b * 32) ++ s ++ bitset.drop ((b + 1) * 32) := by
    rw [← hs, List.append_assoc]
    have : (b + 1) * 32 = b * 32 + 32 := by omega
    rw [this, ← List.drop_drop, List.take_append_drop, List.take_append_drop]
  obtain ⟨block', e1, e2, e3⟩ := insertLoop_eq (newMask (hash.setWidth 32)) b 8 0 (loadBlock s)
    (bitset.take (b * 32)) s (bitset.drop ((b + 1) * 32)) (loadBlock_length s)
    (by simp; omega) hsl (by omega) (by omega)
  rw [← hdec] at e1
  refine ⟨_, e1, ?_, ?_⟩
  · simp only [List.length_append, words_length, e2, List.length_take, List.length_drop]; omega
  · intro p
    have hpl : (bitset.take (b * 32)).length = b * 32 := by simp; omega
    rw [bitAt_append, List.length_append, hpl, words_length, e2, bitAt_append, hpl]
    have hsp : ∀ k, k < 256 → bitAt s k = bitAt bitset (256 * b + k) := by
      intro k hk
      rw [← hs, bitAt_take, bitAt_drop]
      simp only [show k < 8 * 32 by omega, decide_true, Bool.true_and]
      congr 1; omega
    by_cases hA : p < 256 * b
    · rw [if_pos (by omega), if_pos (by omega), bitAt_take]
      simp only [show p < 8 * (b * 32) by omega, decide_true, Bool.true_and]
      constructor
      · exact Or.inl
      · rintro (h | ⟨i, hi, rfl⟩)
        · exact h
        · omega
    · by_cases hB : p < 256 * b + 256
      · rw [if_pos (by omega), if_neg (by omega), bitAt_words, e3]
        generalize hq : p - 8 * (b * 32) = q
        have hq2 : q < 256 := by omega
        rw [if_pos (by omega), BitVec.getLsbD_or, newMask_bit _ _ _ (by omega),
          loadBlock_bit _ hsl _ _ (by omega) (by omega)]
        have e4 : 32 * (q / 32) + q % 32 = q := by omega
        rw [e4, hsp q hq2]
        have e5 : 256 * b + q = p := by omega
        rw [e5]
        simp only [Bool.or_eq_true, decide_eq_true_eq]
        constructor
        · rintro (h | h)
          · exact Or.inl h
          · exact Or.inr ⟨q / 32, by omega, by omega⟩
        · rintro (h | ⟨i, hi, h⟩)
          · exact Or.inl h
          · have := bloomBit_lt hash.toNat i
            have h7 : q / 32 = i := by omega
            rw [h7]
            exact Or.inr (by omega)
      · rw [if_neg (by omega), bitAt_drop]
        have e6 : 8 * ((b + 1) * 32) + (p - 8 * (b * 32 + 4 * 8)) = p := by omega
        rw [e6]
        constructor
        · exact Or.inl
        · rintro (h | ⟨i, hi, rfl⟩)
          · exact h
          · have := bloomBit_lt hash.toNat i
            omega

theorem isInLoop_iff (mask block : List (BitVec 32)) (n i : Nat) :
    isInLoop mask block n i = true ↔
      ∀ j, i ≤ j → j < i + n → mask.getD j 0#32 &&& block.getD j 0#32 ≠ 0#32 := by
  induction n generalizing i with
  | zero => simp only [isInLoop, true_iff]; intro j _ _; omega
  | succ n ih =>
    unfold isInLoop
    split
    · rename_i h
      simp only [Bool.false_eq_true, false_iff]
      intro hf
      exact hf i (by omega) (by omega) h
    · rename_i h
      rw [ih]
      constructor
      · intro hj j h1 h2
        by_cases e : j = i
        · subst e; exact h
        · exact hj j (by omega) (by omega)
      · intro hj j h1 h2
        exact hj j (by omega) (by omega)

/-- The bit-level meaning of `is_in_set`. -/
theorem isInSet_spec (ck : Bool) (bitset : List Byte) (hash : BitVec 64)
    (h0 : 32 ≤ bitset.length) (h1 : bitset.length / 32 ≤ 2 ^ 32) :
    ∃ r, isInSet ck bitset hash = .ok r ∧
      (r = true ↔ ∀ p, BloomPos bitset.length hash.toNat p → bitAt bitset p = true) := by
  obtain ⟨hidx, hlt⟩ := blockIndex_eq ck hash bitset.length h1
  have hlt := hlt (by omega)
  unfold isInSet
  rw [hidx]
  simp only [Res.ok_bind, slice]
  unfold BloomPos
  generalize bloomBlock hash.toNat (bitset.length / 32) = b at *
  have hle : (b + 1) * 32 ≤ bitset.length := by omega
  rw [if_pos (by omega)]
  simp only [Res.ok_bind]
  have e32 : (b + 1) * 32 - b * 32 = 32 := by omega
  rw [e32]
  generalize hs : (bitset.drop (b * 32)).take 32 = s
  have hsl : s.length = 32 := by rw [← hs]; simp; omega
  have hsp : ∀ k, k < 256 → bitAt s k = bitAt bitset (256 * b + k) := by
    intro k hk
    rw [← hs, bitAt_take, bitAt_drop]
    simp only [show k < 8 * 32 by omega, decide_true, Bool.true_and]
    congr 1; omega
  refine ⟨_, rfl, ?_⟩
  rw [isInLoop_iff]
  have word : ∀ j, j < 8 → ((newMask (hash.setWidth 32)).getD j 0#32 &&& (loadBlock s).getD j 0#32
      ≠ 0#32 ↔ bitAt bitset (256 * b + 32 * j + bloomBit hash.toNat j) = true) := by
    intro j hj
    have hb := bloomBit_lt hash.toNat j
    constructor
    · intro hne
      rcases Bool.eq_false_or_eq_true
        (bitAt bitset (256 * b + 32 * j + bloomBit hash.toNat j)) with h | h
      · exact h
      · exfalso
        apply hne
        apply BitVec.eq_of_getLsbD_eq
        intro k hk
        rw [BitVec.getLsbD_and, newMask_bit _ _ _ hj, loadBlock_bit _ hsl _ _ hj hk,
          hsp _ (by omega)]
        by_cases e : k = bloomBit hash.toNat j
        · subst e
          have e9 : 256 * b + (32 * j + bloomBit hash.toNat j)
            = 256 * b + 32 * j + bloomBit hash.toNat j := by omega
          rw [e9, h]; simp
        · simp [e]
    · intro h e
      have := congrArg (fun v => BitVec.getLsbD v (bloomBit hash.toNat j)) e
      simp only [BitVec.getLsbD_and, newMask_bit _ _ _ hj, loadBlock_bit _ hsl _ _ hj hb,
        hsp (32 * j + bloomBit hash.toNat j) (by omega)] at this
      have e9 : 256 * b + (32 * j + bloomBit hash.toNat j)
        = 256 * b + 32 * j + bloomBit hash.toNat j := by omega
      rw [e9, h] at this
      simp at this
  constructor
  · rintro h p ⟨i, hi, rfl⟩
    exact (word i hi).1 (h i (by omega) (by omega))
  · intro h j _ hj
    exact (word j (by omega)).2 (h _ ⟨j, by omega, rfl⟩)

/-- The bits after several insertions. -/
theorem insertAll_spec (ck : Bool) (hashes : List (BitVec 64)) (bitset : List Byte)
    (h0 : 32 ≤ bitset.length) (h1 : bitset.length / 32 ≤ 2 ^ 32) :
    ∃ out, insertAll ck bitset hashes = .ok out ∧ out.length = bitset.length ∧
      ∀ p, bitAt out p = true ↔
        bitAt bitset p = true ∨ ∃ h ∈ hashes, BloomPos bitset.length h.toNat p := by
  induction hashes generalizing bitset with
  | nil => exact ⟨bitset, rfl, rfl, by simp⟩
  | cons h hs ih =>
    obtain ⟨o1, e1, l1, b1⟩ := insert_spec ck bitset h h0 h1
    obtain ⟨o2, e2, l2, b2⟩ := ih o1 (by omega) (by rw [l1]; exact h1)
    refine ⟨o2, ?_, by omega, ?_⟩
    · unfold insertAll; rw [e1]; exact e2
    · intro p
      rw [b2, b1, l1]
      simp only [List.mem_cons, exists_eq_or_imp]
      tauto

theorem bits_ext (xs ys : List Byte) (hl : xs.length = ys.length)
    (h : ∀ p, bitAt xs p = true ↔ bitAt ys p = true) : xs = ys :=
  bytes_ext xs ys hl fun i _ => Bool.eq_iff_iff.2 (h i)

end Pq.Bloom
