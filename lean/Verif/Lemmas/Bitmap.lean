import Verif.Model.Bitmap
import Verif.Lemmas.Bits
/- Helper lemmas about bitmaps. -/
namespace Pq.Bitmap
open Pq.Spec

theorem set_getLsbD (b : Byte) (i j : Nat) (hi : i < 8) :
    (set b i).getLsbD j = (b.getLsbD j || decide (i = j)) := by
  unfold set
  rw [BitVec.getLsbD_or, BitVec.getLsbD_shiftLeft]
  congr 1
  by_cases h : j = i
  · subst h; simp [hi]
  · have : ¬ i = j := fun e => h e.symm
    simp only [this, decide_false]
    by_cases h2 : j < i
    · simp [h2]
    · have : (1#8).getLsbD (j - i) = false := by
        rw [BitVec.getLsbD_one]; simp; omega
      simp [this]

theorem byteOf_foldl (bits : List Bool) (k : Nat) (acc : Byte) (hk : k + bits.length ≤ 8) (i : Nat) :
    ((bits.zipIdx k).foldl (fun byte (v, i) => if v then set byte i else byte) acc).getLsbD i
      = (acc.getLsbD i || (decide (k ≤ i) && bits.getD (i - k) false)) := by
  induction bits generalizing k acc with
  | nil => simp
  | cons b bs ih =>
    rw [List.length_cons] at hk
    rw [List.zipIdx_cons, List.foldl_cons, ih (k + 1) _ (by omega)]
    by_cases hik : i = k
    · subst hik
      have h3 : ¬ i + 1 ≤ i := by omega
      cases b <;> simp [set_getLsbD _ _ _ (show i < 8 by omega), h3]
    · have e1 : (if b = true then set acc k else acc).getLsbD i = acc.getLsbD i := by
        split
        · rw [set_getLsbD _ _ _ (by omega)]
          have : ¬ k = i := fun e => hik e.symm
          simp [this]
        · rfl
      simp only [e1]
      congr 1
      by_cases h2 : k ≤ i
      · have h3 : k + 1 ≤ i := by omega
        have e2 : i - k = (i - (k + 1)) + 1 := by omega
        simp only [h2, h3, decide_true, Bool.true_and]
        rw [e2, List.getD_cons_succ]
      · have h3 : ¬ k + 1 ≤ i := by omega
        simp [h2, h3]

theorem byteOf_getLsbD (bits : List Bool) (h : bits.length ≤ 8) (i : Nat) :
    (byteOf bits).getLsbD i = bits.getD i false := by
  unfold byteOf
  rw [byteOf_foldl bits 0 0#8 (by omega)]
  simp

theorem encodeBool_length (bits : List Bool) : (encodeBool bits).length = ceil8 bits.length := by
  unfold encodeBool ceil8
  by_cases h : bits.length % 8 = 0 <;> simp [h]

theorem bitAt_encodeBool (bits : List Bool) (i : Nat) :
    bitAt (encodeBool bits) i = bits.getD i false := by
  unfold bitAt encodeBool
  simp only [List.getD_eq_getElem?_getD, List.getElem?_append, List.length_map, List.length_range]
  by_cases h1 : i / 8 < bits.length / 8
  · rw [if_pos h1, List.getElem?_map, List.getElem?_range h1]
    simp only [Option.map_some, Option.getD_some]
    rw [byteOf_getLsbD _ (by rw [List.length_take]; omega), List.getD_eq_getElem?_getD,
      List.getElem?_take, if_pos (by omega), List.getElem?_drop]
    congr 2; omega
  · rw [if_neg h1]
    by_cases h2 : bits.length % 8 = 0
    · rw [List.getElem?_eq_none (l := bits) (by omega)]
      simp [h2]
    · rw [if_pos h2]
      by_cases h3 : i / 8 = bits.length / 8
      · have e : i / 8 - bits.length / 8 = 0 := by omega
        rw [e]
        simp only [List.getElem?_cons_zero, Option.getD_some]
        rw [byteOf_getLsbD _ (by rw [List.length_drop]; omega), List.getD_eq_getElem?_getD,
          List.getElem?_drop]
        congr 2; omega
      · rw [List.getElem?_eq_none (l := bits) (by omega), List.getElem?_eq_none]
        · simp
        · simp; omega

theorem mask_new (off : Nat) : (1#8).rotateLeft (off % 2 ^ 32) = 1#8 <<< (off % 8) := by
  have : ∀ r, r < 8 → (1#8).rotateLeftAux r = 1#8 <<< r := by decide
  unfold BitVec.rotateLeft
  rw [show off % 2 ^ 32 % 8 = off % 8 by omega]
  exact this _ (by omega)

theorem mask_rot (r : Nat) (hr : r < 8) : (1#8 <<< r).rotateLeft 1 = 1#8 <<< ((r + 1) % 8) := by
  revert r; decide

theorem mask_one (r : Nat) (hr : r < 8) : (1#8 <<< r = 1#8) ↔ r = 0 := by
  revert r; decide

theorem mask_test (b : Byte) (r : Nat) (hr : r < 8) : ((b &&& (1#8 <<< r)) != 0#8) = b.getLsbD r := by
  have : ∀ r, r < 8 → ∀ b : Byte, ((b &&& (1#8 <<< r)) != 0#8) = b.getLsbD r := by decide
  exact this r hr b

/-- Invariant of `BitmapIter`: `p` is the absolute position of the next bit of `s`. -/
structure Inv (it : Iter) (s : List Byte) (p : Nat) : Prop where
  enough : p + it.remaining ≤ 8 * s.length
  mask : it.mask = 1#8 <<< (p % 8)
  iter : it.iter = s.drop (p / 8 + 1)
  cur : it.remaining ≠ 0 → it.currentByte = s.getD (p / 8) 0#8

theorem new_inv (s : List Byte) (off len : Nat) (h : off + len ≤ 8 * s.length) :
    ∃ it, Iter.new s off len = .ok it ∧ Inv it s off ∧ it.remaining = len := by
  unfold Iter.new
  rw [if_neg (by omega)]
  refine ⟨_, rfl, ⟨h, mask_new off, ?_, ?_⟩, rfl⟩
  · simp
  · intro _
    simp only
    rw [List.getD_eq_getElem?_getD, ← List.head?_drop]
    cases List.drop (off / 8) s <;> rfl

theorem next_inv (it : Iter) (s : List Byte) (p : Nat) (hI : Inv it s p) (hr : it.remaining ≠ 0) :
    ∃ it', it.next = (some (bitAt s p), it') ∧ Inv it' s (p + 1) ∧
      it'.remaining = it.remaining - 1 := by
  obtain ⟨h1, h2, h3, h4⟩ := hI
  have h4 := h4 hr
  have hp8 : p % 8 < 8 := by omega
  have hv : ((it.currentByte &&& it.mask) != 0#8) = bitAt s p := by
    rw [h2, mask_test _ _ hp8, h4]; rfl
  have hm : it.mask.rotateLeft 1 = 1#8 <<< ((p + 1) % 8) := by
    rw [h2, mask_rot _ hp8]; congr 1; omega
  unfold Iter.next
  rw [if_neg hr]
  simp only
  rw [hv, hm]
  by_cases h8 : (p + 1) % 8 = 0
  · rw [if_pos ((mask_one _ (by omega)).2 h8), h3]
    have e1 : p / 8 + 1 = (p + 1) / 8 := by omega
    split
    · rename_i v rest hd
      refine ⟨_, rfl, ⟨by simp only; omega, rfl, ?_, ?_⟩, rfl⟩
      · simp only
        rw [← e1, ← List.tail_drop, hd]; rfl
      · intro _
        simp only
        rw [List.getD_eq_getElem?_getD, ← e1, ← List.head?_drop, hd]; rfl
    · rename_i hd
      have hl : s.length ≤ p / 8 + 1 := by
        have := congrArg List.length hd
        rw [List.length_drop] at this; simp at this; omega
      refine ⟨_, rfl, ⟨by simp only; omega, rfl, ?_, ?_⟩, rfl⟩
      · simp only
        rw [hd]; exact (List.drop_eq_nil_of_le (by omega)).symm
      · intro hh; simp only at hh; omega
  · rw [if_neg (mt (mask_one _ (by omega)).1 h8)]
    have e1 : (p + 1) / 8 = p / 8 := by omega
    refine ⟨_, rfl, ⟨by simp only; omega, rfl, ?_, ?_⟩, rfl⟩
    · simp only; rw [e1]; exact h3
    · intro _; simp only; rw [e1]; exact h4

theorem drain_inv (s : List Byte) (r fuel : Nat) (hf : r < fuel) (it : Iter) (p : Nat)
    (hI : Inv it s p) (hr : it.remaining = r) :
    drain (fun s => Res.ok (Iter.next s)) fuel it = .ok ((List.range r).map fun k => bitAt s (p + k)) := by
  induction r generalizing fuel it p with
  | zero =>
    cases fuel with
    | zero => omega
    | succ fuel => simp [drain, Iter.next, hr]
  | succ r ih =>
    cases fuel with
    | zero => omega
    | succ fuel =>
      obtain ⟨it', h1, h2, h3⟩ := next_inv it s p hI (by omega)
      rw [drain]
      simp only [h1]
      rw [ih fuel (by omega) it' (p + 1) h2 (by omega)]
      simp only [Res.map', List.range_succ_eq_map, List.map_cons, List.map_map, Nat.add_zero]
      congr 2
      apply List.map_congr_left
      intro k _
      simp only [Function.comp_apply]
      congr 1; omega

theorem collect_eq (s : List Byte) (off len : Nat) (h : off + len ≤ 8 * s.length) :
    ∃ it, Iter.new s off len = .ok it ∧
      it.collect = .ok ((List.range len).map fun k => bitAt s (off + k)) := by
  obtain ⟨it, h1, h2, h3⟩ := new_inv s off len h
  exact ⟨it, h1, by rw [Iter.collect, drain_inv s len _ (by omega) it off h2 h3]⟩

end Pq.Bitmap
