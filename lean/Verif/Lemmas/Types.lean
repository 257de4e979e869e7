import Verif.Lemmas.Deserialize2
/- Helper lemmas about native types. -/
namespace Pq.Deser
open Pq.Spec

theorem int96_to_from (c : List Byte) (h : c.length = 12) : int96ToLe (int96FromLe c) = c := by
  obtain ⟨a0, a1, a2, a3, a4, a5, a6, a7, a8, a9, a10, a11, rfl⟩ :
      ∃ a0 a1 a2 a3 a4 a5 a6 a7 a8 a9 a10 a11, c = [a0, a1, a2, a3, a4, a5, a6, a7, a8, a9, a10, a11] := by
    match c, h with
    | [a0, a1, a2, a3, a4, a5, a6, a7, a8, a9, a10, a11], _ => exact ⟨_, _, _, _, _, _, _, _, _, _, _, _, rfl⟩
  have h1 : ∀ a b c d : Byte, toLe 4 (fromLe 32 [a, b, c, d]) = [a, b, c, d] := by
    intro a b c d; exact toLe_fromLe [a, b, c, d]
  simp only [int96ToLe, int96FromLe, List.getD_cons_zero, List.getD_cons_succ, h1]

theorem int96_from_to (x : Int96) : int96FromLe (int96ToLe x) = x := by
  have h1 : ∀ w : BitVec 32, fromLe 32 [(toLe 4 w).getD 0 0, (toLe 4 w).getD 1 0, (toLe 4 w).getD 2 0, (toLe 4 w).getD 3 0] = w := by
    intro w
    exact fromLe_toLe 4 w
  cases x
  simp only [int96ToLe, int96FromLe, List.getD_cons_zero, List.getD_cons_succ, h1]

/-- The bounds of the width of levels. -/
theorem getBitWidth_spec (m : BitVec 16) :
    m.toNat < 2 ^ getBitWidth m ∧ (getBitWidth m ≠ 0 → 2 ^ (getBitWidth m - 1) ≤ m.toNat) := by
  have hz := List.takeWhile_append_dropWhile (p := fun i => !m.getLsbD (15 - i)) (l := List.range 16)
  have hall : ∀ i < leadingZeros16 m, m.getLsbD (15 - i) = false := by
    intro i hi
    have hmem := List.all_takeWhile (p := fun i => !m.getLsbD (15 - i)) (l := List.range 16)
    rw [List.all_eq_true] at hmem
    have hlt : i < ((List.range 16).takeWhile fun i => !m.getLsbD (15 - i)).length := hi
    have hpre := List.takeWhile_prefix (fun i => !m.getLsbD (15 - i)) (l := List.range 16)
    have hget := hpre.getElem hlt
    have := hmem _ (List.getElem_mem hlt)
    rw [hget] at this
    simpa using this
  have hle : leadingZeros16 m ≤ 16 := by
    have := (List.takeWhile_prefix (fun i => !m.getLsbD (15 - i)) (l := List.range 16)).length_le
    simpa [leadingZeros16] using this
  have hnext : leadingZeros16 m < 16 → m.getLsbD (15 - leadingZeros16 m) = true := by
    intro hlt
    have hd : (List.range 16).dropWhile (fun i => !m.getLsbD (15 - i)) = (List.range 16).drop (leadingZeros16 m) := by
      conv_rhs => rw [← hz]
      exact List.drop_left.symm
    have hh := List.head?_dropWhile_not (fun i => !m.getLsbD (15 - i)) (List.range 16)
    rw [hd, List.head?_drop, List.getElem?_range hlt] at hh
    simpa using hh
  have htest : ∀ i, m.toNat.testBit i = m.getLsbD i := fun i => rfl
  unfold getBitWidth
  constructor
  · apply Nat.lt_pow_two_of_testBit
    intro i hi
    rw [htest]
    by_cases h16 : i < 16
    · have := hall (15 - i) (by omega)
      rwa [show 15 - (15 - i) = i by omega] at this
    · exact BitVec.getLsbD_of_ge _ _ (by omega)
  · intro hne
    apply Nat.ge_two_pow_of_testBit
    rw [htest, show 16 - leadingZeros16 m - 1 = 15 - leadingZeros16 m by omega]
    exact hnext (by omega)

end Pq.Deser
