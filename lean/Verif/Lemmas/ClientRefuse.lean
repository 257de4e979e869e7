import Verif.Lemmas.ClientPage
/-
An index beyond the dictionary ends the reading of a page.
-/
namespace Pq.Client
open Spec Deser

theorem indexed_refused {α : Type} (value : Nat → Res α) (e : Err) (dec : Rle.Dec) (idx : List Rle.U32)
    (hl : Yields Rle.Dec.next dec idx) (hv : ∀ u ∈ idx, (∃ x, value u.toNat = .ok x) ∨ value u.toNat = .err e)
    (hx : ∃ u ∈ idx, value u.toNat = .err e) (fuel : Nat) (hf : idx.length < fuel) :
    drain (indexedNext value) fuel dec = .err e := by
  induction hl generalizing fuel with
  | done hn => obtain ⟨u, hu, -⟩ := hx; simp at hu
  | @item s s' x xs hn _ ih =>
    cases fuel with
    | zero => simp at hf
    | succ fuel =>
      rcases hv x (by simp) with ⟨y, hy⟩ | hy
      · have hi : indexedNext value s = .ok (some y, s') := by
          simp only [indexedNext, hn, Res.ok_bind, hy]
        have := ih (fun u hu => hv u (by simp [hu])) (by
          obtain ⟨u, hu, h⟩ := hx
          rcases List.mem_cons.1 hu with rfl | hu
          · rw [hy] at h; cases h
          · exact ⟨u, hu, h⟩) fuel (by simpa using hf)
        simp only [drain, hi, this, Res.map']
      · have hi : indexedNext value s = .err e := by
          simp only [indexedNext, hn, Res.ok_bind, hy]; rfl
        simp only [drain, hi]

/-- Required columns: an index for which the dictionary has an error. -/
theorem dictionary_refused {ι π α : Type} (next : ι → Res (Option α × ι)) (fuel : Nat)
    (value : π → Nat → Res α) (page : DataPage) (d : π) (idx : List Nat) (vals : List Byte) (e : Err)
    (h : RequiredPage page idx.length vals) (hi : IndexStream vals idx)
    (hv : ∀ i ∈ idx, (∃ x, value d i = .ok x) ∨ value d i = .err e) (hx : ∃ i ∈ idx, value d i = .err e) :
    (do let state ← dictionaryState page d
        stateToVec next fuel value state) = .err e := by
  obtain ⟨rep, lv, hs⟩ := h.split
  obtain ⟨dec, us, more, h1, h2, h3, h4, h5⟩ := index_yields page rep lv vals _ hs hi (by rw [h.rows])
  have hst : dictionaryState (ι := ι) page d = .ok (.requiredDictionary dec d) := by
    unfold dictionaryState
    rw [if_neg (by simp [h.isOptional]), h1]; rfl
  have hus : us.length = idx.length := by rw [← h3, List.length_map]
  have hmore : more = [] := by
    apply List.eq_nil_of_length_eq_zero
    have := h.rows
    omega
  rw [hmore, List.append_nil] at h2
  rw [hst]
  simp only [Res.ok_bind, stateToVec]
  rw [indexed_refused (value d) e dec us h2 ?_ ?_ _ (by rw [h5, h.rows]; omega)]
  · rfl
  · intro u hu
    exact hv u.toNat (by rw [← h3]; exact List.mem_map.2 ⟨u, hu, rfl⟩)
  · obtain ⟨i, hi, he⟩ := hx
    rw [← h3] at hi
    obtain ⟨u, hu, rfl⟩ := List.mem_map.1 hi
    exact ⟨u, hu, he⟩

theorem dictValue_cases {α : Type} (values : List α) (i : Nat) :
    ((∃ x, dictValue values i = .ok x) ∧ i < values.length) ∨
      (dictValue values i = .err .oos ∧ values.length ≤ i) := by
  unfold dictValue
  by_cases h : i < values.length
  · exact .inl ⟨⟨values[i], by simp [h]⟩, h⟩
  · exact .inr ⟨by simp [List.getElem?_eq_none (Nat.le_of_not_lt h)], Nat.le_of_not_lt h⟩

theorem fixedDictValue_cases (values : List Byte) (size : Nat) (i : Nat) :
    ((∃ x, fixedDictValue (values, size) i = .ok x) ∧ (i + 1) * size ≤ values.length) ∨
      (fixedDictValue (values, size) i = .err .oos ∧ values.length < (i + 1) * size) := by
  unfold fixedDictValue
  by_cases h : (i + 1) * size ≤ values.length
  · exact .inl ⟨⟨_, if_pos h⟩, h⟩
  · exact .inr ⟨if_neg h, Nat.lt_of_not_le h⟩

theorem bytes_truncated (items : List (List Byte)) (n : Nat) (tail : List Byte) (hi : ∀ s ∈ items, s.length < 2 ^ 32)
    (hn : n < 2 ^ 32) (ht : tail.length < n) (length : Option Nat) (fuel : Nat) (hf : items.length < fuel) :
    drain bytesNext fuel ⟨plainBytes items ++ (leBytes 4 n ++ tail), length⟩ = .err .oos := by
  induction items generalizing length fuel with
  | nil =>
    obtain ⟨fuel, rfl⟩ : ∃ k, fuel = k + 1 := ⟨fuel - 1, by simp at hf; omega⟩
    have hl : (leBytes 4 n).length = 4 := Rle.leBytes_length ..
    have : leNat (leBytes 4 n) = n := by rw [Rle.leNat_leBytes]; exact Nat.mod_eq_of_lt hn
    simp only [drain, bytesNext, PlainBytes.BinaryIter.next, plainBytes, List.flatMap_nil, List.nil_append,
      List.length_append, hl, List.take_left' hl, List.drop_left' hl, this, if_neg (show ¬ 4 + tail.length < 4 by omega),
      if_pos ht]
  | cons s items ih =>
    obtain ⟨fuel, rfl⟩ : ∃ k, fuel = k + 1 := ⟨fuel - 1, by simp at hf; omega⟩
    have hs := hi s (by simp)
    have hl : (leBytes 4 s.length).length = 4 := Rle.leBytes_length ..
    have he : leNat (leBytes 4 s.length) = s.length := by rw [Rle.leNat_leBytes]; exact Nat.mod_eq_of_lt hs
    have hp : plainBytes (s :: items) ++ (leBytes 4 n ++ tail) =
        leBytes 4 s.length ++ (s ++ (plainBytes items ++ (leBytes 4 n ++ tail))) := by simp [plainBytes]
    have := ih (fun x hx => hi x (by simp [hx])) (length.map (· - 1)) fuel (by simpa using hf)
    rw [hp]
    simp only [drain, bytesNext, PlainBytes.BinaryIter.next]
    rw [if_neg (by simp only [List.length_append]; omega)]
    simp only [List.take_left' hl, List.drop_left' hl, he]
    rw [if_neg (by simp only [List.length_append]; omega)]
    simp only [List.drop_left' rfl, this, Res.map']

end Pq.Client
