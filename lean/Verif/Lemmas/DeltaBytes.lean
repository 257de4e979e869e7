import Verif.Model.DeltaBytes
import Verif.Spec.DeltaBytes
import Verif.Lemmas.DeltaEncode
/- Helper lemmas about the delta byte-array encodings. -/
namespace Pq
open Pq.Spec

theorem Delta.decode_parts (ck : Bool) (values : List Byte) (xs : List (BitVec 64)) (n : Nat)
    (h : Delta.decode ck values = .ok (xs, n)) :
    ∃ d d', Delta.Decoder.tryNew ck values = .ok d ∧
      d.drain ck (d.valuesRemaining + 1) = .ok (xs, d') ∧ d'.consumedBytes = n := by
  unfold Delta.decode at h
  rw [Res.bind_eq_ok] at h
  obtain ⟨d, h1, h⟩ := h
  rw [Res.bind_eq_ok] at h
  obtain ⟨⟨ys, d'⟩, h2, h⟩ := h
  simp only [Res.pure_eq, Res.ok.injEq, Prod.mk.injEq] at h
  obtain ⟨rfl, rfl⟩ := h
  exact ⟨d, d', h1, h2, rfl⟩

theorem Delta.next_none (ck : Bool) (d d' : Delta.Decoder) (h : d.next ck = .ok (none, d')) :
    d' = d ∧ d.valuesRemaining = 0 := by
  unfold Delta.Decoder.next at h
  split at h
  · rename_i h0
    simp only [Res.ok.injEq, Prod.mk.injEq, true_and] at h
    exact ⟨h.symm, h0⟩
  · simp only at h
    split at h
    · simp at h
    · rw [Res.bind_eq_ok] at h
      obtain ⟨⟨δ, d1⟩, _, h⟩ := h
      rw [Res.bind_eq_ok] at h
      obtain ⟨v, _, h⟩ := h
      simp at h

theorem Delta.drain_remaining (ck : Bool) (fuel : Nat) (d d' : Delta.Decoder) (xs : List (BitVec 64))
    (h : d.drain ck fuel = .ok (xs, d')) : d'.valuesRemaining = 0 := by
  induction fuel generalizing d xs with
  | zero => simp [Delta.Decoder.drain] at h
  | succ fuel ih =>
    rw [Delta.Decoder.drain, Res.bind_eq_ok] at h
    obtain ⟨⟨o, d1⟩, h1, h⟩ := h
    cases o with
    | none =>
      simp only [Res.pure_eq, Res.ok.injEq, Prod.mk.injEq] at h
      obtain ⟨_, rfl⟩ := h
      obtain ⟨a, b⟩ := Delta.next_none ck d _ h1
      rw [a]; exact b
    | some x =>
      simp only at h
      rw [Res.bind_eq_ok] at h
      obtain ⟨⟨ys, d2⟩, h2, h⟩ := h
      simp only [Res.pure_eq, Res.ok.injEq, Prod.mk.injEq] at h
      obtain ⟨_, rfl⟩ := h
      exact ih d1 ys h2

theorem DeltaLength.drain_eq (fuel : Nat) (l l' : Delta.Decoder) (xs : List (BitVec 64))
    (values : List Byte) (t : BitVec 32) (h : l.drain false fuel = .ok (xs, l')) :
    DeltaLength.Decoder.drain false fuel { values, lengths := l, totalLength := t } =
      .ok (xs.map (BitVec.setWidth 32),
        { values, lengths := l', totalLength := (xs.map (BitVec.setWidth 32)).foldl (· + ·) t }) := by
  induction fuel generalizing l xs t with
  | zero => simp [Delta.Decoder.drain] at h
  | succ fuel ih =>
    rw [Delta.Decoder.drain, Res.bind_eq_ok] at h
    obtain ⟨⟨o, d1⟩, h1, h⟩ := h
    rw [DeltaLength.Decoder.drain, DeltaLength.Decoder.next]
    simp only [h1, Res.ok_bind]
    cases o with
    | none =>
      simp only [Res.pure_eq, Res.ok.injEq, Prod.mk.injEq] at h
      obtain ⟨rfl, rfl⟩ := h
      rfl
    | some x =>
      simp only at h
      rw [Res.bind_eq_ok] at h
      obtain ⟨⟨ys, d2⟩, h2, h⟩ := h
      simp only [Res.pure_eq, Res.ok.injEq, Prod.mk.injEq] at h
      obtain ⟨rfl, rfl⟩ := h
      simp only [Bool.false_and, Bool.false_eq_true, if_false, Res.pure_eq, Res.ok_bind]
      rw [ih d1 ys (t + x.setWidth 32) h2]
      rfl

theorem foldl_add_toNat (ls : List (BitVec 32)) (t : BitVec 32)
    (h : t.toNat + (ls.map BitVec.toNat).sum < 2 ^ 32) :
    (ls.foldl (· + ·) t).toNat = t.toNat + (ls.map BitVec.toNat).sum := by
  induction ls generalizing t with
  | nil => simp
  | cons l ls ih =>
    simp only [List.map_cons, List.sum_cons] at h
    have e : (t + l).toNat = t.toNat + l.toNat := by
      rw [BitVec.toNat_add, Nat.mod_eq_of_lt (by omega)]
    rw [List.foldl_cons, ih _ (by rw [e]; omega), e, List.map_cons, List.sum_cons]; omega

theorem sum_lengths (items : List (List Byte)) :
    (items.map List.length).sum = items.flatten.length := by
  rw [List.length_flatten]

theorem lengths32 (items : List (List Byte)) (h : items.flatten.length < 2 ^ 32) :
    ((items.map fun x => BitVec.ofNat 64 x.length).map (BitVec.setWidth 32)).map BitVec.toNat =
      items.map List.length := by
  rw [List.map_map, List.map_map]
  apply List.map_congr_left
  intro x hx
  have : x.length ≤ items.flatten.length := by
    rw [← sum_lengths]
    clear h
    induction items with
    | nil => simp at hx
    | cons y ys ih =>
      rw [List.map_cons, List.sum_cons]
      rcases List.mem_cons.1 hx with rfl | hx
      · omega
      · have := ih hx; omega
  simp only [Function.comp_apply, BitVec.toNat_setWidth, BitVec.toNat_ofNat]
  omega

theorem cut_flatten (items : List (List Byte)) (suf : List Byte) :
    cut (items.map List.length) (items.flatten ++ suf) = items := by
  induction items with
  | nil => rfl
  | cons x xs ih =>
    simp only [List.map_cons, List.flatten_cons, cut, List.append_assoc, List.take_left,
      List.drop_left, ih]

theorem DeltaLength.decode_encode (items : List (List Byte)) (hn : items.length < 2 ^ 64)
    (ht : items.flatten.length < 2 ^ 32) :
    ∃ out, DeltaLength.encode false items = .ok out ∧ ∀ suf,
      ∃ lengths, DeltaLength.decode false (out ++ suf) = .ok (lengths, items.flatten) ∧
        lengths.map BitVec.toNat = items.map List.length := by
  obtain ⟨o, h1, h2⟩ := Delta.encode_stream (items.map fun x => BitVec.ofNat 64 x.length)
    (by rw [List.length_map]; exact hn)
  refine ⟨o ++ items.flatten, by rw [DeltaLength.encode, h1]; rfl, ?_⟩
  intro suf
  have h3 := Delta.decode_stream _ _ _ o (items.flatten ++ suf) h2
  obtain ⟨d, d', p1, p2, p3⟩ := Delta.decode_parts _ _ _ _ h3
  have p4 := Delta.drain_remaining _ _ _ _ _ p2
  have hl := lengths32 items ht
  refine ⟨_, ?_, hl⟩
  unfold DeltaLength.decode DeltaLength.Decoder.tryNew
  rw [List.append_assoc, p1]
  simp only [Res.ok_bind, Res.pure_eq]
  rw [DeltaLength.drain_eq _ _ _ _ _ _ p2]
  simp only [Res.ok_bind, DeltaLength.Decoder.intoValues, p4]
  have ha : Res.assert ((0 : Nat) == 0) = .ok () := rfl
  rw [ha]
  simp only [Res.ok_bind, p3]
  have hs : ((0#32).toNat + (((items.map fun x => BitVec.ofNat 64 x.length).map
      (BitVec.setWidth 32)).map BitVec.toNat).sum) < 2 ^ 32 := by
    rw [hl, sum_lengths]; simpa using ht
  rw [foldl_add_toNat _ _ hs, hl, sum_lengths]
  have e : (0#32).toNat + items.flatten.length = items.flatten.length := by simp
  rw [e, slice, if_pos (by simp only [List.length_append]; omega), List.drop_left,
    Nat.add_sub_cancel_left, List.take_left]
  rfl

namespace DeltaByteArray

theorem firstDiff_some (a b : List Byte) (k : Nat) (h : firstDiff a b = some k) :
    k < a.length ∧ k < b.length ∧ a.take k = b.take k ∧ a.take (k + 1) ≠ b.take (k + 1) := by
  induction a generalizing b k with
  | nil => simp [firstDiff] at h
  | cons x xs ih =>
    cases b with
    | nil => simp [firstDiff] at h
    | cons y ys =>
      rw [firstDiff] at h
      split at h
      · rename_i hne
        simp only [Option.some.injEq] at h
        subst h
        simpa using hne
      · rename_i he
        have he : x = y := by simpa using he
        subst he
        rw [Option.map_eq_some_iff] at h
        obtain ⟨j, hj, rfl⟩ := h
        obtain ⟨h1, h2, h3, h4⟩ := ih ys j hj
        refine ⟨by simpa using h1, by simpa using h2, by simp [h3], ?_⟩
        intro h5
        apply h4
        simpa using h5

theorem firstDiff_none (a b : List Byte) (h : firstDiff a b = none) : a <+: b ∨ b <+: a := by
  induction a generalizing b with
  | nil => exact .inl (List.nil_prefix)
  | cons x xs ih =>
    cases b with
    | nil => exact .inr List.nil_prefix
    | cons y ys =>
      rw [firstDiff] at h
      split at h
      · simp at h
      · rename_i he
        have he : x = y := by simpa using he
        subst he
        rw [Option.map_eq_none_iff] at h
        rcases ih ys h with h | h
        · exact .inl ((List.cons_prefix_cons).2 ⟨rfl, h⟩)
        · exact .inr ((List.cons_prefix_cons).2 ⟨rfl, h⟩)

theorem firstDiff_of_prefix (a b : List Byte) (h : a <+: b) : firstDiff a b = none := by
  induction a generalizing b with
  | nil => cases b <;> rfl
  | cons x xs ih =>
    cases b with
    | nil => simp at h
    | cons y ys =>
      rw [List.cons_prefix_cons] at h
      rw [firstDiff, if_neg (by simpa using h.1), ih ys h.2]; rfl

/-- The prefix length chosen for an item that does not shrink is at most its length and is a
shared prefix. -/
theorem prefix_ok (item previous : List Byte) (h : ¬ ProperPrefix item previous) :
    (firstDiff item previous).getD previous.length ≤ item.length ∧
    item.take ((firstDiff item previous).getD previous.length) =
      previous.take ((firstDiff item previous).getD previous.length) ∧
    (firstDiff item previous).getD previous.length ≤ previous.length := by
  cases hd : firstDiff item previous with
  | some k =>
    obtain ⟨h1, h2, h3, _⟩ := firstDiff_some _ _ _ hd
    exact ⟨Nat.le_of_lt h1, h3, Nat.le_of_lt h2⟩
  | none =>
    rcases firstDiff_none _ _ hd with h1 | h1
    · have hl := h1.length_le
      have : item.length = previous.length := by
        rcases Nat.lt_or_ge item.length previous.length with h2 | h2
        · exact absurd ⟨h1, h2⟩ h
        · omega
      have he := h1.eq_of_length this
      subst he
      simp
    · refine ⟨h1.length_le, ?_, Nat.le_refl _⟩
      simp only [Option.getD_none]
      rw [List.take_length, ← List.prefix_iff_eq_take.1 h1]

/-- The suffixes left after removing the shared prefixes. -/
def suffixOf (previous : List Byte) : List (List Byte) → List (List Byte)
  | [] => []
  | x :: xs => x.drop ((firstDiff x previous).getD previous.length) :: suffixOf x xs

def prefixOf (previous : List Byte) : List (List Byte) → List Nat
  | [] => []
  | x :: xs => (firstDiff x previous).getD previous.length :: prefixOf x xs

theorem prefixes_eq (previous : List Byte) (items : List (List Byte)) :
    prefixes false previous items = .ok (prefixOf previous items) := by
  induction items generalizing previous with
  | nil => rfl
  | cons x xs ih => simp only [prefixes, prefixOf, ih, Bool.false_and, Bool.false_eq_true, if_false, Res.map']

theorem prefixes_checked (previous : List Byte) (items : List (List Byte))
    (h : ¬ Shrinks previous items) :
    prefixes true previous items = .ok (prefixOf previous items) := by
  induction items generalizing previous with
  | nil => rfl
  | cons x xs ih =>
    simp only [Shrinks, not_or] at h
    have h1 := (prefix_ok x previous h.1).1
    simp only [prefixes, prefixOf, ih x h.2, Bool.true_and, decide_eq_true_eq, Res.map']
    rw [if_neg (by omega)]

theorem suffixes_eq (previous : List Byte) (items : List (List Byte))
    (h : ¬ Shrinks previous items) :
    suffixes items (prefixOf previous items) = .ok (suffixOf previous items) := by
  induction items generalizing previous with
  | nil => rfl
  | cons x xs ih =>
    simp only [Shrinks, not_or] at h
    have h1 := (prefix_ok x previous h.1).1
    simp only [prefixOf, suffixes, suffixOf, slice]
    rw [if_pos ⟨h1, Nat.le_refl _⟩, ih x h.2]
    simp only [Res.ok_bind, Res.pure_eq]
    rw [List.take_of_length_le (by rw [List.length_drop]; omega)]

theorem suffixes_panic (previous : List Byte) (items : List (List Byte))
    (h : Shrinks previous items) :
    suffixes items (prefixOf previous items) = .panic := by
  induction items generalizing previous with
  | nil => exact absurd h id
  | cons x xs ih =>
    simp only [prefixOf, suffixes]
    by_cases hx : ProperPrefix x previous
    · obtain ⟨h1, h2⟩ := hx
      rw [firstDiff_of_prefix _ _ h1]
      simp only [Option.getD_none, slice]
      rw [if_neg (by omega)]; rfl
    · have h3 : Shrinks x xs := h.resolve_left hx
      have h1 := (prefix_ok x previous hx).1
      rw [slice, if_pos ⟨h1, Nat.le_refl _⟩, ih x h3]; rfl

theorem prefixes_panic (previous : List Byte) (items : List (List Byte))
    (h : Shrinks previous items) :
    prefixes true previous items = .panic := by
  induction items generalizing previous with
  | nil => exact absurd h id
  | cons x xs ih =>
    simp only [prefixes]
    by_cases hx : ProperPrefix x previous
    · obtain ⟨h1, h2⟩ := hx
      rw [firstDiff_of_prefix _ _ h1, Option.getD_none, if_pos (by simp [h2])]
    · have h3 : Shrinks x xs := h.resolve_left hx
      rw [ih x h3]
      split <;> rfl

theorem rebuild_eq (previous : List Byte) (items : List (List Byte)) (h : ¬ Shrinks previous items) :
    rebuild previous (prefixOf previous items) ((suffixOf previous items).map List.length)
      (suffixOf previous items).flatten = items := by
  induction items generalizing previous with
  | nil => rfl
  | cons x xs ih =>
    simp only [Shrinks, not_or] at h
    obtain ⟨h1, h2, h3⟩ := prefix_ok x previous h.1
    simp only [prefixOf, suffixOf, List.map_cons, List.flatten_cons, rebuild, List.take_left,
      List.drop_left]
    rw [← h2, List.take_append_drop, ih x h.2]

theorem suffixOf_flatten_le (previous : List Byte) (items : List (List Byte)) :
    (suffixOf previous items).flatten.length ≤ items.flatten.length := by
  induction items generalizing previous with
  | nil => simp [suffixOf]
  | cons x xs ih =>
    have := ih x
    simp only [suffixOf, List.flatten_cons, List.length_append, List.length_drop]; omega

theorem suffixOf_length (previous : List Byte) (items : List (List Byte)) :
    (suffixOf previous items).length = items.length := by
  induction items generalizing previous with
  | nil => rfl
  | cons x xs ih => simp [suffixOf, ih]

theorem prefixOf_length (previous : List Byte) (items : List (List Byte)) :
    (prefixOf previous items).length = items.length := by
  induction items generalizing previous with
  | nil => rfl
  | cons x xs ih => simp [prefixOf, ih]

theorem prefixOf_lt (B : Nat) (previous : List Byte) (items : List (List Byte))
    (hp : previous.length < B) (hi : ∀ x ∈ items, x.length < B) :
    ∀ p ∈ prefixOf previous items, p < B := by
  induction items generalizing previous with
  | nil => simp [prefixOf]
  | cons x xs ih =>
    intro p hpm
    rcases List.mem_cons.1 hpm with rfl | hpm
    · cases hd : firstDiff x previous with
      | none => exact hp
      | some k =>
        have := (firstDiff_some _ _ _ hd).2.1
        simp only [Option.getD_some]; omega
    · exact ih x (hi x (List.mem_cons_self ..)) (fun y hy => hi y (List.mem_cons_of_mem _ hy)) p hpm

end DeltaByteArray

/-! ### plain byte arrays -/

namespace PlainBytes

theorem items_plain (items : List (List Byte)) (h : ∀ s ∈ items, s.length < 2 ^ 32)
    (fuel : Nat) (hf : (plainBytes items).length < fuel) (l : Option Nat) (tail : List Byte)
    (ht : tail.length < 4) :
    BinaryIter.items fuel ⟨plainBytes items ++ tail, l⟩ = some (items.map Except.ok) := by
  induction items generalizing fuel l with
  | nil =>
    cases fuel with
    | zero => simp at hf
    | succ fuel =>
      have : (plainBytes [] ++ tail).length < 4 := by simpa [plainBytes] using ht
      rw [BinaryIter.items, BinaryIter.next]
      simp only [if_pos this, List.map_nil]
  | cons s items ih =>
    have h4 : (leBytes 4 s.length).length = 4 := by simp [leBytes]
    have e : plainBytes (s :: items) ++ tail =
        leBytes 4 s.length ++ (s ++ (plainBytes items ++ tail)) := by
      simp [plainBytes]
    have hl : (plainBytes (s :: items)).length = 4 + s.length + (plainBytes items).length := by
      have := congrArg List.length e
      simp only [List.length_append, h4] at this; omega
    cases fuel with
    | zero => omega
    | succ fuel =>
      have hn : leNat (leBytes 4 s.length) = s.length := by
        rw [Rle.leNat_leBytes]
        exact Nat.mod_eq_of_lt (h s (List.mem_cons_self ..))
      rw [BinaryIter.items, BinaryIter.next, e]
      simp only
      rw [if_neg (by rw [List.length_append]; omega)]
      simp only [List.take_left' h4, List.drop_left' h4, hn]
      rw [if_neg (by rw [List.length_append]; omega), List.take_left, List.drop_left]
      simp only
      rw [ih (fun x hx => h x (List.mem_cons_of_mem _ hx)) fuel (by omega)]
      rfl

/-- On arbitrary bytes: iteration ends within `values.length + 1` calls. -/
theorem items_total (fuel : Nat) (it : BinaryIter) (hf : it.values.length < fuel) :
    ∃ xs, it.items fuel = some xs ∧ 4 * xs.length ≤ it.values.length ∧
      ∀ s, Except.ok s ∈ xs → s <:+: it.values := by
  induction fuel generalizing it with
  | zero => omega
  | succ fuel ih =>
    rw [BinaryIter.items, BinaryIter.next]
    split
    · rename_i heq
      exact ⟨[], rfl, by simp, by simp⟩
    · rename_i x it' heq
      split at heq
      · simp at heq
      · rename_i h4
        simp only at heq
        split at heq
        · simp only [Option.some.injEq, Prod.mk.injEq] at heq
          obtain ⟨rfl, rfl⟩ := heq
          obtain ⟨xs, h1, h2, h3⟩ := ih ⟨it.values.drop 4, it.length.map (· - 1)⟩
            (by simp only [List.length_drop]; omega)
          refine ⟨_, by rw [h1]; rfl, ?_, ?_⟩
          · simp only [List.length_drop, List.length_cons] at h2 ⊢; omega
          · intro s hs
            rcases List.mem_cons.1 hs with hs | hs
            · simp at hs
            · exact (h3 s hs).trans (List.drop_suffix 4 it.values).isInfix
        · simp only [Option.some.injEq, Prod.mk.injEq] at heq
          obtain ⟨rfl, rfl⟩ := heq
          obtain ⟨xs, h1, h2, h3⟩ := ih
            ⟨(it.values.drop 4).drop (leNat (it.values.take 4)), it.length.map (· - 1)⟩
            (by simp only [List.length_drop]; omega)
          refine ⟨_, by rw [h1]; rfl, ?_, ?_⟩
          · simp only [List.length_drop, List.length_cons] at h2 ⊢; omega
          · intro s hs
            rcases List.mem_cons.1 hs with hs | hs
            · simp only [Except.ok.injEq] at hs
              subst hs
              exact (List.take_prefix _ _).isInfix.trans (List.drop_suffix 4 it.values).isInfix
            · exact (h3 s hs).trans ((List.drop_suffix _ _).trans (List.drop_suffix 4 it.values)).isInfix

end PlainBytes
end Pq
