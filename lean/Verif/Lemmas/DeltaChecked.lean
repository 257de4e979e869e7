import Verif.Lemmas.DeltaBytes
/- Helper lemmas: the delta decoders with overflow checks and without. -/
namespace Pq.Delta
open Pq.Spec Pq.Bitpack

/-- The first outcome is a panic, or both are equal. -/
def Or' {α : Type} (a b : Res α) : Prop := a = .panic ∨ a = b

theorem Or'.bind {α β : Type} {a b : Res α} {f g : α → Res β} (h : Or' a b)
    (hf : ∀ x, Or' (f x) (g x)) : Or' (a >>= f) (b >>= g) := by
  rcases h with rfl | rfl
  · exact .inl rfl
  · cases a with
    | ok x => exact hf x
    | err e => exact .inr rfl
    | panic => exact .inl rfl

theorem Or'.map' {α β : Type} {a b : Res α} {f : α → β} (h : Or' a b) :
    Or' (a.map' f) (b.map' f) := by
  rcases h with rfl | rfl
  · exact .inl rfl
  · exact .inr rfl

theorem Or'.ite {α : Type} {c : Prop} [Decidable c] {a a' b b' : Res α} (h : Or' a b)
    (h' : Or' a' b') : Or' (if c then a else a') (if c then b else b') := by
  by_cases hc : c
  · rw [if_pos hc, if_pos hc]; exact h
  · rw [if_neg hc, if_neg hc]; exact h'

theorem Or'.check {α : Type} {c : Bool} {a b : Res α} (h : Or' a b) :
    Or' (if (true && c) = true then .panic else a) (if (false && c) = true then .panic else b) := by
  cases c with
  | true => exact .inl rfl
  | false => exact h

theorem addI_checked (a b : I64) : Or' (addI true a b) (addI false a b) := by
  unfold addI
  exact Or'.check (.inr rfl)

theorem advance_checked (b : Block) : Or' (b.advance true) (b.advance false) := by
  unfold Block.advance
  cases b.bitwidths with
  | nil => exact .inr rfl
  | cons w ws =>
    simp only
    exact Or'.ite (Or'.check (.inr rfl)) (.inr rfl)

theorem Block.tryNew_checked (vs : List Byte) (M v r : Nat) :
    Or' (Block.tryNew true vs M v r) (Block.tryNew false vs M v r) := by
  unfold Block.tryNew
  refine Or'.bind (.inr rfl) ?_
  rintro ⟨x, k⟩
  exact Or'.ite (.inr rfl) (advance_checked _)

theorem Block.next_checked (b : Block) : Or' (b.next true) (b.next false) := by
  unfold Block.next
  refine Or'.ite (.inr rfl) (Or'.bind (.inr rfl) ?_)
  rintro ⟨x, m⟩
  refine Or'.bind (addI_checked _ _) ?_
  intro r
  exact Or'.ite (advance_checked _).map' (.inr rfl)

theorem loadDelta_checked (d : Decoder) : Or' (d.loadDelta true) (d.loadDelta false) := by
  unfold Decoder.loadDelta
  cases d.currentBlock with
  | none => exact .inr rfl
  | some b =>
    refine Or'.bind (Block.next_checked b) ?_
    rintro ⟨o, b1⟩
    cases o with
    | some x => exact .inr rfl
    | none =>
      simp only
      refine Or'.bind (.inr rfl) ?_
      intro vs
      refine Or'.bind (Block.tryNew_checked _ _ _ _) ?_
      intro nb
      refine Or'.bind (Block.next_checked nb) ?_
      rintro ⟨o, b2⟩
      cases o <;> exact .inr rfl

theorem next_checked (d : Decoder) : Or' (d.next true) (d.next false) := by
  unfold Decoder.next
  refine Or'.ite (.inr rfl) (Or'.ite (.inr rfl) ?_)
  refine Or'.bind (loadDelta_checked _) ?_
  rintro ⟨δ, d1⟩
  refine Or'.bind (addI_checked _ _) ?_
  intro v
  exact .inr rfl

theorem drain_checked (fuel : Nat) (d : Decoder) : Or' (d.drain true fuel) (d.drain false fuel) := by
  induction fuel generalizing d with
  | zero => exact .inl rfl
  | succ fuel ih =>
    unfold Decoder.drain
    refine Or'.bind (next_checked d) ?_
    rintro ⟨o, d1⟩
    cases o with
    | none => exact .inr rfl
    | some x => exact Or'.bind (ih d1) fun _ => .inr rfl

theorem tryNew_checked (vs : List Byte) : Or' (Decoder.tryNew true vs) (Decoder.tryNew false vs) := by
  unfold Decoder.tryNew
  refine Or'.bind (.inr rfl) ?_
  rintro ⟨B, c1⟩
  refine Or'.bind (.inr rfl) ?_
  intro _
  refine Or'.bind (.inr rfl) ?_
  rintro ⟨M, c2⟩
  refine Or'.bind (.inr rfl) ?_
  rintro ⟨n, c3⟩
  refine Or'.bind (.inr rfl) ?_
  rintro ⟨x, c4⟩
  refine Or'.bind (.inr rfl) ?_
  intro _
  refine Or'.bind (.inr rfl) ?_
  intro _
  refine Or'.bind (Or'.ite (Block.tryNew_checked _ _ _ _).map' (.inr rfl)) ?_
  intro b
  exact .inr rfl

/-- With overflow checks: a panic, or what there is without. -/
theorem decode_checked (vs : List Byte) : Or' (decode true vs) (decode false vs) := by
  unfold decode
  refine Or'.bind (tryNew_checked vs) ?_
  intro d
  refine Or'.bind (drain_checked _ d) ?_
  rintro ⟨xs, d1⟩
  exact .inr rfl

end Pq.Delta

namespace Pq.DeltaLength
open Pq.Delta

theorem next_checked (d : Decoder) : Or' (d.next true) (d.next false) := by
  unfold Decoder.next
  refine Or'.bind (Delta.next_checked _) ?_
  rintro ⟨o, l⟩
  cases o with
  | none => exact .inr rfl
  | some v => exact Or'.check (.inr rfl)

theorem drain_checked (fuel : Nat) (d : Decoder) : Or' (d.drain true fuel) (d.drain false fuel) := by
  induction fuel generalizing d with
  | zero => exact .inl rfl
  | succ fuel ih =>
    unfold Decoder.drain
    refine Or'.bind (next_checked d) ?_
    rintro ⟨o, d1⟩
    cases o with
    | none => exact .inr rfl
    | some x => exact Or'.bind (ih d1) fun _ => .inr rfl

/-- With overflow checks: a panic, or what there is without. -/
theorem decode_checked (vs : List Byte) : Or' (decode true vs) (decode false vs) := by
  unfold decode Decoder.tryNew
  refine Or'.bind (Or'.bind (Delta.tryNew_checked vs) fun _ => .inr rfl) ?_
  intro d
  refine Or'.bind (drain_checked _ d) ?_
  rintro ⟨xs, d1⟩
  exact .inr rfl

end Pq.DeltaLength

namespace Pq.DeltaByteArray
open Pq.Delta

/-- With overflow checks: a panic, or what there is without. -/
theorem decode_checked (vs : List Byte) : Or' (decode true vs) (decode false vs) := by
  unfold decode
  refine Or'.bind (Delta.tryNew_checked vs) ?_
  intro d
  refine Or'.bind (Delta.drain_checked _ d) ?_
  rintro ⟨xs, d1⟩
  refine Or'.bind (.inr rfl) ?_
  intro _
  refine Or'.bind (.inr rfl) ?_
  intro rest
  refine Or'.bind (DeltaLength.decode_checked rest) ?_
  rintro ⟨ls, bs⟩
  exact .inr rfl

end Pq.DeltaByteArray
