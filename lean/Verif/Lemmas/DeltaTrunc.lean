import Verif.Lemmas.DeltaBytes
/- Helper lemmas: the delta decoder on a stream and on the stream followed by more bytes. -/
namespace Pq.Delta
open Pq.Spec Pq.Bitpack

/-- The first outcome is an error, or both are panics, or both are results that are related. -/
def Sim {α : Type} (R : α → α → Prop) (a b : Res α) : Prop :=
  (∃ e, a = .err e) ∨ (a = .panic ∧ b = .panic) ∨ ∃ x y, a = .ok x ∧ b = .ok y ∧ R x y

theorem Sim.bind {α β : Type} {R : α → α → Prop} {S : β → β → Prop} {a b : Res α}
    {f g : α → Res β} (h : Sim R a b) (hf : ∀ x y, R x y → Sim S (f x) (g y)) :
    Sim S (a >>= f) (b >>= g) := by
  rcases h with ⟨e, rfl⟩ | ⟨rfl, rfl⟩ | ⟨x, y, rfl, rfl, h⟩
  · exact .inl ⟨e, rfl⟩
  · exact .inr (.inl ⟨rfl, rfl⟩)
  · exact hf x y h

theorem Sim.map' {α β : Type} {R : α → α → Prop} {S : β → β → Prop} {a b : Res α}
    {f g : α → β} (h : Sim R a b) (hf : ∀ x y, R x y → S (f x) (g y)) :
    Sim S (a.map' f) (b.map' g) := by
  rcases h with ⟨e, rfl⟩ | ⟨rfl, rfl⟩ | ⟨x, y, rfl, rfl, h⟩
  · exact .inl ⟨e, rfl⟩
  · exact .inr (.inl ⟨rfl, rfl⟩)
  · exact .inr (.inr ⟨_, _, rfl, rfl, hf x y h⟩)

theorem Sim.ok {α : Type} {R : α → α → Prop} {x y : α} (h : R x y) : Sim R (.ok x) (.ok y) :=
  .inr (.inr ⟨x, y, rfl, rfl, h⟩)

theorem Sim.same {α : Type} (a : Res α) : Sim (· = ·) a a := by
  cases a with
  | ok x => exact .ok rfl
  | err e => exact .inl ⟨e, rfl⟩
  | panic => exact .inr (.inl ⟨rfl, rfl⟩)

theorem Sim.ite {α : Type} {R : α → α → Prop} {c : Prop} [Decidable c] {a a' b b' : Res α}
    (h : c → Sim R a b) (h' : ¬ c → Sim R a' b') :
    Sim R (if c then a else a') (if c then b else b') := by
  by_cases hc : c
  · rw [if_pos hc, if_pos hc]; exact h hc
  · rw [if_neg hc, if_neg hc]; exact h' hc

/-! ### blocks -/

/-- The same block, with more bytes. -/
def Block.more (s : List Byte) (b : Block) : Block := { b with values := b.values ++ s }

/-- The block `B` is `b` with the bytes `s` after it, and `b` has `n` bytes, read or not. -/
def BRel (s : List Byte) (n : Nat) (b B : Block) : Prop :=
  B = b.more s ∧ b.consumed + b.values.length = n

theorem advance_sim (ck : Bool) (s : List Byte) (n : Nat) (b B : Block) (h : BRel s n b B) :
    Sim (BRel s n) (b.advance ck) (B.advance ck) := by
  obtain ⟨rfl, hn⟩ := h
  obtain ⟨minDelta, vpm, bws, vals, rem, ci, mini, cons⟩ := b
  simp only [Block.more, Block.advance] at hn ⊢
  cases bws with
  | nil => exact .inr (.inl ⟨rfl, rfl⟩)
  | cons w ws =>
    simp only
    refine Sim.ite (fun hw => ?_) (fun hw => ?_)
    · refine Sim.ite (fun hk => ?_) (fun hk => ?_)
      · exact .inr (.inl ⟨rfl, rfl⟩)
      · split
        · exact .inl ⟨_, rfl⟩
        · rename_i hl
          have hl' : ¬ (vals ++ s).length < ceil8 (vpm * w.toNat % 2 ^ 64) := by
            rw [List.length_append]; omega
          erw [if_neg hl']
          rw [List.take_append_of_le_length (by omega),
            List.drop_append_of_le_length (by omega)]
          split
          · exact .ok ⟨rfl, by simp only [List.length_drop]; omega⟩
          · exact .inr (.inl ⟨rfl, rfl⟩)
    · exact .ok ⟨rfl, hn⟩

theorem Block.next_sim (ck : Bool) (s : List Byte) (n : Nat) (b B : Block) (h : BRel s n b B) :
    Sim (fun x y => x.1 = y.1 ∧ BRel s n x.2 y.2) (b.next ck) (B.next ck) := by
  obtain ⟨rfl, hn⟩ := h
  unfold Block.next
  simp only [Block.more]
  refine Sim.ite (fun hw => ?_) (fun hw => ?_)
  · exact .ok ⟨rfl, rfl, hn⟩
  · refine (Sim.same (miniNext b.mini)).bind ?_
    rintro ⟨x, mini⟩ _ rfl
    refine (Sim.same (addI ck b.minDelta x)).bind ?_
    rintro r _ rfl
    simp only
    refine Sim.ite (fun hw => ?_) (fun hw => ?_)
    · refine (advance_sim ck s n
        { b with mini := mini, currentIndex := b.currentIndex + 1, remaining := b.remaining - 1 }
        _ ⟨rfl, hn⟩).map' ?_
      rintro x y h
      exact ⟨rfl, h⟩
    · exact .ok ⟨rfl, rfl, hn⟩

theorem decodeLoop_sim (vs s : List Byte) (r : BitVec 64) (sh c : Nat) :
    (Leb.decodeLoop vs r sh c = .panic ∧ Leb.decodeLoop (vs ++ s) r sh c = .panic) ∨
    ∃ x k, Leb.decodeLoop vs r sh c = .ok (x, c + k) ∧ k ≤ vs.length ∧
      (k = vs.length ∨ Leb.decodeLoop (vs ++ s) r sh c = .ok (x, c + k)) := by
  induction vs generalizing r sh c with
  | nil => exact .inr ⟨r, 0, rfl, Nat.le_refl _, .inl rfl⟩
  | cons v vs ih =>
    simp only [Leb.decodeLoop, List.cons_append]
    split
    · exact .inl ⟨rfl, rfl⟩
    · split
      · exact .inr ⟨_, 1, rfl, by simp, .inr rfl⟩
      · rcases ih (r ||| ((v &&& 0x7F#8).setWidth 64 <<< sh)) (sh + 7) (c + 1) with
          ⟨h1, h2⟩ | ⟨x, k, h1, h2, h3⟩
        · exact .inl ⟨h1, h2⟩
        · refine .inr ⟨x, k + 1, ?_, by simp only [List.length_cons]; omega, ?_⟩
          · rw [h1]; congr 2; omega
          · rcases h3 with h3 | h3
            · left; simp only [List.length_cons]; omega
            · right; rw [h3]; congr 2; omega

theorem zigzag_sim (vs s : List Byte) :
    (Leb.zigzagDecode vs = .panic ∧ Leb.zigzagDecode (vs ++ s) = .panic) ∨
    ∃ x k, Leb.zigzagDecode vs = .ok (x, k) ∧ k ≤ vs.length ∧
      (k = vs.length ∨ Leb.zigzagDecode (vs ++ s) = .ok (x, k)) := by
  unfold Leb.zigzagDecode Leb.decode
  rcases decodeLoop_sim vs s 0 0 0 with ⟨h1, h2⟩ | ⟨x, k, h1, h2, h3⟩
  · left; rw [h1, h2]; exact ⟨rfl, rfl⟩
  · right
    rw [Nat.zero_add] at h1 h3
    refine ⟨(x >>> 1) ^^^ (-(x &&& 1#64)), k, by rw [h1]; rfl, h2, ?_⟩
    rcases h3 with h3 | h3
    · exact .inl h3
    · right; rw [h3]; rfl

theorem Block.tryNew_sim (ck : Bool) (vs s : List Byte) (M v r : Nat) (hM : 0 < M) :
    Sim (BRel s vs.length) (Block.tryNew ck vs M v r) (Block.tryNew ck (vs ++ s) M v r) := by
  unfold Block.tryNew
  rcases zigzag_sim vs s with ⟨h1, h2⟩ | ⟨x, k, h1, h2, h3⟩
  · rw [h1, h2]; exact .inr (.inl ⟨rfl, rfl⟩)
  · rw [h1]
    simp only [Res.ok_bind]
    split
    · exact .inl ⟨_, rfl⟩
    · rename_i hl
      rw [List.length_drop] at hl
      rcases h3 with h3 | h3
      · omega
      · rw [h3]
        simp only [Res.ok_bind]
        rw [if_neg (by rw [List.length_drop, List.length_append]; omega)]
        apply advance_sim
        refine ⟨?_, by simp only [List.length_drop]; omega⟩
        simp only [Block.more]
        rw [List.drop_append_of_le_length h2,
          List.take_append_of_le_length (by rw [List.length_drop]; omega),
          List.drop_append_of_le_length (by rw [List.length_drop]; omega)]

/-! ### the decoder -/

/-- The same decoder, with more bytes. -/
def Decoder.more (s : List Byte) (d : Decoder) : Decoder :=
  { d with values := d.values ++ s, currentBlock := d.currentBlock.map (Block.more s) }

/-- The decoder `D` is `d` with the bytes `s` after it, and `d` has `n` bytes, read or not. -/
def DRel (s : List Byte) (n : Nat) (d D : Decoder) : Prop :=
  D = d.more s ∧ 0 < d.numMiniBlocks ∧ d.consumed + d.values.length = n ∧
    ∀ b, d.currentBlock = some b → b.consumed + b.values.length = d.values.length

theorem loadDelta_sim (ck : Bool) (s : List Byte) (n : Nat) (d D : Decoder) (h : DRel s n d D) :
    Sim (fun x y => x.1 = y.1 ∧ DRel s n x.2 y.2) (d.loadDelta ck) (D.loadDelta ck) := by
  obtain ⟨rfl, hM, hn, hb⟩ := h
  unfold Decoder.loadDelta
  cases hc : d.currentBlock with
  | none =>
    simp only [Decoder.more, hc, Option.map_none]
    exact .inr (.inl ⟨rfl, rfl⟩)
  | some b =>
    have hb' := hb b hc
    simp only [Decoder.more, hc, Option.map_some]
    refine (Block.next_sim ck s _ b _ ⟨rfl, hb'⟩).bind ?_
    rintro ⟨o, b1⟩ ⟨O, B1⟩ ⟨h1, h2, h3⟩
    simp only at h1 h2 h3
    subst h1 h2
    cases o with
    | some x =>
      refine .ok ⟨rfl, rfl, hM, hn, ?_⟩
      intro b2 hb2
      simp only [Option.some.injEq] at hb2
      subst hb2
      exact h3
    | none =>
      simp only
      have hs : slice d.values b1.consumed d.values.length = .ok (d.values.drop b1.consumed) := by
        rw [slice, if_pos ⟨by omega, Nat.le_refl _⟩, List.take_of_length_le
          (by rw [List.length_drop]; omega)]
      have hs' : slice (d.values ++ s) (b1.more s).consumed (d.values ++ s).length =
          .ok (d.values.drop b1.consumed ++ s) := by
        have : (b1.more s).consumed = b1.consumed := rfl
        rw [this, slice, if_pos ⟨by rw [List.length_append]; omega, Nat.le_refl _⟩,
          List.take_of_length_le (by simp), List.drop_append_of_le_length (by omega)]
      rw [hs, hs']
      simp only [Res.ok_bind]
      refine (Block.tryNew_sim ck _ s _ _ _ hM).bind ?_
      rintro nb _ ⟨rfl, hnb⟩
      refine (Block.next_sim ck s _ nb _ ⟨rfl, hnb⟩).bind ?_
      rintro ⟨o, b2⟩ ⟨O, B2⟩ ⟨k1, k2, k3⟩
      simp only at k1 k2 k3
      subst k1 k2
      cases o with
      | none => exact .inl ⟨_, rfl⟩
      | some x =>
        refine .ok ⟨rfl, rfl, hM, ?_, ?_⟩
        · simp only [List.length_drop]; omega
        · intro b3 hb3
          simp only [Option.some.injEq] at hb3
          subst hb3
          exact k3

theorem Decoder.next_sim (ck : Bool) (s : List Byte) (n : Nat) (d D : Decoder) (h : DRel s n d D) :
    Sim (fun x y => x.1 = y.1 ∧ DRel s n x.2 y.2) (d.next ck) (D.next ck) := by
  obtain ⟨rfl, h2, h3, h4⟩ := h
  unfold Decoder.next
  simp only [Decoder.more]
  refine Sim.ite (fun hw => ?_) (fun hw => ?_)
  · exact .ok ⟨rfl, rfl, h2, h3, h4⟩
  · refine Sim.ite (fun hw => ?_) (fun hw => ?_)
    · exact .ok ⟨rfl, rfl, h2, h3, h4⟩
    · refine (loadDelta_sim ck s n { d with valuesRemaining := d.valuesRemaining - 1 } _
        ⟨rfl, h2, h3, h4⟩).bind ?_
      rintro ⟨δ, d1⟩ ⟨Δ, D1⟩ ⟨k1, rfl, k2⟩
      simp only at k1 k2
      subst k1
      refine (Sim.same (addI ck d1.nextValue δ)).bind ?_
      rintro v _ rfl
      exact .ok ⟨rfl, rfl, k2⟩

theorem drain_sim (ck : Bool) (s : List Byte) (n : Nat) (fuel : Nat) (d D : Decoder)
    (h : DRel s n d D) :
    Sim (fun x y => x.1 = y.1 ∧ DRel s n x.2 y.2) (d.drain ck fuel) (D.drain ck fuel) := by
  induction fuel generalizing d D with
  | zero => exact .inr (.inl ⟨rfl, rfl⟩)
  | succ fuel ih =>
    unfold Decoder.drain
    refine (Decoder.next_sim ck s n d D h).bind ?_
    rintro ⟨o, d1⟩ ⟨O, D1⟩ ⟨k1, k2⟩
    simp only at k1 k2
    subst k1
    cases o with
    | none => exact .ok ⟨rfl, k2⟩
    | some x =>
      simp only
      refine (ih d1 D1 k2).bind ?_
      rintro ⟨xs, d2⟩ ⟨XS, D2⟩ ⟨m1, m2⟩
      simp only at m1 m2
      subst m1
      exact .ok ⟨rfl, m2⟩

/-- The consumed bytes are those of the longer stream, and there are not more than bytes. -/
theorem DRel.consumed {s : List Byte} {n : Nat} {d D : Decoder} (h : DRel s n d D) :
    d.consumedBytes = D.consumedBytes ∧ d.consumedBytes ≤ n := by
  obtain ⟨rfl, _, h2, h3⟩ := h
  unfold Decoder.consumedBytes
  cases hc : d.currentBlock with
  | none =>
    simp only [Decoder.more, hc, Option.map_none]
    exact ⟨trivial, by omega⟩
  | some b =>
    have := h3 b hc
    simp only [Decoder.more, hc, Option.map_some, Block.more]
    exact ⟨trivial, by omega⟩

theorem tryNew_sim (ck : Bool) (hdr body s : List Byte) (B M c : Nat) (first : BitVec 64)
    (h : DeltaHeader B M c first hdr) (hM : 0 < M) :
    Sim (DRel s (hdr ++ body).length) (Decoder.tryNew ck (hdr ++ body))
      (Decoder.tryNew ck (hdr ++ body ++ s)) := by
  obtain ⟨h1, h2, h3, h4, i1, i2, i3, i4, rfl⟩ := h
  unfold Decoder.tryNew
  simp only [List.append_assoc]
  rw [Rle.decode_header h1 _ _ i1, Rle.decode_header h1 _ _ i1]
  simp only [Res.ok_bind, List.drop_left]
  refine (Sim.same (Res.assert _)).bind ?_
  rintro _ _ rfl
  rw [Rle.decode_header h2 _ _ i2, Rle.decode_header h2 _ _ i2]
  simp only [Res.ok_bind, List.drop_left]
  rw [Rle.decode_header h3 _ _ i3, Rle.decode_header h3 _ _ i3]
  simp only [Res.ok_bind, List.drop_left]
  rw [decode_zigzag_header h4 _ _ i4, decode_zigzag_header h4 _ _ i4]
  simp only [Res.ok_bind, List.drop_left]
  have e2 : (BitVec.ofNat 64 M).toNat = M := by
    rw [BitVec.toNat_ofNat, Nat.mod_eq_of_lt i2.2.2.2]
  rw [e2]
  refine (Sim.same (Res.assert _)).bind ?_
  rintro _ _ rfl
  refine (Sim.same (Res.assert _)).bind ?_
  rintro _ _ rfl
  by_cases hc : 1 < (BitVec.ofNat 64 c).toNat
  · rw [if_pos hc, if_pos hc]
    refine ((Block.tryNew_sim ck body s M _ _ hM).map' (S := fun x y => ∃ b, x = some b ∧
      y = some (b.more s) ∧ b.consumed + b.values.length = body.length) ?_).bind ?_
    · rintro b _ ⟨rfl, hb⟩
      exact ⟨b, rfl, rfl, hb⟩
    · rintro _ _ ⟨b, rfl, rfl, hb⟩
      refine .ok ⟨rfl, hM, by simp only [List.length_append]; omega, ?_⟩
      intro b' hb'
      simp only [Option.some.injEq] at hb'
      subst hb'
      exact hb
  · rw [if_neg hc, if_neg hc]
    refine .ok ⟨rfl, hM, by simp only [List.length_append]; omega, ?_⟩
    intro b' hb'
    simp at hb'

/-- Decoding a stream with a complete header, and the stream followed by more bytes: an error of
the former, or the same outcome; no more bytes are consumed than there are. -/
theorem decode_sim (ck : Bool) (hdr body s : List Byte) (B M c : Nat) (first : BitVec 64)
    (h : DeltaHeader B M c first hdr) (hM : 0 < M) :
    Sim (fun x y => x = y ∧ x.2 ≤ (hdr ++ body).length) (decode ck (hdr ++ body))
      (decode ck (hdr ++ body ++ s)) := by
  unfold decode
  refine (tryNew_sim ck hdr body s B M c first h hM).bind ?_
  intro d D hd
  have e : D.valuesRemaining = d.valuesRemaining := by rw [hd.1]; rfl
  rw [e]
  refine (drain_sim ck s _ _ d D hd).bind ?_
  rintro ⟨xs, d1⟩ ⟨XS, D1⟩ ⟨k1, k2⟩
  simp only at k1 k2
  subst k1
  obtain ⟨m1, m2⟩ := k2.consumed
  exact .ok ⟨by rw [m1], m2⟩

end Pq.Delta
