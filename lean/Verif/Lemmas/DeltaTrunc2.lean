import Verif.Lemmas.DeltaTrunc
/- Helper lemmas: cut delta-length and delta byte-array streams. -/
namespace Pq
open Pq.Spec

/-- The header of a legal stream. -/
theorem Delta.stream_header {B M : Nat} {xs : List (BitVec 64)} {out : List Byte}
    (h : DeltaStream B M xs out) :
    ∃ hdr body first, out = hdr ++ body ∧ DeltaHeader B M xs.length first hdr ∧ 0 < M := by
  obtain ⟨h1, h2, h3, h4, body, first, ds, v, hM, _, _, _, _, i1, i2, i3, i4, rfl, _⟩ := h
  exact ⟨h1 ++ h2 ++ h3 ++ h4, body, first, by simp, ⟨h1, h2, h3, h4, i1, i2, i3, i4, rfl⟩, hM⟩

/-- A stream that decodes, cut after the header, is an error. -/
theorem Delta.decode_cut (ck : Bool) (hdr body : List Byte) (B M c : Nat) (first : BitVec 64)
    (h : DeltaHeader B M c first hdr) (hM : 0 < M) (xs : List (BitVec 64)) (n k : Nat)
    (hd : Delta.decode ck (hdr ++ body) = .ok (xs, n)) (hk : hdr.length + k < n) :
    ∃ e, Delta.decode ck (hdr ++ body.take k) = .err e := by
  have hs := Delta.decode_sim ck hdr (body.take k) (body.drop k) B M c first h hM
  rw [List.append_assoc, List.take_append_drop, hd] at hs
  rcases hs with h1 | ⟨_, h2⟩ | ⟨x, y, h1, h2, h3, h4⟩
  · exact h1
  · simp at h2
  · simp only [Res.ok.injEq] at h2
    subst h2
    subst h3
    rw [List.length_append, List.length_take] at h4
    simp only at h4
    omega

theorem Delta.decode_err_parts (ck : Bool) (values : List Byte) (e : Err)
    (h : Delta.decode ck values = .err e) :
    Delta.Decoder.tryNew ck values = .err e ∨
      ∃ d, Delta.Decoder.tryNew ck values = .ok d ∧ d.drain ck (d.valuesRemaining + 1) = .err e := by
  unfold Delta.decode at h
  cases h1 : Delta.Decoder.tryNew ck values with
  | err e' =>
    rw [h1] at h
    simp only [Res.err_bind, Res.err.injEq] at h
    exact .inl (by rw [h])
  | panic => rw [h1] at h; simp at h
  | ok d =>
    rw [h1] at h
    simp only [Res.ok_bind] at h
    cases h2 : d.drain ck (d.valuesRemaining + 1) with
    | err e' =>
      rw [h2] at h
      simp only [Res.err_bind, Res.err.injEq] at h
      exact .inr ⟨d, rfl, by rw [h2, h]⟩
    | panic => rw [h2] at h; simp at h
    | ok r => rw [h2] at h; simp at h

theorem DeltaLength.drain_err (fuel : Nat) (l : Delta.Decoder) (values : List Byte)
    (t : BitVec 32) (e : Err) (h : l.drain false fuel = .err e) :
    DeltaLength.Decoder.drain false fuel { values, lengths := l, totalLength := t } = .err e := by
  induction fuel generalizing l t with
  | zero => simp [Delta.Decoder.drain] at h
  | succ fuel ih =>
    rw [Delta.Decoder.drain] at h
    rw [DeltaLength.Decoder.drain, DeltaLength.Decoder.next]
    simp only
    cases h1 : l.next false with
    | err e' =>
      rw [h1] at h
      simp only [Res.err_bind, Res.err.injEq] at h
      rw [h]; rfl
    | panic => rw [h1] at h; simp at h
    | ok r =>
      obtain ⟨o, l1⟩ := r
      rw [h1] at h
      simp only [Res.ok_bind] at h ⊢
      cases o with
      | none => simp at h
      | some x =>
        simp only [Bool.false_and, Bool.false_eq_true, if_false, Res.pure_eq, Res.ok_bind] at h ⊢
        cases h2 : l1.drain false fuel with
        | err e' =>
          rw [h2] at h
          simp only [Res.err_bind, Res.err.injEq] at h
          subst h
          rw [ih l1 _ h2]; rfl
        | panic => rw [h2] at h; simp at h
        | ok r => rw [h2] at h; simp at h

theorem DeltaLength.decode_err (values : List Byte) (e : Err)
    (h : Delta.decode false values = .err e) : DeltaLength.decode false values = .err e := by
  unfold DeltaLength.decode DeltaLength.Decoder.tryNew
  rcases Delta.decode_err_parts _ _ _ h with h1 | ⟨d, h1, h2⟩
  · rw [h1]; rfl
  · rw [h1]
    simp only [Res.ok_bind, Res.pure_eq]
    rw [DeltaLength.drain_err _ _ _ _ _ h2]; rfl

/-- The lengths decode, but the values are missing: an abort. -/
theorem DeltaLength.decode_short (o rest : List Byte) (items : List (List Byte))
    (h2 : DeltaStream 128 1 (items.map fun x => BitVec.ofNat 64 x.length) o)
    (ht : items.flatten.length < 2 ^ 32) (hr : rest.length < items.flatten.length) :
    DeltaLength.decode false (o ++ rest) = .panic := by
  have h3 := Delta.decode_stream _ _ _ o rest h2
  obtain ⟨d, d', p1, p2, p3⟩ := Delta.decode_parts _ _ _ _ h3
  have p4 := Delta.drain_remaining _ _ _ _ _ p2
  have hl := lengths32 items ht
  unfold DeltaLength.decode DeltaLength.Decoder.tryNew
  rw [p1]
  simp only [Res.ok_bind, Res.pure_eq]
  rw [DeltaLength.drain_eq _ _ _ _ _ _ p2]
  simp only [Res.ok_bind, DeltaLength.Decoder.intoValues, p4, p3]
  have ha : Res.assert ((0 : Nat) == 0) = .ok () := rfl
  rw [ha]
  have hsum := sum_lengths items
  have hf : (((items.map fun x => BitVec.ofNat 64 x.length).map (BitVec.setWidth 32)).foldl
      (· + ·) 0#32).toNat = items.flatten.length := by
    rw [foldl_add_toNat _ _ (by rw [hl, hsum]; simpa using ht), hl, hsum]; simp
  simp only [Res.ok_bind]
  rw [hf, slice, if_neg (by rw [List.length_append]; omega)]
  rfl

theorem DeltaByteArray.decode_err (values : List Byte) (e : Err)
    (h : Delta.decode false values = .err e) : DeltaByteArray.decode false values = .err e := by
  unfold DeltaByteArray.decode
  rcases Delta.decode_err_parts _ _ _ h with h1 | ⟨d, h1, h2⟩
  · rw [h1]; rfl
  · rw [h1]
    simp only [Res.ok_bind]
    rw [h2]; rfl

/-- After the prefix lengths, the suffixes are read as a delta-length stream. -/
theorem DeltaByteArray.decode_after (B M : Nat) (xs : List (BitVec 64)) (o rest : List Byte)
    (h : DeltaStream B M xs o) :
    DeltaByteArray.decode false (o ++ rest) =
      (DeltaLength.decode false rest).map' fun r => (xs.map (BitVec.setWidth 32), r.1, r.2) := by
  have h7 := Delta.decode_stream _ _ _ o rest h
  obtain ⟨d, d', p1, p2, p3⟩ := Delta.decode_parts _ _ _ _ h7
  have p4 := Delta.drain_remaining _ _ _ _ _ p2
  unfold DeltaByteArray.decode
  rw [p1]
  simp only [Res.ok_bind, p2, p4]
  have ha : Res.assert ((0 : Nat) == 0) = .ok () := rfl
  rw [ha]
  simp only [Res.ok_bind, p3]
  have hs : slice (o ++ rest) o.length (o ++ rest).length = .ok rest := by
    rw [slice, if_pos (by simp only [List.length_append]; omega), List.drop_left,
      List.take_of_length_le (by simp only [List.length_append]; omega)]
  rw [hs]
  simp only [Res.ok_bind]
  cases DeltaLength.decode false rest <;> rfl

end Pq
