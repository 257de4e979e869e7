import Verif.Spec.DeltaParts
import Verif.Lemmas.DeltaBytes
import Verif.Lemmas.Util
import Verif.Lemmas.DeltaDecode
import Verif.Lemmas.DeltaOverflow
/- Helper lemmas: the delta decoder on legal streams, in builds with overflow checks. -/
namespace Pq.Delta
open Pq.Spec Pq.Bitpack

theorem addI_in (a b : I64) (h : InI64 (a.toInt + b.toInt)) : addI true a b = .ok (a + b) := by
  unfold addI
  rw [if_neg]
  simp only [Bool.true_and, BitVec.saddOverflow, ge_iff_le, Bool.or_eq_true, decide_eq_true_eq]
  unfold InI64 at h
  omega

theorem addI_out (a b : I64) (h : ¬ InI64 (a.toInt + b.toInt)) : addI true a b = .panic := by
  unfold addI
  rw [if_pos]
  simp only [Bool.true_and, BitVec.saddOverflow, ge_iff_le, Bool.or_eq_true, decide_eq_true_eq]
  unfold InI64 at h
  omega

theorem map'_ok {α β : Type} (r : Res α) (f : α → β) (y : β) (h : r.map' f = .ok y) :
    ∃ x, r = .ok x ∧ f x = y := by
  cases r with
  | ok x => exact ⟨x, rfl, by simpa [Res.map'] using h⟩
  | err e => cases h
  | panic => cases h

theorem advance_true {v : Nat} (b : Block) (fs : List I64) (k : Nat) (hvpm : b.vpm = v)
    (hr : 0 < b.remaining) (hF : Future v b.bitwidths b.values b.remaining fs k) :
    b.advance true = b.advance false := by
  obtain ⟨minDelta, vpm, bws, vals, rem, ci, mini, cons⟩ := b
  simp only at hvpm hr hF
  subst hvpm
  generalize hrem : rem = r0 at hF
  cases hF with
  | done => omega
  | @step w ws bs vs _ fs' k' h1 h2 h3 h4 hF' =>
    subst hrem
    unfold Block.advance
    simp only [Bool.true_and, Bool.false_and, decide_eq_true_eq, Bool.false_eq_true, if_false]
    rw [if_neg (Nat.not_le.2 h4)]

theorem advance_minDelta {ck : Bool} {b b' : Block} (h : b.advance ck = .ok b') :
    b'.minDelta = b.minDelta := by
  unfold Block.advance at h
  split at h
  · cases h
  · simp only at h
    split at h
    · split at h
      · cases h
      · split at h
        · cases h
        · split at h
          · cases h; rfl
          · cases h
    · cases h; rfl

/-- The next delta of a block: the sum is checked, the rest is as without checks. -/
theorem Block.next_true {v : Nat} (hv : 0 < v) (b : Block) (δ : I64) (ds : List I64) (fin : Nat)
    (h : BSem v b (δ :: ds) fin) :
    ∃ b', b.next false = .ok (some δ, b') ∧ BSem v b' ds fin ∧ b'.minDelta = b.minDelta ∧
      (InI64 (b.minDelta.toInt + (δ - b.minDelta).toInt) → b.next true = .ok (some δ, b')) ∧
      (¬ InI64 (b.minDelta.toInt + (δ - b.minDelta).toInt) → b.next true = .panic) := by
  obtain ⟨b', e1, e2⟩ := Block.next_cons hv b δ ds fin h
  have hr : b.remaining = ds.length + 1 := by simpa using h.length.symm
  obtain ⟨cur, fs, k, h1, h2, h3, h4, h5, h6, h7⟩ := h
  refine ⟨b', e1, e2, ?_⟩
  have e1' := e1
  unfold Block.next at e1 ⊢
  rw [if_neg (by omega)] at e1
  rw [if_neg (by omega)]
  rcases hm : miniNext b.mini with ⟨x, mini⟩ | e | _ <;> rw [hm] at e1
  · simp only [Res.ok_bind, addI_false] at e1 ⊢
    have hx : δ = b.minDelta + x := by
      split at e1
      · obtain ⟨b1, -, he⟩ := map'_ok _ _ _ e1
        cases he
        rfl
      · cases e1
        rfl
    have hx' : δ - b.minDelta = x := by
      rw [hx, BitVec.add_comm, BitVec.add_sub_cancel]
    rw [hx']
    have hadv : ∀ c : 0 < b.remaining - 1 ∧ b.currentIndex + 1 = b.vpm,
        Block.advance true { b with mini, currentIndex := b.currentIndex + 1, remaining := b.remaining - 1 } =
        Block.advance false { b with mini, currentIndex := b.currentIndex + 1, remaining := b.remaining - 1 } := by
      intro c
      refine advance_true (v := v) _ fs k h2 c.1 ?_
      have : cur.length = 1 := by omega
      rw [this] at h5
      exact h5
    refine ⟨?_, fun hi => ?_, fun hi => ?_⟩
    · split at e1
      · obtain ⟨b1, hb1, he⟩ := map'_ok _ _ _ e1
        cases he
        have := advance_minDelta hb1
        exact this
      · cases e1
        rfl
    · rw [addI_in _ _ hi]
      simp only [Res.ok_bind]
      rw [← e1]
      split
      · rename_i c
        rw [hadv c]
      · rfl
    · rw [addI_out _ _ hi]
      rfl
  · cases e1
  · cases e1

theorem Block.tryNew_true (M v r : Nat) (hv : 0 < v) (hM : 0 < M) (hr : 0 < r)
    (minDelta : I64) (minis : List MiniBlock)
    (out suf : List Byte) (hlen : minis.length = (min r (M * v) + v - 1) / v)
    (hs : BlockSer M v minDelta minis out) :
    ∃ b, Block.tryNew true (out ++ suf) M v r = .ok b ∧ b.minDelta = minDelta ∧
      BSem v b ((minis.flatMap (MiniBlock.deltas v minDelta)).take (min r (M * v))) out.length := by
  obtain ⟨b, e1, e2⟩ := Block.tryNew_spec M v r hv hM hr minDelta minis out suf hlen hs
  refine ⟨b, ?_, ?_, e2⟩
  · rw [← e1]
    obtain ⟨h, widths, h1, h2, h3, h4, h5, rfl⟩ := hs
    unfold Block.tryNew
    rw [List.append_assoc, List.append_assoc, decode_zigzag_header h _ minDelta h1]
    simp only [Res.ok_bind, List.drop_left]
    rw [if_neg (by rw [List.length_append]; omega), if_neg (by rw [List.length_append]; omega), ← h2,
      List.take_left, List.drop_left]
    have hMv : 0 < M * v := Nat.mul_pos hM hv
    have hF := future_of_minis v hv minis (min r (M * v)) (widths.take minis.length)
      (widths.drop minis.length) suf hlen h4 h5
    rw [List.take_append_drop] at hF
    refine advance_true (v := v) _ _ _ rfl ?_ (by rw [h2]; exact hF)
    rw [h2]
    simp only
    omega
  · obtain ⟨h, widths, h1, h2, h3, h4, h5, rfl⟩ := hs
    unfold Block.tryNew at e1
    rw [List.append_assoc, List.append_assoc, decode_zigzag_header h _ minDelta h1] at e1
    simp only [Res.ok_bind, List.drop_left] at e1
    rw [if_neg (by rw [List.length_append]; omega)] at e1
    exact advance_minDelta e1

theorem distances_sub (v : Nat) (minDelta : I64) (minis : List MiniBlock) (n : Nat) :
    (((minis.flatMap (MiniBlock.deltas v minDelta)).take n).map fun δ => (minDelta, δ - minDelta)) =
      ((minis.flatMap (MiniBlock.distances v)).take n).map fun d => (minDelta, d) := by
  rw [List.map_take, List.map_take, List.map_flatMap, List.map_flatMap]
  congr 2
  funext m
  simp only [MiniBlock.deltas, MiniBlock.distances, List.map_map]
  refine List.map_congr_left fun f _ => ?_
  simp only [Function.comp_apply]
  rw [BitVec.add_comm, BitVec.add_sub_cancel]

theorem deltaParts_length {M v r : Nat} {out : List Byte} {ps : List (I64 × I64)}
    (h : DeltaParts M v r out ps) (hv : 0 < v) : ps.length = r := by
  induction h with
  | nil => rfl
  | @cons r minDelta minis out rest ps h1 h2 h3 h4 ih =>
    rw [List.length_append, ih, List.length_map, List.length_take, List.length_flatMap]
    have : (minis.map fun a => (MiniBlock.distances v a).length).sum = minis.length * v := by
      clear h2 h3
      induction minis with
      | nil => simp
      | cons m ms ih =>
        rw [List.map_cons, List.sum_cons, ih, List.length_cons, Nat.add_mul]
        simp [MiniBlock.distances, fields]; omega
    rw [this, h2]
    have h5 := Nat.div_add_mod (min r (M * v) + v - 1) v
    have h6 := Nat.mod_lt (min r (M * v) + v - 1) hv
    rw [Nat.mul_comm] at h5
    omega

theorem deltaParts_zero {M v r : Nat} {out : List Byte} {ps : List (I64 × I64)}
    (h : DeltaParts M v r out ps) (hr : r = 0) : out = [] := by
  cases h with
  | nil => rfl
  | cons h1 h2 h3 h4 => omega

/-- The deltas of blocks, in parts. -/
theorem deltaBlocks_parts {M v r : Nat} {out : List Byte} {ds : List I64} (h : DeltaBlocks M v r out ds) :
    ∃ ps, DeltaParts M v r out ps ∧ ps.map (fun p => p.1 + p.2) = ds := by
  induction h with
  | nil => exact ⟨[], .nil, rfl⟩
  | @cons r minDelta minis out rest ds h1 h2 h3 h4 ih =>
    obtain ⟨ps, i1, i2⟩ := ih
    refine ⟨_, .cons h1 h2 h3 i1, ?_⟩
    rw [List.map_append, i2, ← distances_sub, List.map_map]
    congr 1
    conv => rhs; rw [← List.map_id ((minis.flatMap (MiniBlock.deltas v minDelta)).take (min r (M * v)))]
    refine List.map_congr_left fun δ _ => ?_
    simp only [Function.comp_apply, id]
    rw [BitVec.add_comm, BitVec.sub_add_cancel]

/-- Meaning of a decoder state with a value to give, by the parts of the deltas to come. -/
def DParts (M v : Nat) (d : Decoder) (ps : List (I64 × I64)) (fin : Nat) : Prop :=
  d.numMiniBlocks = M ∧ d.vpm = v ∧ d.valuesRemaining = ps.length + 1 ∧
  ∃ qs body suf ps' finb, ps = qs ++ ps' ∧
    (d.currentBlock = none ∧ qs = [] ∧ finb = 0 ∧ ps' = [] ∨
      ∃ b ds, d.currentBlock = some b ∧ BSem v b ds finb ∧
        qs = ds.map fun δ => (b.minDelta, δ - b.minDelta)) ∧
    finb ≤ d.values.length ∧ d.values.drop finb = body ++ suf ∧
    DeltaParts M v ps'.length body ps' ∧ fin = d.consumed + finb + body.length

theorem next_last {M v : Nat} (d : Decoder) (fin : Nat) (h : DParts M v d [] fin) :
    ∃ d', d.next true = .ok (some d.nextValue, d') ∧ d'.valuesRemaining = 0 ∧ d'.consumedBytes = fin := by
  obtain ⟨h1, h2, h3, qs, body, suf, ps', finb, h4, h5, h6, h7, h8, h9⟩ := h
  rw [List.nil_eq, List.append_eq_nil_iff] at h4
  obtain ⟨rfl, rfl⟩ := h4
  have hb : body = [] := deltaParts_zero h8 rfl
  subst hb
  simp only [List.length_nil, Nat.zero_add] at h3
  unfold Decoder.next
  rw [if_neg (by omega)]
  simp only
  rw [if_pos (by omega)]
  refine ⟨_, rfl, by simp only; omega, ?_⟩
  unfold Decoder.consumedBytes
  rcases h5 with ⟨a, _, c, _⟩ | ⟨b, ds, a, c, e⟩
  · simp only [a]
    simp at h9
    omega
  · simp only [a]
    have hds : ds = [] := by simpa using e.symm
    subst hds
    have := (Block.next_nil true b finb c).2
    simp at h9
    omega

theorem next_part {M v : Nat} (hv : 0 < v) (hM : 0 < M) (d : Decoder) (p : I64 × I64) (ps : List (I64 × I64))
    (fin : Nat) (h : DParts M v d (p :: ps) fin) :
    (InI64 (p.1.toInt + p.2.toInt) ∧ InI64 (d.nextValue.toInt + (p.1 + p.2).toInt) →
      ∃ d', d.next true = .ok (some d.nextValue, d') ∧ DParts M v d' ps fin ∧
        d'.nextValue = d.nextValue + (p.1 + p.2)) ∧
    (¬ (InI64 (p.1.toInt + p.2.toInt) ∧ InI64 (d.nextValue.toInt + (p.1 + p.2).toInt)) →
      d.next true = .panic) := by
  obtain ⟨h1, h2, h3, qs, body, suf, ps', finb, h4, h5, h6, h7, h8, h9⟩ := h
  simp only [List.length_cons] at h3
  unfold Decoder.next
  rw [if_neg (by omega)]
  simp only
  rw [show d.valuesRemaining - 1 = ps.length + 1 by omega, if_neg (by omega)]
  -- what `load_delta` gives
  have key : ∃ d' : Decoder, d'.numMiniBlocks = M ∧ d'.vpm = v ∧ d'.nextValue = d.nextValue ∧
      (∀ w, DParts M v { d' with nextValue := w } ps fin) ∧
      (InI64 (p.1.toInt + p.2.toInt) →
        Decoder.loadDelta true { d with valuesRemaining := ps.length + 1 } = .ok (p.1 + p.2, d')) ∧
      (¬ InI64 (p.1.toInt + p.2.toInt) →
        Decoder.loadDelta true { d with valuesRemaining := ps.length + 1 } = .panic) := by
    cases qs with
    | cons q qs =>
      rw [List.cons_append, List.cons.injEq] at h4
      obtain ⟨rfl, rfl⟩ := h4
      rcases h5 with ⟨_, b, _⟩ | ⟨b, ds, hb, hs, hq⟩
      · cases b
      · cases ds with
        | nil => cases hq
        | cons δ ds =>
          rw [List.map_cons, List.cons.injEq] at hq
          obtain ⟨rfl, rfl⟩ := hq
          obtain ⟨b', e1, e2, e3, e4, e5⟩ := Block.next_true hv b δ ds finb hs
          refine ⟨{ d with valuesRemaining := (ds.map fun δ => (b.minDelta, δ - b.minDelta)).length + ps'.length + 1
                           currentBlock := some b' }, h1, h2, rfl, ?_, ?_, ?_⟩
          · intro w
            refine ⟨h1, h2, by simp, _, body, suf, ps', finb, rfl, .inr ⟨b', ds, rfl, e2, ?_⟩, h6, h7, h8, h9⟩
            rw [e3]
          · intro hi
            simp only [Decoder.loadDelta, hb, e4 hi, Res.ok_bind, Res.pure_eq]
            rw [BitVec.add_comm, BitVec.sub_add_cancel, List.length_append]
          · intro hi
            simp only [Decoder.loadDelta, hb, e5 hi]
            rfl
    | nil =>
      rw [List.nil_append] at h4
      subst h4
      rcases h5 with ⟨_, _, _, b⟩ | ⟨b, ds, hb, hs, hq⟩
      · cases b
      · have hds : ds = [] := by simpa using hq.symm
        subst hds
        obtain ⟨n1, n2⟩ := Block.next_nil true b finb hs
        have hsl : slice d.values b.consumed d.values.length = .ok (body ++ suf) := by
          rw [slice, if_pos ⟨by omega, Nat.le_refl _⟩, n2, h7]
          congr 1
          rw [← h7, List.take_of_length_le (by rw [List.length_drop]; omega)]
        generalize hD : p :: ps = D at h8
        generalize hr : D.length = r at h8
        cases h8 with
        | nil => cases hD
        | @cons _ minDelta minis out rest ps2 c1 c2 c3 c4 =>
          obtain ⟨nb, t1, t3, t2⟩ := Block.tryNew_true M v r hv hM c1 minDelta minis out (rest ++ suf) c2 c3
          have hrl : ps.length + 1 = r := by rw [← hr, ← hD]; rfl
          rw [← distances_sub] at hD hr
          generalize hF : (minis.flatMap (MiniBlock.deltas v minDelta)).take (min r (M * v)) = F at *
          cases F with
          | nil =>
            have hl2 := deltaParts_length c4 hv
            have hMv : 0 < M * v := Nat.mul_pos hM hv
            simp only [List.map_nil, List.nil_append] at hr
            omega
          | cons f F =>
            simp only [List.map_cons, List.cons_append, List.cons.injEq] at hD
            obtain ⟨rfl, rfl⟩ := hD
            obtain ⟨nb', u0, u2, u3, u4, u5⟩ := Block.next_true hv nb f F out.length t2
            rw [t3] at u3 u4 u5
            refine ⟨{ d with valuesRemaining := r, values := (out ++ rest) ++ suf
                             consumed := d.consumed + b.consumed, currentBlock := some nb' },
              h1, h2, rfl, ?_, ?_, ?_⟩
            · intro w
              have hl2 := deltaParts_length c4 hv
              refine ⟨h1, h2, hrl.symm, _, rest, suf, ps2, out.length, rfl,
                .inr ⟨nb', F, rfl, u2, by rw [u3]⟩, ?_, ?_, ?_, ?_⟩
              · simp
              · simp
              · rw [hl2]; exact c4
              · simp only [n2, h9, List.length_append]; omega
            · intro hi
              simp only [Decoder.loadDelta, hb, n1, Res.ok_bind, hsl, h1, h2, hrl]
              rw [List.append_assoc, t1]
              simp only [Res.ok_bind, u4 hi, Res.pure_eq]
              rw [BitVec.add_comm, BitVec.sub_add_cancel]
            · intro hi
              simp only [Decoder.loadDelta, hb, n1, Res.ok_bind, hsl, h1, h2, hrl]
              rw [List.append_assoc, t1]
              simp only [Res.ok_bind, u5 hi]
              rfl
  obtain ⟨d', k1, k2, k3, k4, k5, k6⟩ := key
  refine ⟨fun hi => ?_, fun hi => ?_⟩
  · rw [k5 hi.1]
    simp only [Res.ok_bind, k3, addI_in _ _ hi.2, Res.pure_eq]
    exact ⟨_, rfl, k4 _, rfl⟩
  · by_cases hi1 : InI64 (p.1.toInt + p.2.toInt)
    · rw [k5 hi1]
      simp only [Res.ok_bind, k3]
      rw [addI_out _ _ fun hi2 => hi ⟨hi1, hi2⟩]
      rfl
    · rw [k6 hi1]
      rfl

theorem drain_parts {M v : Nat} (hv : 0 < v) (hM : 0 < M) (ps : List (I64 × I64)) (fuel : Nat)
    (hf : ps.length + 1 < fuel) (d : Decoder) (fin : Nat) (h : DParts M v d ps fin) :
    (NoOverflow d.nextValue ps → ∃ d', d.drain true fuel = .ok (valuesOfParts d.nextValue ps, d') ∧
      d'.consumedBytes = fin) ∧
    (¬ NoOverflow d.nextValue ps → d.drain true fuel = .panic) := by
  induction ps generalizing d fuel with
  | nil =>
    refine ⟨fun _ => ?_, fun h => absurd trivial h⟩
    obtain ⟨d1, h1, h2, h3⟩ := next_last d fin h
    cases fuel with
    | zero => omega
    | succ fuel =>
      cases fuel with
      | zero => simp at hf
      | succ fuel =>
        refine ⟨d1, ?_, h3⟩
        rw [Decoder.drain, h1]
        simp only [Res.ok_bind]
        rw [Decoder.drain, Decoder.next, if_pos h2]
        rfl
  | cons p ps ih =>
    cases fuel with
    | zero => omega
    | succ fuel =>
      obtain ⟨n1, n2⟩ := next_part hv hM d p ps fin h
      by_cases hc : InI64 (p.1.toInt + p.2.toInt) ∧ InI64 (d.nextValue.toInt + (p.1 + p.2).toInt)
      · obtain ⟨d1, e1, e2, e3⟩ := n1 hc
        obtain ⟨i1, i2⟩ := ih fuel (by simp only [List.length_cons] at hf; omega) d1 e2
        rw [e3] at i1 i2
        refine ⟨fun hn => ?_, fun hn => ?_⟩
        · obtain ⟨d2, j1, j2⟩ := i1 hn.2
          refine ⟨d2, ?_, j2⟩
          rw [Decoder.drain, e1]
          simp only [Res.ok_bind, j1]
          rfl
        · rw [Decoder.drain, e1]
          simp only [Res.ok_bind]
          rw [i2 fun h' => hn ⟨hc, h'⟩]
          rfl
      · refine ⟨fun hn => absurd hn.1 hc, fun _ => ?_⟩
        rw [Decoder.drain, n2 hc]
        rfl

/-- The decoder on any legal stream, followed by anything. -/
theorem decode_pairs (B M v : Nat) (first : I64) (ps : List (I64 × I64)) (hdr body suf : List Byte)
    (hM : 0 < M) (hB : B % 128 = 0) (hBM : B = M * v) (hv8 : v % 8 = 0) (hv : 0 < v)
    (hh : DeltaHeader B M (ps.length + 1) first hdr) (hb : DeltaParts M v ps.length body ps) :
    (NoOverflow first ps →
      decode true (hdr ++ body ++ suf) = .ok (valuesOfParts first ps, (hdr ++ body).length)) ∧
    (¬ NoOverflow first ps → decode true (hdr ++ body ++ suf) = .panic) := by
  obtain ⟨h1, h2, h3, h4, i1, i2, i3, i4, rfl⟩ := hh
  subst hBM
  have key : ∃ d, Decoder.tryNew true (h1 ++ h2 ++ h3 ++ h4 ++ body ++ suf) = .ok d ∧ d.nextValue = first ∧
      DParts M v d ps (h1 ++ h2 ++ h3 ++ h4 ++ body).length := by
    unfold Decoder.tryNew
    simp only [List.append_assoc]
    rw [Rle.decode_header h1 _ _ i1]
    simp only [Res.ok_bind, List.drop_left]
    rw [Rle.decode_header h2 _ _ i2]
    simp only [Res.ok_bind, List.drop_left]
    rw [Rle.decode_header h3 _ _ i3]
    simp only [Res.ok_bind, List.drop_left]
    rw [decode_zigzag_header h4 _ _ i4]
    simp only [Res.ok_bind, List.drop_left]
    have e1 : (BitVec.ofNat 64 (M * v)).toNat = M * v := by
      rw [BitVec.toNat_ofNat, Nat.mod_eq_of_lt i1.2.2.2]
    have e2 : (BitVec.ofNat 64 M).toNat = M := by
      rw [BitVec.toNat_ofNat, Nat.mod_eq_of_lt i2.2.2.2]
    have e3 : (BitVec.ofNat 64 (ps.length + 1)).toNat = ps.length + 1 := by
      rw [BitVec.toNat_ofNat, Nat.mod_eq_of_lt i3.2.2.2]
    rw [e1, e2, e3, Nat.mul_div_cancel_left v hM]
    have a1 : Res.assert (M * v % 128 == 0) = .ok () := by simp [Res.assert, hB]
    have a2 : Res.assert (M != 0) = .ok () := by
      have : M ≠ 0 := by omega
      simp [Res.assert, this]
    have a3 : Res.assert (v % 8 == 0) = .ok () := by simp [Res.assert, hv8]
    rw [a1, a2, a3]
    simp only [Res.ok_bind]
    by_cases hl : 1 < ps.length + 1
    · rw [if_pos hl, Nat.add_sub_cancel]
      generalize hr : ps.length = r at hb
      cases hb with
      | nil => omega
      | @cons _ minDelta minis out rest ps2 c1 c2 c3 c4 =>
        obtain ⟨nb, t1, t3, t2⟩ := Block.tryNew_true M v r hv hM c1 minDelta minis out (rest ++ suf) c2 c3
        rw [List.append_assoc, t1]
        refine ⟨_, rfl, rfl, rfl, rfl, by rw [hr], _, rest, suf, ps2, out.length, rfl, .inr ⟨nb, _, rfl, t2, ?_⟩,
          by simp, by simp, ?_, ?_⟩
        · rw [t3, distances_sub]
        · rw [deltaParts_length c4 hv]; exact c4
        · simp only [List.length_append]; omega
    · rw [if_neg hl]
      have hps : ps = [] := List.eq_nil_of_length_eq_zero (by omega)
      subst hps
      have hbd : body = [] := deltaParts_zero hb rfl
      subst hbd
      refine ⟨_, rfl, rfl, rfl, rfl, rfl, [], [], suf, [], 0, rfl, .inl ⟨rfl, rfl, rfl, rfl⟩, by simp, by simp, .nil, ?_⟩
      simp only [List.length_append, List.length_nil]; omega
  obtain ⟨d, k1, k0, k2⟩ := key
  subst k0
  have hvr : d.valuesRemaining = ps.length + 1 := k2.2.2.1
  obtain ⟨r1, r2⟩ := drain_parts hv hM ps (d.valuesRemaining + 1) (by omega) d _ k2
  unfold decode
  rw [k1]
  simp only [Res.ok_bind]
  refine ⟨fun h => ?_, fun h => ?_⟩
  · obtain ⟨d', q1, q2⟩ := r1 h
    rw [q1]
    simp only [Res.ok_bind, Res.pure_eq, q2]
  · rw [r2 h]
    rfl

/-! ### what the encoder writes -/

theorem inI64_sub (a b : I64) : InI64 (b.toInt + (a - b).toInt) ↔ InI64 (a.toInt - b.toInt) := by
  unfold InI64
  rw [BitVec.toInt_sub]
  have h1 := a.toInt_lt
  have h2 := a.le_toInt
  have h3 := b.toInt_lt
  have h4 := b.le_toInt
  simp only [Nat.add_one_sub_one] at h1 h2 h3 h4
  rw [Int.bmod_def]
  omega

theorem noOverflow_diffs (prev m : I64) (ys : List I64) (qs : List (I64 × I64)) :
    NoOverflow prev ((diffs prev ys).map (fun d => (m, d - m)) ++ qs) ↔
      (Fit (jumpsFrom prev ys) ∧ ∀ d ∈ diffs prev ys, InI64 (d.toInt - m.toInt)) ∧
      NoOverflow (ys.getLastD prev) qs := by
  induction ys generalizing prev with
  | nil => simp [diffs, jumpsFrom, Fit]
  | cons y ys ih =>
    have hl : (y :: ys).getLastD prev = ys.getLastD y := by cases ys <;> rfl
    have e : m + (y - prev - m) = y - prev := by rw [BitVec.add_comm, BitVec.sub_add_cancel]
    have e2 : prev + (y - prev) = y := by rw [BitVec.add_comm, BitVec.sub_add_cancel]
    simp only [diffs, jumpsFrom, List.map_cons, List.cons_append, NoOverflow, Fit, List.forall_mem_cons, e, e2,
      hl, ih, inI64_sub]
    simp only [InI64]
    constructor
    · rintro ⟨⟨a, b⟩, ⟨c, d⟩, f⟩
      exact ⟨⟨⟨b, c⟩, a, d⟩, f⟩
    · rintro ⟨⟨⟨b, c⟩, a, d⟩, f⟩
      exact ⟨⟨a, b⟩, ⟨c, d⟩, f⟩

theorem blocks_parts (fuel : Nat) (xs : List I64) (prev : I64) (deltas : List I64)
    (hf : xs.length ≤ fuel) (hl : deltas.length = 128) :
    ∃ out ps, blocks false fuel xs prev deltas = .ok out ∧ DeltaParts 1 128 xs.length out ps ∧
      ps.map (fun p => p.1 + p.2) = diffs prev xs ∧
      (NoOverflow prev ps ↔ BlocksTight fuel (jumpsFrom prev xs)) := by
  induction fuel generalizing xs prev deltas with
  | zero =>
    have : xs = [] := List.eq_nil_of_length_eq_zero (by omega)
    subst this
    exact ⟨[], [], rfl, .nil, rfl, by simp [NoOverflow, BlocksTight, jumpsFrom]⟩
  | succ fuel ih =>
    rw [blocks]
    by_cases hx : xs = []
    · subst hx
      exact ⟨[], [], by simp, .nil, rfl, by simp [NoOverflow, BlocksTight, jumpsFrom]⟩
    · rw [if_neg hx]
      have hxl : 0 < xs.length := List.length_pos_iff.2 hx
      obtain ⟨m, M, n, s1, _, _, s4, s5⟩ := scan_spec (xs.take 128) prev
        (BitVec.ofNat 64 (2 ^ 63 - 1)) (BitVec.ofNat 64 (2 ^ 63)) 0
      have hmin := scan_min_mem _ _ _ _ _ _ _ _ _ s1
      have htl : (xs.take 128).length = min 128 xs.length := List.length_take
      rw [if_neg (by intro h; rw [h] at htl; simp at htl; omega)] at s5
      have hn : n ≤ 64 := by rw [s5]; exact bitLen_le _
      rw [s1]
      simp only [Res.ok_bind, relative_spec]
      obtain ⟨z, z1, z2⟩ := zigzag_header_ok m
      rw [z1]
      simp only [Res.ok_bind]
      obtain ⟨mini, w1, w2, w3⟩ := writeMiniblock_spec n hn
        ((diffs prev (xs.take 128)).map (· - m)) deltas hl
        (by rw [List.length_map, diffs_length]; omega)
        (by
          intro x hx
          obtain ⟨d, hd, rfl⟩ := List.mem_map.1 hx
          obtain ⟨a, b⟩ := s4 d hd
          rw [s5]
          exact Nat.lt_of_le_of_lt (sub_toNat_le d m M a b) (lt_bitLen _))
      rw [w1]
      simp only [Res.ok_bind]
      obtain ⟨tail, ps, t1, t2, t3, t4⟩ := ih (xs.drop 128) ((xs.take 128).getLastD prev)
        (Rle.overwrite ((diffs prev (xs.take 128)).map (· - m)) deltas)
        (by rw [List.length_drop]; omega)
        (by rw [Rle.overwrite_length _ _ (by rw [List.length_map, diffs_length]; omega), hl])
      rw [t1]
      have hsplit : diffs prev xs = diffs prev (xs.take 128) ++
          diffs ((xs.take 128).getLastD prev) (xs.drop 128) := by
        rw [← diffs_append, List.take_append_drop]
      have hds : (diffs prev (xs.take 128)).map (fun d => (m, d - m)) = (([MiniBlock.mk n mini].flatMap
          (MiniBlock.distances 128)).take (min xs.length (1 * 128))).map fun d => (m, d) := by
        rw [show (diffs prev (xs.take 128)).map (fun d => (m, d - m)) =
          ((diffs prev (xs.take 128)).map (· - m)).map fun d => (m, d) by rw [List.map_map]; rfl]
        congr 1
        apply List.ext_getElem
        · simp [diffs_length, MiniBlock.distances, fields]; omega
        · intro i hi1 hi2
          have := w3 i hi1
          rw [List.getD_eq_getElem?_getD, List.getElem?_eq_getElem hi1, Option.getD_some] at this
          simp only [List.flatMap_cons, List.flatMap_nil, List.append_nil, List.getElem_take,
            MiniBlock.distances, fields, List.getElem_map, List.getElem_range]
          change _ = fieldBV 8 n mini i
          rw [this, List.getElem_map]
      refine ⟨_, (diffs prev (xs.take 128)).map (fun d => (m, d - m)) ++ ps, rfl, ?_, ?_, ?_⟩
      · rw [hds]
        refine DeltaParts.cons hxl ?_ ⟨z, [BitVec.ofNat 8 n], z2, rfl, by simp, ?_, ?_, ?_⟩ ?_
        · simp only [List.length_singleton, Nat.one_mul]; omega
        · simp only [List.length_singleton, List.take_succ_cons, List.take_zero, List.map_cons,
            List.map_nil, BitVec.toNat_ofNat]
          rw [Nat.mod_eq_of_lt (by omega)]
        · intro mb hmb
          simp only [List.mem_singleton] at hmb
          subst hmb
          exact ⟨hn, w2, by simp only; omega⟩
        · simp
        · rw [List.length_drop] at t2
          rw [show xs.length - min xs.length (1 * 128) = xs.length - 128 by omega]
          exact t2
      · rw [List.map_append, t3, hsplit, List.map_map]
        congr 1
        conv => rhs; rw [← List.map_id (diffs prev (xs.take 128))]
        refine List.map_congr_left fun δ _ => ?_
        simp only [Function.comp_apply, id]
        rw [BitVec.add_comm, BitVec.sub_add_cancel]
      · rw [noOverflow_diffs, t4, blocksTight_succ fuel xs prev hx]
        refine and_congr_left fun _ => and_congr_right fun hfit => ?_
        have hdi := diffs_toInt _ _ hfit
        constructor
        · intro h a ha b hb
          rw [← hdi] at ha hb
          obtain ⟨d, hd, rfl⟩ := List.mem_map.1 ha
          obtain ⟨e, he, rfl⟩ := List.mem_map.1 hb
          have := (h d hd).2
          have := (s4 e he).1
          omega
        · intro h d hd
          have h1 := (s4 d hd).1
          refine ⟨by omega, ?_⟩
          rcases hmin with hm | hm
          · have h2 := d.toInt_lt
            simp only [Nat.add_one_sub_one] at h2
            have h3 : m.toInt = 2 ^ 63 - 1 := by rw [hm]; decide
            omega
          · exact h _ (hdi ▸ List.mem_map_of_mem hd) _ (hdi ▸ List.mem_map_of_mem hm)

/-- With overflow checks the decoder reads back what was written without them exactly if it could have
been written with them. -/
theorem decode_encoded (xs : List I64) (hl : xs.length < 2 ^ 64) :
    ∃ out, encode false xs = .ok out ∧ ∀ suf,
      (BlocksTight xs.length (jumpsFrom (xs.headD 0#64) xs.tail) →
        decode true (out ++ suf) = .ok (xs, out.length)) ∧
      (¬ BlocksTight xs.length (jumpsFrom (xs.headD 0#64) xs.tail) → decode true (out ++ suf) = .panic) := by
  cases xs with
  | nil =>
    refine ⟨[128, 1, 1, 0, 0], by decide +kernel, fun suf => ⟨fun _ => ?_, fun h => absurd rfl h⟩⟩
    rfl
  | cons x xs =>
    obtain ⟨h1, a1, b1⟩ := header_ok 128#64
    obtain ⟨h2, a2, b2⟩ := header_ok 1#64
    obtain ⟨h3, a3, b3⟩ := header_ok (BitVec.ofNat 64 (x :: xs).length)
    obtain ⟨h4, a4, b4⟩ := zigzag_header_ok x
    obtain ⟨body, ps, c1, c2, c3, c4⟩ := blocks_parts (x :: xs).length xs x (List.replicate 128 0#64)
      (by simp) (by simp)
    have hpl := deltaParts_length c2 (by decide)
    rw [BitVec.toNat_ofNat, Nat.mod_eq_of_lt hl, List.length_cons, ← hpl] at b3
    rw [← hpl] at c2
    refine ⟨h1 ++ h2 ++ h3 ++ h4 ++ body, ?_, fun suf => ?_⟩
    · rw [encode, a1, a2, a3]
      simp only [Res.ok_bind, List.headD_cons, List.tail_cons, a4, c1, Res.pure_eq]
    · obtain ⟨d1, d2⟩ := decode_pairs 128 1 128 x ps (h1 ++ h2 ++ h3 ++ h4) body suf (by decide) (by decide)
        (by decide) (by decide) (by decide) ⟨h1, h2, h3, h4, b1, b2, b3, b4, rfl⟩ c2
      rw [List.headD_cons, List.tail_cons, ← c4]
      rw [valuesOfParts, c3, prefixSums_diffs] at d1
      exact ⟨d1, d2⟩

theorem smallFrom_of_small (prev : I64) (xs : List I64) (hp : prev.toNat < 2 ^ 62)
    (h : ∀ x ∈ xs, x.toNat < 2 ^ 62) : SmallFrom prev xs := by
  induction xs generalizing prev with
  | nil => trivial
  | cons x xs ih =>
    have hx := h x List.mem_cons_self
    refine ⟨?_, ih x hx fun y hy => h y (List.mem_cons_of_mem _ hy)⟩
    unfold Small
    rw [BitVec.toInt_eq_toNat_of_lt (by omega), BitVec.toInt_eq_toNat_of_lt (by omega)]
    omega

/-- Small values: the same in all builds. -/
theorem decode_encode_small (xs : List I64) (hl : xs.length < 2 ^ 64) (h : ∀ x ∈ xs, x.toNat < 2 ^ 62) :
    ∃ out, (∀ ck, encode ck xs = .ok out) ∧ ∀ ck suf, decode ck (out ++ suf) = .ok (xs, out.length) := by
  obtain ⟨out, e1, e2⟩ := encode_stream xs hl
  obtain ⟨out', e3, e4⟩ := decode_encoded xs hl
  rw [e1] at e3
  cases e3
  have hs : SmallFrom (xs.headD 0#64) xs.tail := by
    cases xs with
    | nil => trivial
    | cons x xs =>
      exact smallFrom_of_small _ _ (h x List.mem_cons_self) fun y hy => h y (List.mem_cons_of_mem _ hy)
  have hc := encode_checked xs hs
  have ht : BlocksTight xs.length (jumpsFrom (xs.headD 0#64) xs.tail) := by
    refine Classical.byContradiction fun hn => ?_
    rw [(encode_iff xs).2 hn, e1] at hc
    cases hc
  refine ⟨out, fun ck => ?_, fun ck suf => ?_⟩
  · cases ck with
    | true => rw [hc, e1]
    | false => exact e1
  · cases ck with
    | true => exact (e4 suf).1 ht
    | false => exact decode_stream _ _ _ out suf e2

end Pq.Delta

namespace Pq

theorem DeltaLength.drain_small (ck : Bool) (fuel : Nat) (l l' : Delta.Decoder) (xs : List (BitVec 64))
    (values : List Byte) (t : BitVec 32) (h : l.drain ck fuel = .ok (xs, l'))
    (hs : t.toNat + ((xs.map (BitVec.setWidth 32)).map BitVec.toNat).sum < 2 ^ 32) :
    DeltaLength.Decoder.drain ck fuel { values, lengths := l, totalLength := t } =
      .ok (xs.map (BitVec.setWidth 32),
        { values, lengths := l', totalLength := (xs.map (BitVec.setWidth 32)).foldl (· + ·) t }) := by
  induction fuel generalizing l xs t with
  | zero => simp [Delta.Decoder.drain] at h
  | succ fuel ih =>
    rw [Delta.Decoder.drain, Res.bind_eq_ok] at h
    obtain ⟨⟨o, d1⟩, h1, h⟩ := h
    rw [DeltaLength.Decoder.drain, DeltaLength.Decoder.next]
    simp only [h1, Res.ok_bind]
    cases o with
    | none =>
      simp only [Res.pure_eq, Res.ok.injEq, Prod.mk.injEq] at h
      obtain ⟨rfl, rfl⟩ := h
      rfl
    | some x =>
      simp only at h
      rw [Res.bind_eq_ok] at h
      obtain ⟨⟨ys, d2⟩, h2, h⟩ := h
      simp only [Res.pure_eq, Res.ok.injEq, Prod.mk.injEq] at h
      obtain ⟨rfl, rfl⟩ := h
      simp only [List.map_cons, List.sum_cons] at hs
      have hlt : t.toNat + (x.setWidth 32).toNat < 2 ^ 32 := by omega
      have hov : BitVec.uaddOverflow t (x.setWidth 32) = false := by
        simp only [BitVec.uaddOverflow, decide_eq_false_iff_not]
        omega
      simp only [hov, Bool.and_false, Bool.false_eq_true, if_false, Res.pure_eq, Res.ok_bind]
      rw [ih d1 ys (t + x.setWidth 32) h2 (by
        rw [BitVec.toNat_add, Nat.mod_eq_of_lt hlt]; omega)]
      rfl

theorem DeltaLength.decode_encode_all (items : List (List Byte)) (hn : items.length < 2 ^ 64)
    (ht : items.flatten.length < 2 ^ 32) :
    ∃ out lengths, (∀ ck, DeltaLength.encode ck items = .ok out) ∧
      lengths.map BitVec.toNat = items.map List.length ∧
      ∀ ck suf, DeltaLength.decode ck (out ++ suf) = .ok (lengths, items.flatten) := by
  have hl := lengths32 items ht
  obtain ⟨o, h1, h2⟩ := Delta.decode_encode_small (items.map fun x => BitVec.ofNat 64 x.length)
    (by rw [List.length_map]; exact hn)
    (by
      intro x hx
      obtain ⟨y, hy, rfl⟩ := List.mem_map.1 hx
      have := length_le_flatten items y hy
      rw [BitVec.toNat_ofNat]
      omega)
  refine ⟨o ++ items.flatten, _, fun ck => by rw [DeltaLength.encode, h1]; rfl, hl, fun ck suf => ?_⟩
  have h3 := h2 ck (items.flatten ++ suf)
  obtain ⟨d, d', p1, p2, p3⟩ := Delta.decode_parts _ _ _ _ h3
  have p4 := Delta.drain_remaining _ _ _ _ _ p2
  unfold DeltaLength.decode DeltaLength.Decoder.tryNew
  rw [List.append_assoc, p1]
  simp only [Res.ok_bind, Res.pure_eq]
  have hs : ((0#32).toNat + (((items.map fun x => BitVec.ofNat 64 x.length).map
      (BitVec.setWidth 32)).map BitVec.toNat).sum) < 2 ^ 32 := by
    rw [hl, sum_lengths]; simpa using ht
  rw [DeltaLength.drain_small _ _ _ _ _ _ _ p2 hs]
  simp only [Res.ok_bind, DeltaLength.Decoder.intoValues, p4]
  have ha : Res.assert ((0 : Nat) == 0) = .ok () := rfl
  rw [ha]
  simp only [Res.ok_bind, p3]
  rw [foldl_add_toNat _ _ hs, hl, sum_lengths]
  have e : (0#32).toNat + items.flatten.length = items.flatten.length := by simp
  rw [e, slice, if_pos (by simp only [List.length_append]; omega), List.drop_left,
    Nat.add_sub_cancel_left, List.take_left]
  rfl

end Pq
