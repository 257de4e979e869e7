import Verif.Model.HybridRle
import Verif.Spec.Rle
import Verif.Lemmas.Leb128
import Verif.Lemmas.Bitpacked
import Verif.Lemmas.Bitmap
/- Helper lemmas about the hybrid RLE encoding. -/
namespace Pq.Rle
open Pq.Spec

theorem decode_header (h rest : List Byte) (v : Nat) (hh : IsHeader h v) :
    Leb.decode (h ++ rest) = .ok (BitVec.ofNat 64 v, h.length) := by
  obtain ⟨h1, h2, h3, h4⟩ := hh
  have hno : ¬ Overlong 9 (h ++ rest) := by
    have gen : ∀ (k : Nat) (h : List Byte), IsVarint h → h.length ≤ k + 1 →
        base128 h < 2 ^ (7 * k + 1) → ¬ Overlong k (h ++ rest) := by
      intro k
      induction k with
      | zero =>
        intro h h1 h2 h3
        match h, h1 with
        | [b], h1 =>
          simp only [base128, IsVarint] at h1 h3
          simp only [List.cons_append, Overlong]; omega
        | b :: c :: bs, _ => simp at h2
      | succ k ih =>
        intro h h1 h2 h3
        match h, h1 with
        | [b], h1 =>
          simp only [IsVarint] at h1
          simp only [List.cons_append, Overlong]; omega
        | b :: c :: bs, h1 =>
          simp only [IsVarint] at h1
          rw [List.cons_append]
          simp only [Overlong]
          rintro ⟨_, ho⟩
          refine ih (c :: bs) h1.2 (by simpa using h2) ?_ ho
          rw [base128] at h3
          rw [show 7 * (k + 1) + 1 = (7 * k + 1) + 7 by omega, Nat.pow_add] at h3
          omega
    exact gen 9 h h1 (by omega) (by rw [h3]; exact h4)
  rw [Leb.decode_any, if_neg hno, Leb.varintPrefix_varint _ _ h1, h3]

theorem header_ne_nil {h : List Byte} {v : Nat} (hh : IsHeader h v) : h ≠ [] := by
  rintro rfl; exact hh.1

/-- `Decoder::next` never returns an error. -/
theorem Runs.next_ne_err (d : Runs) (e : Err) : d.next ≠ .err e := by
  unfold Runs.next
  split
  · simp
  · split
    · simp
    · rw [Leb.decode_any]
      split
      · rename_i h1; split at h1 <;> simp at h1
      · simp
      · simp only
        split
        · simp
        · split
          · simp
          · unfold splitAt'
            split
            · simp
            · rename_i h1; split at h1 <;> simp at h1
            · simp

/-- Every run read consumes at least one byte and keeps the width. -/
theorem Runs.next_dec (d : Runs) (run : Encoded) (d' : Runs) (h : d.next = .ok (some run, d')) :
    d'.values.length < d.values.length ∧ d'.numBits = d.numBits := by
  unfold Runs.next at h
  split at h
  · simp at h
  · split at h
    · simp at h
    · rename_i hn hv
      rw [Leb.decode_any] at h
      split at h
      · simp at h
      · simp at h
      · rename_i ind cons hdec
        split at hdec
        · simp at hdec
        · simp only [Res.ok.injEq, Prod.mk.injEq] at hdec
          have hpos : 0 < cons := by
            rw [← hdec.2]
            cases hvv : d.values with
            | nil => exact absurd hvv hv
            | cons b bs => simp only [varintPrefix]; split <;> simp
          simp only at h
          split at h
          · simp at h
          · rename_i hne
            have hl : 0 < (d.values.drop cons).length := List.length_pos_iff.2 hne
            rw [List.length_drop] at hl
            split at h
            · simp only [Res.ok.injEq, Prod.mk.injEq] at h
              rw [← h.2]
              refine ⟨?_, rfl⟩
              simp only [List.length_drop]; omega
            · unfold splitAt' at h
              split at h
              · rename_i hs
                split at hs
                · simp only [Res.ok.injEq, Prod.mk.injEq] at h hs
                  rw [← h.2, ← hs.2]
                  refine ⟨?_, rfl⟩
                  simp only [List.length_drop]; omega
                · simp at hs
              · simp at h
              · simp at h

theorem Runs.next_numBits (d : Runs) (o : Option Encoded) (d' : Runs) (h : d.next = .ok (o, d')) :
    d'.numBits = d.numBits := by
  cases o with
  | some r => exact (Runs.next_dec d r d' h).2
  | none =>
    unfold Runs.next at h
    split at h
    · simp only [Res.ok.injEq, Prod.mk.injEq] at h; rw [h.2]
    · split at h
      · simp only [Res.ok.injEq, Prod.mk.injEq] at h; rw [h.2]
      · split at h
        · simp at h
        · simp at h
        · simp only at h
          split at h
          · simp only [Res.ok.injEq, Prod.mk.injEq] at h; rw [← h.2]
          · split at h
            · simp at h
            · split at h <;> simp at h

/-- The values a run delivers when `rem` values are still wanted. -/
def runValues (n : Nat) (rem : Nat) : Encoded → List U32
  | .bitpacked p => (List.range (min (p.length * 8 / n) rem)).map (Bitpack.fieldBV 4 n p)
  | .rle bs k => List.replicate k (rleValue bs)

/-- What the decoder yields from the run stream `v` when `rem` values are wanted. -/
def expand (n : Nat) : Nat → List Byte → Nat → Res (List U32)
  | 0, _, _ => .panic
  | f + 1, v, rem =>
    if rem = 0 then .ok []
    else
      match Runs.next ⟨v, n⟩ with
      | .ok (none, _) => .ok (List.replicate rem 0#32)
      | .ok (some run, d) =>
        (expand n f d.values (rem - (runValues n rem run).length)).map'
          ((runValues n rem run).take rem ++ ·)
      | .err e => .err e
      | .panic => .panic

theorem expand_fuel (n : Nat) (f f' : Nat) (v : List Byte) (rem : Nat)
    (h : v.length < f) (h' : v.length < f') : expand n f v rem = expand n f' v rem := by
  induction f generalizing v rem f' with
  | zero => omega
  | succ f ih =>
    cases f' with
    | zero => omega
    | succ f' =>
      rw [expand, expand]
      split
      · rfl
      · cases hr : Runs.next ⟨v, n⟩ with
        | err e => rfl
        | panic => rfl
        | ok p =>
          obtain ⟨o, d⟩ := p
          cases o with
          | none => rfl
          | some run =>
            have := (Runs.next_dec _ _ _ hr).1
            simp only at this ⊢
            rw [ih f' d.values _ (by omega) (by omega)]

/-- The values still to be delivered by a state other than `State::None`. -/
inductive Pend (n : Nat) : State → List U32 → Prop where
  | single (o : Option U32) : Pend n (.single o) o.toList
  | rle (v : U32) (k : Nat) : Pend n (.rle v k) (List.replicate k v)
  | bitpacked (d : Bitpack.Decoder 4) (q : List Byte) (h : Bitpack.Inv d n q) :
      Pend n (.bitpacked d) ((List.range d.remaining).map fun k => Bitpack.fieldBV 4 n q (d.idx + k))

theorem State.next_cons {n : Nat} (hn : 0 < n) (hn32 : n ≤ 32) {st : State} {x : U32} {xs : List U32}
    (h : Pend n st (x :: xs)) : ∃ st', st.next = .ok (some x, st') ∧ Pend n st' xs := by
  generalize hl : x :: xs = l at h
  cases h with
  | single o =>
    cases o with
    | none => simp at hl
    | some y =>
      simp only [Option.toList_some, List.cons.injEq] at hl
      obtain ⟨rfl, rfl⟩ := hl
      exact ⟨_, rfl, Pend.single Option.none⟩
  | rle v k =>
    cases k with
    | zero => simp at hl
    | succ k =>
      rw [List.replicate_succ, List.cons.injEq] at hl
      obtain ⟨rfl, rfl⟩ := hl
      exact ⟨.rle x k, by simp [State.next], Pend.rle _ _⟩
  | bitpacked d q hI =>
    have hr : d.remaining ≠ 0 := by
      intro h0; rw [h0] at hl; simp at hl
    obtain ⟨d', q', h1, h2, h3, h4⟩ := Bitpack.next_spec n (.inr (.inr (.inl rfl))) hn
      (by omega) d q hI hr
    have hrem : d.remaining = d'.remaining + 1 := by omega
    rw [hrem, List.range_succ_eq_map, List.map_cons, List.cons.injEq, List.map_map] at hl
    obtain ⟨hx, hxs⟩ := hl
    refine ⟨.bitpacked d', ?_, ?_⟩
    · simp only [State.next, h1]
      rw [hx]; rfl
    · have e : xs = (List.range d'.remaining).map fun k => Bitpack.fieldBV 4 n q' (d'.idx + k) := by
        rw [hxs]
        apply List.map_congr_left
        intro k _
        rw [h4, Function.comp_apply]
        congr 1; omega
      rw [e]
      exact Pend.bitpacked d' q' h2

theorem State.next_nil {n : Nat} {st : State} (h : Pend n st []) :
    ∃ st', st.next = .ok (Option.none, st') := by
  generalize hl : ([] : List U32) = l at h
  cases h with
  | single o =>
    cases o with
    | none => exact ⟨_, rfl⟩
    | some y => simp at hl
  | rle v k =>
    cases k with
    | zero => exact ⟨.rle v 0, by simp [State.next]⟩
    | succ k => simp [List.replicate_succ] at hl
  | bitpacked d q hI =>
    have hr : d.remaining = 0 := by
      have := congrArg List.length hl; simpa using this.symm
    exact ⟨.bitpacked d, by simp [State.next, Bitpack.Decoder.next, hr]⟩

theorem readNext_spec (n : Nat) (hn : 0 < n) (hn32 : n ≤ 32) (v : List Byte) (rem : Nat) :
    (Runs.next ⟨v, n⟩ = .panic ∧ readNext ⟨v, n⟩ rem = .panic) ∨
    (∃ d, Runs.next ⟨v, n⟩ = .ok (none, d) ∧ readNext ⟨v, n⟩ rem = .ok (.none, d)) ∨
    (∃ run d st, Runs.next ⟨v, n⟩ = .ok (some run, d) ∧ readNext ⟨v, n⟩ rem = .ok (st, d) ∧
      Pend n st (runValues n rem run)) := by
  unfold readNext
  cases hr : Runs.next ⟨v, n⟩ with
  | err e => exact absurd hr (Runs.next_ne_err _ _)
  | panic => simp
  | ok p =>
    obtain ⟨o, d⟩ := p
    have hnb := Runs.next_numBits _ _ _ hr
    simp only at hnb
    cases o with
    | none => right; left; exact ⟨d, rfl, rfl⟩
    | some run =>
      right; right
      cases run with
      | bitpacked p =>
        simp only [hnb]
        have hlen : min (p.length * 8 / n) rem * n ≤ 8 * p.length := by
          have := Nat.div_mul_le_self (p.length * 8) n
          have h2 : min (p.length * 8 / n) rem * n ≤ p.length * 8 / n * n :=
            Nat.mul_le_mul_right _ (Nat.min_le_left _ _)
          omega
        obtain ⟨b, h1, h2, h3, h4⟩ := Bitpack.tryNew_inv 4 n (min (p.length * 8 / n) rem)
          (.inr (.inr (.inl rfl))) hn (by omega) p hlen
        rw [h1]
        refine ⟨_, _, _, rfl, rfl, ?_⟩
        have := Pend.bitpacked b p h2
        rw [h3, h4] at this
        simpa [runValues] using this
      | rle bs k =>
        simp only
        by_cases hk : k = 1
        · subst hk
          exact ⟨_, _, _, rfl, rfl, by simpa [runValues] using Pend.single (some (rleValue bs))⟩
        · rw [if_neg hk]
          exact ⟨_, _, _, rfl, rfl, Pend.rle _ _⟩

/-- Meaning of a decoder state: everything `collect` will deliver. -/
inductive Sem (n : Nat) : Dec → Res (List U32) → Prop where
  | none (dec : Runs) (rem : Nat) : Sem n ⟨dec, .none, rem⟩ (.ok (List.replicate rem 0#32))
  | pend (v : List Byte) (st : State) (rem : Nat) (xs : List U32) (h : Pend n st xs) :
      Sem n ⟨⟨v, n⟩, st, rem⟩
        ((expand n (v.length + 1) v (rem - xs.length)).map' (xs.take rem ++ ·))

theorem Runs.eta (d : Runs) (n : Nat) (h : d.numBits = n) : d = ⟨d.values, n⟩ := by
  cases d; simp only at h; rw [h]

theorem nextFuel_spec {n : Nat} (hn : 0 < n) (hn32 : n ≤ 32) (fuel : Nat) (d : Dec)
    (R : Res (List U32)) (h : Sem n d R) (hr : d.remaining ≠ 0)
    (hf : d.decoder.values.length + 1 < fuel) :
    (d.nextFuel fuel = .panic ∧ R = .panic) ∨
    ∃ x d' R', d.nextFuel fuel = .ok (some x, d') ∧ Sem n d' R' ∧
      d'.remaining = d.remaining - 1 ∧ R = R'.map' (x :: ·) := by
  induction fuel generalizing d R with
  | zero => omega
  | succ fuel ih =>
    cases h with
    | none dec rem =>
      right
      simp only at hr
      refine ⟨0#32, ⟨dec, .none, rem - 1⟩, .ok (List.replicate (rem - 1) 0#32), ?_, Sem.none _ _, rfl, ?_⟩
      · simp [Dec.nextFuel, hr, State.next]
      · obtain ⟨m, rfl⟩ : ∃ m, rem = m + 1 := ⟨rem - 1, by omega⟩
        simp [Res.map', List.replicate_succ]
    | pend v st rem xs hp =>
      simp only at hr hf
      cases xs with
      | cons x xs =>
        obtain ⟨st', h1, h2⟩ := State.next_cons hn hn32 hp
        right
        refine ⟨x, ⟨⟨v, n⟩, st', rem - 1⟩, _, ?_, Sem.pend v st' (rem - 1) xs h2, rfl, ?_⟩
        · simp [Dec.nextFuel, hr, h1]
        · obtain ⟨m, rfl⟩ : ∃ m, rem = m + 1 := ⟨rem - 1, by omega⟩
          rw [List.length_cons, Nat.add_sub_add_right, Nat.add_sub_cancel]
          cases expand n (v.length + 1) v (m - xs.length) <;> simp [Res.map']
      | nil =>
        obtain ⟨st', h1⟩ := State.next_nil hp
        have hexp : expand n (v.length + 1) v (rem - ([] : List U32).length) =
            (match Runs.next ⟨v, n⟩ with
              | .ok (none, _) => .ok (List.replicate rem 0#32)
              | .ok (some run, d) =>
                (expand n v.length d.values (rem - (runValues n rem run).length)).map'
                  ((runValues n rem run).take rem ++ ·)
              | .err e => .err e
              | .panic => .panic) := by
          rw [List.length_nil, Nat.sub_zero, expand, if_neg hr]
        rw [hexp]
        rcases readNext_spec n hn hn32 v rem with ⟨h2, h3⟩ | ⟨d, h2, h3⟩ | ⟨run, d, st2, h2, h3, h4⟩
        · left
          simp [Dec.nextFuel, hr, h1, h3, h2, Res.map']
        · right
          rw [h2]
          refine ⟨0#32, ⟨d, .none, rem - 1⟩, .ok (List.replicate (rem - 1) 0#32), ?_,
            Sem.none _ _, rfl, ?_⟩
          · simp only [Dec.nextFuel, if_neg hr, h1, h3]
            cases fuel with
            | zero => omega
            | succ fuel => simp [Dec.nextFuel, hr, State.next]
          · obtain ⟨m, rfl⟩ : ∃ m, rem = m + 1 := ⟨rem - 1, by omega⟩
            simp [Res.map', List.replicate_succ]
        · have hd := Runs.next_dec _ _ _ h2
          simp only at hd
          have hsem := Sem.pend d.values st2 rem _ h4
          rw [← Runs.eta d n hd.2] at hsem
          have hstep : Dec.nextFuel (fuel + 1) ⟨⟨v, n⟩, st, rem⟩ = Dec.nextFuel fuel ⟨d, st2, rem⟩ := by
            simp only [Dec.nextFuel, if_neg hr, h1, h3]
          rw [hstep, h2]
          simp only
          have hR : ∀ (r : Res (List U32)), Res.map' (List.take rem [] ++ ·) r = r := by
            intro r; cases r <;> simp [Res.map']
          rw [hR, expand_fuel n v.length (d.values.length + 1) _ _ (by omega) (by omega)]
          exact ih _ _ hsem hr (by simp only; omega)

theorem drain_sem {n : Nat} (hn : 0 < n) (hn32 : n ≤ 32) (r fuel : Nat) (hf : r < fuel) (d : Dec)
    (R : Res (List U32)) (h : Sem n d R) (hr : d.remaining = r) :
    drain Dec.next fuel d = R := by
  induction r generalizing fuel d R with
  | zero =>
    cases fuel with
    | zero => omega
    | succ fuel =>
      have h1 : drain Dec.next (fuel + 1) d = .ok [] := by
        simp [drain, Dec.next, Dec.nextFuel, hr]
      rw [h1]
      cases h with
      | none dec rem => simp only at hr; simp [hr]
      | pend v st rem xs hp => simp only at hr; simp [hr, expand, Res.map']
  | succ r ih =>
    cases fuel with
    | zero => omega
    | succ fuel =>
      rcases nextFuel_spec hn hn32 (d.decoder.values.length + 2) d R h (by omega) (by omega) with
        ⟨h1, h2⟩ | ⟨x, d', R', h1, h2, h3, h4⟩
      · rw [drain, Dec.next, h1, h2]
      · rw [drain, Dec.next, h1]
        simp only
        rw [ih fuel (by omega) d' R' h2 (by omega), h4]

theorem decode_eq (n : Nat) (hn : 0 < n) (hn32 : n ≤ 32) (data : List Byte) (N : Nat) :
    decode data n N =
      if Runs.next ⟨data, n⟩ = .panic then .panic else expand n (data.length + 1) data N := by
  unfold decode Dec.tryNew
  have hexp : expand n (data.length + 1) data N =
      if N = 0 then .ok [] else
        (match Runs.next ⟨data, n⟩ with
          | .ok (none, _) => .ok (List.replicate N 0#32)
          | .ok (some run, d) =>
            (expand n data.length d.values (N - (runValues n N run).length)).map'
              ((runValues n N run).take N ++ ·)
          | .err e => .err e
          | .panic => .panic) := by
    rw [expand]
  rcases readNext_spec n hn hn32 data N with ⟨h2, h3⟩ | ⟨d, h2, h3⟩ | ⟨run, d, st2, h2, h3, h4⟩
  · rw [h3, h2]; rfl
  · rw [h3, hexp, h2, if_neg (by simp)]
    simp only
    rw [drain_sem hn hn32 N _ (by omega) _ _ (Sem.none d N) rfl]
    split
    · rename_i h; simp [h]
    · rfl
  · have hd := Runs.next_dec _ _ _ h2
    simp only at hd
    have hsem := Sem.pend d.values st2 N _ h4
    rw [← Runs.eta d n hd.2] at hsem
    rw [h3, hexp, h2, if_neg (by simp)]
    simp only
    rw [drain_sem hn hn32 N _ (by omega) _ _ hsem rfl]
    split
    · rename_i h; subst h; simp [expand, Res.map']
    · rw [expand_fuel n data.length (d.values.length + 1) _ _ (by omega) (by omega)]

theorem decode_zero (data : List Byte) (N : Nat) : decode data 0 N = .ok (List.replicate N 0#32) := by
  have h : Dec.tryNew data 0 N = .ok ⟨⟨data, 0⟩, .none, N⟩ := by
    simp [Dec.tryNew, readNext, Runs.next]
  unfold decode
  rw [h]
  simp only
  have : ∀ N fuel, N < fuel → drain Dec.next fuel ⟨⟨data, 0⟩, .none, N⟩ = .ok (List.replicate N 0#32) := by
    intro N
    induction N with
    | zero =>
      intro fuel hf
      cases fuel with
      | zero => omega
      | succ fuel => simp [drain, Dec.next, Dec.nextFuel]
    | succ N ih =>
      intro fuel hf
      cases fuel with
      | zero => omega
      | succ fuel =>
        simp only [drain, Dec.next, Dec.nextFuel, State.next]
        simp [ih fuel (by omega), Res.map', List.replicate_succ]
  exact this N _ (by omega)

theorem expand_length (n f : Nat) (v : List Byte) (rem : Nat) (xs : List U32)
    (h : expand n f v rem = .ok xs) : xs.length = rem := by
  induction f generalizing v rem xs with
  | zero => simp [expand] at h
  | succ f ih =>
    rw [expand] at h
    split at h
    · simp only [Res.ok.injEq] at h; subst h; simp; omega
    · split at h
      · simp only [Res.ok.injEq] at h; subst h; simp
      · rename_i run d hr
        cases he : expand n f d.values (rem - (runValues n rem run).length) with
        | err e => rw [he] at h; simp [Res.map'] at h
        | panic => rw [he] at h; simp [Res.map'] at h
        | ok ys =>
          rw [he] at h
          simp only [Res.map', Res.ok.injEq] at h
          subst h
          rw [List.length_append, ih _ _ _ he, List.length_take]; omega
      · simp at h
      · simp at h

theorem expand_ne_err (n f : Nat) (v : List Byte) (rem : Nat) (e : Err) :
    expand n f v rem ≠ .err e := by
  induction f generalizing v rem e with
  | zero => simp [expand]
  | succ f ih =>
    rw [expand]
    split
    · simp
    · split
      · simp
      · rename_i run d hr
        cases he : expand n f d.values (rem - (runValues n rem run).length) with
        | err e' => exact absurd he (ih _ _ _)
        | panic => simp [Res.map']
        | ok ys => simp [Res.map']
      · rename_i e' hr
        exact absurd hr (Runs.next_ne_err _ _)
      · simp

end Pq.Rle
