import Verif.Model.Client
import Verif.Lemmas.PageState
import Verif.Lemmas.DeltaBytes
/-
Lemmas about the client code.
-/
namespace Pq.Client
open Pq.Spec Pq.Deser

theorem yields_items {α : Type} (xs : List α) : Yields itemsNext (xs.map Res.ok) xs := by
  induction xs with
  | nil => exact .done rfl
  | cons x xs ih => exact .item rfl ih

/-- Repeated calls of `next` return these items, perhaps more. -/
inductive Gives {σ α : Type} (next : σ → Res (Option α × σ)) : σ → List α → Prop where
  | nil (s : σ) : Gives next s []
  | item {s s' : σ} {a : α} {xs : List α} :
      next s = .ok (some a, s') → Gives next s' xs → Gives next s (a :: xs)

theorem Gives.of_yields {σ α : Type} {next : σ → Res (Option α × σ)} {s : σ} {xs : List α}
    (h : Yields next s xs) : Gives next s xs := by
  induction h with
  | done h => exact .nil _
  | item h _ ih => exact .item h ih

theorem Gives.of_yields_append {σ α : Type} {next : σ → Res (Option α × σ)} {s : σ} {xs ys : List α}
    (h : Yields next s (xs ++ ys)) : Gives next s xs := by
  induction xs generalizing s with
  | nil => exact .nil _
  | cons x xs ih =>
    rw [List.cons_append] at h
    cases h with
    | item h hr => exact .item h (ih hr)

theorem fillBits_ok {τ α : Type} (next : τ → Res (Option α × τ)) (bits : List Bool) (t : τ) (vs : List α)
    (h : Gives next t vs) (hc : bits.count true ≤ vs.length) :
    ∃ t', fillBits next bits t = .ok (assemble bits vs, t') ∧ Gives next t' (vs.drop (bits.count true)) := by
  induction bits generalizing t vs with
  | nil => exact ⟨t, rfl, by simpa using h⟩
  | cons b bits ih =>
    cases b with
    | false =>
      obtain ⟨t', h1, h2⟩ := ih t vs h (by simpa using hc)
      refine ⟨t', ?_, by simpa using h2⟩
      simp only [fillBits, h1, Res.ok_bind, assemble]
    | true =>
      cases h with
      | nil => simp at hc
      | @item _ t1 x xs h hr =>
        obtain ⟨t', h1, h2⟩ := ih t1 xs hr (by simpa using hc)
        refine ⟨t', ?_, by simpa using h2⟩
        simp only [fillBits, h, h1, Res.ok_bind, assemble]

theorem takeValues_ok {τ α : Type} (next : τ → Res (Option α × τ)) (n : Nat) (t : τ) (vs : List α)
    (h : Gives next t vs) (hc : n ≤ vs.length) :
    ∃ t', takeValues next n t = .ok (assemble (List.replicate n true) vs, t') ∧
      Gives next t' (vs.drop n) := by
  induction n generalizing t vs with
  | zero => exact ⟨t, rfl, by simpa using h⟩
  | succ n ih =>
    cases h with
    | nil => simp at hc
    | @item _ t1 x xs h hr =>
      obtain ⟨t', h1, h2⟩ := ih t1 xs hr (by simpa using hc)
      refine ⟨t', ?_, by simpa using h2⟩
      simp only [takeValues, h, h1, Res.ok_bind, List.replicate_succ, assemble]

theorem assemble_false {α : Type} (n : Nat) (vs : List α) :
    assemble (List.replicate n false) vs = List.replicate n none := by
  induction n with
  | zero => rfl
  | succ n ih => simp [List.replicate_succ, assemble, ih]

theorem deserializeRun_ok {τ α : Type} (next : τ → Res (Option α × τ)) (run : Encoded) (hok : RunOk run)
    (t : τ) (vs : List α) (h : Gives next t vs) (hc : (runBits run).count true ≤ vs.length) :
    ∃ t', deserializeRun next run t = .ok (assemble (runBits run) vs, t') ∧
      Gives next t' (vs.drop ((runBits run).count true)) := by
  cases run with
  | bitmap bytes n =>
    obtain ⟨it, h1, h2⟩ := Bitmap.collect_eq bytes 0 n (by simpa [RunOk] using hok)
    obtain ⟨t', h3, h4⟩ := fillBits_ok next _ t vs h hc
    refine ⟨t', ?_, h4⟩
    simp only [deserializeRun, h1, Res.ok_bind, h2]
    rw [← h3]
    simp only [runBits, Nat.zero_add]
  | repeated b n =>
    cases b with
    | false =>
      refine ⟨t, ?_, by simpa [runBits, List.count_replicate] using h⟩
      simp [deserializeRun, runBits, assemble_false]
    | true =>
      simp only [runBits, List.count_replicate_self] at hc
      obtain ⟨t', h1, h2⟩ := takeValues_ok next n t vs h hc
      refine ⟨t', ?_, by simpa [runBits] using h2⟩
      simp [deserializeRun, h1, runBits]

theorem deserializeRuns_ok {τ α : Type} (next : τ → Res (Option α × τ)) (it : RunIter)
    (runs : List Encoded) (hy : Yields RunIter.next it runs) (hok : ∀ e ∈ runs, RunOk e)
    (t : τ) (vs : List α) (h : Gives next t vs) (hc : (runs.flatMap runBits).count true ≤ vs.length)
    (fuel : Nat) (hf : runs.length < fuel) :
    deserializeRuns next fuel it t = .ok (assemble (runs.flatMap runBits) vs) := by
  induction hy generalizing t vs fuel with
  | done hn =>
    cases fuel with
    | zero => simp at hf
    | succ fuel => simp only [deserializeRuns, hn, List.flatMap_nil, assemble]
  | @item s s' run runs hn _ ih =>
    cases fuel with
    | zero => simp at hf
    | succ fuel =>
      rw [List.flatMap_cons, List.count_append] at hc
      obtain ⟨t', h1, h2⟩ := deserializeRun_ok next run (hok _ (by simp)) t vs h (by omega)
      have := ih (fun e he => hok e (by simp [he])) t' _ h2 (by rw [List.length_drop]; omega) fuel
        (by simpa using hf)
      simp only [deserializeRuns, hn, h1, Res.ok_bind, this, List.flatMap_cons]
      rw [assemble_append]

theorem runs_length (it : RunIter) (runs : List Encoded) (hy : Yields RunIter.next it runs) :
    runs.length ≤ it.iter.values.length := by
  induction hy with
  | done h => simp
  | @item s s' run runs hn _ ih =>
    have : s'.iter.values.length < s.iter.values.length := by
      unfold RunIter.next at hn
      split at hn
      · simp at hn
      · cases hr : s.iter.next with
        | err e => rw [hr] at hn; simp at hn
        | panic => rw [hr] at hn; simp at hn
        | ok p =>
          rw [hr] at hn
          obtain ⟨o, d⟩ := p
          cases o with
          | none => simp at hn
          | some r =>
            have hd := (Rle.Runs.next_dec _ _ _ hr).1
            cases r with
            | bitpacked pack =>
              simp only [Res.ok.injEq, Prod.mk.injEq] at hn
              rw [← hn.2]; exact hd
            | rle value length =>
              cases value with
              | nil => simp at hn
              | cons v vs =>
                simp only [Res.ok.injEq, Prod.mk.injEq] at hn
                rw [← hn.2]; exact hd
    simp only [List.length_cons]
    omega

/-- The levels of a page: runs that expand to these bits. -/
def LevelsAre (lv : List Byte) (bits : List Bool) : Prop :=
  ∃ runs, Yields RunIter.next (RunIter.new ⟨lv, 1⟩ bits.length) runs ∧ (∀ e ∈ runs, RunOk e) ∧
    runs.flatMap runBits = bits

theorem deserializeBitmap_ok {τ α : Type} (next : τ → Res (Option α × τ)) (lv : List Byte)
    (bits : List Bool) (hl : LevelsAre lv bits) (t : τ) (vs : List α) (h : Gives next t vs)
    (hc : bits.count true ≤ vs.length) :
    deserializeBitmap next (RunIter.new ⟨lv, 1⟩ bits.length) t = .ok (assemble bits vs) := by
  obtain ⟨runs, h1, h2, h3⟩ := hl
  have := deserializeRuns_ok next _ runs h1 h2 t vs h (by rw [h3]; exact hc) (lv.length + 1)
    (by have := runs_length _ _ h1; simp only [RunIter.new] at this; omega)
  rw [h3] at this
  exact this

theorem deserializeLevels_ok {τ α : Type} (next : τ → Res (Option α × τ)) (dec : Rle.Dec) (max : Nat)
    (levels : List Rle.U32) (hl : Yields Rle.Dec.next dec levels) (t : τ) (vs : List α)
    (h : Gives next t vs) (hc : (levels.map fun x => decide (x.toNat = max)).count true ≤ vs.length) :
    Yields (levelsNext max next) (dec, t) (assemble (levels.map fun x => decide (x.toNat = max)) vs) := by
  induction hl generalizing t vs with
  | done hn => exact .done (by simp only [levelsNext, hn, Res.ok_bind]; rfl)
  | @item s s' x xs hn _ ih =>
    by_cases hx : x.toNat = max
    · simp only [List.map_cons, hx, decide_true] at hc ⊢
      cases h with
      | nil => simp at hc
      | @item _ t1 v vs h hr =>
        refine .item (s' := (s', t1)) ?_ (ih t1 vs hr (by simpa using hc))
        simp only [levelsNext, hn, Res.ok_bind, hx, if_true, h]
    · have e : decide (x.toNat = max) = false := by simpa using hx
      simp only [List.map_cons, e] at hc ⊢
      refine .item (s' := (s', t)) ?_ (ih t vs h (by simpa using hc))
      simp only [levelsNext, hn, Res.ok_bind]
      rw [if_neg hx]

theorem indexed_gives {α : Type} (value : Nat → Res α) (dec : Rle.Dec) (idx more : List Rle.U32) (vs : List α)
    (hl : Yields Rle.Dec.next dec (idx ++ more)) (hv : idx.map (fun i => value i.toNat) = vs.map .ok) :
    Gives (indexedNext value) dec vs := by
  induction idx generalizing dec vs with
  | nil =>
    cases vs with
    | nil => exact .nil _
    | cons v vs => simp at hv
  | cons x idx ih =>
    cases vs with
    | nil => simp at hv
    | cons v vs =>
      simp only [List.map_cons, List.cons.injEq] at hv
      rw [List.cons_append] at hl
      cases hl with
      | @item _ s' _ _ hn hl =>
        refine .item (s' := s') ?_ (ih s' vs hl hv.2)
        simp only [indexedNext, hn, Res.ok_bind, hv.1]

theorem indexed_yields {α : Type} (value : Nat → Res α) (dec : Rle.Dec) (idx : List Rle.U32) (vs : List α)
    (hl : Yields Rle.Dec.next dec idx) (hv : idx.map (fun i => value i.toNat) = vs.map .ok) :
    Yields (indexedNext value) dec vs := by
  induction hl generalizing vs with
  | done hn =>
    cases vs with
    | nil => exact .done (by simp only [indexedNext, hn, Res.ok_bind]; rfl)
    | cons v vs => simp at hv
  | @item s s' x xs hn _ ih =>
    cases vs with
    | nil => simp at hv
    | cons v vs =>
      simp only [List.map_cons, List.cons.injEq] at hv
      refine .item (s' := s') ?_ (ih vs hv.2)
      simp only [indexedNext, hn, Res.ok_bind, hv.1]

end Pq.Client
