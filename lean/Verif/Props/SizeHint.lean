import Verif.Lemmas.SizeHint
import Verif.Props.Deserialize
import Verif.Props.HybridRle
import Verif.Props.Delta
/-
C79: the iterators of the crate yield as many items as their `size_hint` says (`Spec.Exact`,
`Spec.ExactFrom`).
-/
namespace Pq.Props
open Spec Deser

/-- **C79** (decoders): in every state, however reached and whatever the bytes, the bitmap iterator,
the bit-packed decoder of every integer type, the hybrid RLE decoder (which declares itself an
`ExactSizeIterator`) and the delta decoder announce exactly the number of values they yield from there. -/
theorem C79_decoders :
    Exact Bitmap.Iter.step Bitmap.Iter.sizeHint ∧
    (∀ b : Nat, Exact (Bitpack.Decoder.next (b := b)) Bitpack.Decoder.sizeHint) ∧
    Exact Rle.Dec.next Rle.Dec.sizeHint ∧
    (∀ ck : Bool, Exact (Delta.Decoder.next ck) Delta.Decoder.sizeHint) := by
  refine ⟨?_, fun b => ?_, ?_, fun ck => ?_⟩
  · refine exact_of_count _ (fun it : Bitmap.Iter => it.remaining) fun it o it' h => ?_
    simp only [Bitmap.Iter.step, Bitmap.Iter.next, Res.ok.injEq] at h
    split at h
    · rename_i h0
      cases h
      exact ⟨by simp [h0], by omega⟩
    · rename_i h0
      split at h
      · split at h <;> (cases h; exact ⟨by simp [h0], rfl⟩)
      · cases h; exact ⟨by simp [h0], rfl⟩
  · refine exact_of_count _ (fun d : Bitpack.Decoder b => d.remaining) fun d o d' h => ?_
    unfold Bitpack.Decoder.next at h
    split at h
    · rename_i h0
      cases h
      exact ⟨by simp [h0], by omega⟩
    · rename_i h0
      split at h
      · cases h
      · dsimp only at h
        split at h
        · split at h
          · cases h; exact ⟨by simp [h0], rfl⟩
          · split at h
            · cases h; exact ⟨by simp [h0], rfl⟩
            · cases h
            · cases h
        · cases h; exact ⟨by simp [h0], rfl⟩
  · exact exact_of_count _ (fun d : Rle.Dec => d.remaining) fun d o d' h => C10_remaining_exact d d' o h
  · refine exact_of_count _ (fun d : Delta.Decoder => d.valuesRemaining) fun d o d' h => ?_
    unfold Delta.Decoder.next at h
    split at h
    · rename_i h0
      cases h
      exact ⟨by simp [h0], by omega⟩
    · rename_i h0
      dsimp only at h
      split at h
      · cases h; exact ⟨by simp [h0], rfl⟩
      · rw [Res.bind_eq_ok] at h
        obtain ⟨⟨delta, d1⟩, h1, h⟩ := h
        rw [Res.bind_eq_ok] at h
        obtain ⟨v, h2, h⟩ := h
        cases h
        refine ⟨by simp [h0], ?_⟩
        unfold Delta.Decoder.loadDelta at h1
        split at h1
        · cases h1
        · rw [Res.bind_eq_ok] at h1
          obtain ⟨⟨ob, blk⟩, h3, h1⟩ := h1
          dsimp only at h1
          split at h1
          · cases h1; rfl
          · rw [Res.bind_eq_ok] at h1
            obtain ⟨vals, h4, h1⟩ := h1
            rw [Res.bind_eq_ok] at h1
            obtain ⟨nb, h5, h1⟩ := h1
            rw [Res.bind_eq_ok] at h1
            obtain ⟨⟨o2, nb2⟩, h6, h1⟩ := h1
            dsimp only at h1
            split at h1
            · cases h1; rfl
            · cases h1

-- a decoder of two values in a run of five
example : ∃ d, Rle.Dec.tryNew [0x0a#8, 7#8] 8 2 = .ok d ∧ Yields Rle.Dec.next d [7#32, 7#32] ∧
    d.sizeHint = (2, some 2) :=
  ⟨_, rfl, Yields.of_drain 3 (by decide +kernel), rfl⟩

/-- **C79** (strings): over the plain encoding of any strings, created with their number (the number of
values of the page), the iterator announces the number of strings to come, at every point. -/
theorem C79_strings (items : List (List Byte)) (h : ∀ s ∈ items, s.length < 2 ^ 32)
    (stray : List Byte) (hs : stray.length < 4) :
    Yields PlainBytes.BinaryIter.step ⟨plainBytes items ++ stray, some items.length⟩ (items.map .ok) ∧
    ExactFrom PlainBytes.BinaryIter.step PlainBytes.BinaryIter.sizeHint
      ⟨plainBytes items ++ stray, some items.length⟩ := by
  have hy : ∀ items : List (List Byte), (∀ s ∈ items, s.length < 2 ^ 32) →
      Yields PlainBytes.BinaryIter.step ⟨plainBytes items ++ stray, some items.length⟩ (items.map .ok) := by
    intro items
    induction items with
    | nil =>
      intro h
      have := (C18_size_hint [] h stray hs).2
      exact .done (s' := ⟨plainBytes [] ++ stray, some 0⟩) (by
        simp only [PlainBytes.BinaryIter.step, this]; rfl)
    | cons s items ih =>
      intro h
      have := (C18_size_hint (s :: items) h stray hs).2
      exact .item (s' := ⟨plainBytes items ++ stray, some items.length⟩) (by
        simp only [PlainBytes.BinaryIter.step, this])
        (ih fun t ht => h t (List.mem_cons_of_mem _ ht))
  refine ⟨hy items h, ?_⟩
  have key : ∀ k (its : List (List Byte)) s', (∀ s ∈ its, s.length < 2 ^ 32) →
      After PlainBytes.BinaryIter.step ⟨plainBytes its ++ stray, some its.length⟩ k s' →
      ∃ rest : List (List Byte), (∀ s ∈ rest, s.length < 2 ^ 32) ∧
        s' = ⟨plainBytes rest ++ stray, some rest.length⟩ := by
    intro k
    induction k with
    | zero =>
      intro its s' hi ha
      cases ha
      exact ⟨its, hi, rfl⟩
    | succ k ih =>
      intro its s' hi ha
      cases ha with
      | call e ha =>
        have := (C18_size_hint its hi stray hs).2
        rw [PlainBytes.BinaryIter.step, this] at e
        cases its with
        | nil => cases e
        | cons t its =>
          simp only [Res.ok.injEq, Prod.mk.injEq] at e
          rw [← e.2] at ha
          exact ih its s' (fun t ht => hi t (List.mem_cons_of_mem _ ht)) ha
  intro k s' ha xs hx
  obtain ⟨rest, hr, rfl⟩ := key k items s' h ha
  rw [← (hy rest hr).unique hx]
  simp [PlainBytes.BinaryIter.sizeHint]

example : ∀ s ∈ [[1#8, 2#8], [], [3#8]], s.length < 2 ^ 32 := by decide

/-- **C79** (selected rows): over any iterator and any sorted, disjoint, non-empty intervals within its
items, the filtered iterator announces the number of selected items to come, at every point, in both
build profiles. -/
theorem C79_selected {σ α : Type} (ck : Bool) (next : σ → Res (Option α × σ)) (s : σ)
    (rows : List α) (ivs : List Interval) (hy : Yields next s rows) (hs : SortedFrom 0 ivs)
    (hw : Within rows.length ivs) (hne : ∀ iv ∈ ivs, 0 < iv.length) :
    ExactFrom (SliceIter.next ck next) SliceIter.sizeHint (SliceIter.new s ivs) := by
  obtain ⟨h1, h2⟩ := C21_slice_filtered_partial ck next s rows ivs hy hs hw hne
  refine exactFrom_of_count _ (fun it => it.totalLength) ?_ _ _ h1 h2
  intro it a it' e h0
  have hu : ∀ t, usub ck it.totalLength 1 = .ok t → t = it.totalLength - 1 := by
    intro t ht
    rw [usub, if_pos (by omega)] at ht
    cases ht; rfl
  unfold SliceIter.next at e
  split at e
  · split at e
    · cases e
    · rw [Res.bind_eq_ok] at e
      obtain ⟨skip, _, e⟩ := e
      rw [Res.bind_eq_ok] at e
      obtain ⟨cr, _, e⟩ := e
      rw [Res.bind_eq_ok] at e
      obtain ⟨t, ht, e⟩ := e
      rw [Res.bind_eq_ok] at e
      obtain ⟨⟨item, iter⟩, _, e⟩ := e
      cases e
      exact hu t ht
  · rw [Res.bind_eq_ok] at e
    obtain ⟨t, ht, e⟩ := e
    rw [Res.bind_eq_ok] at e
    obtain ⟨⟨item, iter⟩, _, e⟩ := e
    cases e
    exact hu t ht

example : Yields (Bitmap.Iter.step) ⟨[], 0xA5#8, 8, 1#8⟩ [true, false, true, false, false, true, false, true] ∧
    SortedFrom 0 [⟨1, 2⟩, ⟨6, 2⟩] ∧ Within 8 [⟨1, 2⟩, ⟨6, 2⟩] ∧
    ∀ iv ∈ ([⟨1, 2⟩, ⟨6, 2⟩] : List Interval), 0 < iv.length :=
  ⟨Yields.of_drain 9 (by rfl), by decide, forall_mem_of_all _ (by decide), forall_mem_of_all _ (by decide)⟩

/-- **C79** (runs of levels): over a legal stream of one-bit levels that covers the page, the length that
the iterator of runs announces is the number of levels of the runs to come: of all rows at first, and
less by the length of the run after each. -/
theorem C79_runs (rs : List Run) (stream : List Byte) (hs : RunStream 1 rs stream) (N : Nat)
    (hN : N ≤ (rs.flatMap (Run.values 1)).length) :
    (∃ runs, Yields RunIter.next (RunIter.new ⟨stream, 1⟩ N) runs ∧
      (RunIter.new ⟨stream, 1⟩ N).len = (runs.flatMap runBits).length) ∧
    ∀ (it it' : RunIter) (e : Encoded), it.next = .ok (some e, it') → it'.len + e.len = it.len := by
  refine ⟨?_, ?_⟩
  · obtain ⟨runs, h1, _, h3⟩ := C19_level_runs rs stream hs N
    refine ⟨runs, h1, ?_⟩
    rw [h3, List.length_map, List.length_take, Nat.min_eq_left hN]
    rfl
  · intro it it' e h
    unfold RunIter.next at h
    split at h
    · cases h
    · split at h
      · cases h
      · cases h
      · cases h
      · cases h
        simp only [RunIter.len, Encoded.len]
        omega
      · split at h
        · cases h
        · cases h
          simp only [RunIter.len, Encoded.len]
          omega

example : RunStream 1 [.rle 2 0, .packed 1 [0xA5#8]] [0x04, 0x00, 0x03, 0xA5] ∧
    9 ≤ ([.rle 2 0, .packed 1 [0xA5#8]].flatMap (Run.values 1)).length := ⟨exampleStream, by decide⟩

/-- **C79** (optional values): the adapter of validity and values announces what its validity does, and
that is exact whenever the validity's is. -/
theorem C79_optional {σ τ α : Type} (validity : σ → Res (Option Bool × σ))
    (values : τ → Res (Option α × τ)) (hint : σ → Nat × Option Nat) (h : Exact validity hint) :
    Exact (optionalNext validity values) (optionalHint hint) := by
  intro s xs hy
  have : ∃ bits, Yields validity s.1 bits ∧ bits.length = xs.length := by
    induction hy with
    | done e =>
      unfold optionalNext at e
      split at e
      · cases e
      · cases e
      · rename_i hv
        exact ⟨[], .done hv, rfl⟩
      · cases e
      · split at e <;> cases e
    | item e _ ih =>
      obtain ⟨bits, hb, hl⟩ := ih
      unfold optionalNext at e
      split at e
      · cases e
      · cases e
      · cases e
      · rename_i hv
        cases e
        exact ⟨false :: bits, .item hv hb, by simp [hl]⟩
      · rename_i hv
        split at e
        · cases e
        · cases e
        · cases e
          exact ⟨true :: bits, .item hv hb, by simp [hl]⟩
  obtain ⟨bits, hb, hl⟩ := this
  rw [optionalHint, h s.1 bits hb, hl]

example : Exact Bitmap.Iter.step Bitmap.Iter.sizeHint := C79_decoders.1

/-- **C79** (partial; booleans): full claim: the iterator of booleans over the levels of a page
(`HybridRleDecoderIter`) announces the number of booleans to come. Proved for levels that this library
writes, before the first call. Missing: from the first call on, the announcement is zero, whatever is
still to come; see `C79_violated`. -/
theorem C79_booleans_partial (bits : List Bool) (hlen : bits.length < 2 ^ 63) :
    ∃ lv, Rle.encodeBool bits = .ok lv ∧
      Yields (BoolIter.next RunIter.next) (BoolIter.new (RunIter.new ⟨lv, 1⟩ bits.length)) bits ∧
      (BoolIter.new (RunIter.new ⟨lv, 1⟩ bits.length)).sizeHint = (bits.length, some bits.length) := by
  obtain ⟨lv, h1, h2⟩ := C20_single_run_partial bits hlen
  exact ⟨lv, h1, h2, rfl⟩

example : Rle.encodeBool [true, false, true, true, false, false, false, false, true] =
    .ok [0x05#8, 0x0D#8, 0x01#8] := by decide +kernel

/-- **C79** is violated. The levels of a page of nine rows, as written by this library: after the first
boolean, the iterator announces that none is to come, and yields eight more. Of malformed pages: strings
are announced that are not there, and strings are yielded that were not announced. -/
theorem C79_violated :
    (∃ it it', BoolIter.next RunIter.next
        (BoolIter.new (RunIter.new ⟨[0x05#8, 0x0D#8, 0x01#8], 1⟩ 9)) = .ok (it, it') ∧
      it'.sizeHint = (0, some 0) ∧
      Yields (BoolIter.next RunIter.next) it'
        [false, true, true, false, false, false, false, true]) ∧
    (∃ it : PlainBytes.BinaryIter, it.sizeHint = (2, some 2) ∧
      Yields PlainBytes.BinaryIter.step it [.ok [9#8]]) ∧
    (∃ it : PlainBytes.BinaryIter, it.sizeHint = (1, some 1) ∧
      Yields PlainBytes.BinaryIter.step it [.ok [9#8], .ok []]) :=
  ⟨⟨_, _, rfl, rfl, Yields.of_drain 9 (by rfl)⟩,
    ⟨⟨[1, 0, 0, 0, 9], some 2⟩, rfl, Yields.of_drain 3 (by rfl)⟩,
    ⟨⟨[1, 0, 0, 0, 9, 0, 0, 0, 0], some 1⟩, rfl, Yields.of_drain 3 (by rfl)⟩⟩

end Pq.Props
