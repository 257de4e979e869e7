import Verif.Lemmas.Client
import Verif.Spec.Client
import Verif.Lemmas.Types
import Verif.Lemmas.Statistics2
import Verif.Lemmas.Intervals
import Verif.Props.HybridRle
/-
From pages to arrays.
-/
namespace Pq.Client
open Pq.Spec Pq.Deser

theorem yields_list' {α : Type} (xs : List α) :
    Yields (fun xs : List α => Res.ok (xs.head?, xs.tail)) xs xs := by
  induction xs with
  | nil => exact .done rfl
  | cons x xs ih => exact .item rfl ih

theorem yields_bytes (items : List (List Byte)) (h : ∀ s ∈ items, s.length < 2 ^ 32) (l : Option Nat) :
    Yields bytesNext ⟨plainBytes items, l⟩ items := by
  induction items generalizing l with
  | nil => exact .done (by simp [bytesNext, PlainBytes.BinaryIter.next, plainBytes]; rfl)
  | cons s items ih =>
    have h4 : (leBytes 4 s.length).length = 4 := by simp [leBytes]
    have e : plainBytes (s :: items) = leBytes 4 s.length ++ (s ++ plainBytes items) := by
      simp [plainBytes]
    have hn : leNat (leBytes 4 s.length) = s.length := by
      rw [Rle.leNat_leBytes]
      exact Nat.mod_eq_of_lt (h s (List.mem_cons_self ..))
    refine .item (s' := ⟨plainBytes items, l.map (· - 1)⟩) ?_ (ih (fun s hs => h s (by simp [hs])) _)
    unfold bytesNext PlainBytes.BinaryIter.next
    rw [e]
    simp [h4, hn]

theorem yields_bits (vals : List Byte) (bs : List Bool) (hl : bs.length ≤ 8 * vals.length)
    (hb : ∀ i, i < bs.length → bitAt vals i = bs.getD i false) :
    ∃ it, Bitmap.Iter.new vals 0 (vals.length * 8) = .ok it ∧
      Gives (fun s => Res.ok (Bitmap.Iter.next s)) it bs := by
  obtain ⟨it, h1, h2⟩ := Bitmap.collect_eq vals 0 (vals.length * 8) (by omega)
  refine ⟨it, h1, ?_⟩
  have h3 := Yields.of_drain _ h2
  have e : bs ++ (((List.range (vals.length * 8)).map fun k => bitAt vals (0 + k)).drop bs.length) =
      (List.range (vals.length * 8)).map fun k => bitAt vals (0 + k) := by
    conv_rhs => rw [← List.take_append_drop bs.length
      ((List.range (vals.length * 8)).map fun k => bitAt vals (0 + k))]
    congr 1
    apply List.ext_getElem
    · simp; omega
    · intro i hi hi'
      simp [hb i hi, hi]
  rw [← e] at h3
  exact Gives.of_yields_append h3


theorem levelsAre_of_stream (lv : List Byte) (bits : List Bool) (h : LevelStream lv bits) :
    LevelsAre lv bits := by
  obtain ⟨rs, h1, h2⟩ := h
  obtain ⟨encs, h3, h4, h5⟩ := runIter_yields rs lv h1 bits.length 0 (by omega)
  refine ⟨encs, h3, h4, ?_⟩
  rw [h5]; simpa using h2

theorem levelsAre_of_encode (lv : List Byte) (bits : List Bool) (hlen : bits.length < 2 ^ 63)
    (h : Rle.encodeBool bits = .ok lv) : LevelsAre lv bits := by
  obtain ⟨lv', h1, es, h2, h3, h4, -⟩ := runIter_encodeBool bits hlen
  rw [h] at h1
  simp only [Res.ok.injEq] at h1
  subst h1
  exact ⟨es, h2, h3, h4⟩

theorem splitBuffer_length (page : DataPage) (rep lv vals : List Byte)
    (h : splitBuffer page = .ok (rep, lv, vals)) : vals.length ≤ page.buffer.length := by
  unfold splitBuffer at h
  split at h
  · obtain ⟨rest, h1, h2⟩ := (splitBufferV1_iff _ _ _ _ _ _).1 h
    unfold PrefixedV1 at h1 h2
    have : vals.length ≤ rest.length := by
      split at h2
      · rw [h2.2]; simp only [List.length_append]; omega
      · rw [h2.2]
    have : rest.length ≤ page.buffer.length := by
      split at h1
      · rw [h1.2]; simp only [List.length_append]; omega
      · rw [h1.2]
    omega
  · unfold splitBufferV2 at h
    simp only [Res.bind_eq_ok] at h
    obtain ⟨n, -, m, -, a, -, b, -, c, h3, h4⟩ := h
    simp only [Res.ok.injEq, Prod.mk.injEq] at h4
    unfold slice at h3
    split at h3
    · injection h3 with h3
      rw [← h4.2.2, ← h3]
      simp
    · simp at h3

/-- What the levels of a page, as its decoder gives them, say about which items are there. -/
inductive ValidityIs (bits : List Bool) : DefLevels → Prop where
  | bitmap (lv : List Byte) (h : LevelsAre lv bits) :
      ValidityIs bits (.bitmap (RunIter.new ⟨lv, 1⟩ bits.length))
  | levels (dec : Rle.Dec) (max : Nat) (levels : List Rle.U32) (hy : Yields Rle.Dec.next dec levels)
      (hr : levels.length ≤ dec.remaining) (hb : levels.map (fun x => decide (x.toNat = max)) = bits) :
      ValidityIs bits (.levels dec max)

theorem ValidityIs.deserialize {τ α : Type} (next : τ → Res (Option α × τ)) {v : DefLevels} {bits : List Bool}
    (hv : ValidityIs bits v) (t : τ) (vs : List α) (h : Gives next t vs) (hc : bits.count true ≤ vs.length) :
    deserializeOptional v next t = .ok (assemble bits vs) := by
  cases hv with
  | bitmap lv hl => exact deserializeBitmap_ok next lv bits hl t vs h hc
  | levels dec max levels hy hr hb =>
    subst hb
    have := deserializeLevels_ok next dec max levels hy t vs h hc
    have hlen : (assemble (levels.map fun x => decide (x.toNat = max)) vs).length ≤ dec.remaining := by
      rw [assemble_length]; simpa using hr
    exact this.drain _ (by omega)

/-- A page of an optional column without repetition: its levels tell the items `bits` to be there, its
values section is `vals`. -/
structure OptionalPage (page : DataPage) (bits : List Bool) (vals : List Byte) : Prop where
  flat : OptionalLeaf page.descriptor
  rows : page.numValues = bits.length
  split : ∃ rep lv, splitBuffer page = .ok (rep, lv, vals)
  validity : ∃ v, DefLevels.tryNew page = .ok v ∧ ValidityIs bits v

/-- A page of a required column without repetition. -/
structure RequiredPage (page : DataPage) (n : Nat) (vals : List Byte) : Prop where
  flat : RequiredLeaf page.descriptor
  rows : page.numValues = n
  split : ∃ rep lv, splitBuffer page = .ok (rep, lv, vals)

namespace OptionalPage
variable {page : DataPage} {bits : List Bool} {vals : List Byte}

theorem isOptional (h : OptionalPage page bits vals) : isOptional page = true := by
  simp [Deser.isOptional, h.flat.repetition]

/-- A column that is not nested: one-bit levels. -/
theorem ofFlat (hf : FlatOptional page.descriptor) (hn : page.numValues = bits.length)
    (h : ∃ rep lv, splitBuffer page = .ok (rep, lv, vals) ∧ LevelsAre lv bits) : OptionalPage page bits vals := by
  obtain ⟨rep, lv, h1, h2⟩ := h
  refine ⟨⟨hf.repetition, hf.repeated⟩, hn, ⟨rep, lv, h1⟩, _, ?_, .bitmap lv h2⟩
  unfold DefLevels.tryNew
  rw [h1]
  simp only [Res.ok_bind]
  rw [if_pos hf.definition, hn]

theorem optional {ι π α : Type} (next : ι → Res (Option α × ι)) (fuel : Nat) (value : π → Nat → Res α)
    {v : DefLevels} (hv : ValidityIs bits v) (t : ι) (vs : List α)
    (hg : Gives next t vs) (hc : bits.count true ≤ vs.length) :
    stateToVec next fuel value (.optional v t) = .ok (assemble bits vs) :=
  hv.deserialize next t vs hg hc

theorem optionalDict {ι π α : Type} (next : ι → Res (Option α × ι)) (fuel : Nat) (value : π → Nat → Res α)
    {v : DefLevels} (hv : ValidityIs bits v) (dec : Rle.Dec) (d : π)
    (vs : List α) (hg : Gives (indexedNext (value d)) dec vs) (hc : bits.count true ≤ vs.length) :
    stateToVec next fuel value (.optionalDictionary v dec d) = .ok (assemble bits vs) :=
  hv.deserialize _ dec vs hg hc

end OptionalPage

theorem RequiredPage.isOptional {page : DataPage} {n : Nat} {vals : List Byte}
    (h : RequiredPage page n vals) : Deser.isOptional page = false := by
  simp only [Deser.isOptional, h.flat.repetition]; rfl

theorem column_eq {α : Type} (col : List (Option α)) :
    assemble (col.map Option.isSome) (col.filterMap id) = col := assemble_isSome col

theorem nativeToLe_eq (b : Nat) (x : BitVec (8 * b)) : nativeToLe b x = leBytes b x.toNat := by
  apply leNat_inj
  · rw [nativeToLe, toLe_length, Rle.leBytes_length]
  · rw [nativeToLe, leNat_toLe, Rle.leNat_leBytes]
    have := x.isLt
    rw [Nat.mod_eq_of_lt]
    rw [show (256 : Nat) = 2 ^ 8 by rfl, ← Nat.pow_mul]
    exact this

theorem native_vec (ck : Bool) (b : Nat) (hb : 0 < b) (page : DataPage)
    (dict : Option (List (BitVec (8 * b)))) (col : List (Option (BitVec (8 * b))))
    (henc : page.encoding = .ok .plain) (hsel : page.selectedRows = none)
    (h : OptionalPage page (col.map Option.isSome) ((col.filterMap id).flatMap fun x => leBytes b x.toNat)) :
    nativeToVec ck b page dict = .ok col := by
  obtain ⟨rep, lv', hs⟩ := h.split
  have hcast : nativeCast b page = .ok ((col.filterMap id).map .ok) :=
    nativeCast_ok b hb page rep lv' _ (by rw [hs, funext (nativeToLe_eq b)])
  obtain ⟨v, h1, h2⟩ := h.validity
  have hst : nativeState b page dict = .ok (.optional v
      ((col.filterMap id).map .ok)) := by
    unfold nativeState
    rw [henc]
    simp only [Res.ok_bind, h.isOptional, if_true, h1, hcast]
  unfold nativeToVec
  rw [hsel, hst]
  simp only [h.flat.repeated, Res.assert, decide_true, if_true, Res.ok_bind]
  rw [OptionalPage.optional itemsNext _ _ h2 _ (col.filterMap id) (.of_yields (yields_items _)) (by rw [count_isSome])]
  rw [column_eq]


theorem native_required (ck : Bool) (b : Nat) (hb : 0 < b) (page : DataPage)
    (dict : Option (List (BitVec (8 * b)))) (xs : List (BitVec (8 * b)))
    (henc : page.encoding = .ok .plain) (hsel : page.selectedRows = none)
    (h : RequiredPage page xs.length (xs.flatMap fun x => leBytes b x.toNat)) :
    nativeToVec ck b page dict = .ok (xs.map some) := by
  obtain ⟨rep, lv, hs⟩ := h.split
  have hcast : nativeCast b page = .ok (xs.map .ok) :=
    nativeCast_ok b hb page rep lv _ (by rw [hs, funext (nativeToLe_eq b)])
  have hst : nativeState b page dict = .ok (.required (xs.map .ok)) := by
    unfold nativeState
    rw [henc]
    simp [Res.ok_bind, h.isOptional, hcast, Res.map']
  have hlen : xs.length ≤ page.buffer.length := by
    have := splitBuffer_length page _ _ _ hs
    have hl : (xs.flatMap fun x => leBytes b x.toNat).length = xs.length * b := by
      simp [List.length_flatMap, Rle.leBytes_length, List.map_const']
    have : xs.length * 1 ≤ xs.length * b := Nat.mul_le_mul_left _ hb
    omega
  unfold nativeToVec
  rw [hsel, hst]
  simp only [h.flat.repeated, Res.assert, decide_true, if_true, Res.ok_bind, stateToVec]
  rw [(yields_items xs).drain _ (by omega)]
  rfl

theorem binary_vec (page : DataPage) (dict : Option (List (List Byte))) (col : List (Option (List Byte)))
    (henc : page.encoding = .ok .plain) (hlt : ∀ s ∈ col.filterMap id, s.length < 2 ^ 32)
    (h : OptionalPage page (col.map Option.isSome) (plainBytes (col.filterMap id))) :
    binaryToVec page dict = .ok col := by
  obtain ⟨rep, lv', hs⟩ := h.split
  obtain ⟨v, h1, h2⟩ := h.validity
  have hst : binaryState page dict = .ok (.optional v
      ⟨plainBytes (col.filterMap id), none⟩) := by
    unfold binaryState
    rw [henc]
    simp only [Res.ok_bind, h.isOptional, if_true, h1, hs]
  unfold binaryToVec
  rw [hst]
  simp only [h.flat.repeated, Res.assert, decide_true, if_true, Res.ok_bind]
  rw [OptionalPage.optional bytesNext _ _ h2 _ (col.filterMap id) (.of_yields (yields_bytes _ hlt _)) (by rw [count_isSome])]
  rw [column_eq]

theorem plainBytes_length (items : List (List Byte)) : items.length ≤ (plainBytes items).length := by
  induction items with
  | nil => simp
  | cons s items ih =>
    have : plainBytes (s :: items) = leBytes 4 s.length ++ s ++ plainBytes items := by simp [plainBytes]
    rw [this]
    simp only [List.length_append, Rle.leBytes_length, List.length_cons]
    omega

theorem binary_required (page : DataPage) (dict : Option (List (List Byte))) (xs : List (List Byte))
    (henc : page.encoding = .ok .plain) (hlt : ∀ s ∈ xs, s.length < 2 ^ 32)
    (h : RequiredPage page xs.length (plainBytes xs)) :
    binaryToVec page dict = .ok (xs.map some) := by
  obtain ⟨rep, lv, hs⟩ := h.split
  have hst : binaryState page dict = .ok (.required ⟨plainBytes xs, some page.numValues⟩) := by
    unfold binaryState
    rw [henc]
    simp [Res.ok_bind, h.isOptional, hs]
  have hlen : xs.length ≤ page.buffer.length := by
    have := splitBuffer_length page _ _ _ hs
    have := plainBytes_length xs
    omega
  unfold binaryToVec
  rw [hst]
  simp only [h.flat.repeated, Res.assert, decide_true, if_true, Res.ok_bind, stateToVec]
  rw [(yields_bytes xs hlt _).drain _ (by omega)]
  rfl

theorem fixed_vec (page : DataPage) (dict : Option (List Byte × Nat)) (col : List (Option (List Byte)))
    (size : Nat) (hsize : 0 < size) (hlen : ∀ s ∈ col.filterMap id, s.length = size)
    (ht : page.descriptor.primitiveType.physicalType = .fixedLenByteArray size)
    (henc : page.encoding = .ok .plain)
    (h : OptionalPage page (col.map Option.isSome) (col.filterMap id).flatten) :
    fixedToVec page dict = .ok col := by
  obtain ⟨rep, lv', hs⟩ := h.split
  obtain ⟨v, h1, h2⟩ := h.validity
  have hst : fixedState page dict = .ok (.optional v
      (col.filterMap id)) := by
    unfold fixedState
    rw [ht]
    simp only [henc, Res.ok_bind, h.isOptional, if_true, h1, hs,
      fixedIter_ok size hsize (col.filterMap id) hlen _ rfl]
  unfold fixedToVec
  rw [hst]
  simp only [h.flat.repeated, Res.assert, decide_true, if_true, Res.ok_bind]
  rw [OptionalPage.optional _ _ _ h2 _ (col.filterMap id) (.of_yields (yields_list' _)) (by rw [count_isSome])]
  rw [column_eq]

theorem flatten_length_ge (size : Nat) (hsize : 0 < size) (xs : List (List Byte))
    (h : ∀ s ∈ xs, s.length = size) : xs.length ≤ xs.flatten.length := by
  induction xs with
  | nil => simp
  | cons x xs ih =>
    have := ih (fun s hs => h s (by simp [hs]))
    have := h x (by simp)
    simp only [List.flatten_cons, List.length_cons, List.length_append]
    omega

theorem fixed_required (page : DataPage) (dict : Option (List Byte × Nat)) (xs : List (List Byte))
    (size : Nat) (hsize : 0 < size) (hlen : ∀ s ∈ xs, s.length = size)
    (ht : page.descriptor.primitiveType.physicalType = .fixedLenByteArray size)
    (henc : page.encoding = .ok .plain) (h : RequiredPage page xs.length xs.flatten) :
    fixedToVec page dict = .ok (xs.map some) := by
  obtain ⟨rep, lv, hs⟩ := h.split
  have hst : fixedState page dict = .ok (.required xs) := by
    unfold fixedState
    rw [ht]
    simp [henc, Res.ok_bind, h.isOptional, hs, fixedIter_ok size hsize xs hlen _ rfl, Res.map']
  have hl : xs.length ≤ page.buffer.length := by
    have := splitBuffer_length page _ _ _ hs
    have := flatten_length_ge size hsize xs hlen
    omega
  unfold fixedToVec
  rw [hst]
  simp only [h.flat.repeated, Res.assert, decide_true, if_true, Res.ok_bind, stateToVec]
  rw [(yields_list' xs).drain _ (by omega)]
  rfl

theorem boolean_vec (page : DataPage) (col : List (Option Bool)) (vals : List Byte)
    (henc : page.encoding = .ok .plain)
    (hv : (col.filterMap id).length ≤ 8 * vals.length ∧
      ∀ i, i < (col.filterMap id).length → bitAt vals i = (col.filterMap id).getD i false)
    (h : OptionalPage page (col.map Option.isSome) vals) :
    booleanToVec page = .ok col := by
  obtain ⟨rep, lv', hs⟩ := h.split
  obtain ⟨v, h1, h2⟩ := h.validity
  obtain ⟨it, h3, h4⟩ := yields_bits vals _ hv.1 hv.2
  have hst : booleanState page = .ok (.optional v it) := by
    unfold booleanState
    rw [henc]
    simp only [Res.ok_bind, h.isOptional, if_true, h1, hs, h3]
  unfold booleanToVec
  rw [hst]
  simp only [h.flat.repeated, Res.assert, decide_true, if_true, Res.ok_bind]
  rw [show deserializeOptional v
      (fun s => .ok (Bitmap.Iter.next s)) it = .ok (assemble (col.map Option.isSome) (col.filterMap id)) from
    h2.deserialize _ it _ h4 (by rw [count_isSome]), column_eq]

theorem boolean_required (page : DataPage) (xs : List Bool) (vals : List Byte)
    (henc : page.encoding = .ok .plain)
    (hv : xs.length ≤ 8 * vals.length ∧ ∀ i, i < xs.length → bitAt vals i = xs.getD i false)
    (h : RequiredPage page xs.length vals) :
    booleanToVec page = .ok (xs.map some) := by
  obtain ⟨rep, lv, hs⟩ := h.split
  have hst : booleanState page = .ok (.required vals page.numValues) := by
    unfold booleanState
    rw [henc]
    simp [Res.ok_bind, h.isOptional, hs]
  obtain ⟨it, h1, h2⟩ := Bitmap.collect_eq vals 0 xs.length (by omega)
  unfold booleanToVec
  rw [hst]
  simp only [h.flat.repeated, Res.assert, decide_true, if_true, Res.ok_bind, h.rows, h1, h2, Res.map',
    Res.ok.injEq]
  congr 1
  apply List.ext_getElem
  · simp
  · intro i hi hi'
    simp [hv.2 i hi', hi']


/-! ### Dictionaries -/

theorem index_yields (page : DataPage) (rep lv vals : List Byte) (idx : List Nat)
    (hs : splitBuffer page = .ok (rep, lv, vals)) (hi : IndexStream vals idx)
    (hn : idx.length ≤ page.numValues) :
    ∃ dec us more, dictIndicesDecoder page = .ok dec ∧ Yields Rle.Dec.next dec (us ++ more) ∧
      us.map BitVec.toNat = idx ∧ us.length + more.length = page.numValues ∧ dec.remaining = page.numValues := by
  obtain ⟨w, body, rfl, hw, hcase⟩ := hi
  have key : ∃ ys, Rle.decode body w.toNat page.numValues = .ok ys ∧ ys.length = page.numValues ∧
      (ys.take idx.length).map BitVec.toNat = idx := by
    rcases hcase with ⟨h0, hz⟩ | ⟨h0, rs, h1, h2⟩
    · refine ⟨List.replicate page.numValues 0#32, by rw [h0]; exact Rle.decode_zero _ _, by simp, ?_⟩
      rw [List.take_replicate, Nat.min_eq_left hn, List.map_replicate]
      symm
      rw [List.eq_replicate_iff]
      exact ⟨rfl, fun i hi => hz i hi⟩
    · obtain ⟨xs, h3, h4⟩ := Props.C11_runs w.toNat h0 hw rs body h1 page.numValues
      have hl := congrArg List.length h4
      simp only [List.length_map, List.length_take, List.length_append, List.length_replicate] at hl
      refine ⟨xs, h3, by omega, ?_⟩
      rw [List.map_take, h4, List.take_take, Nat.min_eq_left hn, List.take_append_of_le_length, h2]
      have := congrArg List.length h2
      rw [List.length_take] at this
      omega
  obtain ⟨ys, h1, h2, h3⟩ := key
  obtain ⟨dec, h4, h5⟩ := tryNew_yields h1
  refine ⟨dec, ys.take idx.length, ys.drop idx.length, ?_, by rwa [List.take_append_drop], h3, ?_, ?_⟩
  · unfold dictIndicesDecoder
    rw [hs]
    simp only [Res.ok_bind]
    rw [if_neg (by omega)]
    exact h4
  · simp only [List.length_take, List.length_drop]; omega
  · unfold Rle.Dec.tryNew at h4
    split at h4
    · injection h4 with h4; rw [← h4]
    · simp at h4
    · simp at h4

/-- The items of a page with dictionary encoding, optional column. -/
theorem dictionary_vec {ι π α : Type} (next : ι → Res (Option α × ι)) (fuel : Nat) (value : π → Nat → Res α)
    (page : DataPage) (d : π) (col : List (Option Nat)) (vals : List Byte) (vs : List α)
    (h : OptionalPage page (col.map Option.isSome) vals) (hi : IndexStream vals (col.filterMap id))
    (hv : (col.filterMap id).map (value d) = vs.map .ok) :
    (do let state ← dictionaryState page d
        stateToVec next fuel value state) = .ok (assemble (col.map Option.isSome) vs) := by
  obtain ⟨rep, lv', hs⟩ := h.split
  have hlen := h.rows
  rw [List.length_map] at hlen
  obtain ⟨dec, us, more, h1, h2, h3, h4, -⟩ := index_yields page rep lv' vals _ hs hi
    (by rw [hlen]; exact List.length_filterMap_le _ _)
  obtain ⟨v, h5, h6⟩ := h.validity
  have hl : (col.filterMap id).length = vs.length := by
    have := congrArg List.length hv
    simpa using this
  have hst : dictionaryState (ι := ι) page d =
      .ok (.optionalDictionary v dec d) := by
    unfold dictionaryState
    rw [if_pos h.isOptional, h5, h1]; rfl
  rw [hst]
  simp only [Res.ok_bind]
  refine OptionalPage.optionalDict next fuel value h6 dec d vs ?_ (by rw [count_isSome, hl])
  exact indexed_gives (value d) dec us more vs h2 (by rw [← hv, ← h3, List.map_map]; rfl)

/-- The same, required column. -/
theorem dictionary_required {ι π α : Type} (next : ι → Res (Option α × ι)) (fuel : Nat)
    (value : π → Nat → Res α) (page : DataPage) (d : π) (idx : List Nat) (vals : List Byte) (vs : List α)
    (h : RequiredPage page idx.length vals) (hi : IndexStream vals idx)
    (hv : idx.map (value d) = vs.map .ok) :
    (do let state ← dictionaryState page d
        stateToVec next fuel value state) = .ok (vs.map some) := by
  obtain ⟨rep, lv, hs⟩ := h.split
  obtain ⟨dec, us, more, h1, h2, h3, h4, h5⟩ := index_yields page rep lv vals _ hs hi (by rw [h.rows])
  have hst : dictionaryState (ι := ι) page d = .ok (.requiredDictionary dec d) := by
    unfold dictionaryState
    rw [if_neg (by simp [h.isOptional]), h1]; rfl
  have hus : us.length = idx.length := by rw [← h3, List.length_map]
  have hmore : more = [] := by
    apply List.eq_nil_of_length_eq_zero
    have := h.rows
    omega
  rw [hmore, List.append_nil] at h2
  have hy := indexed_yields (value d) dec us vs h2 (by rw [← hv, ← h3, List.map_map]; rfl)
  have hl : vs.length = idx.length := by
    have := congrArg List.length hv
    simpa using this.symm
  rw [hst]
  simp only [Res.ok_bind, stateToVec]
  rw [hy.drain _ (by rw [h5, h.rows]; omega)]
  rfl

theorem pick_eq {α : Type} (entries : List α) (col : List (Option Nat))
    (hc : ∀ i, some i ∈ col → i < entries.length) :
    ∃ vs, (col.filterMap id).map (dictValue entries) = vs.map .ok ∧
      assemble (col.map Option.isSome) vs = pickFrom (entries.map some) col := by
  induction col with
  | nil => exact ⟨[], rfl, rfl⟩
  | cons o col ih =>
    obtain ⟨vs, h1, h2⟩ := ih (fun i hi => hc i (by simp [hi]))
    cases o with
    | none => exact ⟨vs, by simpa using h1, by simpa [assemble, pickFrom] using h2⟩
    | some i =>
      have hi := hc i (by simp)
      refine ⟨entries[i] :: vs, ?_, ?_⟩
      · rw [List.filterMap_cons_some (f := id) rfl, List.map_cons, h1]
        simp only [List.map_cons, dictValue, List.getElem?_eq_getElem hi]
      · simp only [List.map_cons, Option.isSome_some, assemble, h2, pickFrom, Option.bind_some,
          List.getElem?_map, List.getElem?_eq_getElem hi, Option.map_some, Option.join_some]

theorem readNativeDict_ok (b : Nat) (hb : 0 < b) (xs : List (BitVec (8 * b)))
    (h : (xs.flatMap fun x => leBytes b x.toNat).length < 2 ^ 64) :
    readNativeDict b (xs.flatMap fun x => leBytes b x.toNat) xs.length = .ok xs := by
  have hl : (xs.flatMap fun x => leBytes b x.toNat).length = xs.length * b := by
    simp [List.length_flatMap, Rle.leBytes_length, List.map_const']
  unfold readNativeDict
  rw [hl] at h
  simp only [Nat.mod_eq_of_lt h, hl, Nat.le_refl, if_true]
  rw [List.take_of_length_le (by omega)]
  have e := chunksExact_concat b hb (xs.map (nativeToLe b)) (by
    intro s hs
    obtain ⟨x, _, rfl⟩ := List.mem_map.1 hs
    exact toLe_length b x)
  rw [← funext (nativeToLe_eq b), List.flatMap_def, e, List.map_map]
  rw [collectRes_ok_iff]
  apply List.map_congr_left
  intro x _
  simp only [Function.comp, nativeDecode, nativeToLe, toLe_length, if_true, fromLe_toLe]

theorem readBinaryDict_ok (xs : List (List Byte)) (h : ∀ s ∈ xs, s.length < 2 ^ 32) :
    readBinaryDict xs.length (plainBytes xs) = .ok xs := by
  induction xs with
  | nil => rfl
  | cons s xs ih =>
    have e : plainBytes (s :: xs) = leBytes 4 s.length ++ (s ++ plainBytes xs) := by simp [plainBytes]
    have h4 : (leBytes 4 s.length).length = 4 := by simp [leBytes]
    rw [List.length_cons, readBinaryDict, e, take4_leBytes _ (h s (by simp))]
    simp only [List.drop_append_of_le_length (Nat.le_of_eq h4.symm), List.drop_of_length_le (Nat.le_of_eq h4),
      List.nil_append]
    rw [if_neg (by simp)]
    simp [ih (fun s hs => h s (by simp [hs])), Res.map']

theorem readFixedDict_ok (size : Nat) (xs : List (List Byte)) (h : ∀ s ∈ xs, s.length = size)
    (hl : xs.flatten.length < 2 ^ 64) : readFixedDict xs.flatten size xs.length = .ok xs.flatten := by
  have e : xs.flatten.length = size * xs.length := by
    rw [List.length_flatten, List.map_congr_left (g := fun _ => size) (by simpa using h), List.map_const',
      List.sum_replicate_nat, Nat.mul_comm]
  unfold readFixedDict
  rw [e] at hl
  have : min (size * xs.length) (2 ^ 64 - 1) = size * xs.length := by omega
  simp only [this, e, Nat.le_refl, if_true]
  rw [List.take_of_length_le (by omega)]

theorem fixedDictValue_ok (size : Nat) (hsize : 0 < size) (xs : List (List Byte)) (h : ∀ s ∈ xs, s.length = size) (i : Nat)
    (hi : i < xs.length) : fixedDictValue (xs.flatten, size) i = dictValue xs i := by
  have e := chunksExact_concat size hsize xs h
  have hl : xs.flatten.length = xs.length * size := by
    rw [List.length_flatten, List.map_congr_left (g := fun _ => size) (by simpa using h), List.map_const',
      List.sum_replicate_nat]
  have he : (chunksExact size xs.flatten)[i]? = some xs[i] := by rw [e, List.getElem?_eq_getElem hi]
  unfold chunksExact at he
  rw [List.getElem?_map, hl, Nat.mul_div_cancel _ hsize, List.getElem?_range hi] at he
  simp only [Option.map_some, Option.some.injEq] at he
  have hle : (i + 1) * size ≤ xs.length * size := Nat.mul_le_mul_right _ hi
  unfold fixedDictValue dictValue
  simp only [hl, hle, if_true, he, List.getElem?_eq_getElem hi]


/-! ### Arrays -/

/-- A dictionary that was read for a column of this type, or none. -/
def DictOk (dict : Option Dict) (t : PhysicalType) : Prop :=
  ∀ d, dict = some d → ∃ page, deserializeDict page t = .ok d

theorem expect_int32 (dict : Option Dict) (h : DictOk dict .int32) :
    ∃ o, expectDict Dict.asInt32 dict = .ok o := by
  cases dict with
  | none => exact ⟨none, rfl⟩
  | some d =>
    obtain ⟨page, hp⟩ := h d rfl
    obtain ⟨x, -, rfl⟩ := map'_ok _ _ _ hp
    exact ⟨some x, rfl⟩

theorem expect_int64 (dict : Option Dict) (h : DictOk dict .int64) :
    ∃ o, expectDict Dict.asInt64 dict = .ok o := by
  cases dict with
  | none => exact ⟨none, rfl⟩
  | some d =>
    obtain ⟨page, hp⟩ := h d rfl
    obtain ⟨x, -, rfl⟩ := map'_ok _ _ _ hp
    exact ⟨some x, rfl⟩

theorem expect_int96 (dict : Option Dict) (h : DictOk dict .int96) :
    ∃ o, expectDict Dict.asInt96 dict = .ok o := by
  cases dict with
  | none => exact ⟨none, rfl⟩
  | some d =>
    obtain ⟨page, hp⟩ := h d rfl
    obtain ⟨x, -, rfl⟩ := map'_ok _ _ _ hp
    exact ⟨some x, rfl⟩

theorem expect_float (dict : Option Dict) (h : DictOk dict .float) :
    ∃ o, expectDict Dict.asFloat dict = .ok o := by
  cases dict with
  | none => exact ⟨none, rfl⟩
  | some d =>
    obtain ⟨page, hp⟩ := h d rfl
    obtain ⟨x, -, rfl⟩ := map'_ok _ _ _ hp
    exact ⟨some x, rfl⟩

theorem expect_double (dict : Option Dict) (h : DictOk dict .double) :
    ∃ o, expectDict Dict.asDouble dict = .ok o := by
  cases dict with
  | none => exact ⟨none, rfl⟩
  | some d =>
    obtain ⟨page, hp⟩ := h d rfl
    obtain ⟨x, -, rfl⟩ := map'_ok _ _ _ hp
    exact ⟨some x, rfl⟩

theorem expect_byteArray (dict : Option Dict) (h : DictOk dict .byteArray) :
    ∃ o, expectDict Dict.asByteArray dict = .ok o := by
  cases dict with
  | none => exact ⟨none, rfl⟩
  | some d =>
    obtain ⟨page, hp⟩ := h d rfl
    obtain ⟨x, -, rfl⟩ := map'_ok _ _ _ hp
    exact ⟨some x, rfl⟩

theorem expect_fixed (dict : Option Dict) (size : Nat) (h : DictOk dict (.fixedLenByteArray size)) :
    ∃ o, expectDict Dict.asFixed dict = .ok o := by
  cases dict with
  | none => exact ⟨none, rfl⟩
  | some d =>
    obtain ⟨page, hp⟩ := h d rfl
    obtain ⟨x, -, rfl⟩ := map'_ok _ _ _ hp
    exact ⟨some (x, size), rfl⟩

theorem array_vec (ck : Bool) (page : DataPage) (dict : Option Dict) (array : Array) (vals : List Byte)
    (ht : HasType array page.descriptor.primitiveType.physicalType)
    (hd : DictOk dict page.descriptor.primitiveType.physicalType)
    (henc : page.encoding = .ok .plain) (hsel : page.selectedRows = none)
    (hv : PlainValues array vals) (h : OptionalPage page (arrayBits array) vals) :
    pageToArray ck page dict = .ok array := by
  generalize hp : page.descriptor.primitiveType.physicalType = t at ht hd
  cases array with
  | int32 xs =>
    cases t <;> simp only [HasType] at ht
    obtain ⟨o, ho⟩ := expect_int32 dict hd
    simp only [PlainValues] at hv
    subst hv
    simp only [pageToArray, hp, ho, Res.ok_bind, native_vec ck 4 (by decide) page o xs henc hsel h, Res.map']
  | int64 xs =>
    cases t <;> simp only [HasType] at ht
    obtain ⟨o, ho⟩ := expect_int64 dict hd
    simp only [PlainValues] at hv
    subst hv
    simp only [pageToArray, hp, ho, Res.ok_bind, native_vec ck 8 (by decide) page o xs henc hsel h, Res.map']
  | int96 xs =>
    cases t <;> simp only [HasType] at ht
    obtain ⟨o, ho⟩ := expect_int96 dict hd
    simp only [PlainValues] at hv
    subst hv
    simp only [pageToArray, hp, ho, Res.ok_bind, native_vec ck 12 (by decide) page o xs henc hsel h, Res.map']
  | float xs =>
    cases t <;> simp only [HasType] at ht
    obtain ⟨o, ho⟩ := expect_float dict hd
    simp only [PlainValues] at hv
    subst hv
    simp only [pageToArray, hp, ho, Res.ok_bind, native_vec ck 4 (by decide) page o xs henc hsel h, Res.map']
  | double xs =>
    cases t <;> simp only [HasType] at ht
    obtain ⟨o, ho⟩ := expect_double dict hd
    simp only [PlainValues] at hv
    subst hv
    simp only [pageToArray, hp, ho, Res.ok_bind, native_vec ck 8 (by decide) page o xs henc hsel h, Res.map']
  | boolean xs =>
    cases t <;> simp only [HasType] at ht
    simp only [PlainValues] at hv
    simp only [pageToArray, hp, boolean_vec page xs vals henc hv h, Res.map']
  | binary xs =>
    cases t <;> simp only [HasType] at ht
    obtain ⟨o, ho⟩ := expect_byteArray dict hd
    obtain ⟨rfl, hl⟩ := hv
    simp only [pageToArray, hp, ho, Res.ok_bind, binary_vec page o xs henc hl h, Res.map']
  | fixedLenBinary xs =>
    cases t with
    | fixedLenByteArray size =>
      obtain ⟨o, ho⟩ := expect_fixed dict size hd
      simp only [PlainValues] at hv
      subst hv
      obtain ⟨hz, hl⟩ := ht
      simp only [pageToArray, hp, ho, Res.ok_bind, fixed_vec page o xs size hz hl hp henc h, Res.map']
    | _ => exact absurd ht (by simp [HasType])

theorem all_some {α : Type} (xs : List (Option α)) (h : ∀ b ∈ xs.map Option.isSome, b = true) :
    ∃ ys : List α, xs = ys.map some := by
  induction xs with
  | nil => exact ⟨[], rfl⟩
  | cons x xs ih =>
    obtain ⟨ys, rfl⟩ := ih (fun b hb => h b (by simp only [List.map_cons, List.mem_cons]; exact .inr hb))
    cases x with
    | none => exact absurd (h false (by simp)) (by decide)
    | some x => exact ⟨x :: ys, rfl⟩

theorem filterMap_some {α : Type} (ys : List α) : (ys.map some).filterMap id = ys := by
  induction ys with
  | nil => rfl
  | cons y ys ih => rw [List.map_cons, List.filterMap_cons_some (f := id) rfl, ih]

theorem array_required (ck : Bool) (page : DataPage) (dict : Option Dict) (array : Array) (vals : List Byte)
    (ht : HasType array page.descriptor.primitiveType.physicalType)
    (hd : DictOk dict page.descriptor.primitiveType.physicalType)
    (henc : page.encoding = .ok .plain) (hsel : page.selectedRows = none)
    (hv : PlainValues array vals) (hall : ∀ b ∈ arrayBits array, b = true)
    (h : RequiredPage page (arrayBits array).length vals) :
    pageToArray ck page dict = .ok array := by
  generalize hp : page.descriptor.primitiveType.physicalType = t at ht hd
  cases array with
  | int32 xs =>
    cases t <;> simp only [HasType] at ht
    obtain ⟨o, ho⟩ := expect_int32 dict hd
    simp only [PlainValues] at hv
    subst hv
    obtain ⟨ys, rfl⟩ := all_some xs hall
    simp only [filterMap_some, arrayBits, List.length_map] at *
    simp only [pageToArray, hp, ho, Res.ok_bind, native_required ck 4 (by decide) page o ys henc hsel h, Res.map']
  | int64 xs =>
    cases t <;> simp only [HasType] at ht
    obtain ⟨o, ho⟩ := expect_int64 dict hd
    simp only [PlainValues] at hv
    subst hv
    obtain ⟨ys, rfl⟩ := all_some xs hall
    simp only [filterMap_some, arrayBits, List.length_map] at *
    simp only [pageToArray, hp, ho, Res.ok_bind, native_required ck 8 (by decide) page o ys henc hsel h, Res.map']
  | int96 xs =>
    cases t <;> simp only [HasType] at ht
    obtain ⟨o, ho⟩ := expect_int96 dict hd
    simp only [PlainValues] at hv
    subst hv
    obtain ⟨ys, rfl⟩ := all_some xs hall
    simp only [filterMap_some, arrayBits, List.length_map] at *
    simp only [pageToArray, hp, ho, Res.ok_bind, native_required ck 12 (by decide) page o ys henc hsel h, Res.map']
  | float xs =>
    cases t <;> simp only [HasType] at ht
    obtain ⟨o, ho⟩ := expect_float dict hd
    simp only [PlainValues] at hv
    subst hv
    obtain ⟨ys, rfl⟩ := all_some xs hall
    simp only [filterMap_some, arrayBits, List.length_map] at *
    simp only [pageToArray, hp, ho, Res.ok_bind, native_required ck 4 (by decide) page o ys henc hsel h, Res.map']
  | double xs =>
    cases t <;> simp only [HasType] at ht
    obtain ⟨o, ho⟩ := expect_double dict hd
    simp only [PlainValues] at hv
    subst hv
    obtain ⟨ys, rfl⟩ := all_some xs hall
    simp only [filterMap_some, arrayBits, List.length_map] at *
    simp only [pageToArray, hp, ho, Res.ok_bind, native_required ck 8 (by decide) page o ys henc hsel h, Res.map']
  | boolean xs =>
    cases t <;> simp only [HasType] at ht
    simp only [PlainValues] at hv
    obtain ⟨ys, rfl⟩ := all_some xs hall
    simp only [filterMap_some, arrayBits, List.length_map] at *
    simp only [pageToArray, hp, boolean_required page ys vals henc hv h, Res.map']
  | binary xs =>
    cases t <;> simp only [HasType] at ht
    obtain ⟨o, ho⟩ := expect_byteArray dict hd
    obtain ⟨rfl, hl⟩ := hv
    obtain ⟨ys, rfl⟩ := all_some xs hall
    simp only [filterMap_some, arrayBits, List.length_map] at *
    simp only [pageToArray, hp, ho, Res.ok_bind, binary_required page o ys henc hl h, Res.map']
  | fixedLenBinary xs =>
    cases t with
    | fixedLenByteArray size =>
      obtain ⟨o, ho⟩ := expect_fixed dict size hd
      simp only [PlainValues] at hv
      subst hv
      obtain ⟨hz, hl⟩ := ht
      obtain ⟨ys, rfl⟩ := all_some xs hall
      simp only [filterMap_some, arrayBits, List.length_map] at *
      simp only [pageToArray, hp, ho, Res.ok_bind, fixed_required page o ys size hz hl hp henc h, Res.map']
    | _ => exact absurd ht (by simp [HasType])

/-- The two dictionary encodings. -/
theorem dict_dispatch {π : Type} (page : DataPage) (d : π) (e : Encoding)
    (he : page.encoding = .ok e) (hd : e = .plainDictionary ∨ e = .rleDictionary) :
    (∀ b, nativeState b page (some d) = dictionaryState page d) ∧
    binaryState page (some d) = dictionaryState page d ∧
    (∀ size, page.descriptor.primitiveType.physicalType = .fixedLenByteArray size →
      fixedState page (some d) = dictionaryState page d) := by
  rcases hd with rfl | rfl <;>
    exact ⟨fun b => by unfold nativeState; rw [he]; rfl, by unfold binaryState; rw [he]; rfl,
      fun size hs => by unfold fixedState; rw [hs]; simp only [he]; rfl⟩

/-- What the dictionary page of these entries is read into. -/
theorem dict_read (entries : Array) (page : DictPage) (t : PhysicalType) (ht : HasType entries t)
    (hb : t ≠ .boolean) (hall : ∀ b ∈ arrayBits entries, b = true) (hv : PlainValues entries page.buffer)
    (hn : page.numValues = (arrayBits entries).length) (hl : page.buffer.length < 2 ^ 64) :
    ∃ d, deserializeDict page t = .ok d ∧
    (match entries, d with
      | .int32 xs, .int32 ys => xs = ys.map some
      | .int64 xs, .int64 ys => xs = ys.map some
      | .int96 xs, .int96 ys => xs = ys.map some
      | .float xs, .float ys => xs = ys.map some
      | .double xs, .double ys => xs = ys.map some
      | .binary xs, .byteArray ys => xs = ys.map some
      | .fixedLenBinary xs, .fixedLenByteArray buf size => ∃ ys : List (List Byte), xs = ys.map some ∧
          buf = ys.flatten ∧ 0 < size ∧ t = .fixedLenByteArray size ∧ ∀ s ∈ ys, s.length = size
      | _, _ => False) := by
  cases entries with
  | int32 xs =>
    cases t <;> simp only [HasType] at ht
    obtain ⟨ys, rfl⟩ := all_some xs hall
    simp only [PlainValues, filterMap_some, arrayBits, List.length_map] at hv hn
    refine ⟨.int32 ys, ?_, rfl⟩
    rw [hv] at hl
    simp only [deserializeDict, hv, hn, readNativeDict_ok 4 (by decide) ys hl, Res.map']
  | int64 xs =>
    cases t <;> simp only [HasType] at ht
    obtain ⟨ys, rfl⟩ := all_some xs hall
    simp only [PlainValues, filterMap_some, arrayBits, List.length_map] at hv hn
    refine ⟨.int64 ys, ?_, rfl⟩
    rw [hv] at hl
    simp only [deserializeDict, hv, hn, readNativeDict_ok 8 (by decide) ys hl, Res.map']
  | int96 xs =>
    cases t <;> simp only [HasType] at ht
    obtain ⟨ys, rfl⟩ := all_some xs hall
    simp only [PlainValues, filterMap_some, arrayBits, List.length_map] at hv hn
    refine ⟨.int96 ys, ?_, rfl⟩
    rw [hv] at hl
    simp only [deserializeDict, hv, hn, readNativeDict_ok 12 (by decide) ys hl, Res.map']
  | float xs =>
    cases t <;> simp only [HasType] at ht
    obtain ⟨ys, rfl⟩ := all_some xs hall
    simp only [PlainValues, filterMap_some, arrayBits, List.length_map] at hv hn
    refine ⟨.float ys, ?_, rfl⟩
    rw [hv] at hl
    simp only [deserializeDict, hv, hn, readNativeDict_ok 4 (by decide) ys hl, Res.map']
  | double xs =>
    cases t <;> simp only [HasType] at ht
    obtain ⟨ys, rfl⟩ := all_some xs hall
    simp only [PlainValues, filterMap_some, arrayBits, List.length_map] at hv hn
    refine ⟨.double ys, ?_, rfl⟩
    rw [hv] at hl
    simp only [deserializeDict, hv, hn, readNativeDict_ok 8 (by decide) ys hl, Res.map']
  | boolean xs => cases t <;> simp only [HasType] at ht; exact absurd rfl hb
  | binary xs =>
    cases t <;> simp only [HasType] at ht
    obtain ⟨ys, rfl⟩ := all_some xs hall
    simp only [PlainValues, filterMap_some, arrayBits, List.length_map] at hv hn
    refine ⟨.byteArray ys, ?_, rfl⟩
    simp only [deserializeDict, hv.1, hn, readBinaryDict_ok ys hv.2, Res.map']
  | fixedLenBinary xs =>
    cases t with
    | fixedLenByteArray size =>
      obtain ⟨ys, rfl⟩ := all_some xs hall
      simp only [PlainValues, filterMap_some, arrayBits, List.length_map, HasType] at hv hn ht
      refine ⟨.fixedLenByteArray ys.flatten size, ?_, ys, rfl, rfl, ht.1, rfl, ht.2⟩
      rw [hv] at hl
      simp only [deserializeDict, hv, hn, readFixedDict_ok size ys ht.2 hl, Res.map']
    | _ => exact absurd ht (by simp [HasType])

theorem dict_vec (ck : Bool) (page : DataPage) (dp : DictPage) (e : Encoding) (entries : Array)
    (col : List (Option Nat)) (vals : List Byte)
    (ht : HasType entries page.descriptor.primitiveType.physicalType)
    (hb : page.descriptor.primitiveType.physicalType ≠ .boolean)
    (hall : ∀ b ∈ arrayBits entries, b = true) (hv : PlainValues entries dp.buffer)
    (hn : dp.numValues = (arrayBits entries).length) (hl : dp.buffer.length < 2 ^ 64)
    (henc : page.encoding = .ok e) (he : e = .plainDictionary ∨ e = .rleDictionary)
    (hsel : page.selectedRows = none)
    (hc : ∀ i, some i ∈ col → i < (arrayBits entries).length)
    (hi : IndexStream vals (col.filterMap id))
    (h : OptionalPage page (col.map Option.isSome) vals ∨
      ((∀ o ∈ col, o.isSome) ∧ RequiredPage page col.length vals)) :
    ∃ d, deserializeDict dp page.descriptor.primitiveType.physicalType = .ok d ∧
      pageToArray ck page (some d) = .ok (pick entries col) := by
  obtain ⟨d, hd, hm⟩ := dict_read entries dp _ ht hb hall hv hn hl
  refine ⟨d, hd, ?_⟩
  have hrep : page.descriptor.maxRepLevel = 0#16 := by
    rcases h with h | ⟨-, h⟩
    · exact h.flat.repeated
    · exact h.flat.repeated
  have key : ∀ {ι π α : Type} (next : ι → Res (Option α × ι)) (fuel : Nat) (value : π → Nat → Res α) (dd : π)
      (vs : List α) (hv : (col.filterMap id).map (value dd) = vs.map .ok),
      (do let state ← dictionaryState page dd
          stateToVec next fuel value state) = .ok (assemble (col.map Option.isSome) vs) := by
    intro ι π α next fuel value dd vs hv
    rcases h with h | ⟨hc, h⟩
    · exact dictionary_vec next fuel value page dd col vals vs h hi hv
    · obtain ⟨idx, rfl⟩ := all_some col (by
        intro b hb
        obtain ⟨o, ho, rfl⟩ := List.mem_map.1 hb
        exact hc o ho)
      rw [filterMap_some] at hv hi
      rw [List.length_map] at h
      rw [dictionary_required next fuel value page dd idx vals vs h hi hv]
      have hvl : idx.length = vs.length := by
        have := congrArg List.length hv
        simpa using this
      have : ∀ (idx : List Nat) (vs : List α), idx.length = vs.length →
          vs.map some = assemble ((idx.map some).map Option.isSome) vs := by
        intro idx
        induction idx with
        | nil => intro vs h; cases vs with
          | nil => rfl
          | cons v vs => simp at h
        | cons i idx ih => intro vs h; cases vs with
          | nil => simp at h
          | cons v vs => simp only [List.map_cons, Option.isSome_some, assemble]; rw [← ih vs (by simpa using h)]
      rw [this idx vs hvl]
  cases entries with
  | int32 xs =>
    cases d <;> simp only at hm
    rename_i ys
    subst hm
    generalize hp : page.descriptor.primitiveType.physicalType = t at ht hd
    cases t <;> simp only [HasType] at ht
    obtain ⟨vs, h1, h2⟩ := pick_eq ys col (by simpa [arrayBits] using hc)
    have := key (ι := List (Res (BitVec (8 * 4)))) itemsNext (page.buffer.length + 1) dictValue ys vs h1
    rw [← (dict_dispatch page ys e henc he).1 4, h2] at this
    simp only [pageToArray, hp, expectDict, Dict.asInt32, Res.ok_bind, nativeToVec, hrep, Res.assert, decide_true,
      if_true, hsel, this, Res.map', pick]
  | int64 xs =>
    cases d <;> simp only at hm
    rename_i ys
    subst hm
    generalize hp : page.descriptor.primitiveType.physicalType = t at ht hd
    cases t <;> simp only [HasType] at ht
    obtain ⟨vs, h1, h2⟩ := pick_eq ys col (by simpa [arrayBits] using hc)
    have := key (ι := List (Res (BitVec (8 * 8)))) itemsNext (page.buffer.length + 1) dictValue ys vs h1
    rw [← (dict_dispatch page ys e henc he).1 8, h2] at this
    simp only [pageToArray, hp, expectDict, Dict.asInt64, Res.ok_bind, nativeToVec, hrep, Res.assert, decide_true,
      if_true, hsel, this, Res.map', pick]
  | int96 xs =>
    cases d <;> simp only at hm
    rename_i ys
    subst hm
    generalize hp : page.descriptor.primitiveType.physicalType = t at ht hd
    cases t <;> simp only [HasType] at ht
    obtain ⟨vs, h1, h2⟩ := pick_eq ys col (by simpa [arrayBits] using hc)
    have := key (ι := List (Res (BitVec (8 * 12)))) itemsNext (page.buffer.length + 1) dictValue ys vs h1
    rw [← (dict_dispatch page ys e henc he).1 12, h2] at this
    simp only [pageToArray, hp, expectDict, Dict.asInt96, Res.ok_bind, nativeToVec, hrep, Res.assert, decide_true,
      if_true, hsel, this, Res.map', pick]
  | float xs =>
    cases d <;> simp only at hm
    rename_i ys
    subst hm
    generalize hp : page.descriptor.primitiveType.physicalType = t at ht hd
    cases t <;> simp only [HasType] at ht
    obtain ⟨vs, h1, h2⟩ := pick_eq ys col (by simpa [arrayBits] using hc)
    have := key (ι := List (Res (BitVec (8 * 4)))) itemsNext (page.buffer.length + 1) dictValue ys vs h1
    rw [← (dict_dispatch page ys e henc he).1 4, h2] at this
    simp only [pageToArray, hp, expectDict, Dict.asFloat, Res.ok_bind, nativeToVec, hrep, Res.assert, decide_true,
      if_true, hsel, this, Res.map', pick]
  | double xs =>
    cases d <;> simp only at hm
    rename_i ys
    subst hm
    generalize hp : page.descriptor.primitiveType.physicalType = t at ht hd
    cases t <;> simp only [HasType] at ht
    obtain ⟨vs, h1, h2⟩ := pick_eq ys col (by simpa [arrayBits] using hc)
    have := key (ι := List (Res (BitVec (8 * 8)))) itemsNext (page.buffer.length + 1) dictValue ys vs h1
    rw [← (dict_dispatch page ys e henc he).1 8, h2] at this
    simp only [pageToArray, hp, expectDict, Dict.asDouble, Res.ok_bind, nativeToVec, hrep, Res.assert, decide_true,
      if_true, hsel, this, Res.map', pick]
  | boolean xs => cases d <;> simp only at hm
  | binary xs =>
    cases d <;> simp only at hm
    rename_i ys
    subst hm
    generalize hp : page.descriptor.primitiveType.physicalType = t at ht hd
    cases t <;> simp only [HasType] at ht
    obtain ⟨vs, h1, h2⟩ := pick_eq ys col (by simpa [arrayBits] using hc)
    have := key bytesNext (page.buffer.length + 1) dictValue ys vs h1
    rw [← (dict_dispatch page ys e henc he).2.1, h2] at this
    simp only [pageToArray, hp, expectDict, Dict.asByteArray, Res.ok_bind, binaryToVec, hrep, Res.assert,
      decide_true, if_true, this, Res.map', pick]
  | fixedLenBinary xs =>
    cases d <;> simp only at hm
    rename_i buf size
    obtain ⟨ys, rfl, rfl, hz, hp, hs⟩ := hm
    obtain ⟨vs, h1, h2⟩ := pick_eq ys col (by simpa [arrayBits] using hc)
    have := key (fun xs : List (List Byte) => .ok (xs.head?, xs.tail)) (page.buffer.length + 1) fixedDictValue
      (ys.flatten, size) vs (by
        rw [← h1]
        apply List.map_congr_left
        intro i hi
        exact fixedDictValue_ok size hz ys hs i (by
          have := hc i (by simpa using hi)
          simpa [arrayBits] using this))
    rw [← (dict_dispatch page (ys.flatten, size) e henc he).2.2 size hp, h2] at this
    simp only [pageToArray, hp, expectDict, Dict.asFixed, Res.ok_bind, fixedToVec, hrep, Res.assert,
      decide_true, if_true, this, Res.map', pick]

end Pq.Client
