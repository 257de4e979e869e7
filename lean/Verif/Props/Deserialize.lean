import Verif.Lemmas.Types
import Verif.Lemmas.Util
import Verif.Props.HybridRle
/-
Properties C19–C24 (`deserialize`) and C32 (splitting a page).
-/
namespace Pq.Props
open Pq.Spec Pq.Deser

/-! ### C32 -/

private def leaf (rep : Repetition) (pt : PhysicalType) : PrimitiveType :=
  { fieldInfo := { name := "a", repetition := rep, id := none }, logicalType := none, convertedType := none, physicalType := pt }

private def v1Page (buffer : List Byte) (n : I32) (encoding : I32) (pt : PhysicalType) : DataPage :=
  { header := .v1 { numValues := n, encoding, definitionLevelEncoding := 3#32, repetitionLevelEncoding := 3#32, statistics := none }
    buffer, selectedRows := none
    descriptor := { primitiveType := leaf .optional pt, maxDefLevel := 1#16, maxRepLevel := 0#16 } }

private def v2Page (buffer : List Byte) (n d r : I32) : DataPage :=
  { header := .v2 { numValues := n, encoding := 0#32, numNulls := 0#32, numRows := n, definitionLevelsByteLength := d, repetitionLevelsByteLength := r, isCompressed := none, statistics := none }
    buffer, selectedRows := none
    descriptor := { primitiveType := leaf .optional .int32, maxDefLevel := 1#16, maxRepLevel := 0#16 } }

/-- **C32** V1 pages: splitting succeeds with `(rep, def, values)` exactly when the buffer is the
concatenation prescribed by the format; every other buffer is an out-of-spec error, never a
panic. -/
theorem C32_split_v1 (page : DataPage) (h : Thrift.DataPageHeader) (hh : page.header = .v1 h)
    (hrep : 0 ≤ page.descriptor.maxRepLevel.toInt) (hdef : 0 ≤ page.descriptor.maxDefLevel.toInt) :
    (∀ rep def' values, splitBuffer page = .ok (rep, def', values) ↔
      LayoutV1 (page.descriptor.maxRepLevel ≠ 0#16) (page.descriptor.maxDefLevel ≠ 0#16)
        rep def' values page.buffer) ∧
    splitBuffer page ≠ .panic ∧ ∀ e, splitBuffer page = .err e → e = .oos := by
  have key : ∀ x : BitVec 16, 0 ≤ x.toInt → decide (0 < x.toInt) = decide (x ≠ 0#16) := by
    intro x hx
    rw [decide_eq_decide]
    constructor
    · rintro h rfl; simp at h
    · intro h
      rcases Int.lt_or_eq_of_le hx with h1 | h1
      · exact h1
      · exact absurd (BitVec.eq_of_toInt_eq (by simpa using h1.symm)) h
  unfold splitBuffer
  rw [hh]
  simp only
  rw [key _ hrep, key _ hdef]
  exact ⟨fun rep def' values => splitBufferV1_iff _ _ _ _ _ _, splitBufferV1_ne_panic _ _ _⟩

example : (∃ h, (v1Page [2, 0, 0, 0, 3, 1, 9, 9] 1#32 0#32 .int32).header = .v1 h) ∧
    LayoutV1 False True [] [3, 1] [9, 9] [2, 0, 0, 0, 3, 1, 9, 9] ∧
    splitBuffer (v1Page [2, 0, 0, 0, 3, 1, 9, 9] 1#32 0#32 .int32) = .ok ([], [3, 1], [9, 9]) := by
  refine ⟨⟨_, rfl⟩, ?_, by decide⟩
  have := ((C32_split_v1 (v1Page [2, 0, 0, 0, 3, 1, 9, 9] 1#32 0#32 .int32) _ rfl (by decide) (by decide)).1
    [] [3, 1] [9, 9]).1 (by decide)
  simpa [v1Page] using this

/-- **C32** V2 pages: negative lengths are an error; otherwise the three slices have the lengths
of the header and concatenate to the buffer, provided the lengths fit; if they do not the code
panics. -/
theorem C32_split_v2_partial (page : DataPage) (h : Thrift.DataPageHeaderV2) (hh : page.header = .v2 h) :
    ((h.definitionLevelsByteLength.toInt < 0 ∨ h.repetitionLevelsByteLength.toInt < 0) →
      splitBuffer page = .err .oos) ∧
    (∀ r d : Nat, h.repetitionLevelsByteLength.toInt = r → h.definitionLevelsByteLength.toInt = d →
      (r + d ≤ page.buffer.length → ∃ rep def' values, splitBuffer page = .ok (rep, def', values) ∧
        rep ++ def' ++ values = page.buffer ∧ rep.length = r ∧ def'.length = d) ∧
      (page.buffer.length < r + d → splitBuffer page = .panic)) := by
  unfold splitBuffer
  rw [hh]
  simp only
  refine ⟨?_, ?_⟩
  · intro hneg
    unfold toUsize
    by_cases h1 : h.definitionLevelsByteLength.toInt < 0
    · rw [if_neg (by omega)]; rfl
    · rw [if_pos (by omega), Res.ok_bind, if_neg (by omega)]; rfl
  · intro r d hr hd
    unfold toUsize
    rw [if_pos (by omega), Res.ok_bind, if_pos (by omega), Res.ok_bind, hr, hd, splitBufferV2_eq]
    simp only [Int.toNat_natCast]
    refine ⟨?_, ?_⟩
    · intro hl
      rw [if_pos hl]
      refine ⟨_, _, _, rfl, ?_, ?_, ?_⟩
      · rw [List.append_assoc, ← List.drop_drop, List.take_append_drop, List.take_append_drop]
      · rw [List.length_take]; omega
      · rw [List.length_take, List.length_drop]; omega
    · intro hl
      rw [if_neg (by omega)]

example : (v2Page [3, 1, 9, 9] 1#32 2#32 0#32).buffer.length = 4 ∧
    (∃ h, (v2Page [3, 1, 9, 9] 1#32 2#32 0#32).header = .v2 h ∧ h.repetitionLevelsByteLength.toInt = 0 ∧
      h.definitionLevelsByteLength.toInt = 2) ∧
    splitBuffer (v2Page [3, 1, 9, 9] 1#32 2#32 0#32) = .ok ([], [3, 1], [9, 9]) :=
  ⟨rfl, ⟨_, rfl, by decide, by decide⟩, by decide⟩

/-- **C32** the clause "no page content aborts the process" fails: a V2 page whose level lengths
exceed its buffer. -/
theorem C32_violated : ∃ page : DataPage, splitBuffer page = .panic :=
  ⟨v2Page [1#8] 1#32 2#32 0#32, by decide⟩

example : splitBuffer (v1Page [2, 0, 0, 0, 3, 1, 9, 9] 1#32 0#32 .int32) = .ok ([], [3, 1], [9, 9]) := by
  decide
example : splitBuffer (v1Page [2, 0, 0, 0, 3] 1#32 0#32 .int32) = .err .oos := by decide
example : splitBuffer (v2Page [3, 1, 9, 9] 1#32 2#32 0#32) = .ok ([], [3, 1], [9, 9]) := by decide

/-! ### C19 -/

/-- **C19** `OptionalValues` over any validity iterator and any iterator of enough values yields
one item per validity bit: as many items as bits, null exactly where the bit is unset, and the
non-null items are the values in order, each once. -/
theorem C19_optional_values {σ τ α : Type} (vn : σ → Res (Option Bool × σ))
    (tn : τ → Res (Option α × τ)) (s : σ) (t : τ) (bits : List Bool) (vs : List α)
    (hv : Yields vn s bits) (ht : Yields tn t vs) (henough : bits.count true ≤ vs.length) :
    ∃ items, Yields (optionalNext vn tn) (s, t) items ∧ items.length = bits.length ∧
      items.map Option.isSome = bits ∧ items.filterMap id = vs.take (bits.count true) := by
  refine ⟨_, yields_optional hv ht henough, assemble_length _ _, ?_, ?_⟩
  · clear hv ht
    induction bits generalizing vs with
    | nil => rfl
    | cons b bits ih =>
      cases b with
      | false => simp only [assemble, List.map_cons]; rw [ih vs (by simpa using henough)]; rfl
      | true =>
        cases vs with
        | nil => simp at henough
        | cons v vs => simp only [assemble, List.map_cons]; rw [ih vs (by simpa using henough)]; rfl
  · clear hv ht
    induction bits generalizing vs with
    | nil => simp [assemble]
    | cons b bits ih =>
      cases b with
      | false => simpa [assemble] using ih vs (by simpa using henough)
      | true =>
        cases vs with
        | nil => simp at henough
        | cons v vs => simpa [assemble] using ih vs (by simpa using henough)

example : Yields listNext [true, false, true] [true, false, true] ∧ Yields listNext [7, 8, 9] [7, 8, 9] ∧
    [true, false, true].count true ≤ [7, 8, 9].length := ⟨yields_list _, yields_list _, by decide⟩

/-- Legal stream used in the examples: two nulls, then eight packed levels. -/
theorem exampleStream : RunStream 1 [.rle 2 0, .packed 1 [0xA5#8]] [0x04, 0x00, 0x03, 0xA5] := by
  refine .cons (out := [0x04, 0x00]) ⟨by decide, [0x04], by decide, by decide⟩ ?_
  exact .cons (out := [0x03, 0xA5]) (stream := []) ⟨by decide, by decide, [0x03], by decide, by decide⟩ .nil

/-- **C19** the runs of definition levels: for every legal stream of one-bit levels (any writer),
the run iterator of a page of `N` rows hands out runs that expand to the first `N` levels. -/
theorem C19_level_runs (rs : List Run) (stream : List Byte) (hs : RunStream 1 rs stream) (N : Nat) :
    ∃ encs, Yields RunIter.next (RunIter.new ⟨stream, 1⟩ N) encs ∧ (∀ e ∈ encs, RunOk e) ∧
      encs.flatMap runBits = ((rs.flatMap (Run.values 1)).take N).map (· == 1) :=
  runIter_yields rs stream hs N 0 (by omega)

example : ∃ encs, Yields RunIter.next (RunIter.new ⟨[0x04, 0x00, 0x03, 0xA5], 1⟩ 5) encs ∧
    encs.flatMap runBits = [false, false, true, false, true] := by
  obtain ⟨encs, h1, -, h2⟩ := C19_level_runs _ _ exampleStream 5
  exact ⟨encs, h1, h2.trans (by decide +kernel)⟩

/-- **C19** end to end: an optional PLAIN page of any fixed-width native column, with definition
levels written by `encode_bool`, is read back as that column. -/
theorem C19_native_page (b : Nat) (hb : 0 < b) (col : List (Option (BitVec (8 * b))))
    (page : DataPage) (rep lv : List Byte) (hlv : Rle.encodeBool (col.map Option.isSome) = .ok lv)
    (hsplit : splitBuffer page = .ok (rep, lv, (col.filterMap id).flatMap (nativeToLe b)))
    (henc : page.encoding = .ok .plain) (hopt : isOptional page = true)
    (hdef : page.descriptor.maxDefLevel = 1#16) (hn : page.numValues = col.length)
    (hlen : col.length < 2 ^ 63) {π : Type} (dict : Option π) :
    ∃ it, nativeState b page dict = .ok (.optional (.bitmap it) ((col.filterMap id).map .ok)) ∧
      Yields (optionalNext (BoolIter.next RunIter.next) listNext) (BoolIter.new it, col.filterMap id)
        col := by
  obtain ⟨lv', h1, es, h2, h3, h4, h5⟩ := runIter_encodeBool (col.map Option.isSome) (by simpa using hlen)
  rw [hlv] at h1
  simp only [Res.ok.injEq] at h1
  subst h1
  have hcast : nativeCast b page = .ok ((col.filterMap id).map .ok) := by
    unfold nativeCast
    rw [hsplit]
    simp only [Res.ok_bind]
    generalize col.filterMap id = vs
    have hfl : (vs.flatMap (nativeToLe b)).length = vs.length * b := by
      induction vs with
      | nil => simp
      | cons v vs ih =>
        have hvl : (nativeToLe b v).length = b := toLe_length b v
        rw [List.flatMap_cons, List.length_append, ih, List.length_cons, hvl]
        have := Nat.add_mul vs.length 1 b
        omega
    rw [if_neg (by rw [hfl]; simp)]
    congr 1
    apply List.ext_getElem
    · simp only [List.length_map, chunksExact_length, hfl, Nat.mul_div_cancel _ hb]
    · intro i hi1 hi2
      have hi : i < vs.length := by simpa using hi2
      simp only [List.getElem_map, chunksExact, List.getElem_range]
      have : ((vs.flatMap (nativeToLe b)).drop (i * b)).take b = nativeToLe b vs[i] := by
        clear hi1 hi2 hfl
        induction vs generalizing i with
        | nil => simp at hi
        | cons v vs ih =>
          have hvl : (nativeToLe b v).length = b := toLe_length b v
          cases i with
          | zero =>
            simp only [Nat.zero_mul, List.drop_zero, List.flatMap_cons, List.getElem_cons_zero]
            rw [List.take_append_of_le_length (by omega), List.take_of_length_le (by omega)]
          | succ i =>
            rw [List.flatMap_cons, Nat.succ_mul, List.drop_append, hvl,
              List.drop_eq_nil_of_le (by omega), List.nil_append,
              show i * b + b - b = i * b by omega]
            simpa using ih i (by simpa using hi)
      rw [this]
      simp only [nativeDecode, nativeToLe, toLe_length, if_true, fromLe_toLe]
  refine ⟨RunIter.new ⟨lv, 1⟩ col.length, ?_, ?_⟩
  · unfold nativeState
    rw [henc, Res.ok_bind]
    simp only [hopt, if_true]
    unfold DefLevels.tryNew
    rw [hsplit]
    simp only [Res.ok_bind, hdef, if_true, hn, hcast]
  · have hbi := boolIter_yields RunIter.next _ es h2 h3
    rw [h5, List.length_map] at hbi
    have := yields_optional hbi (yields_list (col.filterMap id)) (by
      clear hsplit hlv hn hlen h2 h4 h5 hbi hcast
      induction col with
      | nil => simp
      | cons x xs ih => cases x <;> simp_all)
    rwa [assemble_isSome] at this

private def exCol : List (Option (BitVec (8 * 4))) := [some 5#32, none, some 0x01020304#32]

example : ∃ page lv, Rle.encodeBool (exCol.map Option.isSome) = .ok lv ∧
    splitBuffer page = .ok ([], lv, (exCol.filterMap id).flatMap (nativeToLe 4)) ∧
    page.encoding = .ok .plain ∧ isOptional page = true ∧ page.descriptor.maxDefLevel = 1#16 ∧
    page.numValues = exCol.length :=
  ⟨v1Page [2, 0, 0, 0, 3, 5, 5, 0, 0, 0, 4, 3, 2, 1] 3#32 0#32 .int32, [3, 5],
    by decide, by decide, by decide, by decide, by decide, by decide⟩

/-! ### C20 -/

/-- **C20** is violated: a legal stream of two runs covering the four rows of a page is iterated
as two booleans only. -/
theorem C20_violated : ¬ ∀ (rs : List Run) (stream : List Byte) (N : Nat), RunStream 1 rs stream →
    N ≤ (rs.flatMap (Run.values 1)).length →
    ∃ bits, Yields (BoolIter.next RunIter.next) (BoolIter.new (RunIter.new ⟨stream, 1⟩ N)) bits ∧
      bits.length = N := by
  intro h
  have hs : RunStream 1 [.rle 2 1, .rle 2 0] [0x04, 0x01, 0x04, 0x00] := by
    refine .cons (out := [0x04, 0x01]) ⟨by decide, [0x04], by decide, by decide⟩ ?_
    exact .cons (out := [0x04, 0x00]) (stream := []) ⟨by decide, [0x04], by decide, by decide⟩ .nil
  obtain ⟨bits, h1, h2⟩ := h _ _ 4 hs (by decide)
  have h3 : Yields (BoolIter.next RunIter.next)
      (BoolIter.new (RunIter.new ⟨[0x04, 0x01, 0x04, 0x00], 1⟩ 4)) [true, true] :=
    Yields.of_drain 5 (by rfl)
  rw [h1.unique h3] at h2
  simp at h2

/-- **C20**, what holds: over any iterator of runs the boolean iterator yields exactly the first
run. Missing: the other runs. -/
theorem C20_first_run_partial (rs : List Run) (stream : List Byte) (hs : RunStream 1 rs stream)
    (N : Nat) : ∃ encs, Yields RunIter.next (RunIter.new ⟨stream, 1⟩ N) encs ∧
      encs.flatMap runBits = ((rs.flatMap (Run.values 1)).take N).map (· == 1) ∧
      Yields (BoolIter.next RunIter.next) (BoolIter.new (RunIter.new ⟨stream, 1⟩ N))
        (encs.head?.elim [] runBits) := by
  obtain ⟨encs, h1, h2, h3⟩ := C19_level_runs rs stream hs N
  exact ⟨encs, h1, h3, boolIter_yields _ _ _ h1 h2⟩

example : ∃ encs : List Encoded, Yields (BoolIter.next RunIter.next) (BoolIter.new (RunIter.new ⟨[0x04, 0x00, 0x03, 0xA5], 1⟩ 5))
    (encs.head?.elim [] runBits) ∧ encs.flatMap runBits = [false, false, true, false, true] := by
  obtain ⟨encs, -, h2, h3⟩ := C20_first_run_partial _ _ exampleStream 5
  exact ⟨encs, h3, h2.trans (by decide +kernel)⟩

/-- **C20** for levels written by this library (`encode_bool` writes one run): every row of every
page is covered. -/
theorem C20_single_run_partial (bits : List Bool) (hlen : bits.length < 2 ^ 63) :
    ∃ lv, Rle.encodeBool bits = .ok lv ∧
      Yields (BoolIter.next RunIter.next) (BoolIter.new (RunIter.new ⟨lv, 1⟩ bits.length)) bits := by
  obtain ⟨lv, h1, es, h2, h3, _, h5⟩ := runIter_encodeBool bits hlen
  refine ⟨lv, h1, ?_⟩
  have := boolIter_yields RunIter.next _ es h2 h3
  rwa [h5] at this

example : ∃ rs stream, RunStream 1 rs stream ∧ rs.length = 2 := ⟨_, _, exampleStream, rfl⟩

/-! ### C21 -/

/-- **C21** is violated for empty intervals (which `select_pages` can produce): with overflow
checks the iterator panics, without them it yields rows that were not selected. -/
theorem C21_violated :
    SliceIter.next true listNext (SliceIter.new [10, 20, 30] [⟨1, 0⟩]) = .panic ∧
    Yields (SliceIter.next false listNext) (SliceIter.new [10, 20, 30] [⟨1, 0⟩]) [20, 30] ∧
    selectRows [⟨1, 0⟩] [10, 20, 30] = ([] : List Nat) :=
  ⟨by rfl, Yields.of_drain 4 (by decide +kernel), by rfl⟩

/-- **C21** for non-empty intervals: filtering any iterator by sorted disjoint intervals within
range yields exactly the selected rows, in order, in every build profile; the announced length is
exact. Missing: empty intervals (see `C21_violated`). -/
theorem C21_slice_filtered_partial {σ α : Type} (ck : Bool) (next : σ → Res (Option α × σ)) (s : σ)
    (rows : List α) (ivs : List Interval) (hy : Yields next s rows) (hs : SortedFrom 0 ivs)
    (hw : Within rows.length ivs) (hne : ∀ iv ∈ ivs, 0 < iv.length) :
    Yields (SliceIter.next ck next) (SliceIter.new s ivs) (selectRows ivs rows) ∧
      (SliceIter.new s ivs).totalLength = (selectRows ivs rows).length := by
  refine ⟨?_, ?_⟩
  · have := sliceIter_yields ck (ivs.map (·.length)).sum s rows ivs 0 0 hy (by simp) (by simp)
      (by simp) hs (by simpa using hw) hne
    rw [List.take_zero, List.nil_append, Nat.sub_zero, selectFrom_zero] at this
    exact this
  · simp only [SliceIter.new, selectRows, List.length_flatMap]
    congr 1
    apply List.map_congr_left
    intro iv hiv
    have := hw iv hiv
    rw [List.length_take, List.length_drop]; omega

example : SortedFrom 0 [⟨1, 2⟩, ⟨3, 1⟩, ⟨6, 2⟩] ∧ Within 8 [⟨1, 2⟩, ⟨3, 1⟩, ⟨6, 2⟩] ∧
    (∀ iv ∈ ([⟨1, 2⟩, ⟨3, 1⟩, ⟨6, 2⟩] : List Interval), 0 < iv.length) ∧
    selectRows [⟨1, 2⟩, ⟨3, 1⟩, ⟨6, 2⟩] [0, 1, 2, 3, 4, 5, 6, 7] = [1, 2, 3, 6, 7] :=
  ⟨by decide, forall_mem_of_all _ (by decide), forall_mem_of_all _ (by decide), by decide⟩

/-! ### C22 -/

/-- **C22** over any iterator of runs: for sorted disjoint intervals within the rows (empty
intervals allowed) the filtered iterator ends, its selected runs expand to the validity of the
selected rows, and a reader that drops the reported number of values on a skip and takes one value
per set bit reconstructs exactly the selected rows of the optional column - for every sequence of
values of any type. -/
theorem C22_filtered_runs {σ : Type} (ck : Bool) (next : σ → Res (Option Encoded × σ)) (s : σ)
    (runs : List Encoded) (hy : Yields next s runs) (hok : ∀ e ∈ runs, RunOk e)
    (ivs : List Interval) (hs : SortedFrom 0 ivs) (hw : Within (runs.flatMap runBits).length ivs) :
    ∃ items, Yields (FilteredIter.next ck next) (FilteredIter.new s ivs) items ∧
      items.flatMap selectedBits = selectRows ivs (runs.flatMap runBits) ∧
      ∀ {α : Type} (vs : List α),
        consume items vs = selectRows ivs (assemble (runs.flatMap runBits) vs) := by
  obtain ⟨items, h1, h2, h3⟩ := filtered_good next ck _ s runs none none ivs 0
    (ivs.map (·.length)).sum hy hok (by simp) hs (by simpa [pending] using hw) rfl (Nat.lt_succ_self _)
  exact ⟨items, h1, by simpa [pending, selectFrom_zero] using h2,
    fun vs => by simpa [pending, selectFrom_zero] using h3 vs⟩

example :
    let runs : List Encoded := [.repeated true 3, .bitmap [0xA5#8] 8]
    Yields listNext runs runs ∧ (∀ e ∈ runs, RunOk e) ∧ SortedFrom 0 [⟨1, 3⟩, ⟨8, 2⟩] ∧
    Within (runs.flatMap runBits).length [⟨1, 3⟩, ⟨8, 2⟩] := by
  refine ⟨yields_list _, by simp [RunOk], by decide, ?_⟩
  intro iv hiv
  have : iv = ⟨1, 3⟩ ∨ iv = ⟨8, 2⟩ := by simpa using hiv
  rcases this with rfl | rfl <;> decide

/-- **C22** for pages: any legal stream of one-bit definition levels. -/
theorem C22_page (ck : Bool) (rs : List Run) (stream : List Byte) (hs : RunStream 1 rs stream)
    (N : Nat) (hN : N ≤ (rs.flatMap (Run.values 1)).length) (ivs : List Interval)
    (hiv : SortedFrom 0 ivs) (hw : Within N ivs) :
    let validity := ((rs.flatMap (Run.values 1)).take N).map (· == 1)
    ∃ items, Yields (FilteredIter.next ck RunIter.next)
        (FilteredIter.new (RunIter.new ⟨stream, 1⟩ N) ivs) items ∧
      items.flatMap selectedBits = selectRows ivs validity ∧
      ∀ {α : Type} (vs : List α), consume items vs = selectRows ivs (assemble validity vs) := by
  obtain ⟨encs, h1, h2, h3⟩ := C19_level_runs rs stream hs N
  have := C22_filtered_runs ck RunIter.next _ encs h1 h2 ivs hiv (by
    rw [h3, List.length_map, List.length_take, Nat.min_eq_left hN]; exact hw)
  rw [h3] at this
  exact this

example : RunStream 1 [.rle 2 0, .packed 1 [0xA5#8]] [0x04, 0x00, 0x03, 0xA5] ∧
    9 ≤ ([.rle 2 0, .packed 1 [0xA5#8]].flatMap (Run.values 1)).length ∧
    SortedFrom 0 [⟨1, 2⟩, ⟨4, 0⟩, ⟨6, 3⟩] ∧ Within 9 [⟨1, 2⟩, ⟨4, 0⟩, ⟨6, 3⟩] :=
  ⟨exampleStream, by decide, by decide, forall_mem_of_all _ (by decide)⟩
-- what is emitted for it
example : Yields (FilteredIter.next true RunIter.next)
    (FilteredIter.new (RunIter.new ⟨[0x04, 0x00, 0x03, 0xA5], 1⟩ 9) [⟨1, 2⟩, ⟨6, 3⟩])
    [.skipped 0, .repeated false 1, .bitmap [0xA5] 0 1, .skipped 1, .bitmap [0xA5] 4 3] :=
  Yields.of_drain 7 (by rfl)

/-- **C22** the announced number of items: at any time it drops by the length of the item. -/
theorem C22_len {σ : Type} (next : σ → Res (Option Encoded × σ)) (it it' : FilteredIter σ)
    (item : Filtered) (h : FilteredIter.next true next it = .ok (some item, it')) :
    it'.totalItems + item.len = it.totalItems := by
  have usub_true : ∀ a b c, usub true a b = .ok c → c + b = a := by
    intro a b c h
    unfold usub at h
    split at h
    · simp only [Res.ok.injEq] at h; omega
    · simp at h
  have emit_len : ∀ (e : Encoded) o n, (e.emit o n).len = n := by
    intro e o n; cases e <;> rfl
  have step : ∀ (it : FilteredIter σ) iv run off, it.currentInterval = some iv →
      it.step true iv run off = .ok (some item, it') → it'.totalItems + item.len = it.totalItems := by
    intro it iv run off hiv h
    unfold FilteredIter.step at h
    rw [Res.bind_eq_ok] at h
    obtain ⟨rl, h1, h⟩ := h
    rw [Res.bind_eq_ok] at h
    obtain ⟨is, h2, h⟩ := h
    split at h
    · rw [Res.bind_eq_ok] at h
      obtain ⟨c, h3, h⟩ := h
      simp only [Res.ok.injEq, Prod.mk.injEq, Option.some.injEq] at h
      rw [← h.1, ← h.2]; rfl
    · rename_i h0
      dsimp only at h
      rw [if_neg (by omega)] at h
      split at h
      · rw [Res.bind_eq_ok] at h
        obtain ⟨t, h3, h⟩ := h
        simp only [Res.ok.injEq, Prod.mk.injEq, Option.some.injEq] at h
        rw [← h.1, ← h.2, emit_len]
        exact usub_true _ _ _ h3
      · rw [Res.bind_eq_ok] at h
        obtain ⟨t, h3, h⟩ := h
        rw [Res.bind_eq_ok] at h
        obtain ⟨st, h4, h⟩ := h
        simp only [Res.ok.injEq, Prod.mk.injEq, Option.some.injEq] at h
        rw [← h.1, ← h.2, emit_len]
        unfold FilteredIter.advance at h4
        simp only [hiv] at h4
        rw [Res.bind_eq_ok] at h4
        obtain ⟨l, h5, h4⟩ := h4
        rw [Res.bind_eq_ok] at h4
        obtain ⟨tt, h6, h4⟩ := h4
        simp only [Res.ok.injEq] at h4
        rw [← h4]
        exact usub_true _ _ _ h6
  have withRun : ∀ (it : FilteredIter σ) iv, it.currentInterval = some iv →
      it.withRun true next iv = .ok (some item, it') → it'.totalItems + item.len = it.totalItems := by
    intro it iv hiv h
    unfold FilteredIter.withRun at h
    split at h
    · exact step _ _ _ _ hiv h
    · split at h
      · simp at h
      · simp at h
      · simp at h
      · have h2 := fun hc => step _ _ _ _ hc h
        exact h2 hiv
  unfold FilteredIter.next at h
  split at h
  · rename_i iv hiv; exact withRun _ _ hiv h
  · split at h
    · simp at h
    · exact withRun { it with currentInterval := some _, selectedRows := _ } _ rfl h

example : ∃ item it', FilteredIter.next true listNext
    (FilteredIter.new [.repeated true 5] [⟨0, 3⟩]) = .ok (some item, it') := ⟨_, _, rfl⟩

/-- **C22** failures: when a run is needed, what the iterator of runs gives in place of one is given on: its
error, its panic, its end. -/
theorem C22_failures {σ : Type} (ck : Bool) (next : σ → Res (Option Encoded × σ)) (it : FilteredIter σ)
    (hc : it.current = none) (hi : it.currentInterval.isSome ∨ it.selectedRows ≠ []) :
    (next it.iter = .panic → it.next ck next = .panic) ∧
    (∀ e, next it.iter = .err e → it.next ck next = .err e) ∧
    ∀ s, next it.iter = .ok (none, s) → ∃ it', it.next ck next = .ok (none, it') ∧ it'.iter = s := by
  obtain ⟨iter, current, iv, rows, items, total⟩ := it
  simp only at hc hi
  subst hc
  cases iv with
  | some iv =>
    refine ⟨fun h => ?_, fun e h => ?_, fun s h => ?_⟩ <;> simp only at h
    · simp [FilteredIter.next, FilteredIter.withRun, h]
    · simp [FilteredIter.next, FilteredIter.withRun, h]
    · simp [FilteredIter.next, FilteredIter.withRun, h]
  | none =>
    cases rows with
    | nil => simp at hi
    | cons iv rows =>
      refine ⟨fun h => ?_, fun e h => ?_, fun s h => ?_⟩ <;> simp only at h
      · simp [FilteredIter.next, FilteredIter.withRun, h]
      · simp [FilteredIter.next, FilteredIter.withRun, h]
      · simp [FilteredIter.next, FilteredIter.withRun, h]

/-- Non-vacuity: levels with a malformed run header after the first run. -/
example :
    let bytes : List Byte := [0x03, 0xA5] ++ List.replicate 10 0xff
    let it := FilteredIter.new (RunIter.new ⟨bytes, 1⟩ 20) [⟨12, 2⟩]
    (it.next true RunIter.next).map' (fun r => r.1.map Filtered.len) = .ok (some 0) ∧
    (it.next true RunIter.next).map' (fun r => (r.2.current.isNone, r.2.currentInterval.isSome)) =
      .ok (true, true) ∧
    ((it.next true RunIter.next).bind fun r => (r.2.next true RunIter.next).map' fun _ => ()) = .panic := by
  decide +kernel

/-- **C22** an iterator of runs that delivers a bitmap of fewer bits than it announces makes skipping the
rows after the last byte of it abort. -/
theorem C22_short_runs {σ : Type} (ck : Bool) (next : σ → Res (Option Encoded × σ)) (it : FilteredIter σ)
    (iv : Interval) (values : List Byte) (length offset : Nat) (hi : it.currentInterval = some iv)
    (hc : it.current = some (.bitmap values length, offset)) (hl : offset ≤ length)
    (hs : it.currentItemsInRuns < iv.start) (hv : 8 * (values.length + 1) ≤ offset) :
    it.next ck next = .panic := by
  have h1 : usub ck (Encoded.bitmap values length).len offset = .ok (length - offset) := by
    simp [usub, Encoded.len, hl]
  have h2 : usub ck iv.start it.currentItemsInRuns = .ok (iv.start - it.currentItemsInRuns) := by
    simp [usub, hs.le]
  have h3 : iv.start - it.currentItemsInRuns > 0 := by omega
  have h4 : values.length < offset / 8 := by omega
  simp only [FilteredIter.next, hi, FilteredIter.withRun, hc, FilteredIter.step, h1, h2, Res.ok_bind, h3,
    ↓reduceIte, Encoded.setCount, isSetCount, Bitmap.Iter.new, h4]
  rfl

/-- Non-vacuity: a run said to be of 32 rows with one byte, after its first 16 rows. -/
example : (((FilteredIter.new [Encoded.bitmap [0xff#8] 32] [⟨0, 16⟩, ⟨20, 4⟩]).next true listNext).map' fun r =>
      (r.1, r.2.current, r.2.currentInterval, r.2.currentItemsInRuns)) =
    .ok (some (.bitmap [0xff#8] 0 16), some (.bitmap [0xff#8] 32, 16), some ⟨20, 4⟩, 16) ∧
    8 * ([0xff#8].length + 1) ≤ 16 := by decide +kernel

/-! ### C23 -/

/-- **C23** native types: a page is rejected exactly when the size of its value section is not a
multiple of the width; otherwise it yields `size / width` values whose bytes concatenate to the
section. -/
theorem C23_native (b : Nat) (hb : 0 < b) (page : DataPage) (rep def' values : List Byte)
    (hsplit : splitBuffer page = .ok (rep, def', values)) :
    (values.length % b ≠ 0 → nativeCast b page = .err .oos) ∧
    (values.length % b = 0 → ∃ xs : List (BitVec (8 * b)),
      nativeCast b page = .ok (xs.map .ok) ∧ xs.length = values.length / b ∧
      xs.flatMap (nativeToLe b) = values) := by
  unfold nativeCast
  rw [hsplit]
  simp only [Res.ok_bind]
  refine ⟨fun h => if_pos h, ?_⟩
  intro h
  rw [if_neg (by omega)]
  refine ⟨(chunksExact b values).map (fromLe (8 * b)), ?_, ?_, ?_⟩
  · congr 1
    rw [List.map_map]
    apply List.map_congr_left
    intro c hc
    simp [nativeDecode, chunksExact_mem _ _ _ hc]
  · rw [List.length_map, chunksExact_length]
  · rw [List.flatMap_map, List.flatMap_def]
    rw [show (chunksExact b values).map (fun c => nativeToLe b (fromLe (8 * b) c)) = chunksExact b values by
      conv_rhs => rw [← List.map_id (chunksExact b values)]
      apply List.map_congr_left
      intro c hc
      have := chunksExact_mem _ _ _ hc
      subst this
      exact Deser.toLe_fromLe c]
    rw [chunksExact_flatten _ hb]
    apply List.take_of_length_le
    have := Nat.div_add_mod values.length b
    rw [Nat.mul_comm] at this
    omega

example : splitBuffer (v1Page [2, 0, 0, 0, 3, 1, 9, 0, 0, 0, 8, 0, 0, 0] 2#32 0#32 .int32) =
      .ok ([], [3, 1], [9, 0, 0, 0, 8, 0, 0, 0]) ∧
    nativeCast 4 (v1Page [2, 0, 0, 0, 3, 1, 9, 0, 0, 0, 8, 0, 0, 0] 2#32 0#32 .int32) = .ok [.ok 9, .ok 8] ∧
    nativeCast 4 (v1Page [2, 0, 0, 0, 3, 1, 9, 0, 0] 2#32 0#32 .int32) = .err .oos := by decide +kernel

/-- **C23** int96. -/
theorem C23_int96 (page : DataPage) (rep def' values : List Byte)
    (hsplit : splitBuffer page = .ok (rep, def', values)) :
    (values.length % 12 ≠ 0 → int96Cast page = .err .oos) ∧
    (values.length % 12 = 0 → ∃ xs : List Int96,
      int96Cast page = .ok (xs.map .ok) ∧ xs.length = values.length / 12 ∧
      xs.flatMap int96ToLe = values) := by
  unfold int96Cast
  rw [hsplit]
  simp only [Res.ok_bind]
  refine ⟨fun h => if_pos h, ?_⟩
  intro h
  rw [if_neg (by omega)]
  refine ⟨(chunksExact 12 values).map int96FromLe, ?_, ?_, ?_⟩
  · congr 1
    rw [List.map_map]
    apply List.map_congr_left
    intro c hc
    simp [int96Decode, chunksExact_mem _ _ _ hc]
  · rw [List.length_map, chunksExact_length]
  · rw [List.flatMap_map, List.flatMap_def]
    rw [show (chunksExact 12 values).map (fun c => int96ToLe (int96FromLe c)) = chunksExact 12 values by
      conv_rhs => rw [← List.map_id (chunksExact 12 values)]
      apply List.map_congr_left
      intro c hc
      exact int96_to_from c (chunksExact_mem _ _ _ hc)]
    rw [chunksExact_flatten _ (by omega)]
    apply List.take_of_length_le
    omega

example : splitBuffer (v1Page [2, 0, 0, 0, 3, 1, 1, 0, 0, 0, 2, 0, 0, 0, 3, 0, 0, 0] 1#32 0#32 .int96) =
      .ok ([], [3, 1], [1, 0, 0, 0, 2, 0, 0, 0, 3, 0, 0, 0]) ∧
    int96Cast (v1Page [2, 0, 0, 0, 3, 1, 1, 0] 1#32 0#32 .int96) = .err .oos := by decide +kernel

/-- **C23** is violated for FIXED_LEN_BYTE_ARRAY: stray bytes are dropped silently, and a type of
length zero panics. -/
theorem C23_violated : fixedIter [1, 2, 3] 2 = .ok [[1, 2]] ∧ fixedIter [1] 0 = .panic ∧
    (fixedState (π := Unit) (v1Page [2, 0, 0, 0, 3, 1, 7] 1#32 0#32 (.fixedLenByteArray 0)) none).noPanic = false :=
  ⟨by decide, by decide, by decide⟩

/-- **C23** fixed-length byte arrays of positive length: the items have that length and
concatenate to the section up to the dropped remainder. Missing: rejection of a remainder. -/
theorem C23_fixed_partial (size : Nat) (hs : 0 < size) (values : List Byte) :
    ∃ xs, fixedIter values size = .ok xs ∧ xs.length = values.length / size ∧
      (∀ x ∈ xs, x.length = size) ∧ xs.flatten = values.take (values.length / size * size) ∧
      (values.length % size = 0 → xs.flatten = values) := by
  unfold fixedIter
  rw [if_neg (by omega)]
  refine ⟨_, rfl, chunksExact_length _ _, fun x hx => chunksExact_mem _ _ _ hx,
    chunksExact_flatten _ hs _, ?_⟩
  intro h
  rw [chunksExact_flatten _ hs]
  apply List.take_of_length_le
  have := Nat.div_add_mod values.length size
  rw [Nat.mul_comm] at this
  omega

example : splitBuffer (v1Page [2, 0, 0, 0, 3, 1, 9, 9, 9, 9] 1#32 0#32 .int32) = .ok ([], [3, 1], [9, 9, 9, 9]) ∧
    [9, 9, 9, 9].length % 4 = 0 := ⟨by decide, by decide⟩

/-! ### C24 -/

/-- Collecting the dictionary indices of a page. -/
def indices (page : DataPage) : Res (List Rle.U32) :=
  dictIndicesDecoder page >>= drain Rle.Dec.next (page.numValues + 1)

private def dictPage : DataPage := v1Page [2, 0, 0, 0, 3, 7, 2, 6, 3, 2, 2] 4#32 8#32 .int32

/-- **C24** for every page whose index section starts with a width byte: more than 32 is rejected,
otherwise the result is that of the hybrid decoder on the rest, which (C10) has exactly
`num_values` items or meets a malformed run header. -/
theorem C24_indices (page : DataPage) (rep def' rest : List Byte) (w : Byte)
    (hsplit : splitBuffer page = .ok (rep, def', w :: rest)) :
    (32 < w.toNat → indices page = .err .oos) ∧
    (w.toNat ≤ 32 → indices page = Rle.decode rest w.toNat page.numValues ∧
      ((∃ xs, indices page = .ok xs ∧ xs.length = page.numValues) ∨
       (indices page = .panic ∧ ∃ s, s <:+ rest ∧ BadRun w.toNat s))) := by
  have e : w.toNat ≤ 32 → indices page = Rle.decode rest w.toNat page.numValues := by
    intro hw
    unfold indices dictIndicesDecoder
    rw [hsplit]
    simp only [Res.ok_bind]
    rw [if_neg (by omega)]
    unfold Rle.decode
    cases Rle.Dec.tryNew rest w.toNat page.numValues <;> rfl
  refine ⟨?_, fun hw => ⟨e hw, ?_⟩⟩
  · intro hw
    unfold indices dictIndicesDecoder
    rw [hsplit]
    simp only [Res.ok_bind]
    rw [if_pos hw]; rfl
  · rw [e hw]
    exact C10_exact_count rest w.toNat page.numValues hw

example : splitBuffer dictPage = .ok ([], [3, 7], 2 :: [6, 3, 2, 2]) ∧ (2 : Byte).toNat ≤ 32 := by decide

/-- **C24** legal index sections: any legal run sequence of width `w` holding `num_values` values
decodes to these values. -/
theorem C24_legal (page : DataPage) (rep def' rest : List Byte) (w : Byte)
    (hsplit : splitBuffer page = .ok (rep, def', w :: rest)) (hw : w.toNat ≤ 32) (h0 : 0 < w.toNat)
    (rs : List Run) (hs : RunStream w.toNat rs rest)
    (hn : page.numValues ≤ (rs.flatMap (Run.values w.toNat)).length) :
    ∃ xs, indices page = .ok xs ∧
      xs.map BitVec.toNat = (rs.flatMap (Run.values w.toNat)).take page.numValues := by
  obtain ⟨xs, h1, h2⟩ := C11_runs w.toNat h0 hw rs rest hs page.numValues
  refine ⟨xs, by rw [((C24_indices page rep def' rest w hsplit).2 hw).1, h1], ?_⟩
  rw [h2, List.take_append_of_le_length hn]

example : splitBuffer dictPage = .ok ([], [3, 7], 2 :: [6, 3, 2, 2]) ∧
    RunStream 2 [.rle 3 3, .rle 1 2] [6, 3, 2, 2] ∧
    dictPage.numValues ≤ ([Run.rle 3 3, .rle 1 2].flatMap (Run.values 2)).length ∧
    indices dictPage = .ok [3, 3, 3, 2] := by
  refine ⟨by decide, ?_, by decide, by decide⟩
  refine .cons (out := [6, 3]) ⟨by decide, [6], by decide, by decide⟩ ?_
  exact .cons (out := [2, 2]) (stream := []) ⟨by decide, [2], by decide, by decide⟩ .nil

/-- **C24** sections written by this library (`encode_u32`) are read back. -/
theorem C24_roundtrip (page : DataPage) (rep def' body : List Byte) (w : Byte) (idx : List Rle.U32)
    (hw : w.toNat ≤ 32) (h0 : 0 < w.toNat) (hfit : ∀ x ∈ idx, x.toNat < 2 ^ w.toNat)
    (hlen : 4 * idx.length < 2 ^ 63) (henc : Rle.encodeU32 idx w.toNat = .ok body)
    (hsplit : splitBuffer page = .ok (rep, def', w :: body)) (hn : page.numValues = idx.length) :
    indices page = .ok idx := by
  obtain ⟨h, bd, h1, _, _, _, h5⟩ := C08_hybrid_u32_roundtrip w.toNat h0 hw idx hfit hlen []
  rw [henc] at h1
  simp only [Res.ok.injEq] at h1
  rw [((C24_indices page rep def' body w hsplit).2 hw).1, hn, h1]
  simpa using h5

example : ∃ body, Rle.encodeU32 [3, 0, 2] 2 = .ok body ∧
    indices (v1Page ([2, 0, 0, 0, 3, 7] ++ 2 :: body) 3#32 8#32 .int32) = .ok [3, 0, 2] := by
  obtain ⟨h, bd, h1, -⟩ := C08_hybrid_u32_roundtrip 2 (by decide) (by decide) [3, 0, 2] (by simp) (by decide) []
  refine ⟨_, h1, C24_roundtrip _ [] [3, 7] _ 2 [3, 0, 2] (by decide) (by decide) (by simp) (by decide) h1 ?_ rfl⟩
  rfl

/-- **C24** the last clause is violated: an empty index section panics. -/
theorem C24_violated (page : DataPage) (rep def' : List Byte)
    (hsplit : splitBuffer page = .ok (rep, def', [])) : indices page = .panic := by
  unfold indices dictIndicesDecoder
  rw [hsplit]; rfl

example : splitBuffer (v1Page [2, 0, 0, 0, 3, 0] 4#32 8#32 .int32) = .ok ([], [3, 0], []) := by decide

end Pq.Props
