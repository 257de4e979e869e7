import Verif.Lemmas.ClientFile
import Verif.Props.Deserialize
import Verif.Props.BasicDecompressor
import Verif.Spec.Indexes
/-
From pages with selected rows to arrays.
-/
namespace Pq.Client
open Pq.Spec Pq.Deser

theorem selectRows_map {α β : Type} (f : α → β) (ivs : List Interval) (xs : List α) :
    selectRows ivs (xs.map f) = (selectRows ivs xs).map f := by
  unfold selectRows
  rw [List.map_flatMap]
  simp only [List.map_take, List.map_drop]

theorem selectRows_length {α : Type} (ivs : List Interval) (xs : List α) (h : Spec.Within xs.length ivs) :
    (selectRows ivs xs).length = (ivs.map (·.length)).sum := by
  induction ivs with
  | nil => rfl
  | cons iv ivs ih =>
    have h1 := h iv (by simp)
    have h2 := ih fun x hx => h x (by simp [hx])
    unfold selectRows at h2 ⊢
    rw [List.flatMap_cons, List.length_append, h2, List.map_cons, List.sum_cons, List.length_take, List.length_drop]
    omega

theorem boolIter_run (lv : List Byte) (bits : List Bool) (h : LevelRun lv bits) :
    Yields (BoolIter.next RunIter.next) (BoolIter.new (RunIter.new ⟨lv, 1⟩ bits.length)) bits := by
  obtain ⟨r, h1, h2⟩ := h
  obtain ⟨encs, e1, e2, e3, e4⟩ := runIter_yields_runs [r] lv h1 bits.length 0 (by omega)
  have := boolIter_yields RunIter.next _ encs e1 e2
  have he : encs.head?.elim [] runBits = bits := by
    rw [List.flatMap_cons, List.flatMap_nil, List.append_nil, Nat.sub_zero, h2] at e3
    match encs, e4 with
    | [], _ => simpa using e3
    | [e], _ => simpa using e3
  rwa [he] at this

theorem filtered_vec (ck : Bool) (b : Nat) (hb : 0 < b) (page : DataPage) (rep lv : List Byte)
    (dict : Option (List (BitVec (8 * b)))) (col : List (Option (BitVec (8 * b)))) (rows : List Interval)
    (hf : FlatOptional page.descriptor) (hn : page.numValues = col.length)
    (henc : page.encoding = .ok .plain) (hsel : page.selectedRows = some rows)
    (hsplit : splitBuffer page = .ok (rep, lv, (col.filterMap id).flatMap fun x => leBytes b x.toNat))
    (hy : Yields (BoolIter.next RunIter.next) (BoolIter.new (RunIter.new ⟨lv, 1⟩ col.length)) (col.map Option.isSome))
    (hs : SortedFrom 0 rows) (hw : Spec.Within col.length rows) (hne : ∀ iv ∈ rows, 0 < iv.length) :
    nativeToVec ck b page dict = .ok (selectRows rows col) := by
  have hcast : nativeCast b page = .ok ((col.filterMap id).map .ok) :=
    nativeCast_ok b hb page rep lv _ (by rw [hsplit, funext (nativeToLe_eq b)])
  have hopt : isOptional page = true := by simp [Deser.isOptional, hf.repetition]
  have h1 := yields_optional hy (yields_items (col.filterMap id)) (by rw [count_isSome])
  rw [column_eq] at h1
  have h2 := (Props.C21_slice_filtered_partial ck _ _ _ rows h1 hs hw hne).1
  have h3 := selectRows_length rows col hw
  unfold nativeToVec
  rw [hsel]
  simp only [hf.repeated, Res.assert, decide_true, if_true, Res.ok_bind, filteredToVec, henc, hopt, hsplit, hcast, hn]
  exact h2.drain _ (by omega)

theorem filtered_required (ck : Bool) (b : Nat) (hb : 0 < b) (page : DataPage) (rep lv : List Byte)
    (dict : Option (List (BitVec (8 * b)))) (xs : List (BitVec (8 * b))) (rows : List Interval)
    (hf : FlatRequired page.descriptor)
    (henc : page.encoding = .ok .plain) (hsel : page.selectedRows = some rows)
    (hsplit : splitBuffer page = .ok (rep, lv, xs.flatMap fun x => leBytes b x.toNat))
    (hs : SortedFrom 0 rows) (hw : Spec.Within xs.length rows) (hne : ∀ iv ∈ rows, 0 < iv.length) :
    nativeToVec ck b page dict = .ok (selectRows rows (xs.map some)) := by
  have hcast : nativeCast b page = .ok (xs.map .ok) :=
    nativeCast_ok b hb page rep lv _ (by rw [hsplit, funext (nativeToLe_eq b)])
  have hopt : isOptional page = false := by simp only [Deser.isOptional, hf.repetition]; rfl
  have h2 := (Props.C21_slice_filtered_partial ck _ _ _ rows (yields_items xs) hs hw hne).1
  have h3 := selectRows_length rows xs hw
  unfold nativeToVec
  rw [hsel]
  simp only [hf.repeated, Res.assert, decide_true, if_true, Res.ok_bind, filteredToVec, henc, hopt, hcast,
    Bool.false_eq_true, if_false]
  rw [h2.drain _ (by simp only [List.length_map]; omega), selectRows_map]
  rfl

/-- The bits of a page are read by the iterator over booleans. -/
def BitsRead (lv : List Byte) (bits : List Bool) : Prop :=
  Yields (BoolIter.next RunIter.next) (BoolIter.new (RunIter.new ⟨lv, 1⟩ bits.length)) bits

theorem select_vec (ck : Bool) (page : DataPage) (dict : Option Dict) (array : Array) (rows : List Interval)
    (rep lv vals : List Byte) (hf : FlatOptional page.descriptor)
    (ht : HasType array page.descriptor.primitiveType.physicalType)
    (hnt : NumberType page.descriptor.primitiveType.physicalType)
    (hd : DictOk dict page.descriptor.primitiveType.physicalType)
    (henc : page.encoding = .ok .plain) (hsel : page.selectedRows = some rows)
    (hn : page.numValues = array.len)
    (hsplit : splitBuffer page = .ok (rep, lv, vals)) (hy : BitsRead lv (arrayBits array))
    (hv : PlainValues array vals)
    (hs : SortedFrom 0 rows) (hw : Spec.Within array.len rows) (hne : ∀ iv ∈ rows, 0 < iv.length) :
    pageToArray ck page dict = .ok (arraySelect rows array) := by
  generalize hp : page.descriptor.primitiveType.physicalType = t at ht hd hnt
  unfold BitsRead at hy
  cases array with
  | int32 xs =>
    cases t <;> simp only [HasType] at ht
    obtain ⟨o, ho⟩ := expect_int32 dict hd
    simp only [PlainValues] at hv
    subst hv
    simp only [arrayBits, List.length_map] at hy
    simp only [pageToArray, hp, ho, Res.ok_bind, arraySelect, Res.map',
      filtered_vec ck 4 (by decide) page rep lv o xs rows hf hn henc hsel hsplit hy hs hw hne]
  | int64 xs =>
    cases t <;> simp only [HasType] at ht
    obtain ⟨o, ho⟩ := expect_int64 dict hd
    simp only [PlainValues] at hv
    subst hv
    simp only [arrayBits, List.length_map] at hy
    simp only [pageToArray, hp, ho, Res.ok_bind, arraySelect, Res.map',
      filtered_vec ck 8 (by decide) page rep lv o xs rows hf hn henc hsel hsplit hy hs hw hne]
  | int96 xs =>
    cases t <;> simp only [HasType] at ht
    obtain ⟨o, ho⟩ := expect_int96 dict hd
    simp only [PlainValues] at hv
    subst hv
    simp only [arrayBits, List.length_map] at hy
    simp only [pageToArray, hp, ho, Res.ok_bind, arraySelect, Res.map',
      filtered_vec ck 12 (by decide) page rep lv o xs rows hf hn henc hsel hsplit hy hs hw hne]
  | float xs =>
    cases t <;> simp only [HasType] at ht
    obtain ⟨o, ho⟩ := expect_float dict hd
    simp only [PlainValues] at hv
    subst hv
    simp only [arrayBits, List.length_map] at hy
    simp only [pageToArray, hp, ho, Res.ok_bind, arraySelect, Res.map',
      filtered_vec ck 4 (by decide) page rep lv o xs rows hf hn henc hsel hsplit hy hs hw hne]
  | double xs =>
    cases t <;> simp only [HasType] at ht
    obtain ⟨o, ho⟩ := expect_double dict hd
    simp only [PlainValues] at hv
    subst hv
    simp only [arrayBits, List.length_map] at hy
    simp only [pageToArray, hp, ho, Res.ok_bind, arraySelect, Res.map',
      filtered_vec ck 8 (by decide) page rep lv o xs rows hf hn henc hsel hsplit hy hs hw hne]
  | boolean xs => cases t <;> simp only [HasType, NumberType] at ht hnt
  | binary xs => cases t <;> simp only [HasType, NumberType] at ht hnt
  | fixedLenBinary xs => cases t <;> simp only [HasType, NumberType] at ht hnt

theorem select_required (ck : Bool) (page : DataPage) (dict : Option Dict) (array : Array) (rows : List Interval)
    (rep lv vals : List Byte) (hf : FlatRequired page.descriptor)
    (ht : HasType array page.descriptor.primitiveType.physicalType)
    (hnt : NumberType page.descriptor.primitiveType.physicalType)
    (hd : DictOk dict page.descriptor.primitiveType.physicalType)
    (henc : page.encoding = .ok .plain) (hsel : page.selectedRows = some rows)
    (hall : ∀ b ∈ arrayBits array, b = true)
    (hsplit : splitBuffer page = .ok (rep, lv, vals)) (hv : PlainValues array vals)
    (hs : SortedFrom 0 rows) (hw : Spec.Within array.len rows) (hne : ∀ iv ∈ rows, 0 < iv.length) :
    pageToArray ck page dict = .ok (arraySelect rows array) := by
  generalize hp : page.descriptor.primitiveType.physicalType = t at ht hd hnt
  cases array with
  | int32 xs =>
    cases t <;> simp only [HasType] at ht
    obtain ⟨o, ho⟩ := expect_int32 dict hd
    simp only [PlainValues] at hv
    subst hv
    obtain ⟨ys, rfl⟩ := all_some xs hall
    simp only [filterMap_some, Array.len, List.length_map] at *
    simp only [pageToArray, hp, ho, Res.ok_bind, arraySelect, Res.map',
      filtered_required ck 4 (by decide) page rep lv o ys rows hf henc hsel hsplit hs hw hne]
  | int64 xs =>
    cases t <;> simp only [HasType] at ht
    obtain ⟨o, ho⟩ := expect_int64 dict hd
    simp only [PlainValues] at hv
    subst hv
    obtain ⟨ys, rfl⟩ := all_some xs hall
    simp only [filterMap_some, Array.len, List.length_map] at *
    simp only [pageToArray, hp, ho, Res.ok_bind, arraySelect, Res.map',
      filtered_required ck 8 (by decide) page rep lv o ys rows hf henc hsel hsplit hs hw hne]
  | int96 xs =>
    cases t <;> simp only [HasType] at ht
    obtain ⟨o, ho⟩ := expect_int96 dict hd
    simp only [PlainValues] at hv
    subst hv
    obtain ⟨ys, rfl⟩ := all_some xs hall
    simp only [filterMap_some, Array.len, List.length_map] at *
    simp only [pageToArray, hp, ho, Res.ok_bind, arraySelect, Res.map',
      filtered_required ck 12 (by decide) page rep lv o ys rows hf henc hsel hsplit hs hw hne]
  | float xs =>
    cases t <;> simp only [HasType] at ht
    obtain ⟨o, ho⟩ := expect_float dict hd
    simp only [PlainValues] at hv
    subst hv
    obtain ⟨ys, rfl⟩ := all_some xs hall
    simp only [filterMap_some, Array.len, List.length_map] at *
    simp only [pageToArray, hp, ho, Res.ok_bind, arraySelect, Res.map',
      filtered_required ck 4 (by decide) page rep lv o ys rows hf henc hsel hsplit hs hw hne]
  | double xs =>
    cases t <;> simp only [HasType] at ht
    obtain ⟨o, ho⟩ := expect_double dict hd
    simp only [PlainValues] at hv
    subst hv
    obtain ⟨ys, rfl⟩ := all_some xs hall
    simp only [filterMap_some, Array.len, List.length_map] at *
    simp only [pageToArray, hp, ho, Res.ok_bind, arraySelect, Res.map',
      filtered_required ck 8 (by decide) page rep lv o ys rows hf henc hsel hsplit hs hw hne]
  | boolean xs => cases t <;> simp only [HasType, NumberType] at ht hnt
  | binary xs => cases t <;> simp only [HasType, NumberType] at ht hnt
  | fixedLenBinary xs => cases t <;> simp only [HasType, NumberType] at ht hnt

theorem compressPage_select (cs : Codecs) (ck : Bool) (p : DataPage) (opts : CompressionOptions)
    (cp : CompressedPage) (rows : List Interval) (h : compressPage cs ck (.data p) [] opts = .ok cp) :
    compressPage cs ck (.data { p with selectedRows := some rows }) [] opts = .ok (readSelected rows cp) := by
  obtain ⟨header, buffer, descriptor, rows'⟩ := p
  obtain ⟨q, h', rfl⟩ := map'_ok _ (compressData _ _ _ _ _) _ h
  clear h
  rename' h' => h
  simp only [compressPage, compressData] at h ⊢
  by_cases ho : opts ≠ .uncompressed
  · simp only [if_pos ho] at h ⊢
    cases header with
    | v1 hd =>
      simp only at h ⊢
      obtain ⟨b, h1, h⟩ := Res.bind_eq_ok.1 h
      injection h with h
      subst h
      simp only [h1, Res.ok_bind]
      rfl
    | v2 hd =>
      simp only [bind_assoc] at h ⊢
      obtain ⟨s1, h1, h⟩ := Res.bind_eq_ok.1 h
      simp only [h1, Res.ok_bind]
      obtain ⟨s2, h2, h⟩ := Res.bind_eq_ok.1 h
      simp only [h2, Res.ok_bind]
      obtain ⟨s3, h3, h⟩ := Res.bind_eq_ok.1 h
      simp only [h3, Res.ok_bind]
      obtain ⟨s4, h4, h⟩ := Res.bind_eq_ok.1 h
      simp only [h4, Res.ok_bind] at h ⊢
      injection h with h
      subst h
      rfl
  · simp only [if_neg ho, Res.ok_bind, Res.ok.injEq] at h ⊢
    subst h
    rfl

theorem arrayItems_select (rows : List Interval) (array : Array) :
    arrayItems (arraySelect rows array) = selectRows rows (arrayItems array) := by
  cases array <;> simp only [arrayItems, arraySelect, selectRows_map]

theorem arrayItems_length (array : Array) : (arrayItems array).length = array.len := by
  cases array <;> simp [arrayItems, Array.len]

theorem arraySelect_type (rows : List Interval) (array : Array) (t : PhysicalType) (h : HasType array t)
    (hn : NumberType t) : HasType (arraySelect rows array) t := by
  cases array <;> cases t <;> first | exact h | exact hn.elim

theorem pageOf_select {cs : Codecs} {ck : Bool} {options : WriteOptions} {opts : CompressionOptions}
    {d : Descriptor} {array : Array} {cp : CompressedPage} (hf : FlatOptional d)
    (hnt : NumberType d.primitiveType.physicalType)
    (h : PageOf cs ck options opts d array cp) :
    ∃ p hd, compressPage cs ck (.data p) [] opts = .ok cp ∧ p.header = .v1 hd ∧
      ∀ ck rows, SortedFrom 0 rows → Spec.Within array.len rows → (∀ iv ∈ rows, 0 < iv.length) →
        pageToArray ck { p with selectedRows := some rows } none = .ok (arraySelect rows array) := by
  obtain ⟨ht, hn, page, h1, h2, h3⟩ := h
  obtain ⟨s, lv, vals, rfl, h4, h5, h7, h6⟩ := arrayToPage_ok array options d page h1 hf hn h2
  refine ⟨_, _, h3, rfl, fun ck rows hs hw hne => ?_⟩
  have hp := h6 (some rows)
  obtain ⟨rep, lv', hsplit⟩ := hp.split
  obtain ⟨lv'', e1, e2⟩ := Props.C20_single_run_partial (arrayBits array) (by omega)
  rw [h7] at e1
  injection e1 with e1
  subst e1
  have hb : splitBuffer { v1Page array.len s lv vals d with selectedRows := some rows } = .ok ([], lv, vals) := by
    have e1 : decide (0 < d.maxRepLevel.toInt) = false := by rw [hf.repeated]; rfl
    have e2 : decide (0 < d.maxDefLevel.toInt) = true := by rw [hf.definition]; rfl
    have hl : lv.length < 2 ^ 32 := by
      simp only [Page.buffer, v1Page, List.length_append] at h2
      omega
    change splitBufferV1 (v1Page array.len s lv vals d).buffer (decide (0 < d.maxRepLevel.toInt))
      (decide (0 < d.maxDefLevel.toInt)) = _
    rw [e1, e2, splitBufferV1_iff]
    refine ⟨leBytes 4 lv.length ++ lv ++ vals, ⟨rfl, ?_⟩, hl, rfl⟩
    simp only [v1Page, toLe_take4 _ hl]
  exact select_vec ck _ none array rows [] lv vals hf ht hnt (by intro d hd; cases hd) rfl rfl
    (hp.rows.trans h5) hb e2 h4 hs hw hne

theorem collect_mono {σ : Type} (ck : Bool) (advance : Nat → σ → Res Unit × σ) (get : σ → Option Page)
    (t : PhysicalType) (fuel fuel' k : Nat) (s : σ) (dict : Option Dict) (out : List Array)
    (h : collect ck advance get t fuel k s dict = .ok out) (hle : fuel ≤ fuel') :
    collect ck advance get t fuel' k s dict = .ok out := by
  induction fuel generalizing fuel' k s dict out with
  | zero => simp [collect] at h
  | succ fuel ih =>
    cases fuel' with
    | zero => omega
    | succ fuel' =>
      rw [collect] at h ⊢
      generalize advance k s = r at h
      obtain ⟨a, s'⟩ := r
      cases a with
      | err e => exact h
      | panic => exact h
      | ok u =>
        simp only at h ⊢
        cases hg : get s' with
        | none => rw [hg] at h; exact h
        | some page =>
          rw [hg] at h
          cases page with
          | data page =>
            simp only [Res.bind_eq_ok] at h ⊢
            obtain ⟨a, h1, r, h2, h3⟩ := h
            exact ⟨a, h1, r, ih _ _ _ _ _ h2 (by omega), h3⟩
          | dict page =>
            simp only [Res.bind_eq_ok] at h ⊢
            obtain ⟨a, h1, h2⟩ := h
            exact ⟨a, h1, ih _ _ _ _ _ h2 (by omega)⟩

theorem columnOf_selects {codec : Codec Thrift.PageHeader} {file : List Byte}
    {cs : Codecs} {ck : Bool} {options : WriteOptions} {arrays : List Array}
    {c : ColumnDescriptor × List CompressedPage} {chunk : ColumnChunkMetaData}
    {locations : List Thrift.PageLocation} (hcs : Lawful cs)
    (h : ColumnOf cs ck options arrays c) (hnt : NumberType c.1.descriptor.primitiveType.physicalType)
    (hd : chunk.columnDescr = c.1) (hpos : ∀ a ∈ arrays, 0 < a.len) (hsum : (arrays.map Array.len).sum < 2 ^ 63)
    (hsel : SelectionReads codec file none c.2 chunk locations) :
    ChunkSelects codec cs ck file arrays chunk locations := by
  intro ivs buffers hs hw hne
  have hrows := (columnOf_rows h).2
  obtain ⟨opts, hp⟩ := h.pages
  have hf := h.flat
  obtain ⟨filtered, h1, h2, h3, h4, reader, last, h5, h6⟩ := hsel ck ivs
    (fun iv hiv => by have := hw iv hiv; omega)
  rw [hrows] at h1 h4
  have hlen : arrays.length = c.2.length := hp.length_eq
  have hlens : arrays.map Array.len = c.2.map rowsIn := by
    clear h2 h3 h4 h5 h6 h1 hlen hrows hsel hw hs hne h hsum hpos
    generalize c.2 = cps at hp
    induction hp with
    | nil => rfl
    | @cons a cp as cps hp hr ih =>
      obtain ⟨s, lv, vals, buf, -, rfl, -⟩ := pageOf_shape hf hp
      rw [List.map_cons, List.map_cons, ih]
      rfl
  have hfil : List.Forall₂ (fun (f : FilteredPage) (a : Array) => SortedFrom 0 f.selectedRows ∧
      Spec.Within a.len f.selectedRows ∧ ∀ iv ∈ f.selectedRows, 0 < iv.length) filtered arrays := by
    rw [List.forall₂_iff_get]
    refine ⟨by rw [h2, hlen], fun i hi hi' => ?_⟩
    have hi'' : i < c.2.length := by omega
    obtain ⟨g1, g2, g3, g4, -⟩ := h3 i filtered[i] c.2[i] (List.getElem?_eq_getElem hi) (List.getElem?_eq_getElem hi'')
    have e : arrays[i].len = rowsIn c.2[i] := by
      have := congrArg (fun l => l[i]?) hlens
      simpa [hi', hi''] using this
    rw [List.get_eq_getElem, List.get_eq_getElem, e, ← g1]
    exact ⟨g3 hs, g2, g4 (by rw [g1, ← e]; exact hpos _ (List.getElem_mem hi')) hne⟩
  have key : ∃ pages : List Page,
      pages.map (fun p => compressPage cs ck p [] opts) =
        (((filtered.zip c.2).filter fun x => x.1.selectedRows ≠ []).map
          fun x => readSelected x.1.selectedRows x.2).map .ok ∧
      (∀ page ∈ pages, ∃ p hd, page = .data p ∧ p.header = .v1 hd) ∧
      ∃ out, (∀ t, collectPages ck t none pages = .ok out) ∧
        (∀ a ∈ out, HasType a c.1.descriptor.primitiveType.physicalType ∧ 0 < a.len) ∧
        out.flatMap arrayItems =
          (List.zipWith (fun f c => selectRows f.selectedRows c) filtered (arrays.map arrayItems)).flatten := by
    clear h2 h3 h4 h5 h6 h1 hlen hrows hsel hw hs hne h hsum hpos hlens
    generalize c.2 = cps at hp
    induction hp generalizing filtered with
    | nil =>
      cases hfil
      exact ⟨[], rfl, by simp, [], fun t => rfl, by simp, rfl⟩
    | @cons a cp as cps hp hr ih =>
      cases hfil with
      | @cons f _ fs _ hfa hfs =>
        obtain ⟨pages, i1, i2, out, i3, i4, i5⟩ := ih fs hfs
        by_cases hemp : f.selectedRows = []
        · refine ⟨pages, ?_, i2, out, i3, i4, ?_⟩
          · rw [List.zip_cons_cons, List.filter_cons_of_neg (by simpa using hemp)]
            exact i1
          · rw [i5, List.map_cons, List.zipWith_cons_cons, hemp]
            rfl
        · obtain ⟨p, hd, g1, g2, g3⟩ := pageOf_select hf hnt hp
          refine ⟨.data { p with selectedRows := some f.selectedRows } :: pages, ?_, ?_,
            arraySelect f.selectedRows a :: out, ?_, ?_, ?_⟩
          · rw [List.zip_cons_cons, List.filter_cons_of_pos (by simpa using hemp), List.map_cons, List.map_cons,
              List.map_cons, i1, compressPage_select cs ck p opts cp f.selectedRows g1]
          · intro page hpage
            rcases List.mem_cons.1 hpage with rfl | hpage
            · exact ⟨_, hd, rfl, g2⟩
            · exact i2 page hpage
          · intro t
            simp only [collectPages, g3 ck f.selectedRows hfa.1 hfa.2.1 hfa.2.2, Res.ok_bind, i3]
          · intro b hb
            rcases List.mem_cons.1 hb with rfl | hb
            · refine ⟨arraySelect_type _ _ _ hp.1 hnt, ?_⟩
              rw [← arrayItems_length, arrayItems_select, selectRows_length _ _ (by rw [arrayItems_length]; exact hfa.2.1)]
              cases hr : f.selectedRows with
              | nil => exact absurd hr hemp
              | cons iv ivs =>
                have := hfa.2.2 iv (by rw [hr]; simp)
                simp only [List.map_cons, List.sum_cons]
                omega
            · exact i4 b hb
          · rw [List.flatMap_cons, i5, arrayItems_select, List.map_cons, List.zipWith_cons_cons, List.flatten_cons]
  obtain ⟨pages, k1, k2, out, k3, k4, k5⟩ := key
  refine ⟨filtered, reader, out, h1, h5, ?_, ?_, ?_⟩
  · have h6' : Pulls (IndexedReader.next codec ck) reader
        ((((filtered.zip c.2).filter fun x => x.1.selectedRows ≠ []).map
          fun x => readSelected x.1.selectedRows x.2).map .ok) last := by
      have : (if c.2 = [] then [] else (none : Option CompressedDictPage).toList.map fun d => readBack (.dict d)) = [] := by
        split <;> rfl
      rw [this, List.nil_append] at h6
      exact h6
    have hob := Props.C34_basic_pipeline cs hcs ck _ reader last opts pages _ k1 (by
      intro _ page hp p hd e1 e2
      obtain ⟨p', hd', e3, e4⟩ := k2 page hp
      rw [e1] at e3
      injection e3 with e3
      rw [e3, e4] at e2
      cases e2) h6' buffers
    have hl := congrArg List.length k1
    simp only [List.length_map] at hl
    rw [List.length_map, ← hl] at hob
    have := collect_observe ck _ _ chunk.columnDescr.descriptor.primitiveType.physicalType pages 0
      (BasicDecompressor.new reader) none hob
    rw [k3] at this
    refine collect_mono _ _ _ _ _ _ _ _ _ _ this ?_
    have : ((filtered.zip c.2).filter fun x => x.1.selectedRows ≠ []).length ≤ (filtered.zip c.2).length :=
      List.length_filter_le _ _
    rw [List.length_zip] at this
    omega
  · rw [hd]; exact k4
  · rw [k5, h4 hs hw _ (arrays.map arrayItems) (by
      rw [← hlens, List.map_map]
      exact List.map_congr_left fun a _ => arrayItems_length a)]
    rfl

end Pq.Client
