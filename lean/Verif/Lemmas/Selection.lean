import Verif.Lemmas.Indexes
import Verif.Props.Intervals
import Verif.Props.PageIO
/-
Lemmas about reading selected rows through the page indexes.
-/
namespace Pq

open Spec

theorem ser_nonempty {T : Type} {codec : Codec T} {limit : T → Nat} (hl : LawfulCodec codec limit)
    (hs : SaneCodec codec) (x : T) : 0 < (codec.ser x).length := by
  have h := hl.roundtrip x [] (limit x) (Nat.le_refl _)
  rw [List.append_nil] at h
  have := hs.progress (limit x) (codec.ser x) x (by rw [h])
  omega

theorem chunkRows_data {pages : List CompressedPage} (h : ∀ p ∈ pages, isData p = true) :
    chunkRows pages = (pages.map rowsIn).sum := by
  rw [chunkRows, List.filter_eq_self.2 h]
  rfl

/-- The locations of data pages. -/
theorem locationsOf_data (codec : Codec Thrift.PageHeader) {pages : List CompressedPage}
    (h : ∀ p ∈ pages, isData p = true) (pos : Int) (row : Nat) :
    LegalRows (row + (pages.map rowsIn).sum) ((locationsOf codec pos row pages).map (·.2.2)) ∧
      ∀ l ∈ (locationsOf codec pos row pages).head?, l.1 = pos ∧ l.2.2 = row := by
  induction pages generalizing pos row with
  | nil => exact ⟨trivial, by simp [locationsOf]⟩
  | cons p ps ih =>
    have hp : isData p = true := h p (by simp)
    obtain ⟨i1, i2⟩ := ih (fun q hq => h q (List.mem_cons_of_mem _ hq)) (pos + (pageBytes codec p).length)
      (row + (pageRowCount p).getD 0)
    simp only [locationsOf, hp, if_true]
    refine ⟨?_, by simp⟩
    simp only [List.map_cons, List.sum_cons]
    have e : row + (rowsIn p + (ps.map rowsIn).sum) =
        row + (pageRowCount p).getD 0 + (ps.map rowsIn).sum := by
      rw [rowsIn]; omega
    rw [e]
    generalize hq : locationsOf codec _ _ ps = q at i1 i2
    cases q with
    | nil =>
      refine ⟨by simp, ?_⟩
      push_cast
      omega
    | cons l q =>
      refine ⟨by simp, ?_, i1⟩
      show (row : Int) ≤ l.2.2
      rw [(i2 l rfl).2]
      push_cast
      omega

/-- Consecutive intervals are determined by where they start. -/
theorem consecutive_lengths {ivs : List Interval} {rs : List Nat} {a n : Nat} (h : Consecutive a n ivs)
    (hl : ivs.length = rs.length) (hn : a + rs.sum = n)
    (hs : ∀ i, i < ivs.length → ∀ iv, ivs[i]? = some iv → iv.start = a + (rs.take i).sum) :
    ivs.map (·.length) = rs := by
  induction ivs generalizing rs a with
  | nil =>
    obtain rfl : rs = [] := List.length_eq_zero_iff.1 hl.symm
    rfl
  | cons iv ivs ih => cases rs with
    | nil => simp at hl
    | cons r rs =>
      obtain ⟨h1, h2⟩ := h
      have hr : iv.length = r := by
        cases ivs with
        | nil =>
          obtain rfl : rs = [] := by simpa using hl.symm
          simp only [Consecutive] at h2
          simp at hn
          omega
        | cons iv' ivs =>
          have := hs 1 (by simp) iv' rfl
          have h3 := h2.1
          simp at this
          omega
      rw [List.map_cons, ih (rs := rs) (a := a + iv.length) h2 (by simpa using hl)
        (by rw [List.sum_cons] at hn; omega) ?_, hr]
      intro i hi iv' hiv
      have := hs (i + 1) (by simp; omega) iv' (by simpa using hiv)
      simp only [List.take_succ_cons, List.sum_cons] at this
      omega

theorem compression_of {cs : ThriftCodecs} {pos : Nat} {d : ColumnDescriptor} {pages : List CompressedPage}
    {m : Thrift.ColumnMetaData} (h : DescribesChunk cs.page pos d pages m) :
    ∃ x, Compression.ofThrift m.codec = .ok x ∧ ∀ p ∈ pages, p.compression = x := by
  cases hp : pages with
  | nil => exact ⟨.uncompressed, by rw [(h.noPages hp).2]; rfl, by simp⟩
  | cons p ps =>
    have h5 := compression_ofThrift (h.codec p (by simp [hp]))
    refine ⟨_, h5, fun q hq => ?_⟩
    have h6 := compression_ofThrift (h.codec q (by rw [hp]; exact hq))
    rw [h5] at h6
    injection h6 with h6
    exact h6.symm

/-- Selected rows of a column in the file are read. -/
theorem selection_reads {cs : ThriftCodecs} {limit : Thrift.PageHeader → Nat}
    (hl : LawfulCodec cs.page limit) (hs : SaneCodec cs.page) {file : List Byte}
    {c : ColumnDescriptor × List CompressedPage} {chunk : Thrift.ColumnChunk}
    (hw : ColumnWritten cs file c chunk) {oi : Thrift.OffsetIndex}
    (ho : OffsetIndexOf cs.page c.2 (startOf chunk) oi) (hk : RowsKnown c.2) (hr : chunkRows c.2 < 2 ^ 63)
    (hd : ∀ p ∈ c.2, ∀ q, p = .data q → q.descriptor = c.1.descriptor)
    (hlim : ∀ p ∈ c.2, limit (headerOf p) ≤ 1024 * 1024)
    {dict : Option CompressedDictPage} {datas : List CompressedPage}
    (hc : c.2 = dict.toList.map .dict ++ datas) (hdata : ∀ p ∈ datas, isData p = true) :
    SelectionReads cs.page file dict datas ⟨chunk, c.1⟩ oi.pageLocations := by
  have hfilter : c.2.filter isData = datas := by
    rw [hc, List.filter_append, List.filter_eq_self.2 hdata]
    cases dict <;> simp [isData]
  have hloc := locates hw ho hk hr
  obtain ⟨hll, hloc⟩ := hloc
  rw [hfilter] at hll hloc
  obtain ⟨pos, m, w1, w2, -, w3, w4, -⟩ := hw
  obtain ⟨x, hx, hxp⟩ := compression_of w2
  have hrows : chunkRows c.2 = (datas.map rowsIn).sum := by
    rw [chunkRows, hfilter]
    rfl
  have hrows' := chunkRows_data hdata
  intro ck ivs hiv
  -- the metadata
  let column : PageMetaData := { columnStart := asUsize m.dataPageOffset, numValues := m.numValues
                                 compression := x, descriptor := c.1.descriptor }
  have hcol : ∀ filtered, IndexedReader.ofColumn file ⟨chunk, c.1⟩ filtered =
      .ok (IndexedReader.new file column filtered) := by
    intro filtered
    simp only [IndexedReader.ofColumn, ColumnChunkMetaData.byteRange, ColumnChunkMetaData.pageMetaData,
      ColumnChunkMetaData.numValues, ColumnChunkMetaData.compression, ColumnChunkMetaData.metadata, w1,
      Res.unwrap, Res.ok_bind, Res.map', hx, w2.noDictionary, column]
  -- the locations
  have htriple := ho.2.2 hk hr
  have hlegal : LegalRows (chunkRows datas) (oi.pageLocations.map (·.firstRowIndex.toInt)) ∧
      ∀ l ∈ oi.pageLocations.head?, l.firstRowIndex.toInt = 0 ∧
        l.offset.toInt = startOf chunk + (((dict.toList.map .dict).map (pageBytes cs.page)).flatten.length : Nat) := by
    have e : ∃ start, locationsOf cs.page (startOf chunk) 0 c.2 = locationsOf cs.page start 0 datas ∧
        start = startOf chunk + (((dict.toList.map .dict).map (pageBytes cs.page)).flatten.length : Nat) := by
      rw [hc]
      cases dict with
      | none => exact ⟨_, rfl, by simp⟩
      | some d => exact ⟨_, rfl, by simp⟩
    obtain ⟨start, e1, e2⟩ := e
    obtain ⟨l1, l2⟩ := locationsOf_data cs.page hdata start 0
    rw [e1] at htriple
    rw [← htriple, Nat.zero_add, List.map_map, ← hrows'] at l1
    refine ⟨l1, fun l hlm => ?_⟩
    rw [← htriple, List.head?_map] at l2
    have := (l2 (l.offset.toInt, l.compressedPageSize.toInt, l.firstRowIndex.toInt)
      (by rw [Option.mem_def, Option.mem_def.1 hlm]; rfl))
    exact ⟨this.2, this.1.trans e2⟩
  obtain ⟨hlegal, hhead⟩ := hlegal
  have hget : ∀ l ∈ oi.pageLocations, ∃ (i : Nat) (p : CompressedPage), oi.pageLocations[i]? = some l ∧ datas[i]? = some p := by
    intro l hlm
    obtain ⟨i, hi, rfl⟩ := List.mem_iff_getElem.1 hlm
    exact ⟨i, datas[i]'(by omega), by simp, by simp⟩
  obtain ⟨filtered, spans, f1, f2, f3, f4, f5⟩ := Props.C28_page ck ivs oi.pageLocations (chunkRows datas)
    (by omega) hlegal (fun l hlm => by
      obtain ⟨i, p, h1, h2⟩ := hget l hlm
      obtain ⟨h3, h4, -⟩ := hloc i l p h1 h2
      exact ⟨h3, h4⟩) hiv
  -- the rows of the pages
  obtain ⟨spans', s1, s2, s3⟩ := (cpri_spec oi.pageLocations (chunkRows datas)).1 hlegal
  rw [f2] at s1
  injection s1 with s1
  subst s1
  have hstart : ∀ i iv, spans[i]? = some iv → iv.start = ((datas.map rowsIn).take i).sum := by
    intro i iv hi
    have h1 : i < spans.length := by
      by_contra hcon
      rw [List.getElem?_eq_none (by omega)] at hi
      cases hi
    have h2 : oi.pageLocations[i]? = some (oi.pageLocations[i]'(by omega)) := by simp
    have h3 : datas[i]? = some (datas[i]'(by omega)) := by simp
    have h4 := (hloc i _ _ h2 h3).2.2.2
    have h5 := congrArg (fun q : List Int => q[i]?) s2
    simp only [List.getElem?_map, hi, h2, Option.map_some, Option.some.injEq] at h5
    rw [h4, chunkRows_data fun p hp => hdata p (List.mem_of_mem_take hp), List.map_take] at h5
    exact_mod_cast h5
  have hlens : spans.map (·.length) = datas.map rowsIn := by
    cases hsp : spans with
    | nil =>
      rw [hsp] at f4
      have : datas = [] := List.length_eq_zero_iff.1 (by rw [← hll, ← f4]; rfl)
      rw [this]
      rfl
    | cons s0 ss =>
      rw [← hsp]
      have h0 := hstart 0 s0 (by rw [hsp]; rfl)
      have := s3 s0 (by rw [hsp]; rfl)
      refine consecutive_lengths this (by rw [f4, hll, List.length_map]) ?_ ?_
      · rw [h0]
        simp [hrows']
      · intro i _ iv hi
        rw [hstart i iv hi, h0]
        simp
  refine ⟨filtered, f1, by omega, ?_, ?_, ?_⟩
  · intro i f p hf hp
    have hi : i < datas.length := by
      by_contra hcon
      rw [List.getElem?_eq_none (by omega)] at hp
      cases hp
    have h2 : oi.pageLocations[i]? = some (oi.pageLocations[i]'(by omega)) := by simp
    have h3 : spans[i]? = some (spans[i]'(by omega)) := by simp
    obtain ⟨-, -, g3, g4, g5, g6, g7⟩ := f5 i _ f _ h2 hf h3
    have e1 := hstart i _ h3
    have e2 : (spans[i]'(by omega)).length = rowsIn p := by
      have := congrArg (fun q : List Nat => q[i]?) hlens
      simpa only [List.getElem?_map, h3, hp, Option.map_some, Option.some.injEq] using this
    have e3 : chunkRows (datas.take i) = (spans[i]'(by omega)).start := by
      rw [e1, chunkRows_data fun p hp => hdata p (List.mem_of_mem_take hp), List.map_take]
    refine ⟨by rw [g3, e2], g4, g5, g6, ?_⟩
    rw [e3, ← e2]
    exact g7
  · intro hsort hwithin α contents hcont
    by_cases hne : oi.pageLocations = []
    · have h1 : filtered = [] := List.length_eq_zero_iff.1 (by rw [f3, hne]; rfl)
      have h2 : datas = [] := List.length_eq_zero_iff.1 (by rw [← hll, hne]; rfl)
      have h3 : contents = [] := by simpa [h2] using hcont
      simp [h1, h3, selectRows]
    · have hlen : contents.flatten.length = chunkRows datas := by
        rw [List.length_flatten, hcont, hrows']
      obtain ⟨pages, p1, p2⟩ := Props.C28_column ck ivs oi.pageLocations contents.flatten contents
        (by omega) (by rw [hlen]; exact hlegal)
        (fun l hlm => by
          have := (hhead l hlm).1
          exact BitVec.toInt_inj.1 (by simpa using this)) hne
        (fun l hlm => by
          obtain ⟨i, p, h1, h2⟩ := hget l hlm
          obtain ⟨h3, h4, -⟩ := hloc i l p h1 h2
          exact ⟨h3, h4⟩) hsort (by rw [hlen]; exact hwithin) rfl
      rw [hlen, f1] at p1
      injection p1 with p1
      subst p1
      refine p2 ?_
      rw [hcont, ← hlens]
      refine List.ext_getElem? fun i => ?_
      rw [List.getElem?_map, List.getElem?_map]
      by_cases hi : i < spans.length
      · have h2 : oi.pageLocations[i]? = some (oi.pageLocations[i]'(by omega)) := by simp
        have h3 : spans[i]? = some (spans[i]'(by omega)) := by simp
        have h4 : filtered[i]? = some (filtered[i]'(by omega)) := by simp
        obtain ⟨-, -, g3, -⟩ := f5 i _ _ _ h2 h4 h3
        rw [h3, h4, Option.map_some, Option.map_some, g3]
      · rw [List.getElem?_eq_none (by omega), List.getElem?_eq_none (by omega)]
        rfl
  · -- what is where
    have hat : ∀ y ∈ filtered.zip datas,
        At cs.page limit column.compression column.descriptor file y.1.start y.1.length y.2 := by
      intro y hy
      obtain ⟨i, hi, rfl⟩ := List.mem_iff_getElem.1 hy
      rw [List.length_zip] at hi
      rw [List.getElem_zip]
      have h2 : oi.pageLocations[i]? = some (oi.pageLocations[i]'(by omega)) := by simp
      have h3 : spans[i]? = some (spans[i]'(by omega)) := by simp
      have h4 : filtered[i]? = some (filtered[i]'(by omega)) := by simp
      have h5 : datas[i]? = some (datas[i]'(by omega)) := by simp
      obtain ⟨g1, g2, -⟩ := f5 i _ _ _ h2 h4 h3
      obtain ⟨-, -, g3, -⟩ := hloc i _ _ h2 h5
      have hm : datas[i]'(by omega) ∈ c.2 := by
        rw [hc]
        exact List.mem_append_right _ (List.getElem_mem _)
      refine ⟨?_, by
        have := BitVec.toInt_lt (x := (oi.pageLocations[i]'(by omega)).compressedPageSize)
        simp only
        omega, hlim _ hm, w4 _ hm, hxp _ hm, fun q hq => hd _ hm q hq⟩
      rw [← g3]
      congr 1 <;> simp only <;> omega
    have hmap : (filtered.zip datas).map (·.1) = filtered := List.map_fst_zip (by omega)
    -- where the column starts
    have hcs : datas ≠ [] → asUsize m.dataPageOffset = pos ∧ startOf chunk = pos := by
      intro hne
      have hp : c.2 ≠ [] := by
        rw [hc]
        simp [hne]
      have h1 := w2.start hp
      have := asUsize_nonneg (Nat.le_refl 64) m.dataPageOffset (by omega)
      refine ⟨by omega, ?_⟩
      rw [startOf, w1]
      exact h1
    have hfirst : ∀ y, (filtered.zip datas).head? = some y → y.1.start =
        asUsize m.dataPageOffset + ((dict.toList.map .dict).map (pageBytes cs.page)).flatten.length ∧
        asUsize m.dataPageOffset = pos ∧ y.1.start < 2 ^ 63 := by
      intro y hy
      cases hf : filtered with
      | nil => rw [hf] at hy; simp at hy
      | cons f fs =>
        cases hda : datas with
        | nil => rw [hda] at hy; simp at hy
        | cons p ps =>
          rw [hf, hda] at hy
          simp only [List.zip_cons_cons, List.head?_cons, Option.some.injEq] at hy
          subst hy
          obtain ⟨e1, e2⟩ := hcs (by rw [hda]; simp)
          cases hol : oi.pageLocations with
          | nil => rw [hol, hda] at hll; simp at hll
          | cons l ls =>
            have h3 : spans[0]? = some (spans[0]'(by rw [f4, hol]; simp)) := by simp
            obtain ⟨g1, -⟩ := f5 0 l f _ (by rw [hol]; rfl) (by rw [hf]; rfl) h3
            have := (hhead l (by rw [hol]; rfl)).2
            have := BitVec.toInt_lt (x := l.offset)
            exact ⟨by simp only; omega, e1, by simp only; omega⟩
    have key := Props.C37_indexed cs.page limit hl ck file column (filtered.zip datas)
      (dict.getD ⟨[], .uncompressed, 0, 0, false⟩) hat
      (fun y hy => by
        have := (hfirst y hy).1
        show asUsize m.dataPageOffset ≤ _
        omega)
      (fun y hy hlt => by
        obtain ⟨e1, e2, e3⟩ := hfirst y hy
        change asUsize m.dataPageOffset < _ at hlt
        cases hdi : dict with
        | none => rw [hdi] at e1; simp at e1; omega
        | some d =>
          have hm : CompressedPage.dict d ∈ c.2 := by rw [hc, hdi]; simp
          refine ⟨?_, by omega, hlim _ hm, w4 _ hm, hxp _ hm, fun q hq => by cases hq⟩
          have hreg : chunkBytes cs.page c.2 =
              pageBytes cs.page (.dict d) ++ (datas.map (pageBytes cs.page)).flatten := by
            rw [chunkBytes, hc, hdi]
            simp
          rw [hreg] at w3
          have := (region_split w3).1
          rw [hdi] at e1
          simp only [Option.toList_some, List.map_cons, List.map_nil, List.flatten_cons, List.flatten_nil,
            List.append_nil] at e1
          show region file (asUsize m.dataPageOffset) (y.1.start - asUsize m.dataPageOffset) = _
          rw [e1, Nat.add_sub_cancel_left, e2]
          exact this)
    rw [hmap] at key
    obtain ⟨last, key⟩ := key
    refine ⟨_, last, hcol filtered, ?_⟩
    have hdf : dictFirst column.columnStart filtered (dict.getD ⟨[], .uncompressed, 0, 0, false⟩) =
        if datas = [] then [] else dict.toList.map fun d => readBack (.dict d) := by
      cases hf : filtered with
      | nil =>
        rw [hf] at f3
        have : datas = [] := List.length_eq_zero_iff.1 (by rw [← hll, ← f3]; rfl)
        simp [dictFirst, this]
      | cons f fs =>
        cases hda : datas with
        | nil => rw [hf, hll, hda] at f3; simp at f3
        | cons p ps =>
          obtain ⟨e1, e2⟩ := hfirst (f, p) (by rw [hf, hda]; rfl)
          rw [if_neg (by simp), dictFirst]
          change (if asUsize m.dataPageOffset < f.start then _ else _) = _
          cases hdi : dict with
          | none =>
            rw [hdi] at e1
            simp at e1
            rw [if_neg (by omega)]
            rfl
          | some d =>
            rw [hdi] at e1
            have := ser_nonempty hl hs (headerOf (.dict d))
            simp [pageBytes] at e1
            rw [if_pos (by omega)]
            rfl
    rw [hdf] at key
    exact key

/-- Selected rows of the columns of a row group in the file are read. -/
theorem selections_read {cs : ThriftCodecs} {limit : Thrift.PageHeader → Nat}
    (hl : LawfulCodec cs.page limit) (hs : SaneCodec cs.page) {offsetLimit : Thrift.OffsetIndex → Nat}
    (ho : LawfulCodec cs.offsetIndex offsetLimit) {stats : Bool} {file : List Byte}
    (hlen : file.length < 2 ^ 63) {columns : List (ColumnDescriptor × List CompressedPage)}
    {rg : Thrift.RowGroup} (h : GroupWritten cs stats file columns rg)
    {gm : RowGroupMetaData} (h1 : gm.columns.map (·.columnChunk) = rg.columns)
    (h2 : gm.columns.map (·.columnDescr) = columns.map (·.1)) :
    SelectionsRead cs limit offsetLimit file columns gm := by
  obtain ⟨pos, ois, hp, h3, h4⟩ := h.offsetIndexes
  have hle := fun oi (hm : oi ∈ ois) => h3.le (List.mem_map.2 ⟨oi, hm, rfl⟩)
  rw [← h1] at h3
  refine ⟨ois, hle, fun hsmall ck => readPagesLocations_ok ho ck h3 (fun oi hm => (hsmall oi hm).1)
    (by omega) hlen fun oi hm => (hsmall oi hm).2, ?_⟩
  have hch := h.chunks
  have hl1 := hch.length_eq
  have hl2 := h4.length_eq
  rw [List.length_zip, ← hl1, Nat.min_self] at hl2
  have hl3 : gm.columns.length = rg.columns.length := by simpa using congrArg List.length h1
  refine ⟨by omega, by omega, ?_⟩
  intro i c cm oi hc hcm hoi hk hr hd hlim dict datas e hdata
  have hi := (List.getElem?_eq_some_iff.1 hc).1
  have e1 : rg.columns[i]? = some cm.columnChunk := by
    rw [← h1, List.getElem?_map, hcm]
    rfl
  have e2 : cm.columnDescr = c.1 := by
    have := congrArg (fun q : List ColumnDescriptor => q[i]?) h2
    simpa [hc, hcm] using this
  obtain ⟨ha, hb⟩ := List.forall₂_iff_get.1 hch
  have hcw := hb i hi (by omega)
  obtain ⟨ha', hb'⟩ := List.forall₂_iff_get.1 h4
  have how := hb' i (by rw [List.length_zip]; omega) (by omega)
  simp only [List.get_eq_getElem, List.getElem_zip] at hcw how
  rw [(List.getElem?_eq_some_iff.1 hc).2, (List.getElem?_eq_some_iff.1 e1).2] at hcw how
  rw [(List.getElem?_eq_some_iff.1 hoi).2] at how
  have : cm = ⟨cm.columnChunk, c.1⟩ := by rw [← e2]
  rw [this]
  exact selection_reads hl hs hcw how hk hr hd hlim e hdata

end Pq
