import Verif.Lemmas.WriterRanges
import Verif.Spec.WholeFile
/-
Lemmas about reading back a file that was written.
-/
namespace Pq

open Spec

theorem compression_ofThrift {c : Compression} {x : I32} (h : (c, x.toNat) ∈ compressionTable) :
    Compression.ofThrift x = .ok c := by
  have : ∀ y ∈ compressionTable, Compression.ofThrift (BitVec.ofNat 32 y.2) = .ok y.1 := by
    intro y hy
    simp only [compressionTable, List.mem_cons, List.not_mem_nil, or_false] at hy
    rcases hy with rfl | rfl | rfl | rfl | rfl | rfl | rfl | rfl <;> rfl
  have := this _ h
  simpa using this

theorem pageOk_congr {c c' : Compression} {d : Descriptor} {p : CompressedPage} (h : PageOk c d p)
    (hc : p.compression = c') : PageOk c' d p := by
  cases p with
  | dict p => exact hc
  | data p => exact ⟨hc, h.2⟩

theorem pageStats_ofType {pt : PrimitiveType} {p : CompressedPage} {s : Statistics}
    (h : pageStats p = some s) (hp : ∀ q, p = .data q → q.descriptor.primitiveType = pt) : OfType s pt := by
  rw [pageStats] at h
  split at h
  · rename_i r hr
    subst h
    cases p with
    | dict p => cases hr
    | data q =>
      rw [pageStatistics] at hr
      split at hr
      · cases hr
      · rename_i v hv
        obtain ⟨s', h1, h2⟩ := map'_ok _ _ _ hr
        injection h2 with h2
        subst h2
        rw [hp q rfl] at h1
        have hc := Props.C48_read v pt
        by_cases hw : WidthsOk v pt.physicalType
        · obtain ⟨s2, e, ho, -⟩ := hc.1 hw
          rw [h1] at e
          injection e with e
          exact e ▸ ho
        · rw [hc.2 hw] at h1
          cases h1
  · cases h

/-- Merged statistics are of the type of the pages. -/
theorem reduce_ofType {ck : Bool} {pages : List (Option Statistics)} {r : Statistics} {pt : PrimitiveType}
    (h : reduceStatistics ck pages = .ok (some r)) (hp : ∀ s, some s ∈ pages → OfType s pt) :
    OfType r pt := by
  obtain ⟨hm, -⟩ := reduceStatistics_ok ck pages r h
  have hp' : ∀ s ∈ pages.filterMap id, OfType s pt := by
    intro s hs
    obtain ⟨a, ha, hb⟩ := List.mem_filterMap.1 hs
    simp only [id] at hb
    subst hb
    exact hp s ha
  have prim : ∀ {α : Type} (gt : α → α → Bool) (l : List (PrimitiveStatistics α)) (x : PrimitiveStatistics α)
      (mk : PrimitiveStatistics α → Statistics), reducePrimitive ck gt l = .ok x →
      pages.filterMap id = l.map mk → ∃ f, OfType (mk f) pt ∧ x.primitiveType = f.primitiveType := by
    intro α gt l x mk hx hl
    have e := (reducePrimitive_counts ck gt l x hx).2
    cases l with
    | nil => simp at e
    | cons f fs =>
      simp only [List.head?_cons, Option.map_some, Option.some.injEq] at e
      exact ⟨f, hp' _ (by rw [hl]; simp), e⟩
  cases hm with
  | boolean l x hl hx =>
    cases l with
    | nil => cases hx
    | cons f fs => exact hp' (.boolean f) (by rw [hl]; simp)
  | int32 l x hl hx =>
    obtain ⟨f, h1, h2⟩ := prim _ l x _ hx hl
    exact ⟨h2.trans h1.1, h1.2⟩
  | int64 l x hl hx =>
    obtain ⟨f, h1, h2⟩ := prim _ l x _ hx hl
    exact ⟨h2.trans h1.1, h1.2⟩
  | float l x hl hx =>
    obtain ⟨f, h1, h2⟩ := prim _ l x _ hx hl
    exact ⟨h2.trans h1.1, h1.2⟩
  | double l x hl hx =>
    obtain ⟨f, h1, h2⟩ := prim _ l x _ hx hl
    exact ⟨h2.trans h1.1, h1.2⟩
  | binary l x hl hx =>
    have e := (reduceBinary_counts ck l x hx).2
    cases l with
    | nil => simp at e
    | cons f fs =>
      simp only [List.head?_cons, Option.map_some, Option.some.injEq] at e
      have h1 := hp' (.binary f) (by rw [hl]; simp)
      exact ⟨e.trans h1.1, h1.2⟩
  | fixedLen l x hl hx =>
    have e := (reduceFixLenBinary_counts ck l x hx).2
    cases hl' : l with
    | nil => rw [hl'] at e; simp at e
    | cons f fs =>
      rw [hl'] at e
      simp only [List.head?_cons, Option.map_some, Option.some.injEq] at e
      obtain ⟨h1, n, h2, -⟩ := hp' (.fixedLen f) (by rw [hl, hl']; simp)
      obtain ⟨b1, b2⟩ := Props.C47_fixed_len ck pages _ pt n h2 h hp
      have hlen : ∀ s ∈ l, (∀ y, s.maxValue = some y → y.length = n) ∧
          ∀ y, s.minValue = some y → y.length = n := by
        intro s hs
        obtain ⟨-, n', e1, e2⟩ := hp' (.fixedLen s) (by rw [hl]; exact List.mem_map_of_mem hs)
        rw [h2] at e1
        injection e1 with e1
        exact e1 ▸ e2
      rw [hl, List.map_map] at b1 b2
      refine ⟨e.trans h1, n, h2, fun y hy => ?_, fun y hy => ?_⟩
      · simp only [bytesMax, hy, Extremum] at b2
        obtain ⟨s, hs, e3⟩ := List.mem_map.1 b2.1
        exact (hlen s hs).1 y e3
      · simp only [bytesMin, hy, Extremum] at b1
        obtain ⟨s, hs, e3⟩ := List.mem_map.1 b1.1
        exact (hlen s hs).2 y e3

/-- The statistics of a chunk are read as those that were merged. -/
theorem statistics_tell {ck : Bool} {pages : List (Option Statistics)} {r : Option Statistics}
    {v : Option Thrift.Statistics} {pt : PrimitiveType} (h : reduceStatistics ck pages = .ok r)
    (hv : optionMapRes serializeStatistics r = .ok v) (hp : ∀ s, some s ∈ pages → OfType s pt) :
    StatisticsTell pages (v.map fun x => deserializeStatistics x pt) := by
  cases r with
  | none =>
    injection hv with hv
    subst hv
    exact (Props.C46_outcome ck pages).1.1 h
  | some s =>
    obtain ⟨x, h1, h2⟩ := map'_ok _ _ _ hv
    subst h2
    have hrt := Props.C48_roundtrip s pt (reduce_ofType h hp)
    rw [h1] at hrt
    obtain ⟨c1, -, c2, -⟩ := Props.C46_counts ck pages s h
    refine ⟨s, hrt, ?_, c2, c1, Props.C46_bounds_partial ck pages s h, Props.C47_bounds_partial ck pages s h⟩
    by_contra hn
    have : reduceStatistics ck pages = .ok none := by
      refine (Props.C46_outcome ck pages).1.2 fun p hpp => ?_
      cases p with
      | none => rfl
      | some t => exact absurd ⟨t, hpp⟩ hn
    rw [h] at this
    cases this

theorem column_tells {cs : ThriftCodecs} {file : List Byte} {c : ColumnDescriptor × List CompressedPage}
    {chunk : Thrift.ColumnChunk} (h : ColumnWritten cs file c chunk) (hr : Readable c)
    {cm : ColumnChunkMetaData} (h1 : cm.columnChunk = chunk) (h2 : cm.columnDescr = c.1) :
    ColumnTells cs.page file c cm := by
  obtain ⟨pos, m, w1, w2, w3, w4, w5, w6, w7, w8⟩ := h
  have hm : cm.metadata = .ok m := by rw [ColumnChunkMetaData.metadata, h1, w1]; rfl
  obtain ⟨ck, r, s1, s2⟩ := w2.statistics
  refine ⟨?_, ?_, ?_, ?_, ?_, ?_, ⟨m.encodings, ?_, w2.encodings, w2.encodings_mem⟩, ⟨?_, ?_⟩, fun hne =>
    ⟨pos, ?_, ?_, w4⟩, ?_, m.statistics.map fun x => deserializeStatistics x c.1.descriptor.primitiveType, ?_,
    ?_⟩
  · rw [ColumnChunkMetaData.physicalType, h2]
  · rw [ColumnChunkMetaData.filePath, h1, w6]
  · rw [ColumnChunkMetaData.numValues, hm]
    simp only [Res.map', w2.values]
  · rw [ColumnChunkMetaData.compressedSize, hm]
    simp only [Res.map', w2.compressed]
  · rw [ColumnChunkMetaData.uncompressedSize, hm]
    simp only [Res.map', w2.uncompressed]
  · intro p hp
    rw [ColumnChunkMetaData.compression, hm]
    simp only [Res.ok_bind, compression_ofThrift (w2.codec p hp)]
  · rw [ColumnChunkMetaData.columnEncoding, hm]; rfl
  · rw [ColumnChunkMetaData.hasIndexPage, hm]
    simp [Res.map', w2.plain.2.1]
  · rw [ColumnChunkMetaData.indexPageOffset, hm]
    simp [Res.map', w2.plain.2.1]
  · rw [ColumnChunkMetaData.dataPageOffset, hm]
    simp only [Res.map', w2.start hne]
  · rw [ColumnChunkMetaData.fileOffset, h1, w8 hne]
  · rw [ColumnChunkMetaData.dictionaryPageOffset, hm]
    simp only [Res.map', w2.noDictionary]
  · rw [ColumnChunkMetaData.statistics, hm, h2]
    rfl
  · refine statistics_tell s1 s2 fun s hs => ?_
    obtain ⟨p, hp, e⟩ := List.mem_map.1 hs
    refine pageStats_ofType e fun q hq => ?_
    have := hr.ok p hp
    rw [hq] at this
    rw [this.2.1]

/-- A chunk in the file is read. -/
theorem column_reads {cs : ThriftCodecs} {limit : Thrift.PageHeader → Nat}
    (hl : LawfulCodec cs.page limit) (hs : SaneCodec cs.page) {file : List Byte}
    {c : ColumnDescriptor × List CompressedPage} {chunk : Thrift.ColumnChunk}
    (h : ColumnWritten cs file c chunk) (hr : Readable c) :
    ∃ cm, ColumnChunkMetaData.tryFromThrift c.1 chunk = .ok cm ∧ ColumnReads cs.page limit file c cm := by
  have htells := fun cm => column_tells (cm := cm) h hr
  obtain ⟨pos, m, h1, h2, -, h3, h4, -⟩ := h
  -- the codec
  obtain ⟨x, hx, hxp⟩ : ∃ x, Compression.ofThrift m.codec = .ok x ∧ ∀ p ∈ c.2, p.compression = x := by
    cases hp : c.2 with
    | nil => exact ⟨.uncompressed, by rw [(h2.noPages hp).2]; rfl, by simp⟩
    | cons p ps =>
      have h5 := compression_ofThrift (h2.codec p (by simp [hp]))
      refine ⟨_, h5, fun q hq => ?_⟩
      have h6 := compression_ofThrift (h2.codec q (by rw [hp]; exact hq))
      rw [h5] at h6
      injection h6 with h6
      exact h6.symm
  have hoff : 0 ≤ m.dataPageOffset.toInt := by
    by_cases hp : c.2 = []
    · rw [(h2.noPages hp).1]; decide
    · rw [h2.start hp]; omega
  have hsize : 0 ≤ m.totalCompressedSize.toInt := by rw [h2.compressed]; omega
  let column : PageMetaData := { columnStart := asUsize m.dataPageOffset, numValues := m.numValues
                                 compression := x, descriptor := c.1.descriptor }
  have hbefore : ∀ (filter : PageFilter) (scratch : List Byte) (max : Nat) (rest : List Byte),
      (∀ p ∈ c.2, p.buffer.length ≤ max ∧ limit (headerOf p) ≤ max) →
      Before cs.page limit x c.1.descriptor filter max rest
        (PageReader.new (chunkBytes cs.page c.2 ++ rest) column filter scratch max) c.2 := by
    intro filter scratch max rest hmax
    refine ⟨rfl, rfl, rfl, rfl, rfl, by simp [PageReader.new], ?_, ?_, hr.last⟩
    · simp [PageReader.new, valuesSum, column, h2.values, chunkValues]
    · exact fun p hp => ⟨pageOk_congr (hr.ok p hp) (hxp p hp), h4 p hp, hmax p hp⟩
  have hpull : ∀ (ck : Bool) (filter : PageFilter) (scratch : List Byte) (max : Nat) (rest : List Byte),
      (∀ p ∈ c.2, p.buffer.length ≤ max ∧ limit (headerOf p) ≤ max) →
      ∃ last, Pulls (PageReader.next cs.page ck)
        (PageReader.new (chunkBytes cs.page c.2 ++ rest) column filter scratch max)
        ((c.2.filter (passes filter c.1.descriptor)).map fun p => .ok (readBack p)) last := by
    intro ck filter scratch max rest hmax
    obtain ⟨t, h5, -⟩ := (hbefore filter scratch max rest hmax).pulls hl hs ck _ c.2 rfl
    exact ⟨t, h5⟩
  have hmeta : (⟨chunk, c.1⟩ : ColumnChunkMetaData).pageMetaData = .ok column := by
    simp only [ColumnChunkMetaData.byteRange, ColumnChunkMetaData.pageMetaData,
      ColumnChunkMetaData.numValues, ColumnChunkMetaData.compression, ColumnChunkMetaData.metadata, h1,
      Res.unwrap, Res.ok_bind, Res.map', hx, h2.noDictionary, column]
  have hrange : (⟨chunk, c.1⟩ : ColumnChunkMetaData).byteRange =
      .ok (asUsize m.dataPageOffset, (chunkBytes cs.page c.2).length) := by
    have e := asUsize_nonneg (Nat.le_refl 64) _ hsize
    have := h2.compressed
    simp only [ColumnChunkMetaData.byteRange, ColumnChunkMetaData.metadata, h1, Res.unwrap, Res.ok_bind,
      h2.noDictionary]
    rw [show asUsize m.totalCompressedSize = (chunkBytes cs.page c.2).length by omega]
  -- the pages and what follows
  obtain ⟨rest, hrest⟩ : ∃ rest, file.drop (asUsize m.dataPageOffset) =
      chunkBytes cs.page c.2 ++ rest := by
    by_cases hp : c.2 = []
    · exact ⟨_, by rw [hp]; rfl⟩
    · have e : asUsize m.dataPageOffset = pos := by
        have := asUsize_nonneg (Nat.le_refl 64) _ hoff
        have := h2.start hp
        omega
      refine ⟨(file.drop pos).drop (chunkBytes cs.page c.2).length, ?_⟩
      rw [e]
      have := List.take_append_drop (chunkBytes cs.page c.2).length (file.drop pos)
      rw [region] at h3
      rw [h3] at this
      exact this.symm
  refine ⟨⟨chunk, c.1⟩, ?_, rfl, ?_, ?_, ?_, ?_, htells _ rfl rfl⟩
  · rw [ColumnChunkMetaData.tryFromThrift, h1]
    simp only [Res.ofOption, Res.ok_bind, toUsize_ok _ hsize, h2.noDictionary, toUsize_ok _ hoff, hx,
      transposeMap]
  · intro ck filter scratch max hmax
    have hit : getPageIterator ⟨chunk, c.1⟩ file filter scratch max =
        .ok (PageReader.new (file.drop (asUsize m.dataPageOffset)) column (filter.getD fun _ _ => true)
          scratch max) := by
      simp only [getPageIterator, hrange, hmeta]
    obtain ⟨t, h5⟩ := hpull ck (filter.getD fun _ _ => true) scratch max rest hmax
    rw [← hrest] at h5
    exact ⟨_, t, hit, h5⟩
  · have h63 : (chunkBytes cs.page c.2).length < 2 ^ 63 := by
      have := h2.compressed
      have := m.totalCompressedSize.isLt
      have := BitVec.toInt_lt (x := m.totalCompressedSize)
      omega
    simp only [readColumn, hrange, Res.ok_bind]
    rw [if_neg (by omega), hrest, List.take_left]
  · refine ⟨column, hmeta, fun ck filter scratch max hmax => ?_⟩
    have := hpull ck filter scratch max [] hmax
    rwa [List.append_nil] at this
  · intro ck filter scratch max hmax
    have hit : getPageIterator ⟨chunk, c.1⟩ file filter scratch max =
        .ok (PageReader.new (file.drop (asUsize m.dataPageOffset)) column (filter.getD fun _ _ => true)
          scratch max) := by
      simp only [getPageIterator, hrange, hmeta]
    have hb := hbefore (filter.getD fun _ _ => true) scratch max rest hmax
    rw [← hrest] at hb
    exact ⟨_, _, hit, Before.serves hl hs ck x c.1.descriptor (filter.getD fun _ _ => true) max rest,
      c.2, hb, rfl⟩

theorem columns_read {cs : ThriftCodecs} {limit : Thrift.PageHeader → Nat}
    (hl : LawfulCodec cs.page limit) (hs : SaneCodec cs.page) {file : List Byte}
    {columns : List (ColumnDescriptor × List CompressedPage)} {chunks : List Thrift.ColumnChunk}
    (h : List.Forall₂ (ColumnWritten cs file) columns chunks) (hr : ∀ c ∈ columns, Readable c) :
    ∃ cms, collectRes ((chunks.zip (columns.map (·.1))).map fun x =>
        ColumnChunkMetaData.tryFromThrift x.2 x.1) = .ok cms ∧
      List.Forall₂ (ColumnReads cs.page limit file) columns cms := by
  suffices ∃ cms, (chunks.zip (columns.map (·.1))).map (fun x =>
        ColumnChunkMetaData.tryFromThrift x.2 x.1) = cms.map .ok ∧
      List.Forall₂ (ColumnReads cs.page limit file) columns cms by
    obtain ⟨cms, h1, h2⟩ := this
    exact ⟨cms, (collectRes_ok_iff _ _).2 h1, h2⟩
  induction h with
  | nil => exact ⟨[], rfl, .nil⟩
  | cons h1 h2 ih =>
    obtain ⟨cms, i1, i2⟩ := ih fun c hc => hr c (List.mem_cons_of_mem _ hc)
    obtain ⟨cm, j1, j2⟩ := column_reads hl hs h1 (hr _ (by simp))
    exact ⟨cm :: cms, by simp [i1, j1], .cons j2 i2⟩

theorem sumUsize_eq {ck : Bool} {acc : Nat} {xs : List Nat} (h : acc + xs.sum < 2 ^ 64) :
    sumUsize ck acc xs = .ok (acc + xs.sum) := by
  induction xs generalizing acc with
  | nil => rfl
  | cons x xs ih =>
    simp only [List.sum_cons] at h ⊢
    rw [sumUsize, uadd, if_pos (by omega)]
    simp only [Res.ok_bind]
    rw [ih (by omega), Nat.add_assoc]

theorem compressedSize_eq {codec : Codec Thrift.PageHeader} {limit : Thrift.PageHeader → Nat}
    {file : List Byte} {columns : List (ColumnDescriptor × List CompressedPage)}
    {group : RowGroupMetaData} (h : List.Forall₂ (ColumnReads codec limit file) columns group.columns)
    (ck : Bool) (hs : (columns.map fun c => (chunkBytes codec c.2).length).sum < 2 ^ 64) :
    group.compressedSize ck = .ok (columns.map fun c => (chunkBytes codec c.2).length).sum := by
  have e : group.columns.map (fun c => c.compressedSize.map' fun x => asUsize x) =
      (columns.map fun c => (chunkBytes codec c.2).length).map .ok := by
    generalize group.columns = cms at h
    clear hs
    induction h with
    | nil => rfl
    | cons h1 h2 ih =>
      simp only [List.map_cons, ih, List.cons.injEq, and_true]
      obtain ⟨x, e1, e2⟩ := map'_ok _ _ _ h1.tells.compressed
      rw [e1]
      have := asUsize_nonneg (Nat.le_refl 64) x (by omega)
      simp only [Res.map', Res.ok.injEq]
      omega
  rw [RowGroupMetaData.compressedSize, (collectRes_ok_iff _ _).2 e]
  simp only [Res.ok_bind]
  rw [sumUsize_eq (by omega), Nat.zero_add]

/-- A row group in the file is read. -/
theorem group_reads {cs : ThriftCodecs} {limit : Thrift.PageHeader → Nat}
    (hl : LawfulCodec cs.page limit) (hs : SaneCodec cs.page) {file : List Byte} {stats : Bool}
    {schema : SchemaDescriptor} {g : List (List CompressedPage)} {rg : Thrift.RowGroup}
    (h : GroupWritten cs stats file (schema.leaves.zip g) rg) (hlen : schema.leaves.length ≤ g.length)
    (hr : ∀ c ∈ schema.leaves.zip g, Readable c) (hk : GroupRowsKnown (schema.leaves.zip g)) :
    ∃ gm, RowGroupMetaData.tryFromThrift schema rg = .ok gm ∧
      GroupReads cs limit file (schema.leaves.zip g) gm := by
  obtain ⟨cms, h1, h2⟩ := columns_read hl hs h.chunks hr
  have e : (schema.leaves.zip g).map (·.1) = schema.leaves := by
    rw [List.map_fst_zip hlen]
  rw [e] at h1
  have hn : schema.leaves.length = rg.columns.length := by
    have := h.chunks.length_eq
    rw [List.length_zip, Nat.min_eq_left hlen] at this
    exact this
  have hrows := groupWritten_rows h hk
  have hsize := h.totals.uncompressed
  have hcomp : ((schema.leaves.zip g).map fun c => (chunkBytes cs.page c.2).length).sum < 2 ^ 63 := by
    have := h.totals.compressed
    cases ht : rg.totalCompressedSize with
    | none => rw [ht] at this; cases this
    | some x =>
      rw [ht] at this
      have e := Option.some.inj this
      dsimp only at e
      have := BitVec.toInt_lt (x := x)
      omega
  refine ⟨⟨cms, groupRows (schema.leaves.zip g), _⟩, ?_, rfl, rfl, fun ck => ?_, h2⟩
  rotate_left
  · exact compressedSize_eq h2 ck (by omega)
  rw [RowGroupMetaData.tryFromThrift, if_neg (by omega), toUsize_ok _ (by omega), toUsize_ok _ (by omega),
    hrows, hsize, h1]
  rfl

theorem groups_read {cs : ThriftCodecs} {limit : Thrift.PageHeader → Nat}
    (hl : LawfulCodec cs.page limit) (hs : SaneCodec cs.page) {file : List Byte} {stats : Bool}
    {schema : SchemaDescriptor} {groups : List (List (List CompressedPage))} {rgs : List Thrift.RowGroup}
    (h : List.Forall₂ (fun g rg => GroupWritten cs stats file (schema.leaves.zip g) rg) groups rgs)
    (hlen : ∀ g ∈ groups, schema.leaves.length ≤ g.length)
    (hr : ∀ g ∈ groups, ∀ c ∈ schema.leaves.zip g, Readable c)
    (hk : ∀ g ∈ groups, GroupRowsKnown (schema.leaves.zip g)) :
    ∃ gms, collectRes (rgs.map (RowGroupMetaData.tryFromThrift schema)) = .ok gms ∧
      List.Forall₂ (fun g gm => GroupReads cs limit file (schema.leaves.zip g) gm) groups gms := by
  suffices ∃ gms, rgs.map (RowGroupMetaData.tryFromThrift schema) = gms.map .ok ∧
      List.Forall₂ (fun g gm => GroupReads cs limit file (schema.leaves.zip g) gm) groups gms by
    obtain ⟨gms, h1, h2⟩ := this
    exact ⟨gms, (collectRes_ok_iff _ _).2 h1, h2⟩
  induction h with
  | nil => exact ⟨[], rfl, .nil⟩
  | cons h1 h2 ih =>
    obtain ⟨gms, i1, i2⟩ := ih (fun c hc => hlen c (List.mem_cons_of_mem _ hc))
      (fun c hc => hr c (List.mem_cons_of_mem _ hc)) (fun c hc => hk c (List.mem_cons_of_mem _ hc))
    obtain ⟨gm, j1, j2⟩ := group_reads hl hs h1 (hlen _ (by simp)) (hr _ (by simp)) (hk _ (by simp))
    exact ⟨gm :: gms, by simp [i1, j1], .cons j2 i2⟩

mutual
theorem buildTree_path (t base : ParquetType) (r d : BitVec 16) (path : List String) :
    ∀ c ∈ buildTree t base r d path, ∃ rest, c.pathInSchema = path ++ t.name :: rest := by
  intro c hc
  cases t with
  | primitive p =>
    simp only [buildTree, List.mem_singleton] at hc
    subst hc
    exact ⟨[], rfl⟩
  | group info l cv fields =>
    rw [buildTree] at hc
    obtain ⟨rest, h⟩ := buildTrees_path fields base _ _ (path ++ [info.name]) c hc
    exact ⟨rest, by rw [h, List.append_assoc]; rfl⟩
theorem buildTrees_path (ts : List ParquetType) (base : ParquetType) (r d : BitVec 16)
    (path : List String) : ∀ c ∈ buildTrees ts base r d path, ∃ rest, c.pathInSchema = path ++ rest := by
  intro c hc
  cases ts with
  | nil => simp [buildTrees] at hc
  | cons t ts =>
    rw [buildTrees, List.mem_append] at hc
    rcases hc with hc | hc
    · obtain ⟨rest, h⟩ := buildTree_path t base r d path c hc
      exact ⟨_, h⟩
    · exact buildTrees_path ts base r d path c hc
end

theorem leaves_path (name : String) (fields : List ParquetType) :
    ∀ c ∈ (SchemaDescriptor.new name fields).leaves, c.pathInSchema ≠ [] := by
  intro c hc
  simp only [SchemaDescriptor.new, List.mem_flatMap] at hc
  obtain ⟨f, -, hc⟩ := hc
  obtain ⟨rest, h⟩ := buildTree_path _ _ _ _ _ c hc
  simp [h]

/-- The chunks of a field, read into memory. -/
theorem readColumns_reads {codec : Codec Thrift.PageHeader} {limit : Thrift.PageHeader → Nat}
    {file : List Byte} {columns : List (ColumnDescriptor × List CompressedPage)}
    {chunks : List ColumnChunkMetaData} (h : List.Forall₂ (ColumnReads codec limit file) columns chunks)
    (hp : ∀ c ∈ columns, c.1.pathInSchema ≠ []) (field : String) :
    readColumns file field chunks = .ok (((columns.zip chunks).filter fun x =>
      x.1.1.pathInSchema.head? == some field).map fun x => (x.2, chunkBytes codec x.1.2)) := by
  induction h with
  | nil => rfl
  | @cons c chunk cs chunks h1 h2 ih =>
    have ih := ih fun c hc => hp c (List.mem_cons_of_mem _ hc)
    have hc := hp c (by simp)
    rw [readColumns, h1.descriptor, List.zip_cons_cons, List.filter_cons]
    cases hpath : c.1.pathInSchema with
    | nil => exact absurd hpath hc
    | cons root path =>
      simp only [List.head?_cons]
      by_cases hr : root = field
      · rw [if_pos hr, h1.bytes, ih]
        simp [hr, Res.map']
      · rw [if_neg hr, ih]
        simp [hr]

end Pq
