import Verif.Spec.Moved
import Verif.Lemmas.PageIO
/- Helper lemmas: writing at another offset. -/
namespace Pq
open Spec

/-- A page moved. -/
def moveSpec (k : Nat) (s : PageWriteSpec) : PageWriteSpec := { s with offset := s.offset + k }

theorem writePage_moved (codec : Codec Thrift.PageHeader) (o k : Nat) (p : CompressedPage) :
    writePage codec (o + k) p = ((writePage codec o p).1.map' (moveSpec k), (writePage codec o p).2) := by
  unfold writePage
  cases assembleHeader p with
  | err e => rfl
  | panic => rfl
  | ok h =>
    simp only
    cases pageStatistics p with
    | err e => rfl
    | panic => rfl
    | ok st => cases lastSelected p.selectedRows <;> rfl

theorem writePages_moved (codec : Codec Thrift.PageHeader) (o k : Nat) (ps : List (Res CompressedPage)) :
    writePages codec (o + k) ps =
      ((writePages codec o ps).1.map' (List.map (moveSpec k)), (writePages codec o ps).2) := by
  induction ps generalizing o with
  | nil => rfl
  | cons p ps ih =>
    cases p with
    | err e => rfl
    | panic => rfl
    | ok p =>
      rw [writePages, writePages, writePage_moved]
      rcases writePage codec o p with ⟨r, bytes⟩
      cases r with
      | err e => rfl
      | panic => rfl
      | ok s =>
        simp only [Res.map']
        rw [show o + k + (moveSpec k s).bytesWritten = (o + s.bytesWritten) + k by
          simp only [moveSpec]; omega, ih]
        rcases writePages codec (o + s.bytesWritten) ps with ⟨r, b⟩
        cases r <;> rfl

theorem addI64_false (a b : I64) : addI64 false a b = .ok (a + b) := by simp [addI64]

theorem chunkCompression_moved (k : Nat) (specs : List PageWriteSpec) :
    chunkCompression (specs.map (moveSpec k)) = chunkCompression specs := by
  cases specs with
  | nil => rfl
  | cons s ss =>
    simp only [List.map_cons, chunkCompression, List.all_map, moveSpec]
    rfl

theorem sumOf_moved (ck : Bool) (f : PageWriteSpec → Res I64) (hf : ∀ k s, f (moveSpec k s) = f s) (k : Nat)
    (specs : List PageWriteSpec) : sumOf ck f (specs.map (moveSpec k)) = sumOf ck f specs := by
  unfold sumOf
  rw [List.map_map, show f ∘ moveSpec k = f from funext fun s => hf k s]

/-- The metadata of a chunk moved. -/
def moveChunk (k : Nat) (c : Thrift.ColumnChunk) : Thrift.ColumnChunk :=
  { c with fileOffset := c.fileOffset + BitVec.ofNat 64 k
           metaData := c.metaData.map fun m => { m with dataPageOffset := m.dataPageOffset + BitVec.ofNat 64 k } }

theorem build_moved (k : Nat) (specs : List PageWriteSpec) (d : ColumnDescriptor) (h : specs ≠ []) :
    buildColumnChunk false (specs.map (moveSpec k)) d = (buildColumnChunk false specs d).map' (moveChunk k) := by
  have ho : asI64 (((specs.map (moveSpec k)).head?.map (·.offset)).getD 0) =
      asI64 ((specs.head?.map (·.offset)).getD 0) + BitVec.ofNat 64 k := by
    cases specs with
    | nil => exact absurd rfl h
    | cons s ss => simp [asI64, moveSpec, BitVec.ofNat_add]
  have hs : (specs.map (moveSpec k)).map (·.statistics) = specs.map (·.statistics) := by
    rw [List.map_map]; rfl
  have he : (specs.map (moveSpec k)).map specEncodings = specs.map specEncodings := by
    rw [List.map_map]; rfl
  unfold buildColumnChunk
  simp only [ho, hs, he, chunkCompression_moved]
  rw [sumOf_moved _ _ (fun _ _ => rfl), sumOf_moved _ _ (fun _ _ => rfl), sumOf_moved _ _ (fun _ _ => rfl)]
  simp only [addI64_false]
  cases chunkCompression specs with
  | err e => rfl
  | panic => rfl
  | ok c =>
  cases sumOf false (fun x => pageSize false x.headerSize x.header.compressedPageSize) specs with
  | err e => rfl
  | panic => rfl
  | ok c1 =>
  cases sumOf false (fun x => pageSize false x.headerSize x.header.uncompressedPageSize) specs with
  | err e => rfl
  | panic => rfl
  | ok c2 =>
  cases sumOf false specValues specs with
  | err e => rfl
  | panic => rfl
  | ok c3 =>
  cases collectRes (specs.map specEncodings) with
  | err e => rfl
  | panic => rfl
  | ok c4 =>
  cases reduceStatistics false (specs.map (·.statistics)) with
  | err e => rfl
  | panic => rfl
  | ok c5 =>
  simp only [Res.ok_bind]
  cases optionMapRes serializeStatistics c5 with
  | err e => rfl
  | panic => rfl
  | ok c6 =>
    simp only [Res.ok_bind, Res.map', moveChunk, Option.map_some]
    congr 2
    rw [BitVec.add_assoc, BitVec.add_comm (BitVec.ofNat 64 k), ← BitVec.add_assoc]

/-- The chunk built. -/
theorem build_shape (specs : List PageWriteSpec) (d : ColumnDescriptor) (c : Thrift.ColumnChunk)
    (h : buildColumnChunk false specs d = .ok c) :
    ∃ m, c = { fileOffset := c.fileOffset, metaData := some m } ∧ m.dictionaryPageOffset = none := by
  unfold buildColumnChunk at h
  revert h
  cases chunkCompression specs with
  | err e => intro h; cases h
  | panic => intro h; cases h
  | ok c =>
  cases sumOf false (fun x => pageSize false x.headerSize x.header.compressedPageSize) specs with
  | err e => intro h; cases h
  | panic => intro h; cases h
  | ok c1 =>
  cases sumOf false (fun x => pageSize false x.headerSize x.header.uncompressedPageSize) specs with
  | err e => intro h; cases h
  | panic => intro h; cases h
  | ok c2 =>
  simp only [Res.ok_bind]
  cases sumOf false specValues specs with
  | err e => intro h; cases h
  | panic => intro h; cases h
  | ok c3 =>
  cases collectRes (specs.map specEncodings) with
  | err e => intro h; cases h
  | panic => intro h; cases h
  | ok c4 =>
  cases reduceStatistics false (specs.map (·.statistics)) with
  | err e => intro h; cases h
  | panic => intro h; cases h
  | ok c5 =>
  simp only [Res.ok_bind]
  cases optionMapRes serializeStatistics c5 with
  | err e => intro h; cases h
  | panic => intro h; cases h
  | ok c6 =>
    simp only [Res.ok_bind, addI64_false, Res.ok.injEq]
    intro h
    subst h
    exact ⟨_, rfl, rfl⟩

/-- What there is of a column chunk independently of where it is written, or how it fails. -/
theorem writeColumnChunk_part (cs : ThriftCodecs) (d : ColumnDescriptor) (pages : List (Res CompressedPage)) :
    (∃ p : ChunkPart, p.metaData.dictionaryPageOffset = none ∧ ∀ o, writeColumnChunk cs false o d pages =
      (.ok (p.chunkAt o, p.pagesAt o, (p.data ++ cs.column.ser (p.metaAt o)).length),
        p.data ++ cs.column.ser (p.metaAt o))) ∨
    (∃ e bytes, ∀ o, writeColumnChunk cs false o d pages = (.err e, bytes)) ∨
    (∃ bytes, ∀ o, writeColumnChunk cs false o d pages = (.panic, bytes)) := by
  have hm : ∀ o, writePages cs.page o pages =
      ((writePages cs.page 0 pages).1.map' (List.map (moveSpec o)), (writePages cs.page 0 pages).2) := by
    intro o
    have := writePages_moved cs.page 0 o pages
    rwa [Nat.zero_add] at this
  rcases hw : writePages cs.page 0 pages with ⟨r, bytes⟩
  simp only [hw] at hm
  cases r with
  | err e => exact .inr (.inl ⟨e, bytes, fun o => by unfold writeColumnChunk; rw [hm]; rfl⟩)
  | panic => exact .inr (.inr ⟨bytes, fun o => by unfold writeColumnChunk; rw [hm]; rfl⟩)
  | ok specs =>
    obtain ⟨-, -, -, -, -, hlen⟩ := writePages_ok hw
    have hsum : ∀ o, ((specs.map (moveSpec o)).map (·.bytesWritten)).sum = bytes.length := by
      intro o
      rw [List.map_map, ← hlen]; rfl
    have hb : ∀ o, buildColumnChunk false (specs.map (moveSpec o)) d =
        (buildColumnChunk false specs d).map' (fun c => if specs = [] then c else moveChunk o c) := by
      intro o
      by_cases he : specs = []
      · subst he
        simp only [List.map_nil, if_true]
        cases buildColumnChunk false [] d <;> rfl
      · simp only [if_neg he]
        exact build_moved o specs d he
    cases hc : buildColumnChunk false specs d with
    | err e =>
      refine .inr (.inl ⟨e, bytes, fun o => ?_⟩)
      unfold writeColumnChunk
      rw [hm]
      simp only [Res.map', hb, hc]
    | panic =>
      refine .inr (.inr ⟨bytes, fun o => ?_⟩)
      unfold writeColumnChunk
      rw [hm]
      simp only [Res.map', hb, hc]
    | ok c =>
      obtain ⟨m, hcm, hmd⟩ := build_shape specs d c hc
      refine .inl ⟨⟨bytes, m, c.fileOffset, specs⟩, hmd, fun o => ?_⟩
      have hat : (if specs = [] then c else moveChunk o c) = ChunkPart.chunkAt ⟨bytes, m, c.fileOffset, specs⟩ o := by
        rw [hcm]
        simp only [ChunkPart.chunkAt, ChunkPart.metaAt, moveChunk]
        split <;> rfl
      unfold writeColumnChunk
      rw [hm]
      simp only [Res.map', hb, hc, hat, hsum]
      simp only [ChunkPart.chunkAt, List.length_append]
      rfl

theorem writeColumns_part (cs : ThriftCodecs) (ds : List ColumnDescriptor)
    (columns : List (Res (List (Res CompressedPage)))) :
    (∃ ps : List ChunkPart, (∀ p ∈ ps, p.metaData.dictionaryPageOffset = none) ∧ ∀ o, writeColumns cs false o ds columns =
      (.ok ((layout cs.column.ser o ps).1, (layout cs.column.ser o ps).2.length), (layout cs.column.ser o ps).2)) ∨
    (∃ e, ∀ o, (writeColumns cs false o ds columns).1 = .err e) ∨
    (∀ o, (writeColumns cs false o ds columns).1 = .panic) := by
  induction columns generalizing ds with
  | nil =>
    refine .inl ⟨[], by simp, fun o => ?_⟩
    cases ds <;> rfl
  | cons c columns ih =>
    cases ds with
    | nil => exact .inl ⟨[], by simp, fun o => rfl⟩
    | cons d ds =>
      cases c with
      | err e => exact .inr (.inl ⟨e, fun o => rfl⟩)
      | panic => exact .inr (.inr fun o => rfl)
      | ok pages =>
        rcases writeColumnChunk_part cs d pages with ⟨p, hd, hp⟩ | ⟨e, b, hp⟩ | ⟨b, hp⟩
        · rcases ih ds with ⟨ps, hds, hps⟩ | ⟨e, hps⟩ | hps
          · refine .inl ⟨p :: ps, by simpa [hd] using hds, fun o => ?_⟩
            rw [writeColumns, hp]
            simp only [hps, Res.map', layout, List.length_append, Nat.add_assoc]
          · refine .inr (.inl ⟨e, fun o => ?_⟩)
            rw [writeColumns, hp]
            simp only [hps, Res.map']
          · refine .inr (.inr fun o => ?_)
            rw [writeColumns, hp]
            simp only [hps, Res.map']
        · exact .inr (.inl ⟨e, fun o => by rw [writeColumns, hp]⟩)
        · exact .inr (.inr fun o => by rw [writeColumns, hp])

theorem layout_sum (ser : Thrift.ColumnMetaData → List Byte) (size : Thrift.ColumnMetaData → I64)
    (hs : ∀ (p : ChunkPart) o, size (p.metaAt o) = size p.metaData) (ck : Bool) (ps : List ChunkPart) (o : Nat) :
    sumColumns ck size (layout ser o ps).1 = sumI64 ck 0 (ps.map fun p => size p.metaData) := by
  have : ∀ o, collectRes ((layout ser o ps).1.map fun c => (Res.unwrap c.1.metaData).map' size) =
      .ok (ps.map fun p => size p.metaData) := by
    induction ps with
    | nil => intro o; rfl
    | cons p ps ih =>
      intro o
      have hc : (Res.unwrap (p.chunkAt o).metaData).map' size = .ok (size p.metaData) := by
        simp only [ChunkPart.chunkAt, Res.unwrap, Res.map', hs]
      simp only [layout, List.map_cons, collectRes, ih, hc, Res.ok_bind]
  unfold sumColumns
  rw [this]
  rfl

theorem sumRows_moved (ck : Bool) (k : Nat) (specs : List PageWriteSpec) (acc : I64) :
    sumRows ck acc ((specs.map fun s => { s with offset := s.offset + k }).filter isDataPage) =
      sumRows ck acc (specs.filter isDataPage) := by
  have hd : ∀ s : PageWriteSpec, isDataPage { s with offset := s.offset + k } = isDataPage s := fun _ => rfl
  induction specs generalizing acc with
  | nil => rfl
  | cons s ss ih =>
    simp only [List.map_cons, List.filter_cons, hd]
    cases isDataPage s with
    | false => simpa using ih acc
    | true =>
      simp only [if_true, sumRows]
      cases s.numRows with
      | none => rfl
      | some n =>
        simp only
        cases addI64 ck acc (asI64 n) with
        | ok acc => exact ih acc
        | err e => rfl
        | panic => rfl

theorem layout_rows (ser : Thrift.ColumnMetaData → List Byte) (ck : Bool) (ps : List ChunkPart) (o : Nat) :
    computeNumRows ck (layout ser o ps).1 = match ps with
      | [] => .ok 0
      | p :: _ => sumRows ck 0 (p.pages.filter isDataPage) := by
  cases ps with
  | nil => rfl
  | cons p ps =>
    simp only [layout, computeNumRows]
    exact sumRows_moved ck o p.pages 0

theorem writeRowGroup_part (cs : ThriftCodecs) (ds : List ColumnDescriptor)
    (columns : List (Res (List (Res CompressedPage)))) :
    (∃ (ps : List ChunkPart) (rows total compressed : I64), ∀ o n, writeRowGroup cs false o ds columns n =
      (.ok ({ columns := (layout cs.column.ser o ps).1.map (·.1), totalByteSize := total, numRows := rows
              fileOffset := ps.head?.map fun p => (p.metaAt o).dataPageOffset
              totalCompressedSize := some compressed, ordinal := ordinalOf n },
            (layout cs.column.ser o ps).1.map (·.2), (layout cs.column.ser o ps).2.length),
        (layout cs.column.ser o ps).2)) ∨
    (∃ e, ∀ o n, (writeRowGroup cs false o ds columns n).1 = .err e) ∨
    (∀ o n, (writeRowGroup cs false o ds columns n).1 = .panic) := by
  rcases writeColumns_part cs ds columns with ⟨ps, hd, hps⟩ | ⟨e, hps⟩ | hps
  · have hr := fun o => layout_rows cs.column.ser false ps o
    have h1 := fun o => layout_sum cs.column.ser (·.totalUncompressedSize)
      (fun p o => by simp only [ChunkPart.metaAt]; split <;> rfl) false ps o
    have h2 := fun o => layout_sum cs.column.ser (·.totalCompressedSize)
      (fun p o => by simp only [ChunkPart.metaAt]; split <;> rfl) false ps o
    have hf : ∀ o, (((layout cs.column.ser o ps).1.head?.map fun c => chunkFileOffset c.1).getD none) =
        ps.head?.map fun p => (p.metaAt o).dataPageOffset := by
      intro o
      cases ps with
      | nil => rfl
      | cons p ps =>
        have hp := hd p (by simp)
        have : (p.metaAt o).dictionaryPageOffset = none := by
          rw [← hp]; simp only [ChunkPart.metaAt]; split <;> rfl
        simp [layout, chunkFileOffset, ChunkPart.chunkAt, this]
    simp only [writeRowGroup, hps, buildRowGroup, hr, h1, h2, hf]
    generalize (match ps with | [] => Res.ok (0 : I64) | p :: _ => sumRows false 0 (p.pages.filter isDataPage)) = a
    generalize sumI64 false 0 (ps.map fun p => p.metaData.totalUncompressedSize) = b
    generalize sumI64 false 0 (ps.map fun p => p.metaData.totalCompressedSize) = c
    cases a with
    | err e => exact .inr (.inl ⟨e, fun _ _ => rfl⟩)
    | panic => exact .inr (.inr fun _ _ => rfl)
    | ok rows =>
    cases b with
    | err e => exact .inr (.inl ⟨e, fun _ _ => rfl⟩)
    | panic => exact .inr (.inr fun _ _ => rfl)
    | ok total =>
    cases c with
    | err e => exact .inr (.inl ⟨e, fun _ _ => rfl⟩)
    | panic => exact .inr (.inr fun _ _ => rfl)
    | ok compressed => exact .inl ⟨ps, rows, total, compressed, fun _ _ => rfl⟩
  · refine .inr (.inl ⟨e, fun o n => ?_⟩)
    have := hps o
    unfold writeRowGroup
    rcases hw : writeColumns cs false o ds columns with ⟨r, b⟩
    rw [hw] at this
    simp only at this
    subst this
    rfl
  · refine .inr (.inr fun o n => ?_)
    have := hps o
    unfold writeRowGroup
    rcases hw : writeColumns cs false o ds columns with ⟨r, b⟩
    rw [hw] at this
    simp only at this
    subst this
    rfl

theorem columnIndexEntry_moved (k : Nat) (specs : List PageWriteSpec) :
    ((specs.map fun s => { s with offset := s.offset + k }).filter isDataPage).map columnIndexEntry =
      (specs.filter isDataPage).map columnIndexEntry := by
  induction specs with
  | nil => rfl
  | cons s ss ih =>
    have hd : isDataPage { s with offset := s.offset + k } = isDataPage s := rfl
    simp only [List.map_cons, List.filter_cons, hd]
    split
    · rw [List.map_cons, List.map_cons, ih]; rfl
    · exact ih

theorem pageLocations_moved (ck : Bool) (k : Nat) (specs : List PageWriteSpec) (row : I64)
    (h : ∀ s ∈ specs, s.offset + k < 2 ^ 63) :
    pageLocations ck row ((specs.map fun s => { s with offset := s.offset + k }).filter isDataPage) =
      (pageLocations ck row (specs.filter isDataPage)).map'
        (List.map fun l => { l with offset := l.offset + BitVec.ofNat 64 k }) := by
  induction specs generalizing row with
  | nil => rfl
  | cons s ss ih =>
    have hd : isDataPage { s with offset := s.offset + k } = isDataPage s := rfl
    have hs := h s (by simp)
    have ih := fun row => ih row fun s hs => h s (by simp [hs])
    simp only [List.map_cons, List.filter_cons, hd]
    split
    · simp only [pageLocations]
      rw [tryI64, tryI64, if_pos hs, if_pos (by omega)]
      simp only [Res.ok_bind]
      cases tryI32 s.bytesWritten with
      | err e => rfl
      | panic => rfl
      | ok z =>
      cases Res.ofOption Err.oos s.numRows with
      | err e => rfl
      | panic => rfl
      | ok n =>
      simp only [Res.ok_bind]
      cases addI64 ck row (asI64 n) with
      | err e => rfl
      | panic => rfl
      | ok next =>
      simp only [Res.ok_bind, ih]
      cases pageLocations ck next (ss.filter isDataPage) with
      | err e => rfl
      | panic => rfl
      | ok ls =>
        simp only [Res.map', Res.ok_bind, List.map_cons, BitVec.ofNat_add]
    · exact ih row

theorem placedAt_byteRange (o : Nat) (c : ColumnChunkMetaData) (start length : Nat)
    (h : c.byteRange = .ok (start, length)) (ho : o < 2 ^ 64) :
    (placedAt o c).byteRange = .ok (o, length) := by
  unfold ColumnChunkMetaData.byteRange at h ⊢
  obtain ⟨m, hm, h⟩ := Res.bind_eq_ok.1 h
  have hm' : (placedAt o c).metadata =
      .ok { m with dataPageOffset := BitVec.ofNat 64 o, dictionaryPageOffset := none } := by
    unfold ColumnChunkMetaData.metadata placedAt at *
    cases hc : c.columnChunk.metaData with
    | none => rw [hc] at hm; cases hm
    | some x =>
      rw [hc] at hm
      have hm : x = m := by injection hm
      subst hm
      rfl
  rw [hm']
  have h2 : asUsize m.totalCompressedSize = length := by
    have := Res.ok.inj h
    exact congrArg Prod.snd this
  have h1 : asUsize (BitVec.ofNat 64 o) = o := by simp [asUsize]; omega
  simp only [Res.ok_bind, h1, h2]

theorem placedAt_pageMetaData (o : Nat) (c : ColumnChunkMetaData) (start length : Nat)
    (h : c.byteRange = .ok (start, length)) (ho : o < 2 ^ 64) :
    (placedAt o c).pageMetaData = c.pageMetaData.map' fun m => { m with columnStart := o } := by
  have h1 : (placedAt o c).numValues = c.numValues := by
    unfold ColumnChunkMetaData.numValues ColumnChunkMetaData.metadata placedAt
    cases c.columnChunk.metaData <;> rfl
  have h2 : (placedAt o c).compression = c.compression := by
    unfold ColumnChunkMetaData.compression ColumnChunkMetaData.metadata placedAt
    cases c.columnChunk.metaData <;> rfl
  unfold ColumnChunkMetaData.pageMetaData
  rw [placedAt_byteRange o c start length h ho, h, h1, h2]
  simp only [Res.ok_bind]
  cases c.numValues with
  | ok n => cases c.compression <;> rfl
  | err e => rfl
  | panic => rfl

end Pq
