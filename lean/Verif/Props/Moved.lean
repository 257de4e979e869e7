import Verif.Lemmas.Moved
import Verif.Props.PageSequence
/-
Property C96: where a row group is written only changes offsets, and where a column chunk is read from does not matter.
-/
namespace Pq.Props
open Spec

/-- **C96** writing a column chunk: the pages, whether it succeeds and how it fails do not depend on the offset; the
bytes of the pages are the same at every offset, and the metadata and the pages noted for the indexes differ in the
offsets only, which move along. -/
theorem C96_column (cs : ThriftCodecs) (d : ColumnDescriptor) (pages : List (Res CompressedPage)) :
    (∃ p : ChunkPart, ∀ o, writeColumnChunk cs false o d pages =
      (.ok (p.chunkAt o, p.pagesAt o, (p.data ++ cs.column.ser (p.metaAt o)).length),
        p.data ++ cs.column.ser (p.metaAt o))) ∨
    (∃ e bytes, ∀ o, writeColumnChunk cs false o d pages = (.err e, bytes)) ∨
    (∃ bytes, ∀ o, writeColumnChunk cs false o d pages = (.panic, bytes)) := by
  rcases writeColumnChunk_part cs d pages with ⟨p, -, h⟩ | h
  · exact .inl ⟨p, h⟩
  · exact .inr h

/-- **C96** writing a row group: likewise, each column chunk as if it were alone, one after the other; the rows and the
sizes do not depend on the offset, nor on how many row groups there are before. -/
theorem C96_row_group (cs : ThriftCodecs) (ds : List ColumnDescriptor)
    (columns : List (Res (List (Res CompressedPage)))) :
    (∃ (ps : List ChunkPart) (rows total compressed : BitVec 64), ∀ o n, writeRowGroup cs false o ds columns n =
      (.ok ({ columns := (layout cs.column.ser o ps).1.map (·.1), totalByteSize := total, numRows := rows
              fileOffset := ps.head?.map fun p => (p.metaAt o).dataPageOffset
              totalCompressedSize := some compressed, ordinal := ordinalOf n },
            (layout cs.column.ser o ps).1.map (·.2), (layout cs.column.ser o ps).2.length),
        (layout cs.column.ser o ps).2)) ∨
    (∃ e, ∀ o n, (writeRowGroup cs false o ds columns n).1 = .err e) ∨
    (∀ o n, (writeRowGroup cs false o ds columns n).1 = .panic) :=
  writeRowGroup_part cs ds columns

/-- The first case of both: a row group of two columns, which takes three bytes more at another offset, because the
offsets in the metadata between the columns take more. Then the second case. -/
example : (writeRowGroup thriftCodecs false 4 writerSchema.leaves (writerCall writerGroup1) 0).1.isOk = true ∧
    (writeRowGroup thriftCodecs false 1000 writerSchema.leaves (writerCall writerGroup1) 7).1.isOk = true ∧
    (writeRowGroup thriftCodecs false 4 writerSchema.leaves (writerCall writerGroup1) 0).2.length + 3 =
      (writeRowGroup thriftCodecs false 100000 writerSchema.leaves (writerCall writerGroup1) 0).2.length ∧
    (writeRowGroup thriftCodecs false 4 writerSchema.leaves [.err .oos] 0).1 = .err .oos := by
  decide +kernel

/-- Where the next row group begins. -/
def nextOffset (w : FileWriter) : Nat := if w.offset = 0 then 4 else w.offset

/-- **C96** `write`: what is appended to the file, and what is noted of the row group, depend on the writer only by its
schema, its offset and the number of its row groups; whether it is accepted, by its schema only. -/
theorem C96_write (cs : ThriftCodecs) (ds : List ColumnDescriptor) (columns : List (Res (List (Res CompressedPage)))) :
    (∃ (ps : List ChunkPart) (rows total compressed : BitVec 64), ∀ w : FileWriter, w.schema.leaves = ds →
      let w' := (w.write cs false columns).2
      let l := layout cs.column.ser (nextOffset w) ps
      (w.write cs false columns).1 = .ok () ∧ w'.offset = nextOffset w + l.2.length ∧
      w'.out = (if w.offset = 0 then w.out ++ magic else w.out) ++ l.2 ∧
      w'.pageSpecs = w.pageSpecs ++ [l.1.map (·.2)] ∧
      w'.rowGroups = w.rowGroups ++ [{ columns := l.1.map (·.1), totalByteSize := total, numRows := rows
                                       fileOffset := ps.head?.map fun p => (p.metaAt (nextOffset w)).dataPageOffset
                                       totalCompressedSize := some compressed
                                       ordinal := ordinalOf w.rowGroups.length }]) ∨
    (∃ e, ∀ w : FileWriter, w.schema.leaves = ds → (w.write cs false columns).1 = .err e) ∨
    (∀ w : FileWriter, w.schema.leaves = ds → (w.write cs false columns).1 = .panic) := by
  have ha : ∀ w : FileWriter, w.autoStart.schema = w.schema ∧ w.autoStart.offset = nextOffset w ∧
      w.autoStart.rowGroups = w.rowGroups ∧ w.autoStart.pageSpecs = w.pageSpecs ∧
      w.autoStart.out = if w.offset = 0 then w.out ++ magic else w.out := by
    intro w
    unfold FileWriter.autoStart FileWriter.start nextOffset
    by_cases h : w.offset = 0
    · simp only [if_pos h, and_self]
    · simp only [if_neg h, and_self]
  have hfail : ∀ w : FileWriter, w.schema.leaves = ds → ∀ r,
      (∀ o n, (writeRowGroup cs false o ds columns n).1 = r) → (∀ x, r ≠ .ok x) →
      (w.write cs false columns).1 = match r with | .err e => .err e | _ => .panic := by
    intro w hw r hr hx
    unfold FileWriter.write
    simp only
    rw [(ha w).1, hw]
    have := hr w.autoStart.offset w.autoStart.rowGroups.length
    rcases hg : writeRowGroup cs false w.autoStart.offset ds columns w.autoStart.rowGroups.length with ⟨x, b⟩
    rw [hg] at this
    subst this
    cases x with
    | ok x => exact absurd rfl (hx x)
    | err e => rfl
    | panic => rfl
  rcases C96_row_group cs ds columns with ⟨ps, rows, total, compressed, h⟩ | ⟨e, h⟩ | h
  · refine .inl ⟨ps, rows, total, compressed, fun w hw => ?_⟩
    obtain ⟨a1, a2, a3, a4, a5⟩ := ha w
    unfold FileWriter.write
    simp only [a1, a2, a3, a4, a5, hw, h]
    exact ⟨trivial, trivial, trivial, trivial, trivial⟩
  · exact .inr (.inl ⟨e, fun w hw => hfail w hw (.err e) h (by simp)⟩)
  · exact .inr (.inr fun w hw => hfail w hw .panic h (by simp))

/-- Two writers of the same schema, one of which has written before. -/
example : writerNew.schema.leaves = (writerThen writerNew writerGroup2).schema.leaves ∧
    (writerNew.write thriftCodecs false (writerCall writerGroup1)).1 = .ok () ∧
    ((writerThen writerNew writerGroup2).write thriftCodecs false (writerCall writerGroup1)).1 = .ok () ∧
    (writerThen writerNew writerGroup2).offset ≠ 0 :=
  ⟨rfl, by decide +kernel, by decide +kernel, by decide +kernel⟩

/-- **C96** the indexes of a column chunk: the column index does not depend on where the chunk is; the offset index
differs in the offsets only. -/
theorem C96_indexes (cs : ThriftCodecs) (ck : Bool) (p : ChunkPart) (o : Nat) :
    writeColumnIndex cs (p.pagesAt o) = writeColumnIndex cs p.pages ∧
    ((∀ s ∈ p.pages, s.offset + o < 2 ^ 63) →
      serializeOffsetIndex ck (p.pagesAt o) = (serializeOffsetIndex ck p.pages).map' fun x =>
        { x with pageLocations := x.pageLocations.map fun l => { l with offset := l.offset + BitVec.ofNat 64 o } }) := by
  constructor
  · unfold writeColumnIndex serializeColumnIndex ChunkPart.pagesAt
    rw [columnIndexEntry_moved]
  · intro h
    unfold serializeOffsetIndex ChunkPart.pagesAt
    rw [pageLocations_moved ck o p.pages 0 h]
    cases pageLocations ck 0 (p.pages.filter isDataPage) <;> rfl

/-- The hypothesis, for the pages of a chunk; its indexes are written. -/
example : ∃ specs, (writePages thriftCodecs.page 0 ((writerGroup1.headD []).map .ok)).1 = .ok specs ∧
    (∀ s ∈ specs, s.offset + 1000 < 2 ^ 63) ∧ (writeColumnIndex thriftCodecs specs).isOk = true ∧
    (serializeOffsetIndex true specs).isOk = true := by
  have h : (writePages thriftCodecs.page 0 ((writerGroup1.headD []).map .ok)).1.isOk = true := by decide +kernel
  cases hs : (writePages thriftCodecs.page 0 ((writerGroup1.headD []).map .ok)).1 with
  | err e => rw [hs] at h; cases h
  | panic => rw [hs] at h; cases h
  | ok specs =>
    have e : specs = (match (writePages thriftCodecs.page 0 ((writerGroup1.headD []).map .ok)).1 with
      | .ok s => s | _ => []) := by rw [hs]
    refine ⟨specs, rfl, ?_⟩
    rw [e]
    decide +kernel

/-- **C96** reading a column chunk, of any bytes: from a file that has at another place the same bytes from the start of
the chunk on, the page reader is the same, so that everything read from it is. -/
theorem C96_read (column : ColumnChunkMetaData) (file file' : List Byte) (start length o : Nat)
    (hr : column.byteRange = .ok (start, length)) (ho : o < 2 ^ 64) (h : file'.drop o = file.drop start)
    (filter : Option PageFilter) (scratch : List Byte) (max : Nat) :
    getPageIterator (placedAt o column) file' filter scratch max =
      getPageIterator column file filter scratch max := by
  have hr' := placedAt_byteRange o column start length hr ho
  have hm := placedAt_pageMetaData o column start length hr ho
  unfold getPageIterator
  rw [hr, hr', hm]
  cases column.pageMetaData with
  | ok m => simp only [Res.map', h]; rfl
  | err e => rfl
  | panic => rfl

/-- **C96** reading a column chunk into memory: from a file that has the bytes of the chunk at another place, the same
bytes are read. -/
theorem C96_memory (column : ColumnChunkMetaData) (file file' : List Byte) (start length o : Nat)
    (hr : column.byteRange = .ok (start, length)) (ho : o < 2 ^ 64)
    (h : region file' o length = region file start length) :
    readColumn file' (placedAt o column) = readColumn file column := by
  unfold region at h
  unfold readColumn
  rw [hr, placedAt_byteRange o column start length hr ho]
  simp only [Res.ok_bind, h]

/-- A file and one in which the chunk is elsewhere meet the hypotheses of both. -/
example : (localColumn 3#64).byteRange = .ok (4, (pageBytes headerCodec (exampleData 3#32 [2#8, 1#8, 1#8])).length) ∧
    (magic ++ localFile 7#8).drop 8 = (localFile 7#8).drop 4 ∧
    region (magic ++ localFile 8#8) 8 (pageBytes headerCodec (exampleData 3#32 [2#8, 1#8, 1#8])).length =
      region (localFile 7#8) 4 (pageBytes headerCodec (exampleData 3#32 [2#8, 1#8, 1#8])).length ∧
    (match getPageIterator (placedAt 8 (localColumn 3#64)) (magic ++ localFile 7#8) none [] 100 with
      | .ok r => buffers (items (PageReader.next headerCodec true) 4 r).1
      | _ => []) = localRead 3#64 7#8 := by decide +kernel

/-- **C96 (partial)**: a column chunk of a file that was written, copied to any place of any file, is read there with
the same pages (`ColumnReads` is what `C59_whole_file_partial` gives for every column chunk of a written file). Missing:
foreign files, in which the pages may go beyond the range of the chunk (`C91_violated`). -/
theorem C96_copied_partial (codec : Codec Thrift.PageHeader) (limit : Thrift.PageHeader → Nat)
    (hs : SaneCodec codec) (hc : LocalCodec codec) (file file' : List Byte)
    (c : ColumnDescriptor × List CompressedPage) (chunk : ColumnChunkMetaData)
    (h : ColumnReads codec limit file c chunk) (o : Nat) (ho : o < 2 ^ 64)
    (hf : ∀ start length, chunk.byteRange = .ok (start, length) →
      region file' o length = region file start length)
    (ck : Bool) (filter : Option PageFilter) (scratch : List Byte) (max : Nat)
    (hmax : ∀ p ∈ c.2, p.buffer.length ≤ max ∧ limit (headerOf p) ≤ max) :
    ∃ reader last, getPageIterator (placedAt o chunk) file' filter scratch max = .ok reader ∧
      Pulls (PageReader.next codec ck) reader
        ((c.2.filter (passes (filter.getD fun _ _ => true) c.1.descriptor)).map fun p => .ok (readBack p))
        last := by
  obtain ⟨meta', hm, -⟩ := h.inMemory
  have hb : ∃ b, chunk.byteRange = .ok b := by
    unfold ColumnChunkMetaData.pageMetaData at hm
    obtain ⟨b, hb, -⟩ := Res.bind_eq_ok.1 hm
    exact ⟨b, hb⟩
  obtain ⟨⟨start, length⟩, hr⟩ := hb
  -- The same bytes at the place the chunk had.
  have hd : (List.replicate start (0 : Byte) ++ file'.drop o).drop start = file'.drop o := by simp
  obtain ⟨reader, last, h1, h2⟩ := C91_written_partial codec limit hs hc file
    (List.replicate start 0 ++ file'.drop o) c chunk h (by
      intro s l hsl
      rw [hr] at hsl
      simp only [Res.ok.injEq, Prod.mk.injEq] at hsl
      rw [← hsl.1, ← hsl.2, ← hf start length hr]
      unfold region
      rw [hd]) ck filter scratch max hmax
  exact ⟨reader, last, by rw [← h1]; exact C96_read chunk _ _ start length o hr ho hd.symm filter scratch max, h2⟩

/-- The columns of the example of C59, and a file that begins with the bytes of one of them, meet the hypotheses. -/
example : SaneCodec headerCodec ∧ LocalCodec headerCodec ∧ ∃ (c : ColumnDescriptor × List CompressedPage)
    (chunk : ColumnChunkMetaData), c.2.length = 3 ∧
      ColumnReads headerCodec (fun h => (headerCodec.ser h).length) writerEnd.2.out c chunk ∧
      ∃ file' : List Byte, ∀ start length, chunk.byteRange = .ok (start, length) →
        region file' 0 length = region writerEnd.2.out start length := by
  obtain ⟨fm, -, h⟩ := writer_example_reads
  refine ⟨headerCodec_sane, Compact.codecOf_local _, ?_⟩
  revert h
  generalize fm.rowGroups = groups
  intro h
  cases h with
  | cons h1 _ =>
    have := h1.chunks
    revert this
    generalize RowGroupMetaData.columns _ = columns
    intro h
    cases h with
    | cons h2 _ =>
      refine ⟨_, _, by decide +kernel, h2, ?_⟩
      rcases ColumnChunkMetaData.byteRange _ with ⟨s, l⟩ | e | _
      · refine ⟨region writerEnd.2.out s l, fun start length h => ?_⟩
        simp only [Res.ok.injEq, Prod.mk.injEq] at h
        rw [← h.1, ← h.2]
        simp [region, List.take_take]
      · exact ⟨[], fun _ _ h => by cases h⟩
      · exact ⟨[], fun _ _ h => by cases h⟩

end Pq.Props
