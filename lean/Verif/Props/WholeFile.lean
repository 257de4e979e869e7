import Verif.Lemmas.WholeFile
import Verif.Props.Writer
/-
Property theorems about reading back a whole file: C59, C69.
-/
namespace Pq.Props

open Spec

instance (x : I32) : Decidable (knownEncoding x) :=
  inferInstanceAs (Decidable (x.toNat ∈ [0, 2, 3, 4, 5, 6, 7, 8, 9]))

instance (c : Compression) (d : Descriptor) (p : CompressedPage) : Decidable (PageOk c d p) :=
  match p with
  | .dict p => inferInstanceAs (Decidable (p.compression = c))
  | .data ⟨.v1 h, buffer, compression, size, descriptor, rows⟩ =>
    inferInstanceAs (Decidable (compression = c ∧ descriptor = d ∧ 0 ≤ h.numValues.toInt ∧
      knownEncoding h.encoding ∧ knownEncoding h.definitionLevelEncoding ∧
      knownEncoding h.repetitionLevelEncoding))
  | .data ⟨.v2 h, buffer, compression, size, descriptor, rows⟩ =>
    inferInstanceAs (Decidable (compression = c ∧ descriptor = d ∧ 0 ≤ h.numValues.toInt ∧
      knownEncoding h.encoding))

instance (c : ColumnDescriptor × List CompressedPage) : Decidable (Readable c) :=
  if h : (∀ p ∈ c.2, PageOk p.compression c.1.descriptor p) ∧
    (c.2.getLast?.map fun p => decide (0 < valuesOf p)) ≠ some false then
    .isTrue ⟨h.1, fun p hp => by simpa [hp] using h.2⟩
  else .isFalse fun hr => h ⟨hr.ok, by
    cases hp : c.2.getLast? with
    | none => simp
    | some p => simpa using hr.last p hp⟩

/-- **C59 (partial)** for every schema without empty groups and every sequence of row groups, columns
and pages accepted by the writer (synchronous or not), with any lawful thrift codec: the metadata of
the file is read and has the version, the created-by string, the key-value metadata and the schema
given to the writer, the number of rows, and the row groups in order; the page iterator of each column
chunk delivers the pages written to it (see `Spec.ColumnReads`). Missing: schemas with empty groups,
pages with several selected intervals, row groups with fewer columns than the schema (`C59_violated`),
trailing pages without values and the sortedness flag of dictionaries (`C35_violated`), metadata of
2^31 bytes or more. -/
theorem C59_whole_file_partial (cs : ThriftCodecs) (limit : Thrift.PageHeader → Nat)
    (hl : LawfulCodec cs.page limit) (hs : SaneCodec cs.page) (fileLimit : Thrift.FileMetaData → Nat)
    (hfile : LawfulCodec cs.file fileLimit) (ck : Bool) (name : String) (fields : List ParquetType)
    (h0 : 0 < fields.length) (h31 : fields.length < 2 ^ 31) (hg : GoodTrees fields)
    (options : WriteOptions) (createdBy : Option String) (kv : Option (List Thrift.KeyValue))
    (groups : List (List (List CompressedPage))) (n : Nat) (w : FileWriter)
    (h : Finished cs ck (SchemaDescriptor.new name fields) options createdBy kv groups n w)
    (hf : ∀ g ∈ groups, GroupFits cs ((SchemaDescriptor.new name fields).leaves.zip g))
    (hlen : w.out.length < 2 ^ 63)
    (hcols : ∀ g ∈ groups, (SchemaDescriptor.new name fields).leaves.length ≤ g.length)
    (hread : ∀ g ∈ groups, ∀ c ∈ (SchemaDescriptor.new name fields).leaves.zip g, Readable c)
    (hrows : ∀ g ∈ groups, GroupRowsKnown ((SchemaDescriptor.new name fields).leaves.zip g))
    (htotal : (groups.map fun g =>
      groupRows ((SchemaDescriptor.new name fields).leaves.zip g)).sum < 2 ^ 63) :
    ∃ md pre, w.out = pre ++ cs.file.ser md ++ tail8 (cs.file.ser md) ∧
      ((cs.file.ser md).length < 2 ^ 31 → fileLimit md ≤ 2 * (cs.file.ser md).length + 1040 →
        ∃ fm, readMetadata cs.file w.out = .ok fm ∧
          fm.version = options.version ∧ fm.createdBy = createdBy ∧ fm.keyValueMetadata = kv ∧
          fm.schemaDescr = SchemaDescriptor.new name fields ∧ fm.columnOrders = none ∧
          fm.numRows = (groups.map fun g =>
            groupRows ((SchemaDescriptor.new name fields).leaves.zip g)).sum ∧
          List.Forall₂ (fun g group => GroupReads cs limit w.out
            ((SchemaDescriptor.new name fields).leaves.zip g) group) groups fm.rowGroups) := by
  obtain ⟨md, hw, -⟩ := finished_written h hf hlen
  obtain ⟨bytes, indexes, he, -⟩ := hw.layout
  refine ⟨md, par1 ++ bytes ++ indexes, he, fun hmd hlim => ?_⟩
  obtain ⟨gms, h1, h2⟩ := groups_read hl hs (List.forall₂_map_left_iff.1 hw.rowGroups) hcols hread hrows
  have hsum := fileWritten_rows hw hrows htotal
  refine ⟨{ version := md.version, numRows := _, createdBy := md.createdBy, rowGroups := gms
            keyValueMetadata := md.keyValueMetadata, schemaDescr := _, columnOrders := none }, ?_,
    hw.version, hw.createdBy, hw.keyValueMetadata, rfl, rfl, rfl, h2⟩
  have hf := C38_framing cs.file fileLimit hfile (par1 ++ bytes ++ indexes) md (by simp [par1]) hmd hlim
  rw [← he] at hf
  rw [hf, FileMetaData.tryFromThrift, hw.schemaElements, C49_descriptor_roundtrip_partial name fields h0 h31 hg]
  simp only [h1, Res.ok_bind, toUsize_ok _ (show 0 ≤ md.numRows.toInt by omega), hw.columnOrders, hsum]
  rfl

/-- The example of `Props/Writer.lean` meets the hypotheses, with two row groups, a dictionary page and
a column without pages. -/
theorem writer_example_readable :
    GoodTrees [.primitive (writerType "a"), .primitive (writerType "b")] ∧
    (∀ g ∈ writerGroups, writerSchema.leaves.length ≤ g.length) ∧
    (∀ g ∈ writerGroups, ∀ c ∈ writerSchema.leaves.zip g, Readable c) ∧
    (∀ g ∈ writerGroups, GroupRowsKnown (writerSchema.leaves.zip g)) ∧
    (writerGroups.map fun g => groupRows (writerSchema.leaves.zip g)).sum < 2 ^ 63 := by
  refine ⟨?_, by decide +kernel, ?_, by decide +kernel, by decide +kernel⟩
  · simp only [writerType, GoodTrees, GoodTree, GoodPrimitive, SmallPhysical, and_true]
    exact ⟨⟨trivial, by simp, by simp, rfl⟩, ⟨trivial, by simp, by simp, rfl⟩⟩
  · decide +kernel

example : ∃ n, Finished thriftCodecs true (SchemaDescriptor.new "s"
    [.primitive (writerType "a"), .primitive (writerType "b")]) writerOptions (some "me") (some [])
    writerGroups n writerEnd.2 := writer_example

theorem headerCodec_limits (p : CompressedPage) :
    Compact.cost (Compact.rPageHeader.toT (headerOf p)) ≤ (headerCodec.ser (headerOf p)).length := by
  have := Compact.cost_lt (Compact.rPageHeader.toT (headerOf p))
  have h : (headerCodec.ser (headerOf p)).length =
    (Compact.encVal (Compact.rPageHeader.toT (headerOf p))).length := rfl
  omega

/-- **C59 (partial)** with the compact protocol. -/
theorem C59_compact_partial (ck : Bool) (name : String) (fields : List ParquetType)
    (h0 : 0 < fields.length) (h31 : fields.length < 2 ^ 31) (hg : GoodTrees fields)
    (options : WriteOptions) (createdBy : Option String) (kv : Option (List Thrift.KeyValue))
    (groups : List (List (List CompressedPage))) (n : Nat) (w : FileWriter)
    (h : Finished thriftCodecs ck (SchemaDescriptor.new name fields) options createdBy kv groups n w)
    (hf : ∀ g ∈ groups, GroupFits thriftCodecs ((SchemaDescriptor.new name fields).leaves.zip g))
    (hlen : w.out.length < 2 ^ 63)
    (hcols : ∀ g ∈ groups, (SchemaDescriptor.new name fields).leaves.length ≤ g.length)
    (hread : ∀ g ∈ groups, ∀ c ∈ (SchemaDescriptor.new name fields).leaves.zip g, Readable c)
    (hrows : ∀ g ∈ groups, GroupRowsKnown ((SchemaDescriptor.new name fields).leaves.zip g))
    (htotal : (groups.map fun g =>
      groupRows ((SchemaDescriptor.new name fields).leaves.zip g)).sum < 2 ^ 63) :
    ∃ md pre, w.out = pre ++ fileCodec.ser md ++ tail8 (fileCodec.ser md) ∧
      ((fileCodec.ser md).length < 2 ^ 31 →
        ∃ fm, readMetadata fileCodec w.out = .ok fm ∧
          fm.version = options.version ∧ fm.createdBy = createdBy ∧ fm.keyValueMetadata = kv ∧
          fm.schemaDescr = SchemaDescriptor.new name fields ∧ fm.columnOrders = none ∧
          fm.numRows = (groups.map fun g =>
            groupRows ((SchemaDescriptor.new name fields).leaves.zip g)).sum ∧
          List.Forall₂ (fun g group => GroupReads thriftCodecs
            (fun h => (headerCodec.ser h).length) w.out
            ((SchemaDescriptor.new name fields).leaves.zip g) group) groups fm.rowGroups) := by
  obtain ⟨md, pre, he, hr⟩ := C59_whole_file_partial thriftCodecs _ headerCodec_lawful headerCodec_sane _
    fileCodec_lawful ck name fields h0 h31 hg options createdBy kv groups n w h hf hlen hcols hread hrows htotal
  refine ⟨md, pre, he, fun hmd => ?_⟩
  obtain ⟨fm, h1, h2, h3, h4, h5, h6, h7, h8⟩ := hr hmd (by
    have := Compact.cost_lt (Compact.rFileMetaData.toT md)
    have h : (thriftCodecs.file.ser md).length =
      (Compact.encVal (Compact.rFileMetaData.toT md)).length := rfl
    omega)
  refine ⟨fm, h1, h2, h3, h4, h5, h6, h7, h8.imp fun g group hgr => ⟨hgr.rows, hgr.size, hgr.compressed, ?_⟩⟩
  refine hgr.chunks.imp fun c chunk hc => ⟨hc.descriptor, fun ck filter scratch max hmax => ?_, hc.bytes, ?_,
    fun ck filter scratch max hmax => ?_, hc.tells⟩
  · refine hc.pages ck filter scratch max fun p hp => ⟨(hmax p hp).1, ?_⟩
    exact Nat.le_trans (headerCodec_limits p) (hmax p hp).2
  · obtain ⟨meta', h1, h2⟩ := hc.inMemory
    refine ⟨meta', h1, fun ck filter scratch max hmax => h2 ck filter scratch max fun p hp => ⟨(hmax p hp).1, ?_⟩⟩
    exact Nat.le_trans (headerCodec_limits p) (hmax p hp).2
  · refine hc.swapped ck filter scratch max fun p hp => ⟨(hmax p hp).1, ?_⟩
    exact Nat.le_trans (headerCodec_limits p) (hmax p hp).2

example : ∃ n, Finished thriftCodecs true writerSchema writerOptions (some "me") (some [])
    writerGroups n writerEnd.2 := writer_example

/-- The page iterators of the columns of the example deliver their pages. -/
theorem writer_example_reads : ∃ fm : FileMetaData, readMetadata fileCodec writerEnd.2.out = .ok fm ∧
    List.Forall₂ (fun g group => GroupReads thriftCodecs (fun h => (headerCodec.ser h).length) writerEnd.2.out
      (writerSchema.leaves.zip g) group) writerGroups fm.rowGroups := by
  obtain ⟨n, h⟩ := writer_example
  obtain ⟨md, pre, he, hr⟩ := C59_compact_partial true "s" [.primitive (writerType "a"), .primitive (writerType "b")]
    (by decide) (by decide) writer_example_readable.1 writerOptions (some "me") (some []) writerGroups n writerEnd.2 h
    writer_example_fits.1 writer_example_fits.2 writer_example_readable.2.1 writer_example_readable.2.2.1
    writer_example_readable.2.2.2.1 writer_example_readable.2.2.2.2
  have hl : writerEnd.2.out.length < 2 ^ 31 := by decide +kernel
  obtain ⟨fm, h1, -, -, -, -, -, -, h2⟩ := hr (by
    rw [he] at hl
    simp only [List.length_append] at hl
    omega)
  exact ⟨fm, h1, h2⟩

/-- Whether the result is the out-of-spec error. -/
def _root_.Pq.Res.isOos {α : Type} : Res α → Bool
  | .err .oos => true
  | _ => false

/-- A row group with one column, for a schema of two. -/
def writerShort : List (List CompressedPage) :=
  [[writerPage "a" [⟨0, 1⟩] 1#32 [9#8, 0#8, 0#8, 0#8] (writerStatistics 9#8)]]

/-- **C59 is violated** by row groups with fewer columns than the schema: they are accepted, the file is
ended without complaint, and its metadata cannot be read. The same for the schema without columns. -/
theorem C59_violated :
    ((writerNew.write thriftCodecs true (writerCall writerShort)).1 = .ok () ∧
      ((writerThen writerNew writerShort).end_ thriftCodecs true none).1.isOk = true ∧
      readMetadata thriftCodecs.file
        ((writerThen writerNew writerShort).end_ thriftCodecs true none).2.out = .err .oos) ∧
    (let w := FileWriter.new (SchemaDescriptor.new "s" []) writerOptions none
     (w.end_ thriftCodecs true none).1.isOk = true ∧
       (readMetadata thriftCodecs.file (w.end_ thriftCodecs true none).2.out).isOk = false) := by
  have h : ∀ r : Res FileMetaData, r.isOos = true → r = .err .oos := by
    intro r hr
    cases r with
    | ok _ => cases hr
    | panic => cases hr
    | err e => cases e <;> first | rfl | cases hr
  refine ⟨⟨by decide +kernel, by decide +kernel, h _ (by decide +kernel)⟩, by decide +kernel⟩

/-! ### C69 -/

/-- **C69 (partial)** for files as in `C59_whole_file_partial`, and with the same parts missing: what the
metadata of each row group and each column chunk tell when the file is read is true of the pages
written: rows, sizes, number of values, compression, encodings, position in the file, null count and
bounds (`Spec.ColumnTells`, `Spec.StatisticsTell`). Missing: the dictionary page is not told
(`C69_violated`); bounds in case of NaN and of byte strings that are prefixes of each other. -/
theorem C69_metadata_partial (cs : ThriftCodecs) (limit : Thrift.PageHeader → Nat)
    (hl : LawfulCodec cs.page limit) (hs : SaneCodec cs.page) (fileLimit : Thrift.FileMetaData → Nat)
    (hfile : LawfulCodec cs.file fileLimit) (ck : Bool) (name : String) (fields : List ParquetType)
    (h0 : 0 < fields.length) (h31 : fields.length < 2 ^ 31) (hg : GoodTrees fields)
    (options : WriteOptions) (createdBy : Option String) (kv : Option (List Thrift.KeyValue))
    (groups : List (List (List CompressedPage))) (n : Nat) (w : FileWriter)
    (h : Finished cs ck (SchemaDescriptor.new name fields) options createdBy kv groups n w)
    (hf : ∀ g ∈ groups, GroupFits cs ((SchemaDescriptor.new name fields).leaves.zip g))
    (hlen : w.out.length < 2 ^ 63)
    (hcols : ∀ g ∈ groups, (SchemaDescriptor.new name fields).leaves.length ≤ g.length)
    (hread : ∀ g ∈ groups, ∀ c ∈ (SchemaDescriptor.new name fields).leaves.zip g, Readable c)
    (hrows : ∀ g ∈ groups, GroupRowsKnown ((SchemaDescriptor.new name fields).leaves.zip g))
    (htotal : (groups.map fun g =>
      groupRows ((SchemaDescriptor.new name fields).leaves.zip g)).sum < 2 ^ 63) :
    ∃ md pre, w.out = pre ++ cs.file.ser md ++ tail8 (cs.file.ser md) ∧
      ((cs.file.ser md).length < 2 ^ 31 → fileLimit md ≤ 2 * (cs.file.ser md).length + 1040 →
        ∃ fm, readMetadata cs.file w.out = .ok fm ∧
          List.Forall₂ (fun g (group : RowGroupMetaData) =>
            let columns := (SchemaDescriptor.new name fields).leaves.zip g
            group.numRows = groupRows columns ∧
            group.totalByteSize = (columns.map fun c => chunkUncompressed cs.page c.2).sum ∧
            (∀ ck, group.compressedSize ck =
              .ok (columns.map fun c => (chunkBytes cs.page c.2).length).sum) ∧
            List.Forall₂ (ColumnTells cs.page w.out) columns group.columns) groups fm.rowGroups) := by
  obtain ⟨md, pre, he, hr⟩ := C59_whole_file_partial cs limit hl hs fileLimit hfile ck name fields h0 h31 hg
    options createdBy kv groups n w h hf hlen hcols hread hrows htotal
  refine ⟨md, pre, he, fun h1 h2 => ?_⟩
  obtain ⟨fm, h3, -, -, -, -, -, -, h4⟩ := hr h1 h2
  exact ⟨fm, h3, h4.imp fun g group hgr =>
    ⟨hgr.rows, hgr.size, hgr.compressed, hgr.chunks.imp fun c chunk hc => hc.tells⟩⟩

/-- The bounds and the null count of a column chunk, if they are there and can be read. -/
def chunkBounds (c : ColumnChunkMetaData) : List (Option Int) :=
  match c.statistics with
  | .ok (some (.ok s)) => [(numMin s).join, (numMax s).join, s.nullCount.map (·.toInt)]
  | _ => []

/-- The statistics of the example, whose hypotheses are met as for C59: the first column has the bounds 1
and 7, the last one has no pages. -/
example :
    ((readMetadata fileCodec writerEnd.2.out).map' fun fm => fm.rowGroups.map fun g =>
      g.columns.map chunkBounds) =
      .ok [[[some 1, some 7, some 0], [some 5, some 5, some 0]],
           [[some 9, some 9, some 0], []]] := by
  decide +kernel

/-- **C69 is violated** by columns with a dictionary page: the offset of the dictionary page is said not to
exist, and the offset said to be that of the data pages is that of the dictionary page. And a column
without pages is said to be at the start of the file, where the magic bytes are. -/
theorem C69_violated :
    (writerGroup1.map fun pages => pages.head?.map isData) = [some false, some true] ∧
    ((readMetadata fileCodec writerEnd.2.out).map' fun fm => fm.rowGroups.map fun g =>
      g.columns.map fun c => (c.dictionaryPageOffset, c.dataPageOffset.map' fun x => decide (x = 4#64),
        c.dataPageOffset.map' fun x => decide (x = 0#64))) =
      .ok [[(.ok none, .ok true, .ok false), (.ok none, .ok false, .ok false)],
           [(.ok none, .ok false, .ok false), (.ok none, .ok false, .ok true)]] := by
  decide +kernel

end Pq.Props
