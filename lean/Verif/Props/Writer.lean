import Verif.Lemmas.WriterCalls
import Verif.Lemmas.WriterRanges
import Verif.Lemmas.Compression2
import Verif.Props.PageIO
import Verif.Props.FileMetadata
/-
Property theorems about written files: C40, C41, C42, C43, C44.
-/
namespace Pq.Props

open Spec

/-! ### An example -/

/-- The thrift compact protocol, for all structures. -/
abbrev thriftCodecs : ThriftCodecs :=
  { page := headerCodec, column := Compact.codecOf Compact.rColumnMetaData
    columnIndex := Compact.codecOf Compact.rColumnIndex
    offsetIndex := Compact.codecOf Compact.rOffsetIndex, file := fileCodec }

def writerType (name : String) : PrimitiveType :=
  { fieldInfo := { name, repetition := .required, id := none }
    logicalType := none, convertedType := none, physicalType := .int32 }

def writerSchema : SchemaDescriptor :=
  SchemaDescriptor.new "s" [.primitive (writerType "a"), .primitive (writerType "b")]

def writerPage (name : String) (rows : List Interval) (values : I32) (buffer : List Byte)
    (statistics : Option Thrift.Statistics) : CompressedPage :=
  .data { header := .v1 { numValues := values, encoding := 0#32, definitionLevelEncoding := 3#32
                          repetitionLevelEncoding := 3#32, statistics }
          buffer, compression := .uncompressed, uncompressedPageSize := buffer.length
          descriptor := { primitiveType := writerType name, maxDefLevel := 0, maxRepLevel := 0 }
          selectedRows := some rows }

def writerStatistics (x : Byte) : Option Thrift.Statistics :=
  some { nullCount := some 0#64, minValue := some [x, 0#8, 0#8, 0#8]
         maxValue := some [x, 0#8, 0#8, 0#8] }

def writerGroup1 : List (List CompressedPage) :=
  [[exampleDict false,
    writerPage "a" [⟨0, 2⟩] 2#32 [1#8, 0#8, 0#8, 0#8, 1#8, 0#8, 0#8, 0#8] (writerStatistics 1#8),
    writerPage "a" [⟨0, 1⟩] 1#32 [7#8, 0#8, 0#8, 0#8] (writerStatistics 7#8)],
   [writerPage "b" [⟨0, 3⟩] 3#32 [5#8, 0#8, 0#8, 0#8] (writerStatistics 5#8)]]

def writerGroup2 : List (List CompressedPage) :=
  [[writerPage "a" [⟨0, 1⟩] 1#32 [9#8, 0#8, 0#8, 0#8] (writerStatistics 9#8)], []]

/-- Two row groups; the first column begins with a dictionary page, the last has no pages. -/
def writerGroups : List (List (List CompressedPage)) := [writerGroup1, writerGroup2]

def writerOptions : WriteOptions := { writeStatistics := true, version := 2#32 }

def writerCall (groups : List (List CompressedPage)) : List (Res (List (Res CompressedPage))) :=
  groups.map fun pages => .ok (pages.map .ok)

def writerNew : FileWriter := FileWriter.new writerSchema writerOptions (some "me")

def writerThen (w : FileWriter) (g : List (List CompressedPage)) : FileWriter :=
  (w.write thriftCodecs true (writerCall g)).2

def writerEnd : Res Nat × FileWriter :=
  (writerThen (writerThen writerNew writerGroup1) writerGroup2).end_ thriftCodecs true (some [])

theorem writerThen_wrote {w0 w : FileWriter} {gs : List (List (List CompressedPage))}
    {g : List (List CompressedPage)} (h : Wrote thriftCodecs true w0 gs w)
    (hg : (w.write thriftCodecs true (writerCall g)).1.isOk = true) :
    Wrote thriftCodecs true w0 (gs ++ [g]) (writerThen w g) := by
  refine .snoc h ?_
  rw [writerThen]
  generalize he : w.write thriftCodecs true (writerCall g) = r at hg
  obtain ⟨a, b⟩ := r
  cases a with
  | ok u => exact he
  | err e => cases hg
  | panic => cases hg

/-- The example is a finished file. -/
theorem writer_example : ∃ n, Finished thriftCodecs true writerSchema writerOptions (some "me")
    (some []) writerGroups n writerEnd.2 := by
  have h1 : (writerNew.write thriftCodecs true (writerCall writerGroup1)).1.isOk = true := by
    decide +kernel
  have h2 : ((writerThen writerNew writerGroup1).write thriftCodecs true
      (writerCall writerGroup2)).1.isOk = true := by decide +kernel
  have h3 : writerEnd.1.isOk = true := by decide +kernel
  have hw := writerThen_wrote (writerThen_wrote .nil h1) h2
  generalize hend : writerEnd = r at h3
  obtain ⟨a, b⟩ := r
  cases a with
  | ok n => exact ⟨n, writerNew, _, .inl rfl, hw, .inl hend⟩
  | err e => cases h3
  | panic => cases h3

instance (codec : Codec Thrift.PageHeader) (pages : List CompressedPage) : Decidable (Fits codec pages) :=
  if h : chunkUncompressed codec pages < 2 ^ 63 ∧ -(2 ^ 63) ≤ chunkValues pages ∧ chunkValues pages < 2 ^ 63
  then .isTrue ⟨h.1, h.2⟩ else .isFalse fun hf => h ⟨hf.1, hf.2⟩

instance (cs : ThriftCodecs) (columns : List (ColumnDescriptor × List CompressedPage)) :
    Decidable (GroupFits cs columns) :=
  if h : (∀ c ∈ columns, Fits cs.page c.2) ∧ (columns.map fun c => chunkUncompressed cs.page c.2).sum < 2 ^ 63
  then .isTrue ⟨h.1, h.2⟩ else .isFalse fun hf => h ⟨hf.1, hf.2⟩

/-- The hypotheses of the theorems below hold for the example. -/
theorem writer_example_fits :
    (∀ g ∈ writerGroups, GroupFits thriftCodecs (writerSchema.leaves.zip g)) ∧
      writerEnd.2.out.length < 2 ^ 63 := by
  constructor <;> decide +kernel

/-! ### The file -/

/-- A finished file has everything in its place (see `Spec.FileWritten`). -/
theorem finished_written {cs : ThriftCodecs} {ck : Bool} {schema : SchemaDescriptor}
    {options : WriteOptions} {createdBy : Option String} {kv : Option (List Thrift.KeyValue)}
    {groups : List (List (List CompressedPage))} {n : Nat} {w : FileWriter}
    (h : Finished cs ck schema options createdBy kv groups n w)
    (hf : ∀ g ∈ groups, GroupFits cs (schema.leaves.zip g)) (hlen : w.out.length < 2 ^ 63) :
    ∃ md, FileWritten cs schema options createdBy kv groups w.out md ∧
      ((cs.file.ser md).length < 2 ^ 31 → n = w.out.length) := by
  obtain ⟨w0, w1, h0, hw, he | he⟩ := h
  · obtain ⟨md, w2, -, h1, h2⟩ := endWith_ok (finish := fun w metadata => { w with state := .finished, metadata := some metadata }) (fun _ _ => rfl) h0 hw hf he hlen
    exact ⟨md, h1, h2⟩
  · obtain ⟨md, w2, -, h1, h2⟩ := endWith_ok (finish := fun w _ => w) (fun _ _ => rfl) h0 hw hf he hlen
    exact ⟨md, h1, h2⟩

/-! ### C40 -/

/-- **C40** for every schema, every sequence of row groups with any columns and pages accepted by the
writer (synchronous or not): the file is the magic bytes, the row groups, the page indexes, the
metadata and the footer, and the byte ranges in the metadata, one per column in the order written,
are those of the pages of the column, inside the part of the row groups, each after the one before.
Missing: writes that fail before others succeed (`C40_violated`). The range of a column without pages
is empty. -/
theorem C40_byte_ranges_partial (cs : ThriftCodecs) (ck : Bool) (schema : SchemaDescriptor)
    (options : WriteOptions) (createdBy : Option String) (kv : Option (List Thrift.KeyValue))
    (groups : List (List (List CompressedPage))) (n : Nat) (w : FileWriter)
    (h : Finished cs ck schema options createdBy kv groups n w)
    (hf : ∀ g ∈ groups, GroupFits cs (schema.leaves.zip g)) (hlen : w.out.length < 2 ^ 63) :
    ∃ md bytes indexes ms,
      w.out = par1 ++ bytes ++ indexes ++ cs.file.ser md ++ tail8 (cs.file.ser md) ∧
      (md.rowGroups.flatMap (·.columns)).map (·.metaData) = ms.map some ∧
      List.Forall₂ (fun c m =>
        (rangeOf m).2 = (chunkBytes cs.page c.2).length ∧
        (c.2 ≠ [] → 4 ≤ (rangeOf m).1 ∧ (rangeOf m).1 + (rangeOf m).2 ≤ 4 + bytes.length ∧
          region w.out (rangeOf m).1.toNat (rangeOf m).2.toNat = chunkBytes cs.page c.2))
        (groups.flatMap (schema.leaves.zip ·)) ms ∧
      ms.Pairwise fun a b => Precedes (rangeOf a) (rangeOf b) := by
  obtain ⟨md, hw, -⟩ := finished_written h hf hlen
  obtain ⟨bytes, indexes, he, hg⟩ := hw.layout
  obtain ⟨ms, h1, h2, h3⟩ := groups_ranges (file := w.out) hg
    ⟨par1, indexes ++ cs.file.ser md ++ tail8 (cs.file.ser md), by simp [he], rfl⟩
  refine ⟨md, bytes, indexes, ms, he, h1, ?_, h3⟩
  rw [List.flatMap]
  refine h2.imp fun c m hcm => ⟨hcm.1, fun hne => ?_⟩
  obtain ⟨h4, h5, h6⟩ := hcm.2 hne
  exact ⟨by omega, by push_cast at h5; omega, h6⟩

example : ∃ n w, Finished thriftCodecs true writerSchema writerOptions (some "me") (some [])
    writerGroups n w ∧ (∀ g ∈ writerGroups, GroupFits thriftCodecs (writerSchema.leaves.zip g)) ∧
    w.out.length < 2 ^ 63 := by
  obtain ⟨n, h⟩ := writer_example
  exact ⟨n, _, h, writer_example_fits⟩

/-- **C40** the byte range of a column chunk that was read is that of its metadata. -/
theorem C40_byte_range (c : ColumnChunkMetaData) (m : Thrift.ColumnMetaData)
    (h : c.columnChunk.metaData = some m) (h1 : 0 ≤ (rangeOf m).1) (h2 : 0 ≤ (rangeOf m).2) :
    c.byteRange = .ok ((rangeOf m).1.toNat, (rangeOf m).2.toNat) := by
  simp only [ColumnChunkMetaData.byteRange, ColumnChunkMetaData.metadata, h, Res.unwrap, Res.ok_bind,
    Res.ok.injEq, Prod.mk.injEq]
  refine ⟨?_, asUsize_toNat _ h2⟩
  cases hd : m.dictionaryPageOffset with
  | none =>
    rw [rangeOf, hd] at h1 ⊢
    exact asUsize_toNat _ h1
  | some o =>
    rw [rangeOf, hd] at h1 ⊢
    exact asUsize_toNat _ h1

example : ∃ m, (exampleChunk ["a", "x"] 4#64).columnChunk.metaData = some m ∧ rangeOf m = (4, 3) :=
  ⟨_, rfl, by decide +kernel⟩

/-- **C40** each column chunk also says where its metadata are repeated, which is behind its pages. -/
theorem C40_chunk_metadata_partial (cs : ThriftCodecs) (ck : Bool) (schema : SchemaDescriptor)
    (options : WriteOptions) (createdBy : Option String) (kv : Option (List Thrift.KeyValue))
    (groups : List (List (List CompressedPage))) (n : Nat) (w : FileWriter)
    (h : Finished cs ck schema options createdBy kv groups n w)
    (hf : ∀ g ∈ groups, GroupFits cs (schema.leaves.zip g)) (hlen : w.out.length < 2 ^ 63) :
    ∃ md pre, w.out = pre ++ cs.file.ser md ++ tail8 (cs.file.ser md) ∧
      List.Forall₂ (fun (g : List (List CompressedPage)) (rg : Thrift.RowGroup) =>
        List.Forall₂ (fun (c : ColumnDescriptor × List CompressedPage) (chunk : Thrift.ColumnChunk) =>
          ∃ m, chunk.metaData = some m ∧ chunk.filePath = none ∧
            (c.2 ≠ [] → 0 ≤ chunk.fileOffset.toInt ∧
              region w.out chunk.fileOffset.toNat (cs.column.ser m).length = cs.column.ser m))
          (schema.leaves.zip g) rg.columns) groups md.rowGroups := by
  obtain ⟨md, hw, -⟩ := finished_written h hf hlen
  obtain ⟨bytes, indexes, he, -⟩ := hw.layout
  have hg := List.forall₂_map_left_iff.1 hw.rowGroups
  refine ⟨md, par1 ++ bytes ++ indexes, he, hg.imp fun g rg hrg => hrg.chunks.imp fun c chunk hc => ?_⟩
  obtain ⟨pos, m, h1, -, -, -, -, h2, h3, h4⟩ := hc
  refine ⟨m, h1, h2, fun hne => ?_⟩
  have h5 := h4 hne
  have h6 : chunk.fileOffset.toNat = pos + (chunkBytes cs.page c.2).length := by
    have := BitVec.toInt_eq_toNat_cond (x := chunk.fileOffset)
    split at this <;> omega
  exact ⟨by omega, by rw [h6]; exact h3⟩

example : ∃ n w, Finished thriftCodecs true writerSchema writerOptions (some "me") (some [])
    writerGroups n w ∧ (∀ g ∈ writerGroups, GroupFits thriftCodecs (writerSchema.leaves.zip g)) ∧
    w.out.length < 2 ^ 63 := by
  obtain ⟨n, h⟩ := writer_example
  exact ⟨n, _, h, writer_example_fits⟩

/-! ### C41 -/

/-- **C41** under any sequence of calls, with any results: nothing is written before the first call,
and after it the output starts with the magic bytes; the output only grows at its end. -/
theorem C41_magic_first (cs : ThriftCodecs) (ck : Bool) (schema : SchemaDescriptor)
    (options : WriteOptions) (createdBy : Option String) (calls : List WriterCall) :
    let w := runCalls cs ck (FileWriter.new schema options createdBy) calls
    (calls = [] → w.out = [] ∧ w.offset = 0 ∧ w.state = .initialised) ∧
    (calls ≠ [] → par1 <+: w.out ∧ 4 ≤ w.offset ∧ w.state ≠ .initialised) ∧
    ∀ call : WriterCall, w.out <+: (call.run cs ck w).out := by
  intro w
  have h0 : Blank (FileWriter.new schema options createdBy) := ⟨rfl, rfl, rfl⟩
  have h := runCalls_live cs ck (.inl h0) calls
  refine ⟨?_, ?_, ?_⟩
  · rintro rfl
    exact h0
  · intro hc
    rcases h with h | h
    · exact ⟨h.1, h.2, h.3⟩
    · exact absurd h.1 hc
  · intro call
    rcases h with h | ⟨h, -⟩
    · exact (run_live cs ck (.inr h) call).2
    · subst h
      exact (run_live cs ck (.inl h0) call).2

example : (runCalls thriftCodecs true writerNew [.start]).out = par1 := by decide +kernel

/-- **C41** a file is started once: after any call, `start` is refused and changes nothing. -/
theorem C41_no_second_start (cs : ThriftCodecs) (ck : Bool) (schema : SchemaDescriptor)
    (options : WriteOptions) (createdBy : Option String) (calls : List WriterCall) (hc : calls ≠ []) :
    let w := runCalls cs ck (FileWriter.new schema options createdBy) calls
    w.start = (.err .invalidParameter, w) := by
  intro w
  have h : 4 ≤ w.offset := ((C41_magic_first cs ck schema options createdBy calls).2.1 hc).2.1
  rw [FileWriter.start, if_neg (by omega)]

example : ([.start, .end_ none] : List WriterCall) ≠ [] := by simp

/-- **C41** a file is ended once: after `end` succeeded, and whatever was called then, `end` is refused
and changes nothing. -/
theorem C41_no_second_end (cs : ThriftCodecs) (ck : Bool) (schema : SchemaDescriptor)
    (options : WriteOptions) (createdBy : Option String) (calls later : List WriterCall)
    (kv kv' : Option (List Thrift.KeyValue)) (n : Nat) (w' : FileWriter)
    (h : (runCalls cs ck (FileWriter.new schema options createdBy) calls).end_ cs ck kv = (.ok n, w')) :
    let w := runCalls cs ck w' later
    w.end_ cs ck kv' = (.err .invalidParameter, w) := by
  intro w
  have h0 : Blank (FileWriter.new schema options createdBy) := ⟨rfl, rfl, rfl⟩
  have hl : Blank (runCalls cs ck (FileWriter.new schema options createdBy) calls) ∨
      Live (runCalls cs ck (FileWriter.new schema options createdBy) calls) := by
    rcases runCalls_live cs ck (.inl h0) calls with h | ⟨h, -⟩
    · exact .inr h
    · subst h
      exact .inl h0
  have hd := (end_done hl h).1
  have hw : Done w := by
    suffices ∀ (l : List WriterCall) v, Done v → Done (runCalls cs ck v l) from this later w' hd
    intro l
    induction l with
    | nil => exact fun v hv => hv
    | cons c l ih => exact fun v hv => ih _ (hv.run cs ck c)
  exact hw.end_ cs ck kv'

example : writerEnd.1.isOk = true := by decide +kernel

/-- **C41** after the file was ended, the writer hands out what was written, and the metadata that are at
the end of it. (Before, as documented, it panics.) -/
theorem C41_inner (cs : ThriftCodecs) (ck : Bool) (schema : SchemaDescriptor)
    (options : WriteOptions) (createdBy : Option String) (kv : Option (List Thrift.KeyValue))
    (groups : List (List (List CompressedPage))) (n : Nat) (w0 w w' : FileWriter)
    (h0 : Fresh schema options createdBy w0) (hw : Wrote cs ck w0 groups w)
    (hf : ∀ g ∈ groups, GroupFits cs (schema.leaves.zip g))
    (h : w.end_ cs ck kv = (.ok n, w')) (hlen : w'.out.length < 2 ^ 63) :
    (∃ md pre, w'.intoInnerAndMetadata = .ok (w'.out, md) ∧
      w'.out = pre ++ cs.file.ser md ++ tail8 (cs.file.ser md)) ∧
    w.autoStart.intoInnerAndMetadata = .panic := by
  obtain ⟨md, w2, h1, h2, -⟩ := endWith_ok
    (finish := fun w metadata => { w with state := .finished, metadata := some metadata })
    (fun _ _ => rfl) h0 hw hf h hlen
  obtain ⟨bytes, indexes, he, -⟩ := h2.layout
  refine ⟨⟨md, par1 ++ bytes ++ indexes, ?_, he⟩, ?_⟩
  · rw [FileWriter.intoInnerAndMetadata, h1]
    rfl
  · rw [FileWriter.intoInnerAndMetadata, (wrote_after h0 hw).metadata]
    rfl

example : writerEnd.2.intoInnerAndMetadata.isOk = true ∧ writerNew.intoInnerAndMetadata.isOk = false := by
  decide +kernel

/-- **C41 is violated**: after the end, `write` accepts a row group and writes it after the footer:
what was a file that can be read is not one any more. `FileStreamer` also ends twice. -/
theorem C41_violated :
    (writerEnd.1.isOk = true ∧ (readMetadata thriftCodecs.file writerEnd.2.out).isOk = true) ∧
    ((writerEnd.2.write thriftCodecs true (writerCall writerGroup2)).1.isOk = true ∧
      (readMetadata thriftCodecs.file (writerThen writerEnd.2 writerGroup2).out).isOk = false) ∧
    (let w := (FileStreamer.end_ thriftCodecs true (writerThen writerNew writerGroup2) none)
     w.1.isOk = true ∧ (FileStreamer.end_ thriftCodecs true w.2 none).1.isOk = true) := by
  decide +kernel

/-! ### C40, violated -/

/-- A row group of one column whose second page is an error: the first page is written. -/
def writerFailing : List (Res (List (Res CompressedPage))) :=
  [.ok [.ok (writerPage "a" [⟨0, 1⟩] 1#32 [9#8, 0#8, 0#8, 0#8] none), .err .oos]]

def writerRetry : FileWriter :=
  (writerNew.write thriftCodecs true writerFailing).2

/-- **C40 is violated** when a row group fails and a later one succeeds: the bytes of the failed one
are not counted, and the byte ranges of the later one, in a file that is read without complaint, are
not where its pages are. -/
theorem C40_violated :
    (writerNew.write thriftCodecs true writerFailing).1 = .err .oos ∧
    (writerRetry.write thriftCodecs true (writerCall writerGroup1)).1 = .ok () ∧
    (let (r, w) := (writerThen writerRetry writerGroup1).end_ thriftCodecs true none
     r.isOk = true ∧ (readMetadata thriftCodecs.file w.out).isOk = true ∧
     w.metadata.map (fun md => md.rowGroups.map fun rg =>
       (rg.columns.zip writerGroup1).map fun c => c.1.metaData.map fun m =>
         decide (region w.out (rangeOf m).1.toNat (rangeOf m).2.toNat = chunkBytes headerCodec c.2))
       = some [[some false, some false]]) := by
  decide +kernel

/-! ### C42 -/

/-- **C42** for every schema, every sequence of row groups with any columns and pages accepted by the
writer: the number of values, the sizes and the encodings of each column chunk, the sizes and the rows
of each row group and the rows of the file are those of the pages written; each row group says its
place in the file (if that is below 2^15) and where its first column starts; the metadata is that at the
end of the file. Missing: pages that do not know their number of rows, or have several selected
intervals (`C42_violated`), and totals of 2^63 and more. -/
theorem C42_totals_partial (cs : ThriftCodecs) (ck : Bool) (schema : SchemaDescriptor)
    (options : WriteOptions) (createdBy : Option String) (kv : Option (List Thrift.KeyValue))
    (groups : List (List (List CompressedPage))) (n : Nat) (w : FileWriter)
    (h : Finished cs ck schema options createdBy kv groups n w)
    (hf : ∀ g ∈ groups, GroupFits cs (schema.leaves.zip g)) (hlen : w.out.length < 2 ^ 63) :
    ∃ md pre, w.out = pre ++ cs.file.ser md ++ tail8 (cs.file.ser md) ∧
      ((cs.file.ser md).length < 2 ^ 31 → n = w.out.length) ∧
      List.Forall₂ (fun (g : List (List CompressedPage)) (rg : Thrift.RowGroup) =>
        rg.totalByteSize.toInt =
          (((schema.leaves.zip g).map fun c => chunkUncompressed cs.page c.2).sum : Nat) ∧
        rg.totalCompressedSize.map (·.toInt) =
          some ((((schema.leaves.zip g).map fun c => (chunkBytes cs.page c.2).length).sum : Nat) : Int) ∧
        (GroupRowsKnown (schema.leaves.zip g) → rg.numRows.toInt = groupRows (schema.leaves.zip g)) ∧
        rg.fileOffset = (rg.columns.head?.bind fun c => c.metaData.map (·.dataPageOffset)) ∧
        rg.sortingColumns = none ∧
        List.Forall₂ (fun (c : ColumnDescriptor × List CompressedPage) (chunk : Thrift.ColumnChunk) =>
          ∃ m, chunk.metaData = some m ∧
            m.numValues.toInt = chunkValues c.2 ∧
            m.totalCompressedSize.toInt = (chunkBytes cs.page c.2).length ∧
            m.totalUncompressedSize.toInt = chunkUncompressed cs.page c.2 ∧
            (∀ e, e ∈ m.encodings ↔ ∃ p ∈ c.2, e ∈ encodingsOf p) ∧
            m.encodings.Pairwise (fun a b => a.toInt < b.toInt) ∧
            m.pathInSchema = c.1.pathInSchema ∧
            m.type = c.1.descriptor.primitiveType.physicalType.toThrift.1 ∧
            ∀ p ∈ c.2, (p.compression, m.codec.toNat) ∈ compressionTable)
          (schema.leaves.zip g) rg.columns) groups md.rowGroups ∧
      md.rowGroups.map (·.ordinal) = (List.range groups.length).map placeOf ∧
      ((∀ g ∈ groups, GroupRowsKnown (schema.leaves.zip g)) →
        (groups.map fun g => groupRows (schema.leaves.zip g)).sum < 2 ^ 63 →
        md.numRows.toInt = ((groups.map fun g => groupRows (schema.leaves.zip g)).sum : Nat)) := by
  obtain ⟨md, hw, hn⟩ := finished_written h hf hlen
  obtain ⟨bytes, indexes, he, -⟩ := hw.layout
  have hg := List.forall₂_map_left_iff.1 hw.rowGroups
  refine ⟨md, par1 ++ bytes ++ indexes, he, hn, ?_, hw.ordinals, ?_⟩
  · refine hg.imp fun g rg hrg => ⟨hrg.totals.uncompressed, hrg.totals.compressed, groupWritten_rows hrg,
      hrg.totals.fileOffset, hrg.totals.sorting, ?_⟩
    refine hrg.chunks.imp fun c chunk hc => ?_
    obtain ⟨pos, m, h1, h2, -, -, -⟩ := hc
    exact ⟨m, h1, h2.values, h2.compressed, h2.uncompressed, h2.encodings_mem, h2.encodings, h2.path,
      h2.type, h2.codec⟩
  · exact fileWritten_rows hw

example : (∀ g ∈ writerGroups, GroupRowsKnown (writerSchema.leaves.zip g)) ∧
    (writerGroups.map fun g => groupRows (writerSchema.leaves.zip g)).sum = 4 := by
  decide +kernel

example : (writerEnd.2.metadata.map fun md => md.rowGroups.map fun rg => (rg.ordinal, rg.fileOffset.isSome)) =
    some [(some 0#16, true), (some 1#16, true)] := by
  decide +kernel

/-- **C42** the values that pages say they have (`num_values` of a page) add up to those of the column
chunk, a dictionary page having none. -/
theorem C42_page_values (pages : List CompressedPage) (h : ∀ p ∈ pages, 0 ≤ valuesOf p) :
    ((pages.map CompressedPage.numValues).sum : Int) = chunkValues pages := by
  induction pages with
  | nil => rfl
  | cons p pages ih =>
    have hp : (p.numValues : Int) = valuesOf p := by
      have h0 := h p List.mem_cons_self
      cases p with
      | dict d => rfl
      | data d =>
        rcases d with ⟨header, _, _, _, _, _⟩
        cases header <;> exact asUsize_nonneg (by decide) _ h0
    have := ih fun q hq => h q (List.mem_cons_of_mem _ hq)
    simp only [chunkValues, List.map_cons, List.sum_cons] at this ⊢
    push_cast
    rw [hp, this]

example : ∀ p ∈ writerGroup1.flatten, 0 ≤ valuesOf p := by decide +kernel


/-- A data page made with a number of rows, or without: compressed already (`CompressedDataPage::new`), or
made with `DataPage::new` and then compressed by this library. -/
inductive MadeWithRows : CompressedPage → Option Nat → Prop
  | compressed (header : DataPageHeader) (buffer : List Byte) (compression : Compression)
      (uncompressedPageSize : Nat) (descriptor : Descriptor) (rows : Option Nat) :
      MadeWithRows (.data (CompressedDataPage.new header buffer compression uncompressedPageSize
        descriptor rows)) rows
  | page (cs : Codecs) (ck : Bool) (header : DataPageHeader) (buffer scratch : List Byte)
      (descriptor : Descriptor) (rows : Option Nat) (options : CompressionOptions) (p : CompressedPage)
      (h : compressPage cs ck (.data (DataPage.new header buffer descriptor rows)) scratch options = .ok p) :
      MadeWithRows p rows

/-- **C42** pages made with a number of rows are what the theorems on rows (`C42_totals_partial`,
`C43_offset_index_partial`) ask for: the rows are known, and are those given; a page made without says
nothing about rows. -/
theorem C42_rows_given (pages : List CompressedPage) (rows : List (Option Nat))
    (h : List.Forall₂ MadeWithRows (pages.filter isData) rows) :
    (pages.filter isData).map CompressedPage.selectedRows =
      rows.map (Option.map fun n => [{ start := 0, length := n }]) ∧
    (pages.filter isData).map pageRowCount = rows ∧ (pages.filter isData).map rowsGiven = rows.map (·.isSome) ∧
    ((∀ r ∈ rows, r.isSome = true) → RowsKnown pages) ∧
    chunkRows pages = (rows.map fun r => r.getD 0).sum := by
  have key : ∀ p r, MadeWithRows p r →
      p.selectedRows = r.map fun n => [{ start := 0, length := n }] := by
    intro p r hp
    cases hp with
    | compressed => rfl
    | page cs ck header buffer scratch descriptor rows options p h =>
      simp only [compressPage] at h
      rcases hc : compressData cs ck (DataPage.new header buffer descriptor r) scratch options with q | e | _ <;>
        rw [hc] at h <;> cases h
      exact compressData_selectedRows hc
  have hs : (pages.filter isData).map CompressedPage.selectedRows =
      rows.map (Option.map fun n => [{ start := 0, length := n }]) := by
    generalize pages.filter isData = l at h
    induction h with
    | nil => rfl
    | cons hp _ ih => rw [List.map_cons, List.map_cons, ih, key _ _ hp]
  have hc : (pages.filter isData).map pageRowCount = rows := by
    have : (pages.filter isData).map pageRowCount =
        ((pages.filter isData).map CompressedPage.selectedRows).map fun s => match s with
          | some [iv] => some iv.length
          | _ => none := by
      rw [List.map_map]
      refine List.map_congr_left fun p hp => ?_
      cases p with
      | data p => rfl
      | dict p => exact absurd (List.mem_filter.1 hp).2 (by simp [isData])
    rw [this, hs, List.map_map]
    conv => rhs; rw [← List.map_id rows]
    refine List.map_congr_left fun r _ => ?_
    cases r <;> rfl
  refine ⟨hs, hc, ?_, ?_, ?_⟩
  · have : (pages.filter isData).map rowsGiven =
        ((pages.filter isData).map CompressedPage.selectedRows).map fun s => match s with
          | some (_ :: _) => true
          | _ => false := by
      rw [List.map_map]
      refine List.map_congr_left fun p hp => ?_
      cases p with
      | data p => rfl
      | dict p => exact absurd (List.mem_filter.1 hp).2 (by simp [isData])
    rw [this, hs, List.map_map]
    refine List.map_congr_left fun r _ => ?_
    cases r <;> rfl
  · intro hr p hp hd
    exact hr _ (hc ▸ List.mem_map_of_mem (List.mem_filter.2 ⟨hp, hd⟩))
  · rw [← hc, chunkRows, List.map_map]
    rfl

example : ∃ pages, List.Forall₂ MadeWithRows (pages.filter isData) [some 2, some 3] ∧ pages.length = 3 ∧
    chunkRows pages = 5 := by
  refine ⟨[exampleDict false,
    .data (CompressedDataPage.new (.v1 ⟨2#32, 8#32, 3#32, 3#32, none⟩) [2#8, 3#8] .uncompressed 2
      ⟨⟨⟨"a", .optional, none⟩, none, none, .int32⟩, 1#16, 0#16⟩ (some 2)),
    .data (CompressedDataPage.new (.v1 ⟨3#32, 8#32, 3#32, 3#32, none⟩) [2#8, 3#8] .uncompressed 2
      ⟨⟨⟨"a", .optional, none⟩, none, none, .int32⟩, 1#16, 0#16⟩ (some 3))],
    .cons (.compressed ..) (.cons (.compressed ..) .nil), rfl, rfl⟩

/-- A row group with a page of five values of which three are selected, in two intervals, and one with
pages of different numbers of rows. -/
def writerSelected : List (List CompressedPage) :=
  [[writerPage "a" [⟨0, 2⟩, ⟨4, 1⟩] 5#32 [9#8] none],
   [writerPage "b" [⟨0, 7⟩] 7#32 [5#8, 0#8, 0#8, 0#8] none]]

/-- **C42 is violated** by pages with several selected intervals, of which the last only is counted;
and columns with different numbers of rows are accepted: the row group is said to have one row, the
columns have five and seven. -/
theorem C42_violated :
    (writerNew.write thriftCodecs true (writerCall writerSelected)).1 = .ok () ∧
    (writerThen writerNew writerSelected).rowGroups.map
      (fun rg => (rg.numRows, rg.columns.map fun c => c.metaData.map fun m => m.numValues)) =
      [(1#64, [some 5#64, some 7#64])] := by
  decide +kernel

/-! ### C43 -/

/-- **C43** for every file as above: each column of each row group refers to a section of the file
holding its offset index, the sections being one after the other, and the index lists the data pages
of the column: where they are in the file, their sizes, and the number of rows before each. Missing:
pages that do not know their number of rows or have several selected intervals (`C43_violated`). If a
data page says nothing about rows, the file is not written. The bytes at the position given are those
of the page, by `C43_locates`. -/
theorem C43_offset_index_partial (cs : ThriftCodecs) (ck : Bool) (schema : SchemaDescriptor)
    (options : WriteOptions) (createdBy : Option String) (kv : Option (List Thrift.KeyValue))
    (groups : List (List (List CompressedPage))) (n : Nat) (w : FileWriter)
    (h : Finished cs ck schema options createdBy kv groups n w)
    (hf : ∀ g ∈ groups, GroupFits cs (schema.leaves.zip g)) (hlen : w.out.length < 2 ^ 63) :
    ∃ md pre, w.out = pre ++ cs.file.ser md ++ tail8 (cs.file.ser md) ∧
      List.Forall₂ (fun (g : List (List CompressedPage)) (rg : Thrift.RowGroup) =>
        ∃ pos ois, pos ≤ w.out.length ∧
          Sections (fun c => (c.offsetIndexOffset, c.offsetIndexLength)) w.out pos rg.columns
            (ois.map cs.offsetIndex.ser) ∧
          List.Forall₂ (fun x oi =>
            (∀ p ∈ x.1.2, isData p = true → rowsGiven p = true) ∧
            oi.pageLocations.length = (x.1.2.filter isData).length ∧
            (RowsKnown x.1.2 → chunkRows x.1.2 < 2 ^ 63 →
              oi.pageLocations.map
                (fun l => (l.offset.toInt, l.compressedPageSize.toInt, l.firstRowIndex.toInt)) =
              locationsOf cs.page (startOf x.2) 0 x.1.2))
            ((schema.leaves.zip g).zip rg.columns) ois)
        groups md.rowGroups := by
  obtain ⟨md, hw, -⟩ := finished_written h hf hlen
  obtain ⟨bytes, indexes, he, -⟩ := hw.layout
  have hg := List.forall₂_map_left_iff.1 hw.rowGroups
  exact ⟨md, par1 ++ bytes ++ indexes, he, hg.imp fun g rg hrg => hrg.offsetIndexes⟩

example : ∃ n w, Finished thriftCodecs true writerSchema writerOptions (some "me") (some [])
    writerGroups n w ∧ (∀ g ∈ writerGroups, GroupFits thriftCodecs (writerSchema.leaves.zip g)) ∧
    w.out.length < 2 ^ 63 ∧ (∀ g ∈ writerGroups, ∀ pages ∈ g, RowsKnown pages ∧ chunkRows pages < 2 ^ 63) := by
  obtain ⟨n, h⟩ := writer_example
  exact ⟨n, _, h, writer_example_fits.1, writer_example_fits.2, by decide +kernel⟩

/-- **C43** what the locations are (`Spec.locationsOf`), in every file as above: the i-th is that of the
i-th data page; the bytes there are those of the page with its header; the first row is the number of
rows of the data pages before. -/
theorem C43_locates (cs : ThriftCodecs) (ck : Bool) (schema : SchemaDescriptor)
    (options : WriteOptions) (createdBy : Option String) (kv : Option (List Thrift.KeyValue))
    (groups : List (List (List CompressedPage))) (n : Nat) (w : FileWriter)
    (h : Finished cs ck schema options createdBy kv groups n w)
    (hf : ∀ g ∈ groups, GroupFits cs (schema.leaves.zip g)) (hlen : w.out.length < 2 ^ 63) :
    ∃ md pre, w.out = pre ++ cs.file.ser md ++ tail8 (cs.file.ser md) ∧
      List.Forall₂ (fun (g : List (List CompressedPage)) (rg : Thrift.RowGroup) =>
        List.Forall₂ (fun (c : ColumnDescriptor × List CompressedPage) (chunk : Thrift.ColumnChunk) =>
          ∀ (i : Nat) (l : Int × Int × Int), (locationsOf cs.page (startOf chunk) 0 c.2)[i]? = some l →
            ∃ p, (c.2.filter isData)[i]? = some p ∧
              region w.out l.1.toNat l.2.1.toNat = pageBytes cs.page p ∧
              l.2.2 = chunkRows ((c.2.filter isData).take i))
          (schema.leaves.zip g) rg.columns) groups md.rowGroups := by
  obtain ⟨md, hw, -⟩ := finished_written h hf hlen
  obtain ⟨bytes, indexes, he, -⟩ := hw.layout
  have hg := List.forall₂_map_left_iff.1 hw.rowGroups
  refine ⟨md, par1 ++ bytes ++ indexes, he, hg.imp fun g rg hrg => hrg.chunks.imp fun c chunk hc => ?_⟩
  intro i l hl
  obtain ⟨pos, m, h1, h2, -, h3, -⟩ := hc
  cases hp : c.2 with
  | nil => rw [hp] at hl; simp [locationsOf] at hl
  | cons p ps =>
    have e : startOf chunk = pos := by
      rw [startOf, h1]
      exact h2.start (by rw [hp]; simp)
    rw [e] at hl
    obtain ⟨q, h4, h5, h6⟩ := locationsOf_get h3 hl
    rw [← hp]
    refine ⟨q, h4, h5, ?_⟩
    rw [h6, chunkRows]
    rw [List.filter_eq_self.2 (fun x hx => (List.mem_filter.1 (List.mem_of_mem_take hx)).2)]
    simp

example : locationsOf headerCodec 4 0 [exampleDict false, writerPage "a" [⟨0, 2⟩] 2#32 [1#8] none,
    writerPage "a" [⟨0, 1⟩] 1#32 [8#8] none] = [(21, 18, 0), (39, 18, 2)] := by decide +kernel

/-- **C43 is violated** by pages with several selected intervals: the first row of the page after one
with 2 + 1 selected rows is said to be 1. -/
theorem C43_violated :
    let pages := [writerPage "a" [⟨0, 2⟩, ⟨4, 1⟩] 5#32 [9#8] none,
                  writerPage "a" [⟨0, 1⟩] 1#32 [8#8] none]
    ∃ specs bytes, writePages headerCodec 4 (pages.map .ok) = (.ok specs, bytes) ∧
      (serializeOffsetIndex true specs).map' (fun oi => oi.pageLocations.map (·.firstRowIndex)) =
        .ok [0#64, 1#64] := by
  refine ⟨_, _, rfl, ?_⟩
  decide +kernel

/-! ### C44 -/

/-- **C44** for every file as above written with statistics: each column of each row group refers to a
section of the file holding its column index, the sections being one after the other, and the index
has one entry per data page, with the null count and the bounds in its header (`Spec.IndexEntry`); a
page is flagged as null page if and only if it has no minimum. Files written without statistics have
no column index. -/
theorem C44_column_index (cs : ThriftCodecs) (ck : Bool) (schema : SchemaDescriptor)
    (options : WriteOptions) (createdBy : Option String) (kv : Option (List Thrift.KeyValue))
    (groups : List (List (List CompressedPage))) (n : Nat) (w : FileWriter)
    (h : Finished cs ck schema options createdBy kv groups n w)
    (hf : ∀ g ∈ groups, GroupFits cs (schema.leaves.zip g)) (hlen : w.out.length < 2 ^ 63) :
    ∃ md pre, w.out = pre ++ cs.file.ser md ++ tail8 (cs.file.ser md) ∧
      List.Forall₂ (fun (g : List (List CompressedPage)) (rg : Thrift.RowGroup) =>
        (options.writeStatistics = true → ∃ pos cis, pos ≤ w.out.length ∧
          Sections (fun c => (c.columnIndexOffset, c.columnIndexLength)) w.out pos rg.columns
            (cis.map cs.columnIndex.ser) ∧
          List.Forall₂ (fun c ci =>
            ∃ entries : List (I64 × List Byte × List Byte × Bool),
              List.Forall₂ IndexEntry (c.2.filter isData) entries ∧
              ci = { nullPages := entries.map (·.2.2.2), minValues := entries.map (·.2.1)
                     maxValues := entries.map (·.2.2.1), boundaryOrder := 0#32
                     nullCounts := some (entries.map (·.1)) }) (schema.leaves.zip g) cis) ∧
        (options.writeStatistics = false → ∀ c ∈ rg.columns,
          c.columnIndexOffset = none ∧ c.columnIndexLength = none))
        groups md.rowGroups := by
  obtain ⟨md, hw, -⟩ := finished_written h hf hlen
  obtain ⟨bytes, indexes, he, -⟩ := hw.layout
  have hg := List.forall₂_map_left_iff.1 hw.rowGroups
  exact ⟨md, par1 ++ bytes ++ indexes, he,
    hg.imp fun g rg hrg => ⟨hrg.columnIndexes, hrg.noColumnIndexes⟩⟩

example : ∃ n w, Finished thriftCodecs true writerSchema writerOptions (some "me") (some [])
    writerGroups n w ∧ (∀ g ∈ writerGroups, GroupFits thriftCodecs (writerSchema.leaves.zip g)) ∧
    w.out.length < 2 ^ 63 ∧ writerOptions.writeStatistics = true := by
  obtain ⟨n, h⟩ := writer_example
  exact ⟨n, _, h, writer_example_fits.1, writer_example_fits.2, rfl⟩

/-- **C44** files with statistics are refused if a data page has no statistics, no null count, or a
minimum without a maximum. -/
theorem C44_refuses (cs : ThriftCodecs) (ck : Bool) (schema : SchemaDescriptor)
    (options : WriteOptions) (createdBy : Option String) (kv : Option (List Thrift.KeyValue))
    (groups : List (List (List CompressedPage))) (n : Nat) (w : FileWriter)
    (hs : options.writeStatistics = true)
    (hf : ∀ g ∈ groups, GroupFits cs (schema.leaves.zip g)) (hlen : w.out.length < 2 ^ 63)
    (g : List (List CompressedPage)) (hg : g ∈ groups) (c : ColumnDescriptor × List CompressedPage)
    (hc : c ∈ schema.leaves.zip g) (p : CompressedPage) (hp : p ∈ c.2) (hd : isData p = true)
    (hbad : ∀ s t, statisticsOf p = some (s, t) →
      s.nullCount = none ∨ (s.minValue.isSome = true ∧ s.maxValue = none)) :
    ¬ Finished cs ck schema options createdBy kv groups n w := by
  intro h
  obtain ⟨md, pre, -, h1⟩ := C44_column_index cs ck schema options createdBy kv groups n w h hf hlen
  obtain ⟨rg, -, h2, -⟩ := forall₂_left h1 hg
  obtain ⟨pos, cis, -, -, h3⟩ := h2 hs
  obtain ⟨ci, -, entries, h4, -⟩ := forall₂_left h3 hc
  obtain ⟨e, -, v, t, h5, -, h6, h7⟩ := forall₂_left h4 (List.mem_filter.2 ⟨hp, hd⟩)
  rcases hbad v t h5 with h8 | ⟨h8, h9⟩
  · rw [h8] at h6; cases h6
  · rcases h7 with ⟨x, y, -, h10, -⟩ | ⟨h10, -⟩
    · rw [h9] at h10; cases h10
    · rw [h10] at h8; cases h8

example : statisticsOf (writerPage "a" [⟨0, 2⟩] 2#32 [1#8] none) = none ∧
    isData (writerPage "a" [⟨0, 2⟩] 2#32 [1#8] none) = true := ⟨rfl, rfl⟩

/-- **C44** a page of two values and no nulls whose statistics have no bounds is flagged as consisting
of nulls (readers of the index skip it). -/
theorem C44_not_null_flagged :
    let page := writerPage "a" [⟨0, 2⟩] 2#32 [1#8, 0#8, 0#8, 0#8, 2#8, 0#8, 0#8, 0#8]
      (some { nullCount := some 0#64 })
    ∃ specs bytes, writePages headerCodec 4 [.ok page] = (.ok specs, bytes) ∧
      (serializeColumnIndex specs).map' (fun ci => (ci.nullPages, ci.nullCounts)) =
        .ok ([true], some [0#64]) := by
  refine ⟨_, _, rfl, ?_⟩
  decide +kernel

end Pq.Props
