import Verif.Model.PageIO
/-
Model of `src/write/column_chunk.rs`, `src/write/row_group.rs`, `src/write/indexes/serialize.rs`,
`src/write/indexes/write.rs`, `src/write/file.rs` and `src/write/stream.rs`.

The writer is the list of bytes written to it; writing does not fail. `u64` file offsets are natural
numbers (files have less than 2^64 bytes). Iterators of pages and columns given by the user are lists
of results, an `Err` being an error of the user's iterator. Functions return their result together
with the bytes written, also on failure. The asynchronous functions differ from the synchronous ones
only in `await`, unless modelled separately. `ck` is whether overflow checks are on.
-/
namespace Pq

/-- The thrift serializers used by the writer. -/
structure ThriftCodecs where
  page : Codec Thrift.PageHeader
  column : Codec Thrift.ColumnMetaData
  columnIndex : Codec Thrift.ColumnIndex
  offsetIndex : Codec Thrift.OffsetIndex
  file : Codec Thrift.FileMetaData

/-! ### `write/column_chunk.rs` -/

/-- `src/write/column_chunk.rs:44-49`: the loop writing the pages. -/
def writePages (codec : Codec Thrift.PageHeader) :
    Nat → List (Res CompressedPage) → Res (List PageWriteSpec) × List Byte
  | _, [] => (.ok [], [])
  | _, .err e :: _ => (.err e, [])
  | _, .panic :: _ => (.panic, [])
  | offset, .ok page :: pages =>
    match writePage codec offset page with
    | (.err e, bytes) => (.err e, bytes)
    | (.panic, bytes) => (.panic, bytes)
    | (.ok spec, bytes) =>
      let (specs, bytes') := writePages codec (offset + spec.bytesWritten) pages
      (specs.map' (spec :: ·), bytes ++ bytes')

/-- `.sum()` over `i64`s. -/
def sumI64 (ck : Bool) : I64 → List I64 → Res I64
  | acc, [] => .ok acc
  | acc, x :: xs => match addI64 ck acc x with
    | .ok acc => sumI64 ck acc xs
    | .err e => .err e
    | .panic => .panic

/-- `src/write/column_chunk.rs:123-126` and 128-131: `header_size as i64 + size as i64`. -/
def pageSize (ck : Bool) (headerSize : Nat) (size : I32) : Res I64 :=
  addI64 ck (asI64 headerSize) (size.signExtend 64)

/-- `src/write/column_chunk.rs:133-147`: values of a page. -/
def specValues (spec : PageWriteSpec) : Res I64 :=
  match PageType.ofThrift spec.header.type with
  | .ok .dataPage => (Res.unwrap spec.header.dataPageHeader).map' fun h => h.numValues.signExtend 64
  | .ok .dataPageV2 =>
    (Res.unwrap spec.header.dataPageHeaderV2).map' fun h => h.numValues.signExtend 64
  | .ok .dictionaryPage => .ok 0
  | _ => .panic

/-- `src/write/column_chunk.rs:148-171`: encodings of a page. -/
def specEncodings (spec : PageWriteSpec) : Res (List I32) :=
  match PageType.ofThrift spec.header.type with
  | .ok .dataPage =>
    (Res.unwrap spec.header.dataPageHeader).map' fun h => [h.encoding, Encoding.rle.toThrift]
  | .ok .dataPageV2 =>
    (Res.unwrap spec.header.dataPageHeaderV2).map' fun h => [h.encoding, Encoding.rle.toThrift]
  | .ok .dictionaryPage => (Res.unwrap spec.header.dictionaryPageHeader).map' fun h => [h.encoding]
  | _ => .panic

/-- Insertion into a sorted list without duplicates. -/
def insertSorted (x : I32) : List I32 → List I32
  | [] => [x]
  | y :: ys =>
    if x.toInt < y.toInt then x :: y :: ys
    else if x = y then y :: ys
    else y :: insertSorted x ys

/-- `src/write/column_chunk.rs:172-177`: unique (through a `HashSet`), then sorted. -/
def uniqueSorted (xs : List I32) : List I32 := xs.foldr insertSorted []

/-- `src/write/column_chunk.rs:108-120`: the codec of the pages; more than one is an error. -/
def chunkCompression : List PageWriteSpec → Res Compression
  | [] => .ok .uncompressed
  | s :: ss => if ss.all (·.compression == s.compression) then .ok s.compression else .err .oos

/-- `collect` of results of which the first failure is kept, and `sum`. -/
def sumOf (ck : Bool) (f : PageWriteSpec → Res I64) (specs : List PageWriteSpec) : Res I64 := do
  let xs ← collectRes (specs.map f)
  sumI64 ck 0 xs

/-- `src/write/column_chunk.rs:102-213` `build_column_chunk`. -/
def buildColumnChunk (ck : Bool) (specs : List PageWriteSpec) (descriptor : ColumnDescriptor) :
    Res Thrift.ColumnChunk := do
  let compression ← chunkCompression specs
  let totalCompressedSize ←
    sumOf ck (fun x => pageSize ck x.headerSize x.header.compressedPageSize) specs
  let totalUncompressedSize ←
    sumOf ck (fun x => pageSize ck x.headerSize x.header.uncompressedPageSize) specs
  let dataPageOffset := asI64 ((specs.head?.map (·.offset)).getD 0)
  let numValues ← sumOf ck specValues specs
  let encodings ← collectRes (specs.map specEncodings)
  let statistics ← reduceStatistics ck (specs.map (·.statistics))
  let statistics ← optionMapRes serializeStatistics statistics
  let fileOffset ← addI64 ck dataPageOffset totalCompressedSize
  .ok {
    fileOffset
    metaData := some {
      type := descriptor.descriptor.primitiveType.physicalType.toThrift.1
      encodings := uniqueSorted encodings.flatten
      pathInSchema := descriptor.pathInSchema
      codec := compression.toThrift
      numValues, totalUncompressedSize, totalCompressedSize, dataPageOffset, statistics } }

/-- Result of writing a part of the file: the result, and the bytes written. -/
abbrev Written (α : Type) := Res α × List Byte

/-- `src/write/column_chunk.rs:29-63` `write_column_chunk`. -/
def writeColumnChunk (cs : ThriftCodecs) (ck : Bool) (offset : Nat) (descriptor : ColumnDescriptor)
    (pages : List (Res CompressedPage)) :
    Written (Thrift.ColumnChunk × List PageWriteSpec × Nat) :=
  match writePages cs.page offset pages with
  | (.err e, bytes) => (.err e, bytes)
  | (.panic, bytes) => (.panic, bytes)
  | (.ok specs, bytes) =>
    let bytesWritten := (specs.map (·.bytesWritten)).sum
    match buildColumnChunk ck specs descriptor with
    | .err e => (.err e, bytes)
    | .panic => (.panic, bytes)
    | .ok chunk =>
      match chunk.metaData with
      | none => (.panic, bytes)
      | some m =>
        let metadata := cs.column.ser m
        (.ok (chunk, specs, bytesWritten + metadata.length), bytes ++ metadata)

/-! ### `write/row_group.rs` -/

/-- `src/write/row_group.rs:94-104`: the loop over the columns (`zip` with the descriptors). -/
def writeColumns (cs : ThriftCodecs) (ck : Bool) :
    Nat → List ColumnDescriptor → List (Res (List (Res CompressedPage))) →
      Written (List (Thrift.ColumnChunk × List PageWriteSpec) × Nat)
  | _, [], _ => (.ok ([], 0), [])
  | _, _, [] => (.ok ([], 0), [])
  | _, _ :: _, .err e :: _ => (.err e, [])
  | _, _ :: _, .panic :: _ => (.panic, [])
  | offset, d :: ds, .ok pages :: columns =>
    match writeColumnChunk cs ck offset d pages with
    | (.err e, bytes) => (.err e, bytes)
    | (.panic, bytes) => (.panic, bytes)
    | (.ok (chunk, specs, size), bytes) =>
      let (rest, bytes') := writeColumns cs ck (offset + size) ds columns
      (rest.map' fun (columns, n) => ((chunk, specs) :: columns, size + n), bytes ++ bytes')

/-- `src/write/row_group.rs:63-73`: rows of the data pages. -/
def sumRows (ck : Bool) : I64 → List PageWriteSpec → Res I64
  | acc, [] => .ok acc
  | acc, s :: ss => match s.numRows with
    | none => .err .oos
    | some n => match addI64 ck acc (asI64 n) with
      | .ok acc => sumRows ck acc ss
      | .err e => .err e
      | .panic => .panic

/-- `src/write/row_group.rs:59-76` `compute_num_rows`. -/
def computeNumRows (ck : Bool) :
    List (Thrift.ColumnChunk × List PageWriteSpec) → Res I64
  | [] => .ok 0
  | (_, specs) :: _ => sumRows ck 0 (specs.filter isDataPage)

/-- `src/write/row_group.rs:28-57`: `from_column_chunk(..).calc_row_group_file_offset()`. -/
def chunkFileOffset (c : Thrift.ColumnChunk) : Option I64 :=
  let dictionary := (c.metaData.map (·.dictionaryPageOffset)).getD none
  (dictionary.filter fun x => 0 < x.toInt).or (c.metaData.map (·.dataPageOffset))

/-- `usize::try_into::<i16>().ok()` (`src/write/row_group.rs:136`). -/
def ordinalOf (n : Nat) : Option (BitVec 16) := if n < 2 ^ 15 then some (BitVec.ofNat 16 n) else none

/-- `src/write/row_group.rs:117-124`: total of a size over the columns. -/
def sumColumns (ck : Bool) (size : Thrift.ColumnMetaData → I64)
    (columns : List (Thrift.ColumnChunk × List PageWriteSpec)) : Res I64 := do
  let xs ← collectRes (columns.map fun c => (Res.unwrap c.1.metaData).map' size)
  sumI64 ck 0 xs

/-- `src/write/row_group.rs:107-140`: the metadata of the row group. -/
def buildRowGroup (ck : Bool) (columns : List (Thrift.ColumnChunk × List PageWriteSpec))
    (ordinal : Nat) : Res Thrift.RowGroup := do
  let numRows ← computeNumRows ck columns
  let fileOffset := (columns.head?.map fun c => chunkFileOffset c.1).getD none
  let totalByteSize ← sumColumns ck (·.totalUncompressedSize) columns
  let totalCompressedSize ← sumColumns ck (·.totalCompressedSize) columns
  .ok { columns := columns.map (·.1), totalByteSize, numRows, fileOffset
        totalCompressedSize := some totalCompressedSize, ordinal := ordinalOf ordinal }

/-- `src/write/row_group.rs:78-141` `write_row_group`. -/
def writeRowGroup (cs : ThriftCodecs) (ck : Bool) (offset : Nat) (descriptors : List ColumnDescriptor)
    (columns : List (Res (List (Res CompressedPage)))) (ordinal : Nat) :
    Written (Thrift.RowGroup × List (List PageWriteSpec) × Nat) :=
  match writeColumns cs ck offset descriptors columns with
  | (.err e, bytes) => (.err e, bytes)
  | (.panic, bytes) => (.panic, bytes)
  | (.ok (columns, bytesWritten), bytes) =>
    ((buildRowGroup ck columns ordinal).map' fun group =>
      (group, columns.map (·.2), bytesWritten), bytes)

/-! ### `write/indexes/` -/

/-- `src/write/indexes/serialize.rs:21-50`: the entry of a page: null count, min, max, null page. -/
def columnIndexEntry (spec : PageWriteSpec) : Res (I64 × List Byte × List Byte × Bool) :=
  match spec.statistics with
  | none => .err .oos
  | some stats => do
    let stats ← serializeStatistics stats
    let nullCount ← Res.ofOption .oos stats.nullCount
    match stats.minValue with
    | some minValue => do
      let maxValue ← Res.ofOption .oos stats.maxValue
      .ok (nullCount, minValue, maxValue, false)
    | none => .ok (nullCount, [0#8], [0#8], true)

/-- `src/write/indexes/serialize.rs:12-58` `serialize_column_index`. -/
def serializeColumnIndex (pages : List PageWriteSpec) : Res Thrift.ColumnIndex := do
  let entries ← collectRes ((pages.filter isDataPage).map columnIndexEntry)
  .ok {
    nullPages := entries.map (·.2.2.2)
    minValues := entries.map (·.2.1)
    maxValues := entries.map (·.2.2.1)
    boundaryOrder := BoundaryOrder.unordered.toThrift
    nullCounts := some (entries.map (·.1)) }

/-- `src/write/indexes/serialize.rs:62-79`: the locations, with the index of the first row. -/
def pageLocations (ck : Bool) : I64 → List PageWriteSpec → Res (List Thrift.PageLocation)
  | _, [] => .ok []
  | firstRowIndex, spec :: specs => do
    let offset ← tryI64 spec.offset
    let compressedPageSize ← tryI32 spec.bytesWritten
    let numRows ← Res.ofOption .oos spec.numRows
    let next ← addI64 ck firstRowIndex (asI64 numRows)
    let rest ← pageLocations ck next specs
    .ok ({ offset, compressedPageSize, firstRowIndex } :: rest)

/-- `src/write/indexes/serialize.rs:60-82` `serialize_offset_index`. -/
def serializeOffsetIndex (ck : Bool) (pages : List PageWriteSpec) : Res Thrift.OffsetIndex := do
  let pageLocations ← pageLocations ck 0 (pages.filter isDataPage)
  .ok { pageLocations }

/-- `src/write/indexes/write.rs:17-21` `write_column_index`: the bytes written. -/
def writeColumnIndex (cs : ThriftCodecs) (pages : List PageWriteSpec) : Res (List Byte) :=
  (serializeColumnIndex pages).map' cs.columnIndex.ser

/-- `src/write/indexes/write.rs:34-38` `write_offset_index`: the bytes written. -/
def writeOffsetIndex (cs : ThriftCodecs) (ck : Bool) (pages : List PageWriteSpec) :
    Res (List Byte) :=
  (serializeOffsetIndex ck pages).map' cs.offsetIndex.ser

/-! ### `write/file.rs` -/

/-- `PARQUET_MAGIC` (`src/lib.rs:29`). -/
def magic : List Byte := [0x50#8, 0x41#8, 0x52#8, 0x31#8]

/-- `src/write/file.rs:30-38`: the footer. -/
def footer (metadataLen : I32) : List Byte := toLe 4 metadataLen ++ magic

/-- `src/write/file.rs:25-41` `end_file`: the value returned and the bytes written. `metadata_len as
u64` sign-extends; the addition of 8 wraps or panics for a negative length. -/
def endFile (cs : ThriftCodecs) (ck : Bool) (metadata : Thrift.FileMetaData) : Written Nat :=
  let bytes := cs.file.ser metadata
  let metadataLen := asI32 bytes.length
  (if ck && decide (2 ^ 64 ≤ asUsize metadataLen + 8) then .panic
   else .ok ((asUsize metadataLen + 8) % 2 ^ 64),
   bytes ++ footer metadataLen)

/-- `src/write/file.rs:68-75` `write_metadata_sidecar`. -/
def writeMetadataSidecar (cs : ThriftCodecs) (ck : Bool) (metadata : Thrift.FileMetaData) :
    Written Nat :=
  let (len, bytes) := endFile cs ck metadata
  (len.map' (4 + ·), magic ++ bytes)

/-- `src/write/mod.rs:47-51` `State`. -/
inductive WState where
  | initialised | started | finished
  deriving DecidableEq, Repr

/-- `src/write/mod.rs:30-44`: the options; `version` is the number of `Version` (1 or 2). -/
structure WriteOptions where
  writeStatistics : Bool
  version : I32
  deriving DecidableEq, Repr

/-- `src/write/file.rs:46-59` `FileWriter` and `src/write/stream.rs:47-58` `FileStreamer` (without
`metadata`); `out` is what was written to the writer. -/
structure FileWriter where
  out : List Byte
  schema : SchemaDescriptor
  options : WriteOptions
  createdBy : Option String
  offset : Nat
  rowGroups : List Thrift.RowGroup
  pageSpecs : List (List (List PageWriteSpec))
  state : WState
  metadata : Option Thrift.FileMetaData

/-- `src/write/file.rs:100-117` `new`. -/
def FileWriter.new (schema : SchemaDescriptor) (options : WriteOptions) (createdBy : Option String) :
    FileWriter :=
  { out := [], schema, options, createdBy, offset := 0, rowGroups := [], pageSpecs := []
    state := .initialised, metadata := none }

/-- `src/write/file.rs:125-135` `start`. -/
def FileWriter.start (w : FileWriter) : Res Unit × FileWriter :=
  if w.offset = 0 then
    (.ok (), { w with out := w.out ++ magic, offset := 4, state := .started })
  else (.err .invalidParameter, w)

/-- `src/write/file.rs:145-147` and 165-167: `if self.offset == 0 { self.start()? }`. -/
def FileWriter.autoStart (w : FileWriter) : FileWriter :=
  if w.offset = 0 then (w.start).2 else w

/-- `src/write/file.rs:140-160` `write`. -/
def FileWriter.write (cs : ThriftCodecs) (ck : Bool) (w : FileWriter)
    (rowGroup : List (Res (List (Res CompressedPage)))) : Res Unit × FileWriter :=
  let w := w.autoStart
  match writeRowGroup cs ck w.offset w.schema.leaves rowGroup w.rowGroups.length with
  | (.err e, bytes) => (.err e, { w with out := w.out ++ bytes })
  | (.panic, bytes) => (.panic, { w with out := w.out ++ bytes })
  | (.ok (group, specs, size), bytes) =>
    (.ok (), { w with out := w.out ++ bytes, offset := w.offset + size
                      rowGroups := w.rowGroups ++ [group], pageSpecs := w.pageSpecs ++ [specs] })

/-- State of a loop over the columns in `end`: the offset, the columns done, the bytes written. -/
structure IndexLoop (α : Type) where
  offset : Nat
  done : List α
  bytes : List Byte

/-- `src/write/file.rs:183-192` and 202-212: the loop over the columns of a row group. `index` gives
the bytes of the index, `set` sets its offset and length. On failure the column has its offset set
and the remaining ones are as before. -/
def indexColumns (index : List PageWriteSpec → Res (List Byte))
    (set : Thrift.ColumnChunk → I64 → Option I32 → Thrift.ColumnChunk) :
    Nat → List Thrift.ColumnChunk → List (List PageWriteSpec) →
      Res Unit × IndexLoop Thrift.ColumnChunk
  | offset, [], _ => (.ok (), ⟨offset, [], []⟩)
  | offset, columns, [] => (.ok (), ⟨offset, columns, []⟩)
  | offset, c :: columns, pages :: specs =>
    match index pages with
    | .err e => (.err e, ⟨offset, set c (asI64 offset) none :: columns, []⟩)
    | .panic => (.panic, ⟨offset, set c (asI64 offset) none :: columns, []⟩)
    | .ok bytes =>
      let (r, rest) := indexColumns index set (offset + bytes.length) columns specs
      (r, ⟨rest.offset, set c (asI64 offset) (some (asI32 bytes.length)) :: rest.done,
        bytes ++ rest.bytes⟩)

/-- `src/write/file.rs:179-194` and 198-214: the loop over the row groups. -/
def indexGroups (index : List PageWriteSpec → Res (List Byte))
    (set : Thrift.ColumnChunk → I64 → Option I32 → Thrift.ColumnChunk) :
    Nat → List Thrift.RowGroup → List (List (List PageWriteSpec)) →
      Res Unit × IndexLoop Thrift.RowGroup
  | offset, [], _ => (.ok (), ⟨offset, [], []⟩)
  | offset, groups, [] => (.ok (), ⟨offset, groups, []⟩)
  | offset, g :: groups, pages :: specs =>
    let (r, cols) := indexColumns index set offset g.columns pages
    let g := { g with columns := cols.done }
    match r with
    | .err e => (.err e, ⟨cols.offset, g :: groups, cols.bytes⟩)
    | .panic => (.panic, ⟨cols.offset, g :: groups, cols.bytes⟩)
    | .ok () =>
      let (r, rest) := indexGroups index set cols.offset groups specs
      (r, ⟨rest.offset, g :: rest.done, cols.bytes ++ rest.bytes⟩)

/-- `src/write/file.rs:186-189`; an assignment not reached leaves the length. -/
def setColumnIndex (c : Thrift.ColumnChunk) (offset : I64) (length : Option I32) :
    Thrift.ColumnChunk :=
  { c with columnIndexOffset := some offset, columnIndexLength := length.or c.columnIndexLength }

/-- `src/write/file.rs:208-210`. -/
def setOffsetIndex (c : Thrift.ColumnChunk) (offset : I64) (length : Option I32) :
    Thrift.ColumnChunk :=
  { c with offsetIndexOffset := some offset, offsetIndexLength := length.or c.offsetIndexLength }

/-- The state after a loop over the indexes. -/
def FileWriter.after (w : FileWriter) (l : IndexLoop Thrift.RowGroup) : FileWriter :=
  { w with out := w.out ++ l.bytes, offset := l.offset, rowGroups := l.done }

/-- `src/write/file.rs:177-195`: the column indexes, if asked for. -/
def FileWriter.columnIndexes (cs : ThriftCodecs) (w : FileWriter) : Res Unit × FileWriter :=
  if w.options.writeStatistics then
    let (r, l) := indexGroups (writeColumnIndex cs) setColumnIndex w.offset w.rowGroups w.pageSpecs
    (r, w.after l)
  else (.ok (), w)

/-- `src/write/file.rs:198-214`: the offset indexes. -/
def FileWriter.offsetIndexes (cs : ThriftCodecs) (ck : Bool) (w : FileWriter) :
    Res Unit × FileWriter :=
  let (r, l) := indexGroups (writeOffsetIndex cs ck) setOffsetIndex w.offset w.rowGroups w.pageSpecs
  (r, w.after l)

/-- `src/write/file.rs:216-226`: the metadata. -/
def FileWriter.fileMetadata (w : FileWriter) (numRows : I64)
    (keyValueMetadata : Option (List Thrift.KeyValue)) : Thrift.FileMetaData :=
  { version := w.options.version, schema := w.schema.intoThrift, numRows, rowGroups := w.rowGroups
    keyValueMetadata, createdBy := w.createdBy }

/-- `src/write/file.rs:164-232` `end`, up to the point where the state is changed; `finish` is what
follows a successful `end_file` (the synchronous and asynchronous writers differ in it). -/
def FileWriter.endWith (finish : FileWriter → Thrift.FileMetaData → FileWriter)
    (cs : ThriftCodecs) (ck : Bool) (w : FileWriter)
    (keyValueMetadata : Option (List Thrift.KeyValue)) : Res Nat × FileWriter :=
  let w := w.autoStart
  if w.state ≠ .started then (.err .invalidParameter, w)
  else
    match sumI64 ck 0 (w.rowGroups.map (·.numRows)) with
    | .err e => (.err e, w)
    | .panic => (.panic, w)
    | .ok numRows =>
      match w.columnIndexes cs with
      | (.err e, w) => (.err e, w)
      | (.panic, w) => (.panic, w)
      | (.ok (), w) =>
        match w.offsetIndexes cs ck with
        | (.err e, w) => (.err e, w)
        | (.panic, w) => (.panic, w)
        | (.ok (), w) =>
          let metadata := w.fileMetadata numRows keyValueMetadata
          match endFile cs ck metadata with
          | (.err e, bytes) => (.err e, { w with out := w.out ++ bytes })
          | (.panic, bytes) => (.panic, { w with out := w.out ++ bytes })
          | (.ok len, bytes) => (.ok (w.offset + len), finish { w with out := w.out ++ bytes } metadata)

/-- `src/write/file.rs:164-232` `end`. -/
def FileWriter.end_ (cs : ThriftCodecs) (ck : Bool) (w : FileWriter)
    (keyValueMetadata : Option (List Thrift.KeyValue)) : Res Nat × FileWriter :=
  FileWriter.endWith (fun w metadata => { w with state := .finished, metadata := some metadata })
    cs ck w keyValueMetadata

/-- `src/write/file.rs:242-244` `into_inner_and_metadata`. -/
def FileWriter.intoInnerAndMetadata (w : FileWriter) : Res (List Byte × Thrift.FileMetaData) :=
  (Res.unwrap w.metadata).map' fun m => (w.out, m)

/-! ### `write/stream.rs` -/

/-- `src/write/stream.rs:138-188` `FileStreamer::end`: as `FileWriter::end`, without a change of
state at the end. (`new`, `start` and `write`, lines 75-134, are those of `FileWriter`.) -/
def FileStreamer.end_ (cs : ThriftCodecs) (ck : Bool) (w : FileWriter)
    (keyValueMetadata : Option (List Thrift.KeyValue)) : Res Nat × FileWriter :=
  FileWriter.endWith (fun w _ => w) cs ck w keyValueMetadata

end Pq
