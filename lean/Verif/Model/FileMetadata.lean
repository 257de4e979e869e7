import Verif.Model.Writer
/-
Model of `src/metadata/column_chunk_metadata.rs`, `src/metadata/row_metadata.rs`,
`src/metadata/file_metadata.rs`, `src/metadata/column_order.rs`, `src/metadata/sort.rs`,
`src/read/metadata.rs`, `src/read/stream.rs`, `src/read/mod.rs` and `src/read/column/mod.rs`.

A reader is the bytes of the file; reading does not fail except by seeking before its start. The
`try_reserve`s before reading are not modelled. `ck` is whether overflow checks are on.
-/
namespace Pq

/-! ### sort and column orders -/

/-- `src/metadata/sort.rs:18-25` `SortOrder`. -/
inductive SortOrder where
  | signed | unsigned | undefined
  deriving DecidableEq, Repr

/-- `src/metadata/sort.rs:42-60` `get_logical_sort_order`. -/
def logicalSortOrder : PrimitiveLogicalType → SortOrder
  | .string | .enum | .json | .bson => .unsigned
  | .integer t => match t with
    | .int8 | .int16 | .int32 | .int64 => .signed
    | _ => .unsigned
  | .decimal _ _ => .signed
  | .date => .signed
  | .time _ _ => .signed
  | .timestamp _ _ => .signed
  | .unknown => .undefined
  | .uuid => .unsigned

/-- `src/metadata/sort.rs:62-75` `get_converted_sort_order`. -/
def convertedSortOrder : PrimitiveConvertedType → SortOrder
  | .utf8 | .json | .bson | .enum => .unsigned
  | .int8 | .int16 | .int32 | .int64 => .signed
  | .uint8 | .uint16 | .uint32 | .uint64 => .unsigned
  | .decimal _ _ => .signed
  | .date => .signed
  | .timeMillis | .timeMicros | .timestampMillis | .timestampMicros => .signed
  | .interval => .undefined

/-- `src/metadata/sort.rs:77-94` `get_physical_sort_order`. -/
def physicalSortOrder : PhysicalType → SortOrder
  | .boolean => .unsigned
  | .int32 | .int64 => .signed
  | .int96 => .undefined
  | .float | .double => .signed
  | .byteArray | .fixedLenByteArray _ => .unsigned

/-- `src/metadata/sort.rs:28-40` `get_sort_order`. -/
def getSortOrder (logicalType : Option PrimitiveLogicalType)
    (convertedType : Option PrimitiveConvertedType) (physicalType : PhysicalType) : SortOrder :=
  match logicalType with
  | some l => logicalSortOrder l
  | none => match convertedType with
    | some c => convertedSortOrder c
    | none => physicalSortOrder physicalType

/-- `src/metadata/column_order.rs:12-19` `ColumnOrder`. -/
inductive ColumnOrder where
  | typeDefinedOrder (order : SortOrder)
  | undefined
  deriving DecidableEq, Repr

/-- `src/metadata/column_order.rs:23-28` `sort_order`. -/
def ColumnOrder.sortOrder : ColumnOrder → SortOrder
  | .typeDefinedOrder order => order
  | .undefined => .signed

/-! ### `metadata/column_chunk_metadata.rs` -/

/-- `src/metadata/column_chunk_metadata.rs:29-40` `ColumnChunkMetaData`. -/
structure ColumnChunkMetaData where
  columnChunk : Thrift.ColumnChunk
  columnDescr : ColumnDescriptor

namespace ColumnChunkMetaData

/-- `src/metadata/column_chunk_metadata.rs:84-86` `file_path`. -/
def filePath (c : ColumnChunkMetaData) : Option String := c.columnChunk.filePath

/-- `src/metadata/column_chunk_metadata.rs:89-91` `file_offset`. -/
def fileOffset (c : ColumnChunkMetaData) : I64 := c.columnChunk.fileOffset

/-- `src/metadata/column_chunk_metadata.rs:99-101` `metadata`. -/
def metadata (c : ColumnChunkMetaData) : Res Thrift.ColumnMetaData :=
  Res.unwrap c.columnChunk.metaData

/-- `src/metadata/column_chunk_metadata.rs:110-112` `physical_type`. -/
def physicalType (c : ColumnChunkMetaData) : PhysicalType :=
  c.columnDescr.descriptor.primitiveType.physicalType

/-- `src/metadata/column_chunk_metadata.rs:115-120` `statistics`. -/
def statistics (c : ColumnChunkMetaData) : Res (Option (Res Statistics)) :=
  c.metadata.map' fun m =>
    m.statistics.map fun x => deserializeStatistics x c.columnDescr.descriptor.primitiveType

/-- `src/metadata/column_chunk_metadata.rs:124-126` `num_values`. -/
def numValues (c : ColumnChunkMetaData) : Res I64 := c.metadata.map' (·.numValues)

/-- `src/metadata/column_chunk_metadata.rs:129-131` `compression`. -/
def compression (c : ColumnChunkMetaData) : Res Compression := do
  let m ← c.metadata
  match Compression.ofThrift m.codec with
  | .ok c => .ok c
  | _ => .panic

/-- `src/metadata/column_chunk_metadata.rs:134-136` `compressed_size`. -/
def compressedSize (c : ColumnChunkMetaData) : Res I64 := c.metadata.map' (·.totalCompressedSize)

/-- `src/metadata/column_chunk_metadata.rs:139-141` `uncompressed_size`. -/
def uncompressedSize (c : ColumnChunkMetaData) : Res I64 := c.metadata.map' (·.totalUncompressedSize)

/-- `src/metadata/column_chunk_metadata.rs:144-146` `data_page_offset`. -/
def dataPageOffset (c : ColumnChunkMetaData) : Res I64 := c.metadata.map' (·.dataPageOffset)

/-- `src/metadata/column_chunk_metadata.rs:149-151` `has_index_page`. -/
def hasIndexPage (c : ColumnChunkMetaData) : Res Bool := c.metadata.map' (·.indexPageOffset.isSome)

/-- `src/metadata/column_chunk_metadata.rs:154-156` `index_page_offset`. -/
def indexPageOffset (c : ColumnChunkMetaData) : Res (Option I64) := c.metadata.map' (·.indexPageOffset)

/-- `src/metadata/column_chunk_metadata.rs:159-161` `dictionary_page_offset`. -/
def dictionaryPageOffset (c : ColumnChunkMetaData) : Res (Option I64) :=
  c.metadata.map' (·.dictionaryPageOffset)

/-- `src/metadata/column_chunk_metadata.rs:164-166` `column_encoding`. -/
def columnEncoding (c : ColumnChunkMetaData) : Res (List I32) := c.metadata.map' (·.encodings)

/-- `src/metadata/column_chunk_metadata.rs:169-178` `byte_range`: start and length, cast `as u64`. -/
def byteRange (c : ColumnChunkMetaData) : Res (Nat × Nat) := do
  let m ← c.metadata
  let start := match m.dictionaryPageOffset with
    | some offset => asUsize offset
    | none => asUsize m.dataPageOffset
  .ok (start, asUsize m.totalCompressedSize)

/-- `src/metadata/column_chunk_metadata.rs:181-203` `try_from_thrift`. -/
def tryFromThrift (columnDescr : ColumnDescriptor) (columnChunk : Thrift.ColumnChunk) :
    Res ColumnChunkMetaData := do
  let m ← Res.ofOption .oos columnChunk.metaData
  let _ ← toUsize m.totalCompressedSize
  let _ ← transposeMap toUsize m.dictionaryPageOffset
  let _ ← toUsize m.dataPageOffset
  let _ ← Compression.ofThrift m.codec
  .ok { columnChunk, columnDescr }

/-- `src/metadata/column_chunk_metadata.rs:206-208` `into_thrift`. -/
def intoThrift (c : ColumnChunkMetaData) : Thrift.ColumnChunk := c.columnChunk

end ColumnChunkMetaData

/-! ### `metadata/row_metadata.rs` -/

/-- `src/metadata/row_metadata.rs:14-18` `RowGroupMetaData`. -/
structure RowGroupMetaData where
  columns : List ColumnChunkMetaData
  numRows : Nat
  totalByteSize : Nat

/-- `.sum::<usize>()`. -/
def sumUsize (ck : Bool) : Nat → List Nat → Res Nat
  | acc, [] => .ok acc
  | acc, x :: xs => do
    let acc ← uadd ck acc x
    sumUsize ck acc xs

namespace RowGroupMetaData

/-- `src/metadata/row_metadata.rs:50-55` `compressed_size`. -/
def compressedSize (ck : Bool) (g : RowGroupMetaData) : Res Nat := do
  let xs ← collectRes (g.columns.map fun c => c.compressedSize.map' fun x => asUsize x)
  sumUsize ck 0 xs

/-- `src/metadata/row_metadata.rs:58-81` `try_from_thrift`. -/
def tryFromThrift (schema : SchemaDescriptor) (rg : Thrift.RowGroup) : Res RowGroupMetaData :=
  if schema.leaves.length ≠ rg.columns.length then .err .oos
  else do
    let totalByteSize ← toUsize rg.totalByteSize
    let numRows ← toUsize rg.numRows
    let columns ← collectRes ((rg.columns.zip schema.leaves).map fun x =>
      ColumnChunkMetaData.tryFromThrift x.2 x.1)
    .ok { columns, numRows, totalByteSize }

/-- `src/write/row_group.rs:43-57`: `from_column_chunk_metadata(..).calc_row_group_file_offset()`. -/
def fileOffset (c : ColumnChunkMetaData) : Res (Option I64) :=
  c.metadata.map' fun m =>
    (m.dictionaryPageOffset.filter fun x => 0 < x.toInt).or (some m.dataPageOffset)

/-- `src/metadata/row_metadata.rs:84-103` `into_thrift`. -/
def intoThrift (ck : Bool) (g : RowGroupMetaData) : Res Thrift.RowGroup := do
  let fileOffset ← match g.columns with
    | [] => .ok none
    | c :: _ => fileOffset c
  let size ← g.compressedSize ck
  .ok { columns := g.columns.map (·.intoThrift), totalByteSize := asI64 g.totalByteSize
        numRows := asI64 g.numRows, fileOffset, totalCompressedSize := some (asI64 size) }

end RowGroupMetaData

/-! ### `metadata/file_metadata.rs` -/

/-- `src/metadata/file_metadata.rs:12-40` `FileMetaData`. -/
structure FileMetaData where
  version : I32
  numRows : Nat
  createdBy : Option String
  rowGroups : List RowGroupMetaData
  keyValueMetadata : Option (List Thrift.KeyValue)
  schemaDescr : SchemaDescriptor
  columnOrders : Option (List ColumnOrder)

/-- `src/metadata/file_metadata.rs:108-127` `parse_column_orders`. -/
def parseColumnOrders (orders : List Unit) (schema : SchemaDescriptor) : List ColumnOrder :=
  (schema.leaves.zip orders).map fun x =>
    let t := x.1.descriptor.primitiveType
    .typeDefinedOrder (getSortOrder t.logicalType t.convertedType t.physicalType)

namespace FileMetaData

/-- `src/metadata/file_metadata.rs:55-60` `column_order`. -/
def columnOrder (m : FileMetaData) (i : Nat) : Res ColumnOrder :=
  match m.columnOrders with
  | none => .ok .undefined
  | some data => Res.unwrap data[i]?

/-- `src/metadata/file_metadata.rs:63-85` `try_from_thrift`. -/
def tryFromThrift (metadata : Thrift.FileMetaData) : Res FileMetaData :=
  match SchemaDescriptor.tryFromThrift metadata.schema with
  | .err e => .err e
  | .panic => .panic
  | .ok schema => do
    let rowGroups ← collectRes (metadata.rowGroups.map (RowGroupMetaData.tryFromThrift schema))
    let columnOrders := metadata.columnOrders.map fun orders => parseColumnOrders orders schema
    let numRows ← toUsize metadata.numRows
    .ok { version := metadata.version, numRows, createdBy := metadata.createdBy, rowGroups
          keyValueMetadata := metadata.keyValueMetadata, schemaDescr := schema, columnOrders }

/-- `src/metadata/file_metadata.rs:88-104` `into_thrift`. -/
def intoThrift (ck : Bool) (m : FileMetaData) : Res Thrift.FileMetaData := do
  let rowGroups ← collectRes (m.rowGroups.map (RowGroupMetaData.intoThrift ck))
  .ok { version := m.version, schema := m.schemaDescr.intoThrift, numRows := asI64 m.numRows
        rowGroups, keyValueMetadata := m.keyValueMetadata, createdBy := m.createdBy }

end FileMetaData

/-! ### `read/metadata.rs` -/

/-- `src/read/metadata.rs:54-60` and 81-85: `seek(SeekFrom::End(-k))` and reading the `k` bytes from
there; seeking before the start is an I/O error. -/
def lastBytes (file : List Byte) (k : Nat) : Res (List Byte) :=
  if k ≤ file.length then .ok (file.drop (file.length - k)) else .err .oos

/-- `src/read/metadata.rs:16-18` `metadata_len`. -/
def metadataLen (buffer : List Byte) (len : Nat) : Res I32 :=
  (slice buffer (len - 8) (len - 4)).map' (fromLe 32)

/-- `src/read/metadata.rs:100-105` `deserialize_metadata`. -/
def deserializeMetadata (codec : Codec Thrift.FileMetaData) (reader : List Byte) (maxSize : Nat) :
    Res FileMetaData :=
  match (codec.parse maxSize reader).1 with
  | .ok m => FileMetaData.tryFromThrift m
  | .err e => .err e
  | .panic => .panic

/-- `src/read/metadata.rs:51-92`: the bytes from which the metadata is parsed. -/
def footerBytes (file : List Byte) (fileSize : Nat) : Res (List Byte) :=
  if fileSize < 12 then .err .oos
  else do
    let defaultEndLen := min (64 * 1024) fileSize
    let buffer ← lastBytes file defaultEndLen
    let tail ← slice buffer (defaultEndLen - 4) buffer.length
    if tail ≠ magic then .err .oos
    else do
      let len ← metadataLen buffer defaultEndLen
      let len ← toUsize len
      let footerLen := 8 + len
      if fileSize < footerLen then .err .oos
      else if footerLen < buffer.length then .ok (buffer.drop (buffer.length - footerLen))
      else lastBytes file footerLen

/-- `src/read/metadata.rs:42-97` `read_metadata_with_size`. -/
def readMetadataWithSize (codec : Codec Thrift.FileMetaData) (file : List Byte) (fileSize : Nat) :
    Res FileMetaData :=
  match footerBytes file fileSize with
  | .ok reader => deserializeMetadata codec reader (reader.length * 2 + 1024)
  | .err e => .err e
  | .panic => .panic

/-- `src/read/metadata.rs:35-39` `read_metadata`; `src/read/stream.rs:25-87` is the same with
`await`. -/
def readMetadata (codec : Codec Thrift.FileMetaData) (file : List Byte) : Res FileMetaData :=
  readMetadataWithSize codec file file.length

/-! ### `read/mod.rs` -/

/-- `src/read/mod.rs:36-41`: the loop of `filter_row_groups`. -/
def filterGroups (predicate : RowGroupMetaData → Nat → Bool) :
    Nat → List RowGroupMetaData → List RowGroupMetaData
  | _, [] => []
  | i, g :: gs =>
    if predicate g i then g :: filterGroups predicate (i + 1) gs
    else filterGroups predicate (i + 1) gs

/-- `src/read/mod.rs:32-45` `filter_row_groups`. -/
def filterRowGroups (m : FileMetaData) (predicate : RowGroupMetaData → Nat → Bool) : FileMetaData :=
  { m with rowGroups := filterGroups predicate 0 m.rowGroups }

/-- `src/read/page/reader.rs:49-58` `From<&ColumnChunkMetaData> for PageMetaData`. -/
def ColumnChunkMetaData.pageMetaData (c : ColumnChunkMetaData) : Res PageMetaData := do
  let (columnStart, _) ← c.byteRange
  let numValues ← c.numValues
  let compression ← c.compression
  .ok { columnStart, numValues, compression, descriptor := c.columnDescr.descriptor }

/-- `src/read/mod.rs:48-66` `get_page_iterator`; the reader is the file from the seeked position on
(empty past its end). -/
def getPageIterator (column : ColumnChunkMetaData) (file : List Byte)
    (pagesFilter : Option PageFilter) (scratch : List Byte) (maxPageSize : Nat) : Res PageReader :=
  let pagesFilter := pagesFilter.getD fun _ _ => true
  match column.byteRange with
  | .err e => .err e
  | .panic => .panic
  | .ok (start, _) =>
    match column.pageMetaData with
    | .err e => .err e
    | .panic => .panic
    | .ok meta' => .ok (PageReader.new (file.drop start) meta' pagesFilter scratch maxPageSize)

/-- `src/read/mod.rs:70-77` `get_field_columns`; indexing an empty path panics. -/
def getFieldColumns (fieldName : String) : List ColumnChunkMetaData → Res (List ColumnChunkMetaData)
  | [] => .ok []
  | c :: cs =>
    match c.columnDescr.pathInSchema with
    | [] => .panic
    | root :: _ =>
      (getFieldColumns fieldName cs).map' fun rest => if root = fieldName then c :: rest else rest

/-! ### `read/column/mod.rs` -/

/-- `src/read/column/mod.rs:39-44` `State`. -/
inductive Advanced (σ : Type) where
  | some (s : σ)
  | finished (scratch : List Byte)

/-- `src/read/column/mod.rs:57-64` `ColumnIterator`. `file` is the content of the reader, wherever the
reader is (in `reader` or in `current`): the iterator seeks before reading from it. -/
structure ColumnIterator where
  file : List Byte
  reader : Option Unit
  columns : List ColumnChunkMetaData
  pageFilter : Option PageFilter
  current : Option (PageReader × ColumnChunkMetaData)
  scratch : List Byte
  maxPageSize : Nat

/-- `src/read/column/mod.rs:69-85` `new`. -/
def ColumnIterator.new (file : List Byte) (columns : List ColumnChunkMetaData)
    (pageFilter : Option PageFilter) (scratch : List Byte) (maxPageSize : Nat) : ColumnIterator :=
  { file, reader := some (), columns := columns.reverse, pageFilter, current := none, scratch
    maxPageSize }

/-- `src/read/column/mod.rs:22-35` `get_column_iterator`. -/
def getColumnIterator (file : List Byte) (rowGroup : RowGroupMetaData) (fieldName : String)
    (pageFilter : Option PageFilter) (scratch : List Byte) (maxPageSize : Nat) :
    Res ColumnIterator :=
  match getFieldColumns fieldName rowGroup.columns with
  | .ok columns => .ok (ColumnIterator.new file columns pageFilter scratch maxPageSize)
  | .err e => .err e
  | .panic => .panic

/-- `src/read/column/mod.rs:93-97`: the reader and the buffer to go on with. -/
def ColumnIterator.takeScratch (s : ColumnIterator) : Res (List Byte) :=
  match s.current with
  | some (iter, _) => .ok iter.scratch
  | none => (Res.unwrap s.reader).map' fun _ => s.scratch

/-- `src/read/column/mod.rs:92-119` `advance`. `Vec::pop` takes the last column. -/
def ColumnIterator.advance (s : ColumnIterator) : Res (Advanced ColumnIterator) :=
  match s.takeScratch with
  | .err e => .err e
  | .panic => .panic
  | .ok scratch =>
    match s.columns.getLast? with
    | none => .ok (.finished scratch)
    | some column =>
      match getPageIterator column s.file s.pageFilter scratch s.maxPageSize with
      | .err e => .err e
      | .panic => .panic
      | .ok iter => .ok (.some
          { file := s.file, reader := none, columns := s.columns.dropLast
            pageFilter := s.pageFilter, current := some (iter, column), scratch := []
            maxPageSize := s.maxPageSize })

/-- `src/read/column/mod.rs:121-123` `get`. -/
def ColumnIterator.get (s : ColumnIterator) : Option (PageReader × ColumnChunkMetaData) := s.current

/-- `src/read/column/mod.rs:128-132` `ReadColumnIterator`. -/
structure ReadColumnIterator where
  field : ParquetType
  chunks : List (List (Res CompressedPage) × ColumnChunkMetaData)
  current : Option (List (Res CompressedPage) × ColumnChunkMetaData)

/-- `src/read/column/mod.rs:136-145` `new`. -/
def ReadColumnIterator.new (field : ParquetType)
    (chunks : List (List (Res CompressedPage) × ColumnChunkMetaData)) : ReadColumnIterator :=
  { field, chunks, current := none }

/-- `src/read/column/mod.rs:152-165` `advance`: `Vec::pop` takes the last chunk. -/
def ReadColumnIterator.advance (s : ReadColumnIterator) : Res (Advanced ReadColumnIterator) :=
  match s.chunks.getLast? with
  | none => .ok (.finished [])
  | some chunk =>
    .ok (.some { field := s.field, chunks := s.chunks.dropLast, current := some chunk })

/-- `src/read/column/mod.rs:167-169` `get`. -/
def ReadColumnIterator.get (s : ReadColumnIterator) :
    Option (List (Res CompressedPage) × ColumnChunkMetaData) := s.current

/-- `src/read/column/mod.rs:190-201` `read_column`: at most `length` bytes from `start` on. More than
`isize::MAX` bytes cannot be reserved (less is assumed to be available). -/
def readColumn (file : List Byte) (column : ColumnChunkMetaData) : Res (List Byte) := do
  let (start, length) ← column.byteRange
  if 2 ^ 63 ≤ length then .err .oos
  else .ok ((file.drop start).take length)

/-- `src/read/column/mod.rs:178-186` `read_columns`. The lazy filter and the reads are interleaved, so
a failing read comes before a panic of a later column. -/
def readColumns (file : List Byte) (fieldName : String) :
    List ColumnChunkMetaData → Res (List (ColumnChunkMetaData × List Byte))
  | [] => .ok []
  | c :: cs =>
    match c.columnDescr.pathInSchema with
    | [] => .panic
    | root :: _ =>
      if root = fieldName then
        match readColumn file c with
        | .err e => .err e
        | .panic => .panic
        | .ok bytes => (readColumns file fieldName cs).map' ((c, bytes) :: ·)
      else readColumns file fieldName cs

end Pq
