import Verif.Model.Schema
/-
Model of `src/page/mod.rs` and of `src/indexes/intervals.rs:11-16`.
-/
namespace Pq

/-- `src/indexes/intervals.rs:11-16` `Interval`. -/
structure Interval where
  start : Nat
  length : Nat
  deriving DecidableEq, Repr

/-- `src/page/mod.rs:120-123` `DataPageHeader`. -/
inductive DataPageHeader where
  | v1 (h : Thrift.DataPageHeader)
  | v2 (h : Thrift.DataPageHeaderV2)
  deriving DecidableEq, Repr

/-- `src/page/mod.rs:126-131` `num_values` (`as usize` of an `i32`). -/
def DataPageHeader.numValues : DataPageHeader → Nat
  | .v1 h => asUsize h.numValues
  | .v2 h => asUsize h.numValues

/-- `src/page/mod.rs:20-29` `CompressedDataPage`. -/
structure CompressedDataPage where
  header : DataPageHeader
  buffer : List Byte
  compression : Compression
  uncompressedPageSize : Nat
  descriptor : Descriptor
  selectedRows : Option (List Interval)
  deriving DecidableEq, Repr

/-- `src/page/mod.rs:33-49` `CompressedDataPage::new`. -/
def CompressedDataPage.new (header : DataPageHeader) (buffer : List Byte) (compression : Compression)
    (uncompressedPageSize : Nat) (descriptor : Descriptor) (rows : Option Nat) : CompressedDataPage :=
  { header, buffer, compression, uncompressedPageSize, descriptor
    selectedRows := rows.map fun x => [{ start := 0, length := x }] }

/-- `src/page/mod.rs:137-142` `DataPage`. -/
structure DataPage where
  header : DataPageHeader
  buffer : List Byte
  descriptor : Descriptor
  selectedRows : Option (List Interval)
  deriving DecidableEq, Repr

/-- `src/page/mod.rs:145-157` `DataPage::new`. -/
def DataPage.new (header : DataPageHeader) (buffer : List Byte) (descriptor : Descriptor)
    (rows : Option Nat) : DataPage :=
  { header, buffer, descriptor, selectedRows := rows.map fun x => [{ start := 0, length := x }] }

/-- `src/page/mod.rs:193-195` `num_values`. -/
def DataPage.numValues (p : DataPage) : Nat := p.header.numValues

/-- `src/page/mod.rs:197-202` `encoding`: panics on an unknown thrift code
(`src/parquet_bridge.rs:412-414`, `426-428`). -/
def DataPage.encoding (p : DataPage) : Res Encoding :=
  match p.header with
  | .v1 h => Encoding.unwrapThrift h.encoding
  | .v2 h => Encoding.unwrapThrift h.encoding

/-- `src/page/mod.rs:204-209` `definition_level_encoding` (`src/parquet_bridge.rs:420-422`). -/
def DataPage.definitionLevelEncoding (p : DataPage) : Res Encoding :=
  match p.header with
  | .v1 h => Encoding.unwrapThrift h.definitionLevelEncoding
  | .v2 _ => .ok .rle

/-- `src/page/mod.rs:211-216` `repetition_level_encoding` (`src/parquet_bridge.rs:416-418`). -/
def DataPage.repetitionLevelEncoding (p : DataPage) : Res Encoding :=
  match p.header with
  | .v1 h => Encoding.unwrapThrift h.repetitionLevelEncoding
  | .v2 _ => .ok .rle

/-- `src/page/mod.rs:301-305` `DictPage`. -/
structure DictPage where
  buffer : List Byte
  numValues : Nat
  isSorted : Bool
  deriving DecidableEq, Repr

/-- `src/page/mod.rs:319-325` `CompressedDictPage`. -/
structure CompressedDictPage where
  buffer : List Byte
  compression : Compression
  numValues : Nat
  uncompressedPageSize : Nat
  isSorted : Bool
  deriving DecidableEq, Repr

/-- `src/page/mod.rs:237-242` `Page`. -/
inductive Page where
  | data (p : DataPage)
  | dict (p : DictPage)
  deriving DecidableEq, Repr

/-- `src/page/mod.rs:257-260` `CompressedPage`. -/
inductive CompressedPage where
  | data (p : CompressedDataPage)
  | dict (p : CompressedDictPage)
  deriving DecidableEq, Repr

/-- `src/page/mod.rs:245-250` `Page::buffer` (read access). -/
def Page.buffer : Page → List Byte
  | .data p => p.buffer
  | .dict p => p.buffer

/-- `src/page/mod.rs:245-250` `Page::buffer` (write access through the returned reference). -/
def Page.setBuffer (b : List Byte) : Page → Page
  | .data p => .data { p with buffer := b }
  | .dict p => .dict { p with buffer := b }

/-- `src/page/mod.rs:263-268` `CompressedPage::buffer` (read access). -/
def CompressedPage.buffer : CompressedPage → List Byte
  | .data p => p.buffer
  | .dict p => p.buffer

/-- `src/page/mod.rs:263-268` `CompressedPage::buffer` (write access). -/
def CompressedPage.setBuffer (b : List Byte) : CompressedPage → CompressedPage
  | .data p => .data { p with buffer := b }
  | .dict p => .dict { p with buffer := b }

/-- `src/page/mod.rs:270-275` `compression`. -/
def CompressedPage.compression : CompressedPage → Compression
  | .data p => p.compression
  | .dict p => p.compression

/-- `src/page/mod.rs:277-282` `num_values` (zero for a dictionary page). -/
def CompressedPage.numValues : CompressedPage → Nat
  | .data p => p.header.numValues
  | .dict _ => 0

/-- `src/page/mod.rs:284-289` `selected_rows`. -/
def CompressedPage.selectedRows : CompressedPage → Option (List Interval)
  | .data p => p.selectedRows
  | .dict _ => none

/-- `src/page/mod.rs:291-296` `uncompressed_size`. -/
def CompressedPage.uncompressedSize : CompressedPage → Nat
  | .data p => p.uncompressedPageSize
  | .dict p => p.uncompressedPageSize

/-- `src/page/mod.rs:357-375` and `377-395`: the length-prefixed levels of a V1 page, if present,
and what follows. -/
def splitLevelsV1 (buffer : List Byte) (has : Bool) : Res (List Byte × List Byte) :=
  if has then
    match getLength buffer with
    | none => .err .oos
    | some n =>
      if 4 + n ≤ buffer.length then .ok ((buffer.drop 4).take n, buffer.drop (4 + n))
      else .err .oos
  else .ok ([], buffer)

/-- `src/page/mod.rs:352-398` `split_buffer_v1`: (repetition levels, definition levels, values). -/
def splitBufferV1 (buffer : List Byte) (hasRep hasDef : Bool) :
    Res (List Byte × List Byte × List Byte) := do
  let (rep, buffer) ← splitLevelsV1 buffer hasRep
  let (def', buffer) ← splitLevelsV1 buffer hasDef
  .ok (rep, def', buffer)

/-- `src/page/mod.rs:401-411` `split_buffer_v2`: slicing out of range panics. -/
def splitBufferV2 (buffer : List Byte) (repLen defLen : Nat) :
    Res (List Byte × List Byte × List Byte) := do
  let rep ← slice buffer 0 repLen
  let def' ← slice buffer repLen (repLen + defLen)
  let values ← slice buffer (repLen + defLen) buffer.length
  .ok (rep, def', values)

/-- `src/page/mod.rs:414-431` `split_buffer`. -/
def splitBuffer (page : DataPage) : Res (List Byte × List Byte × List Byte) :=
  match page.header with
  | .v1 _ =>
    splitBufferV1 page.buffer (decide (0 < page.descriptor.maxRepLevel.toInt))
      (decide (0 < page.descriptor.maxDefLevel.toInt))
  | .v2 h => do
    let defLen ← toUsize h.definitionLevelsByteLength
    let repLen ← toUsize h.repetitionLevelsByteLength
    splitBufferV2 page.buffer repLen defLen

end Pq
