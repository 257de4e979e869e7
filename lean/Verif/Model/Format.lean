import Verif.Model.Base
/-
The thrift structures of the `parquet_format_safe` crate (re-exported as `thrift_format`,
`src/lib.rs:22`), restricted to the fields read or written by the modelled code. The crate is an
external dependency: field names follow `parquet.thrift`; thrift enumerations are newtypes over
`i32` exactly as in the crate. Thrift-generated `i32`/`i64` are bit vectors.
-/
namespace Pq

/-- `i32`. -/
abbrev I32 := BitVec 32
/-- `i64`. -/
abbrev I64 := BitVec 64

/-- `i32::try_into::<usize>()` / `i64::try_into::<usize>()`: fails on negative numbers
(`src/error.rs:109-113` maps the failure to `OutOfSpec`). -/
def toUsize {w : Nat} (x : BitVec w) : Res Nat :=
  if 0 ≤ x.toInt then .ok x.toInt.toNat else .err .oos

/-- `x as i32` for `x: usize`: keeps the low 32 bits. -/
def asI32 (n : Nat) : I32 := BitVec.ofNat 32 n

/-- `x as i64` for `x: usize` / `u64`. -/
def asI64 (n : Nat) : I64 := BitVec.ofNat 64 n

/-- `usize::try_into::<i32>()`: fails above `i32::MAX`. -/
def tryI32 (n : Nat) : Res I32 := if n < 2 ^ 31 then .ok (BitVec.ofNat 32 n) else .err .oos

/-- `usize/u64::try_into::<i64>()`. -/
def tryI64 (n : Nat) : Res I64 := if n < 2 ^ 63 then .ok (BitVec.ofNat 64 n) else .err .oos

/-- `x as usize` for `x: i32` / `x: i64`: sign extension to 64 bits. -/
def asUsize {w : Nat} (x : BitVec w) : Nat := (x.signExtend 64).toNat

namespace Thrift

/-- `parquet.thrift` `Statistics`. -/
structure Statistics where
  max : Option (List Byte) := none
  min : Option (List Byte) := none
  nullCount : Option I64 := none
  distinctCount : Option I64 := none
  maxValue : Option (List Byte) := none
  minValue : Option (List Byte) := none
  deriving DecidableEq, Repr

/-- `parquet.thrift` `DataPageHeader`. -/
structure DataPageHeader where
  numValues : I32
  encoding : I32
  definitionLevelEncoding : I32
  repetitionLevelEncoding : I32
  statistics : Option Statistics := none
  deriving DecidableEq, Repr

/-- `parquet.thrift` `DataPageHeaderV2`. -/
structure DataPageHeaderV2 where
  numValues : I32
  numNulls : I32
  numRows : I32
  encoding : I32
  definitionLevelsByteLength : I32
  repetitionLevelsByteLength : I32
  isCompressed : Option Bool := none
  statistics : Option Statistics := none
  deriving DecidableEq, Repr

/-- `parquet.thrift` `DictionaryPageHeader`. -/
structure DictionaryPageHeader where
  numValues : I32
  encoding : I32
  isSorted : Option Bool := none
  deriving DecidableEq, Repr

/-- `parquet.thrift` `PageHeader` (`index_page_header` is never used). -/
structure PageHeader where
  type : I32
  uncompressedPageSize : I32
  compressedPageSize : I32
  crc : Option I32 := none
  dataPageHeader : Option DataPageHeader := none
  dictionaryPageHeader : Option DictionaryPageHeader := none
  dataPageHeaderV2 : Option DataPageHeaderV2 := none
  deriving DecidableEq, Repr

/-- `parquet.thrift` `TimeUnit`. -/
inductive TimeUnit where
  | millis | micros | nanos
  deriving DecidableEq, Repr

/-- `parquet.thrift` `LogicalType` (a thrift union). -/
inductive LogicalType where
  | string | map | list | enum
  | decimal (scale precision : I32)
  | date
  | time (isAdjustedToUTC : Bool) (unit : TimeUnit)
  | timestamp (isAdjustedToUTC : Bool) (unit : TimeUnit)
  | integer (bitWidth : BitVec 8) (isSigned : Bool)
  | unknown | json | bson | uuid
  deriving DecidableEq, Repr

/-- `parquet.thrift` `SchemaElement`. -/
structure SchemaElement where
  type : Option I32 := none
  typeLength : Option I32 := none
  repetitionType : Option I32 := none
  name : String
  numChildren : Option I32 := none
  convertedType : Option I32 := none
  scale : Option I32 := none
  precision : Option I32 := none
  fieldId : Option I32 := none
  logicalType : Option LogicalType := none
  deriving DecidableEq, Repr

/-- `parquet.thrift` `PageLocation`. -/
structure PageLocation where
  offset : I64
  compressedPageSize : I32
  firstRowIndex : I64
  deriving DecidableEq, Repr

/-- `parquet.thrift` `OffsetIndex`. -/
structure OffsetIndex where
  pageLocations : List PageLocation
  deriving DecidableEq, Repr

/-- `parquet.thrift` `ColumnIndex`. -/
structure ColumnIndex where
  nullPages : List Bool
  minValues : List (List Byte)
  maxValues : List (List Byte)
  boundaryOrder : I32
  nullCounts : Option (List I64) := none
  deriving DecidableEq, Repr

/-- `parquet.thrift` `PageEncodingStats`. -/
structure PageEncodingStats where
  pageType : I32
  encoding : I32
  count : I32
  deriving DecidableEq, Repr

/-- `parquet.thrift` `KeyValue`. -/
structure KeyValue where
  key : String
  value : Option String := none
  deriving DecidableEq, Repr

/-- `parquet.thrift` `ColumnMetaData`. -/
structure ColumnMetaData where
  type : I32
  encodings : List I32
  pathInSchema : List String
  codec : I32
  numValues : I64
  totalUncompressedSize : I64
  totalCompressedSize : I64
  keyValueMetadata : Option (List KeyValue) := none
  dataPageOffset : I64
  indexPageOffset : Option I64 := none
  dictionaryPageOffset : Option I64 := none
  statistics : Option Statistics := none
  encodingStats : Option (List PageEncodingStats) := none
  bloomFilterOffset : Option I64 := none
  deriving DecidableEq, Repr

/-- `parquet.thrift` `ColumnChunk` (the encryption fields are always `None`). -/
structure ColumnChunk where
  filePath : Option String := none
  fileOffset : I64
  metaData : Option ColumnMetaData := none
  offsetIndexOffset : Option I64 := none
  offsetIndexLength : Option I32 := none
  columnIndexOffset : Option I64 := none
  columnIndexLength : Option I32 := none
  deriving DecidableEq, Repr

/-- `parquet.thrift` `SortingColumn`. -/
structure SortingColumn where
  columnIdx : I32
  descending : Bool
  nullsFirst : Bool
  deriving DecidableEq, Repr

/-- `parquet.thrift` `RowGroup`. -/
structure RowGroup where
  columns : List ColumnChunk
  totalByteSize : I64
  numRows : I64
  sortingColumns : Option (List SortingColumn) := none
  fileOffset : Option I64 := none
  totalCompressedSize : Option I64 := none
  ordinal : Option (BitVec 16) := none
  deriving DecidableEq, Repr

/-- `parquet.thrift` `FileMetaData`; a column order is the thrift union with one alternative. -/
structure FileMetaData where
  version : I32
  schema : List SchemaElement
  numRows : I64
  rowGroups : List RowGroup
  keyValueMetadata : Option (List KeyValue) := none
  createdBy : Option String := none
  columnOrders : Option (List Unit) := none
  deriving DecidableEq, Repr

end Thrift
end Pq
