import Verif.Props.ClientSelection
import Verif.Model.ClientRead
import Verif.Model.Sidecar
/-
`tests/it/write/{mod,indexes,sidecar}.rs` run on the model: files that the clients write and read again, with the
sizes and offsets that the tests expect (one of them "validated against an equivalent array produced by pyarrow").
-/
namespace Pq.Tests
open Pq.Props Pq.Client

/-- `ParquetType::from_physical(name, type)`, which makes an optional column. -/
def fromPhysical (name : String) (t : PhysicalType) : PrimitiveType :=
  { fieldInfo := ⟨name, .optional, none⟩, logicalType := none, convertedType := none, physicalType := t }

/-- The writer of a file with one column, whose pages are these arrays: what `write` and `end` return, and the
writer. -/
def writeArrays (name : String) (t : PhysicalType) (statistics : Bool) (arrays : List Client.Array) :
    Res Nat × FileWriter :=
  let options : WriteOptions := { writeStatistics := statistics, version := 1#32 }
  let schema := SchemaDescriptor.new "schema" [.primitive (fromPhysical name t)]
  let pages : Res (List (List CompressedPage)) := schema.leaves.mapM fun c =>
    arrays.mapM fun array => do
      let page ← arrayToPage array options c.descriptor
      compressPage toyCodecs true page [] .uncompressed
  let w := FileWriter.new schema options none
  match pages with
  | .ok pages =>
    match w.write thriftCodecs true (writerCall pages) with
    | (.ok _, w) => w.end_ thriftCodecs true none
    | (.err e, w) => (.err e, w)
    | (.panic, w) => (.panic, w)
  | .err e => (.err e, w)
  | .panic => (.panic, w)

/-- `tests/it/write/mod.rs:56-107` `test_column`, with the compression `Uncompressed`: the array is read again, and the
statistics are as expected. -/
def testColumn (t : PhysicalType) (array : Client.Array) (expected : Statistics) : Bool :=
  match writeArrays "col" t true [array] with
  | (.ok _, w) => decide (readField fileCodec headerCodec toyCodecs true (fun _ _ => (0, [])) 3 w.out 0 "col" =
      .ok (.page (.flat array), some expected))
  | _ => false

/-- The statistics of `tests/it/main.rs:151-223` `alltypes_statistics`. -/
def colStats {α : Type} (t : PhysicalType) (min max : α) : PrimitiveStatistics α :=
  { primitiveType := fromPhysical "col" t, nullCount := some 0, distinctCount := none, minValue := some min,
    maxValue := some max }

-- `tests/it/write/mod.rs:109-112` `int32`; values `tests/it/main.rs:71-75`
example : testColumn .int32 (.int32 ([4, 5, 6, 7, 2, 3, 0, 1].map some)) (.int32 (colStats .int32 0 7)) = true := by
  decide +kernel
-- `tests/it/write/mod.rs:124-127` `int32_lz4_short_i32_array`, not compressed; values `tests/it/main.rs:76-80`
example : testColumn .int32 (.int32 [some 4]) (.int32 (colStats .int32 4 4)) = true := by decide +kernel
-- `tests/it/write/mod.rs:143-156` `tinyint`, `smallint_col`, `int_col`; values `tests/it/main.rs:86-100`
example : testColumn .int32 (.int32 ([0, 1, 0, 1, 0, 1, 0, 1].map some)) (.int32 (colStats .int32 0 1)) = true := by
  decide +kernel
-- `tests/it/write/mod.rs:158-161` `bigint_col`; values `tests/it/main.rs:101-105`
example : testColumn .int64 (.int64 ([0, 10, 0, 10, 0, 10, 0, 10].map some)) (.int64 (colStats .int64 0 10)) = true := by
  decide +kernel
-- `tests/it/write/mod.rs:163-166` `float_col`; values `tests/it/main.rs:106-110`, of which 1.1 is 0x3F8CCCCD
example : testColumn .float (.float ([0, 0x3F8CCCCD, 0, 0x3F8CCCCD, 0, 0x3F8CCCCD, 0, 0x3F8CCCCD].map some))
    (.float (colStats .float 0 0x3F8CCCCD)) = true := by decide +kernel
-- `tests/it/write/mod.rs:168-171` `double_col`; values `tests/it/main.rs:111-115`, of which 10.1 is 0x4024333333333333
example : testColumn .double (.double ([0, 0x4024333333333333, 0, 0x4024333333333333, 0, 0x4024333333333333, 0,
      0x4024333333333333].map some)) (.double (colStats .double 0 0x4024333333333333)) = true := by decide +kernel
-- `tests/it/write/mod.rs:173-176` `string_col`; values `tests/it/main.rs:130-143`
example : testColumn .byteArray (.binary ([[48], [49], [48], [49], [48], [49], [48], [49]].map some))
    (.binary { primitiveType := fromPhysical "col" .byteArray, nullCount := some 0, distinctCount := none,
               minValue := some [48], maxValue := some [49] }) = true := by decide +kernel

-- `tests/it/write/mod.rs:178-233` `basic`: the size of the column, validated against pyarrow
example : (readMetadata fileCodec (writeArrays "col" .int32 false [.int32 ([0, 1, 2, 3, 4, 5, 6].map some)]).2.out).map'
      (fun m => m.rowGroups.map fun g => g.columns.map fun c => c.uncompressedSize) = .ok [[.ok 51]] := by decide +kernel

/-- `tests/it/write/indexes.rs:21-57` `write_file`. -/
def indexedTestFile : List Byte :=
  (writeArrays "col1" .int32 true [.int32 [some 0, some 1, none, some 3, some 4, some 5, some 6],
    .int32 [some 10, some 11]]).2.out

/-- `&metadata.row_groups[0].columns()` and its number of rows. -/
def indexedTestColumns : Res (List ColumnChunkMetaData × Nat) := do
  let m ← readMetadata fileCodec indexedTestFile
  match m.rowGroups with
  | [group] => .ok (group.columns, group.numRows)
  | _ => .err .oos

-- `tests/it/write/indexes.rs:59-86` `read_indexed_page`: the second item and length 2
example : (do
    let (columns, numRows) ← indexedTestColumns
    let locations ← readPagesLocations offsetIndexCodec true indexedTestFile columns
    match columns, locations with
    | [column], [locations] =>
      let pages ← selectPages true [⟨2, 2⟩] locations numRows
      let reader ← IndexedReader.ofColumn indexedTestFile column pages
      Client.collect true (fun _ => BasicDecompressor.advance toyCodecs true (IndexedReader.next headerCodec true) (0, []))
        (·.current) .int32 3 0 (BasicDecompressor.new reader) none
    | _, _ => .err .oos) = .ok [.int32 [none, some 3]] := by decide +kernel

-- `tests/it/write/indexes.rs:88-133` `read_indexes_and_locations`
example : (do
    let (columns, _) ← indexedTestColumns
    readPagesLocations offsetIndexCodec true indexedTestFile columns) =
  .ok [[⟨4, 63, 0⟩, ⟨67, 47, 7⟩]] := by decide +kernel
example : (do
    let (columns, _) ← indexedTestColumns
    readColumnsIndexes (Compact.codecOf Compact.rColumnIndex) true indexedTestFile columns) =
  .ok [.int32 (fromPhysical "col1" .int32) [⟨some 0, some 6, some 1⟩, ⟨some 10, some 11, some 0⟩] .unordered] := by
  decide +kernel

-- `tests/it/write/sidecar.rs:8-54` `basic`: ten files without row groups, and their sidecar
example : (writeSidecar thriftCodecs true (["part-0.parquet", "part-1.parquet", "part-2.parquet", "part-3.parquet",
      "part-4.parquet", "part-5.parquet", "part-6.parquet", "part-7.parquet", "part-8.parquet",
      "part-9.parquet"].map fun path => (path,
    ((FileWriter.new (SchemaDescriptor.new "schema" [.primitive (fromPhysical "c1" .int32)])
      { writeStatistics := true, version := 2#32 } none).end_ thriftCodecs true none).2))).1.isOk = true := by
  decide +kernel

end Pq.Tests
