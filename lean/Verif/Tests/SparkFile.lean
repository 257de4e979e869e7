import Verif.Props.Writer
import Verif.Props.PageSource
import Verif.Props.Hash
import Verif.Model.ClientRead
import Verif.Model.Indexes
/-
`tests/it/read/indexes.rs`: a file that Spark wrote, with page indexes and bloom filters, and what the test
expects of it, run on the model. This checks the model of the footer, of the compact protocol of thrift
(a crate of its own, so that its source is not in the repository) and of the readers against bytes that
neither the code nor the model made.
-/
namespace Pq.Tests
open Pq.Props

/-- `tests/it/read/indexes.rs:26-82` `FILE`. -/
def sparkFile : List Byte := [
  80, 65, 82, 49, 21, 0, 21, 172, 1, 21, 138, 1, 21, 169, 161, 209, 137, 5, 28, 21, 20, 21, 0, 21, 6, 21,
  8, 0, 0, 86, 24, 2, 0, 0, 0, 20, 1, 0, 13, 1, 17, 9, 1, 22, 1, 1, 0, 3, 1, 5, 12, 0, 0, 0, 4, 1, 5, 12,
  0, 0, 0, 5, 1, 5, 12, 0, 0, 0, 6, 1, 5, 12, 0, 0, 0, 7, 1, 5, 72, 0, 0, 0, 8, 0, 0, 0, 0, 0, 0, 0, 9, 0,
  0, 0, 0, 0, 0, 0, 21, 0, 21, 112, 21, 104, 21, 138, 239, 232, 170, 15, 28, 21, 20, 21, 0, 21, 6, 21, 8,
  0, 0, 56, 40, 2, 0, 0, 0, 20, 1, 1, 0, 0, 0, 48, 1, 5, 0, 49, 1, 5, 0, 50, 1, 5, 0, 51, 1, 5, 0, 52, 1,
  5, 0, 53, 1, 5, 60, 54, 1, 0, 0, 0, 55, 1, 0, 0, 0, 56, 1, 0, 0, 0, 57, 21, 0, 21, 16, 21, 20, 21, 202,
  209, 169, 227, 4, 28, 21, 20, 21, 0, 21, 6, 21, 8, 0, 0, 8, 28, 2, 0, 0, 0, 20, 1, 0, 0, 25, 17, 2, 25,
  24, 8, 0, 0, 0, 0, 0, 0, 0, 0, 25, 24, 8, 9, 0, 0, 0, 0, 0, 0, 0, 21, 2, 25, 22, 0, 0, 25, 17, 2, 25, 24,
  1, 48, 25, 24, 1, 57, 21, 2, 25, 22, 0, 0, 25, 17, 2, 25, 24, 1, 0, 25, 24, 1, 0, 21, 2, 25, 22, 0, 0,
  25, 28, 22, 8, 21, 188, 1, 22, 0, 0, 0, 25, 28, 22, 196, 1, 21, 150, 1, 22, 0, 0, 0, 25, 28, 22, 218, 2,
  21, 66, 22, 0, 0, 0, 21, 64, 28, 28, 0, 0, 28, 28, 0, 0, 28, 28, 0, 0, 0, 24, 130, 24, 8, 134, 8, 68, 6,
  2, 101, 128, 10, 64, 2, 38, 78, 114, 1, 64, 38, 1, 192, 194, 152, 64, 70, 0, 36, 56, 121, 64, 0, 21, 64,
  28, 28, 0, 0, 28, 28, 0, 0, 28, 28, 0, 0, 0, 8, 17, 10, 29, 5, 88, 194, 0, 35, 208, 25, 16, 70, 68, 48,
  38, 17, 16, 140, 68, 98, 56, 0, 131, 4, 193, 40, 129, 161, 160, 1, 96, 21, 64, 28, 28, 0, 0, 28, 28, 0,
  0, 28, 28, 0, 0, 0, 0, 0, 0, 0, 0, 0, 0, 0, 0, 0, 0, 0, 0, 0, 0, 0, 0, 0, 0, 0, 0, 0, 0, 0, 0, 0, 0, 0,
  0, 0, 0, 0, 21, 2, 25, 76, 72, 12, 115, 112, 97, 114, 107, 95, 115, 99, 104, 101, 109, 97, 21, 6, 0, 21,
  4, 37, 2, 24, 2, 105, 100, 0, 21, 12, 37, 2, 24, 6, 115, 116, 114, 105, 110, 103, 37, 0, 76, 28, 0, 0, 0,
  21, 0, 37, 2, 24, 4, 98, 111, 111, 108, 0, 22, 20, 25, 28, 25, 60, 38, 8, 28, 21, 4, 25, 53, 0, 6, 8, 25,
  24, 2, 105, 100, 21, 2, 22, 20, 22, 222, 1, 22, 188, 1, 38, 8, 60, 24, 8, 9, 0, 0, 0, 0, 0, 0, 0, 24, 8,
  0, 0, 0, 0, 0, 0, 0, 0, 22, 0, 40, 8, 9, 0, 0, 0, 0, 0, 0, 0, 24, 8, 0, 0, 0, 0, 0, 0, 0, 0, 0, 25, 28,
  21, 0, 21, 0, 21, 2, 0, 22, 226, 4, 0, 22, 158, 4, 21, 22, 22, 156, 3, 21, 62, 0, 38, 196, 1, 28, 21, 12,
  25, 53, 0, 6, 8, 25, 24, 6, 115, 116, 114, 105, 110, 103, 21, 2, 22, 20, 22, 158, 1, 22, 150, 1, 38, 196,
  1, 60, 54, 0, 40, 1, 57, 24, 1, 48, 0, 25, 28, 21, 0, 21, 0, 21, 2, 0, 22, 192, 5, 0, 22, 180, 4, 21, 24,
  22, 218, 3, 21, 34, 0, 38, 218, 2, 28, 21, 0, 25, 53, 0, 6, 8, 25, 24, 4, 98, 111, 111, 108, 21, 2, 22,
  20, 22, 62, 22, 66, 38, 218, 2, 60, 24, 1, 0, 24, 1, 0, 22, 0, 40, 1, 0, 24, 1, 0, 0, 25, 28, 21, 0, 21,
  0, 21, 2, 0, 22, 158, 6, 0, 22, 204, 4, 21, 22, 22, 252, 3, 21, 34, 0, 22, 186, 3, 22, 20, 38, 8, 22,
  148, 3, 20, 0, 0, 25, 44, 24, 24, 111, 114, 103, 46, 97, 112, 97, 99, 104, 101, 46, 115, 112, 97, 114,
  107, 46, 118, 101, 114, 115, 105, 111, 110, 24, 5, 51, 46, 50, 46, 49, 0, 24, 41, 111, 114, 103, 46, 97,
  112, 97, 99, 104, 101, 46, 115, 112, 97, 114, 107, 46, 115, 113, 108, 46, 112, 97, 114, 113, 117, 101,
  116, 46, 114, 111, 119, 46, 109, 101, 116, 97, 100, 97, 116, 97, 24, 213, 1, 123, 34, 116, 121, 112, 101,
  34, 58, 34, 115, 116, 114, 117, 99, 116, 34, 44, 34, 102, 105, 101, 108, 100, 115, 34, 58, 91, 123, 34,
  110, 97, 109, 101, 34, 58, 34, 105, 100, 34, 44, 34, 116, 121, 112, 101, 34, 58, 34, 108, 111, 110, 103,
  34, 44, 34, 110, 117, 108, 108, 97, 98, 108, 101, 34, 58, 116, 114, 117, 101, 44, 34, 109, 101, 116, 97,
  100, 97, 116, 97, 34, 58, 123, 125, 125, 44, 123, 34, 110, 97, 109, 101, 34, 58, 34, 115, 116, 114, 105,
  110, 103, 34, 44, 34, 116, 121, 112, 101, 34, 58, 34, 115, 116, 114, 105, 110, 103, 34, 44, 34, 110, 117,
  108, 108, 97, 98, 108, 101, 34, 58, 116, 114, 117, 101, 44, 34, 109, 101, 116, 97, 100, 97, 116, 97, 34,
  58, 123, 125, 125, 44, 123, 34, 110, 97, 109, 101, 34, 58, 34, 98, 111, 111, 108, 34, 44, 34, 116, 121,
  112, 101, 34, 58, 34, 98, 111, 111, 108, 101, 97, 110, 34, 44, 34, 110, 117, 108, 108, 97, 98, 108, 101,
  34, 58, 116, 114, 117, 101, 44, 34, 109, 101, 116, 97, 100, 97, 116, 97, 34, 58, 123, 125, 125, 93, 125,
  0, 24, 74, 112, 97, 114, 113, 117, 101, 116, 45, 109, 114, 32, 118, 101, 114, 115, 105, 111, 110, 32, 49,
  46, 49, 50, 46, 50, 32, 40, 98, 117, 105, 108, 100, 32, 55, 55, 101, 51, 48, 99, 56, 48, 57, 51, 51, 56,
  54, 101, 99, 53, 50, 99, 51, 99, 102, 97, 54, 99, 51, 52, 98, 55, 101, 102, 51, 51, 50, 49, 51, 50, 50,
  99, 57, 52, 41, 25, 60, 28, 0, 0, 28, 0, 0, 28, 0, 0, 0, 182, 2, 0, 0, 80, 65, 82, 49]

/-- The codecs of the footer, of the page headers and of the indexes. -/
abbrev sparkFooter : Codec Thrift.FileMetaData := Compact.codecOf Compact.rFileMetaData

/-- `&metadata.row_groups[0].columns()` after `read_metadata`. -/
def sparkColumns : Res (List ColumnChunkMetaData) :=
  (readMetadata sparkFooter sparkFile).map' fun m => (m.rowGroups.map (·.columns)).headD []

-- the metadata
example : (readMetadata sparkFooter sparkFile).map' (fun m => (m.numRows, m.createdBy, m.rowGroups.map (·.numRows),
      (m.keyValueMetadata.getD []).map (·.key))) =
    .ok (10, some "parquet-mr version 1.12.2 (build 77e30c8093386ec52c3cfa6c34b7ef3321322c94)", [10],
      ["org.apache.spark.version", "org.apache.spark.sql.parquet.row.metadata"]) := by decide +kernel

/-- `tests/it/read/indexes.rs:88-126` `expected_index`. -/
def sparkIndexes : List Index := [
  .int64 ⟨⟨"id", .optional, none⟩, none, none, .int64⟩ [⟨some 0, some 9, some 0⟩] .ascending,
  .byteArray ⟨⟨"string", .optional, none⟩, some .string, some .utf8, .byteArray⟩ [⟨some [48], some [57], some 0⟩]
    .ascending,
  .boolean [⟨some false, some false, some 0⟩] .ascending]

-- `tests/it/read/indexes.rs:85-147` `test`
example : (sparkColumns >>= readColumnsIndexes (Compact.codecOf Compact.rColumnIndex) true sparkFile) =
    .ok sparkIndexes := by decide +kernel
example : (sparkColumns >>= readPagesLocations (Compact.codecOf Compact.rOffsetIndex) true sparkFile) =
    .ok [[⟨4, 94, 0⟩], [⟨98, 75, 0⟩], [⟨173, 33, 0⟩]] := by decide +kernel

/-! The test does not read the pages of the file and its bloom filters. They are compressed with snappy, whose
crate is not in the repository: -/

/-- The elements of a snappy block (`format_description.txt` of snappy): literals, and copies of `length` bytes
from `offset` bytes before the end of the output, which may overlap. -/
def snappyCopy (offset : Nat) : Nat → List Byte → Option (List Byte)
  | 0, out => some out
  | length + 1, out =>
    if offset = 0 ∨ out.length < offset then none
    else snappyCopy offset length (out ++ [out.getD (out.length - offset) 0])

/-- All the elements of a block; `fuel` is its length. -/
def snappyElements : Nat → List Byte → List Byte → Option (List Byte)
  | _, [], out => some out
  | 0, _ :: _, _ => none
  | fuel + 1, tag :: input, out =>
    let n := tag.toNat / 4
    if tag.toNat % 4 = 0 then
      let k := if n < 60 then 0 else n - 59
      let length := if n < 60 then n + 1 else leNat (input.take k) + 1
      let input := input.drop k
      if input.length < length then none
      else snappyElements fuel (input.drop length) (out ++ input.take length)
    else if tag.toNat % 4 = 1 then
      (snappyCopy (tag.toNat / 32 * 256 + leNat (input.take 1)) (n % 8 + 4) out).bind
        (snappyElements fuel (input.drop 1))
    else if tag.toNat % 4 = 2 then
      (snappyCopy (leNat (input.take 2)) (n + 1) out).bind (snappyElements fuel (input.drop 2))
    else (snappyCopy (leNat (input.take 4)) (n + 1) out).bind (snappyElements fuel (input.drop 4))

/-- A block of snappy: the length of the content and the elements. -/
def snappyBlock (input : List Byte) : Res (List Byte) :=
  match Leb.decode input with
  | .ok (length, consumed) =>
    match snappyElements input.length (input.drop consumed) [] with
    | some out => if out.length = length.toNat then .ok out else .err .oos
    | none => .err .oos
  | _ => .err .oos

/-- The decoder of snappy and no other codec. -/
def snappyOnly : Codecs where
  active c := c == .snappy
  encStream _ _ _ := .err .oos
  maxLen _ _ := .err .oos
  encBlock _ _ _ := .err .oos
  readExact _ _ output := (.err .oos, output)
  snappyLen input := (Leb.decode input).map' fun x => x.1.toNat
  decBlock _ input output := match snappyBlock input with
    | .ok out => (.ok out.length, out ++ output.drop out.length)
    | .err e => (.err e, output)
    | .panic => (.panic, output)

/-- A field of the file, read as the clients of the repository do (`tests/it/read/mod.rs:215-245`). -/
def sparkField (name : String) : Res (Client.FieldArray × Option Statistics) :=
  Client.readField sparkFooter (Compact.codecOf Compact.rPageHeader) snappyOnly true (fun _ _ => (0, [])) 4 sparkFile 0 name

-- what Spark was told to write (`tests/it/read/indexes.rs:21`): `(i, f"{i}", False) for i in range(10)`
example : sparkField "id" = .ok (.page (.flat (.int64 ((List.range 10).map fun i => some (BitVec.ofNat 64 i)))),
    some (.int64 ⟨⟨⟨"id", .optional, none⟩, none, none, .int64⟩, some 0, none, some 0, some 9⟩)) := by decide +kernel
example : sparkField "string" = .ok (.page (.flat (.binary ((List.range 10).map fun i => some [BitVec.ofNat 8 (48 + i)]))),
    some (.binary ⟨⟨⟨"string", .optional, none⟩, some .string, some .utf8, .byteArray⟩, some 0, none, some [57#8],
      some [48#8]⟩)) := by decide +kernel
example : sparkField "bool" = .ok (.page (.flat (.boolean (List.replicate 10 (some false)))),
    some (.boolean ⟨some 0, none, some false, some false⟩)) := by decide +kernel

/-- `bloom_filter::read` of every column. -/
def sparkFilters : Res (List (List Byte)) := do
  let columns ← sparkColumns
  columns.mapM fun column => do
    let metadata ← column.metadata
    Bloom.readFilter (Protocol.onBytes (Compact.protocolOf bloomHeader) (2 ^ 64 - 1)) metadata.bloomFilterOffset
      sparkFile

/-- The filters that Spark wrote: that of `id` is in the test of `src/bloom_filter/mod.rs:35-38`. -/
def sparkBitsets : List (List Byte) := [
  [24, 130, 24, 8, 134, 8, 68, 6, 2, 101, 128, 10, 64, 2, 38, 78, 114, 1, 64, 38, 1, 192,
    194, 152, 64, 70, 0, 36, 56, 121, 64, 0],
  [8, 17, 10, 29, 5, 88, 194, 0, 35, 208, 25, 16, 70, 68, 48, 38, 17, 16, 140, 68, 98, 56, 0, 131, 4, 193, 40,
    129, 161, 160, 1, 96],
  List.replicate 32 0]

example : sparkFilters = .ok sparkBitsets := by decide +kernel

-- `insert` of the hashes of the values gives the filters that Spark wrote
example : (List.range 10).foldlM (fun set i => Bloom.insert true set (Bloom.hashNative 8 (BitVec.ofNat 64 i)))
    (List.replicate 32 (0 : Byte)) = .ok (sparkBitsets.getD 0 []) := by decide +kernel
example : (List.range 10).foldlM (fun set i => Bloom.insert true set (Bloom.hashByte [BitVec.ofNat 8 (48 + i)]))
    (List.replicate 32 (0 : Byte)) = .ok (sparkBitsets.getD 1 []) := by decide +kernel

end Pq.Tests
