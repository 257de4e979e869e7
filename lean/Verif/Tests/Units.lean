import Verif.Props.Message
import Verif.Props.Hash
import Verif.Model.Indexes
import Verif.Model.Intervals
import Verif.Model.Deserialize
import Verif.Model.PageIO
/-
The unit tests of the remaining modules of `src` and of `tests/it/read/deserialize.rs` with their inputs and
expected results, run on the model. They hold of the code; here the kernel checks that they hold of the model
too. Overflows are checked (`ck = true`), as in the debug builds in which `cargo test` runs.

Not here: the tests that read files of the submodule `testing/parquet-testing`, which is not checked out
(`src/write/file.rs:258`, `src/read/mod.rs:90-260`).
-/
namespace Pq.Tests
open Pq.Message Pq.Props Pq.Deser

mutual
/-- `==` of `ParquetType`, derived in `src/schema/types/parquet_type.rs:47`. -/
def sameType : ParquetType → ParquetType → Bool
  | .primitive p, .primitive q => p == q
  | .group i l c fs, .group j m d gs => i == j && l == m && c == d && sameTypes fs gs
  | _, _ => false
/-- `==` of lists of them. -/
def sameTypes : List ParquetType → List ParquetType → Bool
  | [], [] => true
  | t :: ts, u :: us => sameType t u && sameTypes ts us
  | _, _ => false
end

/-- The message is parsed and the schema is the expected one. -/
def parsesTo (text : String) (expected : Res ParquetType) : Bool :=
  match fromMessage asciiCase text, expected with
  | .ok t, .ok u => sameType t u
  | _, _ => false

/-- The same for the tokens of a message (large messages are too much for the kernel together with the
tokenizer; that the tokenizer finds these tokens is `C52_tokens`). -/
def tokensParseTo (tokens : List String) (expected : Res ParquetType) : Bool :=
  match parseMessageType asciiCase (2 * tokens.length + 2) ⟨[], tokens⟩, expected with
  | some (.ok t), .ok u => sameType t u
  | _, _ => false

/-- The message is rejected. -/
def rejected (text : String) : Bool :=
  match fromMessage asciiCase text with
  | .err _ => true
  | _ => false

/-- The message is accepted. -/
def accepted (text : String) : Bool := (fromMessage asciiCase text).isOk

-- `src/schema/io_message/from_message.rs:628-630` `test_tokenize_empty_string`
example : (Tokenizer.fromStr "").rest = [] := by decide +kernel
-- `src/schema/io_message/from_message.rs:633-643` `test_tokenize_delimiters`
example : (Tokenizer.fromStr ",;{}()=").rest = [",", ";", "{", "}", "(", ")", "="] := by decide +kernel
-- `src/schema/io_message/from_message.rs:646-656` `test_tokenize_delimiters_with_whitespaces`
example : (Tokenizer.fromStr " , ; { } ( ) = ").rest = [",", ";", "{", "}", "(", ")", "="] := by decide +kernel
-- `src/schema/io_message/from_message.rs:659-667` `test_tokenize_words`
example : (Tokenizer.fromStr "abc def ghi jkl mno").rest = ["abc", "def", "ghi", "jkl", "mno"] := by decide +kernel
-- `src/schema/io_message/from_message.rs:670-677` `test_tokenize_backtrack`
example : (let t := Tokenizer.fromStr "abc;"
    let (a, t) := next t
    let (b, t) := next t
    (backtrack t).map' fun t => (a, b, (next t).1, (next (next t).2).1)) =
  .ok (some "abc", some ";", some ";", none) := by decide +kernel
-- `src/schema/io_message/from_message.rs:680-694` `test_tokenize_message_type`
example : (Tokenizer.fromStr "
    message schema {
      required int32 a;
      optional binary c (UTF8);
      required group d {
        required int32 a;
        optional binary c (UTF8);
      }
      required group e (LIST) {
        repeated group list {
          required int32 element;
        }
      }
    }
    ").rest =
  ["message", "schema", "{", "required", "int32", "a", ";", "optional", "binary", "c", "(", "UTF8", ")", ";", "required", "group", "d", "{", "required", "int32", "a", ";", "optional", "binary",
   "c", "(", "UTF8", ")", ";", "}", "required", "group", "e", "(", "LIST", ")", "{", "repeated", "group", "list", "{", "required", "int32", "element", ";", "}", "}", "}"] := by decide +kernel
-- `src/schema/io_message/from_message.rs:714-718` `test_assert_token`
example : (assertToken "a" ⟨[], ["a"]⟩).isOk = true ∧ (assertToken "b" ⟨[], ["a"]⟩).map' (fun _ => ()) = .err .oos ∧
    (assertToken "b" ⟨[], []⟩).map' (fun _ => ()) = .err .oos := by decide +kernel
-- `src/schema/io_message/from_message.rs:721-732` `test_parse_message_type_invalid`, 735-746 `test_parse_message_type_no_name`
example : rejected "test" = true ∧ rejected "message" = true := by decide +kernel
-- `src/schema/io_message/from_message.rs:749-753` `test_parse_message_type_fixed_byte_array`
example : rejected "
    message schema {
      REQUIRED FIXED_LEN_BYTE_ARRAY col;
    }
    " = true := by decide +kernel
example : accepted "
    message schema {
      REQUIRED FIXED_LEN_BYTE_ARRAY(16) col;
    }
    " = true := by decide +kernel
-- `src/schema/io_message/from_message.rs:776-784` `test_parse_message_type_decimal`
example : rejected "
    message root {
      optional int32 f1 (DECIMAL();
    }
    " = true := by decide +kernel
example : rejected "
    message root {
      optional int32 f1 (DECIMAL());
    }
    " = true := by decide +kernel
example : rejected "
    message root {
      optional int32 f1 (DECIMAL(8,));
    }
    " = true := by decide +kernel
-- `src/schema/io_message/from_message.rs:821-827` `test_parse_decimal_wrong`
example : rejected "
    message root {
      optional int32 f3 (DECIMAL);
    }
    " = true := by decide +kernel
example : accepted "
    message root {
      optional int32 f1 (DECIMAL(8, 3));
      optional int32 f2 (DECIMAL(8));
    }
    " = true := by decide +kernel
-- `src/schema/io_message/from_message.rs:852-857` `test_parse_message_type_compare_1`
example : parsesTo "
    message root {
      optional fixed_len_byte_array(5) f1 (DECIMAL(9, 3));
      optional fixed_len_byte_array (16) f2 (DECIMAL (38, 18));
    }
    " (do
      let f1 ← ParquetType.tryFromPrimitive "f1" (.fixedLenByteArray 5) .optional none (some (.decimal 9 3)) none
      let f2 ← ParquetType.tryFromPrimitive "f2" (.fixedLenByteArray 16) .optional none (some (.decimal 38 18)) none
      .ok (ParquetType.newRoot "root" [f1, f2])) = true := by decide +kernel
-- `src/schema/io_message/from_message.rs:892-907` `test_parse_message_type_compare_2`
example : parsesTo "
    message root {
      required group a0 {
        optional group a1 (LIST) {
          repeated binary a2 (UTF8);
        }

        optional group b1 (LIST) {
          repeated group b2 {
            optional int32 b3;
            optional double b4;
          }
        }
      }
    }
    " (do
      let a2 ← ParquetType.tryFromPrimitive "a2" .byteArray .repeated (some .utf8) none none
      let a1 := ParquetType.group ⟨"a1", .optional, none⟩ none (some .list) [a2]
      let b3 ← ParquetType.tryFromPrimitive "b3" .int32 .optional none none none
      let b4 ← ParquetType.tryFromPrimitive "b4" .double .optional none none none
      let b2 := ParquetType.group ⟨"b2", .repeated, none⟩ none none [b3, b4]
      let b1 := ParquetType.group ⟨"b1", .optional, none⟩ none (some .list) [b2]
      let a0 := ParquetType.group ⟨"a0", .required, none⟩ none none [a1, b1]
      .ok (ParquetType.newRoot "root" [a0])) = true := by decide +kernel
-- `src/schema/io_message/from_message.rs:963-972` `test_parse_message_type_compare_3`
example : parsesTo "
    message root {
      required int32 _1 (INT_8);
      required int32 _2 (INT_16);
      required float _3;
      required double _4;
      optional int32 _5 (DATE);
      optional binary _6 (UTF8);
    }
    " (do
      let f1 ← ParquetType.tryFromPrimitive "_1" .int32 .required (some .int8) none none
      let f2 ← ParquetType.tryFromPrimitive "_2" .int32 .required (some .int16) none none
      let f3 ← ParquetType.tryFromPrimitive "_3" .float .required none none none
      let f4 ← ParquetType.tryFromPrimitive "_4" .double .required none none none
      let f5 ← ParquetType.tryFromPrimitive "_5" .int32 .optional none (some .date) none
      let f6 ← ParquetType.tryFromPrimitive "_6" .byteArray .optional (some .utf8) none none
      .ok (ParquetType.newRoot "root" [f1, f2, f3, f4, f5, f6])) = true := by decide +kernel
-- `src/schema/io_message/from_message.rs:1038-1051` `test_parse_message_type_compare_4`
example : tokensParseTo ["message", "root", "{", "required", "int32", "_1", "(", "INTEGER", "(", "8", ",", "true", ")", ")",
    ";", "required", "int32", "_2", "(", "INTEGER", "(", "16", ",", "false", ")", ")", ";", "required",
    "float", "_3", ";", "required", "double", "_4", ";", "optional", "int32", "_5", "(", "DATE", ")",
    ";", "optional", "int32", "_6", "(", "TIME", "(", "MILLIS", ",", "false", ")", ")", ";",
    "optional", "int64", "_7", "(", "TIME", "(", "MICROS", ",", "true", ")", ")", ";", "optional",
    "int64", "_8", "(", "TIMESTAMP", "(", "MILLIS", ",", "true", ")", ")", ";", "optional", "int64",
    "_9", "(", "TIMESTAMP", "(", "NANOS", ",", "false", ")", ")", ";", "optional", "binary", "_10",
    "(", "STRING", ")", ";", "}"] (do
      let f1 ← ParquetType.tryFromPrimitive "_1" .int32 .required none (some (.integer .int8)) none
      let f2 ← ParquetType.tryFromPrimitive "_2" .int32 .required none (some (.integer .uint16)) none
      let f3 ← ParquetType.tryFromPrimitive "_3" .float .required none none none
      let f4 ← ParquetType.tryFromPrimitive "_4" .double .required none none none
      let f5 ← ParquetType.tryFromPrimitive "_5" .int32 .optional none (some .date) none
      let f6 ← ParquetType.tryFromPrimitive "_6" .int32 .optional none (some (.time .milliseconds false)) none
      let f7 ← ParquetType.tryFromPrimitive "_7" .int64 .optional none (some (.time .microseconds true)) none
      let f8 ← ParquetType.tryFromPrimitive "_8" .int64 .optional none (some (.timestamp .milliseconds true)) none
      let f9 ← ParquetType.tryFromPrimitive "_9" .int64 .optional none (some (.timestamp .nanoseconds false)) none
      let f10 ← ParquetType.tryFromPrimitive "_10" .byteArray .optional none (some .string) none
      .ok (ParquetType.newRoot "root" [f1, f2, f3, f4, f5, f6, f7, f8, f9, f10])) = true := by decide +kernel

/-- `src/schema/io_thrift/mod.rs:12-20` `test_round_trip`. -/
def throughThrift (text : String) : Bool :=
  match fromMessage asciiCase text with
  | .ok t => match ParquetType.tryFromThrift t.toThrift with
    | .ok u => sameType u t
    | _ => false
  | _ => false

/-- `src/schema/io_thrift/mod.rs:23-68` `test_schema_type_thrift_conversion`: the tokens of the message. -/
def conversions : List String := ["message", "conversions", "{", "REQUIRED", "INT64", "id", ";", "OPTIONAL", "group",
    "int_array_Array", "(", "LIST", ")", "{", "REPEATED", "group", "list", "{", "OPTIONAL", "group",
    "element", "(", "LIST", ")", "{", "REPEATED", "group", "list", "{", "OPTIONAL", "INT32", "element",
    ";", "}", "}", "}", "}", "OPTIONAL", "group", "int_map", "(", "MAP", ")", "{", "REPEATED", "group",
    "map", "(", "MAP_KEY_VALUE", ")", "{", "REQUIRED", "BYTE_ARRAY", "key", "(", "UTF8", ")", ";",
    "OPTIONAL", "INT32", "value", ";", "}", "}", "OPTIONAL", "group", "int_Map_Array", "(", "LIST",
    ")", "{", "REPEATED", "group", "list", "{", "OPTIONAL", "group", "g", "(", "MAP", ")", "{",
    "REPEATED", "group", "map", "(", "MAP_KEY_VALUE", ")", "{", "REQUIRED", "BYTE_ARRAY", "key", "(",
    "UTF8", ")", ";", "OPTIONAL", "group", "value", "{", "OPTIONAL", "group", "H", "{", "OPTIONAL",
    "group", "i", "(", "LIST", ")", "{", "REPEATED", "group", "list", "{", "OPTIONAL", "DOUBLE",
    "element", ";", "}", "}", "}", "}", "}", "}", "}", "}", "OPTIONAL", "group", "nested_struct", "{",
    "OPTIONAL", "INT32", "A", ";", "OPTIONAL", "group", "b", "(", "LIST", ")", "{", "REPEATED",
    "group", "list", "{", "REQUIRED", "FIXED_LEN_BYTE_ARRAY", "(", "16", ")", "element", ";", "}", "}",
    "}", "}"]

example : (match parseMessageType asciiCase (2 * conversions.length + 2) ⟨[], conversions⟩ with
    | some (.ok t) => match ParquetType.tryFromThrift t.toThrift with
      | .ok u => sameType u t
      | _ => false
    | _ => false) = true := by decide +kernel
-- `src/schema/io_thrift/mod.rs:74-81` `test_schema_type_thrift_conversion_decimal`
example : throughThrift "
    message decimals {
      OPTIONAL INT32 field0;
      OPTIONAL INT64 field1 (DECIMAL (18, 2));
      OPTIONAL FIXED_LEN_BYTE_ARRAY (16) field2 (DECIMAL (38, 18));
      OPTIONAL BYTE_ARRAY field3 (DECIMAL (9));
    }
    " = true := by decide +kernel

-- `src/schema/types/converted_type.rs:206-235` `round_trip`
example : ∀ a ∈ [PrimitiveConvertedType.utf8, .enum, .decimal 3 1, .date, .timeMillis, .timeMicros, .timestampMillis,
      .timestampMicros, .uint8, .uint16, .uint32, .uint64, .int8, .int16, .int32, .int64, .json, .bson, .interval],
    PrimitiveConvertedType.ofThrift a.toThrift.1 a.toThrift.2 = .ok a := by decide +kernel

-- `src/parquet_bridge.rs:641-669` `round_trip_primitive`, 671-691 `round_trip_encoding`, 693-703 `round_compression`
example : ∀ a ∈ [PrimitiveLogicalType.string, .enum, .decimal 3 1, .date, .time .milliseconds true,
      .timestamp .milliseconds true, .integer .int16, .unknown, .json, .bson, .uuid],
    PrimitiveLogicalType.ofThrift a.toThrift = .ok a := by decide +kernel
example : ∀ a ∈ [Encoding.plain, .plainDictionary, .rle, .bitPacked, .deltaBinaryPacked, .deltaLengthByteArray,
      .deltaByteArray, .rleDictionary, .byteStreamSplit], Encoding.ofThrift a.toThrift = .ok a := by decide +kernel
example : ∀ a ∈ [Compression.uncompressed, .snappy, .gzip, .lzo, .brotli, .lz4, .zstd, .lz4Raw],
    Compression.ofThrift a.toThrift = .ok a := by decide +kernel

/-- `src/write/page.rs:223-229` and 235-241: the pages of the tests. -/
def hugeDict (uncompressedPageSize numValues : Nat) : CompressedDictPage :=
  { buffer := [], compression := .uncompressed, uncompressedPageSize, numValues, isSorted := false }

-- `src/write/page.rs:221-231` `dict_too_large`, 233-243 `dict_too_many_values`
example : (assembleDictPageHeader (hugeDict (2 ^ 31) 100)).isOk = false ∧
    assembleDictPageHeader (hugeDict (2 ^ 31) 100) ≠ .panic ∧
    (assembleDictPageHeader (hugeDict 0 (2 ^ 31))).isOk = false ∧
    assembleDictPageHeader (hugeDict 0 (2 ^ 31)) ≠ .panic := by decide +kernel

/-- `PrimitiveType::from_physical` (`src/schema/types/parquet_type.rs:29-43`). -/
def ofPhysical (name : String) (physicalType : PhysicalType) : PrimitiveType :=
  ⟨⟨name, .optional, none⟩, none, none, physicalType⟩

-- `src/write/statistics.rs:181-223` `binary`, 226-268 `fixed_len_binary`, 271-298 `boolean`, 301-327 `primitive`
example : reduceBinary true [
      { primitiveType := ofPhysical "bla" .byteArray, nullCount := some 0, distinctCount := none,
        minValue := some [1, 2], maxValue := some [3, 4] },
      { primitiveType := ofPhysical "bla" .byteArray, nullCount := some 0, distinctCount := none,
        minValue := some [4, 5], maxValue := none }] =
    .ok { primitiveType := ofPhysical "bla" .byteArray, nullCount := some 0, distinctCount := none,
          minValue := some [1, 2], maxValue := some [3, 4] } := by decide +kernel
example : reduceFixLenBinary true [
      { primitiveType := ofPhysical "bla" (.fixedLenByteArray 2), nullCount := some 0, distinctCount := none,
        minValue := some [1, 2], maxValue := some [3, 4] },
      { primitiveType := ofPhysical "bla" (.fixedLenByteArray 2), nullCount := some 0, distinctCount := none,
        minValue := some [4, 5], maxValue := none }] =
    .ok { primitiveType := ofPhysical "bla" (.fixedLenByteArray 2), nullCount := some 0, distinctCount := none,
          minValue := some [1, 2], maxValue := some [3, 4] } := by decide +kernel
example : reduceBoolean true [
      { nullCount := some 0, distinctCount := none, minValue := some false, maxValue := some false },
      { nullCount := some 0, distinctCount := none, minValue := some true, maxValue := some true }] =
    .ok { nullCount := some 0, distinctCount := none, minValue := some false, maxValue := some true } := by
  decide +kernel
example : reducePrimitive true intGt [
      { primitiveType := ofPhysical "bla" .int32, nullCount := some 2, distinctCount := none,
        minValue := some 30#32, maxValue := some 70#32 }] =
    .ok { primitiveType := ofPhysical "bla" .int32, nullCount := some 2, distinctCount := none,
          minValue := some 30#32, maxValue := some 70#32 } := by decide +kernel

-- `src/indexes/mod.rs:17-28` `test_basic`
example : computeRows [true] [⟨100, 10, 0⟩] 10 = .ok [⟨0, 10⟩] := by decide +kernel

/-- `src/indexes/mod.rs:66-71`: the filter of the test. -/
def maxAbove97 (page : PageIndex (List Byte)) : Bool :=
  match page.max with
  | some x => decide (97#8 < x.headD 0)
  | none => false

-- `src/indexes/mod.rs:30-94` `test_multiple`
example : [PageIndex.mk (some [0]) (some [8, 9]) (some 0), ⟨some [20], some [98, 99], some 0⟩].map maxAbove97 =
      [false, true] ∧
    computeRows [false, true] [⟨100, 10, 0⟩, ⟨110, 20, 5⟩] 10 = .ok [⟨5, 5⟩] ∧
    selectPages true [⟨5, 5⟩] [⟨100, 10, 0⟩, ⟨110, 20, 5⟩] 10 =
      .ok [⟨100, 10, [], 5⟩, ⟨110, 20, [⟨0, 5⟩], 5⟩] := by decide +kernel
-- 96-133 `test_other_column`, 135-183 `test_other_interval_in_middle`, 185-233 `test_other_column2`
example : selectPages true [⟨5, 5⟩] [⟨100, 20, 0⟩, ⟨120, 20, 10⟩] 100 =
    .ok [⟨100, 20, [⟨5, 5⟩], 10⟩, ⟨120, 20, [], 90⟩] := by decide +kernel
example : selectPages true [⟨5, 6⟩] [⟨100, 20, 0⟩, ⟨120, 20, 10⟩, ⟨140, 20, 100⟩] 200 =
    .ok [⟨100, 20, [⟨5, 5⟩], 10⟩, ⟨120, 20, [⟨0, 1⟩], 90⟩, ⟨140, 20, [], 100⟩] := by decide +kernel
example : selectPages true [⟨0, 1⟩] [⟨100, 20, 0⟩, ⟨120, 20, 10⟩, ⟨140, 20, 100⟩] 200 =
    .ok [⟨100, 20, [⟨0, 1⟩], 10⟩, ⟨120, 20, [], 90⟩, ⟨140, 20, [], 100⟩] := by decide +kernel

/-- `Iterator::next` of `vec::IntoIter`. -/
def popRun (runs : List Encoded) : Res (Option Encoded × List Encoded) :=
  match runs with
  | [] => .ok (none, [])
  | x :: rest => .ok (some x, rest)

/-- What the tests of `tests/it/read/deserialize.rs` collect, and `len()` afterwards. -/
def collectFiltered : Nat → FilteredIter (List Encoded) → Res (List Filtered × Nat)
  | 0, _ => .panic
  | fuel + 1, it =>
    match FilteredIter.next true popRun it with
    | .ok (some x, it) => (collectFiltered fuel it).map' fun (xs, n) => (x :: xs, n)
    | .ok (none, it) => .ok ([], it.totalItems)
    | .err e => .err e
    | .panic => .panic

/-- A test of that file: the runs, the intervals and the expected items. -/
def filtersTo (runs : List Encoded) (intervals : List Interval) (expected : List Filtered) : Bool :=
  collectFiltered 10 (FilteredIter.new runs intervals) == .ok (expected, 0)

-- `tests/it/read/deserialize.rs:4-24` `bitmap_incomplete`, 26-42 `bitmap_complete`,
-- 44-68 `bitmap_interval_incomplete`, 70-104 `bitmap_interval_run_incomplete`,
-- 106-130 `bitmap_interval_run_skipped`, 132-161 `bitmap_interval_run_offset_skipped`
example : filtersTo [.bitmap [0b01000011] 7] [⟨1, 2⟩] [.skipped 1, .bitmap [0b01000011] 1 2] = true := by decide +kernel
example : filtersTo [.bitmap [0b01000011] 8] [⟨0, 8⟩] [.bitmap [0b01000011] 0 8] = true := by decide +kernel
example : filtersTo [.bitmap [0b01000011] 8, .bitmap [0b11111111] 8] [⟨0, 10⟩]
    [.bitmap [0b01000011] 0 8, .bitmap [0b11111111] 0 2] = true := by decide +kernel
example : filtersTo [.bitmap [0b01100011] 8, .bitmap [0b11111111] 8] [⟨0, 5⟩, ⟨7, 4⟩]
    [.bitmap [0b01100011] 0 5, .skipped 2, .bitmap [0b01100011] 7 1, .bitmap [0b11111111] 0 3] = true := by decide +kernel
example : filtersTo [.bitmap [0b01100011] 8, .bitmap [0b11111111] 8] [⟨9, 2⟩]
    [.skipped 4, .skipped 1, .bitmap [0b11111111] 1 2] = true := by decide +kernel
example : filtersTo [.bitmap [0b01100011] 8, .bitmap [0b11111111] 8] [⟨0, 1⟩, ⟨9, 2⟩]
    [.bitmap [0b01100011] 0 1, .skipped 3, .skipped 1, .bitmap [0b11111111] 1 2] = true := by decide +kernel
-- 163-182 `repeated_incomplete`, 184-199 `repeated_complete`, 201-225 `repeated_interval_incomplete`,
-- 227-257 `repeated_interval_run_incomplete`, 259-283 `repeated_interval_run_skipped`,
-- 285-312 `repeated_interval_run_offset_skipped`
example : filtersTo [.repeated true 7] [⟨1, 2⟩] [.skipped 1, .repeated true 2] = true := by decide +kernel
example : filtersTo [.repeated true 8] [⟨0, 8⟩] [.repeated true 8] = true := by decide +kernel
example : filtersTo [.repeated true 8, .repeated false 8] [⟨0, 10⟩] [.repeated true 8, .repeated false 2] = true := by
  decide +kernel
example : filtersTo [.repeated true 8, .repeated false 8] [⟨0, 5⟩, ⟨7, 4⟩]
    [.repeated true 5, .skipped 2, .repeated true 1, .repeated false 3] = true := by decide +kernel
example : filtersTo [.repeated true 8, .repeated false 8] [⟨9, 2⟩]
    [.skipped 8, .skipped 0, .repeated false 2] = true := by decide +kernel
example : filtersTo [.repeated true 8, .repeated false 8] [⟨0, 1⟩, ⟨9, 2⟩]
    [.repeated true 1, .skipped 7, .skipped 0, .repeated false 2] = true := by decide +kernel

end Pq.Tests
