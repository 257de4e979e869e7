import Verif.Tests.SparkFile
/-
`parquet-tools/data/sample.parquet`, which pyarrow wrote ("parquet-cpp version 1.5.1-SNAPSHOT"): some of its columns,
with a dictionary page and a data page each, run on the model. The expected values come from a decoder of our own
that is independent of the model. (The file has 18832 bytes; its footer and the other columns are too large to be
evaluated in the kernel.)
-/
namespace Pq.Tests
open Pq.Props Pq.Client

/-- The pages of a column of the file, read as the client does. -/
def sampleColumn (name : String) (t : PhysicalType) (chunk : List Byte) : Res (List Client.Array) :=
  let type : PrimitiveType :=
    { fieldInfo := ⟨name, .optional, none⟩, logicalType := none, convertedType := none, physicalType := t }
  let column : PageMetaData :=
    { columnStart := 0, numValues := 100, compression := .snappy
      descriptor := { primitiveType := type, maxDefLevel := 1, maxRepLevel := 0 } }
  let reader := PageReader.new chunk column (fun _ _ => true) [] 1000
  Client.collect true
    (fun _ => Decompressor.advance snappyOnly true (PageReader.iter (Compact.codecOf Compact.rPageHeader) true) 0)
    (·.current) t 4 0 (Decompressor.new reader []) none

/-- The column with the entries at these positions, `x` being null. -/
def fromEntries {α : Type} (entries : List α) (positions : List (Option Nat)) : List (Option α) :=
  positions.map fun o => o.bind fun i => entries[i]?

/-- Null, and the positions. -/
local notation "x" => (none : Option Nat)
local instance (n : Nat) : OfNat (Option Nat) n := ⟨some n⟩

/-- The bytes 3234 to 3312 of the file: the column `Sex`. -/
def sampleSex : List Byte := [
  21, 4, 21, 20, 21, 24, 76, 21, 4, 21, 4, 18, 0, 0, 10, 36, 1, 0, 0, 0, 77, 1, 0, 0, 0, 70, 21, 0, 21, 44,
  21, 48, 44, 21, 200, 1, 21, 4, 21, 6, 21, 6, 28, 54, 0, 40, 1, 77, 24, 1, 70, 0, 0, 0, 22, 84, 3, 0, 0,
  0, 200, 1, 1, 1, 27, 216, 4, 38, 186, 40, 1, 192, 13, 19, 32, 8, 192, 9]

example : sampleColumn "Sex" .byteArray sampleSex = .ok [.binary (fromEntries
    [[77], [70]] [
    0, 0, 0, 1, 1, 0, 1, 1, 0, 0, 1, 0, 0, 0, 0, 0, 0, 1, 1, 0, 0, 1, 0, 0, 0, 1, 0, 1, 1, 1, 0, 1, 0, 0,
    0, 1, 0, 1, 0, 0, 1, 0, 0, 0, 0, 0, 0, 0, 0, 0, 0, 0, 0, 0, 1, 1, 1, 0, 1, 1, 0, 0, 0, 0, 1, 1, 0, 0,
    1, 0, 0, 0, 0, 0, 0, 0, 0, 1, 0, 0, 0, 0, 0, 1, 0, 0, 0, 0, 0, 0, 0, 0, 0, 0, 1, 1, 1, 0, 0, 1])] := by decide +kernel

/-- The bytes 6815 to 6914 of the file: the column `Season`. -/
def sampleSeason : List Byte := [
  21, 4, 21, 40, 21, 44, 76, 21, 4, 21, 4, 18, 0, 0, 20, 76, 6, 0, 0, 0, 83, 117, 109, 109, 101, 114, 6, 0,
  0, 0, 87, 105, 110, 116, 101, 114, 21, 0, 21, 46, 21, 50, 44, 21, 200, 1, 21, 4, 21, 6, 21, 6, 28, 54, 0,
  40, 6, 87, 105, 110, 116, 101, 114, 24, 6, 83, 117, 109, 109, 101, 114, 0, 0, 0, 23, 88, 3, 0, 0, 0, 200,
  1, 1, 1, 17, 44, 128, 19, 146, 2, 128, 8, 162, 28, 0, 7, 1, 130, 32]

example : sampleColumn "Season" .byteArray sampleSeason = .ok [.binary (fromEntries
    [[83, 117, 109, 109, 101, 114], [87, 105, 110, 116, 101, 114]] [
    0, 0, 1, 1, 0, 1, 0, 0, 0, 0, 0, 0, 0, 0, 0, 1, 1, 1, 0, 0, 1, 0, 0, 0, 0, 1, 0, 0, 1, 0, 0, 1, 0, 1,
    0, 0, 0, 0, 0, 0, 0, 0, 0, 0, 0, 0, 0, 1, 0, 0, 0, 1, 0, 0, 0, 0, 0, 1, 0, 0, 0, 1, 0, 1, 0, 0, 0, 0,
    0, 0, 0, 0, 0, 0, 0, 0, 0, 0, 1, 0, 0, 0, 0, 0, 0, 0, 0, 1, 0, 0, 0, 0, 0, 1, 0, 0, 0, 0, 0, 1])] := by decide +kernel

/-- The bytes 10058 to 10168 of the file: the column `Medal`. -/
def sampleMedal : List Byte := [
  21, 4, 21, 56, 21, 58, 76, 21, 6, 21, 4, 18, 0, 0, 28, 36, 6, 0, 0, 0, 66, 114, 111, 110, 122, 101, 1,
  10, 52, 83, 105, 108, 118, 101, 114, 4, 0, 0, 0, 71, 111, 108, 100, 21, 0, 21, 52, 21, 56, 44, 21, 200,
  1, 21, 4, 21, 6, 21, 6, 28, 54, 174, 1, 40, 6, 83, 105, 108, 118, 101, 114, 24, 6, 66, 114, 111, 110,
  122, 101, 0, 0, 0, 26, 100, 16, 0, 0, 0, 22, 0, 7, 129, 32, 8, 26, 0, 15, 73, 2, 4, 160, 128, 128, 0, 2,
  5, 164, 18, 70, 1]

example : sampleColumn "Medal" .byteArray sampleMedal = .ok [.binary (fromEntries
    [[66, 114, 111, 110, 122, 101], [83, 105, 108, 118, 101, 114], [71, 111, 108, 100]] [
    x, x, x, x, x, x, x, x, x, x, x, 0, x, x, x, x, x, x, 1, x, x, x, x, x, 2, x, x, x, x, x, 2, x, x, x,
    x, x, x, x, x, x, x, x, x, x, x, x, x, x, 2, x, x, 0, x, x, 1, x, x, 0, x, x, x, x, x, x, x, x, 2, x,
    x, x, x, x, x, x, x, x, x, 1, x, 0, x, x, x, x, x, x, x, 1, x, x, x, x, x, x, x, 1, x, x, x, x])] := by decide +kernel

/-- The bytes 3374 to 3638 of the file: the column `Age`. -/
def sampleAge : List Byte := [
  21, 4, 21, 224, 2, 21, 196, 1, 76, 21, 44, 21, 4, 18, 0, 0, 176, 1, 0, 0, 5, 1, 4, 52, 64, 5, 7, 4, 128,
  66, 9, 8, 4, 0, 64, 13, 8, 0, 61, 13, 8, 0, 54, 13, 8, 0, 58, 13, 8, 0, 53, 13, 8, 0, 46, 13, 8, 0, 60,
  13, 8, 0, 51, 13, 8, 0, 62, 13, 8, 0, 55, 13, 8, 0, 57, 13, 8, 0, 67, 13, 8, 0, 56, 13, 8, 0, 50, 13, 8,
  0, 73, 13, 8, 17, 128, 0, 59, 13, 16, 0, 65, 13, 8, 36, 70, 64, 0, 0, 0, 0, 0, 0, 48, 64, 21, 0, 21, 166,
  1, 21, 172, 1, 44, 21, 200, 1, 21, 4, 21, 6, 21, 6, 28, 24, 8, 0, 0, 0, 0, 0, 0, 73, 64, 24, 8, 0, 0, 0,
  0, 0, 0, 46, 64, 22, 6, 40, 8, 0, 0, 0, 0, 0, 0, 73, 64, 24, 8, 0, 0, 0, 0, 0, 0, 46, 64, 0, 0, 0, 83,
  240, 82, 12, 0, 0, 0, 64, 1, 3, 254, 40, 1, 3, 254, 60, 1, 3, 2, 5, 27, 32, 136, 65, 138, 57, 0, 37, 85,
  192, 88, 166, 176, 101, 76, 115, 201, 184, 67, 222, 43, 14, 150, 245, 74, 84, 3, 36, 35, 151, 91, 207,
  177, 245, 192, 34, 5, 200, 55, 81, 90, 18, 56, 209, 136, 32, 65, 26, 186, 20, 147, 174, 150, 133, 138,
  113, 107, 8, 38, 43, 3, 21, 0, 0, 0, 0]

example : sampleColumn "Age" .double sampleAge = .ok [.double (fromEntries
    [0x4034000000000000, 0x4042800000000000, 0x4040000000000000, 0x403d000000000000, 0x4036000000000000, 0x403a000000000000, 0x4035000000000000, 0x402e000000000000, 0x403c000000000000, 0x4033000000000000, 0x403e000000000000, 0x4037000000000000, 0x4039000000000000, 0x4043000000000000, 0x4038000000000000, 0x4032000000000000, 0x4049000000000000, 0x4042000000000000, 0x403b000000000000, 0x4041000000000000, 0x4046000000000000, 0x4030000000000000] [
    0, 1, 2, 3, 4, 5, 6, 7, 0, 8, 9, 10, 5, 0, 3, 11, 6, 5, 12, 11, 6, 6, 13, 14, 9, 6, 14, 7, 4, 15, 15,
    5, x, 14, 16, 5, 11, 15, 5, 17, 10, 3, 0, 9, 6, 18, 11, 14, 11, 15, 14, 12, 11, 15, 0, 11, 4, 5, 0, 18,
    x, 15, 19, 8, 9, 11, 18, 0, 14, 2, 13, 4, 2, 4, 1, 18, 6, 20, 11, 10, 12, 18, 14, 21, 5, 11, 8, 5, 6,
    14, 11, 3, 2, 12, 18, 21, 12, 0, x, 21])] := by decide +kernel

/-- The bytes 6442 to 6718 of the file: the column `Year`. -/
def sampleYear : List Byte := [
  21, 4, 21, 160, 3, 21, 238, 1, 76, 21, 52, 21, 4, 18, 0, 0, 208, 1, 8, 184, 7, 0, 5, 1, 0, 196, 13, 8, 0,
  180, 13, 8, 0, 218, 13, 8, 0, 208, 13, 8, 0, 200, 13, 8, 0, 204, 13, 8, 0, 212, 13, 8, 0, 144, 13, 8, 0,
  220, 13, 8, 0, 176, 13, 8, 0, 172, 13, 8, 0, 214, 13, 8, 4, 192, 7, 5, 103, 4, 0, 164, 13, 8, 0, 168, 13,
  8, 0, 206, 13, 8, 0, 156, 13, 8, 0, 116, 13, 8, 0, 108, 13, 8, 0, 224, 13, 8, 0, 216, 13, 8, 0, 188, 13,
  8, 0, 136, 13, 8, 60, 132, 7, 0, 0, 0, 0, 0, 0, 210, 7, 0, 0, 0, 0, 0, 0, 21, 0, 21, 148, 1, 21, 154, 1,
  44, 21, 200, 1, 21, 4, 21, 6, 21, 6, 28, 24, 8, 224, 7, 0, 0, 0, 0, 0, 0, 24, 8, 108, 7, 0, 0, 0, 0, 0,
  0, 22, 0, 40, 8, 224, 7, 0, 0, 0, 0, 0, 0, 24, 8, 108, 7, 0, 0, 0, 0, 0, 0, 0, 0, 0, 74, 240, 73, 3, 0,
  0, 0, 200, 1, 1, 5, 27, 32, 136, 65, 138, 17, 229, 8, 148, 146, 90, 133, 149, 210, 130, 32, 11, 4, 224,
  196, 131, 49, 72, 18, 204, 155, 20, 145, 72, 146, 65, 173, 152, 18, 95, 41, 33, 146, 106, 21, 42, 135,
  18, 74, 211, 173, 134, 172, 211, 132, 197, 132, 84, 213, 204, 41, 21, 185, 71, 242, 105, 5, 57, 5, 0, 0]

example : sampleColumn "Year" .int64 sampleYear = .ok [.int64 (fromEntries
    [0x7b8, 0x7c4, 0x7b4, 0x7da, 0x7d0, 0x7c8, 0x7cc, 0x7d4, 0x790, 0x7dc, 0x7b0, 0x7ac, 0x7d6, 0x7c0, 0x7a4, 0x7a8, 0x7ce, 0x79c, 0x774, 0x76c, 0x7e0, 0x7d8, 0x7bc, 0x788, 0x784, 0x7d2] [
    0, 1, 2, 3, 4, 5, 6, 2, 5, 7, 2, 8, 9, 9, 10, 11, 5, 12, 5, 5, 13, 1, 2, 4, 11, 0, 1, 0, 14, 2, 15, 16,
    17, 1, 18, 4, 1, 6, 15, 19, 20, 8, 4, 17, 4, 9, 6, 8, 13, 5, 6, 5, 17, 15, 5, 5, 1, 17, 4, 21, 22, 10,
    8, 5, 7, 20, 4, 20, 20, 9, 23, 21, 6, 4, 11, 7, 13, 2, 22, 24, 4, 4, 21, 10, 13, 6, 7, 5, 21, 8, 14,
    15, 4, 25, 7, 13, 5, 8, 14, 10])] := by decide +kernel

end Pq.Tests
