import Verif.Spec.Client
import Verif.Spec.Indexes
/-
Vocabulary for C74: what statistics say about the values of arrays, and searching through them.
-/
namespace Pq.Spec
open Pq.Client (Array)

/-- The numbers of an array, nulls left out; `none` is NaN. Empty for other types. -/
def arrayNumbers : Array → List (Option Int)
  | .int32 xs => (xs.filterMap id).map (some ∘ BitVec.toInt)
  | .int64 xs => (xs.filterMap id).map (some ∘ BitVec.toInt)
  | .float xs => (xs.filterMap id).map (floatVal 8 23)
  | .double xs => (xs.filterMap id).map (floatVal 11 52)
  | _ => []

/-- The strings of an array, nulls left out. Empty for other types. -/
def arrayStrings : Array → List (List Byte)
  | .binary xs => xs.filterMap id
  | _ => []

/-- The number of nulls of an array. -/
def arrayNulls (a : Array) : Nat := (arrayBits a).count false

/-- What statistics say is true of the arrays: the number of nulls; the bounds are the least and the greatest
number, present iff there is one, if no number is NaN; likewise for strings in lexicographic order, if none is a proper
prefix of another. -/
structure Summarises (arrays : List Array) (s : Statistics) : Prop where
  nulls : s.nullCount.map BitVec.toInt = some ((arrays.map arrayNulls).sum : Int)
  numbers : (∀ v ∈ arrays.flatMap arrayNumbers, v ≠ none) →
    Extremum numLe ((arrays.flatMap arrayNumbers).map some) (numMin s) ∧
    Extremum numGe ((arrays.flatMap arrayNumbers).map some) (numMax s)
  strings : (∀ a ∈ arrays.flatMap arrayStrings, ∀ b ∈ arrays.flatMap arrayStrings, a <+: b → a = b) →
    Extremum lexLe ((arrays.flatMap arrayStrings).map some) (bytesMin s) ∧
    Extremum (fun a b => lexLe b a) ((arrays.flatMap arrayStrings).map some) (bytesMax s)

/-- The entries of a column index, as statistics of the pages. -/
def indexStats : Index → List Statistics
  | .boolean xs _ => xs.map fun e =>
      .boolean { nullCount := e.nullCount, distinctCount := none, minValue := e.min, maxValue := e.max }
  | .int32 t xs _ => xs.map fun e => .int32
      { primitiveType := t, nullCount := e.nullCount, distinctCount := none, minValue := e.min, maxValue := e.max }
  | .int64 t xs _ => xs.map fun e => .int64
      { primitiveType := t, nullCount := e.nullCount, distinctCount := none, minValue := e.min, maxValue := e.max }
  | .int96 t xs _ => xs.map fun e => .int96
      { primitiveType := t, nullCount := e.nullCount, distinctCount := none, minValue := e.min, maxValue := e.max }
  | .float t xs _ => xs.map fun e => .float
      { primitiveType := t, nullCount := e.nullCount, distinctCount := none, minValue := e.min, maxValue := e.max }
  | .double t xs _ => xs.map fun e => .double
      { primitiveType := t, nullCount := e.nullCount, distinctCount := none, minValue := e.min, maxValue := e.max }
  | .byteArray t xs _ => xs.map fun e => .binary
      { primitiveType := t, nullCount := e.nullCount, distinctCount := none, minValue := e.min, maxValue := e.max }
  | .fixedLen t xs _ => xs.map fun e => .fixedLen
      { primitiveType := t, nullCount := e.nullCount, distinctCount := none, minValue := e.min, maxValue := e.max }

/-- May a page (or row group) with these statistics have a number from `lo` to `hi`? Not if there are no bounds,
as there are no values then, and not if the bounds exclude it. NaN excludes nothing. -/
def mayHold (lo hi : Int) (s : Statistics) : Bool :=
  match numMin s, numMax s with
  | some (some least), some (some greatest) => decide (least ≤ hi ∧ lo ≤ greatest)
  | none, _ => false
  | _, none => false
  | _, _ => true

/-- The number that an item of a type is. -/
def itemNumber (t : PhysicalType) (item : List Byte) : Option Int :=
  let n := item.foldr (fun b n => b.toNat + 256 * n) 0
  match t with
  | .int32 => some (BitVec.ofNat 32 n).toInt
  | .int64 => some (BitVec.ofNat 64 n).toInt
  | .float => floatVal 8 23 (BitVec.ofNat 32 n)
  | .double => floatVal 11 52 (BitVec.ofNat 64 n)
  | _ => none

/-- Is the item a number from `lo` to `hi`? -/
def inRange (t : PhysicalType) (lo hi : Int) (item : Option (List Byte)) : Bool :=
  match item.bind (itemNumber t) with
  | some x => decide (lo ≤ x ∧ x ≤ hi)
  | none => false

/-- Searching a column chunk for the numbers of a range, through the page index: pages which the index excludes
are not read. What is found, among the rows read, are all the numbers in the range, in order. -/
def ChunkSearches (codec : Codec Thrift.PageHeader) (cs : Codecs) (ck : Bool) (file : List Byte)
    (arrays : List Array) (chunk : ColumnChunkMetaData) (locations : List Thrift.PageLocation) (index : Index) :
    Prop :=
  ∀ (lo hi : Int) (buffers : Nat → Nat × List Byte),
    ∃ rows filtered reader out,
      computeRows ((indexStats index).map (mayHold lo hi)) locations (arrays.map Array.len).sum = .ok rows ∧
      selectPages ck rows locations (arrays.map Array.len).sum = .ok filtered ∧
      IndexedReader.ofColumn file chunk filtered = .ok reader ∧
      Client.collect ck (fun k => BasicDecompressor.advance cs ck (IndexedReader.next codec ck) (buffers k)) (·.current)
        chunk.columnDescr.descriptor.primitiveType.physicalType (arrays.length + 1) 0
        (BasicDecompressor.new reader) none = .ok out ∧
      (out.flatMap arrayItems).filter (inRange chunk.columnDescr.descriptor.primitiveType.physicalType lo hi) =
        (arrays.flatMap arrayItems).filter (inRange chunk.columnDescr.descriptor.primitiveType.physicalType lo hi)

end Pq.Spec
