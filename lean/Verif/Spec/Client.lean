import Verif.Model.Client
import Verif.Spec.Deserialize
import Verif.Spec.DeltaBytes
import Verif.Spec.Rle
import Verif.Spec.WholeFile
import Verif.Model.Indexes
import Verif.Model.BasicDecompressor
/-
Vocabulary for C70: what a page says about the values of a column, according to the format. Only the
array type of the client is shared with the model.
-/
namespace Pq.Spec
open Pq.Client (Array)

/-- Which items of an array are there. -/
def arrayBits : Array → List Bool
  | .int32 xs => xs.map Option.isSome
  | .int64 xs => xs.map Option.isSome
  | .int96 xs => xs.map Option.isSome
  | .float xs => xs.map Option.isSome
  | .double xs => xs.map Option.isSome
  | .boolean xs => xs.map Option.isSome
  | .binary xs => xs.map Option.isSome
  | .fixedLenBinary xs => xs.map Option.isSome

/-- The PLAIN encoding of the items that are there: little-endian numbers; strings after their length;
fixed-length strings one after the other; booleans one per bit, lowest first. Booleans may be
followed by anything. -/
def PlainValues : Array → List Byte → Prop
  | .int32 xs, out => out = (xs.filterMap id).flatMap fun x => leBytes 4 x.toNat
  | .int64 xs, out => out = (xs.filterMap id).flatMap fun x => leBytes 8 x.toNat
  | .int96 xs, out => out = (xs.filterMap id).flatMap fun x => leBytes 12 x.toNat
  | .float xs, out => out = (xs.filterMap id).flatMap fun x => leBytes 4 x.toNat
  | .double xs, out => out = (xs.filterMap id).flatMap fun x => leBytes 8 x.toNat
  | .boolean xs, out => (xs.filterMap id).length ≤ 8 * out.length ∧
      ∀ i, i < (xs.filterMap id).length → bitAt out i = (xs.filterMap id).getD i false
  | .binary xs, out => out = plainBytes (xs.filterMap id) ∧ ∀ s ∈ xs.filterMap id, s.length < 2 ^ 32
  | .fixedLenBinary xs, out => out = (xs.filterMap id).flatten

/-- The array is one of this physical type. -/
def HasType : Array → PhysicalType → Prop
  | .int32 _, .int32 => True
  | .int64 _, .int64 => True
  | .int96 _, .int96 => True
  | .float _, .float => True
  | .double _, .double => True
  | .boolean _, .boolean => True
  | .binary _, .byteArray => True
  | .fixedLenBinary xs, .fixedLenByteArray size => 0 < size ∧ ∀ s ∈ xs.filterMap id, s.length = size
  | _, _ => False

/-- One-bit levels, in any legal stream of runs, the last of which may be longer than needed. -/
def LevelStream (lv : List Byte) (bits : List Bool) : Prop :=
  ∃ rs, RunStream 1 rs lv ∧ ((rs.flatMap (Run.values 1)).take bits.length).map (· == 1) = bits

/-- One-bit levels in a single run, which may be longer than needed. -/
def LevelRun (lv : List Byte) (bits : List Bool) : Prop :=
  ∃ r, RunStream 1 [r] lv ∧ ((Run.values 1 r).take bits.length).map (· == 1) = bits

/-- The indices of a dictionary page: a byte for the number of bits, then any legal stream of runs. No
bits: all the indices are zero. -/
def IndexStream (vals : List Byte) (idx : List Nat) : Prop :=
  ∃ w body, vals = w :: body ∧ w.toNat ≤ 32 ∧
    ((w.toNat = 0 ∧ ∀ i ∈ idx, i = 0) ∨
      (0 < w.toNat ∧ ∃ rs, RunStream w.toNat rs body ∧
        (rs.flatMap (Run.values w.toNat)).take idx.length = idx))

/-- The entries of a dictionary with these indices. -/
def pickFrom {α : Type} (entries : List (Option α)) (col : List (Option Nat)) : List (Option α) :=
  col.map fun o => o.bind fun i => (entries[i]?).join

/-- The same for arrays. -/
def pick : Array → List (Option Nat) → Array
  | .int32 xs, col => .int32 (pickFrom xs col)
  | .int64 xs, col => .int64 (pickFrom xs col)
  | .int96 xs, col => .int96 (pickFrom xs col)
  | .float xs, col => .float (pickFrom xs col)
  | .double xs, col => .double (pickFrom xs col)
  | .boolean xs, col => .boolean (pickFrom xs col)
  | .binary xs, col => .binary (pickFrom xs col)
  | .fixedLenBinary xs, col => .fixedLenBinary (pickFrom xs col)

/-- The column is optional, and not nested. -/
structure FlatOptional (d : Descriptor) : Prop where
  repetition : d.primitiveType.fieldInfo.repetition = .optional
  definition : d.maxDefLevel = 1#16
  repeated : d.maxRepLevel = 0#16

/-- The column itself is optional, whatever the groups around it that are not repeated. -/
structure OptionalLeaf (d : Descriptor) : Prop where
  repetition : d.primitiveType.fieldInfo.repetition = .optional
  repeated : d.maxRepLevel = 0#16

/-- The column itself is required, whatever the groups around it that are not repeated. -/
structure RequiredLeaf (d : Descriptor) : Prop where
  repetition : d.primitiveType.fieldInfo.repetition = .required
  repeated : d.maxRepLevel = 0#16

/-- The column is required, and not nested. -/
structure FlatRequired (d : Descriptor) : Prop where
  repetition : d.primitiveType.fieldInfo.repetition = .required
  definition : d.maxDefLevel = 0#16
  repeated : d.maxRepLevel = 0#16

/-- The compressed page that the client makes of an array of a column with this descriptor. -/
def PageOf (cs : Codecs) (ck : Bool) (options : WriteOptions) (opts : CompressionOptions) (d : Descriptor)
    (array : Array) (cp : CompressedPage) : Prop :=
  HasType array d.primitiveType.physicalType ∧ array.len < 2 ^ 31 ∧
    ∃ page, Client.arrayToPage array options d = .ok page ∧ page.buffer.length < 2 ^ 32 ∧
      compressPage cs ck page [] opts = .ok cp

/-- A flat optional column made of these arrays, one per page; the last one is not empty. -/
structure ColumnOf (cs : Codecs) (ck : Bool) (options : WriteOptions) (arrays : List Array)
    (c : ColumnDescriptor × List CompressedPage) : Prop where
  flat : FlatOptional c.1.descriptor
  pages : ∃ opts, List.Forall₂ (PageOf cs ck options opts c.1.descriptor) arrays c.2
  last : ∀ a, arrays.getLast? = some a → 0 < a.len

/-- The number of rows of a row group of these columns, each a list of arrays. -/
def arrayRows (columns : List (List Array)) : Nat :=
  (columns.head?.map fun arrays => (arrays.map Array.len).sum).getD 0

/-- The column chunk of a file gives these arrays: its pages, read and decompressed, whatever the buffers
hold and whatever the capacities of the vectors are, if pages as large as these are allowed. -/
def ChunkGives (codec : Codec Thrift.PageHeader) (limit : Thrift.PageHeader → Nat) (cs : Codecs) (ck : Bool)
    (file : List Byte) (arrays : List Array) (pages : List CompressedPage) (chunk : ColumnChunkMetaData) : Prop :=
  ∀ (scratch buffer : List Byte) (max : Nat) (caps : Nat → Nat),
    (∀ p ∈ pages, p.buffer.length ≤ max ∧ limit (headerOf p) ≤ max) →
    ∃ reader, getPageIterator chunk file none scratch max = .ok reader ∧
      Client.collect ck (fun k => Decompressor.advance cs ck (PageReader.iter codec ck) (caps k)) (·.current)
        chunk.columnDescr.descriptor.primitiveType.physicalType (pages.length + 1) 0
        (Decompressor.new reader buffer) none = .ok arrays

/-- The items of an array as bytes: what is comparable between arrays of a type. -/
def arrayItems : Array → List (Option (List Byte))
  | .int32 xs => xs.map (Option.map fun x => leBytes 4 x.toNat)
  | .int64 xs => xs.map (Option.map fun x => leBytes 8 x.toNat)
  | .int96 xs => xs.map (Option.map fun x => leBytes 12 x.toNat)
  | .float xs => xs.map (Option.map fun x => leBytes 4 x.toNat)
  | .double xs => xs.map (Option.map fun x => leBytes 8 x.toNat)
  | .boolean xs => xs.map (Option.map fun b => [if b then 1 else 0])
  | .binary xs => xs
  | .fixedLenBinary xs => xs

/-- The rows of an array in these intervals. -/
def arraySelect (ivs : List Interval) : Array → Array
  | .int32 xs => .int32 (selectRows ivs xs)
  | .int64 xs => .int64 (selectRows ivs xs)
  | .int96 xs => .int96 (selectRows ivs xs)
  | .float xs => .float (selectRows ivs xs)
  | .double xs => .double (selectRows ivs xs)
  | .boolean xs => .boolean (selectRows ivs xs)
  | .binary xs => .binary (selectRows ivs xs)
  | .fixedLenBinary xs => .fixedLenBinary (selectRows ivs xs)

/-- The types of fixed-size numbers. -/
def NumberType : PhysicalType → Prop
  | .int32 | .int64 | .int96 | .float | .double => True
  | _ => False

/-- The selected rows of a column chunk, read through the page locations as the client does: select the pages,
read them with the indexed reader, decompress, collect; whatever the buffers hold. -/
def ChunkSelects (codec : Codec Thrift.PageHeader) (cs : Codecs) (ck : Bool) (file : List Byte)
    (arrays : List Array) (chunk : ColumnChunkMetaData) (locations : List Thrift.PageLocation) : Prop :=
  ∀ (ivs : List Interval) (buffers : Nat → Nat × List Byte),
    SortedFrom 0 ivs → Within (arrays.map Array.len).sum ivs → (∀ iv ∈ ivs, 0 < iv.length) →
    ∃ filtered reader out, selectPages ck ivs locations (arrays.map Array.len).sum = .ok filtered ∧
      IndexedReader.ofColumn file chunk filtered = .ok reader ∧
      Client.collect ck (fun k => BasicDecompressor.advance cs ck (IndexedReader.next codec ck) (buffers k)) (·.current)
        chunk.columnDescr.descriptor.primitiveType.physicalType (arrays.length + 1) 0
        (BasicDecompressor.new reader) none = .ok out ∧
      (∀ a ∈ out, HasType a chunk.columnDescr.descriptor.primitiveType.physicalType ∧ 0 < a.len) ∧
      out.flatMap arrayItems = selectRows ivs (arrays.flatMap arrayItems)

end Pq.Spec
