import Mathlib.Data.List.Forall2
import Verif.Spec.FileMetadata
import Verif.Spec.PageIO
import Verif.Spec.Schema
import Verif.Spec.Statistics
/-
Model-independent description of what is written: the bytes of column chunks, the totals recorded in
their metadata, where things are in a file.
-/
namespace Pq.Spec

/-- The bytes of the pages of a column chunk. -/
def chunkBytes (codec : Codec Thrift.PageHeader) (pages : List CompressedPage) : List Byte :=
  (pages.map (pageBytes codec)).flatten

/-- The size of a page with its header, uncompressed. -/
def uncompressedLen (codec : Codec Thrift.PageHeader) (p : CompressedPage) : Nat :=
  (codec.ser (headerOf p)).length + p.uncompressedSize

/-- The total of the sizes of the pages with their headers, uncompressed. -/
def chunkUncompressed (codec : Codec Thrift.PageHeader) (pages : List CompressedPage) : Nat :=
  (pages.map (uncompressedLen codec)).sum

/-- Number of values in a column chunk (nulls included). -/
def chunkValues (pages : List CompressedPage) : Int := (pages.map valuesOf).sum

/-- The thrift codes of the encodings used by a page: that of the values and, in data pages, that of
the levels (RLE). -/
def encodingsOf : CompressedPage → List I32
  | .data p => match p.header with
    | .v1 h => [h.encoding, 3#32]
    | .v2 h => [h.encoding, 3#32]
  | .dict _ => [0#32]

/-- Whether it is a data page. -/
def isData : CompressedPage → Bool
  | .data _ => true
  | .dict _ => false

/-- The number of rows of a page made with this number of rows (`DataPage::new(.., Some(rows))`);
`none` if unknown. -/
def pageRowCount : CompressedPage → Option Nat
  | .data p => match p.selectedRows with
    | some [iv] => some iv.length
    | _ => none
  | .dict _ => none

/-- The rows of a column. -/
def chunkRows (pages : List CompressedPage) : Nat :=
  ((pages.filter isData).map fun p => (pageRowCount p).getD 0).sum

/-- The data pages of the column know their number of rows. -/
def RowsKnown (pages : List CompressedPage) : Prop :=
  ∀ p ∈ pages, isData p = true → (pageRowCount p).isSome = true

instance (pages : List CompressedPage) : Decidable (RowsKnown pages) :=
  inferInstanceAs (Decidable (∀ p ∈ pages, isData p = true → (pageRowCount p).isSome = true))

/-- The rows of a row group: those of its first column. -/
def groupRows (columns : List (ColumnDescriptor × List CompressedPage)) : Nat :=
  (columns.head?.map fun c => chunkRows c.2).getD 0

/-- The rows of a row group are known, and not too many. -/
def GroupRowsKnown (columns : List (ColumnDescriptor × List CompressedPage)) : Prop :=
  ∀ c ∈ columns.take 1, RowsKnown c.2 ∧ chunkRows c.2 < 2 ^ 63

instance (columns : List (ColumnDescriptor × List CompressedPage)) : Decidable (GroupRowsKnown columns) :=
  inferInstanceAs (Decidable (∀ c ∈ columns.take 1, RowsKnown c.2 ∧ chunkRows c.2 < 2 ^ 63))

/-- The statistics of a page: those in its header, read as those of the type of the page. -/
def pageStats (p : CompressedPage) : Option Statistics :=
  match pageStatistics p with
  | .ok s => s
  | _ => none

/-- What the metadata of a column chunk written at `pos` says. The statistics are the merged statistics
of the pages: what that means is the matter of C46, C47 and C48 (and of `Spec.StatisticsTell`). -/
structure DescribesChunk (codec : Codec Thrift.PageHeader) (pos : Nat) (d : ColumnDescriptor)
    (pages : List CompressedPage) (m : Thrift.ColumnMetaData) : Prop where
  start : pages ≠ [] → m.dataPageOffset.toInt = pos
  noDictionary : m.dictionaryPageOffset = none
  compressed : m.totalCompressedSize.toInt = (chunkBytes codec pages).length
  uncompressed : m.totalUncompressedSize.toInt = chunkUncompressed codec pages
  values : m.numValues.toInt = chunkValues pages
  path : m.pathInSchema = d.pathInSchema
  type : m.type = d.descriptor.primitiveType.physicalType.toThrift.1
  codec : ∀ p ∈ pages, (p.compression, m.codec.toNat) ∈ compressionTable
  encodings : m.encodings.Pairwise fun a b => a.toInt < b.toInt
  encodings_mem : ∀ e, e ∈ m.encodings ↔ ∃ p ∈ pages, e ∈ encodingsOf p
  noPages : pages = [] → m.dataPageOffset = 0#64 ∧ m.codec = 0#32
  plain : m.keyValueMetadata = none ∧ m.indexPageOffset = none ∧ m.encodingStats = none ∧
    m.bloomFilterOffset = none
  pageStatistics : ∀ p ∈ pages, (pageStatistics p).isOk = true
  statistics : ∃ ck r, reduceStatistics ck (pages.map pageStats) = .ok r ∧
    optionMapRes serializeStatistics r = .ok m.statistics

/-- The sizes of a column chunk are representable. -/
structure Fits (codec : Codec Thrift.PageHeader) (pages : List CompressedPage) : Prop where
  uncompressed : chunkUncompressed codec pages < 2 ^ 63
  values : -(2 ^ 63) ≤ chunkValues pages ∧ chunkValues pages < 2 ^ 63

/-- Column chunks, one after the other from `pos` on: each is its pages followed by its metadata. -/
inductive Chunks (cs : ThriftCodecs) : Nat → List (ColumnDescriptor × List CompressedPage) →
    List Thrift.ColumnMetaData → List Byte → Prop where
  | nil (pos : Nat) : Chunks cs pos [] [] []
  | cons {pos : Nat} {d : ColumnDescriptor} {pages : List CompressedPage} {m : Thrift.ColumnMetaData}
      {columns : List (ColumnDescriptor × List CompressedPage)} {ms : List Thrift.ColumnMetaData}
      {bytes : List Byte} :
      DescribesChunk cs.page pos d pages m →
      Chunks cs (pos + (chunkBytes cs.page pages ++ cs.column.ser m).length) columns ms bytes →
      Chunks cs pos ((d, pages) :: columns) (m :: ms)
        (chunkBytes cs.page pages ++ cs.column.ser m ++ bytes)

/-- The totals of a row group. -/
structure DescribesGroup (cs : ThriftCodecs) (columns : List (ColumnDescriptor × List CompressedPage))
    (rg : Thrift.RowGroup) : Prop where
  uncompressed : rg.totalByteSize.toInt =
    ((columns.map fun c => chunkUncompressed cs.page c.2).sum : Nat)
  compressed : rg.totalCompressedSize.map (·.toInt) =
    some (((columns.map fun c => (chunkBytes cs.page c.2).length).sum : Nat) : Int)
  rows : ∀ c ∈ columns.head?, RowsKnown c.2 → chunkRows c.2 < 2 ^ 63 →
    rg.numRows.toInt = chunkRows c.2
  noColumns : columns = [] → rg.numRows = 0#64
  fileOffset : rg.fileOffset = rg.columns.head?.bind fun c => c.metaData.map (·.dataPageOffset)
  sorting : rg.sortingColumns = none

/-- Row groups, one after the other from `pos` on. `columns` are the columns of a group: those of the
schema for which pages were given. -/
inductive Groups (cs : ThriftCodecs) : Nat → List (List (ColumnDescriptor × List CompressedPage)) →
    List Thrift.RowGroup → List Byte → Prop where
  | nil (pos : Nat) : Groups cs pos [] [] []
  | cons {pos : Nat} {columns : List (ColumnDescriptor × List CompressedPage)}
      {ms : List Thrift.ColumnMetaData} {b : List Byte} {rg : Thrift.RowGroup}
      {groups : List (List (ColumnDescriptor × List CompressedPage))} {rgs : List Thrift.RowGroup}
      {bytes : List Byte} :
      Chunks cs pos columns ms b → rg.columns.map (·.metaData) = ms.map some →
      DescribesGroup cs columns rg → Groups cs (pos + b.length) groups rgs bytes →
      Groups cs pos (columns :: groups) (rg :: rgs) (b ++ bytes)

/-- The sizes of a row group are representable. -/
structure GroupFits (cs : ThriftCodecs) (columns : List (ColumnDescriptor × List CompressedPage)) :
    Prop where
  chunks : ∀ c ∈ columns, Fits cs.page c.2
  total : (columns.map fun c => chunkUncompressed cs.page c.2).sum < 2 ^ 63

/-- The byte range of a column chunk according to its metadata: start and length. -/
def rangeOf (m : Thrift.ColumnMetaData) : Int × Int :=
  ((m.dictionaryPageOffset.getD m.dataPageOffset).toInt, m.totalCompressedSize.toInt)

/-- The first range ends before the second begins, if neither is empty. -/
def Precedes (a b : Int × Int) : Prop := a.2 = 0 ∨ b.2 = 0 ∨ a.1 + a.2 ≤ b.1

/-! ### Page indexes -/

/-- The file positions, sizes and first rows of the data pages of a column whose pages start at `pos`,
the first row being `row`. -/
def locationsOf (codec : Codec Thrift.PageHeader) : Int → Nat → List CompressedPage →
    List (Int × Int × Int)
  | _, _, [] => []
  | pos, row, p :: ps =>
    let next := pos + (pageBytes codec p).length
    if isData p then
      (pos, ((pageBytes codec p).length : Int), (row : Int)) ::
        locationsOf codec next (row + (pageRowCount p).getD 0) ps
    else locationsOf codec next row ps

/-- The page has some rows selected. -/
def rowsGiven : CompressedPage → Bool
  | .data p => match p.selectedRows with
    | some (_ :: _) => true
    | _ => false
  | .dict _ => false

/-- What the offset index of a column says: its data pages, provided they know their rows. (If not all
of them say something about rows, there is no index.) -/
def OffsetIndexOf (codec : Codec Thrift.PageHeader) (pages : List CompressedPage) (start : Int)
    (oi : Thrift.OffsetIndex) : Prop :=
  (∀ p ∈ pages, isData p = true → rowsGiven p = true) ∧
  oi.pageLocations.length = (pages.filter isData).length ∧
  (RowsKnown pages → chunkRows pages < 2 ^ 63 →
    oi.pageLocations.map (fun l => (l.offset.toInt, l.compressedPageSize.toInt, l.firstRowIndex.toInt))
      = locationsOf codec start 0 pages)

/-- The statistics in the header of a data page, with the type of the column. -/
def statisticsOf : CompressedPage → Option (Thrift.Statistics × PhysicalType)
  | .data p => (match p.header with
    | .v1 h => h.statistics
    | .v2 h => h.statistics).map fun s => (s, p.descriptor.primitiveType.physicalType)
  | .dict _ => none

/-- A bound as it is written: the bytes, `true` being 1. -/
def boundOf (t : PhysicalType) (x : List Byte) : List Byte :=
  if t = .boolean then x.map fun b => if b = 0#8 then 0#8 else 1#8 else x

/-- The entry of a data page in the column index: null count, minimum, maximum, and whether the page
is said to consist of nulls, which is so if it has no minimum. The bounds have the width of the type. -/
def IndexEntry (p : CompressedPage) (e : I64 × List Byte × List Byte × Bool) : Prop :=
  ∃ v t, statisticsOf p = some (v, t) ∧ WidthsOk v t ∧ v.nullCount = some e.1 ∧
    ((∃ x y, v.minValue = some x ∧ v.maxValue = some y ∧ e.2 = (boundOf t x, boundOf t y, false)) ∨
      (v.minValue = none ∧ e.2 = ([0#8], [0#8], true)))

/-- What the column index of a column says. -/
def ColumnIndexOf (pages : List CompressedPage) (ci : Thrift.ColumnIndex) : Prop :=
  ∃ entries : List (I64 × List Byte × List Byte × Bool),
    List.Forall₂ IndexEntry (pages.filter isData) entries ∧
    ci = { nullPages := entries.map (·.2.2.2), minValues := entries.map (·.2.1)
           maxValues := entries.map (·.2.2.1), boundaryOrder := 0#32
           nullCounts := some (entries.map (·.1)) }

/-- Sections of the file, one after the other from `pos` on, to which the column chunks refer. -/
inductive Sections (ref : Thrift.ColumnChunk → Option I64 × Option I32) (file : List Byte) :
    Nat → List Thrift.ColumnChunk → List (List Byte) → Prop where
  | nil (pos : Nat) : Sections ref file pos [] []
  | cons {pos : Nat} {c : Thrift.ColumnChunk} {cs : List Thrift.ColumnChunk} {b : List Byte}
      {bs : List (List Byte)} :
      ref c = (some (BitVec.ofNat 64 pos), some (BitVec.ofNat 32 b.length)) →
      region file pos b.length = b → Sections ref file (pos + b.length) cs bs →
      Sections ref file pos (c :: cs) (b :: bs)

/-- Where the pages of a column chunk start. -/
def startOf (c : Thrift.ColumnChunk) : Int := (c.metaData.map (·.dataPageOffset.toInt)).getD 0

/-- A column chunk in the file: its pages, followed by its metadata. -/
def ColumnWritten (cs : ThriftCodecs) (file : List Byte) (c : ColumnDescriptor × List CompressedPage)
    (chunk : Thrift.ColumnChunk) : Prop :=
  ∃ pos m, chunk.metaData = some m ∧ DescribesChunk cs.page pos c.1 c.2 m ∧ 4 ≤ pos ∧
    region file pos (chunkBytes cs.page c.2).length = chunkBytes cs.page c.2 ∧ (∀ p ∈ c.2, SizesOk p) ∧
    chunk.filePath = none ∧
    region file (pos + (chunkBytes cs.page c.2).length) (cs.column.ser m).length = cs.column.ser m ∧
    (c.2 ≠ [] → chunk.fileOffset.toInt = (pos + (chunkBytes cs.page c.2).length : Nat))

/-- A row group in the file, with the page indexes. -/
structure GroupWritten (cs : ThriftCodecs) (statistics : Bool) (file : List Byte)
    (columns : List (ColumnDescriptor × List CompressedPage)) (rg : Thrift.RowGroup) : Prop where
  totals : DescribesGroup cs columns rg
  offsetIndexes : ∃ pos ois, pos ≤ file.length ∧
    Sections (fun c => (c.offsetIndexOffset, c.offsetIndexLength)) file pos rg.columns
      (ois.map cs.offsetIndex.ser) ∧
    List.Forall₂ (fun x oi => OffsetIndexOf cs.page x.1.2 (startOf x.2) oi) (columns.zip rg.columns) ois
  columnIndexes : statistics = true → ∃ pos cis, pos ≤ file.length ∧
    Sections (fun c => (c.columnIndexOffset, c.columnIndexLength)) file pos rg.columns
      (cis.map cs.columnIndex.ser) ∧
    List.Forall₂ (fun c ci => ColumnIndexOf c.2 ci) columns cis
  noColumnIndexes : statistics = false → ∀ c ∈ rg.columns,
    c.columnIndexOffset = none ∧ c.columnIndexLength = none
  chunks : List.Forall₂ (ColumnWritten cs file) columns rg.columns

/-- The place of a row group in the file, as far as 16 bits (signed) allow. -/
def placeOf (k : Nat) : Option (BitVec 16) := if k < 2 ^ 15 then some (BitVec.ofNat 16 k) else none

/-- A finished file. -/
structure FileWritten (cs : ThriftCodecs) (schema : SchemaDescriptor) (options : WriteOptions)
    (createdBy : Option String) (keyValueMetadata : Option (List Thrift.KeyValue))
    (groups : List (List (List CompressedPage))) (file : List Byte) (md : Thrift.FileMetaData) :
    Prop where
  layout : ∃ bytes indexes,
    file = par1 ++ bytes ++ indexes ++ cs.file.ser md ++ tail8 (cs.file.ser md) ∧
    Groups cs 4 (groups.map (schema.leaves.zip ·)) md.rowGroups bytes
  version : md.version = options.version
  keyValueMetadata : md.keyValueMetadata = keyValueMetadata
  createdBy : md.createdBy = createdBy
  columnOrders : md.columnOrders = none
  rowGroups : List.Forall₂ (GroupWritten cs options.writeStatistics file)
    (groups.map (schema.leaves.zip ·)) md.rowGroups
  rows : md.numRows.toInt =
    (md.rowGroups.map fun rg : Thrift.RowGroup => rg.numRows.toInt).sum.bmod (2 ^ 64)
  schemaElements : md.schema = schema.intoThrift
  ordinals : md.rowGroups.map (·.ordinal) = (List.range groups.length).map placeOf

/-! ### Histories -/

/-- `w` is the writer after writing these row groups (all of them accepted) to `w0`. -/
inductive Wrote (cs : ThriftCodecs) (ck : Bool) (w0 : FileWriter) :
    List (List (List CompressedPage)) → FileWriter → Prop where
  | nil : Wrote cs ck w0 [] w0
  | snoc {groups : List (List (List CompressedPage))} {g : List (List CompressedPage)}
      {w w' : FileWriter} : Wrote cs ck w0 groups w →
      w.write cs ck (g.map fun pages => .ok (pages.map .ok)) = (.ok (), w') →
      Wrote cs ck w0 (groups ++ [g]) w'

/-- A writer to which nothing was written yet, perhaps started. -/
def Fresh (schema : SchemaDescriptor) (options : WriteOptions) (createdBy : Option String)
    (w : FileWriter) : Prop :=
  w = FileWriter.new schema options createdBy ∨ w = (FileWriter.new schema options createdBy).start.2

/-- `w'` is the writer after all these row groups were written and the file was ended with these
key-values, all successfully; `n` is what `end` returned. This is for both kinds of writer. -/
def Finished (cs : ThriftCodecs) (ck : Bool) (schema : SchemaDescriptor) (options : WriteOptions)
    (createdBy : Option String) (keyValueMetadata : Option (List Thrift.KeyValue))
    (groups : List (List (List CompressedPage))) (n : Nat) (w' : FileWriter) : Prop :=
  ∃ w0 w, Fresh schema options createdBy w0 ∧ Wrote cs ck w0 groups w ∧
    (w.end_ cs ck keyValueMetadata = (.ok n, w') ∨
      FileStreamer.end_ cs ck w keyValueMetadata = (.ok n, w'))

/-- The calls on a writer. -/
inductive WriterCall where
  | start
  | write (rowGroup : List (Res (List (Res CompressedPage))))
  | end_ (keyValueMetadata : Option (List Thrift.KeyValue))

/-- The writer after a call, whatever the result. -/
def WriterCall.run (cs : ThriftCodecs) (ck : Bool) (w : FileWriter) : WriterCall → FileWriter
  | .start => w.start.2
  | .write rowGroup => (w.write cs ck rowGroup).2
  | .end_ keyValueMetadata => (w.end_ cs ck keyValueMetadata).2

/-- The writer after some calls, whatever their results. -/
def runCalls (cs : ThriftCodecs) (ck : Bool) (w : FileWriter) (calls : List WriterCall) : FileWriter :=
  calls.foldl (WriterCall.run cs ck) w

end Pq.Spec
