import Verif.Model.Indexes
import Verif.Spec.Intervals
import Verif.Spec.Writer
/-
Model-independent description of what is read from the page indexes.
-/
namespace Pq.Spec

/-- Minimum, maximum (plain-encoded) and null count of a page. -/
abbrev BoundEntry := Option (List Byte) × Option (List Byte) × Option I64

/-- An entry, the bounds plain-encoded. -/
def plainEntry {α : Type} (plain : α → List Byte) (e : PageIndex α) : BoundEntry :=
  (e.min.map plain, e.max.map plain, e.nullCount)

/-- The entries of an index. -/
def plainEntries : Index → List BoundEntry
  | .boolean xs _ => xs.map (plainEntry fun b => [if b then 1 else 0])
  | .int32 _ xs _ => xs.map (plainEntry fun x => leBytes 4 x.toNat)
  | .int64 _ xs _ => xs.map (plainEntry fun x => leBytes 8 x.toNat)
  | .int96 _ xs _ => xs.map (plainEntry int96Bytes)
  | .float _ xs _ => xs.map (plainEntry fun x => leBytes 4 x.toNat)
  | .double _ xs _ => xs.map (plainEntry fun x => leBytes 8 x.toNat)
  | .byteArray _ xs _ => xs.map (plainEntry id)
  | .fixedLen _ xs _ => xs.map (plainEntry id)

/-- The order of the entries of an index. -/
def boundaryOrderOf : Index → BoundaryOrder
  | .boolean _ o => o
  | .int32 _ _ o => o
  | .int64 _ _ o => o
  | .int96 _ _ o => o
  | .float _ _ o => o
  | .double _ _ o => o
  | .byteArray _ _ o => o
  | .fixedLen _ _ o => o

/-- The column type of an index, where it has one. -/
def indexTypeOf : Index → Option PrimitiveType
  | .boolean _ _ => none
  | .int32 t _ _ => some t
  | .int64 t _ _ => some t
  | .int96 t _ _ => some t
  | .float t _ _ => some t
  | .double t _ _ => some t
  | .byteArray t _ _ => some t
  | .fixedLen t _ _ => some t

/-- The entry says what the statistics in the header of the page say. A page without minimum has no
bounds. -/
def PageBounds (p : CompressedPage) (e : BoundEntry) : Prop :=
  ∃ v t, statisticsOf p = some (v, t) ∧ v.nullCount.isSome = true ∧ e.2.2 = v.nullCount ∧
    ((∃ x y, v.minValue = some x ∧ v.maxValue = some y ∧
        e.1 = some (boundOf t x) ∧ e.2.1 = some (boundOf t y)) ∨
      (v.minValue = none ∧ e.1 = none ∧ e.2.1 = none))

/-- The index read for a column: that of its data pages. -/
structure ColumnIndexReads (c : ColumnDescriptor × List CompressedPage) (index : Index) : Prop where
  physicalType : index.physicalType = c.1.descriptor.primitiveType.physicalType
  type : ∀ t ∈ indexTypeOf index, t = c.1.descriptor.primitiveType
  order : boundaryOrderOf index = .unordered
  entries : List.Forall₂ PageBounds (c.2.filter isData) (plainEntries index)
  fixed : ∀ t xs o, index = .fixedLen t xs o → ∃ n, t.physicalType = .fixedLenByteArray n

/-- The statistics of the pages are of the type of the column. -/
def Typed (c : ColumnDescriptor × List CompressedPage) : Prop :=
  ∀ p ∈ c.2, ∀ vt ∈ statisticsOf p, vt.2 = c.1.descriptor.primitiveType.physicalType

instance (c : ColumnDescriptor × List CompressedPage) : Decidable (Typed c) :=
  inferInstanceAs (Decidable
    (∀ p ∈ c.2, ∀ vt ∈ statisticsOf p, vt.2 = c.1.descriptor.primitiveType.physicalType))

/-- The data pages of a column can be found with these locations: the i-th is that of the i-th data
page, the bytes there are those of the page, and the first row is the number of rows before it. -/
def Locates (codec : Codec Thrift.PageHeader) (file : List Byte) (pages : List CompressedPage)
    (locations : List Thrift.PageLocation) : Prop :=
  locations.length = (pages.filter isData).length ∧
  ∀ (i : Nat) (l : Thrift.PageLocation) (p : CompressedPage), locations[i]? = some l →
    (pages.filter isData)[i]? = some p →
      0 ≤ l.offset.toInt ∧ 0 ≤ l.compressedPageSize.toInt ∧
      region file l.offset.toInt.toNat l.compressedPageSize.toInt.toNat = pageBytes codec p ∧
      l.firstRowIndex.toInt = chunkRows ((pages.filter isData).take i)

/-- The page indexes of a row group are read: for each column, the locations of its data pages and the
bounds in their headers, provided no index has 2^31 bytes or more or exceeds the limit of the reader.
Without statistics there are no bounds. -/
structure IndexesRead (cs : ThriftCodecs) (offsetLimit : Thrift.OffsetIndex → Nat)
    (columnLimit : Thrift.ColumnIndex → Nat) (statistics : Bool) (file : List Byte)
    (columns : List (ColumnDescriptor × List CompressedPage)) (group : RowGroupMetaData) : Prop where
  locations : ∃ ois : List Thrift.OffsetIndex,
    List.Forall₂ (fun (c : ColumnDescriptor × List CompressedPage) (oi : Thrift.OffsetIndex) =>
      RowsKnown c.2 → chunkRows c.2 < 2 ^ 63 → Locates cs.page file c.2 oi.pageLocations) columns ois ∧
    (∀ oi ∈ ois, (cs.offsetIndex.ser oi).length ≤ file.length) ∧
    ((∀ oi ∈ ois, (cs.offsetIndex.ser oi).length < 2 ^ 31 ∧
        offsetLimit oi ≤ (cs.offsetIndex.ser oi).length * 2 + 1024) →
      ∀ ck, readPagesLocations cs.offsetIndex ck file group.columns = .ok (ois.map (·.pageLocations)))
  bounds : statistics = true → ∃ (cis : List Thrift.ColumnIndex) (indexes : List Index),
    List.Forall₂ (fun c ci => ColumnIndexOf c.2 ci) columns cis ∧
    List.Forall₂ ColumnIndexReads columns indexes ∧
    (∀ ci ∈ cis, (cs.columnIndex.ser ci).length ≤ file.length) ∧
    ((∀ ci ∈ cis, (cs.columnIndex.ser ci).length < 2 ^ 31 ∧
        columnLimit ci ≤ (cs.columnIndex.ser ci).length * 2 + 1024) →
      ∀ ck, readColumnsIndexes cs.columnIndex ck file group.columns = .ok indexes)
  noBounds : statistics = false → ∀ ck, readColumnsIndexes cs.columnIndex ck file group.columns = .ok []

/-- Rows of a data page. -/
def rowsIn (p : CompressedPage) : Nat := (pageRowCount p).getD 0

/-- Selected rows of a column are read through the page locations: with the pages selected for any
intervals, the reader delivers the dictionary page, if there is one, and the data pages with selected
rows, in order, each with the intervals of the page that are, together, the selected rows in it, sorted if
the given ones are, and empty only if one of these is or the page has no rows. If the intervals are sorted and within the column, taking from each page the rows selected in it gives the
selected rows of the column. -/
def SelectionReads (codec : Codec Thrift.PageHeader) (file : List Byte) (dict : Option CompressedDictPage)
    (datas : List CompressedPage) (chunk : ColumnChunkMetaData) (locations : List Thrift.PageLocation) :
    Prop :=
  ∀ (ck : Bool) (ivs : List Interval), (∀ iv ∈ ivs, iv.start + iv.length < 2 ^ 64) →
    ∃ filtered, selectPages ck ivs locations (chunkRows datas) = .ok filtered ∧
      filtered.length = datas.length ∧
      (∀ (i : Nat) (f : FilteredPage) (p : CompressedPage), filtered[i]? = some f → datas[i]? = some p →
        f.numRows = rowsIn p ∧ Within f.numRows f.selectedRows ∧
        (SortedFrom 0 ivs → SortedFrom 0 f.selectedRows) ∧
        (0 < f.numRows → (∀ iv ∈ ivs, 0 < iv.length) → ∀ x ∈ f.selectedRows, 0 < x.length) ∧
        f.selectedRows.flatMap (fun iv => (rowsOf iv).map (chunkRows (datas.take i) + ·)) =
          (ivs.flatMap rowsOf).filter fun r => decide (chunkRows (datas.take i) ≤ r ∧
            r < chunkRows (datas.take i) + rowsIn p)) ∧
      (SortedFrom 0 ivs → Within (chunkRows datas) ivs → ∀ (α : Type) (contents : List (List α)),
        contents.map List.length = datas.map rowsIn →
          (List.zipWith (fun f c => selectRows f.selectedRows c) filtered contents).flatten =
            selectRows ivs contents.flatten) ∧
      ∃ reader last, IndexedReader.ofColumn file chunk filtered = .ok reader ∧
        Pulls (IndexedReader.next codec ck) reader
          (((if datas = [] then [] else dict.toList.map fun d => readBack (.dict d)) ++
            ((filtered.zip datas).filter fun x => x.1.selectedRows ≠ []).map
              fun x => readSelected x.1.selectedRows x.2).map .ok) last

/-- The page locations of a row group are read, and selected rows of its columns with them, provided no
index has 2^31 bytes or more or exceeds the limit of the reader. Columns have an optional dictionary
page followed by data pages, which know their number of rows. -/
def SelectionsRead (cs : ThriftCodecs) (limit : Thrift.PageHeader → Nat)
    (offsetLimit : Thrift.OffsetIndex → Nat) (file : List Byte)
    (columns : List (ColumnDescriptor × List CompressedPage)) (group : RowGroupMetaData) : Prop :=
  ∃ ois : List Thrift.OffsetIndex,
    (∀ oi ∈ ois, (cs.offsetIndex.ser oi).length ≤ file.length) ∧
    ((∀ oi ∈ ois, (cs.offsetIndex.ser oi).length < 2 ^ 31 ∧
        offsetLimit oi ≤ (cs.offsetIndex.ser oi).length * 2 + 1024) →
      ∀ ck, readPagesLocations cs.offsetIndex ck file group.columns = .ok (ois.map (·.pageLocations))) ∧
    ois.length = columns.length ∧ group.columns.length = columns.length ∧
    ∀ (i : Nat) (c : ColumnDescriptor × List CompressedPage) (chunk : ColumnChunkMetaData)
      (oi : Thrift.OffsetIndex), columns[i]? = some c → group.columns[i]? = some chunk → ois[i]? = some oi →
      RowsKnown c.2 → chunkRows c.2 < 2 ^ 63 →
      (∀ p ∈ c.2, ∀ q, p = .data q → q.descriptor = c.1.descriptor) →
      (∀ p ∈ c.2, limit (headerOf p) ≤ 1024 * 1024) →
      ∀ (dict : Option CompressedDictPage) (datas : List CompressedPage),
        c.2 = dict.toList.map .dict ++ datas → (∀ p ∈ datas, isData p = true) →
        SelectionReads cs.page file dict datas chunk oi.pageLocations

end Pq.Spec
