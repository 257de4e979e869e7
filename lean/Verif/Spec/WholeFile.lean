import Verif.Spec.Writer
/-
Model-independent description of reading back a file that was written.
-/
namespace Pq.Spec

/-- Merged statistics `r` of pages: absent iff no page has any; otherwise of known content, with the sum of
the null counts; numeric bounds are the extrema of those of the pages, if none is NaN; byte-string bounds
likewise, if none is a proper prefix of another. -/
def StatisticsTell (pages : List (Option Statistics)) (r : Option (Res Statistics)) : Prop :=
  match r with
  | none => ∀ s ∈ pages, s = none
  | some r => ∃ s, r = .ok s ∧ (∃ t, some t ∈ pages) ∧ (∀ t, some t ∈ pages → t.physicalType = s.physicalType) ∧
    SumOf ((pages.filterMap id).map (·.nullCount)) s.nullCount ∧
    ((∀ t, some t ∈ pages → numMin t ≠ some none ∧ numMax t ≠ some none) →
      Extremum numLe ((pages.filterMap id).map numMin) (numMin s) ∧
      Extremum numGe ((pages.filterMap id).map numMax) (numMax s)) ∧
    ((∀ t u a b, some t ∈ pages → some u ∈ pages → bytesMin t = some a → bytesMin u = some b →
        a <+: b → a = b) →
      (∀ t u a b, some t ∈ pages → some u ∈ pages → bytesMax t = some a → bytesMax u = some b →
        a <+: b → a = b) →
      Extremum lexLe ((pages.filterMap id).map bytesMin) (bytesMin s) ∧
      Extremum (fun a b => lexLe b a) ((pages.filterMap id).map bytesMax) (bytesMax s))

/-- What the methods of a column chunk's metadata tell about the pages written. -/
structure ColumnTells (codec : Codec Thrift.PageHeader) (file : List Byte)
    (c : ColumnDescriptor × List CompressedPage) (chunk : ColumnChunkMetaData) : Prop where
  physicalType : chunk.physicalType = c.1.descriptor.primitiveType.physicalType
  filePath : chunk.filePath = none
  values : chunk.numValues.map' BitVec.toInt = .ok (chunkValues c.2)
  compressed : chunk.compressedSize.map' BitVec.toInt = .ok ((chunkBytes codec c.2).length : Int)
  uncompressed : chunk.uncompressedSize.map' BitVec.toInt = .ok (chunkUncompressed codec c.2 : Int)
  compression : ∀ p ∈ c.2, chunk.compression = .ok p.compression
  encodings : ∃ es, chunk.columnEncoding = .ok es ∧ es.Pairwise (fun a b => a.toInt < b.toInt) ∧
    ∀ e, e ∈ es ↔ ∃ p ∈ c.2, e ∈ encodingsOf p
  indexPage : chunk.hasIndexPage = .ok false ∧ chunk.indexPageOffset = .ok none
  place : c.2 ≠ [] → ∃ pos : Nat, chunk.dataPageOffset.map' BitVec.toInt = .ok (pos : Int) ∧
    chunk.fileOffset.toInt = (pos + (chunkBytes codec c.2).length : Nat) ∧
    region file pos (chunkBytes codec c.2).length = chunkBytes codec c.2
  dictionary : chunk.dictionaryPageOffset = .ok none
  statistics : ∃ r, chunk.statistics = .ok r ∧ StatisticsTell (c.2.map pageStats) r

/-- A column chunk that is read back: the page iterator on it delivers the pages that were written, in
order, minus those rejected by the page filter, whatever the filter, the scratch buffer and the
allowed page size if that is sufficient; and then nothing. The bytes of the whole chunk can be read into
memory, and the page reader on them delivers the same. It delivers the same if its buffer is swapped
between the pages, as the decompressor does. The metadata tell the truth. -/
structure ColumnReads (codec : Codec Thrift.PageHeader) (limit : Thrift.PageHeader → Nat)
    (file : List Byte) (c : ColumnDescriptor × List CompressedPage) (chunk : ColumnChunkMetaData) :
    Prop where
  descriptor : chunk.columnDescr = c.1
  pages : ∀ (ck : Bool) (filter : Option PageFilter) (scratch : List Byte) (max : Nat),
    (∀ p ∈ c.2, p.buffer.length ≤ max ∧ limit (headerOf p) ≤ max) →
    ∃ reader last, getPageIterator chunk file filter scratch max = .ok reader ∧
      Pulls (PageReader.next codec ck) reader
        ((c.2.filter (passes (filter.getD fun _ _ => true) c.1.descriptor)).map fun p => .ok (readBack p))
        last
  bytes : readColumn file chunk = .ok (chunkBytes codec c.2)
  inMemory : ∃ meta', chunk.pageMetaData = .ok meta' ∧
    ∀ (ck : Bool) (filter : PageFilter) (scratch : List Byte) (max : Nat),
    (∀ p ∈ c.2, p.buffer.length ≤ max ∧ limit (headerOf p) ≤ max) →
    ∃ last, Pulls (PageReader.next codec ck)
      (PageReader.new (chunkBytes codec c.2) meta' filter scratch max)
      ((c.2.filter (passes filter c.1.descriptor)).map fun p => .ok (readBack p)) last
  swapped : ∀ (ck : Bool) (filter : Option PageFilter) (scratch : List Byte) (max : Nat),
    (∀ p ∈ c.2, p.buffer.length ≤ max ∧ limit (headerOf p) ≤ max) →
    ∃ reader R, getPageIterator chunk file filter scratch max = .ok reader ∧
      Serves (PageReader.iter codec ck) R ∧
      R reader ((c.2.filter (passes (filter.getD fun _ _ => true) c.1.descriptor)).map fun p =>
        .ok (readBack p))
  tells : ColumnTells codec file c chunk

/-- A row group that is read back. -/
structure GroupReads (cs : ThriftCodecs) (limit : Thrift.PageHeader → Nat) (file : List Byte)
    (columns : List (ColumnDescriptor × List CompressedPage)) (group : RowGroupMetaData) : Prop where
  rows : group.numRows = groupRows columns
  size : group.totalByteSize = (columns.map fun c => chunkUncompressed cs.page c.2).sum
  compressed : ∀ ck, group.compressedSize ck = .ok (columns.map fun c => (chunkBytes cs.page c.2).length).sum
  chunks : List.Forall₂ (ColumnReads cs.page limit file) columns group.columns

/-- The pages of a column that can be read back: they are of the type of the column, have known
encodings, and the last one has values. -/
structure Readable (c : ColumnDescriptor × List CompressedPage) : Prop where
  ok : ∀ p ∈ c.2, PageOk p.compression c.1.descriptor p
  last : ∀ p, c.2.getLast? = some p → 0 < valuesOf p

end Pq.Spec
