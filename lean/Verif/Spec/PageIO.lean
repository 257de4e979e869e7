import Verif.Spec.Thrift
import Verif.Spec.Codec
/-
Model-independent description of a column chunk on disk (parquet format: for each page a thrift
`PageHeader` followed by the page's bytes) and of what a page reader delivers.
-/
namespace Pq.Spec

/-- Starting in state `s`, repeated calls of `next` return exactly the items `xs` and then `None`,
ending in state `t`. -/
inductive Pulls {σ α : Type} (next : σ → Option α × σ) : σ → List α → σ → Prop where
  | done {s t : σ} : next s = (none, t) → Pulls next s [] t
  | item {s s' t : σ} {x : α} {xs : List α} :
      next s = (some x, s') → Pulls next s' xs t → Pulls next s (x :: xs) t

/-- The header of a page (`parquet.thrift`: type codes 0, 2 and 3; sizes; the specific header). -/
def headerOf : CompressedPage → Thrift.PageHeader
  | .data p => match p.header with
    | .v1 h => { type := 0#32, uncompressedPageSize := BitVec.ofNat 32 p.uncompressedPageSize
                 compressedPageSize := BitVec.ofNat 32 p.buffer.length, dataPageHeader := some h }
    | .v2 h => { type := 3#32, uncompressedPageSize := BitVec.ofNat 32 p.uncompressedPageSize
                 compressedPageSize := BitVec.ofNat 32 p.buffer.length, dataPageHeaderV2 := some h }
  | .dict p => { type := 2#32, uncompressedPageSize := BitVec.ofNat 32 p.uncompressedPageSize
                 compressedPageSize := BitVec.ofNat 32 p.buffer.length
                 dictionaryPageHeader := some
                   { numValues := BitVec.ofNat 32 p.numValues, encoding := 0#32 } }

/-- A page on disk. -/
def pageBytes (codec : Codec Thrift.PageHeader) (page : CompressedPage) : List Byte :=
  codec.ser (headerOf page) ++ page.buffer

/-- The number of values of a page, as in its header. -/
def valuesOf : CompressedPage → Int
  | .data p => match p.header with
    | .v1 h => h.numValues.toInt
    | .v2 h => h.numValues.toInt
  | .dict _ => 0

/-- A page as it comes back: the row selection and the sortedness of a dictionary are not stored. -/
def readBack : CompressedPage → CompressedPage
  | .data p => .data { p with selectedRows := none }
  | .dict p => .dict { p with isSorted := false }

/-- Whether a page passes the filter. -/
def passes (filter : Descriptor → DataPageHeader → Bool) (d : Descriptor) : CompressedPage → Bool
  | .data p => filter d p.header
  | .dict _ => true

/-- The thrift codes of the encodings. -/
def knownEncoding (x : I32) : Prop := x.toNat ∈ [0, 2, 3, 4, 5, 6, 7, 8, 9]

/-- A page that may be in a column chunk of compression `c` with descriptor `d`: known encodings,
and a non-negative number of values. -/
def PageOk (c : Compression) (d : Descriptor) : CompressedPage → Prop
  | .data p => p.compression = c ∧ p.descriptor = d ∧ match p.header with
    | .v1 h => 0 ≤ h.numValues.toInt ∧ knownEncoding h.encoding ∧
      knownEncoding h.definitionLevelEncoding ∧ knownEncoding h.repetitionLevelEncoding
    | .v2 h => 0 ≤ h.numValues.toInt ∧ knownEncoding h.encoding
  | .dict p => p.compression = c

/-- The sizes of a page that can be written. -/
def SizesOk (page : CompressedPage) : Prop :=
  page.uncompressedSize < 2 ^ 31 ∧ page.buffer.length < 2 ^ 31 ∧
    ∀ p, page = .dict p → p.numValues < 2 ^ 31

/-- States reachable by calling `next`. -/
inductive Reaches {σ α : Type} (next : σ → α × σ) : σ → σ → Prop where
  | refl (s : σ) : Reaches next s s
  | step {s t : σ} : Reaches next (next s).2 t → Reaches next s t

/-- A thrift page header that describes a page: a known type, the header of that type present, its
encodings known. `dh` is the data page header, if it is a data page. -/
def ValidHeader (h : Thrift.PageHeader) (dh : Option DataPageHeader) : Prop :=
  (h.type = 0#32 ∧ ∃ v1, h.dataPageHeader = some v1 ∧ dh = some (.v1 v1) ∧ knownEncoding v1.encoding ∧
    knownEncoding v1.definitionLevelEncoding ∧ knownEncoding v1.repetitionLevelEncoding) ∨
  (h.type = 3#32 ∧ ∃ v2, h.dataPageHeaderV2 = some v2 ∧ dh = some (.v2 v2) ∧
    knownEncoding v2.encoding) ∨
  (h.type = 2#32 ∧ dh = none)

/-- The bytes of `file` in `[start, start + length)`. -/
def region (file : List Byte) (start length : Nat) : List Byte := (file.drop start).take length

/-- The page found at a page location. -/
structure At (codec : Codec Thrift.PageHeader) (limit : Thrift.PageHeader → Nat) (c : Compression)
    (d : Descriptor) (file : List Byte) (start length : Nat) (p : CompressedPage) : Prop where
  bytes : region file start length = pageBytes codec p
  length : length < 2 ^ 63
  limit : limit (headerOf p) ≤ 1024 * 1024
  sizes : SizesOk p
  compression : p.compression = c
  descriptor : ∀ q, p = .data q → q.descriptor = d

/-- A data page as it comes back from an indexed read: with its selection. -/
def readSelected (rows : List Interval) : CompressedPage → CompressedPage
  | .data p => .data { p with selectedRows := some rows }
  | .dict p => .dict { p with isSorted := false }

/-- The dictionary page, if bytes of the column precede the first location. -/
def dictFirst (columnStart : Nat) (locations : List FilteredPage) (dict : CompressedDictPage) :
    List CompressedPage :=
  match locations with
  | [] => []
  | first :: _ => if columnStart < first.start then [readBack (.dict dict)] else []

end Pq.Spec
