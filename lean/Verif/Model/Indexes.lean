import Verif.Model.FileMetadata
/-
Model of `src/indexes/index.rs`, `src/read/indexes/deserialize.rs` and `src/read/indexes/read.rs`.

A reader is the bytes of the file; seeking past its end gives no bytes. `try_reserve` is not modelled.
Values of native types are their bit patterns.
-/
namespace Pq

/-- `src/indexes/index.rs:128-135` `PageIndex`. -/
structure PageIndex (α : Type) where
  min : Option α
  max : Option α
  nullCount : Option I64
  deriving DecidableEq, Repr

/-- `src/indexes/index.rs:74-81`, 147-155, 207-215 and 267-273: the implementations of `Index`. -/
inductive Index where
  | boolean (indexes : List (PageIndex Bool)) (boundaryOrder : BoundaryOrder)
  | int32 (primitiveType : PrimitiveType) (indexes : List (PageIndex (BitVec (8 * 4))))
      (boundaryOrder : BoundaryOrder)
  | int64 (primitiveType : PrimitiveType) (indexes : List (PageIndex (BitVec (8 * 8))))
      (boundaryOrder : BoundaryOrder)
  | int96 (primitiveType : PrimitiveType) (indexes : List (PageIndex Int96))
      (boundaryOrder : BoundaryOrder)
  | float (primitiveType : PrimitiveType) (indexes : List (PageIndex (BitVec (8 * 4))))
      (boundaryOrder : BoundaryOrder)
  | double (primitiveType : PrimitiveType) (indexes : List (PageIndex (BitVec (8 * 8))))
      (boundaryOrder : BoundaryOrder)
  | byteArray (primitiveType : PrimitiveType) (indexes : List (PageIndex (List Byte)))
      (boundaryOrder : BoundaryOrder)
  | fixedLen (primitiveType : PrimitiveType) (indexes : List (PageIndex (List Byte)))
      (boundaryOrder : BoundaryOrder)
  deriving DecidableEq

/-- `src/indexes/index.rs:142-144`, 202-204, 262-264 and 318-320 `physical_type`. -/
def Index.physicalType : Index → PhysicalType
  | .boolean _ _ => .boolean
  | .int32 _ _ _ => .int32
  | .int64 _ _ _ => .int64
  | .int96 _ _ _ => .int96
  | .float _ _ _ => .float
  | .double _ _ _ => .double
  | .byteArray _ _ _ => .byteArray
  | .fixedLen t _ _ => t.physicalType

/-- `src/indexes/index.rs:89-101` (also 162-174, 222-234, 277-289): null counts, `None` per minimum if
they are missing, and the zip of the columns of the index. -/
def indexRows (index : Thrift.ColumnIndex) :
    List (((List Byte × List Byte) × Bool) × Option I64) :=
  let nullCounts := match index.nullCounts with
    | some x => x.map some
    | none => List.replicate index.minValues.length none
  ((index.minValues.zip index.maxValues).zip index.nullPages).zip nullCounts

/-- `src/indexes/index.rs:102-116` (also 175-187, 235-247, 290-304): the entry of a page. -/
def pageIndex {α : Type} (decode : List Byte → Res α)
    (row : ((List Byte × List Byte) × Bool) × Option I64) : Res (PageIndex α) :=
  if row.1.2 then .ok { min := none, max := none, nullCount := row.2 }
  else do
    let min ← decode row.1.1.1
    let max ← decode row.1.1.2
    .ok { min := some min, max := some max, nullCount := row.2 }

/-- `src/indexes/index.rs:84-123`, 158-194, 218-254 and 276-311: the `try_new`s, up to the
constructor. -/
def tryNewIndex {α : Type} (decode : List Byte → Res α) (index : Thrift.ColumnIndex)
    (make : List (PageIndex α) → BoundaryOrder → Index) : Res Index := do
  let indexes ← collectRes ((indexRows index).map (pageIndex decode))
  let boundaryOrder ← BoundaryOrder.ofThrift index.boundaryOrder
  .ok (make indexes boundaryOrder)

/-- `src/indexes/index.rs:106-108`: `as_slice().try_into()?` and `from_le_bytes`. -/
def nativeBound (b : Nat) (bytes : List Byte) : Res (BitVec (8 * b)) :=
  if bytes.length = b then .ok (fromLe (8 * b) bytes) else .err .oos

/-- The same, for int96. -/
def int96Bound (bytes : List Byte) : Res Int96 :=
  if bytes.length = 12 then .ok (int96FromLe bytes) else .err .oos

/-- `src/indexes/index.rs:294-295`: `min[0] == 1`. -/
def booleanBound (bytes : List Byte) : Res Bool :=
  (Res.unwrap bytes.head?).map' fun x => x == 1#8

/-- `src/read/indexes/deserialize.rs:13-25`. -/
def indexOfThrift (index : Thrift.ColumnIndex) (t : PrimitiveType) : Res Index :=
  match t.physicalType with
  | .boolean => tryNewIndex booleanBound index .boolean
  | .int32 => tryNewIndex (nativeBound 4) index (.int32 t)
  | .int64 => tryNewIndex (nativeBound 8) index (.int64 t)
  | .int96 => tryNewIndex int96Bound index (.int96 t)
  | .float => tryNewIndex (nativeBound 4) index (.float t)
  | .double => tryNewIndex (nativeBound 8) index (.double t)
  | .byteArray => tryNewIndex .ok index (.byteArray t)
  | .fixedLenByteArray _ => tryNewIndex .ok index (.fixedLen t)

/-- `src/read/indexes/deserialize.rs:8-27` `deserialize`. -/
def deserializeIndex (codec : Codec Thrift.ColumnIndex) (data : List Byte) (t : PrimitiveType) :
    Res Index :=
  match (codec.parse (data.length * 2 + 1024) data).1 with
  | .ok index => indexOfThrift index t
  | .err e => .err e
  | .panic => .panic

/-- `src/read/indexes/read.rs:13-48` `prepare_read`. -/
def prepareRead (getOffset : Thrift.ColumnChunk → Option I64)
    (getLength : Thrift.ColumnChunk → Option I32) (chunks : List ColumnChunkMetaData) :
    Res (Nat × List Nat) :=
  match chunks with
  | [] => .ok (0, [])
  | first :: _ =>
    match getOffset first.columnChunk with
    | none => .ok (0, [])
    | some offset => do
      let offset ← toUsize offset
      let lengths ← collectRes (chunks.map fun x => do
        let length ← Res.ofOption .oos (getLength x.columnChunk)
        toUsize length)
      .ok (offset, lengths)

/-- `src/read/indexes/read.rs:50-52` `prepare_column_index_read`. -/
def prepareColumnIndexRead (chunks : List ColumnChunkMetaData) : Res (Nat × List Nat) :=
  prepareRead (·.columnIndexOffset) (·.columnIndexLength) chunks

/-- `src/read/indexes/read.rs:54-56` `prepare_offset_index_read`. -/
def prepareOffsetIndexRead (chunks : List ColumnChunkMetaData) : Res (Nat × List Nat) :=
  prepareRead (·.offsetIndexOffset) (·.offsetIndexLength) chunks

/-- `src/read/indexes/read.rs:58-78` `deserialize_column_indexes`, from the position `start` on. -/
def deserializeColumnIndexes (codec : Codec Thrift.ColumnIndex) (data : List Byte) :
    Nat → List ColumnChunkMetaData → List Nat → Res (List Index)
  | _, [], _ => .ok []
  | _, _ :: _, [] => .ok []
  | start, chunk :: chunks, length :: lengths => do
    let r ← slice data start (start + length)
    let index ← deserializeIndex codec r chunk.columnDescr.descriptor.primitiveType
    let rest ← deserializeColumnIndexes codec data (start + length) chunks lengths
    .ok (index :: rest)

/-- `src/read/indexes/read.rs:82-97` `read_columns_indexes`. -/
def readColumnsIndexes (codec : Codec Thrift.ColumnIndex) (ck : Bool) (file : List Byte)
    (chunks : List ColumnChunkMetaData) : Res (List Index) := do
  let (offset, lengths) ← prepareColumnIndexRead chunks
  let length ← sumUsize ck 0 lengths
  deserializeColumnIndexes codec ((file.drop offset).take length) 0 chunks lengths

/-- `src/read/indexes/read.rs:106-112`: the loop of `deserialize_page_locations`. -/
def pageLocationsLoop (codec : Codec Thrift.OffsetIndex) (len : Nat) :
    Nat → List Byte → Res (List (List Thrift.PageLocation))
  | 0, _ => .ok []
  | n + 1, reader =>
    match codec.parse len reader with
    | (.ok offset, reader) =>
      (pageLocationsLoop codec len n reader).map' fun rest => offset.pageLocations :: rest
    | (.err e, _) => .err e
    | (.panic, _) => .panic

/-- `src/read/indexes/read.rs:99-113` `deserialize_page_locations`. -/
def deserializePageLocations (codec : Codec Thrift.OffsetIndex) (data : List Byte)
    (columnNumber : Nat) : Res (List (List Thrift.PageLocation)) :=
  pageLocationsLoop codec (data.length * 2 + 1024) columnNumber data

/-- `src/read/indexes/read.rs:117-132` `read_pages_locations`. -/
def readPagesLocations (codec : Codec Thrift.OffsetIndex) (ck : Bool) (file : List Byte)
    (chunks : List ColumnChunkMetaData) : Res (List (List Thrift.PageLocation)) := do
  let (offset, lengths) ← prepareOffsetIndexRead chunks
  let length ← sumUsize ck 0 lengths
  deserializePageLocations codec ((file.drop offset).take length) chunks.length

/-- `src/read/page/indexed_reader.rs:96-104` `IndexedPageReader::new`; the conversion of the metadata can
panic. -/
def IndexedReader.ofColumn (file : List Byte) (column : ColumnChunkMetaData) (pages : List FilteredPage) :
    Res IndexedReader :=
  column.pageMetaData.map' fun column => IndexedReader.new file column pages

end Pq
