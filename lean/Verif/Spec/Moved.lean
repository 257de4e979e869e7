import Verif.Model.Writer
import Verif.Model.FileMetadata
/-
Model-independent description of column chunks written one after the other: what is written of a column chunk at the
start of a file, and the same anywhere else, which differs in the offsets only.
-/
namespace Pq.Spec

/-- A column chunk as it is written at offset 0: the bytes of its pages, its metadata, and its pages. -/
structure ChunkPart where
  data : List Byte
  metaData : Thrift.ColumnMetaData
  fileOffset : BitVec 64
  pages : List PageWriteSpec

/-- The metadata if the chunk is written at `offset`; a chunk without pages is always said to be at 0. -/
def ChunkPart.metaAt (p : ChunkPart) (offset : Nat) : Thrift.ColumnMetaData :=
  if p.pages = [] then p.metaData
  else { p.metaData with dataPageOffset := p.metaData.dataPageOffset + BitVec.ofNat 64 offset }

/-- The chunk if it is written at `offset`. -/
def ChunkPart.chunkAt (p : ChunkPart) (offset : Nat) : Thrift.ColumnChunk :=
  { fileOffset := if p.pages = [] then p.fileOffset else p.fileOffset + BitVec.ofNat 64 offset
    metaData := some (p.metaAt offset) }

/-- Its pages if it is written at `offset`. -/
def ChunkPart.pagesAt (p : ChunkPart) (offset : Nat) : List PageWriteSpec :=
  p.pages.map fun s => { s with offset := s.offset + offset }

/-- The chunks, each with its pages, and the bytes, if they are written one after the other from `offset` on: the data
of each, followed by its metadata. -/
def layout (ser : Thrift.ColumnMetaData → List Byte) :
    Nat → List ChunkPart → List (Thrift.ColumnChunk × List PageWriteSpec) × List Byte
  | _, [] => ([], [])
  | offset, p :: ps =>
    let bytes := p.data ++ ser (p.metaAt offset)
    let rest := layout ser (offset + bytes.length) ps
    ((p.chunkAt offset, p.pagesAt offset) :: rest.1, bytes ++ rest.2)

/-- The metadata of a column chunk of which a copy is at `offset`. -/
def placedAt (offset : Nat) (c : ColumnChunkMetaData) : ColumnChunkMetaData :=
  { c with columnChunk := { c.columnChunk with metaData := c.columnChunk.metaData.map fun m =>
      { m with dataPageOffset := BitVec.ofNat 64 offset, dictionaryPageOffset := none } } }

end Pq.Spec
