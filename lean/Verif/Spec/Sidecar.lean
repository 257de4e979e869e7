import Verif.Model.Sidecar
import Verif.Spec.WholeFile
/-
What the metadata of several files in a file of its own tell.
-/
namespace Pq.Spec

/-- The column chunk is that of `own` (as its own file tells it), said to be in the file `path`. -/
structure ChunkIn (path : String) (own chunk : ColumnChunkMetaData) : Prop where
  path : chunk.filePath = some path
  descriptor : chunk.columnDescr = own.columnDescr
  metadata : chunk.metadata = own.metadata
  offset : chunk.fileOffset = own.fileOffset
  columnIndex : chunk.columnChunk.columnIndexOffset = own.columnChunk.columnIndexOffset ∧
    chunk.columnChunk.columnIndexLength = own.columnChunk.columnIndexLength
  offsetIndex : chunk.columnChunk.offsetIndexOffset = own.columnChunk.offsetIndexOffset ∧
    chunk.columnChunk.offsetIndexLength = own.columnChunk.offsetIndexLength
  pages : ∀ file filter scratch max,
    getPageIterator chunk file filter scratch max = getPageIterator own file filter scratch max
  bytes : ∀ file, readColumn file chunk = readColumn file own

/-- The row group is `own`, said to be in the file `path`. -/
structure GroupOf (path : String) (own group : RowGroupMetaData) : Prop where
  rows : group.numRows = own.numRows
  size : group.totalByteSize = own.totalByteSize
  columns : List.Forall₂ (ChunkIn path) own.columns group.columns

/-- A file written with a writer: its path, the writer after `end`, and the row groups. -/
structure Part where
  path : String
  writer : FileWriter
  groups : List (List (List CompressedPage))

/-- The part was written with this schema, and its pages can be read back (as in C59). -/
structure PartWritten (cs : ThriftCodecs) (ck : Bool) (schema : SchemaDescriptor) (p : Part) : Prop where
  ended : ∃ options createdBy kv n w0 w, Fresh schema options createdBy w0 ∧ Wrote cs ck w0 p.groups w ∧
    w.end_ cs ck kv = (.ok n, p.writer)
  fits : ∀ g ∈ p.groups, GroupFits cs (schema.leaves.zip g)
  length : p.writer.out.length < 2 ^ 63
  columns : ∀ g ∈ p.groups, schema.leaves.length ≤ g.length
  readable : ∀ g ∈ p.groups, ∀ c ∈ schema.leaves.zip g, Readable c
  rows : ∀ g ∈ p.groups, GroupRowsKnown (schema.leaves.zip g)
  total : (p.groups.map fun g => groupRows (schema.leaves.zip g)).sum < 2 ^ 63

/-- The last one first. -/
def lastFirst {α : Type} (xs : List α) : List α := xs.getLast?.toList ++ xs.dropLast

end Pq.Spec
