import Mathlib.Data.List.Forall2
import Verif.Model.FileMetadata
/-
Model-independent description of what remains of metadata that is read and written again.
-/
namespace Pq.Spec

/-- No element of the schema has a negative number of children. -/
def NoNegativeChildren (elements : List Thrift.SchemaElement) : Prop :=
  ∀ e ∈ elements, ∀ n, e.numChildren = some n → 0 ≤ n.toInt

mutual
/-- Every group has a field. -/
def NoEmptyGroup : ParquetType → Prop
  | .primitive _ => True
  | .group _ _ _ fields => fields ≠ [] ∧ NoEmptyGroups fields
/-- Every group in the trees has a field. -/
def NoEmptyGroups : List ParquetType → Prop
  | [] => True
  | f :: fs => NoEmptyGroup f ∧ NoEmptyGroups fs
end

/-- The size of a column chunk according to its metadata. -/
def chunkSize (c : Thrift.ColumnChunk) : Nat :=
  ((c.metaData.map fun m : Thrift.ColumnMetaData => m.totalCompressedSize.toInt).getD 0).toNat

/-- Where a column chunk starts according to its metadata: at its dictionary page, if it has one. -/
def chunkStart (c : Thrift.ColumnChunk) : Option I64 :=
  c.metaData.map fun m => match m.dictionaryPageOffset with
    | some x => if 0 < x.toInt then x else m.dataPageOffset
    | none => m.dataPageOffset

/-- What remains of a row group: everything about the columns, the size and the number of rows. The
compressed size is that of the columns, and the file offset is where the first column starts. (Sorting
columns and the ordinal are lost.) -/
structure SameGroup (rg rg' : Thrift.RowGroup) : Prop where
  columns : rg'.columns = rg.columns
  bytes : rg'.totalByteSize = rg.totalByteSize
  rows : rg'.numRows = rg.numRows
  compressed : (rg.columns.map chunkSize).sum < 2 ^ 64 →
    rg'.totalCompressedSize = some (BitVec.ofNat 64 (rg.columns.map chunkSize).sum)
  offset : rg'.fileOffset = rg.columns.head?.bind chunkStart
  lost : rg'.sortingColumns = none ∧ rg'.ordinal = none

/-- What remains of the metadata of a file besides the schema. -/
structure SameFile (md md' : Thrift.FileMetaData) : Prop where
  version : md'.version = md.version
  rows : md'.numRows = md.numRows
  rowGroups : List.Forall₂ SameGroup md.rowGroups md'.rowGroups
  keyValueMetadata : md'.keyValueMetadata = md.keyValueMetadata
  createdBy : md'.createdBy = md.createdBy

end Pq.Spec
