import Mathlib.Data.List.Forall2
import Verif.Model.Indexes
import Verif.Spec.PageIO
import Verif.Spec.ArbitraryFile
/-
What is said about reading page indexes of arbitrary bytes.
-/
namespace Pq.Spec

/-- Where the metadata of the columns says the column indexes are: the first offset, and the length of
each. -/
def Announced (chunks : List ColumnChunkMetaData) (offset : Nat) (lengths : List Nat) : Prop :=
  (∃ first o, chunks.head? = some first ∧ first.columnChunk.columnIndexOffset = some o ∧ o.toInt = (offset : Int)) ∧
  List.Forall₂ (fun c (n : Nat) => ∃ l, c.columnChunk.columnIndexLength = some l ∧ l.toInt = (n : Int)) chunks lengths

/-- A page that is not marked as a page of nulls has an empty bound. -/
def EmptyBound (i : Thrift.ColumnIndex) : Prop :=
  ∃ (k : Nat) (mn mx : List Byte), i.nullPages[k]? = some false ∧ i.minValues[k]? = some mn ∧
    i.maxValues[k]? = some mx ∧ (∀ counts, i.nullCounts = some counts → k < counts.length) ∧
    (mn = [] ∨ mx = [])

/-- The bytes are an index with an empty bound, of a boolean column. -/
def EmptyBooleanBound (codec : Codec Thrift.ColumnIndex) (bytes : List Byte) (t : PrimitiveType) : Prop :=
  t.physicalType = .boolean ∧
    ∃ i, (codec.parse (bytes.length * 2 + 1024) bytes).1 = .ok i ∧ EmptyBound i

end Pq.Spec
