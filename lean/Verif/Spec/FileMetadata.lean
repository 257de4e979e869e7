import Verif.Model.FileMetadata
import Verif.Spec.Schema
/-
Model-independent description of a Parquet file's framing (parquet-format README: "4-byte magic
number PAR1, ..., file metadata, 4-byte length in bytes of file metadata (little endian), 4-byte
magic number PAR1") and of what file metadata says.
-/
namespace Pq.Spec

/-- `PAR1`. -/
def par1 : List Byte := [80#8, 65#8, 82#8, 49#8]

/-- Four bytes, little endian. -/
def le32 (n : Nat) : List Byte :=
  [BitVec.ofNat 8 n, BitVec.ofNat 8 (n / 256), BitVec.ofNat 8 (n / 65536),
    BitVec.ofNat 8 (n / 16777216)]

/-- What follows the metadata. -/
def tail8 (metadata : List Byte) : List Byte := le32 metadata.length ++ par1

/-- The file ends with this metadata, its length and the magic bytes, and has room for the magic bytes
at its start. -/
def Framed (file metadata : List Byte) : Prop :=
  (∃ body, file = body ++ metadata ++ tail8 metadata) ∧ metadata.length < 2 ^ 31 ∧ 12 ≤ file.length

/-- `advance`, called again and again, delivers exactly the items `xs` and then finishes. After each
call the item can be looked at (`item`), and the caller may do with the current item whatever `touch`
allows before the next call. -/
inductive Advances {σ α : Type} (advance : σ → Res (Advanced σ)) (item : σ → α → Prop)
    (touch : σ → σ → Prop) : σ → List α → Prop where
  | done {s : σ} {scratch : List Byte} : advance s = .ok (.finished scratch) →
      Advances advance item touch s []
  | item {s s' : σ} {x : α} {xs : List α} : advance s = .ok (.some s') → item s' x →
      (∀ t, touch s' t → Advances advance item touch t xs) → Advances advance item touch s (x :: xs)

/-- A column chunk whose metadata can be used: present, and of a known codec. -/
def UsableChunk (c : Thrift.ColumnChunk) : Prop :=
  ∃ m, c.metaData = some m ∧ m.codec.toNat ∈ compressionTable.map (·.2)

/-- The name of the field of the schema a column belongs to. -/
def fieldOf (c : ColumnChunkMetaData) : Option String := c.columnDescr.pathInSchema.head?

/-- The orders of the columns according to `parquet.thrift` (`ColumnOrder`): signed. -/
def signedConverted : PrimitiveConvertedType → Bool
  | .int8 | .int16 | .int32 | .int64 | .decimal _ _ | .date | .timeMillis | .timeMicros
  | .timestampMillis | .timestampMicros => true
  | _ => false

/-- `parquet.thrift`: the order of these is undefined. -/
def unorderedConverted : PrimitiveConvertedType → Bool
  | .interval => true
  | _ => false

/-- `parquet.thrift` (`ColumnOrder`): the logical types with signed order. -/
def signedLogical : PrimitiveLogicalType → Bool
  | .integer .int8 | .integer .int16 | .integer .int32 | .integer .int64 => true
  | .decimal _ _ | .date | .time _ _ | .timestamp _ _ => true
  | _ => false

/-- `parquet.thrift`: the physical types with signed order. -/
def signedPhysical : PhysicalType → Bool
  | .int32 | .int64 | .float | .double => true
  | _ => false

/-- The order of a type: that of the logical type if there is one, else that of the converted type, if
there is one, else that of the physical type. -/
def orderOf (t : PrimitiveType) : SortOrder :=
  match t.logicalType, t.convertedType with
  | some l, _ => if l = .unknown then .undefined else if signedLogical l then .signed else .unsigned
  | none, some c =>
    if unorderedConverted c then .undefined else if signedConverted c then .signed else .unsigned
  | none, none =>
    if t.physicalType = .int96 then .undefined
    else if signedPhysical t.physicalType then .signed else .unsigned

end Pq.Spec
