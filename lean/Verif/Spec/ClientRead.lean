import Verif.Model.ClientRead
import Verif.Spec.Client
/-
Vocabulary for C94: what a field of a file is.
-/
namespace Pq.Spec
open Pq.Client (Array FieldArray PageArray Dict)

/-- Of things that are there once per column: those of the columns of the field with this name. -/
def ofField {α : Type} (leaves : List ColumnDescriptor) (xs : List α) (name : String) : List α :=
  ((leaves.zip xs).filter fun x => x.1.pathInSchema.head? == some name).map (·.2)

/-- What a field of these columns, each a list of pages, is read as: a primitive field is an array (the last page), a
structure the arrays of all its columns in the order of the schema, and which of its items are there, as far as
its first column tells. -/
def FieldIs (field : ParquetType) (columns : List (List Array)) : FieldArray → Prop
  | .page a => (∃ p, field = .primitive p) ∧ ∃ x, columns.flatten.getLast? = some x ∧ a = .flat x
  | .struct arrays validity => (∃ i l fs, field = .group i l none fs) ∧ arrays = columns.flatten.map .flat ∧
      validity = (columns.head?.getD []).flatMap arrayBits

/-- The pages of a column of this type as arrays, one after the other: a data page is read with the last dictionary
page before it in the column. -/
inductive PagesRead (ck : Bool) (t : PhysicalType) : Option Dict → List Page → List PageArray → Prop
  | nil (dict : Option Dict) : PagesRead ck t dict [] []
  | data {dict : Option Dict} {page : DataPage} {a : PageArray} {pages : List Page} {as : List PageArray} :
      Client.pageToAny ck page dict = .ok a → PagesRead ck t dict pages as →
      PagesRead ck t dict (.data page :: pages) (a :: as)
  | dict {dict : Option Dict} {page : DictPage} {d : Dict} {pages : List Page} {as : List PageArray} :
      Client.deserializeDict page t = .ok d → PagesRead ck t (some d) pages as →
      PagesRead ck t dict (.dict page :: pages) as

/-- Which items are there according to the data pages of a column. -/
inductive PagesValid : List Page → List Bool → Prop
  | nil : PagesValid [] []
  | data {page : DataPage} {here : List Bool} {pages : List Page} {rest : List Bool} :
      (∀ before, Client.extendValidity before page = .ok (before ++ here)) → PagesValid pages rest →
      PagesValid (.data page :: pages) (here ++ rest)
  | dict {page : DictPage} {pages : List Page} {rest : List Bool} :
      PagesValid pages rest → PagesValid (.dict page :: pages) rest

/-- What is made of the arrays of all the pages of the columns of a field: the last page of primitive fields and of
lists; everything of structures; other annotated groups are not supported. Without pages a primitive field is refused,
and a list aborts. -/
def fieldArray (field : ParquetType) (arrays : List PageArray) (validity : List Bool) : Res FieldArray :=
  match field, arrays.getLast? with
  | .group _ _ none _, _ => .ok (.struct arrays validity)
  | .primitive _, some a | .group _ _ (some .list) _, some a => .ok (.page a)
  | .primitive _, none => .err .oos
  | _, _ => .panic

/-- These compressed pages are made of those pages by the compressor, none of them a V2 page that says not to be
compressed if it is. -/
def PagesMade (cs : Codecs) (ck : Bool) (pages : List Page) (cps : List CompressedPage) : Prop :=
  ∃ opts, pages.map (fun p => compressPage cs ck p [] opts) = cps.map .ok ∧
    (opts ≠ .uncompressed → ∀ page ∈ pages, ∀ p hd, page = .data p → p.header = .v2 hd → hd.isCompressed ≠ some false)

/-- A column chunk of a file delivers these pages, decompressed, whatever the buffers hold. -/
def ChunkDelivers (codec : Codec Thrift.PageHeader) (cs : Codecs) (ck : Bool) (file : List Byte) (max : Nat)
    (pages : List Page) (chunk : ColumnChunkMetaData) : Prop :=
  ∀ scratch, ∃ reader, getPageIterator chunk file none scratch max = .ok reader ∧ ∀ buffers : Nat → Nat × List Byte,
    observe (fun k => BasicDecompressor.advance cs ck (PageReader.next codec ck) (buffers k)) (·.current)
      (pages.length + 1) 0 (BasicDecompressor.new reader) = pages.map (fun p => .ok (some p)) ++ [.ok none]

end Pq.Spec
