import Verif.Spec.Indexes
/-
Model-independent description of copying a file page by page.
-/
namespace Pq.Spec

/-- `q` is as good as `p` for writing: the same kind of page with the same header, bytes, sizes, codec and type, which
tells the same number of rows (that of the last of its intervals, if it has any). Whether a dictionary is said to be
sorted is not written. -/
def CopyOf : CompressedPage → CompressedPage → Prop
  | .data p, .data q => { q with selectedRows := p.selectedRows } = p ∧
      p.selectedRows.map (fun rows => rows.getLast?.map (·.length)) =
        q.selectedRows.map (fun rows => rows.getLast?.map (·.length))
  | .dict p, .dict q => { q with isSorted := p.isSorted } = p
  | _, _ => False

/-- All pages of a column chunk, as the indexed reader delivers them if all of its `rows` rows are selected. -/
def ReadsAll (codec : Codec Thrift.PageHeader) (file : List Byte) (rows : Nat) (chunk : ColumnChunkMetaData)
    (locations : List Thrift.PageLocation) (pages : List CompressedPage) : Prop :=
  ∀ ck, ∃ filtered reader last, selectPages ck [⟨0, rows⟩] locations rows = .ok filtered ∧
    IndexedReader.ofColumn file chunk filtered = .ok reader ∧
    Pulls (IndexedReader.next codec ck) reader (pages.map .ok) last

end Pq.Spec
