import Verif.Spec.Sidecar
import Verif.Lemmas.WholeFile
/-
Lemmas about the metadata of several files in a file of its own.
-/
namespace Pq
open Spec

/-- What reading makes of the path. -/
def ColumnChunkMetaData.withPath (path : String) (c : ColumnChunkMetaData) : ColumnChunkMetaData :=
  { c with columnChunk := { c.columnChunk with filePath := some path } }

def RowGroupMetaData.withPath (path : String) (g : RowGroupMetaData) : RowGroupMetaData :=
  { g with columns := g.columns.map (·.withPath path) }

theorem chunkIn_withPath (path : String) (c : ColumnChunkMetaData) : ChunkIn path c (c.withPath path) :=
  ⟨rfl, rfl, rfl, rfl, ⟨rfl, rfl⟩, ⟨rfl, rfl⟩, fun _ _ _ _ => rfl, fun _ => rfl⟩

theorem groupOf_withPath (path : String) (g : RowGroupMetaData) : GroupOf path g (g.withPath path) := by
  refine ⟨rfl, rfl, ?_⟩
  rw [RowGroupMetaData.withPath, List.forall₂_map_right_iff]
  exact List.forall₂_same.2 fun c _ => chunkIn_withPath path c

theorem chunk_withPath {d : ColumnDescriptor} {c : Thrift.ColumnChunk} {cm : ColumnChunkMetaData}
    (path : String) (h : ColumnChunkMetaData.tryFromThrift d c = .ok cm) :
    ColumnChunkMetaData.tryFromThrift d { c with filePath := some path } = .ok (cm.withPath path) := by
  simp only [ColumnChunkMetaData.tryFromThrift, Res.bind_eq_ok] at h ⊢
  obtain ⟨m, h1, a, h2, b, h3, e, h4, f, h5, h6⟩ := h
  injection h6 with h6
  subst h6
  exact ⟨m, h1, a, h2, b, h3, e, h4, f, h5, rfl⟩

theorem chunks_withPath (path : String) : ∀ {cs : List Thrift.ColumnChunk} {ds : List ColumnDescriptor}
    {cms : List ColumnChunkMetaData},
    (cs.zip ds).map (fun x => ColumnChunkMetaData.tryFromThrift x.2 x.1) = cms.map .ok →
    ((cs.map fun c => { c with filePath := some path }).zip ds).map (fun x =>
      ColumnChunkMetaData.tryFromThrift x.2 x.1) = (cms.map (·.withPath path)).map .ok
  | [], _, cms, h => by
    cases cms with
    | nil => rfl
    | cons => simp at h
  | _ :: _, [], cms, h => by
    cases cms with
    | nil => rfl
    | cons => simp at h
  | c :: cs, d :: ds, cms, h => by
    cases cms with
    | nil => simp at h
    | cons cm cms =>
      simp only [List.zip_cons_cons, List.map_cons, List.cons.injEq] at h ⊢
      exact ⟨chunk_withPath path h.1, chunks_withPath path h.2⟩

theorem group_withPath {schema : SchemaDescriptor} {rg : Thrift.RowGroup} {gm : RowGroupMetaData}
    (path : String) (h : RowGroupMetaData.tryFromThrift schema rg = .ok gm) :
    RowGroupMetaData.tryFromThrift schema
      { rg with columns := rg.columns.map fun c => { c with filePath := some path } } =
      .ok (gm.withPath path) := by
  unfold RowGroupMetaData.tryFromThrift at h ⊢
  split at h
  · cases h
  · rename_i hl
    rw [if_neg (by simpa using hl)]
    simp only [Res.bind_eq_ok] at h ⊢
    obtain ⟨a, h1, b, h2, cols, h3, h4⟩ := h
    injection h4 with h4
    subst h4
    exact ⟨a, h1, b, h2, _, (collectRes_ok_iff _ _).2
      (chunks_withPath path ((collectRes_ok_iff _ _).1 h3)), rfl⟩

theorem groups_withPath {schema : SchemaDescriptor} (path : String) : ∀ {rgs : List Thrift.RowGroup}
    {gms : List RowGroupMetaData},
    rgs.map (RowGroupMetaData.tryFromThrift schema) = gms.map .ok →
    (rgs.map fun rg => { rg with columns := rg.columns.map fun c => { c with filePath := some path } }).map
      (RowGroupMetaData.tryFromThrift schema) = (gms.map (·.withPath path)).map .ok
  | [], gms, h => by
    cases gms with
    | nil => rfl
    | cons => simp at h
  | rg :: rgs, gms, h => by
    cases gms with
    | nil => simp at h
    | cons gm gms =>
      simp only [List.map_cons, List.cons.injEq] at h ⊢
      exact ⟨group_withPath path h.1, groups_withPath path h.2⟩

theorem merge_foldl (ms : List Thrift.FileMetaData) (first : Thrift.FileMetaData) :
    ms.foldl (fun acc m => { acc with rowGroups := acc.rowGroups ++ m.rowGroups }) first =
      { first with rowGroups := first.rowGroups ++ ms.flatMap (·.rowGroups) } := by
  induction ms generalizing first with
  | nil => simp
  | cons m ms ih => simp [ih]

/-- The row groups of the parts, read with the schema. -/
theorem groups_merged {schema : SchemaDescriptor}
    {parts : List (String × Thrift.FileMetaData × FileMetaData)}
    (h : ∀ x ∈ parts, FileMetaData.tryFromThrift x.2.1 = .ok x.2.2 ∧ x.2.2.schemaDescr = schema) :
    (parts.flatMap fun x => (withFilePath x.1 x.2.1).rowGroups).map (RowGroupMetaData.tryFromThrift schema) =
      (parts.flatMap fun x => x.2.2.rowGroups.map (·.withPath x.1)).map .ok := by
  induction parts with
  | nil => rfl
  | cons x parts ih =>
    obtain ⟨h1, h2⟩ := h x (by simp)
    rw [List.flatMap_cons, List.flatMap_cons, List.map_append, List.map_append,
      ih fun y hy => h y (List.mem_cons_of_mem _ hy)]
    congr 1
    unfold FileMetaData.tryFromThrift at h1
    split at h1
    · cases h1
    · cases h1
    · simp only [Res.bind_eq_ok] at h1
      obtain ⟨rgs, h3, n, -, h4⟩ := h1
      injection h4 with h4
      rw [← h4] at h2 ⊢
      simp only at h2
      subst h2
      exact groups_withPath x.1 ((collectRes_ok_iff _ _).1 h3)

end Pq
