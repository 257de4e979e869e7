import Verif.Lemmas.Reserialise
import Verif.Props.WholeFile
/-
Property theorems about writing metadata that was read: C61.
-/
namespace Pq.Props

open Spec

instance (elements : List Thrift.SchemaElement) : Decidable (NoNegativeChildren elements) :=
  if h : ∀ e ∈ elements, (e.numChildren.all fun n => decide (0 ≤ n.toInt)) = true then
    .isTrue fun e he n hn => by simpa [hn] using h e he
  else .isFalse fun h' => h fun e he => by
    cases hn : e.numChildren with
    | none => rfl
    | some n => simpa using h' e he n hn

/-- Metadata with a row group, sorting columns, an ordinal and column orders. -/
def annotatedMetadata : Thrift.FileMetaData :=
  { version := 2#32, schema := writerSchema.intoThrift, numRows := 3#64
    rowGroups := [{ columns := [chunk, chunk], totalByteSize := 100#64, numRows := 3#64
                    sortingColumns := some [{ columnIdx := 0#32, descending := true, nullsFirst := false }]
                    ordinal := some 7#16 }]
    createdBy := some "me", columnOrders := some [(), ()] }
where
  chunk : Thrift.ColumnChunk :=
    { fileOffset := 4#64
      metaData := some { type := 1#32, encodings := [0#32], pathInSchema := ["a"], codec := 0#32
                         numValues := 3#64, totalUncompressedSize := 60#64
                         totalCompressedSize := 50#64, dataPageOffset := 4#64 } }

/-- It meets the hypotheses. -/
theorem annotatedMetadata_ok : (FileMetaData.tryFromThrift annotatedMetadata).isOk = true ∧
    NoNegativeChildren annotatedMetadata.schema ∧
    (∀ rg ∈ annotatedMetadata.rowGroups, (rg.columns.map chunkSize).sum < 2 ^ 64) := by
  decide +kernel

/-- **C61** if no number of children is negative, no group that is read is empty. -/
theorem C61_no_empty_groups (md : Thrift.FileMetaData) (fm : FileMetaData)
    (h : FileMetaData.tryFromThrift md = .ok fm) (hneg : NoNegativeChildren md.schema) :
    fm.schemaDescr.fields ≠ [] ∧ NoEmptyGroups fm.schemaDescr.fields := by
  rw [FileMetaData.tryFromThrift] at h
  split at h
  · cases h
  · cases h
  rename_i s hs
  obtain ⟨gs, -, h⟩ := Res.bind_eq_ok.1 h
  obtain ⟨n, -, h⟩ := Res.bind_eq_ok.1 h
  injection h with h
  subst h
  exact schema_nonempty hneg hs

example : (FileMetaData.tryFromThrift annotatedMetadata).isOk = true ∧
    NoNegativeChildren annotatedMetadata.schema := by
  decide +kernel

/-- **C61 (partial)** for all metadata that can be read, provided no group of the schema is empty and
(with overflow checks) the sizes of the column chunks of a row group add up to less than 2^64:
converting it back to thrift succeeds, keeps everything in `Spec.SameFile`, and reading the result
gives the same metadata, except that the column orders are gone. Missing: column orders, sorting
columns and ordinals of row groups, which are dropped (`C61_violated`), and empty groups, which cannot
be read again (they are read only if their number of children is negative: `C61_no_empty_groups`,
`C61_negative_children`). -/
theorem C61_reread_partial (ck : Bool) (md : Thrift.FileMetaData) (fm : FileMetaData)
    (h : FileMetaData.tryFromThrift md = .ok fm) (h0 : fm.schemaDescr.fields ≠ [])
    (hempty : NoEmptyGroups fm.schemaDescr.fields)
    (hsize : ck = true → ∀ rg ∈ md.rowGroups, (rg.columns.map chunkSize).sum < 2 ^ 64) :
    ∃ md', fm.intoThrift ck = .ok md' ∧ SameFile md md' ∧
      FileMetaData.tryFromThrift md' = .ok { fm with columnOrders := none } := by
  have hg := rowGroups_ofThrift h
  rw [FileMetaData.tryFromThrift] at h
  split at h
  · cases h
  · cases h
  rename_i s hs
  obtain ⟨gs, hgs, h⟩ := Res.bind_eq_ok.1 h
  obtain ⟨n, hn, h⟩ := Res.bind_eq_ok.1 h
  injection h with h
  subst h
  simp only at hg
  have hr : ∃ rgs, collectRes (gs.map (RowGroupMetaData.intoThrift ck)) = .ok rgs ∧
      List.Forall₂ SameGroup md.rowGroups rgs ∧
      collectRes (rgs.map (RowGroupMetaData.tryFromThrift s)) = .ok gs := by
    simp only [collectRes_ok_iff]
    clear * - hg hsize
    generalize md.rowGroups = rgs at *
    induction hg with
    | nil => exact ⟨[], rfl, .nil, rfl⟩
    | @cons rg gm rgs gms h1 h2 ih =>
      obtain ⟨rgs', i1, i2, i3⟩ := ih fun hc rg hm => hsize hc rg (List.mem_cons_of_mem _ hm)
      obtain ⟨rg', j1, j2⟩ := rowGroup_intoThrift (ck := ck) h1 fun hc => hsize hc rg (by simp)
      exact ⟨rg' :: rgs', by simp [i1, j1], .cons j2 i2, by simp [i3, rowGroup_same j2, h1]⟩
  obtain ⟨rgs, r1, r2, r3⟩ := hr
  obtain ⟨g0, g1, g2, g3⟩ := schema_good hs h0 hempty
  refine ⟨{ version := md.version, schema := s.intoThrift
            numRows := asI64 n, rowGroups := rgs, keyValueMetadata := md.keyValueMetadata
            createdBy := md.createdBy }, ?_, ⟨rfl, asI64_inv hn, r2, rfl, rfl⟩, ?_⟩
  · simp only [FileMetaData.intoThrift, r1, Res.ok_bind]
  · have hrt := C49_descriptor_roundtrip_partial s.name s.fields g1 g2 g3
    rw [← g0] at hrt
    rw [FileMetaData.tryFromThrift]
    simp only [hrt, r3, Res.ok_bind, asI64_inv hn, hn]
    rfl

example : ∃ fm, FileMetaData.tryFromThrift annotatedMetadata = .ok fm ∧ fm.schemaDescr.fields ≠ [] ∧
    NoEmptyGroups fm.schemaDescr.fields := by
  have h := annotatedMetadata_ok
  cases hr : FileMetaData.tryFromThrift annotatedMetadata with
  | ok fm => exact ⟨fm, rfl, C61_no_empty_groups _ fm hr h.2.1⟩
  | err e => rw [hr] at h; cases h.1
  | panic => rw [hr] at h; cases h.1

/-- **C49** every schema that can be read, if no number of children is negative, can be written and read
again: nothing that the constructors of schemas would refuse is ever read. -/
theorem C49_reread (elements : List Thrift.SchemaElement) (s : SchemaDescriptor)
    (h : SchemaDescriptor.tryFromThrift elements = .ok s) (hneg : NoNegativeChildren elements) :
    SchemaDescriptor.tryFromThrift s.intoThrift = .ok s := by
  obtain ⟨h1, h2⟩ := schema_nonempty hneg h
  obtain ⟨g0, g1, g2, g3⟩ := schema_good h h1 h2
  have := C49_descriptor_roundtrip_partial s.name s.fields g1 g2 g3
  rwa [← g0] at this

example : (SchemaDescriptor.tryFromThrift annotatedMetadata.schema).isOk = true ∧
    NoNegativeChildren annotatedMetadata.schema := by
  decide +kernel

/-- **C61 (partial)** the same at the level of files, with the compact protocol: the metadata of any
file that can be read can be written at the end of another file, and reading that gives the same
metadata. -/
theorem C61_file_partial (file body : List Byte) (fm : FileMetaData)
    (h : readMetadata fileCodec file = .ok fm) (hbody : 4 ≤ body.length)
    (h0 : fm.schemaDescr.fields ≠ []) (hempty : NoEmptyGroups fm.schemaDescr.fields) :
    ∃ md', fm.intoThrift false = .ok md' ∧ ((fileCodec.ser md').length < 2 ^ 31 →
      readMetadata fileCodec (body ++ fileCodec.ser md' ++ tail8 (fileCodec.ser md')) =
        .ok { fm with columnOrders := none }) := by
  obtain ⟨s, m, h1, h2, h3⟩ := (C39_reads fileCodec file fm).1 h
  obtain ⟨md', h4, -, h5⟩ := C61_reread_partial false m fm h3 h0 hempty (by simp)
  exact ⟨md', h4, fun hl => by rw [C38_framing_compact body md' hbody hl, h5]⟩

/-- The number of rows and the column orders. -/
def summary (fm : FileMetaData) : Nat × Option (List ColumnOrder) := (fm.numRows, fm.columnOrders)

/-- A file with this metadata meets the hypotheses of `C61_file_partial`. -/
example : ∃ file fm, readMetadata fileCodec file = .ok fm ∧ fm.schemaDescr.fields ≠ [] ∧
    NoEmptyGroups fm.schemaDescr.fields := by
  have h := annotatedMetadata_ok
  cases hr : FileMetaData.tryFromThrift annotatedMetadata with
  | ok fm =>
    exact ⟨par1 ++ fileCodec.ser annotatedMetadata ++ tail8 (fileCodec.ser annotatedMetadata), fm,
      (C38_framing_compact _ _ (by decide) (by decide +kernel)).trans hr,
      C61_no_empty_groups _ fm hr h.2.1⟩
  | err e => rw [hr] at h; cases h.1
  | panic => rw [hr] at h; cases h.1

/-- The metadata, read, converted back to thrift. -/
def rewritten (ck : Bool) (md : Thrift.FileMetaData) : Res Thrift.FileMetaData :=
  (FileMetaData.tryFromThrift md).bind (FileMetaData.intoThrift ck)

/-- **C61 is violated** by column orders, sorting columns and ordinals: after reading and writing the
metadata again they are gone. -/
theorem C61_violated :
    (rewritten false annotatedMetadata).map' (fun md =>
        (md.columnOrders.isSome, md.rowGroups.map fun rg => (rg.sortingColumns.isSome, rg.ordinal.isSome))) =
      .ok (false, [(false, false)]) ∧
    (FileMetaData.tryFromThrift annotatedMetadata).map' summary =
      .ok (3, some [.typeDefinedOrder .signed, .typeDefinedOrder .signed]) ∧
    ((rewritten false annotatedMetadata).bind FileMetaData.tryFromThrift).map' summary = .ok (3, none) := by
  decide +kernel

/-- A schema in which a group has a negative number of children. -/
def negativeChildren : Thrift.FileMetaData :=
  { version := 2#32, numRows := 0#64, rowGroups := []
    schema := [{ name := "s", numChildren := some 1#32 },
               { name := "g", numChildren := some (BitVec.ofInt 32 (-1)), repetitionType := some 0#32 }] }

/-- **C61 is violated** by groups with a negative number of children: they are read as groups without
fields, and the metadata written from them cannot be read. -/
theorem C61_negative_children :
    (FileMetaData.tryFromThrift negativeChildren).isOk = true ∧
    ((rewritten false negativeChildren).bind FileMetaData.tryFromThrift).isOos = true := by
  decide +kernel

/-- Metadata whose column chunks have, together, 2^64 bytes or more. -/
def hugeChunks : Thrift.FileMetaData :=
  { version := 2#32, numRows := 0#64, schema := indexedSchema.intoThrift
    rowGroups := [{ columns := [chunk, chunk, chunk], totalByteSize := 0#64, numRows := 0#64 }] }
where
  indexedSchema : SchemaDescriptor := SchemaDescriptor.new "s"
    [.primitive (writerType "a"), .primitive (writerType "b"), .primitive (writerType "c")]
  chunk : Thrift.ColumnChunk :=
    { fileOffset := 4#64
      metaData := some { type := 1#32, encodings := [0#32], pathInSchema := ["a"], codec := 0#32
                         numValues := 3#64, totalUncompressedSize := 60#64
                         totalCompressedSize := 9223372036854775807#64, dataPageOffset := 4#64 } }

/-- **C61 is violated** by such metadata: with overflow checks, converting it panics. -/
theorem C61_huge_panics :
    (FileMetaData.tryFromThrift hugeChunks).isOk = true ∧ rewritten true hugeChunks = .panic := by
  decide +kernel

end Pq.Props
