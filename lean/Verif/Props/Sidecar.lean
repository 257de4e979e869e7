import Verif.Lemmas.Sidecar
import Verif.Props.WholeFile
/-
C88: the metadata of several files in a file of its own.
-/
namespace Pq.Props
open Pq Pq.Spec

theorem mergeMetadatas_eq {ms : List Thrift.FileMetaData} {last : Thrift.FileMetaData}
    (h : ms.getLast? = some last) : mergeMetadatas ms =
      .ok { last with rowGroups := (lastFirst ms).flatMap (·.rowGroups) } := by
  rw [mergeMetadatas, h]
  simp only [merge_foldl, lastFirst, h]
  simp

theorem lastFirst_map {α β : Type} (f : α → β) (xs : List α) :
    lastFirst (xs.map f) = (lastFirst xs).map f := by
  simp only [lastFirst, List.getLast?_map, List.map_append, List.map_dropLast]
  cases xs.getLast? <;> rfl

theorem mem_lastFirst {α : Type} {xs : List α} {x : α} (h : x ∈ lastFirst xs) : x ∈ xs := by
  rcases List.mem_append.1 h with h | h
  · exact List.mem_of_getLast? (Option.mem_toList.1 h)
  · exact List.dropLast_subset _ h

/-- **C88** for any metadata that are read with the same schema: those merged as in the example are read, with
the row groups of the last file and then those of the others, in order. Each row group is as its own file
tells it, and its columns are said to be in that file. The rest is as in the metadata of the last file. -/
theorem C88_metadata (schema : SchemaDescriptor)
    (parts : List (String × Thrift.FileMetaData × FileMetaData)) (path : String) (m : Thrift.FileMetaData)
    (own : FileMetaData) (hlast : parts.getLast? = some (path, m, own))
    (h : ∀ x ∈ parts, FileMetaData.tryFromThrift x.2.1 = .ok x.2.2 ∧ x.2.2.schemaDescr = schema) :
    ∃ sidecar fm, mergeMetadatas (parts.map fun x => withFilePath x.1 x.2.1) = .ok sidecar ∧
      FileMetaData.tryFromThrift sidecar = .ok fm ∧ fm.schemaDescr = schema ∧
      fm.version = own.version ∧ fm.createdBy = own.createdBy ∧
      fm.keyValueMetadata = own.keyValueMetadata ∧ fm.columnOrders = own.columnOrders ∧
      fm.numRows = own.numRows ∧
      List.Forall₂ (fun x group => GroupOf x.1 x.2 group)
        ((lastFirst parts).flatMap fun x => x.2.2.rowGroups.map fun g => (x.1, g)) fm.rowGroups := by
  obtain ⟨h1, h2⟩ := h _ (List.mem_of_getLast? hlast)
  simp only at h1 h2
  have hg := groups_merged (parts := lastFirst parts) fun x hx => h x (mem_lastFirst hx)
  have hm := mergeMetadatas_eq (ms := parts.map fun x => withFilePath x.1 x.2.1)
    (by rw [List.getLast?_map, hlast]; rfl)
  rw [lastFirst_map, List.flatMap_map] at hm
  unfold FileMetaData.tryFromThrift at h1
  split at h1
  · cases h1
  · cases h1
  · rename_i s hs
    simp only [Res.bind_eq_ok] at h1
    obtain ⟨rgs, -, n, h3, h4⟩ := h1
    injection h4 with h4
    subst h4
    simp only at h2
    subst h2
    refine ⟨_, { version := m.version, numRows := n, createdBy := m.createdBy
                 rowGroups := (lastFirst parts).flatMap fun x => x.2.2.rowGroups.map (·.withPath x.1)
                 keyValueMetadata := m.keyValueMetadata, schemaDescr := s
                 columnOrders := m.columnOrders.map fun orders => parseColumnOrders orders s }, hm, ?_,
      rfl, rfl, rfl, rfl, rfl, rfl, ?_⟩
    · unfold FileMetaData.tryFromThrift
      simp only [withFilePath, hs]
      simp only [withFilePath] at hg
      rw [(collectRes_ok_iff _ _).2 hg]
      simp only [Res.ok_bind, h3]
    · have e : ((lastFirst parts).flatMap fun x => x.2.2.rowGroups.map (·.withPath x.1)) =
          (((lastFirst parts).flatMap fun x => x.2.2.rowGroups.map fun g => (x.1, g))).map
            fun x => x.2.withPath x.1 := by
        rw [List.map_flatMap]
        simp only [List.map_map]
        rfl
      simp only [e]
      rw [List.forall₂_map_right_iff]
      exact List.forall₂_same.2 fun x _ => groupOf_withPath x.1 x.2

/-- The metadata of the file of `Props/Writer.lean`, of two row groups, is read. -/
example : (writerEnd.2.metadata.map fun md => (FileMetaData.tryFromThrift md).map' fun fm =>
    (fm.schemaDescr.leaves.length, fm.rowGroups.length)) = some (.ok (2, 2)) := by decide +kernel

theorem forall₂_append_left {α β : Type} {R : α → β → Prop} {xs ys : List α} {zs : List β}
    (h : List.Forall₂ R (xs ++ ys) zs) :
    ∃ as bs, List.Forall₂ R xs as ∧ List.Forall₂ R ys bs ∧ zs = as ++ bs := by
  induction xs generalizing zs with
  | nil => exact ⟨[], zs, .nil, h, rfl⟩
  | cons x xs ih =>
    cases h with
    | cons h1 h2 =>
      obtain ⟨as, bs, e1, e2, rfl⟩ := ih h2
      exact ⟨_ :: as, bs, .cons h1 e1, e2, rfl⟩

/-- What C59 says of a part, with the metadata of its writer. -/
theorem part_reads {cs : ThriftCodecs} {limit : Thrift.PageHeader → Nat}
    (hl : LawfulCodec cs.page limit) (hs : SaneCodec cs.page) {ck : Bool} {name : String}
    {fields : List ParquetType} (h0 : 0 < fields.length) (h31 : fields.length < 2 ^ 31)
    (hg : GoodTrees fields) {p : Part} (h : PartWritten cs ck (SchemaDescriptor.new name fields) p) :
    ∃ md fm, p.writer.intoInnerAndMetadata = .ok (p.writer.out, md) ∧
      FileMetaData.tryFromThrift md = .ok fm ∧ fm.schemaDescr = SchemaDescriptor.new name fields ∧
      fm.numRows = (p.groups.map fun g =>
        groupRows ((SchemaDescriptor.new name fields).leaves.zip g)).sum ∧
      List.Forall₂ (fun g group => GroupReads cs limit p.writer.out
        ((SchemaDescriptor.new name fields).leaves.zip g) group) p.groups fm.rowGroups := by
  obtain ⟨options, createdBy, kv, n, w0, w, hf, hw, he⟩ := h.ended
  obtain ⟨md, w'', e, hwr, -⟩ := endWith_ok
    (finish := fun w metadata => { w with state := .finished, metadata := some metadata }) (fun _ _ => rfl) hf hw h.fits he h.length
  obtain ⟨gms, h1, h2⟩ := groups_read hl hs (List.forall₂_map_left_iff.1 hwr.rowGroups) h.columns h.readable h.rows
  have hsum := fileWritten_rows hwr h.rows h.total
  refine ⟨md, { version := md.version, numRows := _, createdBy := md.createdBy, rowGroups := gms
                keyValueMetadata := md.keyValueMetadata, schemaDescr := _, columnOrders := none },
    ?_, ?_, rfl, rfl, h2⟩
  · rw [FileWriter.intoInnerAndMetadata]
    have : p.writer.metadata = some md := by rw [e]
    rw [this]; rfl
  · rw [FileMetaData.tryFromThrift, hwr.schemaElements, C49_descriptor_roundtrip_partial name fields h0 h31 hg]
    simp only [h1, Res.ok_bind, toUsize_ok _ (show 0 ≤ md.numRows.toInt by omega), hwr.columnOrders, hsum]
    rfl

theorem collectMetadatas_map {parts : List Part} {f : Part → Thrift.FileMetaData}
    (h : ∀ p ∈ parts, p.writer.intoInnerAndMetadata = .ok (p.writer.out, f p)) :
    collectMetadatas (parts.map fun p => (p.path, p.writer)) =
      .ok (parts.map fun p => withFilePath p.path (f p)) := by
  induction parts with
  | nil => rfl
  | cons p parts ih =>
    simp only [List.map_cons, collectMetadatas, h p (by simp),
      ih fun q hq => h q (List.mem_cons_of_mem _ hq), Res.ok_bind]

/-- **C88 (partial)** files written with the same schema (as in `C59_whole_file_partial`, each with its own
options, creator and key-values): the sidecar of their metadata is written and read, and tells the schema and
all row groups, those of the last file first. For each column chunk it tells the path of its file, and the
pages written to it are read from that file with what the sidecar tells. Missing: the number of rows is not
that of all files, and the row groups are not in the order of the files (`C88_violated`). -/
theorem C88_written_partial (cs : ThriftCodecs) (limit : Thrift.PageHeader → Nat)
    (hl : LawfulCodec cs.page limit) (hs : SaneCodec cs.page) (fileLimit : Thrift.FileMetaData → Nat)
    (hfile : LawfulCodec cs.file fileLimit) (ck : Bool) (name : String) (fields : List ParquetType)
    (h0 : 0 < fields.length) (h31 : fields.length < 2 ^ 31) (hg : GoodTrees fields)
    (parts : List Part) (last : Part) (hlast : parts.getLast? = some last)
    (h : ∀ p ∈ parts, PartWritten cs ck (SchemaDescriptor.new name fields) p) :
    ∃ sidecar, (collectMetadatas (parts.map fun p => (p.path, p.writer))).bind mergeMetadatas = .ok sidecar ∧
      ((cs.file.ser sidecar).length < 2 ^ 31 →
        fileLimit sidecar ≤ 2 * (cs.file.ser sidecar).length + 1040 →
        ∃ bytes fm, writeSidecar cs ck (parts.map fun p => (p.path, p.writer)) = (.ok bytes.length, bytes) ∧
          readMetadata cs.file bytes = .ok fm ∧
          fm.schemaDescr = SchemaDescriptor.new name fields ∧
          fm.numRows = (last.groups.map fun g =>
            groupRows ((SchemaDescriptor.new name fields).leaves.zip g)).sum ∧
          List.Forall₂ (fun x group => ∃ own, GroupReads cs limit x.1.writer.out
              ((SchemaDescriptor.new name fields).leaves.zip x.2) own ∧ GroupOf x.1.path own group)
            ((lastFirst parts).flatMap fun p => p.groups.map fun g => (p, g)) fm.rowGroups) := by
  have hp : ∀ p : Part, ∃ x : Thrift.FileMetaData × FileMetaData, p ∈ parts →
      p.writer.intoInnerAndMetadata = .ok (p.writer.out, x.1) ∧
      FileMetaData.tryFromThrift x.1 = .ok x.2 ∧ x.2.schemaDescr = SchemaDescriptor.new name fields ∧
      x.2.numRows = (p.groups.map fun g =>
        groupRows ((SchemaDescriptor.new name fields).leaves.zip g)).sum ∧
      List.Forall₂ (fun g group => GroupReads cs limit p.writer.out
        ((SchemaDescriptor.new name fields).leaves.zip g) group) p.groups x.2.rowGroups := by
    intro p
    by_cases hm : p ∈ parts
    · obtain ⟨md, fm, h1⟩ := part_reads hl hs h0 h31 hg (h p hm)
      exact ⟨(md, fm), fun _ => h1⟩
    · obtain ⟨md, fm, -⟩ := part_reads hl hs h0 h31 hg (h last (List.mem_of_getLast? hlast))
      exact ⟨(md, fm), fun hc => (hm hc).elim⟩
  choose f hf using hp
  have hc := collectMetadatas_map (parts := parts) (f := fun p => (f p).1) fun p hp => (hf p hp).1
  have hlm := List.mem_of_getLast? hlast
  obtain ⟨sidecar, fm, m1, m2, m3, -, -, -, -, m4, m5⟩ := C88_metadata (SchemaDescriptor.new name fields)
    (parts.map fun p => (p.path, f p)) last.path (f last).1 (f last).2 (by rw [List.getLast?_map, hlast]; rfl)
    (by
      intro x hx
      obtain ⟨p, hp, rfl⟩ := List.mem_map.1 hx
      exact ⟨(hf p hp).2.1, (hf p hp).2.2.1⟩)
  rw [List.map_map] at m1
  have hmerge : (collectMetadatas (parts.map fun p => (p.path, p.writer))).bind mergeMetadatas = .ok sidecar := by
    rw [hc]
    exact m1
  refine ⟨sidecar, hmerge, fun hlen hlim => ?_⟩
  obtain ⟨bytes, b1, -, b2⟩ := C38_sidecar cs fileLimit hfile ck sidecar hlen hlim
  refine ⟨bytes, fm, ?_, by rw [b2, m2], m3, by rw [m4, (hf last hlm).2.2.2.1], ?_⟩
  · rw [writeSidecar, hmerge]
    exact b1
  · rw [lastFirst_map, List.flatMap_map] at m5
    clear m1 m2 m3 m4 hmerge hlen hlim b1 b2 hc
    have hsub : ∀ p ∈ lastFirst parts, p ∈ parts := fun p hp => mem_lastFirst hp
    generalize fm.rowGroups = groups at m5 ⊢
    generalize lastFirst parts = ps at m5 hsub ⊢
    induction ps generalizing groups with
    | nil => simpa using m5
    | cons p ps ih =>
      rw [List.flatMap_cons] at m5 ⊢
      obtain ⟨g1, g2, e1, e2, rfl⟩ := forall₂_append_left m5
      refine List.rel_append ?_ (ih g2 e2 fun q hq => hsub q (List.mem_cons_of_mem _ hq))
      rw [List.forall₂_map_left_iff] at e1 ⊢
      have hr := (hf p (hsub p (by simp))).2.2.2.2
      generalize (f p).2.rowGroups = owns at hr e1
      generalize p.groups = gs at hr ⊢
      clear m5 e2 ih
      induction hr generalizing g1 with
      | nil => cases e1; exact .nil
      | cons a _ ih' =>
        cases e1 with
        | cons b c => exact .cons ⟨_, a, b⟩ (ih' _ c)

/-! Example: the file of `Props/Writer.lean`, of two row groups, and a file of one row group. -/

def sidecarEnd : Res Nat × FileWriter :=
  (writerThen writerNew writerGroup2).end_ thriftCodecs true none

def sidecarParts : List Part :=
  [⟨"part-0.parquet", writerEnd.2, writerGroups⟩, ⟨"part-1.parquet", sidecarEnd.2, [writerGroup2]⟩]

def sidecarFiles : List (String × FileWriter) := sidecarParts.map fun p => (p.path, p.writer)

theorem sidecar_ok (r : Res Nat × FileWriter) (h : r.1.isOk = true) : ∃ n, r = (.ok n, r.2) := by
  obtain ⟨a, b⟩ := r
  cases a with
  | ok n => exact ⟨n, rfl⟩
  | err e => cases h
  | panic => cases h

theorem sidecar_part0 : ∃ options createdBy kv n w0 w, Fresh writerSchema options createdBy w0 ∧
    Wrote thriftCodecs true w0 writerGroups w ∧
    w.end_ thriftCodecs true kv = (.ok n, writerEnd.2) := by
  have h1 : (writerNew.write thriftCodecs true (writerCall writerGroup1)).1.isOk = true := by
    decide +kernel
  have h2 : ((writerThen writerNew writerGroup1).write thriftCodecs true
      (writerCall writerGroup2)).1.isOk = true := by decide +kernel
  have h3 : writerEnd.1.isOk = true := by decide +kernel
  have hw := writerThen_wrote (writerThen_wrote .nil h1) h2
  obtain ⟨n, hn⟩ := sidecar_ok _ h3
  exact ⟨writerOptions, some "me", some [], n, writerNew, _, .inl rfl, hw, hn⟩

theorem sidecar_part1 : ∃ options createdBy kv n w0 w, Fresh writerSchema options createdBy w0 ∧
    Wrote thriftCodecs true w0 [writerGroup2] w ∧
    w.end_ thriftCodecs true kv = (.ok n, sidecarEnd.2) := by
  have h4 : (writerNew.write thriftCodecs true (writerCall writerGroup2)).1.isOk = true := by
    decide +kernel
  have h5 : sidecarEnd.1.isOk = true := by decide +kernel
  have hw := writerThen_wrote .nil h4
  obtain ⟨n, hn⟩ := sidecar_ok _ h5
  exact ⟨writerOptions, some "me", none, n, writerNew, _, .inl rfl, hw, hn⟩

theorem sidecar_part {w : FileWriter} {groups : List (List (List CompressedPage))} (path : String)
    (h1 : ∃ options createdBy kv n w0 w', Fresh writerSchema options createdBy w0 ∧
      Wrote thriftCodecs true w0 groups w' ∧ w'.end_ thriftCodecs true kv = (.ok n, w))
    (h2 : w.out.length < 2 ^ 63) (hsub : ∀ g ∈ groups, g ∈ writerGroups)
    (h3 : (groups.map fun g => groupRows (writerSchema.leaves.zip g)).sum < 2 ^ 63) :
    PartWritten thriftCodecs true writerSchema ⟨path, w, groups⟩ := by
  have a2 : ∀ g ∈ writerGroups, writerSchema.leaves.length ≤ g.length := by decide +kernel
  have a3 : ∀ g ∈ writerGroups, ∀ c ∈ writerSchema.leaves.zip g, Readable c := by decide +kernel
  have a4 : ∀ g ∈ writerGroups, GroupRowsKnown (writerSchema.leaves.zip g) := by decide +kernel
  exact ⟨h1, fun g hg => writer_example_fits.1 g (hsub g hg), h2, fun g hg => a2 g (hsub g hg),
      fun g hg => a3 g (hsub g hg), fun g hg => a4 g (hsub g hg), h3⟩

theorem sidecar_two {P : Part → Prop} {a b : Part} (ha : P a) (hb : P b) :
    (∀ p ∈ [a, b], P p) ∧ ∃ last, [a, b].getLast? = some last := by
  refine ⟨fun p hp => ?_, b, rfl⟩
  simp only [List.mem_cons, List.not_mem_nil, or_false] at hp
  rcases hp with rfl | rfl <;> assumption

example : (∀ p ∈ sidecarParts, PartWritten thriftCodecs true writerSchema p) ∧
    ∃ last, sidecarParts.getLast? = some last := by
  have a1 : sidecarEnd.2.out.length < 2 ^ 63 := by decide +kernel
  have a5 : (writerGroups.map fun g => groupRows (writerSchema.leaves.zip g)).sum < 2 ^ 63 := by decide +kernel
  have a6 : (([writerGroup2] : List _).map fun g => groupRows (writerSchema.leaves.zip g)).sum < 2 ^ 63 := by
    decide +kernel
  have hsub : ∀ g ∈ [writerGroup2], g ∈ writerGroups := by
    intro g hg
    rw [List.mem_singleton] at hg
    rw [hg, writerGroups]
    exact List.mem_cons_of_mem _ (List.mem_singleton_self _)
  rw [sidecarParts]
  exact sidecar_two (sidecar_part _ sidecar_part0 writer_example_fits.2 (fun _ h => h) a5)
    (sidecar_part _ sidecar_part1 a1 hsub a6)

/-- **C88 is violated**: the sidecar of two files of 4 rows and of 1 row tells 1 row, and the row group of
the second file (with the ordinal 0, as the first row group of the first file) is told before those of the
first. Without files there is no sidecar, but a panic. -/
theorem C88_violated :
    ((readMetadata thriftCodecs.file (writeSidecar thriftCodecs true sidecarFiles).2).map' fun fm =>
      (fm.numRows, fm.rowGroups.map fun g => (g.numRows, g.columns.map (·.filePath)))) =
      .ok (1, [(1, [some "part-1.parquet", some "part-1.parquet"]),
        (3, [some "part-0.parquet", some "part-0.parquet"]),
        (1, [some "part-0.parquet", some "part-0.parquet"])]) ∧
    ((collectMetadatas sidecarFiles).bind mergeMetadatas).map' (fun m => m.rowGroups.map (·.ordinal)) =
      .ok [some 0#16, some 0#16, some 1#16] ∧
    (∀ p ∈ sidecarFiles, ((readMetadata thriftCodecs.file p.2.out).map' (·.numRows)).isOk = true) ∧
    writeSidecar thriftCodecs true [] = (.panic, []) := by
  refine ⟨by decide +kernel, by decide +kernel, by decide +kernel, rfl⟩

end Pq.Props
