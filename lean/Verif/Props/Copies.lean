import Verif.Model.SelectRows
import Verif.Lemmas.Copies
import Verif.Props.Selection
/-
Property C99: a file that is copied page by page is the same file.
-/
namespace Pq.Props
open Spec

/-- **C99** copies of pages (`Spec.CopyOf`: the same page, telling the same number of rows) are written like the pages
themselves, whatever the writer and whether it accepts them: the result, the bytes and the state of the writer. -/
theorem C99_write (cs : ThriftCodecs) (ck : Bool) (w : FileWriter) (g g' : List (List CompressedPage))
    (h : List.Forall₂ (List.Forall₂ CopyOf) g g') :
    w.write cs ck (g'.map fun pages => .ok (pages.map .ok)) =
      w.write cs ck (g.map fun pages => .ok (pages.map .ok)) :=
  write_copy cs ck w g g' h

example : List.Forall₂ (List.Forall₂ CopyOf)
    [[exampleDict true, writerPage "a" [⟨0, 2⟩] 2#32 [1#8] none], []]
    [[exampleDict false, writerPage "a" [⟨7, 2⟩] 2#32 [1#8] none], []] :=
  .cons (.cons rfl (.cons ⟨rfl, rfl⟩ .nil)) (.cons .nil .nil)

/-- **C99** which pages are copies: dictionary pages as they are read; data pages as they are read, with their number of
rows given back with `select_rows`, by whichever interval; all that is different in other copies is where the rows are
said to begin. -/
theorem C99_read (p : CompressedDataPage) (d : CompressedDictPage) (n : Nat) (hn : pageRowCount (.data p) = some n) :
    CopyOf (.dict d) (readBack (.dict d)) ∧
    ∃ q, readBack (.data p) = .data q ∧ q.selectedRows = none ∧
      ∀ start, CopyOf (.data p) (.data (q.selectRows [⟨start, n⟩])) := by
  refine ⟨rfl, _, rfl, rfl, fun start => ⟨rfl, ?_⟩⟩
  simp only [pageRowCount] at hn
  split at hn
  · rename_i iv e
    simp only [Option.some.injEq] at hn
    rw [e, ← hn]
    rfl
  · cases hn

example : pageRowCount (writerPage "a" [⟨4, 2⟩] 2#32 [1#8] none) = some 2 := rfl

/-- **C99** `select_rows` replaces what was selected before, whether by the reader or by another call, and leaves all
else of the page as it is; a page is written with the rows that were selected last. -/
theorem C99_select (p : CompressedDataPage) (before rows : List Interval) :
    (p.selectRows rows).selectedRows = some rows ∧
    { p.selectRows rows with selectedRows := p.selectedRows } = p ∧
    (p.selectRows before).selectRows rows = p.selectRows rows ∧
    ∀ r, rows = [r] → pageRowCount (.data ((p.selectRows before).selectRows rows)) = some r.length :=
  ⟨rfl, rfl, rfl, by rintro r rfl; rfl⟩

example (p : CompressedDataPage) : ((p.selectRows [⟨0, 9⟩, ⟨11, 5⟩]).selectRows [⟨4, 2⟩]).selectedRows = some [⟨4, 2⟩] ∧
    pageRowCount (.data (p.selectRows [⟨0, 9⟩, ⟨11, 5⟩])) = none := ⟨rfl, rfl⟩

/-- **C99** and so a file of copies is the same file, by both writers. -/
theorem C99_file (cs : ThriftCodecs) (ck : Bool) (schema : SchemaDescriptor) (options : WriteOptions)
    (createdBy : Option String) (kv : Option (List Thrift.KeyValue)) (groups copies : List (List (List CompressedPage)))
    (n : Nat) (w : FileWriter) (h : Finished cs ck schema options createdBy kv groups n w)
    (hc : List.Forall₂ (List.Forall₂ (List.Forall₂ CopyOf)) groups copies) :
    Finished cs ck schema options createdBy kv copies n w := by
  obtain ⟨w0, w1, h1, h2, h3⟩ := h
  exact ⟨w0, w1, h1, wrote_copy cs ck w0 w1 groups copies h2 hc, h3⟩

example : ∃ n, Finished thriftCodecs true writerSchema writerOptions (some "me") (some []) writerGroups n writerEnd.2 :=
  writer_example

/-- **C99 (partial)** for files as in `C63_compact_partial` all of whose data pages have rows and know how many, all
columns of a row group having the same number: read the metadata, the page locations, and then all pages of all columns
with the indexed reader, all rows being selected; the writer with the schema, version, creator and key-values that were
read, handed these pages as they are, writes the same file, byte for byte. Missing: what is missing there, and the
sequential reader, whose pages the writer refuses (`C99_violated`). -/
theorem C99_copied_partial (ck : Bool) (name : String) (fields : List ParquetType)
    (h0 : 0 < fields.length) (h31 : fields.length < 2 ^ 31) (hg : GoodTrees fields)
    (options : WriteOptions) (createdBy : Option String) (kv : Option (List Thrift.KeyValue))
    (groups : List (List (List CompressedPage))) (n : Nat) (w : FileWriter)
    (h : Finished thriftCodecs ck (SchemaDescriptor.new name fields) options createdBy kv groups n w)
    (hf : ∀ g ∈ groups, GroupFits thriftCodecs ((SchemaDescriptor.new name fields).leaves.zip g))
    (hlen : w.out.length < 2 ^ 31)
    (hcols : ∀ g ∈ groups, (SchemaDescriptor.new name fields).leaves.length = g.length)
    (hread : ∀ g ∈ groups, ∀ c ∈ (SchemaDescriptor.new name fields).leaves.zip g, Readable c)
    (htotal : (groups.map fun g =>
      groupRows ((SchemaDescriptor.new name fields).leaves.zip g)).sum < 2 ^ 63)
    (hrows : ∀ g ∈ groups, ∀ c ∈ (SchemaDescriptor.new name fields).leaves.zip g,
      RowsKnown c.2 ∧ chunkRows c.2 = groupRows ((SchemaDescriptor.new name fields).leaves.zip g) ∧
      ∀ p ∈ c.2, (isData p = true → 0 < rowsIn p) ∧ (headerCodec.ser (headerOf p)).length ≤ 1024 * 1024)
    (hdict : ∀ g ∈ groups, ∀ c ∈ (SchemaDescriptor.new name fields).leaves.zip g, ∀ p ∈ c.2.tail, isData p = true) :
    ∃ fm copies, readMetadata fileCodec w.out = .ok fm ∧
      List.Forall₂ (fun group columns => ∃ locations,
          (∀ ck, readPagesLocations offsetIndexCodec ck w.out group.columns = .ok locations) ∧
          List.Forall₂ (fun x pages => ReadsAll headerCodec w.out group.numRows x.1 x.2 pages)
            (group.columns.zip locations) columns)
        fm.rowGroups copies ∧
      Finished thriftCodecs ck fm.schemaDescr { options with version := fm.version } fm.createdBy
        fm.keyValueMetadata copies n w := by
  have hsmall : ∀ g ∈ groups, groupRows ((SchemaDescriptor.new name fields).leaves.zip g) < 2 ^ 63 := fun g hg' =>
    Nat.lt_of_le_of_lt (le_sum_of_mem (List.mem_map.2 ⟨g, hg', rfl⟩)) htotal
  have hknown : ∀ g ∈ groups, GroupRowsKnown ((SchemaDescriptor.new name fields).leaves.zip g) := by
    intro g hg' c hc
    obtain ⟨h1, h2, -⟩ := hrows g hg' c (List.mem_of_mem_take hc)
    exact ⟨h1, by rw [h2]; exact hsmall g hg'⟩
  have hcols' : ∀ g ∈ groups, (SchemaDescriptor.new name fields).leaves.length ≤ g.length := fun g hg' =>
    Nat.le_of_eq (hcols g hg')
  obtain ⟨fm, h1, hsel⟩ := C63_compact_partial ck name fields h0 h31 hg options createdBy kv groups n w h hf hlen
    hcols' hread hknown htotal
  obtain ⟨md, pre, he, hr⟩ := C59_compact_partial ck name fields h0 h31 hg options createdBy kv groups n w h
    hf (by omega) hcols' hread hknown htotal
  obtain ⟨fm', h1', e1, e2, e3, e4, -, -, hgr⟩ := hr (by
    have := congrArg List.length he
    simp only [List.length_append] at this
    omega)
  rw [h1] at h1'
  simp only [Res.ok.injEq] at h1'
  subst h1'
  refine ⟨fm, groups.map fun g => g.map fun c => c.map copyPage, h1, ?_, ?_⟩
  · rw [List.forall₂_map_right_iff]
    apply List.Forall₂.flip
    have hall : ∀ g ∈ groups, g ∈ groups := fun _ h => h
    clear hr he h1 e1 e2 e3 e4 hf h hknown hcols' htotal
    revert hsel hgr hall
    generalize fm.rowGroups = gms
    intro hsel hgr hall
    rw [List.forall₂_iff_get]
    refine ⟨List.Forall₂.length_eq hsel, fun j ja jb => ?_⟩
    have hmem : groups.get ⟨j, ja⟩ ∈ groups := List.getElem_mem ja
    have hx := (List.forall₂_iff_get.1 hsel).2 j ja jb
    have hgroup := (List.forall₂_iff_get.1 hgr).2 j ja jb
    revert hmem hx hgroup
    generalize groups.get ⟨j, ja⟩ = g
    generalize gms.get ⟨j, jb⟩ = group
    intro hmem hx hgroup
    obtain ⟨locations, l1, l2, l3, l4⟩ := hx
    refine ⟨locations, l1, ?_⟩
    have hz : ((SchemaDescriptor.new name fields).leaves.zip g).length = g.length := by
      rw [List.length_zip, hcols g hmem, Nat.min_self]
    rw [List.forall₂_iff_get]
    refine ⟨by rw [List.length_zip, List.length_map, l2, l3, Nat.min_self, hz], fun i a b => ?_⟩
    rw [List.length_zip, l2, l3, Nat.min_self] at a
    have hi : ((SchemaDescriptor.new name fields).leaves.zip g)[i]? =
        some (((SchemaDescriptor.new name fields).leaves.zip g)[i]) := List.getElem?_eq_getElem a
    have hcm : ((SchemaDescriptor.new name fields).leaves.zip g)[i] ∈
        (SchemaDescriptor.new name fields).leaves.zip g := List.getElem_mem a
    obtain ⟨k1, k2, k3⟩ := hrows g hmem _ hcm
    have hlast := (hread g hmem _ hcm).last
    have ht := hdict g hmem _ hcm
    have hc := l4 i _ (group.columns[i]'(by omega)) (locations[i]'(by omega)) hi
      (List.getElem?_eq_getElem _) (List.getElem?_eq_getElem _) k1 (by rw [k2]; exact hsmall g hmem)
      (fun p hp => (k3 p hp).2)
    have hs2 := hsmall g hmem
    simp only [List.get_eq_getElem, List.getElem_zip, List.getElem_map] at *
    generalize g[i] = pages at *
    rw [hgroup.rows, ← k2]
    obtain ⟨dict, datas, rfl, hd, hdn⟩ : ∃ (dict : Option CompressedDictPage) (datas : List CompressedPage),
        pages = dict.toList.map .dict ++ datas ∧ (∀ p ∈ datas, isData p = true) ∧ (datas = [] → dict = none) := by
      cases pages with
      | nil => exact ⟨none, [], rfl, by simp, fun _ => rfl⟩
      | cons p ps =>
        cases p with
        | data p =>
          refine ⟨none, .data p :: ps, rfl, fun q hq => ?_, fun _ => rfl⟩
          rcases List.mem_cons.1 hq with rfl | hq
          · rfl
          · exact ht q hq
        | dict p =>
          refine ⟨some p, ps, rfl, fun q hq => ht q hq, fun hn => ?_⟩
          subst hn
          have := hlast (.dict p) rfl
          simp [valuesOf] at this
    have hcr : chunkRows (dict.toList.map CompressedPage.dict ++ datas) = chunkRows datas := by
      cases dict <;> simp [chunkRows, isData]
    rw [hcr]
    exact readsAll _ _ dict datas _ _ (hc dict datas rfl hd) (by rw [← hcr, k2]; exact hs2) hd
      (fun p hp => (k3 p (List.mem_append_right _ hp)).1 (hd p hp)) hdn
  · rw [e1, e2, e3, e4]
    refine C99_file _ _ _ _ _ _ groups _ n w h ?_
    rw [List.forall₂_map_right_iff, List.forall₂_same]
    intro g hg'
    rw [List.forall₂_map_right_iff]
    refine List.forall₂_iff_get.2 ⟨rfl, fun i a b => ?_⟩
    rw [List.forall₂_map_right_iff, List.forall₂_same]
    intro p hp
    refine copyPage_copy p fun hd => ?_
    have hi : i < ((SchemaDescriptor.new name fields).leaves.zip g).length := by
      rw [List.length_zip, hcols g hg', Nat.min_self]; exact a
    have := (hrows g hg' _ (List.getElem_mem hi)).1
    rw [List.getElem_zip] at this
    exact this p hp hd

/-- The first row group of the example, with a dictionary page and columns of three rows, in a file of its own. -/
def copiedEnd : Res Nat × FileWriter :=
  (writerThen writerNew writerGroup1).end_ thriftCodecs true (some [])

theorem copied_example : ∃ n, Finished thriftCodecs true writerSchema writerOptions (some "me") (some [])
    [writerGroup1] n copiedEnd.2 := by
  have h1 : (writerNew.write thriftCodecs true (writerCall writerGroup1)).1.isOk = true := by
    decide +kernel
  have h3 : copiedEnd.1.isOk = true := by decide +kernel
  have hw := writerThen_wrote .nil h1
  generalize hend : copiedEnd = r at h3
  obtain ⟨a, b⟩ := r
  cases a with
  | ok n => exact ⟨n, writerNew, _, .inl rfl, hw, .inl hend⟩
  | err e => cases h3
  | panic => cases h3

/-- It meets the hypotheses. -/
example : (∃ n, Finished thriftCodecs true writerSchema writerOptions (some "me") (some [])
      [writerGroup1] n copiedEnd.2) ∧
    (∀ g ∈ [writerGroup1], GroupFits thriftCodecs (writerSchema.leaves.zip g)) ∧
    copiedEnd.2.out.length < 2 ^ 31 ∧ (∀ g ∈ [writerGroup1], writerSchema.leaves.length = g.length) ∧
    (∀ g ∈ [writerGroup1], ∀ c ∈ writerSchema.leaves.zip g, Readable c) ∧
    ([writerGroup1].map fun g => groupRows (writerSchema.leaves.zip g)).sum = 3 ∧
    (∀ g ∈ [writerGroup1], ∀ c ∈ writerSchema.leaves.zip g,
      RowsKnown c.2 ∧ chunkRows c.2 = groupRows (writerSchema.leaves.zip g) ∧
      ∀ p ∈ c.2, (isData p = true → 0 < rowsIn p) ∧ (headerCodec.ser (headerOf p)).length ≤ 1024 * 1024) ∧
    (∀ g ∈ [writerGroup1], ∀ c ∈ writerSchema.leaves.zip g, ∀ p ∈ c.2.tail, isData p = true) :=
  ⟨copied_example, fun g hg => writer_example_fits.1 g (List.mem_cons.2 (.inl (List.mem_singleton.1 hg))),
    by decide +kernel, by decide +kernel,
    fun g hg => writer_example_readable.2.2.1 g (List.mem_cons.2 (.inl (List.mem_singleton.1 hg))),
    by decide +kernel, by decide +kernel, by decide +kernel⟩

/-- **C99** is violated by pages as the sequential reader and the stream deliver them (`Spec.readBack`, C35): they do
not tell their rows. Whatever the writer, the schema and the pages, a row group whose first column has a data page is
refused or aborts the process. -/
theorem C99_violated (cs : ThriftCodecs) (ck : Bool) (w : FileWriter) (d : ColumnDescriptor) (ds : List ColumnDescriptor)
    (hs : w.schema.leaves = d :: ds) (pages : List CompressedPage) (columns : List (List CompressedPage))
    (p : CompressedPage) (hp : p ∈ pages) (hd : isData p = true) :
    (w.write cs ck (((pages :: columns).map fun pages => pages.map readBack).map fun pages =>
      .ok (pages.map .ok))).1.isOk = false := by
  have hl : w.autoStart.schema.leaves = d :: ds := by
    rw [← hs]
    unfold FileWriter.autoStart FileWriter.start
    split <;> rfl
  have key := writeRowGroup_rowless cs ck w.autoStart.offset w.autoStart.rowGroups.length d ds (pages.map readBack)
    (((columns.map fun pages => pages.map readBack)).map fun pages => .ok (pages.map .ok))
    (by
      intro q hq
      obtain ⟨r, -, rfl⟩ := List.mem_map.1 hq
      cases r <;> rfl)
    ⟨readBack p, List.mem_map.2 ⟨p, hp, rfl⟩, by cases p <;> exact hd⟩
  unfold FileWriter.write
  simp only [List.map_cons, hl] at key ⊢
  generalize writeRowGroup cs ck w.autoStart.offset (d :: ds) _ w.autoStart.rowGroups.length = r at key ⊢
  obtain ⟨r, b⟩ := r
  match r with
  | .ok x => cases key
  | .err e => rfl
  | .panic => rfl

/-- The row group of the example is accepted, and refused when it was read. -/
example : (writerNew.write thriftCodecs true (writerCall writerGroup1)).1.isOk = true ∧
    (writerNew.write thriftCodecs true (writerCall (writerGroup1.map fun pages => pages.map readBack))).1 = .err .oos := by
  decide +kernel

end Pq.Props
