import Verif.Lemmas.Indexes
import Verif.Props.WholeFile
/-
Property theorems about reading the page indexes: C45.
-/
namespace Pq.Props

open Spec

/-- **C45 (partial)** for every schema and every sequence of row groups, columns and pages accepted by
the writer, with any lawful thrift codec: when the metadata of the file is read, reading the page
locations of a row group gives for each column the positions, sizes and first rows of its data pages,
and reading the column indexes gives for each column one entry per data page with the null count and
the bounds in its header (`Spec.IndexesRead`). Missing: indexes of 2^31 bytes or more (whose length is
recorded modulo 2^32), pages of another type than their column, pages that do not know their number of
rows, and selections of columns (`C45_violated`). -/
theorem C45_indexes_partial (cs : ThriftCodecs) (offsetLimit : Thrift.OffsetIndex → Nat)
    (ho : LawfulCodec cs.offsetIndex offsetLimit) (columnLimit : Thrift.ColumnIndex → Nat)
    (hc : LawfulCodec cs.columnIndex columnLimit) (fileLimit : Thrift.FileMetaData → Nat)
    (hfile : LawfulCodec cs.file fileLimit) (ck : Bool) (schema : SchemaDescriptor)
    (options : WriteOptions) (createdBy : Option String) (kv : Option (List Thrift.KeyValue))
    (groups : List (List (List CompressedPage))) (n : Nat) (w : FileWriter)
    (h : Finished cs ck schema options createdBy kv groups n w)
    (hf : ∀ g ∈ groups, GroupFits cs (schema.leaves.zip g)) (hlen : w.out.length < 2 ^ 63)
    (hcols : ∀ g ∈ groups, schema.leaves.length ≤ g.length)
    (htyped : ∀ g ∈ groups, ∀ c ∈ schema.leaves.zip g, Typed c) :
    ∃ md pre, w.out = pre ++ cs.file.ser md ++ tail8 (cs.file.ser md) ∧
      ((cs.file.ser md).length < 2 ^ 31 → fileLimit md ≤ 2 * (cs.file.ser md).length + 1040 →
        ∀ fm, readMetadata cs.file w.out = .ok fm → fm.schemaDescr = schema →
          List.Forall₂ (fun g group => IndexesRead cs offsetLimit columnLimit options.writeStatistics
            w.out (schema.leaves.zip g) group) groups fm.rowGroups) := by
  obtain ⟨md, hw, -⟩ := finished_written h hf hlen
  obtain ⟨bytes, indexes, he, -⟩ := hw.layout
  refine ⟨md, par1 ++ bytes ++ indexes, he, fun hmd hlim fm hfm hs => ?_⟩
  have hfr := C38_framing cs.file fileLimit hfile (par1 ++ bytes ++ indexes) md (by simp [par1]) hmd hlim
  rw [← he, hfm] at hfr
  have hrg := rowGroups_ofThrift hfr.symm
  rw [hs] at hrg
  have hg := List.forall₂_map_left_iff.1 hw.rowGroups
  clear he hfr hfm hmd hlim h hw
  generalize md.rowGroups = rgs at *
  generalize fm.rowGroups = gms at *
  clear hs hf
  induction hg generalizing gms with
  | nil => cases hrg; exact .nil
  | @cons g rg groups rgs h1 h2 ih =>
    cases hrg with
    | cons r1 r2 =>
      refine .cons ?_ (ih (fun g hg => hcols g (List.mem_cons_of_mem _ hg))
        (fun g hg => htyped g (List.mem_cons_of_mem _ hg)) _ r2)
      obtain ⟨e1, e2⟩ := rowGroup_ofThrift r1
      exact indexes_read ho hc hlen h1 (htyped g (by simp)) e1
        (by rw [e2, List.map_fst_zip (hcols g (by simp))])

/-- The example of `Props/Writer.lean` meets the hypotheses. -/
example : (∃ n, Finished thriftCodecs true writerSchema writerOptions (some "me") (some [])
      writerGroups n writerEnd.2) ∧
    (∀ g ∈ writerGroups, GroupFits thriftCodecs (writerSchema.leaves.zip g)) ∧
    writerEnd.2.out.length < 2 ^ 63 ∧ (∀ g ∈ writerGroups, writerSchema.leaves.length ≤ g.length) ∧
    (∀ g ∈ writerGroups, ∀ c ∈ writerSchema.leaves.zip g, Typed c) :=
  ⟨writer_example, writer_example_fits.1, writer_example_fits.2, by decide +kernel, by decide +kernel⟩

abbrev offsetIndexCodec : Codec Thrift.OffsetIndex := Compact.codecOf Compact.rOffsetIndex

abbrev columnIndexCodec : Codec Thrift.ColumnIndex := Compact.codecOf Compact.rColumnIndex

theorem offsetIndexCodec_lawful :
    LawfulCodec offsetIndexCodec (fun x => Compact.cost (Compact.rOffsetIndex.toT x)) :=
  Compact.codecOf_lawful Compact.good_offsetIndex (fun _ => ⟨_, rfl⟩)

theorem columnIndexCodec_lawful :
    LawfulCodec columnIndexCodec (fun x => Compact.cost (Compact.rColumnIndex.toT x)) :=
  Compact.codecOf_lawful Compact.good_columnIndex (fun _ => ⟨_, rfl⟩)

/-- **C45 (partial)** with the compact protocol, starting from the bytes of the file: the metadata is
read, and with it the indexes of every row group. -/
theorem C45_compact_partial (ck : Bool) (name : String) (fields : List ParquetType)
    (h0 : 0 < fields.length) (h31 : fields.length < 2 ^ 31) (hg : GoodTrees fields)
    (options : WriteOptions) (createdBy : Option String) (kv : Option (List Thrift.KeyValue))
    (groups : List (List (List CompressedPage))) (n : Nat) (w : FileWriter)
    (h : Finished thriftCodecs ck (SchemaDescriptor.new name fields) options createdBy kv groups n w)
    (hf : ∀ g ∈ groups, GroupFits thriftCodecs ((SchemaDescriptor.new name fields).leaves.zip g))
    (hlen : w.out.length < 2 ^ 31)
    (hcols : ∀ g ∈ groups, (SchemaDescriptor.new name fields).leaves.length ≤ g.length)
    (hread : ∀ g ∈ groups, ∀ c ∈ (SchemaDescriptor.new name fields).leaves.zip g, Readable c)
    (hrows : ∀ g ∈ groups, GroupRowsKnown ((SchemaDescriptor.new name fields).leaves.zip g))
    (htotal : (groups.map fun g =>
      groupRows ((SchemaDescriptor.new name fields).leaves.zip g)).sum < 2 ^ 63) :
    ∃ fm, readMetadata fileCodec w.out = .ok fm ∧
      List.Forall₂ (fun g group =>
        (∃ locations, (∀ ck, readPagesLocations offsetIndexCodec ck w.out group.columns = .ok locations) ∧
          List.Forall₂ (fun (c : ColumnDescriptor × List CompressedPage) ls =>
            RowsKnown c.2 → chunkRows c.2 < 2 ^ 63 → Locates headerCodec w.out c.2 ls)
            ((SchemaDescriptor.new name fields).leaves.zip g) locations) ∧
        (∃ indexes, (∀ ck, readColumnsIndexes columnIndexCodec ck w.out group.columns = .ok indexes) ∧
          if options.writeStatistics then
            List.Forall₂ ColumnIndexReads ((SchemaDescriptor.new name fields).leaves.zip g) indexes
          else indexes = []))
        groups fm.rowGroups := by
  obtain ⟨md, pre, he, hr⟩ := C59_compact_partial ck name fields h0 h31 hg options createdBy kv groups n w h
    hf (by omega) hcols hread hrows htotal
  have hmd : (fileCodec.ser md).length < 2 ^ 31 := by
    have := congrArg List.length he
    simp only [List.length_append] at this
    omega
  obtain ⟨fm, h1, -, -, -, h2, -⟩ := hr hmd
  refine ⟨fm, h1, ?_⟩
  have htyped : ∀ g ∈ groups, ∀ c ∈ (SchemaDescriptor.new name fields).leaves.zip g, Typed c := by
    intro g hgm c hcm p hp vt hvt
    have := (hread g hgm c hcm).ok p hp
    cases p with
    | dict p => simp [statisticsOf] at hvt
    | data p =>
      have hd : p.descriptor = c.1.descriptor := this.2.1
      simp only [statisticsOf, Option.mem_def, Option.map_eq_some_iff] at hvt
      obtain ⟨s, -, rfl⟩ := hvt
      rw [hd]
  obtain ⟨md', pre', he', hi⟩ := C45_indexes_partial thriftCodecs _ offsetIndexCodec_lawful _
    columnIndexCodec_lawful _ fileCodec_lawful ck _ options createdBy kv groups n w h hf (by omega) hcols htyped
  have hmd' : (fileCodec.ser md').length < 2 ^ 31 := by
    have := congrArg List.length he'
    simp only [List.length_append] at this
    have e : (thriftCodecs.file.ser md').length = (fileCodec.ser md').length := rfl
    omega
  have hlim := Compact.cost_lt (Compact.rFileMetaData.toT md')
  have e : (thriftCodecs.file.ser md').length =
    (Compact.encVal (Compact.rFileMetaData.toT md')).length := rfl
  refine (hi hmd' (by omega) fm h1 h2).imp fun g group hgr => ⟨?_, ?_⟩
  · obtain ⟨ois, a1, a2, a3⟩ := hgr.locations
    refine ⟨_, a3 fun oi hoi => ⟨Nat.lt_of_le_of_lt (a2 oi hoi) hlen, ?_⟩, List.forall₂_map_right_iff.2 a1⟩
    have := Compact.cost_lt (Compact.rOffsetIndex.toT oi)
    have h : (thriftCodecs.offsetIndex.ser oi).length =
      (Compact.encVal (Compact.rOffsetIndex.toT oi)).length := rfl
    omega
  · cases hst : options.writeStatistics with
    | false => exact ⟨[], hgr.noBounds hst, by simp⟩
    | true =>
      obtain ⟨cis, indexes, -, a1, a2, a3⟩ := hgr.bounds hst
      refine ⟨indexes, a3 fun ci hci => ⟨Nat.lt_of_le_of_lt (a2 ci hci) hlen, ?_⟩, by simpa using a1⟩
      have := Compact.cost_lt (Compact.rColumnIndex.toT ci)
      have h : (thriftCodecs.columnIndex.ser ci).length =
        (Compact.encVal (Compact.rColumnIndex.toT ci)).length := rfl
      omega

/-- Minima read from the column indexes of a file, per column. -/
def minimaRead (file : List Byte) : Res (List (List (Option (List Byte)))) :=
  (readMetadata fileCodec file).bind fun fm => (collectRes <| fm.rowGroups.map fun g =>
    (readColumnsIndexes columnIndexCodec true file g.columns).map' fun is =>
      is.map fun i => (plainEntries i).map (·.1)).map' List.flatten

/-- Page locations read from a file, per column. -/
def locationsRead (file : List Byte) : Res (List (List (I64 × I32 × I64))) :=
  (readMetadata fileCodec file).bind fun fm => (collectRes <| fm.rowGroups.map fun g =>
    (readPagesLocations offsetIndexCodec true file g.columns).map' fun is =>
      is.map fun ls => ls.map fun l => (l.offset, l.compressedPageSize, l.firstRowIndex)).map' List.flatten

/-- The example of `Props/Writer.lean` is below 2^31 bytes; see also the example for
`C59_compact_partial`. Its indexes are as follows: `a` in the first row group has two data pages (and a
dictionary page), `b` one. -/
example : writerEnd.2.out.length < 2 ^ 31 ∧
    minimaRead writerEnd.2.out = .ok [[some [1#8, 0#8, 0#8, 0#8], some [7#8, 0#8, 0#8, 0#8]],
      [some [5#8, 0#8, 0#8, 0#8]], [some [9#8, 0#8, 0#8, 0#8]], []] ∧
    locationsRead writerEnd.2.out = .ok [[(21#64, 41#32, 0#64), (62#64, 37#32, 2#64)],
      [(138#64, 37#32, 0#64)], [(213#64, 37#32, 0#64)], []] := by
  decide +kernel

/-- **C45** without column indexes there is nothing to read. -/
theorem C45_no_column_index (codec : Codec Thrift.ColumnIndex) (ck : Bool) (file : List Byte)
    (chunks : List ColumnChunkMetaData)
    (h : ∀ c ∈ chunks.head?, c.columnChunk.columnIndexOffset = none) :
    readColumnsIndexes codec ck file chunks = .ok [] := by
  cases chunks with
  | nil => rfl
  | cons c chunks =>
    have := h c rfl
    simp only [readColumnsIndexes, prepareColumnIndexRead, prepareRead, this, Res.ok_bind, sumUsize,
      deserializeColumnIndexes]

example : ∃ c : ColumnChunkMetaData, c.columnChunk.columnIndexOffset = none :=
  ⟨⟨{ fileOffset := 4#64 }, ⟨⟨writerType "a", 0, 0⟩, ["a"], .primitive (writerType "a")⟩⟩, rfl⟩

/-- **C45 is violated** by row groups without offset indexes, for which the documentation promises an
empty vector: reading their page locations never succeeds. -/
theorem C45_no_offset_index (codec : Codec Thrift.OffsetIndex) (hs : SaneCodec codec) (ck : Bool)
    (file : List Byte) (c : ColumnChunkMetaData) (chunks : List ColumnChunkMetaData)
    (h : c.columnChunk.offsetIndexOffset = none) (locations : List (List Thrift.PageLocation)) :
    readPagesLocations codec ck file (c :: chunks) ≠ .ok locations := by
  have e : readPagesLocations codec ck file (c :: chunks) =
      pageLocationsLoop codec 1024 (chunks.length + 1) [] := by
    simp [readPagesLocations, prepareOffsetIndexRead, prepareRead, h, sumUsize, deserializePageLocations]
  rw [e, pageLocationsLoop]
  have := hs.progress 1024 []
  split
  · rename_i x r hx
    have := this x (by rw [hx])
    simp at this
  · simp
  · simp

example : SaneCodec offsetIndexCodec ∧ ∃ c : ColumnChunkMetaData, c.columnChunk.offsetIndexOffset = none :=
  ⟨Compact.codecOf_sane Compact.good_offsetIndex,
    ⟨{ fileOffset := 4#64 }, ⟨⟨writerType "a", 0, 0⟩, ["a"], .primitive (writerType "a")⟩⟩, rfl⟩

/-- A file with three columns. -/
def indexedFile : List Byte :=
  ((FileWriter.new (SchemaDescriptor.new "s"
      [.primitive (writerType "a"), .primitive (writerType "b"), .primitive (writerType "c")])
      writerOptions none).write thriftCodecs true (writerCall
    [[writerPage "a" [⟨0, 1⟩] 1#32 [1#8, 0#8, 0#8, 0#8] (writerStatistics 1#8)],
     [writerPage "b" [⟨0, 1⟩] 1#32 [2#8, 0#8, 0#8, 0#8] (writerStatistics 2#8)],
     [writerPage "c" [⟨0, 1⟩] 1#32 [3#8, 0#8, 0#8, 0#8] (writerStatistics 3#8)]])).2.end_
      thriftCodecs true none |>.2.out

/-- Minima read from the column indexes of some columns of the first row group. -/
def minimaOf (file : List Byte) (select : List ColumnChunkMetaData → List ColumnChunkMetaData) :
    Res (List (List (Option (List Byte)))) :=
  (readMetadata fileCodec file).bind fun fm =>
    (readColumnsIndexes columnIndexCodec true file
      (select ((fm.rowGroups.head?.map (·.columns)).getD []))).map' fun is =>
        is.map fun i => (plainEntries i).map (·.1)

/-- **C45 is violated** by selections of columns that are not adjacent: reading the indexes of the first
and third column gives, without complaint, those of the first and second. -/
theorem C45_violated :
    minimaOf indexedFile (fun cs => cs) =
      .ok [[some [1#8, 0#8, 0#8, 0#8]], [some [2#8, 0#8, 0#8, 0#8]], [some [3#8, 0#8, 0#8, 0#8]]] ∧
    minimaOf indexedFile (fun cs => cs.take 1 ++ cs.drop 2) =
      .ok [[some [1#8, 0#8, 0#8, 0#8]], [some [2#8, 0#8, 0#8, 0#8]]] := by
  decide +kernel

/-- **C45** the reader panics if the file ends within the column indexes. -/
theorem C45_truncated_panics :
    (readMetadata fileCodec indexedFile).bind (fun fm =>
      readColumnsIndexes columnIndexCodec true (indexedFile.take 240)
        ((fm.rowGroups.head?.map (·.columns)).getD [])) = .panic := by
  decide +kernel

/-! ### Column indexes of other writers -/

/-- The number of nulls of the page, if the index tells it. -/
def foreignNulls (index : Thrift.ColumnIndex) (k : Nat) : Option I64 :=
  match index.nullCounts with
  | some counts => counts[k]?
  | none => none

/-- The bounds of the page fit the type. -/
def ForeignBound (t : PhysicalType) (x : List Byte) : Prop :=
  (∀ n, plainWidth t = some n → x.length = n) ∧ (t = .boolean → x = [0#8] ∨ x = [1#8])

theorem foreign_tryNew {α : Type} {decode : List Byte → Res α} {plain : α → List Byte}
    {make : List (PageIndex α) → BoundaryOrder → Index} {index : Thrift.ColumnIndex} {n : Nat}
    {order : BoundaryOrder} (ho : BoundaryOrder.ofThrift index.boundaryOrder = .ok order)
    (h1 : index.nullPages.length = n) (h2 : index.minValues.length = n) (h3 : index.maxValues.length = n)
    (h4 : ∀ counts, index.nullCounts = some counts → counts.length = n)
    (hd : ∀ k : Nat, index.nullPages[k]? = some false → ∀ x, (index.minValues[k]? = some x ∨ index.maxValues[k]? = some x) →
      ∃ y, decode x = .ok y ∧ plain y = x) :
    ∃ out, tryNewIndex decode index make = .ok (make out order) ∧ out.length = n ∧
      ∀ k, k < n → (out.map (plainEntry plain))[k]? = some
        (if index.nullPages[k]? = some true then (none, none, foreignNulls index k)
          else (index.minValues[k]?, index.maxValues[k]?, foreignNulls index k)) := by
  have hlen : (indexRows index).length = n := by
    unfold indexRows
    cases hn : index.nullCounts with
    | none => simp only [List.length_zip, List.length_replicate]; omega
    | some counts =>
      have := h4 counts hn
      simp only [List.length_zip, List.length_map]; omega
  have hrow : ∀ k, k < n → ∃ mn mx b, index.minValues[k]? = some mn ∧ index.maxValues[k]? = some mx ∧
      index.nullPages[k]? = some b ∧ (indexRows index)[k]? = some (((mn, mx), b), foreignNulls index k) := by
    intro k hk
    refine ⟨_, _, _, List.getElem?_eq_getElem (by omega), List.getElem?_eq_getElem (by omega),
      List.getElem?_eq_getElem (by omega), ?_⟩
    unfold indexRows foreignNulls
    cases hn : index.nullCounts with
    | none =>
      simp only
      rw [List.getElem?_eq_getElem (by simp only [List.length_zip, List.length_replicate]; omega)]
      simp only [List.getElem_zip, List.getElem_replicate]
    | some counts =>
      have := h4 counts hn
      simp only
      rw [List.getElem?_eq_getElem (by simp only [List.length_zip, List.length_map]; omega)]
      simp only [List.getElem_zip, List.getElem_map]
      rw [List.getElem?_eq_getElem (by omega)]
  have hentry : ∀ k, k < n → ∃ e, ((indexRows index).map (pageIndex decode))[k]? = some (.ok e) ∧
      plainEntry plain e = (if index.nullPages[k]? = some true then (none, none, foreignNulls index k)
          else (index.minValues[k]?, index.maxValues[k]?, foreignNulls index k)) := by
    intro k hk
    obtain ⟨mn, mx, b, e1, e2, e3, e4⟩ := hrow k hk
    rw [List.getElem?_map, e4, Option.map_some]
    cases b with
    | true => exact ⟨⟨none, none, foreignNulls index k⟩, by simp [pageIndex], by simp [plainEntry, e3]⟩
    | false =>
      obtain ⟨y1, d1, p1⟩ := hd k e3 mn (.inl e1)
      obtain ⟨y2, d2, p2⟩ := hd k e3 mx (.inr e2)
      exact ⟨⟨some y1, some y2, foreignNulls index k⟩, by simp [pageIndex, d1, d2],
        by simp [plainEntry, e1, e2, e3, p1, p2]⟩
  have hall : ∀ r ∈ (indexRows index).map (pageIndex decode), ∃ e, r = .ok e := by
    intro r hr
    obtain ⟨k, hk, he⟩ := List.getElem_of_mem hr
    obtain ⟨e, h, -⟩ := hentry k (by rw [List.length_map] at hk; omega)
    rw [List.getElem?_eq_getElem hk, he] at h
    exact ⟨e, by injection h⟩
  have hcol : ∀ rs : List (Res (PageIndex α)), (∀ r ∈ rs, ∃ e, r = .ok e) → ∃ es : List (PageIndex α), rs = es.map .ok := by
    intro rs h
    induction rs with
    | nil => exact ⟨[], rfl⟩
    | cons r rs ih =>
      obtain ⟨e, rfl⟩ := h r (by simp)
      obtain ⟨es, rfl⟩ := ih fun r hr => h r (List.mem_cons_of_mem _ hr)
      exact ⟨e :: es, rfl⟩
  obtain ⟨out, hout⟩ := hcol _ hall
  refine ⟨out, ?_, ?_, fun k hk => ?_⟩
  · rw [tryNewIndex, (collectRes_ok_iff _ _).2 hout, Res.ok_bind, ho, Res.ok_bind]
  · have := congrArg List.length hout
    simp only [List.length_map] at this
    omega
  · obtain ⟨e, g1, g2⟩ := hentry k hk
    rw [hout, List.getElem?_map, Option.map_eq_some_iff] at g1
    obtain ⟨e', g3, g4⟩ := g1
    injection g4 with g4
    rw [List.getElem?_map, g3, Option.map_some, g4, g2]

/-- **C45** a column index by any writer: the index read has the type and order it says, and one entry per
page: none if the page has only nulls, else the bounds; and the null count, if the index has null counts (none
is not zero). -/
theorem C45_foreign (index : Thrift.ColumnIndex) (t : PrimitiveType) (n : Nat) (order : BoundaryOrder)
    (ho : index.boundaryOrder = order.toThrift)
    (h1 : index.nullPages.length = n) (h2 : index.minValues.length = n) (h3 : index.maxValues.length = n)
    (h4 : ∀ counts, index.nullCounts = some counts → counts.length = n)
    (hb : ∀ k : Nat, index.nullPages[k]? = some false → ∀ x,
      (index.minValues[k]? = some x ∨ index.maxValues[k]? = some x) → ForeignBound t.physicalType x) :
    ∃ i, indexOfThrift index t = .ok i ∧ i.physicalType = t.physicalType ∧ boundaryOrderOf i = order ∧
      (∀ t' ∈ indexTypeOf i, t' = t) ∧ (plainEntries i).length = n ∧
      ∀ k, k < n → (plainEntries i)[k]? = some
        (if index.nullPages[k]? = some true then (none, none, foreignNulls index k)
          else (index.minValues[k]?, index.maxValues[k]?, foreignNulls index k)) := by
  have ho : BoundaryOrder.ofThrift index.boundaryOrder = .ok order := by
    rw [ho]; cases order <;> rfl
  have native : ∀ (n : Nat) (x : List Byte), x.length = n →
      ∃ y, nativeBound n x = .ok y ∧ leBytes n y.toNat = x := by
    intro n x hx
    obtain ⟨y, h1, h2⟩ := (Props.C29_native n 0).2.2 x hx
    refine ⟨y, ?_, by rw [← (Props.C29_native n y).1, h2]⟩
    rw [nativeDecode, if_pos hx] at h1
    rw [nativeBound, if_pos hx]
    exact h1
  obtain ⟨field, logical, converted, ty⟩ := t
  cases ty with
  | boolean =>
    obtain ⟨out, g1, g2, g3⟩ := foreign_tryNew (decode := booleanBound) (make := .boolean)
      (plain := fun b => [if b then 1 else 0]) ho h1 h2 h3 h4 (by
        intro k hk x hx
        rcases (hb k hk x hx).2 rfl with rfl | rfl
        · exact ⟨false, rfl, rfl⟩
        · exact ⟨true, rfl, rfl⟩)
    exact ⟨_, g1, rfl, rfl, by simp [indexTypeOf], by simp [plainEntries, g2], g3⟩
  | int32 =>
    obtain ⟨out, g1, g2, g3⟩ := foreign_tryNew (decode := nativeBound 4) (make := .int32 _)
      (plain := fun x => leBytes 4 x.toNat) ho h1 h2 h3 h4 (fun k hk x hx => native 4 x ((hb k hk x hx).1 _ rfl))
    exact ⟨_, g1, rfl, rfl, by simp [indexTypeOf], by simp [plainEntries, g2], g3⟩
  | int64 =>
    obtain ⟨out, g1, g2, g3⟩ := foreign_tryNew (decode := nativeBound 8) (make := .int64 _)
      (plain := fun x => leBytes 8 x.toNat) ho h1 h2 h3 h4 (fun k hk x hx => native 8 x ((hb k hk x hx).1 _ rfl))
    exact ⟨_, g1, rfl, rfl, by simp [indexTypeOf], by simp [plainEntries, g2], g3⟩
  | int96 =>
    obtain ⟨out, g1, g2, g3⟩ := foreign_tryNew (decode := int96Bound) (make := .int96 _)
      (plain := int96Bytes) ho h1 h2 h3 h4 (by
        intro k hk x hx
        have hl : x.length = 12 := (hb k hk x hx).1 _ rfl
        obtain ⟨y, h1, h2⟩ := (Props.C29_int96 ⟨0, 0, 0⟩).2.2 x hl
        refine ⟨y, ?_, by rw [int96Bytes, ← (Props.C29_int96 y).1, h2]⟩
        rw [int96Decode, if_pos hl] at h1
        rw [int96Bound, if_pos hl]
        exact h1)
    exact ⟨_, g1, rfl, rfl, by simp [indexTypeOf], by simp [plainEntries, g2], g3⟩
  | float =>
    obtain ⟨out, g1, g2, g3⟩ := foreign_tryNew (decode := nativeBound 4) (make := .float _)
      (plain := fun x => leBytes 4 x.toNat) ho h1 h2 h3 h4 (fun k hk x hx => native 4 x ((hb k hk x hx).1 _ rfl))
    exact ⟨_, g1, rfl, rfl, by simp [indexTypeOf], by simp [plainEntries, g2], g3⟩
  | double =>
    obtain ⟨out, g1, g2, g3⟩ := foreign_tryNew (decode := nativeBound 8) (make := .double _)
      (plain := fun x => leBytes 8 x.toNat) ho h1 h2 h3 h4 (fun k hk x hx => native 8 x ((hb k hk x hx).1 _ rfl))
    exact ⟨_, g1, rfl, rfl, by simp [indexTypeOf], by simp [plainEntries, g2], g3⟩
  | byteArray =>
    obtain ⟨out, g1, g2, g3⟩ := foreign_tryNew (decode := Res.ok) (make := .byteArray _)
      (plain := id) ho h1 h2 h3 h4 (fun k hk x hx => ⟨x, rfl, rfl⟩)
    exact ⟨_, g1, rfl, rfl, by simp [indexTypeOf], by simp [plainEntries, g2], g3⟩
  | fixedLenByteArray size =>
    obtain ⟨out, g1, g2, g3⟩ := foreign_tryNew (decode := Res.ok) (make := .fixedLen _)
      (plain := id) ho h1 h2 h3 h4 (fun k hk x hx => ⟨x, rfl, rfl⟩)
    exact ⟨_, g1, rfl, rfl, by simp [indexTypeOf], by simp [plainEntries, g2], g3⟩

/-- An index of another writer, without null counts; the second page has only nulls. -/
def foreignIndex : Thrift.ColumnIndex :=
  { nullPages := [false, true], minValues := [[1#8, 0#8, 0#8, 0#8], []], maxValues := [[9#8, 0#8, 0#8, 0#8], []]
    boundaryOrder := 1#32, nullCounts := none }

example : foreignIndex.boundaryOrder = BoundaryOrder.ascending.toThrift ∧ foreignIndex.nullPages.length = 2 ∧
    foreignIndex.minValues.length = 2 ∧ foreignIndex.maxValues.length = 2 ∧
    (∀ k : Nat, foreignIndex.nullPages[k]? = some false → ∀ x,
      (foreignIndex.minValues[k]? = some x ∨ foreignIndex.maxValues[k]? = some x) →
        ForeignBound (writerType "a").physicalType x) ∧
    (indexOfThrift foreignIndex (writerType "a")).map' plainEntries =
      .ok [(some [1#8, 0#8, 0#8, 0#8], some [9#8, 0#8, 0#8, 0#8], none), (none, none, none)] := by
  refine ⟨rfl, rfl, rfl, rfl, ?_, by decide +kernel⟩
  intro k hk x hx
  match k, hk with
  | 0, _ =>
    have : x = [1#8, 0#8, 0#8, 0#8] ∨ x = [9#8, 0#8, 0#8, 0#8] := by
      rcases hx with hx | hx <;> injection hx with hx
      · exact .inl hx.symm
      · exact .inr hx.symm
    refine ⟨fun n hn => ?_, fun h => by cases h⟩
    injection hn with hn
    rcases this with rfl | rfl <;> exact hn
  | 1, hk => cases hk
  | k + 2, hk => cases hk

end Pq.Props
