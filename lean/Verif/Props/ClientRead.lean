import Verif.Lemmas.ClientRead
import Verif.Lemmas.ArbitraryFile
import Verif.Props.Client
/-
Property C94: reading a field of a file by its name.
-/
namespace Pq.Props
open Spec Client Deser

theorem field_filter {α β : Type} {R : α → β → Prop} {p : α → Bool} {q : β → Bool} {xs : List α} {ys : List β}
    (h : List.Forall₂ R xs ys) (hpq : ∀ x y, R x y → p x = q y) : List.Forall₂ R (xs.filter p) (ys.filter q) := by
  induction h with
  | nil => exact .nil
  | @cons x y xs ys h _ ih =>
    rw [List.filter_cons, List.filter_cons, hpq x y h]
    cases q y with
    | true => exact .cons h ih
    | false => exact ih

theorem field_arrays {α β δ : Type} {R : α → δ × β → Prop} {p : δ → Bool} {xs : List α} {ds : List δ} {ys : List β}
    (h : List.Forall₂ R xs (ds.zip ys)) :
    List.Forall₂ R (((ds.zip xs).filter fun x => p x.1).map (·.2)) ((ds.zip ys).filter fun y => p y.1) := by
  induction ds generalizing xs ys with
  | nil => exact .nil
  | cons d ds ih =>
    cases ys with
    | nil =>
      rw [List.zip_nil_right] at h
      cases h
      exact .nil
    | cons y ys =>
      rw [List.zip_cons_cons] at h
      cases h with
      | @cons x _ xs _ h hr =>
        rw [List.zip_cons_cons, List.zip_cons_cons, List.filter_cons, List.filter_cons]
        dsimp only
        cases p d with
        | true => exact .cons h (ih hr)
        | false => exact ih hr

theorem field_usable {chunk : ColumnChunkMetaData} {m : PageMetaData} (h : chunk.pageMetaData = .ok m) :
    UsableChunk chunk.columnChunk := by
  unfold ColumnChunkMetaData.pageMetaData at h
  obtain ⟨_, -, h⟩ := Res.bind_eq_ok.1 h
  obtain ⟨_, -, h⟩ := Res.bind_eq_ok.1 h
  obtain ⟨c, h, -⟩ := Res.bind_eq_ok.1 h
  unfold ColumnChunkMetaData.compression at h
  obtain ⟨t, h1, h2⟩ := Res.bind_eq_ok.1 h
  unfold ColumnChunkMetaData.metadata at h1
  cases hm : chunk.columnChunk.metaData with
  | none => rw [hm] at h1; cases h1
  | some t' =>
    rw [hm] at h1
    injection h1 with h1
    subst h1
    refine ⟨t', hm, ?_⟩
    cases hc : Compression.ofThrift t'.codec with
    | err e => rw [hc] at h2; cases h2
    | panic => rw [hc] at h2; cases h2
    | ok x =>
      unfold Compression.ofThrift at hc
      repeat' split at hc
      all_goals first | (rename_i e; rw [e]; decide) | cases hc

/-- The statistics of the columns of a field. -/
theorem field_statistics {codec : Codec Thrift.PageHeader} {limit : Thrift.PageHeader → Nat} {file : List Byte}
    {columns : List (ColumnDescriptor × List CompressedPage)} {chunks : List ColumnChunkMetaData}
    (h : List.Forall₂ (ColumnReads codec limit file) columns chunks) :
    ∃ ss, fieldStatistics chunks = .ok ss ∧
      List.Forall₂ (fun c s => StatisticsTell (c.2.map pageStats) (Option.map Res.ok s)) columns ss := by
  induction h with
  | nil => exact ⟨[], rfl, .nil⟩
  | @cons c chunk _ _ h _ ih =>
    obtain ⟨ss, h1, h2⟩ := ih
    obtain ⟨r, h3, h4⟩ := h.tells.statistics
    cases r with
    | none => exact ⟨none :: ss, by simp only [fieldStatistics, h3, h1, Res.ok_bind], .cons h4 h2⟩
    | some r =>
      obtain ⟨s, rfl, -⟩ := id h4
      exact ⟨some s :: ss, by simp only [fieldStatistics, h3, h1, Res.ok_bind, Res.map'], .cons h4 h2⟩

/-- The pages of a chunk that is read back are smaller than the file. -/
theorem field_sizes {limit : Thrift.PageHeader → Nat} {file : List Byte}
    {c : ColumnDescriptor × List CompressedPage} {chunk : ColumnChunkMetaData} {codec : Codec Thrift.PageHeader}
    (h : ColumnReads codec limit file c chunk) :
    ∀ p ∈ c.2, p.buffer.length ≤ file.length ∧ (codec.ser (headerOf p)).length ≤ file.length := by
  have hb := h.bytes
  unfold Pq.readColumn at hb
  obtain ⟨⟨start, length⟩, -, hb⟩ := Res.bind_eq_ok.1 hb
  dsimp only at hb
  split at hb
  · cases hb
  · injection hb with hb
    have hl : (chunkBytes codec c.2).length ≤ file.length := by
      rw [← hb, List.length_take, List.length_drop]
      omega
    intro p hp
    obtain ⟨l, r, e⟩ := List.append_of_mem hp
    rw [e] at hl
    simp only [chunkBytes, pageBytes, List.map_append, List.map_cons, List.flatten_append, List.flatten_cons,
      List.length_append] at hl
    omega

theorem field_delivers {cs : Codecs} (hcs : Lawful cs) {ck : Bool} {file : List Byte} (hfile : file.length < 2 ^ 63)
    {xs : List (List Page × List PageArray)} {columns : List (ColumnDescriptor × List CompressedPage)}
    {chunks : List ColumnChunkMetaData} (ha : List.Forall₂ (fun x c => PagesMade cs ck x.1 c.2 ∧
      PagesRead ck c.1.descriptor.primitiveType.physicalType none (x.1.map forget) x.2) xs columns)
    (hb : List.Forall₂ (ColumnReads thriftCodecs.page (fun h => (headerCodec.ser h).length) file) columns chunks) :
    List.Forall₂ (fun x chunk => ChunkDelivers headerCodec cs ck file (2 ^ 64 - 1) x.1 chunk ∧
      PagesRead ck chunk.columnDescr.descriptor.primitiveType.physicalType none x.1 x.2)
      (xs.map fun x => (x.1.map forget, x.2)) chunks := by
  induction ha generalizing chunks with
  | nil => cases hb; exact .nil
  | @cons x c _ _ hx _ ih =>
    cases hb with
    | @cons _ chunk _ _ hc hb =>
      refine .cons ⟨reads_delivers hcs hc _ (fun p hp => ?_) hx.1, ?_⟩ (ih hb)
      · have hs := field_sizes hc p hp
        have e : thriftCodecs.page = headerCodec := rfl
        rw [e] at hs
        omega
      · rw [hc.descriptor]
        exact hx.2

/-- **C94** the columns of a field, of any kind and by any writer, with dictionaries or without, flat or nested: every
column is read on its own, the data pages with the dictionary of their column and no other; the arrays come in the
order of the columns, and which structures are there is what the first column tells. -/
theorem C94_columns (codec : Codec Thrift.PageHeader) (cs : Codecs) (ck : Bool) (file : List Byte) (max fuel : Nat)
    (buffers : Nat → Nat → Nat × List Byte) (group : RowGroupMetaData) (field : ParquetType)
    (hpath : ∀ c ∈ group.columns, c.columnDescr.pathInSchema ≠ [])
    (husable : ∀ c ∈ group.columns, UsableChunk c.columnChunk)
    (first : List Page × List PageArray) (cols : List (List Page × List PageArray)) (bits : List Bool)
    (h : List.Forall₂ (fun x chunk => ChunkDelivers codec cs ck file max x.1 chunk ∧
      PagesRead ck chunk.columnDescr.descriptor.primitiveType.physicalType none x.1 x.2) (first :: cols)
      (group.columns.filter fun c => fieldOf c == some field.name))
    (hv : PagesValid first.1 bits) (hf : ∀ x ∈ first :: cols, x.1.length < fuel) :
    ∃ it, getColumnIterator file group field.name none [] max = .ok it ∧
      columnsToArray codec cs ck buffers fuel it field = fieldArray field ((first :: cols).flatMap (·.2)) bits := by
  obtain ⟨it, hit, hadv⟩ := C54_column_iterator file group field.name none [] max hpath husable
  refine ⟨it, hit, ?_⟩
  have hitc : it.columns.length = (group.columns.filter fun c => fieldOf c == some field.name).length := by
    rw [getColumnIterator, C54_field_columns field.name _ hpath] at hit
    injection hit with hit
    rw [← hit]
    simp [ColumnIterator.new]
  have hloop : readColumnsLoop codec cs ck buffers fuel (it.columns.length + 1) 0 false it
      { validity := [], arrays := [] } = .ok { validity := bits, arrays := (first :: cols).flatMap (·.2) } := by
    rw [hitc]
    generalize (group.columns.filter fun c => fieldOf c == some field.name) = chunks at h hadv
    cases h with
    | @cons _ chunk _ chunks hx hr =>
      cases hadv with
      | @item _ s' _ _ h1 h2 h3 =>
        obtain ⟨reader, scratch, h4, h5⟩ := h2
        obtain ⟨d, h6⟩ := chunk_read hx.1 h5 (buffers 0) chunk.physicalType false _ _ fuel (hf first (by simp))
          (readAll_first hx.2 hv { validity := [], arrays := [] })
        rw [readColumnsLoop, h1]
        simp only [h4, h6, Res.ok_bind]
        rw [chunks_read buffers hr (fun c hc => hf c (by simp [hc])) _ (h3 _ ⟨reader, d.iter, chunk, h4, rfl⟩) _ _
          (by simp)]
        simp
  unfold columnsToArray
  rw [hloop, Res.ok_bind]
  unfold fieldArray Reading.finish
  generalize (first :: cols).flatMap (·.2) = arrays
  cases arrays.getLast? <;> rcases field with _ | ⟨_, _, _ | l, _⟩ <;> try rfl
  all_goals cases l <;> rfl

/-- A column and a structure of two columns. -/
def dictFields : List ParquetType :=
  [.primitive (clientType "x" .int32 .required),
   .group { name := "g", repetition := .required, id := none } none none clientFields]

def dictSchema : SchemaDescriptor := SchemaDescriptor.new "s" dictFields

/-- Pages with indices into a dictionary. -/
def dictData (name : String) (t : PhysicalType) (repetition : Repetition) (n : Nat) (buffer : List Byte) : Page :=
  .data { header := .v1 { numValues := BitVec.ofNat 32 n, encoding := 8#32, definitionLevelEncoding := 3#32
                          repetitionLevelEncoding := 3#32 }
          buffer
          descriptor := { primitiveType := clientType name t repetition
                          maxDefLevel := if repetition = .optional then 1#16 else 0#16, maxRepLevel := 0#16 }
          selectedRows := some [{ start := 0, length := n }] }

/-- Every column has a dictionary of its own; the second one has two data pages. -/
def dictColumns : List (List Page) :=
  [[.dict { buffer := [9#8, 0#8, 0#8, 0#8], numValues := 1, isSorted := true },
    dictData "x" .int32 .required 3 [1#8, 6#8, 0#8]],
   [.dict { buffer := [5#8, 0#8, 0#8, 0#8, 6#8, 0#8, 0#8, 0#8], numValues := 2, isSorted := false },
    dictData "a" .int32 .optional 2 [2#8, 0#8, 0#8, 0#8, 3#8, 1#8, 1#8, 2#8, 1#8],
    dictData "a" .int32 .optional 1 [2#8, 0#8, 0#8, 0#8, 2#8, 1#8, 1#8, 2#8, 0#8]],
   [.dict { buffer := [1#8, 0#8, 0#8, 0#8, 7#8], numValues := 1, isSorted := false },
    dictData "b" .byteArray .optional 3 [2#8, 0#8, 0#8, 0#8, 3#8, 6#8, 1#8, 4#8, 0#8]]]

def dictGroup : List (List CompressedPage) :=
  dictColumns.map fun pages => pages.flatMap fun p => match compressPage toyCodecs true p [] .snappy with
    | .ok cp => [cp]
    | _ => []

def dictNew : FileWriter := FileWriter.new dictSchema { writeStatistics := false, version := 2#32 } none

def dictEnd : Res Nat × FileWriter := (writerThen dictNew dictGroup).end_ thriftCodecs true none

theorem dict_example : ∃ n, Finished thriftCodecs true dictSchema { writeStatistics := false, version := 2#32 } none none
    [dictGroup] n dictEnd.2 := by
  have h1 : (dictNew.write thriftCodecs true (writerCall dictGroup)).1.isOk = true := by decide +kernel
  have h3 : dictEnd.1.isOk = true := by decide +kernel
  have hw := writerThen_wrote .nil h1
  generalize hend : dictEnd = r at h3
  obtain ⟨a, b⟩ := r
  cases a with
  | ok n => exact ⟨n, dictNew, _, .inl rfl, hw, .inl hend⟩
  | err e => cases h3
  | panic => cases h3

theorem dict_valid {page : DataPage} {bits : List Bool} (h : extendValidity [] page = .ok bits) (before : List Bool) :
    extendValidity before page = .ok (before ++ bits) := by
  unfold extendValidity at h ⊢
  obtain ⟨⟨_, lv, _⟩, h1, h⟩ := Res.bind_eq_ok.1 h
  rw [h1]
  simp only [Res.ok_bind] at h ⊢
  split at h
  · injection h with h
    rw [if_pos (by assumption), ← h, List.append_nil]
  · obtain ⟨e, h2, h⟩ := Res.bind_eq_ok.1 h
    obtain ⟨levels, h3, h⟩ := Res.bind_eq_ok.1 h
    obtain ⟨more, h4, h⟩ := Res.bind_eq_ok.1 h
    injection h with h
    rw [if_neg (by assumption), h2, Res.ok_bind, h3, Res.ok_bind, h4, Res.ok_bind, ← h, List.nil_append]

/-- The items of the pages, computed. -/
def dictBits : List Page → Res (List Bool)
  | [] => .ok []
  | .data page :: pages => do
    let here ← extendValidity [] page
    let rest ← dictBits pages
    .ok (here ++ rest)
  | .dict _ :: pages => dictBits pages

theorem dict_bits {pages : List Page} {bits : List Bool} (h : dictBits pages = .ok bits) : PagesValid pages bits := by
  induction pages generalizing bits with
  | nil => cases h; exact .nil
  | cons p pages ih =>
    cases p with
    | dict p => exact .dict (ih h)
    | data p =>
      obtain ⟨here, h1, h⟩ := Res.bind_eq_ok.1 h
      obtain ⟨rest, h2, h⟩ := Res.bind_eq_ok.1 h
      injection h with h
      subst h
      exact .data (dict_valid h1) (ih h2)

theorem dict_made : ∀ pages ∈ dictColumns, PagesMade toyCodecs true pages
    (pages.flatMap fun p => match compressPage toyCodecs true p [] .snappy with
      | .ok cp => [cp]
      | _ => []) := by
  intro pages hp
  refine ⟨.snappy, ?_, ?_⟩
  · revert pages
    decide +kernel
  · intro _ page hpage p hd e1 e2
    have : ∀ pages ∈ dictColumns, ∀ page ∈ pages, (match page with
      | .data p => match p.header with
        | .v1 _ => true
        | .v2 _ => false
      | .dict _ => true) = true := by decide +kernel
    have := this pages hp page hpage
    rw [e1] at this
    simp only [e2] at this
    cases this

theorem dict_readable : GoodTrees dictFields ∧ (∀ g ∈ [dictGroup], GroupFits thriftCodecs (dictSchema.leaves.zip g)) ∧
    (∀ g ∈ [dictGroup], dictSchema.leaves.length ≤ g.length) ∧
    (∀ g ∈ [dictGroup], ∀ c ∈ dictSchema.leaves.zip g, Readable c) ∧
    (∀ g ∈ [dictGroup], GroupRowsKnown (dictSchema.leaves.zip g)) := by
  refine ⟨?_, by decide +kernel, by decide +kernel, ?_, by decide +kernel⟩
  · simp only [dictFields, clientFields, clientType, GoodTrees, GoodTree, GoodPrimitive, SmallPhysical, and_true]
    simp
    exact ⟨rfl, rfl, rfl⟩
  · have h : ∀ g ∈ [dictGroup], ∀ c ∈ dictSchema.leaves.zip g, ∀ p ∈ c.2, PageOk p.compression c.1.descriptor p := by
      decide +kernel
    have h2 : ∀ g ∈ [dictGroup], ∀ c ∈ dictSchema.leaves.zip g, ∀ p ∈ c.2.getLast?, 0 < valuesOf p := by
      decide +kernel
    exact fun g hg c hc => ⟨h g hg c hc, h2 g hg c hc⟩

/-- The pages of the columns of the structure and their arrays. -/
def dictFirst : List Page × List PageArray :=
  (dictColumns[1]?.getD [], [.flat (.int32 [some 6#32, none]), .flat (.int32 [some 5#32])])

def dictSecond : List Page × List PageArray :=
  (dictColumns[2]?.getD [], [.flat (.binary [none, some [7#8], some [7#8]])])

theorem dict_pages : List.Forall₂ (fun (x : List Page × List PageArray) (c : ColumnDescriptor × List CompressedPage) =>
    PagesMade toyCodecs true x.1 c.2 ∧
    PagesRead true c.1.descriptor.primitiveType.physicalType none (x.1.map forget) x.2) [dictFirst, dictSecond]
    ((dictSchema.leaves.zip dictGroup).filter fun c => c.1.pathInSchema.head? == some "g") :=
  .cons ⟨dict_made _ (by decide +kernel), .dict (d := .int32 [5#32, 6#32]) (by decide +kernel)
      (.data (by decide +kernel) (.data (by decide +kernel) (.nil _)))⟩
    (.cons ⟨dict_made _ (by decide +kernel), .dict (d := .byteArray [[7#8]]) (by decide +kernel)
      (.data (by decide +kernel) (.nil _))⟩ .nil)

/-- A file of dictionary-encoded columns meets the hypotheses. -/
example : ∃ fm group, readMetadata fileCodec dictEnd.2.out = .ok fm ∧ fm.rowGroups[0]? = some group ∧
    (∀ c ∈ group.columns, c.columnDescr.pathInSchema ≠ []) ∧ (∀ c ∈ group.columns, UsableChunk c.columnChunk) ∧
    List.Forall₂ (fun x chunk => ChunkDelivers headerCodec toyCodecs true dictEnd.2.out (2 ^ 64 - 1) x.1 chunk ∧
      PagesRead true chunk.columnDescr.descriptor.primitiveType.physicalType none x.1 x.2)
      [(dictFirst.1.map forget, dictFirst.2), (dictSecond.1.map forget, dictSecond.2)]
      (group.columns.filter fun c => fieldOf c == some "g") ∧
    PagesValid (dictFirst.1.map forget) [true, false, true] := by
  obtain ⟨n, h⟩ := dict_example
  obtain ⟨md, pre, he, hr⟩ := C59_compact_partial true "s" dictFields (by decide) (by decide)
    dict_readable.1 _ none none [dictGroup] n dictEnd.2 h dict_readable.2.1 (by decide +kernel) dict_readable.2.2.1
    dict_readable.2.2.2.1 dict_readable.2.2.2.2 (by decide +kernel)
  have hl : dictEnd.2.out.length < 2 ^ 31 := by decide +kernel
  obtain ⟨fm, h1, -, -, -, -, -, -, h2⟩ := hr (by
    rw [he] at hl
    simp only [List.length_append] at hl
    omega)
  generalize hgs : fm.rowGroups = gs at h2
  cases h2 with
  | @cons _ group _ rest h3 h4 =>
    refine ⟨fm, group, h1, by rw [hgs]; rfl, fun c hc => ?_, fun c hc => ?_, ?_, dict_bits (by decide +kernel)⟩
    · obtain ⟨x, hx, hc⟩ := Client.forall₂_right h3.chunks hc
      rw [hc.descriptor]
      exact leaves_path "s" dictFields _ (List.of_mem_zip hx).1
    · obtain ⟨x, -, hc⟩ := Client.forall₂_right h3.chunks hc
      obtain ⟨m, hm, -⟩ := hc.inMemory
      exact field_usable hm
    · exact field_delivers toyCodecs_lawful (by omega) dict_pages (field_filter h3.chunks fun c chunk hc => by
        unfold fieldOf
        rw [hc.descriptor])

/-- **C94 (partial)** every file accepted by the writer, of flat columns or nested ones, with dictionaries or without: a
field of any row group is found by its name; what is read is what `fieldArray` makes of the pages it was written with,
each decoded with the dictionary of its column, whatever the buffers of the decompressors hold; and the statistics
are those of the pages of its last column. Missing: of a field that is not a structure only the last page is kept
(`C94_violated`); files whose pages are not `Readable` (C59) or do not fit (C57). -/
theorem C94_written_partial (cs : Codecs) (hcs : Lawful cs) (ck : Bool) (name : String) (fields : List ParquetType)
    (h0 : 0 < fields.length) (h31 : fields.length < 2 ^ 31) (hg : GoodTrees fields)
    (options : WriteOptions) (createdBy : Option String) (kv : Option (List Thrift.KeyValue))
    (groups : List (List (List CompressedPage))) (n : Nat) (w : FileWriter)
    (h : Finished thriftCodecs ck (SchemaDescriptor.new name fields) options createdBy kv groups n w)
    (hf : ∀ g ∈ groups, GroupFits thriftCodecs ((SchemaDescriptor.new name fields).leaves.zip g))
    (hlen : w.out.length < 2 ^ 63)
    (hcols : ∀ g ∈ groups, (SchemaDescriptor.new name fields).leaves.length ≤ g.length)
    (hread : ∀ g ∈ groups, ∀ c ∈ (SchemaDescriptor.new name fields).leaves.zip g, Readable c)
    (hrows : ∀ g ∈ groups, GroupRowsKnown ((SchemaDescriptor.new name fields).leaves.zip g))
    (htotal : (groups.map fun g =>
      groupRows ((SchemaDescriptor.new name fields).leaves.zip g)).sum < 2 ^ 63) :
    ∃ md pre, w.out = pre ++ fileCodec.ser md ++ tail8 (fileCodec.ser md) ∧
      ((fileCodec.ser md).length < 2 ^ 31 →
        ∀ (i : Nat) g field nm fuel buffers (first : List Page × List PageArray)
          (cols : List (List Page × List PageArray)) bits array, groups[i]? = some g →
          fields.find? (fun f => f.name == nm) = some field →
          List.Forall₂ (fun x c => PagesMade cs ck x.1 c.2 ∧
            PagesRead ck c.1.descriptor.primitiveType.physicalType none (x.1.map forget) x.2) (first :: cols)
            (((SchemaDescriptor.new name fields).leaves.zip g).filter fun c => c.1.pathInSchema.head? == some nm) →
          PagesValid (first.1.map forget) bits → (∀ x ∈ first :: cols, x.1.length < fuel) →
          fieldArray field ((first :: cols).flatMap (·.2)) bits = .ok array →
          ∃ s last, readField fileCodec headerCodec cs ck buffers fuel w.out i nm = .ok (array, s) ∧
            (ofField (SchemaDescriptor.new name fields).leaves g nm).getLast? = some last ∧
            StatisticsTell (last.map pageStats) (s.map .ok)) := by
  obtain ⟨md, pre, he, hr⟩ := C59_compact_partial ck name fields h0 h31 hg options createdBy kv groups n w h hf hlen
    hcols hread hrows htotal
  refine ⟨md, pre, he, fun hmd => ?_⟩
  obtain ⟨fm, h1, -, -, -, h5, -, -, h7⟩ := hr hmd
  intro i g field nm fuel buffers first cols bits array hgi hfind hmade hvalid hfuel harray
  have hlen2 := h7.length_eq
  have hi : i < groups.length := by
    rcases Nat.lt_or_ge i groups.length with hi | hi
    · exact hi
    · rw [List.getElem?_eq_none hi] at hgi; cases hgi
  have hgrp : ∃ group, fm.rowGroups[i]? = some group ∧ GroupReads thriftCodecs
      (fun h => (headerCodec.ser h).length) w.out ((SchemaDescriptor.new name fields).leaves.zip g) group := by
    refine ⟨fm.rowGroups[i]'(by omega), List.getElem?_eq_getElem _, ?_⟩
    have := List.forall₂_iff_get.1 h7 |>.2 i hi (by omega)
    rw [List.getElem?_eq_getElem hi, Option.some.injEq] at hgi
    rw [← hgi]
    exact this
  obtain ⟨group, hg1, hg2⟩ := hgrp
  have hname : field.name = nm := by
    have := List.find?_some hfind
    simpa using this
  have hdescr : ∀ c chunk, ColumnReads thriftCodecs.page (fun h => (headerCodec.ser h).length) w.out c chunk →
      (c.1.pathInSchema.head? == some nm) = (fieldOf chunk == some nm) := by
    intro c chunk hc
    unfold fieldOf
    rw [hc.descriptor]
  have hchunks := field_filter (p := fun c => c.1.pathInSchema.head? == some nm)
    (q := fun chunk => fieldOf chunk == some nm) hg2.chunks hdescr
  have hpath : ∀ chunk ∈ group.columns, chunk.columnDescr.pathInSchema ≠ [] := by
    intro chunk hc
    obtain ⟨c, hcm, hcr⟩ := Client.forall₂_right hg2.chunks hc
    rw [hcr.descriptor]
    exact leaves_path name fields _ (List.of_mem_zip hcm).1
  have husable : ∀ chunk ∈ group.columns, UsableChunk chunk.columnChunk := by
    intro chunk hc
    obtain ⟨c, -, hcr⟩ := Client.forall₂_right hg2.chunks hc
    obtain ⟨m, hm, -⟩ := hcr.inMemory
    exact field_usable hm
  obtain ⟨ss, hs1, hs2⟩ := field_statistics hchunks
  obtain ⟨it, hit, harr⟩ := C94_columns headerCodec cs ck w.out (2 ^ 64 - 1) fuel buffers group field hpath husable
    (first.1.map forget, first.2) (cols.map fun x => (x.1.map forget, x.2)) bits
    (by rw [hname]; exact field_delivers hcs hlen hmade hchunks) hvalid
    (by
      intro x hx
      rw [← List.map_cons (f := fun x : List Page × List PageArray => (x.1.map forget, x.2))] at hx
      obtain ⟨y, hy, rfl⟩ := List.mem_map.1 hx
      simpa using hfuel y hy)
  rw [show ((first.1.map forget, first.2) :: cols.map fun x => (x.1.map forget, x.2)).flatMap (·.2) =
    (first :: cols).flatMap (·.2) by simp [List.flatMap_cons, List.flatMap_map], harray] at harr
  have hfields : fm.schemaDescr.fields = fields := by rw [h5]; rfl
  have hss : ∃ c s, (((SchemaDescriptor.new name fields).leaves.zip g).filter
      (fun c => c.1.pathInSchema.head? == some nm)).getLast? = some c ∧ ss.getLast? = some s ∧
      StatisticsTell (c.2.map pageStats) (s.map .ok) := by
    have hssne : ss ≠ [] := by
      intro e
      have h1 := hmade.length_eq
      have h2 := hs2.length_eq
      rw [e] at h2
      rw [h2] at h1
      cases h1
    obtain ⟨s, hs⟩ : ∃ s, ss.getLast? = some s := ⟨_, List.getLast?_eq_some_getLast hssne⟩
    obtain ⟨c, hc, ht⟩ := Client.forall₂_getLast hs2 hs
    exact ⟨c, s, hc, hs, ht⟩
  obtain ⟨c, s, hc, hs, ht⟩ := hss
  refine ⟨s, c.2, ?_, ?_, ht⟩
  · unfold readField
    rw [h1]
    rw [hname] at hit
    simp only [Res.ok_bind, hfields, hfind, hg1, Res.unwrap, hname, hit, C54_field_columns nm _ hpath, hs1, harr, hs]
  · unfold ofField
    rw [List.getLast?_map, hc]
    rfl

/-- It meets the hypotheses: the structure is read with the dictionaries of its columns, whatever the buffers. -/
example (buffers : Nat → Nat → Nat × List Byte) :
    ∃ s, readField fileCodec headerCodec toyCodecs true buffers 4 dictEnd.2.out 0 "g" =
      .ok (.struct [.flat (.int32 [some 6#32, none]), .flat (.int32 [some 5#32]),
        .flat (.binary [none, some [7#8], some [7#8]])] [true, false, true], s) := by
  obtain ⟨n, h⟩ := dict_example
  obtain ⟨md, pre, he, hr⟩ := C94_written_partial toyCodecs toyCodecs_lawful true "s" dictFields (by decide) (by decide)
    dict_readable.1 _ none none [dictGroup] n dictEnd.2 h dict_readable.2.1 (by decide +kernel) dict_readable.2.2.1
    dict_readable.2.2.2.1 dict_readable.2.2.2.2 (by decide +kernel)
  have hl : dictEnd.2.out.length < 2 ^ 31 := by decide +kernel
  obtain ⟨s, _, h1, -⟩ := hr (by
      rw [he] at hl
      simp only [List.length_append] at hl
      omega)
    0 dictGroup (.group { name := "g", repetition := .required, id := none } none none clientFields) "g" 4 buffers
    dictFirst [dictSecond] [true, false, true] _ rfl rfl dict_pages
    (dict_bits (by decide +kernel)) (by decide +kernel) rfl
  exact ⟨s, h1⟩

/-- **C94 (partial)** every file of flat optional columns made of arrays as the client of the repository does, accepted
by the writer: a field is found by its name, whatever the row group, however many pages its columns have and
whatever the buffers of the decompressors hold; it is read as the arrays of its columns (`FieldIs`); and the statistics
are those of the pages of its last column. Missing: of a primitive field with several pages only the last one is
kept (`C94_violated`); what is missing in C70. -/
theorem C94_field_partial (cs : Codecs) (hcs : Lawful cs) (ck : Bool) (name : String) (fields : List ParquetType)
    (h0 : 0 < fields.length) (h31 : fields.length < 2 ^ 31) (hg : GoodTrees fields)
    (options : WriteOptions) (createdBy : Option String) (kv : Option (List Thrift.KeyValue))
    (arrays : List (List (List Client.Array))) (groups : List (List (List CompressedPage))) (n : Nat) (w : FileWriter)
    (h : Finished thriftCodecs ck (SchemaDescriptor.new name fields) options createdBy kv groups n w)
    (hcols : ∀ g ∈ groups, (SchemaDescriptor.new name fields).leaves.length ≤ g.length)
    (hpages : List.Forall₂ (fun ga g => List.Forall₂ (ColumnOf cs ck options) ga
      ((SchemaDescriptor.new name fields).leaves.zip g)) arrays groups)
    (hf : ∀ g ∈ groups, GroupFits thriftCodecs ((SchemaDescriptor.new name fields).leaves.zip g))
    (hlen : w.out.length < 2 ^ 63) (htotal : (arrays.map arrayRows).sum < 2 ^ 63) :
    ∃ md pre, w.out = pre ++ fileCodec.ser md ++ tail8 (fileCodec.ser md) ∧
      ((fileCodec.ser md).length < 2 ^ 31 →
        ∀ (i : Nat) ga g field nm pages buffers, arrays[i]? = some ga → groups[i]? = some g →
          fields.find? (fun f => f.name == nm) = some field →
          ((∃ p, field = .primitive p) ∨ ∃ info l fs, field = .group info l none fs) →
          (ofField (SchemaDescriptor.new name fields).leaves ga nm).flatten ≠ [] →
          (∀ ps ∈ ofField (SchemaDescriptor.new name fields).leaves g nm, ps.length < pages) →
          ∃ a s last, readField fileCodec headerCodec cs ck buffers pages w.out i nm = .ok (a, s) ∧
            FieldIs field (ofField (SchemaDescriptor.new name fields).leaves ga nm) a ∧
            (ofField (SchemaDescriptor.new name fields).leaves g nm).getLast? = some last ∧
            StatisticsTell (last.map pageStats) (s.map .ok)) := by
  have hmem : ∀ g ∈ groups, ∃ ga ∈ arrays, List.Forall₂ (ColumnOf cs ck options) ga
      ((SchemaDescriptor.new name fields).leaves.zip g) := fun g hg => Client.forall₂_right hpages hg
  have hsum : (groups.map fun g => groupRows ((SchemaDescriptor.new name fields).leaves.zip g)) =
      arrays.map arrayRows := by
    clear h hcols hf hlen htotal hmem
    induction hpages with
    | nil => rfl
    | cons hc _ ih => rw [List.map_cons, List.map_cons, ih, (client_groupRows hc).1]
  have hle : ∀ ga ∈ arrays, arrayRows ga ≤ (arrays.map arrayRows).sum := by
    intro ga hga
    obtain ⟨l, r, rfl⟩ := List.append_of_mem hga
    simp only [List.map_append, List.map_cons, List.sum_append, List.sum_cons]
    omega
  obtain ⟨md, pre, he, hr⟩ := C59_compact_partial ck name fields h0 h31 hg options createdBy kv groups n w h hf hlen
    hcols
    (by
      intro g hg c hc
      obtain ⟨ga, -, hga⟩ := hmem g hg
      obtain ⟨a, -, ha⟩ := Client.forall₂_right hga hc
      exact columnOf_readable ha)
    (by
      intro g hg
      obtain ⟨ga, hgm, hga⟩ := hmem g hg
      exact (client_groupRows hga).2 (Nat.lt_of_le_of_lt (hle ga hgm) htotal))
    (by rw [hsum]; exact htotal)
  refine ⟨md, pre, he, fun hmd => ?_⟩
  obtain ⟨fm, h1, -, -, -, h5, -, -, h7⟩ := hr hmd
  intro i ga g field nm pages buffers hga hgi hfind hkind hne hcount
  -- the row group
  have hlen2 := h7.length_eq
  have hi : i < groups.length := by
    rcases Nat.lt_or_ge i groups.length with hi | hi
    · exact hi
    · rw [List.getElem?_eq_none hi] at hgi; cases hgi
  have hgrp : ∃ group, fm.rowGroups[i]? = some group ∧ GroupReads thriftCodecs
      (fun h => (headerCodec.ser h).length) w.out ((SchemaDescriptor.new name fields).leaves.zip g) group := by
    refine ⟨fm.rowGroups[i]'(by omega), List.getElem?_eq_getElem _, ?_⟩
    have := List.forall₂_iff_get.1 h7 |>.2 i hi (by omega)
    rw [List.getElem?_eq_getElem hi, Option.some.injEq] at hgi
    rw [← hgi]
    exact this
  have hcol : List.Forall₂ (ColumnOf cs ck options) ga ((SchemaDescriptor.new name fields).leaves.zip g) := by
    have hl := hpages.length_eq
    have := List.forall₂_iff_get.1 hpages |>.2 i (by omega) hi
    rw [List.getElem?_eq_getElem hi, Option.some.injEq] at hgi
    rw [List.getElem?_eq_getElem (by omega), Option.some.injEq] at hga
    rw [← hgi, ← hga]
    exact this
  obtain ⟨group, hg1, hg2⟩ := hgrp
  have hname : field.name = nm := by
    have := List.find?_some hfind
    simpa using this
  -- its columns of the field
  have hdescr : ∀ c chunk, ColumnReads thriftCodecs.page (fun h => (headerCodec.ser h).length) w.out c chunk →
      (c.1.pathInSchema.head? == some nm) = (fieldOf chunk == some nm) := by
    intro c chunk hc
    unfold fieldOf
    rw [hc.descriptor]
  have hchunks := field_filter (p := fun c => c.1.pathInSchema.head? == some nm)
    (q := fun chunk => fieldOf chunk == some nm) hg2.chunks hdescr
  have harrays := field_arrays (p := fun c : ColumnDescriptor => c.pathInSchema.head? == some nm) hcol
  have hpath : ∀ chunk ∈ group.columns, chunk.columnDescr.pathInSchema ≠ [] := by
    intro chunk hc
    obtain ⟨c, hcm, hcr⟩ := Client.forall₂_right hg2.chunks hc
    rw [hcr.descriptor]
    exact leaves_path name fields _ (List.of_mem_zip hcm).1
  have husable : ∀ chunk ∈ group.columns, UsableChunk chunk.columnChunk := by
    intro chunk hc
    obtain ⟨c, -, hcr⟩ := Client.forall₂_right hg2.chunks hc
    obtain ⟨m, hm, -⟩ := hcr.inMemory
    exact field_usable hm
  obtain ⟨it, hit, hadv⟩ := C54_column_iterator w.out group nm none [] (2 ^ 64 - 1) hpath husable
  have hitc : it.columns.length = (group.columns.filter fun c => fieldOf c == some nm).length := by
    rw [getColumnIterator, C54_field_columns nm _ hpath] at hit
    injection hit with hit
    rw [← hit]
    simp [ColumnIterator.new]
  obtain ⟨ss, hs1, hs2⟩ := field_statistics hchunks
  have hsizes : ∀ c ∈ ((SchemaDescriptor.new name fields).leaves.zip g).filter
      (fun c => c.1.pathInSchema.head? == some nm), ∀ p ∈ c.2,
      p.buffer.length ≤ 2 ^ 64 - 1 ∧ (headerCodec.ser (headerOf p)).length ≤ 2 ^ 64 - 1 := by
    intro c hc p hp
    have := (List.forall₂_iff_get.1 hchunks)
    obtain ⟨k, hk, rfl⟩ := List.mem_iff_getElem.1 hc
    have hk2 := this.1
    have hs := field_sizes (this.2 k hk (by omega)) p hp
    have e : thriftCodecs.page = headerCodec := rfl
    rw [e] at hs
    omega
  have hloop := Client.readColumns_ok hcs (2 ^ 64 - 1) pages buffers harrays hchunks hsizes
    (fun c hc => hcount c.2 (List.mem_map.2 ⟨c, hc, rfl⟩)) it hadv
    (it.columns.length + 1) 0 (by omega) false { validity := [], arrays := [] }
  have hflat : (ofField (SchemaDescriptor.new name fields).leaves ga nm).flatten =
    ((((SchemaDescriptor.new name fields).leaves.zip ga).filter fun x => x.1.pathInSchema.head? == some nm).map
      (·.2)).flatten := rfl
  have hfields : fm.schemaDescr.fields = fields := by rw [h5]; rfl
  -- the last column
  have hss : ∃ c s, (((SchemaDescriptor.new name fields).leaves.zip g).filter
      (fun c => c.1.pathInSchema.head? == some nm)).getLast? = some c ∧ ss.getLast? = some s ∧
      StatisticsTell (c.2.map pageStats) (s.map .ok) := by
    have hssne : ss ≠ [] := by
      intro e
      rw [e] at hs2
      generalize hx : (((SchemaDescriptor.new name fields).leaves.zip g).filter
        (fun c => c.1.pathInSchema.head? == some nm)) = xs at hs2 harrays
      cases hs2
      have hl := harrays.length_eq
      rw [List.length_nil, List.length_eq_zero_iff] at hl
      exact hne (by rw [hflat, hl]; rfl)
    obtain ⟨s, hs⟩ : ∃ s, ss.getLast? = some s := ⟨_, List.getLast?_eq_some_getLast hssne⟩
    obtain ⟨c, hc, ht⟩ := Client.forall₂_getLast hs2 hs
    exact ⟨c, s, hc, hs, ht⟩
  obtain ⟨c, s, hc, hs, ht⟩ := hss
  have hread : ∀ a, Reading.finish
      { validity := ((ofField (SchemaDescriptor.new name fields).leaves ga nm).head?.getD []).flatMap arrayBits
        arrays := (ofField (SchemaDescriptor.new name fields).leaves ga nm).flatten.map .flat } field = .ok a →
      readField fileCodec headerCodec cs ck buffers pages w.out i nm = .ok (a, s) := by
    intro a ha
    unfold readField
    rw [h1]
    simp only [Res.ok_bind, hfields, hfind, hg1, Res.unwrap, hname, hit, C54_field_columns nm _ hpath, hs1]
    unfold columnsToArray
    have e : thriftCodecs.page = headerCodec := rfl
    rw [e] at hloop
    rw [hloop]
    simp only [Res.ok_bind, Bool.false_eq_true, if_false, List.nil_append]
    unfold ofField at ha
    rw [ha]
    simp only [Res.ok_bind, hs]
  have hlast : (ofField (SchemaDescriptor.new name fields).leaves g nm).getLast? = some c.2 := by
    unfold ofField
    rw [List.getLast?_map, hc]
    rfl
  rcases hkind with ⟨p, rfl⟩ | ⟨info, l, fs, rfl⟩
  · obtain ⟨x, hx⟩ : ∃ x, (ofField (SchemaDescriptor.new name fields).leaves ga nm).flatten.getLast? = some x :=
      ⟨_, List.getLast?_eq_some_getLast hne⟩
    refine ⟨.page (.flat x), s, c.2, hread _ ?_, ⟨⟨p, rfl⟩, x, hx, rfl⟩, hlast, ht⟩
    unfold Reading.finish
    simp only [List.getLast?_map, hx, Option.map_some]
  · exact ⟨_, s, c.2, hread _ rfl, ⟨⟨info, l, fs, rfl⟩, rfl, rfl⟩, hlast, ht⟩

/-- The file of C70 with two row groups: the field "b" of the first one meets the hypotheses, and is read. -/
example :
    (∃ n, Finished thriftCodecs true (SchemaDescriptor.new "s" clientFields) clientOptions (some "me") none
      clientGroups n clientEnd.2) ∧ Lawful toyCodecs ∧
    List.Forall₂ (fun ga g => List.Forall₂ (ColumnOf toyCodecs true clientOptions) ga
      ((SchemaDescriptor.new "s" clientFields).leaves.zip g)) clientArrays clientGroups ∧
    (clientFields.find? fun f => f.name == "b") = some (.primitive (clientType "b" .byteArray .optional)) ∧
    ofField clientSchema.leaves (clientArrays.headD []) "b" = [[.binary [some [1#8, 2#8], none, some [], none]]] ∧
    (∀ ps ∈ ofField clientSchema.leaves (clientGroups.headD []) "b", ps.length < 2) ∧
    (readField fileCodec headerCodec toyCodecs true (fun _ _ => (3, [9#8])) 2 clientEnd.2.out 0 "b").map' (·.1) =
      .ok (.page (.flat (.binary [some [1#8, 2#8], none, some [], none]))) :=
  ⟨client_example, toyCodecs_lawful, client_example_pages, rfl, by decide +kernel, by decide +kernel,
    by decide +kernel⟩

/-- A structure of two fields, and another field. -/
def structFields : List ParquetType :=
  [.group { name := "g", repetition := .required, id := none } none none clientFields,
   .primitive (clientType "a" .int32 .optional)]

/-- One row group of these fields; the first column has two pages. -/
def structArrays : List (List Client.Array) :=
  [[.int32 [some 1#32, none], .int32 [some 5#32]], [.binary [none, some [7#8], some []]], [.int32 [none, none, some 2#32]]]

def structFile : List Byte :=
  let schema := SchemaDescriptor.new "s" structFields
  let group := (schema.leaves.zip structArrays).map fun (c, as) =>
    as.flatMap fun a => match clientCompress c.descriptor a with
      | .ok cp => [cp]
      | _ => []
  ((writerThen (FileWriter.new schema clientOptions none) group).end_ thriftCodecs true none).2.out

/-- Its columns are flat, and both fields are read by their names: the column "a" of the structure is not taken
for the field "a". -/
example :
    (∀ c ∈ (SchemaDescriptor.new "s" structFields).leaves, c.descriptor.maxDefLevel = 1#16) ∧
    ofField (SchemaDescriptor.new "s" structFields).leaves structArrays "g" = structArrays.take 2 ∧
    (readField fileCodec headerCodec toyCodecs true (fun _ _ => (0, [])) 3 structFile 0 "g").map' (·.1) =
      .ok (.struct [.flat (.int32 [some 1#32, none]), .flat (.int32 [some 5#32]),
        .flat (.binary [none, some [7#8], some []])] [true, false, true]) ∧
    (readField fileCodec headerCodec toyCodecs true (fun _ _ => (0, [])) 3 structFile 0 "a").map' (·.1) =
      .ok (.page (.flat (.int32 [none, none, some 2#32]))) := by
  decide +kernel

/-- **C94** of a file with readable metadata, a field that is not in the schema is refused with an error, whatever the
row group; a row group that is not there aborts the program. -/
theorem C94_missing (codec : Codec Thrift.FileMetaData) (pageCodec : Codec Thrift.PageHeader) (cs : Codecs) (ck : Bool)
    (buffers : Nat → Nat → Nat × List Byte) (pages : Nat) (file : List Byte) (fm : FileMetaData)
    (hm : readMetadata codec file = .ok fm) (name : String) (rowGroup : Nat) :
    ((∀ f ∈ fm.schemaDescr.fields, f.name ≠ name) →
      readField codec pageCodec cs ck buffers pages file rowGroup name = .err .oos) ∧
    ((∃ f ∈ fm.schemaDescr.fields, f.name = name) → fm.rowGroups.length ≤ rowGroup →
      readField codec pageCodec cs ck buffers pages file rowGroup name = .panic) := by
  unfold readField
  rw [hm]
  simp only [Res.ok_bind]
  constructor
  · intro h
    rw [List.find?_eq_none.2 (fun f hf => by simpa using h f hf)]
  · rintro ⟨f, hf, hn⟩ hg
    cases hx : fm.schemaDescr.fields.find? fun f => f.name == name with
    | none => exact absurd hn (by simpa using List.find?_eq_none.1 hx f hf)
    | some field =>
      simp only [List.getElem?_eq_none hg, Res.unwrap]
      rfl

example : (readMetadata fileCodec structFile).isOk = true ∧
    (readField fileCodec headerCodec toyCodecs true (fun _ _ => (0, [])) 3 structFile 0 "b").map' (·.1) = .err .oos ∧
    (readField fileCodec headerCodec toyCodecs true (fun _ _ => (0, [])) 3 structFile 1 "a").map' (·.1) = .panic := by
  decide +kernel

/-- The columns of a field before the first one whose statistics cannot be decoded, and the error of that one. -/
theorem fieldStatistics_error {before after : List ColumnChunkMetaData} {column : ColumnChunkMetaData} {e : Err}
    (hb : ∀ c ∈ before, c.statistics = .ok none ∨ ∃ s, c.statistics = .ok (some (.ok s)))
    (hc : column.statistics = .ok (some (.err e))) :
    fieldStatistics (before ++ column :: after) = .err e := by
  induction before with
  | nil => simp only [List.nil_append, fieldStatistics, hc, Res.ok_bind, Res.map']; rfl
  | cons c cs ih =>
    have ih := ih fun c' h => hb c' (List.mem_cons_of_mem _ h)
    simp only [List.cons_append, fieldStatistics, ih]
    rcases hb c (by simp) with h | ⟨s, h⟩ <;> rw [h] <;> rfl

/-- **C94** statistics that cannot be decoded are not taken for missing: a field with such a column is refused with
the error of the first one, whatever its pages. -/
theorem C94_statistics (codec : Codec Thrift.FileMetaData) (pageCodec : Codec Thrift.PageHeader) (cs : Codecs) (ck : Bool)
    (buffers : Nat → Nat → Nat × List Byte) (pages : Nat) (file : List Byte) (fm : FileMetaData)
    (hm : readMetadata codec file = .ok fm) (name : String) (rowGroup : Nat) (group : RowGroupMetaData)
    (hf : ∃ f ∈ fm.schemaDescr.fields, f.name = name) (hg : fm.rowGroups[rowGroup]? = some group)
    (hp : ∀ c ∈ group.columns, c.columnDescr.pathInSchema ≠ [])
    (before after : List ColumnChunkMetaData) (column : ColumnChunkMetaData) (e : Err)
    (hcs : (group.columns.filter fun c => c.columnDescr.pathInSchema.head? = some name) = before ++ column :: after)
    (hb : ∀ c ∈ before, c.statistics = .ok none ∨ ∃ s, c.statistics = .ok (some (.ok s)))
    (hc : column.statistics = .ok (some (.err e))) :
    readField codec pageCodec cs ck buffers pages file rowGroup name = .err e := by
  unfold readField
  rw [hm]
  simp only [Res.ok_bind]
  obtain ⟨f, hf, hn⟩ := hf
  cases hx : fm.schemaDescr.fields.find? fun f => f.name == name with
  | none => exact absurd hn (by simpa using List.find?_eq_none.1 hx f hf)
  | some field =>
    have hname : field.name = name := by simpa using List.find?_some hx
    have hcols := getFieldColumns_ok name group.columns hp
    rw [hcs] at hcols
    simp only [hg, Res.unwrap, Res.ok_bind, hname, getColumnIterator, hcols, fieldStatistics_error hb hc]
    rfl

/-- The file of the structure with another footer: the smallest value in the statistics of its last column, of `i32`, has
three bytes. -/
def wrongStatisticsFile : List Byte :=
  match footerBytes structFile structFile.length with
  | .ok bytes =>
    match (fileCodec.parse 100000 bytes).1 with
    | .ok m =>
      let m := { m with rowGroups := m.rowGroups.map fun g => { g with columns := g.columns.zipIdx.map fun (c, i) =>
        if i = 2 then
          { c with metaData := c.metaData.map fun d =>
              { d with statistics := d.statistics.map fun s => { s with minValue := some [1, 2, 3] } } }
        else c } }
      let out := fileCodec.ser m
      structFile ++ out ++ toLe 4 (BitVec.ofNat 32 out.length) ++ magic
    | _ => []
  | _ => []

example :
    (readMetadata fileCodec wrongStatisticsFile).isOk = true ∧
    ((readMetadata fileCodec wrongStatisticsFile).map' fun fm => fm.rowGroups.map fun g =>
      g.columns.map fun c => (c.columnDescr.pathInSchema, (c.statistics.map' fun s => s.map Res.isOk))) =
      .ok [[(["g", "a"], .ok (some true)), (["g", "b"], .ok (some true)), (["a"], .ok (some false))]] ∧
    (readField fileCodec headerCodec toyCodecs true (fun _ _ => (0, [])) 3 wrongStatisticsFile 0 "g").map' (·.1) =
      .ok (.struct [.flat (.int32 [some 1#32, none]), .flat (.int32 [some 5#32]),
        .flat (.binary [none, some [7#8], some []])] [true, false, true]) ∧
    (readField fileCodec headerCodec toyCodecs true (fun _ _ => (0, [])) 3 wrongStatisticsFile 0 "a").map' (·.1) =
      .err .oos := by
  decide +kernel

/-- **C94** is false of the code: of the field "a" of the file of C70, which has two pages of three rows and one,
only the last one is returned. -/
theorem C94_violated :
    ofField clientSchema.leaves (clientArrays.headD []) "a" =
      [[.int32 [some 1#32, none, some 0xFFFFFFFF#32], .int32 [none]]] ∧
    (readField fileCodec headerCodec toyCodecs true (fun _ _ => (0, [])) 3 clientEnd.2.out 0 "a").map' (·.1) =
      .ok (.page (.flat (.int32 [none]))) := by
  decide +kernel

end Pq.Props
