import Verif.Lemmas.ArbitraryFile
import Verif.Props.PageIO
import Verif.Props.FileMetadata
/-
Property theorems about files of arbitrary bytes: C83.
-/
namespace Pq.Props

open Spec

/-- **C83** the getters of a column, however it was made: they abort exactly when the column chunk has no
metadata, and `compression` also when the codec is unknown; nothing is refused. -/
theorem C83_getters (c : ColumnChunkMetaData) :
    (c.columnChunk.metaData = none → c.metadata = .panic ∧ c.numValues = .panic ∧ c.compression = .panic ∧
      c.compressedSize = .panic ∧ c.uncompressedSize = .panic ∧ c.dataPageOffset = .panic ∧
      c.hasIndexPage = .panic ∧ c.indexPageOffset = .panic ∧ c.dictionaryPageOffset = .panic ∧
      c.columnEncoding = .panic ∧ c.byteRange = .panic ∧ c.statistics = .panic) ∧
    ∀ m, c.columnChunk.metaData = some m →
      (m.codec.toNat < 8 → ∃ x, x.toThrift = m.codec ∧ c.compression = .ok x) ∧
      (8 ≤ m.codec.toNat → c.compression = .panic) ∧
      c.byteRange = .ok ((m.dictionaryPageOffset.getD m.dataPageOffset).toNat, m.totalCompressedSize.toNat) := by
  constructor
  · intro h
    simp [ColumnChunkMetaData.metadata, ColumnChunkMetaData.numValues, ColumnChunkMetaData.compression,
      ColumnChunkMetaData.compressedSize, ColumnChunkMetaData.uncompressedSize,
      ColumnChunkMetaData.dataPageOffset, ColumnChunkMetaData.hasIndexPage,
      ColumnChunkMetaData.indexPageOffset, ColumnChunkMetaData.dictionaryPageOffset,
      ColumnChunkMetaData.columnEncoding, ColumnChunkMetaData.byteRange, ColumnChunkMetaData.statistics, h,
      Res.unwrap, Res.map', Bind.bind, Res.bind]
  · intro m hm
    have hmeta : c.metadata = .ok m := by rw [ColumnChunkMetaData.metadata, hm]; rfl
    refine ⟨fun hlt => ?_, fun hge => ?_, ?_⟩
    · rw [ColumnChunkMetaData.compression, hmeta, Res.ok_bind]
      generalize m.codec = k at hlt
      obtain ⟨x, h1, h2⟩ : ∃ x, Compression.ofThrift k = .ok x ∧ x.toThrift = k := by
        have : k = 0#32 ∨ k = 1#32 ∨ k = 2#32 ∨ k = 3#32 ∨ k = 4#32 ∨ k = 5#32 ∨ k = 6#32 ∨ k = 7#32 := by
          simp only [BitVec.toNat_eq, BitVec.toNat_ofNat]
          omega
        rcases this with rfl | rfl | rfl | rfl | rfl | rfl | rfl | rfl <;> exact ⟨_, rfl, rfl⟩
      exact ⟨x, h2, by rw [h1]⟩
    · rw [ColumnChunkMetaData.compression, hmeta, Res.ok_bind]
      have hk : Compression.ofThrift m.codec = .err .oos := by
        unfold Compression.ofThrift
        repeat rw [if_neg (by intro h; rw [h] at hge; simp at hge)]
      rw [hk]
    · rw [ColumnChunkMetaData.byteRange, hmeta, Res.ok_bind]
      cases m.dictionaryPageOffset <;> simp [asUsize, BitVec.signExtend_eq]

/-- A column whose codec is unknown. -/
example : ∃ (c : ColumnChunkMetaData) (m : Thrift.ColumnMetaData), c.columnChunk.metaData = some m ∧
    8 ≤ m.codec.toNat ∧ c.compression = .panic := by
  let m : Thrift.ColumnMetaData := { type := 1#32, encodings := [0#32], pathInSchema := ["a"], codec := 9#32
                                     numValues := 1#64, totalUncompressedSize := 4#64
                                     totalCompressedSize := 4#64, dataPageOffset := 4#64 }
  let t : PrimitiveType := { fieldInfo := { name := "a", repetition := .required, id := none }
                             logicalType := none, convertedType := none, physicalType := .int32 }
  exact ⟨⟨{ fileOffset := 0#64, metaData := some m }, ⟨⟨t, 0, 0⟩, ["a"], .primitive t⟩⟩, m, rfl, by decide, rfl⟩

/-- A V2 page header whose level lengths add up to 2^31. -/
def overflowHeader : Thrift.PageHeader :=
  { type := 3#32, uncompressedPageSize := 3#32, compressedPageSize := 4#32
    dataPageHeaderV2 := some
      { numValues := 3#32, numNulls := 0#32, numRows := 3#32, encoding := 0#32
        definitionLevelsByteLength := 0x7FFFFFFF#32, repetitionLevelsByteLength := 1#32
        isCompressed := none, statistics := none } }

/-- A column chunk with the codec snappy. -/
def arbitraryChunk (name : String) (size : I64) : Thrift.ColumnChunk :=
  { fileOffset := 4#64
    metaData := some { type := 1#32, encodings := [0#32], pathInSchema := [name], codec := 1#32
                       numValues := 3#64, totalUncompressedSize := 3#64, totalCompressedSize := size
                       dataPageOffset := 4#64 } }

/-- File metadata with one row group of these columns. -/
def arbitraryMetadata (columns : List (String × I64)) : Thrift.FileMetaData :=
  { version := 2#32
    schema := (SchemaDescriptor.new "s" (columns.map fun c => .primitive
      { fieldInfo := { name := c.1, repetition := .required, id := none }, logicalType := none
        convertedType := none, physicalType := .int32 })).intoThrift
    numRows := 3#64
    rowGroups := [{ columns := columns.map fun c => arbitraryChunk c.1 c.2, totalByteSize := 4#64
                    numRows := 3#64 }] }

/-- A file: magic bytes, a page, metadata. -/
def arbitraryFile (header : Thrift.PageHeader) (columns : List (String × I64)) : List Byte :=
  let m := fileCodec.ser (arbitraryMetadata columns)
  par1 ++ headerCodec.ser header ++ [7#8, 1#8, 2#8, 3#8] ++ m ++ tail8 m

/-- What comes of the first page of the first column. -/
def firstPage (ck : Bool) (file : List Byte) : Res (Option (List Byte)) :=
  (readMetadata fileCodec file).bind fun fm =>
  match (fm.rowGroups.flatMap (·.columns)) with
  | [] => .err .oos
  | c :: _ => (getPageIterator c file none [] 1000).bind fun r =>
    match (Decompressor.new r []).advance toyCodecs ck (PageReader.iter headerCodec ck) 0 with
    | (.ok _, d) => .ok (d.current.map (·.buffer))
    | (.err e, _) => .err e
    | (.panic, _) => .panic

theorem toyCodecs_noPanic : NoPanic toyCodecs where
  readExact := by intro c i o; simp only [toyCodecs]; split <;> simp
  snappyLen := by intro i; simp [toyCodecs]
  decBlock := by intro c i o; simp only [toyCodecs]; split <;> simp


/-- The hypotheses are met: a file that is read, with two columns; its first page is delivered. -/
example : SaneCodec fileCodec ∧ SaneCodec headerCodec ∧ NoPanic toyCodecs ∧
    (readMetadata fileCodec
      (arbitraryFile (exampleHeader 3#32 4#32) [("a", 40#64), ("b", 2#64)])).isOk = true ∧
    firstPage true (arbitraryFile (exampleHeader 3#32 4#32) [("a", 40#64), ("b", 2#64)]) =
      .ok (some [1#8, 2#8, 3#8]) :=
  ⟨Compact.codecOf_sane Compact.good_fileMetaData, headerCodec_sane, toyCodecs_noPanic,
    by decide +kernel, by decide +kernel⟩

/-- A file of 1 page and 2 columns: it is read; one of its row groups and one of its columns. -/
theorem arbitrary_read : ∃ fm g c,
    readMetadata fileCodec (arbitraryFile (exampleHeader 3#32 4#32) [("a", 40#64), ("b", 2#64)]) = .ok fm ∧
    g ∈ fm.rowGroups ∧ g.columns.length = 2 ∧ InMetadata fm c ∧
    (arbitraryFile (exampleHeader 3#32 4#32) [("a", 40#64), ("b", 2#64)]).length < 2 ^ 32 - 1 := by
  have h : (readMetadata fileCodec (arbitraryFile (exampleHeader 3#32 4#32) [("a", 40#64), ("b", 2#64)])).map'
      (fun fm => fm.rowGroups.map fun g => g.columns.length) = .ok [2] := by decide +kernel
  cases e : readMetadata fileCodec (arbitraryFile (exampleHeader 3#32 4#32) [("a", 40#64), ("b", 2#64)]) with
  | err _ => rw [e] at h; cases h
  | panic => rw [e] at h; cases h
  | ok fm =>
    rw [e] at h
    simp only [Res.map', Res.ok.injEq] at h
    have key : ∀ gs : List RowGroupMetaData, gs.map (fun g => g.columns.length) = [2] →
        ∃ g c, g ∈ gs ∧ g.columns.length = 2 ∧ c ∈ g.columns := by
      intro gs hgs
      cases gs with
      | nil => cases hgs
      | cons g gs =>
        have h2 : g.columns.length = 2 := (List.cons.inj hgs).1
        obtain ⟨c, hc⟩ := List.exists_mem_of_length_pos (l := g.columns) (by omega)
        exact ⟨g, c, List.mem_cons_self, h2, hc⟩
    obtain ⟨g, c, hg, h2, hc⟩ := key _ h
    exact ⟨fm, g, c, rfl, hg, h2, ⟨g, hg, hc⟩, by decide +kernel⟩

/-- **C83** metadata that was read can be looked at: for every row group, its columns are those of the
schema, in this order; the metadata of each is there and every getter of it returns; its statistics are
deserialized or refused; the pages of a field can be looked for. -/
theorem C83_metadata (codec : Codec Thrift.FileMetaData) (file : List Byte) (fm : FileMetaData)
    (h : readMetadata codec file = .ok fm) (g : RowGroupMetaData) (hg : g ∈ fm.rowGroups) :
    g.columns.map (·.columnDescr) = fm.schemaDescr.leaves ∧
    (∀ c ∈ g.columns, ∃ m, c.columnChunk.metaData = some m ∧ c.metadata = .ok m ∧
      c.numValues = .ok m.numValues ∧ (∃ x, c.compression = .ok x) ∧
      c.compressedSize = .ok m.totalCompressedSize ∧ c.uncompressedSize = .ok m.totalUncompressedSize ∧
      c.dataPageOffset = .ok m.dataPageOffset ∧ c.hasIndexPage = .ok m.indexPageOffset.isSome ∧
      c.indexPageOffset = .ok m.indexPageOffset ∧ c.dictionaryPageOffset = .ok m.dictionaryPageOffset ∧
      c.columnEncoding = .ok m.encodings ∧
      c.byteRange = .ok ((m.dictionaryPageOffset.getD m.dataPageOffset).toNat, m.totalCompressedSize.toNat) ∧
      (m.dictionaryPageOffset.getD m.dataPageOffset).toNat < 2 ^ 63 ∧
      m.totalCompressedSize.toNat < 2 ^ 63 ∧
      ∃ s, c.statistics = .ok s ∧ s ≠ some .panic) ∧
    (∀ name, getFieldColumns name g.columns = .ok (g.columns.filter fun c => fieldOf c = some name)) ∧
    (∀ name filter scratch max, ∃ it, getColumnIterator file g name filter scratch max = .ok it) ∧
    ∀ name, ∃ out, readColumns file name g.columns = .ok out ∧
      out.map (·.1) = g.columns.filter (fun c => fieldOf c = some name) ∧
      ∀ x ∈ out, ∃ start length, x.1.byteRange = .ok (start, length) ∧
        x.2 = (file.drop start).take length := by
  obtain ⟨_, t, -, -, ht⟩ := (C39_reads codec file fm).1 h
  obtain ⟨-, -, hdescr, hcols⟩ := column_facts ht hg
  have small : ∀ x : I64, 0 ≤ x.toInt → asUsize x = x.toNat ∧ x.toNat < 2 ^ 63 := by
    intro x hx
    have h1 : asUsize x = x.toNat := by rw [asUsize, BitVec.signExtend_eq]
    rw [BitVec.toInt_eq_toNat_cond] at hx
    refine ⟨h1, ?_⟩
    split at hx <;> omega
  have hfacts : ∀ c ∈ g.columns, ∃ m, c.columnChunk.metaData = some m ∧ c.metadata = .ok m ∧
      (∃ x, c.compression = .ok x) ∧
      c.byteRange = .ok ((m.dictionaryPageOffset.getD m.dataPageOffset).toNat, m.totalCompressedSize.toNat) ∧
      (m.dictionaryPageOffset.getD m.dataPageOffset).toNat < 2 ^ 63 ∧
      m.totalCompressedSize.toNat < 2 ^ 63 := by
    intro c hc
    obtain ⟨-, m, x, hm, hx, h1, h2, h3⟩ := hcols c hc
    have hmeta : c.metadata = .ok m := by rw [ColumnChunkMetaData.metadata, hm]; rfl
    obtain ⟨e1, l1⟩ := small _ h1
    have hoff : 0 ≤ (m.dictionaryPageOffset.getD m.dataPageOffset).toInt := by
      cases ho : m.dictionaryPageOffset with
      | none => exact h2
      | some o => exact h3 o ho
    obtain ⟨e2, l2⟩ := small _ hoff
    refine ⟨m, hm, hmeta, ⟨x, ?_⟩, ?_, l2, l1⟩
    · rw [ColumnChunkMetaData.compression, hmeta, Res.ok_bind, hx]
    · rw [ColumnChunkMetaData.byteRange, hmeta, Res.ok_bind, ← e1, ← e2]
      cases m.dictionaryPageOffset <;> rfl
  have hpath : ∀ c ∈ g.columns, c.columnDescr.pathInSchema ≠ [] := fun c hc => (hcols c hc).1
  have hfield := fun name => getFieldColumns_ok name g.columns hpath
  refine ⟨hdescr, fun c hc => ?_, hfield, fun name filter scratch max => ?_, fun name => ?_⟩
  · obtain ⟨m, hm, hmeta, hx, hr, l1, l2⟩ := hfacts c hc
    refine ⟨m, hm, hmeta, ?_, hx, ?_, ?_, ?_, ?_, ?_, ?_, ?_, hr, l1, l2, ?_⟩
    · rw [ColumnChunkMetaData.numValues, hmeta]; rfl
    · rw [ColumnChunkMetaData.compressedSize, hmeta]; rfl
    · rw [ColumnChunkMetaData.uncompressedSize, hmeta]; rfl
    · rw [ColumnChunkMetaData.dataPageOffset, hmeta]; rfl
    · rw [ColumnChunkMetaData.hasIndexPage, hmeta]; rfl
    · rw [ColumnChunkMetaData.indexPageOffset, hmeta]; rfl
    · rw [ColumnChunkMetaData.dictionaryPageOffset, hmeta]; rfl
    · rw [ColumnChunkMetaData.columnEncoding, hmeta]; rfl
    · refine ⟨m.statistics.map fun x => deserializeStatistics x c.columnDescr.descriptor.primitiveType,
        by rw [ColumnChunkMetaData.statistics, hmeta]; rfl, ?_⟩
      cases m.statistics with
      | none => simp
      | some s =>
        simp only [Option.map_some, ne_eq, Option.some.injEq]
        exact deserializeStatistics_ne_panic _ _
  · rw [getColumnIterator, hfield]
    exact ⟨_, rfl⟩
  · have hread : ∀ c ∈ g.columns, ∃ start length, c.byteRange = .ok (start, length) ∧
        readColumn file c = .ok ((file.drop start).take length) := by
      intro c hc
      obtain ⟨m, -, -, -, hr, -, l2⟩ := hfacts c hc
      refine ⟨_, _, hr, ?_⟩
      rw [readColumn, hr, Res.ok_bind]
      simp only
      rw [if_neg (by omega)]
    obtain ⟨out, h1, h2, h3⟩ := readColumns_ok file name g.columns hpath
      (fun c hc => by obtain ⟨_, _, _, hr⟩ := hread c hc; exact ⟨_, hr⟩)
    refine ⟨out, h1, h2, fun x hx => ?_⟩
    have hmem : x.1 ∈ g.columns := by
      have := List.mem_map_of_mem (f := (·.1)) hx
      rw [h2] at this
      exact List.mem_of_mem_filter this
    obtain ⟨start, length, hr, hb⟩ := hread x.1 hmem
    have := h3 x hx
    rw [hb] at this
    exact ⟨start, length, hr, by injection this with this; exact this.symm⟩

example : ∃ (fm : FileMetaData) (g : RowGroupMetaData),
    readMetadata fileCodec (arbitraryFile (exampleHeader 3#32 4#32) [("a", 40#64), ("b", 2#64)]) = .ok fm ∧
    g.columns.length = 2 ∧ g.columns.map (·.columnDescr) = fm.schemaDescr.leaves := by
  obtain ⟨fm, g, c, h, hg, h2, -⟩ := arbitrary_read
  exact ⟨fm, g, h, h2, (C83_metadata fileCodec _ fm h g hg).1⟩

/-- **C83** the size of a row group: the sum of the sizes of its columns; a sum of 2^64 or more panics
with overflow checks and wraps without. -/
theorem C83_row_group_size (codec : Codec Thrift.FileMetaData) (file : List Byte) (fm : FileMetaData)
    (h : readMetadata codec file = .ok fm) (g : RowGroupMetaData) (hg : g ∈ fm.rowGroups) (ck : Bool) :
    ∃ sizes : List Nat,
      sizes.map some = g.columns.map (fun c => c.columnChunk.metaData.map (·.totalCompressedSize.toNat)) ∧
      (∀ n ∈ sizes, n < 2 ^ 63) ∧
      (g.compressedSize ck = .panic ↔ ck = true ∧ 2 ^ 64 ≤ total sizes) ∧
      (ck = false ∨ total sizes < 2 ^ 64 → g.compressedSize ck = .ok (total sizes % 2 ^ 64)) := by
  obtain ⟨-, hcols, -⟩ := C83_metadata codec file fm h g hg
  have gen : ∀ cs : List ColumnChunkMetaData, (∀ c ∈ cs, ∃ m, c.columnChunk.metaData = some m ∧
      c.compressedSize = .ok m.totalCompressedSize ∧ m.totalCompressedSize.toNat < 2 ^ 63) →
      ∃ sizes : List Nat,
        sizes.map some = cs.map (fun c => c.columnChunk.metaData.map (·.totalCompressedSize.toNat)) ∧
        (∀ n ∈ sizes, n < 2 ^ 63) ∧
        collectRes (cs.map fun c => c.compressedSize.map' fun x => asUsize x) = .ok sizes := by
    intro cs hcs
    induction cs with
    | nil => exact ⟨[], rfl, by simp, rfl⟩
    | cons c cs ih =>
      obtain ⟨sizes, h1, h2, h3⟩ := ih fun x hx => hcs x (List.mem_cons_of_mem _ hx)
      obtain ⟨m, hm, hs, hl⟩ := hcs c (by simp)
      refine ⟨m.totalCompressedSize.toNat :: sizes, ?_, ?_, ?_⟩
      · simp [hm, h1]
      · intro n hn
        rcases List.mem_cons.1 hn with rfl | hn
        · exact hl
        · exact h2 n hn
      · rw [List.map_cons, collectRes, hs, h3]
        simp [Res.map', asUsize]
  obtain ⟨sizes, h1, h2, h3⟩ := gen g.columns fun c hc => by
    obtain ⟨m, hm, -, -, -, hs, -, -, -, -, -, -, -, -, hl, -⟩ := hcols c hc
    exact ⟨m, hm, hs, hl⟩
  have hok : ck = false ∨ total sizes < 2 ^ 64 → g.compressedSize ck = .ok (total sizes % 2 ^ 64) := by
    intro hc
    rw [RowGroupMetaData.compressedSize, h3, Res.ok_bind]
    have := sumUsize_total ck sizes 0 (by decide) (fun e => by
      rcases hc with hc | hc
      · rw [hc] at e; cases e
      · omega)
    rw [this, Nat.zero_add]
  refine ⟨sizes, h1, h2, ⟨fun hp => ?_, fun ⟨hc, ht⟩ => ?_⟩, hok⟩
  · by_contra hn
    have : ck = false ∨ total sizes < 2 ^ 64 := by
      cases ck with
      | false => exact Or.inl rfl
      | true => exact Or.inr (by simpa using hn)
    rw [hok this] at hp
    cases hp
  · subst hc
    rw [RowGroupMetaData.compressedSize, h3, Res.ok_bind]
    exact sumUsize_panic sizes 0 (by decide) (by omega)

/-- One whose sizes add up to 42: the hypotheses are those of `C83_metadata`, see `arbitrary_read`. -/
example : (readMetadata fileCodec (arbitraryFile (exampleHeader 3#32 4#32) [("a", 40#64), ("b", 2#64)])).bind
    (fun fm => collectRes (fm.rowGroups.map (·.compressedSize true))) = .ok [42] := by decide +kernel

theorem balance_new (ck : Bool) (file : List Byte) (start : Nat) (meta' : PageMetaData)
    (filter : PageFilter) (scratch : List Byte) (max : Nat) :
    Balance ck file.length (PageReader.new (file.drop start) meta' filter scratch max) := by
  refine ⟨by simp [PageReader.new], fun _ => ?_⟩
  have : (PageReader.new (file.drop start) meta' filter scratch max).seenNumValues.toInt = 0 := by
    simp [PageReader.new]
  rw [this]
  simp only [PageReader.new, List.length_drop]
  omega

theorem iterator_of_read {codec : Codec Thrift.FileMetaData} {file : List Byte} {fm : FileMetaData}
    (h : readMetadata codec file = .ok fm) {c : ColumnChunkMetaData} (hc : InMetadata fm c) (ck : Bool)
    (filter : Option PageFilter) (scratch : List Byte) (max : Nat) :
    ∃ r, getPageIterator c file filter scratch max = .ok r ∧ Balance ck file.length r := by
  obtain ⟨g, hg, hc⟩ := hc
  obtain ⟨m, -, hmeta, hn, ⟨x, hx⟩, -, -, -, -, -, -, -, hr, -⟩ :=
    (C83_metadata codec file fm h g hg).2.1 c hc
  rw [getPageIterator]
  simp only [hr, ColumnChunkMetaData.pageMetaData, hn, hx, Res.ok_bind]
  exact ⟨_, rfl, balance_new _ _ _ _ _ _ _⟩

/-- **C83** the pages of a column of a file of any bytes: the page reader can be made, and whatever
state of it is reached, asking for the next page does not panic; with overflow checks, if the file has
less than 2^32 - 1 bytes. -/
theorem C83_pages (codec : Codec Thrift.FileMetaData) (header : Codec Thrift.PageHeader)
    (hs : SaneCodec header) (ck : Bool) (file : List Byte) (fm : FileMetaData)
    (h : readMetadata codec file = .ok fm) (hck : ck = true → file.length < 2 ^ 32 - 1)
    (c : ColumnChunkMetaData) (hc : InMetadata fm c) (filter : Option PageFilter) (scratch : List Byte)
    (max : Nat) :
    ∃ r, getPageIterator c file filter scratch max = .ok r ∧
      ∀ t, Reaches (PageReader.next header ck) r t → (PageReader.next header ck t).1 ≠ some .panic := by
  obtain ⟨r, hr, hb⟩ := iterator_of_read h hc ck filter scratch max
  refine ⟨r, hr, fun t ht => ?_⟩
  have inv : ∀ s t : PageReader, Reaches (PageReader.next header ck) s t →
      Balance ck file.length s → Balance ck file.length t := by
    intro s t hst
    induction hst with
    | refl s => exact id
    | step _ ih => exact fun hb => ih (next_balance hs ck _ _ hb hck).2
  exact (next_balance hs ck _ _ (inv r t ht hb) hck).1

example : ∃ fm c r, readMetadata fileCodec (arbitraryFile (exampleHeader 3#32 4#32) [("a", 40#64), ("b", 2#64)]) = .ok fm ∧
    getPageIterator c (arbitraryFile (exampleHeader 3#32 4#32) [("a", 40#64), ("b", 2#64)]) none [] 1000 = .ok r ∧
    (PageReader.next headerCodec true r).1 ≠ some .panic := by
  obtain ⟨fm, g, c, h, -, -, hc, hl⟩ := arbitrary_read
  obtain ⟨r, hr, hn⟩ := C83_pages fileCodec headerCodec headerCodec_sane true _ fm h (fun _ => hl) c hc none [] 1000
  exact ⟨fm, c, r, h, hr, hn r (.refl r)⟩

/-- **C83** and so for the stream of the asynchronous reader. -/
theorem C83_stream (codec : Codec Thrift.FileMetaData) (header : Codec Thrift.PageHeader)
    (hs : SaneCodec header) (ck : Bool) (file : List Byte) (fm : FileMetaData)
    (h : readMetadata codec file = .ok fm) (hck : ck = true → file.length < 2 ^ 32 - 1)
    (c : ColumnChunkMetaData) (hc : InMetadata fm c) (filter : Option PageFilter) (scratch : List Byte)
    (max : Nat) :
    ∃ r, getPageIterator c file filter scratch max = .ok r ∧
      ∀ t, Reaches (PageStream.next header ck) ⟨r, false⟩ t →
        (PageStream.next header ck t).1 ≠ some .panic := by
  obtain ⟨r, hr, hb⟩ := iterator_of_read h hc ck filter scratch max
  refine ⟨r, hr, fun t ht => ?_⟩
  have one : ∀ s : PageStream, Balance ck file.length s.inner →
      (PageStream.next header ck s).1 ≠ some .panic ∧
        Balance ck file.length (PageStream.next header ck s).2.inner := by
    intro s hb
    rw [PageStream.next]
    split
    · exact ⟨by simp, hb⟩
    · exact stream_balance hs ck _ _ _ (by omega) hb hck
  have inv : ∀ s t : PageStream, Reaches (PageStream.next header ck) s t →
      Balance ck file.length s.inner → Balance ck file.length t.inner := by
    intro s t hst
    induction hst with
    | refl s => exact id
    | step _ ih => exact fun hb => ih (one _ hb).2
  exact (one _ (inv _ t ht hb)).1

example : ∃ fm c r, readMetadata fileCodec (arbitraryFile (exampleHeader 3#32 4#32) [("a", 40#64), ("b", 2#64)]) = .ok fm ∧
    getPageIterator c (arbitraryFile (exampleHeader 3#32 4#32) [("a", 40#64), ("b", 2#64)]) none [] 1000 = .ok r ∧
    (PageStream.next headerCodec true ⟨r, false⟩).1 ≠ some .panic := by
  obtain ⟨fm, g, c, h, -, -, hc, hl⟩ := arbitrary_read
  obtain ⟨r, hr, hn⟩ := C83_stream fileCodec headerCodec headerCodec_sane true _ fm h (fun _ => hl) c hc none [] 1000
  exact ⟨fm, c, r, h, hr, hn _ (.refl _)⟩

/-- **C83** decompressing a page, whatever it holds and whatever buffer is reused: with external codecs
that do not panic, it panics exactly if overflow checks are on and the page is a compressed V2 page
whose level lengths do not add up to an `i32`. -/
theorem C83_decompress (cs : Codecs) (hc : NoPanic cs) (ck : Bool) (page : CompressedPage) (cap : Nat)
    (buffer : List Byte) :
    decompressPage cs ck page cap buffer = .panic ↔ ck = true ∧ BadLevels page := by
  rw [← decompressBuffer_panic_iff hc ck page cap buffer, decompressPage]
  generalize decompressBuffer cs ck page cap buffer = res
  obtain ⟨res, p, b⟩ := res
  cases res <;> simp

/-- Pages that do and do not have level lengths that add up. -/
example : BadLevels (.data { header := .v2 { numValues := 3#32, numNulls := 0#32, numRows := 3#32
                                             encoding := 0#32, definitionLevelsByteLength := 0x7FFFFFFF#32
                                             repetitionLevelsByteLength := 1#32, isCompressed := none
                                             statistics := none }
                             buffer := [7#8], compression := .snappy, uncompressedPageSize := 3
                             descriptor := pageDescriptor, selectedRows := none }) ∧
    ¬ BadLevels (exampleDataV2 3#32 [1#8]) := by
  refine ⟨⟨by decide, _, _, rfl, rfl, by unfold LevelsOverflow; decide⟩, ?_⟩
  rintro ⟨-, d, h, hd, hv, ho⟩
  simp only [exampleDataV2] at hd
  injection hd with hd
  subst hd
  injection hv with hv
  subst hv
  unfold LevelsOverflow at ho
  revert ho
  decide

/-- **C83** level lengths of a compressed V2 page that add up to less than 0, to more than the bytes of
the page or to more than its size uncompressed are refused. -/
theorem C83_levels_beyond (cs : Codecs) (ck : Bool) (p : CompressedDataPage) (h : Thrift.DataPageHeaderV2)
    (cap : Nat) (buffer : List Byte) (hv : p.header = .v2 h) (hc : p.compression ≠ .uncompressed)
    (hi : h.isCompressed ≠ some false) (sum : Int)
    (hs : h.definitionLevelsByteLength.toInt + h.repetitionLevelsByteLength.toInt = sum)
    (hfit : -(2 ^ 31) ≤ sum ∧ sum < 2 ^ 31)
    (hbad : sum < 0 ∨ p.buffer.length < sum ∨ p.uncompressedPageSize < sum)
    (hsize : p.buffer.length < 2 ^ 63) :
    decompressPage cs ck (.data p) cap buffer = .err .oos := by
  subst hs
  have ha : addI32 ck h.definitionLevelsByteLength h.repetitionLevelsByteLength =
      .ok (h.definitionLevelsByteLength + h.repetitionLevelsByteLength) := by
    rw [addI32, if_neg (by tauto)]
  have hsum : (h.definitionLevelsByteLength + h.repetitionLevelsByteLength).toInt =
      h.definitionLevelsByteLength.toInt + h.repetitionLevelsByteLength.toInt := by
    rw [BitVec.toInt_add, Int.bmod_eq_of_le (by omega) (by omega)]
  generalize hx : h.definitionLevelsByteLength + h.repetitionLevelsByteLength = x at ha hsum
  rw [← hsum] at hbad hfit
  have hi' : h.isCompressed.getD true = true := by
    cases hh : h.isCompressed with
    | none => rfl
    | some b => cases b <;> simp_all
  have hoff : (prepareBuffer cap buffer p.uncompressedPageSize).length < asUsize x ∨
      p.buffer.length < asUsize x := by
    rw [prepareBuffer_length]
    by_cases hn : 0 ≤ x.toInt
    · have := asUsize_nonneg (by omega) x hn
      omega
    · right
      have e : (x.signExtend 64).toInt = x.toInt := BitVec.toInt_signExtend_of_le (by omega)
      have h3 := BitVec.toInt_eq_toNat_cond (x.signExtend 64)
      rw [asUsize]
      split at h3 <;> omega
  have hcu : ¬ p.compression = .uncompressed := hc
  simp only [decompressPage, decompressBuffer, CompressedPage.compression, ne_eq, hcu, not_false_eq_true,
    ↓reduceIte, decompressInto, hv, decompressV2, ha, hi', CompressedPage.uncompressedSize, hoff, Res.map']

/-- A compressed page of 4 bytes and 2 bytes uncompressed whose levels should take 3 bytes. -/
def beyondPage : CompressedDataPage :=
  { header := .v2 { numValues := 3#32, numNulls := 0#32, numRows := 3#32, encoding := 0#32
                    definitionLevelsByteLength := 4#32, repetitionLevelsByteLength := -1#32 }
    buffer := [1#8, 2#8, 3#8, 4#8], compression := .snappy, uncompressedPageSize := 2
    descriptor := exampleDescriptor, selectedRows := none }

example : decompressPage toyCodecs true (.data beyondPage) 0 [] = .err .oos :=
  C83_levels_beyond toyCodecs true beyondPage _ 0 [] rfl (by decide) (by decide) 3 (by decide) (by decide)
    (by decide) (by decide)

/-- **C83** the pages of a column of a file of any bytes, decompressed: in whatever state of the
decompressor, advancing it panics exactly if overflow checks are on and the next page is a compressed V2
page whose level lengths do not add up. -/
theorem C83_decompressor (codec : Codec Thrift.FileMetaData) (header : Codec Thrift.PageHeader)
    (hs : SaneCodec header) (cs : Codecs) (hcs : NoPanic cs) (ck : Bool) (file : List Byte)
    (fm : FileMetaData) (h : readMetadata codec file = .ok fm)
    (hck : ck = true → file.length < 2 ^ 32 - 1)
    (c : ColumnChunkMetaData) (hc : InMetadata fm c) (filter : Option PageFilter)
    (scratch buffer : List Byte) (max : Nat) :
    ∃ r, getPageIterator c file filter scratch max = .ok r ∧
      ∀ d, DReaches (fun cap d => Decompressor.advance cs ck (PageReader.iter header ck) cap d)
          (Decompressor.new r buffer) d → ∀ cap,
        ((d.advance cs ck (PageReader.iter header ck) cap).1 = .panic ↔
          ck = true ∧ ∃ page,
            (PageReader.next header ck (d.recycle (PageReader.iter header ck)).iter).1 = some (.ok page) ∧
            BadLevels page) := by
  obtain ⟨r, hr, hb⟩ := iterator_of_read h hc ck filter scratch max
  refine ⟨r, hr, fun d hd cap => ?_⟩
  have hswap : ∀ (s : PageReader) b, Balance ck file.length s →
      Balance ck file.length ((PageReader.iter header ck).swap s b).2 := fun s b hb => hb
  have hnext : ∀ s : PageReader, Balance ck file.length s →
      Balance ck file.length ((PageReader.iter header ck).next s).2 :=
    fun s hb => (next_balance hs ck _ _ hb hck).2
  have inv : ∀ s t : Decompressor PageReader,
      DReaches (fun cap d => Decompressor.advance cs ck (PageReader.iter header ck) cap d) s t →
      Balance ck file.length s.iter → Balance ck file.length t.iter := by
    intro s t hst
    induction hst with
    | refl s => exact id
    | step cap _ ih => exact fun hb => ih (advance_iter cap _ hb hswap hnext)
  have hb' := recycle_iter d (P := Balance ck file.length) (inv _ d hd hb) hswap
  exact advance_panic_iff hcs cap d (next_balance hs ck _ _ hb' hck).1

example : ∃ fm c r, readMetadata fileCodec (arbitraryFile (exampleHeader 3#32 4#32) [("a", 40#64), ("b", 2#64)]) = .ok fm ∧
    getPageIterator c (arbitraryFile (exampleHeader 3#32 4#32) [("a", 40#64), ("b", 2#64)]) none [] 1000 = .ok r := by
  obtain ⟨fm, g, c, h, -, -, hc, hl⟩ := arbitrary_read
  obtain ⟨r, hr, -⟩ := C83_decompressor fileCodec headerCodec headerCodec_sane toyCodecs toyCodecs_noPanic true _ fm h
    (fun _ => hl) c hc none [] [] 1000
  exact ⟨fm, c, r, h, hr⟩

/-- **C83** so in release builds (without overflow checks) nothing done with the bytes of the file up to
the decompressed pages panics. -/
theorem C83_release (codec : Codec Thrift.FileMetaData) (hcodec : SaneCodec codec)
    (header : Codec Thrift.PageHeader) (hs : SaneCodec header) (cs : Codecs) (hcs : NoPanic cs)
    (file : List Byte) :
    readMetadata codec file ≠ .panic ∧
    ∀ fm, readMetadata codec file = .ok fm → ∀ c, InMetadata fm c →
      ∀ filter scratch buffer max, ∃ r, getPageIterator c file filter scratch max = .ok r ∧
        ∀ d, DReaches (fun cap d => Decompressor.advance cs false (PageReader.iter header false) cap d)
            (Decompressor.new r buffer) d → ∀ cap,
          (d.advance cs false (PageReader.iter header false) cap).1 ≠ .panic := by
  refine ⟨C39_no_panic codec hcodec file _, fun fm h c hc filter scratch buffer max => ?_⟩
  obtain ⟨r, hr, hd⟩ := C83_decompressor codec header hs cs hcs false file fm h (by simp) c hc filter
    scratch buffer max
  refine ⟨r, hr, fun d hdr cap hp => ?_⟩
  have := (hd d hdr cap).1 hp
  simp at this

/-- A row group whose sizes do not add up to a `usize`, and one whose do. -/
def groupSize (ck : Bool) (columns : List (String × I64)) : Res (List Nat) :=
  (readMetadata fileCodec (arbitraryFile (exampleHeader 3#32 4#32) columns)).bind fun fm =>
    collectRes (fm.rowGroups.map (·.compressedSize ck))

example : groupSize true [("a", 40#64), ("b", 2#64)] = .ok [42] ∧
    groupSize false [("a", 0x7FFFFFFFFFFFFFFF#64), ("b", 0x7FFFFFFFFFFFFFFF#64), ("c", 4#64)] = .ok [2] := by
  decide +kernel

/-- **C83 is violated** in builds with overflow checks: a page of a file aborts the decompressor, and
the sizes of the columns of a row group abort adding them; without the checks the page is refused and the
sum is wrong. -/
theorem C83_violated :
    firstPage true (arbitraryFile overflowHeader [("a", 40#64)]) = .panic ∧
    firstPage false (arbitraryFile overflowHeader [("a", 40#64)]) = .err .oos ∧
    groupSize true [("a", 0x7FFFFFFFFFFFFFFF#64), ("b", 0x7FFFFFFFFFFFFFFF#64), ("c", 4#64)] = .panic := by
  decide +kernel

end Pq.Props
