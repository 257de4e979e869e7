import Verif.Props.PageIO
import Verif.Props.Schema
import Verif.Lemmas.FileMetadata
import Verif.Lemmas.Allocations
/-
Properties C38 (file framing), C39 (reading metadata from arbitrary bytes), C54 (order of the columns
of a field), C60 (column orders), C62 (selecting row groups).
-/
namespace Pq.Props
open Pq.Spec

/-! ### C38 -/

/-- The thrift compact protocol for file metadata. -/
abbrev fileCodec : Codec Thrift.FileMetaData := Compact.codecOf Compact.rFileMetaData

theorem fileCodec_lawful :
    LawfulCodec fileCodec (fun x => Compact.cost (Compact.rFileMetaData.toT x)) :=
  Compact.codecOf_lawful Compact.good_fileMetaData (fun _ => ⟨_, rfl⟩)

def exampleMetadata : Thrift.FileMetaData :=
  { version := 2#32, schema := (SchemaDescriptor.new "schema" exampleFields).intoThrift
    numRows := 0#64, rowGroups := [], createdBy := some "me" }

/-- **C38** what is written at the end of the file: the metadata, its length, the magic bytes; and the
length returned is that of what was written. -/
theorem C38_end_bytes (cs : ThriftCodecs) (ck : Bool) (m : Thrift.FileMetaData)
    (hm : (cs.file.ser m).length < 2 ^ 31) :
    endFile cs ck m = (.ok ((cs.file.ser m).length + 8), cs.file.ser m ++ tail8 (cs.file.ser m)) := by
  have h := asUsize_asI32 hm
  rw [endFile]
  simp only [h, footer_eq, tail8]
  rw [if_neg (by simp; omega), Nat.mod_eq_of_lt (by omega)]

example : (fileCodec.ser exampleMetadata).length < 2 ^ 31 := by decide +kernel

/-- **C38** for any body of the file, any metadata of any size below 2^31 (smaller or larger than the
64 kB read at first) and any lawful thrift codec that can be read within the limit set by the reader:
reading the metadata of the file gives the metadata written. -/
theorem C38_framing (codec : Codec Thrift.FileMetaData) (limit : Thrift.FileMetaData → Nat)
    (hl : LawfulCodec codec limit) (body : List Byte) (m : Thrift.FileMetaData)
    (hbody : 4 ≤ body.length) (hm : (codec.ser m).length < 2 ^ 31)
    (hlim : limit m ≤ 2 * (codec.ser m).length + 1040) :
    readMetadata codec (body ++ codec.ser m ++ tail8 (codec.ser m)) =
      FileMetaData.tryFromThrift m := by
  have hf : Framed (body ++ codec.ser m ++ tail8 (codec.ser m)) (codec.ser m) :=
    ⟨⟨body, rfl⟩, hm, by simp [tail8_length]; omega⟩
  have := (footerBytes_framed _ _).2 ⟨_, hf, rfl⟩
  rw [readMetadata, readMetadataWithSize, this]
  simp only [deserializeMetadata]
  rw [hl.roundtrip m _ _ (by simp [tail8_length]; omega)]

/-- The compact protocol, with the example and its limit. -/
example : LawfulCodec fileCodec (fun x => Compact.cost (Compact.rFileMetaData.toT x)) ∧ 4 ≤ par1.length ∧
    (fileCodec.ser exampleMetadata).length < 2 ^ 31 ∧
    Compact.cost (Compact.rFileMetaData.toT exampleMetadata) ≤ 2 * (fileCodec.ser exampleMetadata).length + 1040 :=
  ⟨fileCodec_lawful, by decide, by decide +kernel, by decide +kernel⟩

/-- **C38** with the compact protocol: for every metadata value, of any size below 2^31. -/
theorem C38_framing_compact (body : List Byte) (m : Thrift.FileMetaData)
    (hbody : 4 ≤ body.length) (hm : (fileCodec.ser m).length < 2 ^ 31) :
    readMetadata fileCodec (body ++ fileCodec.ser m ++ tail8 (fileCodec.ser m)) =
      FileMetaData.tryFromThrift m := by
  refine C38_framing fileCodec _ fileCodec_lawful body m hbody hm ?_
  have := Compact.cost_lt (Compact.rFileMetaData.toT m)
  have h : (fileCodec.ser m).length = (Compact.encVal (Compact.rFileMetaData.toT m)).length := rfl
  omega

example : readMetadata fileCodec ([1#8, 2#8, 3#8, 4#8] ++ fileCodec.ser exampleMetadata ++
    tail8 (fileCodec.ser exampleMetadata)) = FileMetaData.tryFromThrift exampleMetadata :=
  C38_framing_compact _ _ (by decide) (by decide +kernel)

/-- **C38** for metadata in a file of its own: the bytes, the length returned, and reading it. -/
theorem C38_sidecar (cs : ThriftCodecs) (limit : Thrift.FileMetaData → Nat)
    (hl : LawfulCodec cs.file limit) (ck : Bool) (m : Thrift.FileMetaData)
    (hm : (cs.file.ser m).length < 2 ^ 31) (hlim : limit m ≤ 2 * (cs.file.ser m).length + 1040) :
    ∃ bytes, writeMetadataSidecar cs ck m = (.ok bytes.length, bytes) ∧
      bytes = par1 ++ cs.file.ser m ++ tail8 (cs.file.ser m) ∧
      readMetadata cs.file bytes = FileMetaData.tryFromThrift m := by
  refine ⟨_, ?_, rfl, C38_framing cs.file limit hl par1 m (by decide) hm hlim⟩
  rw [writeMetadataSidecar, C38_end_bytes cs ck m hm]
  simp only [Res.map', List.length_append, tail8_length]
  rw [show magic = par1 from rfl, List.append_assoc]
  congr 2

example : 4 ≤ par1.length ∧ (fileCodec.ser exampleMetadata).length < 2 ^ 31 := by decide +kernel
/-- The example is read. -/
example : ∃ fm, readMetadata fileCodec
    (par1 ++ fileCodec.ser exampleMetadata ++ tail8 (fileCodec.ser exampleMetadata)) = .ok fm ∧
    fm.createdBy = some "me" := ⟨_, by rw [C38_framing_compact _ _ (by decide) (by decide +kernel)]; rfl, rfl⟩
/-! ### C39 -/

/-- **C39** reading metadata succeeds exactly if the file ends with a metadata section, its length
(below 2^31, not more than there is) and the magic bytes, and has 12 bytes, and the section parses:
the result is that of parsing this section; nothing else of the file matters. -/
theorem C39_reads (codec : Codec Thrift.FileMetaData) (file : List Byte) (fm : FileMetaData) :
    readMetadata codec file = .ok fm ↔
      ∃ section_ m, Framed file section_ ∧
        (codec.parse ((section_ ++ tail8 section_).length * 2 + 1024)
          (section_ ++ tail8 section_)).1 = .ok m ∧
        FileMetaData.tryFromThrift m = .ok fm := by
  rw [readMetadata, readMetadataWithSize]
  constructor
  · intro h
    split at h
    · rename_i r hr
      obtain ⟨s, hs, rfl⟩ := (footerBytes_framed _ _).1 hr
      rw [deserializeMetadata] at h
      split at h
      · rename_i m hm
        exact ⟨s, m, hs, hm, h⟩
      · cases h
      · cases h
    · cases h
    · cases h
  · rintro ⟨s, m, hs, hm, h⟩
    rw [(footerBytes_framed _ _).2 ⟨s, hs, rfl⟩]
    simp only [deserializeMetadata, hm, h]

/-- **C39** no bytes and no size claimed by the caller make reading metadata panic. -/
theorem C39_no_panic (codec : Codec Thrift.FileMetaData) (hc : SaneCodec codec) (file : List Byte)
    (size : Nat) : readMetadataWithSize codec file size ≠ .panic := by
  rw [readMetadataWithSize]
  have := footerBytes_ne_panic file size
  split
  · rw [deserializeMetadata]
    split
    · exact fileMetaData_tryFromThrift_ne_panic _
    · simp
    · rename_i h; exact absurd h (hc.noPanic _ _)
  · simp
  · rename_i h; exact absurd h this

example (file : List Byte) : readMetadataWithSize fileCodec file 7 ≠ .panic :=
  C39_no_panic fileCodec (Compact.codecOf_sane Compact.good_fileMetaData) file 7

/-- **C39** a wrong size given by the caller does not lead to other metadata: the result, if any, is
that for the real size. -/
theorem C39_size (codec : Codec Thrift.FileMetaData) (file : List Byte) (size : Nat)
    (fm : FileMetaData) (h : readMetadataWithSize codec file size = .ok fm) :
    readMetadata codec file = .ok fm := by
  rw [readMetadataWithSize] at h
  rw [readMetadata, readMetadataWithSize]
  split at h
  · rename_i r hr
    rw [footerBytes_size hr]
    exact h
  · cases h
  · cases h

/-- A size that leaves out bytes at the front of the file. -/
example : (readMetadataWithSize fileCodec (par1 ++ par1 ++ fileCodec.ser exampleMetadata ++
      tail8 (fileCodec.ser exampleMetadata)) ((fileCodec.ser exampleMetadata).length + 12)).isOk = true := by decide +kernel

/-- **C39** the limit on what reading metadata allocates: metadata written is read back exactly if the
sizes of its strings and lists add up to no more than the limit, else it is refused. -/
theorem C39_limit (max : Nat) (m : Thrift.FileMetaData) (rest : List Byte) :
    (fileCodec.parse max (fileCodec.ser m ++ rest)).1 =
      if (allocations (Compact.rFileMetaData.toT m)).sum ≤ max then .ok m else .err .oos :=
  codec_limit Compact.good_fileMetaData (fun _ => ⟨_, rfl⟩) max m rest

example : (allocations (Compact.rFileMetaData.toT exampleMetadata)).sum = 26 := by decide +kernel

/-- **C39** the errors: files below 12 bytes, without magic bytes at the end, or with a length that is
negative or larger than the file. -/
theorem C39_rejects (codec : Codec Thrift.FileMetaData) (file : List Byte)
    (h : file.length < 12 ∨ file.drop (file.length - 4) ≠ par1 ∨
      2 ^ 31 ≤ leNat ((file.drop (file.length - 8)).take 4) ∨
      file.length < 8 + leNat ((file.drop (file.length - 8)).take 4)) :
    readMetadata codec file = .err .oos := by
  suffices footerBytes file file.length = .err .oos by
    rw [readMetadata, readMetadataWithSize, this]
  rw [footerBytes_eq]
  have hlen : (lenField file).toNat = leNat ((file.drop (file.length - 8)).take 4) := by
    have := leNat_lt ((file.drop (file.length - 8)).take 4)
    rw [lenField, fromLe, BitVec.toNat_ofNat, Nat.mod_eq_of_lt]
    refine Nat.lt_of_lt_of_le this (Nat.pow_le_pow_right (by omega) ?_)
    simp only [List.length_take]
    omega
  split
  · rfl
  split
  · rfl
  split
  · rfl
  split
  · rfl
  rename_i h1 h2 h3 h4
  exfalso
  rw [BitVec.toInt_eq_toNat_cond] at h3 h4
  rcases h with h | h | h | h
  · omega
  · exact h2 h
  · split at h3 <;> omega
  · split at h3 <;> omega

example : SaneCodec fileCodec := Compact.codecOf_sane Compact.good_fileMetaData
example : Framed (par1 ++ [1#8, 2#8] ++ tail8 [1#8, 2#8]) [1#8, 2#8] :=
  ⟨⟨par1, rfl⟩, by decide, by decide⟩
/-- A file that claims 5 bytes more of metadata than it has. -/
example : (par1 ++ [1#8] ++ le32 10 ++ par1).length <
    8 + leNat (((par1 ++ [1#8] ++ le32 10 ++ par1).drop 5).take 4) := by decide

def exampleChunk (path : List String) (offset : I64) : ColumnChunkMetaData :=
  { columnChunk := { fileOffset := 0#64
                     metaData := some { type := 1#32, encodings := [0#32], pathInSchema := path
                                        codec := 0#32, numValues := 2#64
                                        totalUncompressedSize := 3#64, totalCompressedSize := 3#64
                                        dataPageOffset := offset } }
    columnDescr := { descriptor := pageDescriptor, pathInSchema := path
                     baseType := .primitive pageDescriptor.primitiveType } }

def exampleGroup : RowGroupMetaData :=
  { columns := [exampleChunk ["a", "x"] 4#64, exampleChunk ["b"] 7#64, exampleChunk ["a", "y"] 10#64]
    numRows := 2, totalByteSize := 9 }

/-! ### C54 -/

/-- The columns of a field: those whose path starts with its name, in the order of the row group. -/
theorem C54_field_columns (name : String) (columns : List ColumnChunkMetaData)
    (h : ∀ c ∈ columns, c.columnDescr.pathInSchema ≠ []) :
    getFieldColumns name columns = .ok (columns.filter fun c => fieldOf c == some name) := by
  induction columns with
  | nil => rfl
  | cons c cs ih =>
    have hc := h c (by simp)
    rw [getFieldColumns]
    cases hp : c.columnDescr.pathInSchema with
    | nil => exact absurd hp hc
    | cons root path =>
      simp only [ih fun x hx => h x (List.mem_cons_of_mem _ hx), Res.map', List.filter_cons, fieldOf,
        hp, List.head?_cons]
      by_cases e : root = name
      · simp [e]
      · simp [e]

example : (∀ c ∈ exampleGroup.columns, c.columnDescr.pathInSchema ≠ []) ∧
    getFieldColumns "a" exampleGroup.columns =
      .ok [exampleChunk ["a", "x"] 4#64, exampleChunk ["a", "y"] 10#64] := by
  refine ⟨fun c hc => ?_, rfl⟩
  simp only [exampleGroup, List.mem_cons, List.not_mem_nil, or_false] at hc
  rcases hc with rfl | rfl | rfl <;> exact List.cons_ne_nil _ _

/-- **C54** (for `ColumnIterator`): the columns of the field are delivered in the order of the
row group, each with a page reader at the start of the column chunk, whatever the caller does with
the page readers in between. -/
theorem C54_column_iterator (file : List Byte) (group : RowGroupMetaData) (name : String)
    (filter : Option PageFilter) (scratch : List Byte) (max : Nat)
    (hpath : ∀ c ∈ group.columns, c.columnDescr.pathInSchema ≠ [])
    (hc : ∀ c ∈ group.columns, UsableChunk c.columnChunk) :
    ∃ it, getColumnIterator file group name filter scratch max = .ok it ∧
      Advances ColumnIterator.advance
        (fun s c => ∃ reader scratch, s.get = some (reader, c) ∧
          getPageIterator c file filter scratch max = .ok reader)
        (fun s t => ∃ r r' c, s.current = some (r, c) ∧ t = { s with current := some (r', c) })
        it (group.columns.filter fun c => fieldOf c == some name) := by
  rw [getColumnIterator, C54_field_columns name _ hpath]
  refine ⟨_, rfl, columnIterator_advances _ ?_ _ rfl rfl rfl rfl (Or.inl rfl)⟩
  intro c h
  exact hc c (List.mem_filter.1 h).1

example : (∀ c ∈ exampleGroup.columns, c.columnDescr.pathInSchema ≠ []) ∧
    (∀ c ∈ exampleGroup.columns, UsableChunk c.columnChunk) ∧
    (exampleGroup.columns.filter fun c => fieldOf c == some "a") =
      [exampleChunk ["a", "x"] 4#64, exampleChunk ["a", "y"] 10#64] := by
  refine ⟨?_, ?_, rfl⟩
  all_goals
    intro c hc
    simp only [exampleGroup, List.mem_cons, List.not_mem_nil, or_false] at hc
    rcases hc with rfl | rfl | rfl
  all_goals first
    | exact List.cons_ne_nil _ _
    | exact ⟨_, rfl, by decide⟩

/-- `ReadColumnIterator` delivers the chunks in reverse order. -/
theorem C54_read_iterator_reversed (field : ParquetType)
    (chunks : List (List (Res CompressedPage) × ColumnChunkMetaData)) :
    Advances ReadColumnIterator.advance (fun s x => s.get = some x)
      (fun s t => ∃ x y, s.current = some x ∧ t = { s with current := some y })
      (ReadColumnIterator.new field chunks) chunks.reverse :=
  readColumnIterator_advances _ _ (by simp [ReadColumnIterator.new])

/-- **C54 is violated** by `ReadColumnIterator`: of two chunks the second one comes first. -/
theorem C54_violated (field : ParquetType) :
    ∃ it, ReadColumnIterator.advance (ReadColumnIterator.new field
        [([], exampleChunk ["a", "x"] 4#64), ([], exampleChunk ["a", "y"] 10#64)]) = .ok (.some it) ∧
      it.get.map (·.2.columnDescr.pathInSchema) = some ["a", "y"] := ⟨_, rfl, rfl⟩

/-! ### C60 -/

/-- **C60** the column orders: if the file has an order per column, that of each column is the order
of its type; a file without orders gives `Undefined` for every column. -/
theorem C60_column_orders (m : Thrift.FileMetaData) (fm : FileMetaData)
    (h : FileMetaData.tryFromThrift m = .ok fm) :
    (m.columnOrders = none → ∀ i, fm.columnOrder i = .ok .undefined) ∧
    (∀ orders, m.columnOrders = some orders → orders.length = fm.schemaDescr.leaves.length →
      ∀ i c, fm.schemaDescr.leaves[i]? = some c →
        fm.columnOrder i = .ok (.typeDefinedOrder (orderOf c.descriptor.primitiveType))) := by
  rw [FileMetaData.tryFromThrift] at h
  split at h
  · cases h
  · cases h
  · rename_i schema hs
    obtain ⟨groups, -, h⟩ := Res.bind_eq_ok.1 h
    obtain ⟨rows, -, h⟩ := Res.bind_eq_ok.1 h
    injection h with h
    subst h
    refine ⟨fun hn i => ?_, fun orders ho hlen i c hi => ?_⟩
    · simp only [FileMetaData.columnOrder, hn, Option.map_none]
    · obtain ⟨hi1, hi2⟩ := List.getElem?_eq_some_iff.1 hi
      simp only at hi1 hi2 hlen
      simp only [FileMetaData.columnOrder, ho, Option.map_some, parseColumnOrders, List.getElem?_map]
      have : (schema.leaves.zip orders)[i]? = some (c, ()) := by
        rw [List.getElem?_eq_some_iff]
        exact ⟨by simp; omega, by simp [hi2]⟩
      rw [this]
      simp only [Option.map_some, Res.unwrap, getSortOrder_eq]

/-- The hypotheses with an order for every column. -/
example : ∃ fm, FileMetaData.tryFromThrift { exampleMetadata with columnOrders := some [(), ()] } = .ok fm ∧
    fm.schemaDescr.leaves.length = 2 ∧ fm.columnOrder 0 = .ok (.typeDefinedOrder .signed) ∧
    fm.columnOrder 1 = .ok (.typeDefinedOrder .unsigned) := ⟨_, rfl, rfl, rfl, rfl⟩

/-- **C60** the order by which the values of a column are to be compared: that of its type, and signed for a file
without orders. -/
theorem C60_sort_order (m : Thrift.FileMetaData) (fm : FileMetaData)
    (h : FileMetaData.tryFromThrift m = .ok fm) :
    (m.columnOrders = none → ∀ i, (fm.columnOrder i).map' ColumnOrder.sortOrder = .ok .signed) ∧
    (∀ orders, m.columnOrders = some orders → orders.length = fm.schemaDescr.leaves.length →
      ∀ i c, fm.schemaDescr.leaves[i]? = some c →
        (fm.columnOrder i).map' ColumnOrder.sortOrder = .ok (orderOf c.descriptor.primitiveType)) := by
  obtain ⟨h1, h2⟩ := C60_column_orders m fm h
  refine ⟨fun hn i => ?_, fun orders ho hl i c hc => ?_⟩
  · rw [h1 hn i]; rfl
  · rw [h2 orders ho hl i c hc]; rfl

example : ∃ fm, FileMetaData.tryFromThrift { exampleMetadata with columnOrders := none } = .ok fm ∧
    fm.schemaDescr.leaves.length = 2 := ⟨_, rfl, rfl⟩

/-- **C60 is violated** for a file with fewer orders than columns: asking for the order of a column
panics. -/
theorem C60_violated :
    ∃ fm, FileMetaData.tryFromThrift { exampleMetadata with columnOrders := some [()] } = .ok fm ∧
      fm.schemaDescr.leaves.length = 2 ∧ fm.columnOrder 1 = .panic := ⟨_, rfl, rfl, rfl⟩

/-! ### C62 -/

/-- **C62** selecting row groups keeps exactly the groups for which the predicate holds of the group
and its position in the file, in order; the rest of the metadata is unchanged. -/
theorem C62_filter_row_groups (m : FileMetaData) (predicate : RowGroupMetaData → Nat → Bool) :
    filterRowGroups m predicate =
      { m with rowGroups := ((m.rowGroups.zipIdx).filter fun x => predicate x.1 x.2).map (·.1) } := by
  rw [filterRowGroups, filterGroups_eq]

/-- Keeping the second and third of three groups. -/
example (g1 g2 g3 : RowGroupMetaData) (m : FileMetaData) :
    (filterRowGroups { m with rowGroups := [g1, g2, g3] } fun _ i => 0 < i).rowGroups = [g2, g3] := rfl

end Pq.Props
