import Verif.Lemmas.Selection
import Verif.Props.Indexes
import Verif.Lemmas.Allocations
/-
Property theorems about reading selected rows of a written file through its page indexes: C63.
-/
namespace Pq.Props

open Spec

/-- **C63 (partial)** for every schema and every sequence of row groups, columns and pages accepted by
the writer, with lawful thrift codecs: with the page locations read from the file, the pages selected
for any list of row intervals and read by the indexed reader are the dictionary page and exactly the
data pages with selected rows, each with the selected rows in it (`Spec.SelectionReads`). Missing:
offset indexes of 2^31 bytes or more, pages of another type than their column, page headers above
1 MiB, pages that do not know their number of rows, columns with a dictionary page after data pages. -/
theorem C63_selection_partial (cs : ThriftCodecs) (limit : Thrift.PageHeader → Nat)
    (hl : LawfulCodec cs.page limit) (hs : SaneCodec cs.page) (offsetLimit : Thrift.OffsetIndex → Nat)
    (ho : LawfulCodec cs.offsetIndex offsetLimit) (fileLimit : Thrift.FileMetaData → Nat)
    (hfile : LawfulCodec cs.file fileLimit) (ck : Bool) (schema : SchemaDescriptor)
    (options : WriteOptions) (createdBy : Option String) (kv : Option (List Thrift.KeyValue))
    (groups : List (List (List CompressedPage))) (n : Nat) (w : FileWriter)
    (h : Finished cs ck schema options createdBy kv groups n w)
    (hf : ∀ g ∈ groups, GroupFits cs (schema.leaves.zip g)) (hlen : w.out.length < 2 ^ 63)
    (hcols : ∀ g ∈ groups, schema.leaves.length ≤ g.length) :
    ∃ md pre, w.out = pre ++ cs.file.ser md ++ tail8 (cs.file.ser md) ∧
      ((cs.file.ser md).length < 2 ^ 31 → fileLimit md ≤ 2 * (cs.file.ser md).length + 1040 →
        ∀ fm, readMetadata cs.file w.out = .ok fm → fm.schemaDescr = schema →
          List.Forall₂ (fun g group => SelectionsRead cs limit offsetLimit w.out (schema.leaves.zip g) group)
            groups fm.rowGroups) := by
  obtain ⟨md, hw, -⟩ := finished_written h hf hlen
  obtain ⟨bytes, indexes, he, -⟩ := hw.layout
  refine ⟨md, par1 ++ bytes ++ indexes, he, fun hmd hlim fm hfm hsd => ?_⟩
  have hfr := C38_framing cs.file fileLimit hfile (par1 ++ bytes ++ indexes) md (by simp [par1]) hmd hlim
  rw [← he, hfm] at hfr
  have hrg := rowGroups_ofThrift hfr.symm
  rw [hsd] at hrg
  have hg := List.forall₂_map_left_iff.1 hw.rowGroups
  clear he hfr hfm hmd hlim h hw
  generalize md.rowGroups = rgs at *
  generalize fm.rowGroups = gms at *
  clear hsd hf
  induction hg generalizing gms with
  | nil => cases hrg; exact .nil
  | @cons g rg groups rgs h1 h2 ih =>
    cases hrg with
    | cons r1 r2 =>
      refine .cons ?_ (ih (fun g hg => hcols g (List.mem_cons_of_mem _ hg)) _ r2)
      obtain ⟨e1, e2⟩ := rowGroup_ofThrift r1
      exact selections_read hl hs ho hlen h1 e1 (by rw [e2, List.map_fst_zip (hcols g (by simp))])

/-- The example of `Props/Writer.lean` meets the hypotheses. -/
example : LawfulCodec thriftCodecs.page (fun h => Compact.cost (Compact.rPageHeader.toT h)) ∧
    SaneCodec thriftCodecs.page ∧
    (∃ n, Finished thriftCodecs true writerSchema writerOptions (some "me") (some [])
      writerGroups n writerEnd.2) ∧
    (∀ g ∈ writerGroups, GroupFits thriftCodecs (writerSchema.leaves.zip g)) ∧
    writerEnd.2.out.length < 2 ^ 63 ∧ (∀ g ∈ writerGroups, writerSchema.leaves.length ≤ g.length) :=
  ⟨headerCodec_lawful, headerCodec_sane, writer_example, writer_example_fits.1, writer_example_fits.2,
    by decide +kernel⟩

/-- **C63 (partial)** with the compact protocol, starting from the bytes of the file. -/
theorem C63_compact_partial (ck : Bool) (name : String) (fields : List ParquetType)
    (h0 : 0 < fields.length) (h31 : fields.length < 2 ^ 31) (hg : GoodTrees fields)
    (options : WriteOptions) (createdBy : Option String) (kv : Option (List Thrift.KeyValue))
    (groups : List (List (List CompressedPage))) (n : Nat) (w : FileWriter)
    (h : Finished thriftCodecs ck (SchemaDescriptor.new name fields) options createdBy kv groups n w)
    (hf : ∀ g ∈ groups, GroupFits thriftCodecs ((SchemaDescriptor.new name fields).leaves.zip g))
    (hlen : w.out.length < 2 ^ 31)
    (hcols : ∀ g ∈ groups, (SchemaDescriptor.new name fields).leaves.length ≤ g.length)
    (hread : ∀ g ∈ groups, ∀ c ∈ (SchemaDescriptor.new name fields).leaves.zip g, Readable c)
    (hrows : ∀ g ∈ groups, GroupRowsKnown ((SchemaDescriptor.new name fields).leaves.zip g))
    (htotal : (groups.map fun g =>
      groupRows ((SchemaDescriptor.new name fields).leaves.zip g)).sum < 2 ^ 63) :
    ∃ fm, readMetadata fileCodec w.out = .ok fm ∧
      List.Forall₂ (fun g group => ∃ locations,
          (∀ ck, readPagesLocations offsetIndexCodec ck w.out group.columns = .ok locations) ∧
          locations.length = ((SchemaDescriptor.new name fields).leaves.zip g).length ∧
          group.columns.length = ((SchemaDescriptor.new name fields).leaves.zip g).length ∧
          ∀ (i : Nat) (c : ColumnDescriptor × List CompressedPage) (chunk : ColumnChunkMetaData)
            (ls : List Thrift.PageLocation),
            ((SchemaDescriptor.new name fields).leaves.zip g)[i]? = some c →
            group.columns[i]? = some chunk → locations[i]? = some ls →
            RowsKnown c.2 → chunkRows c.2 < 2 ^ 63 →
            (∀ p ∈ c.2, (headerCodec.ser (headerOf p)).length ≤ 1024 * 1024) →
            ∀ (dict : Option CompressedDictPage) (datas : List CompressedPage),
              c.2 = dict.toList.map .dict ++ datas → (∀ p ∈ datas, isData p = true) →
              SelectionReads headerCodec w.out dict datas chunk ls)
        groups fm.rowGroups := by
  obtain ⟨md, pre, he, hr⟩ := C59_compact_partial ck name fields h0 h31 hg options createdBy kv groups n w h
    hf (by omega) hcols hread hrows htotal
  have hmd : (fileCodec.ser md).length < 2 ^ 31 := by
    have := congrArg List.length he
    simp only [List.length_append] at this
    omega
  obtain ⟨fm, h1, -, -, -, h2, -⟩ := hr hmd
  refine ⟨fm, h1, ?_⟩
  obtain ⟨md', pre', he', hi⟩ := C63_selection_partial thriftCodecs _ headerCodec_lawful headerCodec_sane _
    offsetIndexCodec_lawful _ fileCodec_lawful ck _ options createdBy kv groups n w h hf (by omega) hcols
  have hmd' : (fileCodec.ser md').length < 2 ^ 31 := by
    have := congrArg List.length he'
    simp only [List.length_append] at this
    have e : (thriftCodecs.file.ser md').length = (fileCodec.ser md').length := rfl
    omega
  have hlim := Compact.cost_lt (Compact.rFileMetaData.toT md')
  have e : (thriftCodecs.file.ser md').length =
    (Compact.encVal (Compact.rFileMetaData.toT md')).length := rfl
  have key := hi hmd' (by omega) fm h1 h2
  clear hi hr he he' hrows htotal hf h hcols
  generalize fm.rowGroups = gms at key
  induction key with
  | nil => exact .nil
  | @cons g gm groups gms k1 k2 ih =>
    refine .cons ?_ (ih fun g hg => hread g (List.mem_cons_of_mem _ hg))
    obtain ⟨ois, a1, a2, a3, a4, a5⟩ := k1
    refine ⟨_, a2 fun oi hoi => ⟨Nat.lt_of_le_of_lt (a1 oi hoi) hlen, ?_⟩, by rw [List.length_map, a3], a4, ?_⟩
    · have := Compact.cost_lt (Compact.rOffsetIndex.toT oi)
      have h : (thriftCodecs.offsetIndex.ser oi).length =
        (Compact.encVal (Compact.rOffsetIndex.toT oi)).length := rfl
      show Compact.cost (Compact.rOffsetIndex.toT oi) ≤ _
      omega
    · intro i c chunk ls hc hch hls hk hrw hlim dict datas e hd
      rw [List.getElem?_map] at hls
      obtain ⟨oi, ho, rfl⟩ := Option.map_eq_some_iff.1 hls
      refine a5 i c chunk oi hc hch ho hk hrw ?_ ?_ dict datas e hd
      · rintro p hp q rfl
        have := (hread g (by simp) c (List.mem_of_getElem? hc)).ok _ hp
        exact this.2.1
      · exact fun p hp => Nat.le_trans (headerCodec_limits p) (hlim p hp)

/-- The pages of the `i`-th column of the first row group that are delivered for some rows (number of
bytes of the page, selected rows). -/
def selectionRead (file : List Byte) (i : Nat) (rows : Nat) (ivs : List Interval) :
    Res (List (Nat × List Interval)) :=
  (readMetadata fileCodec file).bind fun fm =>
    let columns := (fm.rowGroups.head?.map (·.columns)).getD []
    (readPagesLocations offsetIndexCodec true file columns).bind fun locations =>
      (selectPages true ivs (locations.getD i []) rows).bind fun pages =>
        match columns[i]? with
        | none => .panic
        | some c => (IndexedReader.ofColumn file c pages).bind fun r =>
          let rec go : Nat → IndexedReader → List (Res (Nat × List Interval))
            | 0, _ => []
            | n + 1, r => match r.next headerCodec true with
              | (none, _) => []
              | (some x, r) => (x.map' fun
                | .data p => (p.buffer.length, p.selectedRows.getD [])
                | .dict p => (p.buffer.length, [])) :: go n r
          collectRes (go 5 r)

/-- The example of `Props/Writer.lean` meets the hypotheses (see also the examples for
`C59_compact_partial` and `C45_compact_partial`): its first column is a dictionary page and two data
pages of two and one rows. Selecting rows 1 and 2 gives a part of the first page and all of the second;
selecting row 2 gives the second only; both preceded by the dictionary page. -/
example : writerEnd.2.out.length < 2 ^ 31 ∧
    (∃ c ∈ (writerSchema.leaves.zip (writerGroups.headD [])).take 1, RowsKnown c.2 ∧ chunkRows c.2 = 3 ∧
      (∀ p ∈ c.2, (headerCodec.ser (headerOf p)).length ≤ 1024 * 1024) ∧
      c.2.map isData = [false, true, true]) ∧
    selectionRead writerEnd.2.out 0 3 [⟨1, 2⟩] =
      .ok [(4, []), (8, [⟨1, 1⟩]), (4, [⟨0, 1⟩])] ∧
    selectionRead writerEnd.2.out 0 3 [⟨2, 1⟩] = .ok [(4, []), (4, [⟨0, 1⟩])] := by
  decide +kernel

/-- **C63** page headers larger than the limit of the indexed reader (1 MiB): a page whose header has strings
of more bytes is refused wherever it is in the file, while all others are found (the sequential reader compares
with the limit given to it). -/
theorem C63_header_limit (h : Thrift.PageHeader) (pre buffer post : List Byte) :
    ((allocations (Compact.rPageHeader.toT h)).sum ≤ 1024 * 1024 →
      (headerCodec.ser h).length + buffer.length < 2 ^ 63 →
      readPageAt headerCodec (pre ++ headerCodec.ser h ++ buffer ++ post) pre.length
        ((headerCodec.ser h).length + buffer.length) = .ok (h, buffer)) ∧
    (1024 * 1024 < (allocations (Compact.rPageHeader.toT h)).sum →
      readPageAt headerCodec (pre ++ headerCodec.ser h ++ buffer ++ post) pre.length
        ((headerCodec.ser h).length + buffer.length) = .err .oos) := by
  have e : ((pre ++ headerCodec.ser h ++ buffer ++ post).drop pre.length).take
      ((headerCodec.ser h).length + buffer.length) = headerCodec.ser h ++ buffer := by
    rw [List.append_assoc, List.append_assoc, List.drop_left, ← List.append_assoc, ← List.length_append,
      List.take_left]
  have hp := codec_limit Compact.good_pageHeader (fun _ => ⟨_, rfl⟩) (1024 * 1024) h buffer
  unfold readPageAt
  simp only [e]
  constructor
  · intro hle hl
    rw [if_neg (by omega)]
    have := headerCodec_lawful.roundtrip h buffer (1024 * 1024) (by rw [cost_allocations]; exact hle)
    rw [this]
  · intro hlt
    rw [if_neg (by omega)] at hp
    change (headerCodec.parse (1024 * 1024) (headerCodec.ser h ++ buffer)).1 = .err .oos at hp
    generalize headerCodec.parse (1024 * 1024) (headerCodec.ser h ++ buffer) = x at hp
    obtain ⟨a, b⟩ := x
    simp only at hp
    subst hp
    simp only [ite_self]

/-- The header of a page with a minimum of `n` bytes. -/
def wideHeader (n : Nat) : Thrift.PageHeader :=
  headerOf (writerPage "a" [⟨0, 1⟩] 1#32 [1#8] (some { minValue := some (List.replicate n 0#8) }))

/-- Such headers exist, of any size. -/
theorem wideHeader_allocations (n : Nat) :
    (allocations (Compact.rPageHeader.toT (wideHeader n))).sum = n := by
  have : allocations (Compact.rPageHeader.toT (wideHeader n)) = [(List.replicate n 0#8).length] := rfl
  rw [this]
  simp

example : (allocations (Compact.rPageHeader.toT (wideHeader 5))).sum ≤ 1024 * 1024 ∧
    1024 * 1024 < (allocations (Compact.rPageHeader.toT (wideHeader (1024 * 1024 + 1)))).sum := by
  rw [wideHeader_allocations, wideHeader_allocations]
  omega

/-- A row group whose first column has its dictionary page between two data pages. -/
def lateDictionary : List (List CompressedPage) :=
  [[writerPage "a" [⟨0, 2⟩] 2#32 [1#8, 0#8, 0#8, 0#8, 1#8, 0#8, 0#8, 0#8] (writerStatistics 1#8),
    exampleDict false, writerPage "a" [⟨0, 1⟩] 1#32 [2#8, 0#8, 0#8, 0#8] (writerStatistics 2#8)],
   [writerPage "b" [⟨0, 3⟩] 3#32 [1#8, 0#8, 0#8, 0#8, 1#8, 0#8, 0#8, 0#8, 2#8, 0#8, 0#8, 0#8]
     (writerStatistics 1#8)]]

/-- **C63 is violated** by a dictionary page that is not the first page of its column: the writer accepts it,
but the indexed reader does not deliver it (the data pages are delivered). -/
theorem C63_violated :
    ((writerThen writerNew lateDictionary).end_ thriftCodecs true none).1.isOk = true ∧
    selectionRead ((writerThen writerNew lateDictionary).end_ thriftCodecs true none).2.out 0 3 [⟨1, 2⟩] =
      .ok [(8, [⟨1, 1⟩]), (4, [⟨0, 1⟩])] := by
  decide +kernel

end Pq.Props
