import Verif.Lemmas.ClientSelection
import Verif.Props.Client
import Verif.Props.Selection
/-
Property C71: selected rows. What the client code of the repository reads from pages with selected
rows, and from files through the page locations, are the values of these rows.
-/
namespace Pq.Props
open Spec Client Deser

/-! ### Pages of any writer -/

/-- **C71 (partial)** a PLAIN page of a flat optional column of numbers, of either version, by any writer that puts the
definition levels in one run: for all selected rows that are sorted, within the page and not empty, the array
read has exactly these rows. Missing: several runs, empty intervals, other types (`C71_violated`). -/
theorem C71_page_partial (ck : Bool) (page : DataPage) (dict : Option Dict) (array : Client.Array)
    (rows : List Interval) (rep lv vals : List Byte)
    (hf : FlatOptional page.descriptor)
    (ht : HasType array page.descriptor.primitiveType.physicalType)
    (hnt : NumberType page.descriptor.primitiveType.physicalType)
    (hd : ∀ d, dict = some d → ∃ dp, deserializeDict dp page.descriptor.primitiveType.physicalType = .ok d)
    (henc : page.encoding = .ok .plain) (hsel : page.selectedRows = some rows)
    (hn : page.numValues = array.len)
    (hsplit : splitBuffer page = .ok (rep, lv, vals)) (hlv : LevelRun lv (arrayBits array))
    (hv : PlainValues array vals)
    (hs : SortedFrom 0 rows) (hw : Spec.Within array.len rows) (hne : ∀ iv ∈ rows, 0 < iv.length) :
    pageToArray ck page dict = .ok (arraySelect rows array) :=
  select_vec ck page dict array rows rep lv vals hf ht hnt hd henc hsel hn hsplit (boolIter_run lv _ hlv) hv hs hw hne

/-- An optional page of five rows. -/
example :
    let page := { clientPage 0#32 .int32 .optional 5#32 [0x03#8, 0x15#8]
      [1#8, 0#8, 0#8, 0#8, 2#8, 0#8, 0#8, 0#8, 3#8, 0#8, 0#8, 0#8] with selectedRows := some [⟨1, 2⟩, ⟨4, 1⟩] }
    let array : Client.Array := .int32 [some 1#32, none, some 2#32, none, some 3#32]
    FlatOptional page.descriptor ∧ HasType array page.descriptor.primitiveType.physicalType ∧
    NumberType page.descriptor.primitiveType.physicalType ∧
    page.encoding = .ok .plain ∧ page.numValues = array.len ∧
    splitBuffer page = .ok ([], [0x03#8, 0x15#8], [1#8, 0#8, 0#8, 0#8, 2#8, 0#8, 0#8, 0#8, 3#8, 0#8, 0#8, 0#8]) ∧
    LevelRun [0x03#8, 0x15#8] (arrayBits array) ∧
    PlainValues array [1#8, 0#8, 0#8, 0#8, 2#8, 0#8, 0#8, 0#8, 3#8, 0#8, 0#8, 0#8] ∧
    SortedFrom 0 [⟨1, 2⟩, ⟨4, 1⟩] ∧ Spec.Within array.len [⟨1, 2⟩, ⟨4, 1⟩] ∧
    pageToArray true page none = .ok (.int32 [none, some 2#32, some 3#32]) := by
  refine ⟨⟨rfl, rfl, rfl⟩, trivial, trivial, by decide +kernel, by decide +kernel, by decide +kernel,
    ⟨.packed 1 [0x15#8], ?_, by decide +kernel⟩, by unfold PlainValues; decide +kernel, by decide, ?_, by decide +kernel⟩
  · exact .cons (out := [0x03#8, 0x15#8]) (stream := []) ⟨by decide, by decide, [0x03#8], by decide, by decide⟩ .nil
  · intro iv hiv
    simp only [List.mem_cons, List.not_mem_nil, or_false] at hiv
    rcases hiv with rfl | rfl <;> decide

/-- **C71 (partial)** the same for required columns, whatever the levels. -/
theorem C71_required_page_partial (ck : Bool) (page : DataPage) (dict : Option Dict) (array : Client.Array)
    (rows : List Interval) (rep lv vals : List Byte)
    (hf : FlatRequired page.descriptor)
    (ht : HasType array page.descriptor.primitiveType.physicalType)
    (hnt : NumberType page.descriptor.primitiveType.physicalType)
    (hd : ∀ d, dict = some d → ∃ dp, deserializeDict dp page.descriptor.primitiveType.physicalType = .ok d)
    (henc : page.encoding = .ok .plain) (hsel : page.selectedRows = some rows)
    (hall : ∀ b ∈ arrayBits array, b = true)
    (hsplit : splitBuffer page = .ok (rep, lv, vals)) (hv : PlainValues array vals)
    (hs : SortedFrom 0 rows) (hw : Spec.Within array.len rows) (hne : ∀ iv ∈ rows, 0 < iv.length) :
    pageToArray ck page dict = .ok (arraySelect rows array) :=
  select_required ck page dict array rows rep lv vals hf ht hnt hd henc hsel hall hsplit hv hs hw hne

/-- A required page of three rows. -/
example : pageToArray true { clientPage 0#32 .int32 .required 3#32 []
      [1#8, 0#8, 0#8, 0#8, 2#8, 0#8, 0#8, 0#8, 3#8, 0#8, 0#8, 0#8] with selectedRows := some [⟨0, 1⟩, ⟨2, 1⟩] } none =
    .ok (.int32 [some 1#32, some 3#32]) := by decide +kernel

/-! ### Files -/

theorem client_and {α β : Type} {R S : α → β → Prop} {xs : List α} {ys : List β} (h1 : List.Forall₂ R xs ys)
    (h2 : List.Forall₂ S xs ys) : List.Forall₂ (fun x y => R x y ∧ S x y) xs ys := by
  induction h1 with
  | nil => exact .nil
  | cons h _ ih => cases h2 with
    | cons h' hr => exact .cons ⟨h, h'⟩ (ih hr)

theorem client_at {α β : Type} {R : α → β → Prop} {xs : List α} {ys : List β} (h : List.Forall₂ R xs ys) {i : Nat}
    {x : α} {y : β} (hx : xs[i]? = some x) (hy : ys[i]? = some y) : R x y := by
  induction h generalizing i with
  | nil => simp at hx
  | cons h _ ih =>
    cases i with
    | zero => simp only [List.getElem?_cons_zero, Option.some.injEq] at hx hy; rwa [← hx, ← hy]
    | succ i => exact ih (by simpa using hx) (by simpa using hy)

/-- **C71 (partial)** from values to selected values: every file of flat optional columns made of arrays as the
client of the repository does, accepted by the writer: the page locations are read, and for every column chunk
of numbers without empty pages and for all selected rows that are sorted, not empty and within the column, selecting the
pages, reading them by their locations, decompressing and deserializing gives exactly the selected rows of the
column, in order, in arrays that are not empty. Missing: what is missing for pages, and in C63. -/
theorem C71_file_partial (cs : Codecs) (hcs : Lawful cs) (ck : Bool) (name : String) (fields : List ParquetType)
    (h0 : 0 < fields.length) (h31 : fields.length < 2 ^ 31) (hg : GoodTrees fields)
    (options : WriteOptions) (createdBy : Option String) (kv : Option (List Thrift.KeyValue))
    (arrays : List (List (List Client.Array))) (groups : List (List (List CompressedPage))) (n : Nat) (w : FileWriter)
    (h : Finished thriftCodecs ck (SchemaDescriptor.new name fields) options createdBy kv groups n w)
    (hcols : ∀ g ∈ groups, (SchemaDescriptor.new name fields).leaves.length ≤ g.length)
    (hpages : List.Forall₂ (fun ga g => List.Forall₂ (ColumnOf cs ck options) ga
      ((SchemaDescriptor.new name fields).leaves.zip g)) arrays groups)
    (hf : ∀ g ∈ groups, GroupFits thriftCodecs ((SchemaDescriptor.new name fields).leaves.zip g))
    (hlen : w.out.length < 2 ^ 31) (htotal : (arrays.map arrayRows).sum < 2 ^ 63) :
    ∃ fm, readMetadata fileCodec w.out = .ok fm ∧
      List.Forall₂ (fun (x : List (List Client.Array) × List (List CompressedPage)) group =>
        group.numRows = arrayRows x.1 ∧ ∃ locations,
          (∀ ck, readPagesLocations offsetIndexCodec ck w.out group.columns = .ok locations) ∧
          locations.length = x.1.length ∧ group.columns.length = x.1.length ∧
          ∀ (i : Nat) (as : List Client.Array) (pages : List CompressedPage) (chunk : ColumnChunkMetaData)
            (ls : List Thrift.PageLocation), x.1[i]? = some as → x.2[i]? = some pages →
            group.columns[i]? = some chunk → locations[i]? = some ls →
            NumberType chunk.columnDescr.descriptor.primitiveType.physicalType →
            (∀ a ∈ as, 0 < a.len) → (as.map Array.len).sum < 2 ^ 63 →
            (∀ p ∈ pages, (headerCodec.ser (headerOf p)).length ≤ 1024 * 1024) →
            ChunkSelects headerCodec cs ck w.out as chunk ls) (arrays.zip groups) fm.rowGroups := by
  have hmem : ∀ g ∈ groups, ∃ ga ∈ arrays, List.Forall₂ (ColumnOf cs ck options) ga
      ((SchemaDescriptor.new name fields).leaves.zip g) := fun g hg => Client.forall₂_right hpages hg
  have hsum : (groups.map fun g => groupRows ((SchemaDescriptor.new name fields).leaves.zip g)) =
      arrays.map arrayRows := by
    clear h hcols hf hlen htotal hmem
    induction hpages with
    | nil => rfl
    | cons hc _ ih => rw [List.map_cons, List.map_cons, ih, (client_groupRows hc).1]
  have hle : ∀ ga ∈ arrays, arrayRows ga ≤ (arrays.map arrayRows).sum := by
    intro ga hga
    obtain ⟨l, r, rfl⟩ := List.append_of_mem hga
    simp only [List.map_append, List.map_cons, List.sum_append, List.sum_cons]
    omega
  have hread : ∀ g ∈ groups, ∀ c ∈ (SchemaDescriptor.new name fields).leaves.zip g, Readable c := by
    intro g hg c hc
    obtain ⟨ga, -, hga⟩ := hmem g hg
    obtain ⟨a, -, ha⟩ := Client.forall₂_right hga hc
    exact columnOf_readable ha
  have hrows : ∀ g ∈ groups, GroupRowsKnown ((SchemaDescriptor.new name fields).leaves.zip g) := by
    intro g hg
    obtain ⟨ga, hgm, hga⟩ := hmem g hg
    exact (client_groupRows hga).2 (Nat.lt_of_le_of_lt (hle ga hgm) htotal)
  obtain ⟨md, pre, he, hr⟩ := C59_compact_partial ck name fields h0 h31 hg options createdBy kv groups n w h hf
    (by omega) hcols hread hrows (by rw [hsum]; exact htotal)
  obtain ⟨fm, h1, -, -, -, -, -, -, h7⟩ := hr (by
    have := congrArg List.length he
    simp only [List.length_append] at this
    omega)
  obtain ⟨fm', g1, g2⟩ := C63_compact_partial ck name fields h0 h31 hg options createdBy kv groups n w h hf hlen
    hcols hread hrows (by rw [hsum]; exact htotal)
  rw [h1] at g1
  injection g1 with g1
  subst g1
  refine ⟨fm, h1, (client_zip hpages (client_and h7 g2)).imp ?_⟩
  rintro ⟨ga, g⟩ group ⟨ha, hgr, locations, k1, k2, k3, k4⟩
  have hl := ha.length_eq
  dsimp only at ha hl ⊢
  refine ⟨by rw [hgr.rows]; exact (client_groupRows ha).1, locations, k1, by rw [k2, hl], by rw [k3, hl], ?_⟩
  intro i as pages chunk ls e1 e2 e3 e4 hnt hpos hs hhd
  have hi : i < ((SchemaDescriptor.new name fields).leaves.zip g).length := by
    rw [← hl]; exact (List.getElem?_eq_some_iff.1 e1).1
  obtain ⟨c, hc⟩ : ∃ c, ((SchemaDescriptor.new name fields).leaves.zip g)[i]? = some c :=
    ⟨_, List.getElem?_eq_getElem hi⟩
  have hc2 : c.2 = pages := by
    have := List.getElem?_zip_eq_some.1 hc
    rw [e2] at this
    exact (Option.some.inj this.2).symm
  have hco := client_at ha e1 hc
  have hch := client_at hgr.chunks hc e3
  obtain ⟨r1, r2⟩ := columnOf_rows hco
  refine columnOf_selects hcs hco (by rw [← hch.descriptor]; exact hnt) hch.descriptor hpos hs
    (k4 i c chunk ls hc e3 e4 r1 (by rw [r2]; exact hs) (by rw [hc2]; exact hhd) none c.2 rfl ?_)
  intro p hp
  obtain ⟨opts, hpg⟩ := hco.pages
  obtain ⟨a, -, ha⟩ := Client.forall₂_right hpg hp
  obtain ⟨s, lv, vals, buf, -, rfl, -⟩ := pageOf_shape hco.flat ha
  rfl

/-- The example of C70 meets the hypotheses; its first column is of numbers and has two pages. -/
example :
    (∃ n, Finished thriftCodecs true (SchemaDescriptor.new "s" clientFields) clientOptions (some "me") none
      clientGroups n clientEnd.2) ∧ Lawful toyCodecs ∧
    (∀ g ∈ clientGroups, clientSchema.leaves.length ≤ g.length) ∧
    List.Forall₂ (fun ga g => List.Forall₂ (ColumnOf toyCodecs true clientOptions) ga
      ((SchemaDescriptor.new "s" clientFields).leaves.zip g)) clientArrays clientGroups ∧
    (∀ g ∈ clientGroups, GroupFits thriftCodecs (clientSchema.leaves.zip g)) ∧
    clientEnd.2.out.length < 2 ^ 31 ∧
    (∀ g ∈ clientGroups, ∀ pages ∈ g, ∀ p ∈ pages, (headerCodec.ser (headerOf p)).length ≤ 1024 * 1024) ∧
    (∀ g ∈ clientArrays, ∀ as ∈ g, ∀ a ∈ as, 0 < a.len) :=
  ⟨client_example, toyCodecs_lawful, by decide +kernel, client_example_pages, by decide +kernel, by decide +kernel,
    by decide +kernel, by decide +kernel⟩

/-- What the client reads from the first column of the first row group of a file, if these rows are selected
(`tests/it/write/indexes.rs:59-90`). -/
def clientSelect (file : List Byte) (ivs : List Interval) (pages : Nat) : Res (List Client.Array) := do
  let fm ← readMetadata fileCodec file
  match fm.rowGroups.head? with
  | none => .err .oos
  | some group =>
    let locations ← readPagesLocations offsetIndexCodec true file group.columns
    match group.columns.head?, locations.head? with
    | some chunk, some ls =>
      let filtered ← selectPages true ivs ls group.numRows
      let reader ← IndexedReader.ofColumn file chunk filtered
      Client.collect true (fun _ => BasicDecompressor.advance toyCodecs true (IndexedReader.next headerCodec true) (0, []))
        (·.current) chunk.columnDescr.descriptor.primitiveType.physicalType (pages + 1) 0
        (BasicDecompressor.new reader) none
    | _, _ => .err .oos

/-- The test `read_indexed_page` of the repository, and one selection across two pages. -/
def clientIndexed : List Byte := (clientWrite .int32
  [.int32 [some 0#32, some 1#32, none, some 3#32, some 4#32, some 5#32, some 6#32], .int32 [some 10#32, some 11#32]]).2.out

example : clientSelect clientIndexed [⟨2, 2⟩] 2 = .ok [.int32 [none, some 3#32]] := by decide +kernel
example : clientSelect clientIndexed [⟨1, 2⟩, ⟨6, 2⟩] 2 =
    .ok [.int32 [some 1#32, none, some 6#32], .int32 [some 10#32]] := by decide +kernel

/-- **C71** of pages of numbers in other encodings than PLAIN no rows are selected: the client refuses them as
unsupported, whatever the dictionary, the selection and the bytes. -/
theorem C71_encodings (ck : Bool) (page : DataPage) (rows : List Interval) (e : Encoding) (dict : Option Dict)
    (hr : page.descriptor.maxRepLevel = 0#16) (hs : page.selectedRows = some rows)
    (he : page.encoding = .ok e) (hp : e ≠ .plain)
    (ht : (entryWidth page.descriptor.primitiveType.physicalType).isSome)
    (hd : ∀ d, dict = some d → ∃ dp, deserializeDict dp page.descriptor.primitiveType.physicalType = .ok d) :
    pageToArray ck page dict = .err .featureNotSupported := by
  have h : ∀ b (d : Option (List (BitVec (8 * b)))), nativeToVec ck b page d = .err .featureNotSupported := by
    intro b d
    unfold nativeToVec filteredToVec
    rw [hr, hs, he]
    simp only [Res.assert, decide_true, if_true, Res.ok_bind]
  have hm : ∀ {α β : Type} (r : Res α) (f : α → β) (x : β), r.map' f = .ok x → ∃ y, f y = x := by
    intro α β r f x h
    cases r with
    | ok y => exact ⟨y, by simpa [Res.map'] using h⟩
    | err e => cases h
    | panic => cases h
  unfold pageToArray
  generalize page.descriptor.primitiveType.physicalType = t at *
  cases dict with
  | none =>
    cases t <;> simp only [entryWidth, Option.isSome_none, Bool.false_eq_true] at ht <;>
      simp only [expectDict, Res.ok_bind, h, Res.map']
  | some d =>
    obtain ⟨dp, hdp⟩ := hd d rfl
    cases t <;> simp only [entryWidth, Option.isSome_none, Bool.false_eq_true] at ht <;>
      (obtain ⟨x, rfl⟩ := hm _ _ _ hdp
       simp only [expectDict, Dict.asInt32, Dict.asInt64, Dict.asInt96, Dict.asFloat, Dict.asDouble, Res.ok_bind, h,
         Res.map'])

example :
    let page := { clientPage 8#32 .int32 .required 2#32 [] [1#8, 4#8, 0#8] with selectedRows := some [⟨0, 1⟩] }
    page.encoding = .ok .rleDictionary ∧ (entryWidth page.descriptor.primitiveType.physicalType).isSome ∧
    deserializeDict { buffer := [7#8, 0#8, 0#8, 0#8], numValues := 1, isSorted := false } .int32 = .ok (.int32 [7#32]) ∧
    pageToArray true page (some (.int32 [7#32])) = .err .featureNotSupported := by decide +kernel

/-- **C71 is violated.** A page whose levels are in two runs loses the rows of the second one. An empty page
inside the selection makes the reader panic with overflow checks. Columns of strings ignore the selection. -/
theorem C71_violated :
    pageToArray true { clientPage 0#32 .int32 .optional 4#32 [0x04#8, 0x01#8, 0x04#8, 0x00#8]
        [1#8, 0#8, 0#8, 0#8, 2#8, 0#8, 0#8, 0#8] with selectedRows := some [⟨0, 4⟩] } none =
      .ok (.int32 [some 1#32, some 2#32]) ∧
    clientSelect (clientWrite .int64 [.int64 [some 5#64], .int64 [], .int64 [none]]).2.out [⟨0, 2⟩] 3 = .panic ∧
    clientSelect (clientWrite .byteArray [.binary [some [1#8], some [2#8]]]).2.out [⟨0, 1⟩] 1 =
      .ok [.binary [some [1#8], some [2#8]]] := by decide +kernel

end Pq.Props
