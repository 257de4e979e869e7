import Verif.Lemmas.ClientFile
import Verif.Lemmas.ClientRefuse
import Verif.Props.WholeFile
import Verif.Props.Deserialize
/-
Property C70: values. What the client code of the repository reads from pages and files, with the page
states of the library, are the values that the pages hold.
-/
namespace Pq.Props
open Spec Client Deser

/-! ### Pages of any writer -/

/-- A primitive type for the examples. -/
def clientType (name : String) (t : PhysicalType) (repetition : Repetition) : PrimitiveType :=
  { fieldInfo := { name, repetition, id := none }, logicalType := none, convertedType := none
    physicalType := t }

/-- A V2 page for the examples. -/
def clientPage (encoding : I32) (t : PhysicalType) (repetition : Repetition) (n : I32) (levels : List Byte)
    (vals : List Byte) : DataPage :=
  { header := .v2 { numValues := n, numNulls := 0#32, numRows := n, encoding
                    definitionLevelsByteLength := BitVec.ofNat 32 levels.length
                    repetitionLevelsByteLength := 0#32 }
    buffer := levels ++ vals
    descriptor := { primitiveType := clientType "c" t repetition
                    maxDefLevel := if repetition = .optional then 1#16 else 0#16, maxRepLevel := 0#16 }
    selectedRows := none }

/-- Four levels in two runs: a null twice, then eight packed levels of which two are used (a value, a null). -/
theorem client_levels : LevelStream [0x04#8, 0x00#8, 0x03#8, 0xA5#8] [false, false, true, false] :=
  ⟨_, exampleStream, by decide +kernel⟩

/-- **C70** a PLAIN page of a flat optional column of any physical type, of either version, by any writer
(definition levels in any legal stream of runs): the array read is the one the page holds; it makes
no difference whether the column has a dictionary. -/
theorem C70_plain_page (ck : Bool) (page : DataPage) (dict : Option Dict) (array : Client.Array)
    (rep lv vals : List Byte)
    (hf : FlatOptional page.descriptor)
    (ht : HasType array page.descriptor.primitiveType.physicalType)
    (hd : ∀ d, dict = some d → ∃ dp, deserializeDict dp page.descriptor.primitiveType.physicalType = .ok d)
    (henc : page.encoding = .ok .plain) (hsel : page.selectedRows = none)
    (hn : page.numValues = (arrayBits array).length)
    (hsplit : splitBuffer page = .ok (rep, lv, vals)) (hlv : LevelStream lv (arrayBits array))
    (hv : PlainValues array vals) :
    pageToArray ck page dict = .ok array :=
  array_vec ck page dict array vals ht hd henc hsel hv
    (.ofFlat hf hn ⟨rep, lv, hsplit, levelsAre_of_stream lv _ hlv⟩)

/-- The optional page of the array `[None, None, Some("xy"), None]` meets the hypotheses. -/
example :
    let page := clientPage 0#32 .byteArray .optional 4#32 [0x04#8, 0x00#8, 0x03#8, 0xA5#8]
      [2#8, 0#8, 0#8, 0#8, 120#8, 121#8]
    let array : Client.Array := .binary [none, none, some [120#8, 121#8], none]
    FlatOptional page.descriptor ∧ HasType array page.descriptor.primitiveType.physicalType ∧
    page.encoding = .ok .plain ∧ page.selectedRows = none ∧ page.numValues = (arrayBits array).length ∧
    splitBuffer page = .ok ([], [0x04#8, 0x00#8, 0x03#8, 0xA5#8], [2#8, 0#8, 0#8, 0#8, 120#8, 121#8]) ∧
    LevelStream [0x04#8, 0x00#8, 0x03#8, 0xA5#8] (arrayBits array) ∧
    PlainValues array [2#8, 0#8, 0#8, 0#8, 120#8, 121#8] := by
  refine ⟨⟨rfl, rfl, rfl⟩, trivial, by decide +kernel, rfl, by decide +kernel, by decide +kernel,
    client_levels, by decide +kernel, ?_⟩
  intro s hs
  have : s = [120#8, 121#8] := by simpa using hs
  rw [this]; decide

/-- **C70** the same for required columns. -/
theorem C70_required_page (ck : Bool) (page : DataPage) (dict : Option Dict) (array : Client.Array)
    (rep lv vals : List Byte)
    (hf : FlatRequired page.descriptor)
    (ht : HasType array page.descriptor.primitiveType.physicalType)
    (hd : ∀ d, dict = some d → ∃ dp, deserializeDict dp page.descriptor.primitiveType.physicalType = .ok d)
    (henc : page.encoding = .ok .plain) (hsel : page.selectedRows = none)
    (hn : page.numValues = (arrayBits array).length) (hall : ∀ b ∈ arrayBits array, b = true)
    (hsplit : splitBuffer page = .ok (rep, lv, vals)) (hv : PlainValues array vals) :
    pageToArray ck page dict = .ok array :=
  array_required ck page dict array vals ht hd henc hsel hv hall ⟨⟨hf.repetition, hf.repeated⟩, hn, rep, lv, hsplit⟩

/-- A required page of booleans, and one of fixed-length strings. -/
example :
    let page := clientPage 0#32 .boolean .required 3#32 [] [0xFD#8]
    let array : Client.Array := .boolean [some true, some false, some true]
    FlatRequired page.descriptor ∧ HasType array page.descriptor.primitiveType.physicalType ∧
    (∀ b ∈ arrayBits array, b = true) ∧ splitBuffer page = .ok ([], [], [0xFD#8]) ∧
    page.numValues = (arrayBits array).length ∧ PlainValues array [0xFD#8] :=
  ⟨⟨rfl, rfl, rfl⟩, trivial, by decide +kernel, by decide +kernel, by decide +kernel, by decide +kernel, by
    intro i hi
    have : i < 3 := hi
    match i, this with
    | 0, _ => decide +kernel
    | 1, _ => decide +kernel
    | 2, _ => decide +kernel⟩
example : (pageToArray true (clientPage 0#32 .boolean .required 3#32 [] [0xFD#8]) none) =
    .ok (.boolean [some true, some false, some true]) := by decide +kernel
example : (pageToArray true (clientPage 0#32 (.fixedLenByteArray 2) .required 2#32 [] [1#8, 2#8, 3#8, 4#8])
    none) = .ok (.fixedLenBinary [some [1#8, 2#8], some [3#8, 4#8]]) := by decide +kernel

/-- **C70** dictionary pages: the dictionary page holds the entries in PLAIN encoding, the data page
(of either version, optional or required) the indices, in any legal streams: the array read has the entries with
these indices. -/
theorem C70_dictionary_page (ck : Bool) (page : DataPage) (dp : DictPage) (e : Encoding) (entries : Client.Array)
    (col : List (Option Nat)) (rep lv vals : List Byte)
    (ht : HasType entries page.descriptor.primitiveType.physicalType)
    (hb : page.descriptor.primitiveType.physicalType ≠ .boolean)
    (hall : ∀ b ∈ arrayBits entries, b = true) (hv : PlainValues entries dp.buffer)
    (hdn : dp.numValues = (arrayBits entries).length) (hl : dp.buffer.length < 2 ^ 64)
    (henc : page.encoding = .ok e) (he : e = .plainDictionary ∨ e = .rleDictionary)
    (hsel : page.selectedRows = none)
    (hc : ∀ i, some i ∈ col → i < (arrayBits entries).length)
    (hn : page.numValues = col.length)
    (hsplit : splitBuffer page = .ok (rep, lv, vals))
    (hi : IndexStream vals (col.filterMap id))
    (hf : (FlatOptional page.descriptor ∧ LevelStream lv (col.map Option.isSome)) ∨
      (FlatRequired page.descriptor ∧ ∀ o ∈ col, o.isSome)) :
    ∃ d, deserializeDict dp page.descriptor.primitiveType.physicalType = .ok d ∧
      pageToArray ck page (some d) = .ok (pick entries col) := by
  refine dict_vec ck page dp e entries col vals ht hb hall hv hdn hl henc he hsel hc hi ?_
  rcases hf with ⟨hf, hlv⟩ | ⟨hf, hall⟩
  · exact .inl (.ofFlat hf (by rw [List.length_map]; exact hn) ⟨rep, lv, hsplit, levelsAre_of_stream lv _ hlv⟩)
  · exact .inr ⟨hall, ⟨hf.repetition, hf.repeated⟩, hn, rep, lv, hsplit⟩

/-- A dictionary of two strings; a page with the rows null, null, the second one, null (indices of one
bit, in a run). -/
example :
    let page := clientPage 8#32 .byteArray .optional 4#32 [0x04#8, 0x00#8, 0x03#8, 0xA5#8] [1#8, 2#8, 1#8]
    let dp : DictPage := { buffer := [1#8, 0#8, 0#8, 0#8, 120#8, 0#8, 0#8, 0#8, 0#8], numValues := 2, isSorted := false }
    let entries : Client.Array := .binary [some [120#8], some []]
    let col : List (Option Nat) := [none, none, some 1, none]
    PlainValues entries dp.buffer ∧ dp.numValues = (arrayBits entries).length ∧
    page.encoding = .ok .rleDictionary ∧ page.numValues = col.length ∧
    splitBuffer page = .ok ([], [0x04#8, 0x00#8, 0x03#8, 0xA5#8], [1#8, 2#8, 1#8]) ∧
    IndexStream [1#8, 2#8, 1#8] (col.filterMap id) ∧ LevelStream [0x04#8, 0x00#8, 0x03#8, 0xA5#8] (col.map Option.isSome) ∧
    (do let d ← deserializeDict dp .byteArray
        pageToArray true page (some d)) = .ok (.binary [none, none, some [], none]) := by
  refine ⟨⟨by decide +kernel, ?_⟩, by decide +kernel, by decide +kernel, by decide +kernel, by decide +kernel, ?_,
    client_levels, by decide +kernel⟩
  · intro s hs
    have : s = [120#8] ∨ s = [] := by simpa using hs
    rcases this with rfl | rfl <;> decide
  · refine ⟨1#8, [2#8, 1#8], rfl, by decide, .inr ⟨by decide, [.rle 1 1], ?_, by decide +kernel⟩⟩
    exact .cons (out := [2#8, 1#8]) (stream := []) ⟨by decide, [2#8], by decide, by decide⟩ .nil

/-! ### Arrays written by the client -/

/-- **C70** an array made into a page with the encoders of the library (flat optional column) is read from
that page, whatever the build, with statistics or without. -/
theorem C70_written_page (array : Client.Array) (options : WriteOptions) (d : Descriptor) (page : Page)
    (h : arrayToPage array options d = .ok page) (hf : FlatOptional d)
    (ht : HasType array d.primitiveType.physicalType) (hn : array.len < 2 ^ 31)
    (hb : page.buffer.length < 2 ^ 32) :
    ∃ p, page = .data p ∧ p.descriptor = d ∧ p.numValues = array.len ∧
      p.selectedRows = some [⟨0, array.len⟩] ∧
      ∀ ck, pageToArray ck { p with selectedRows := none } none = .ok array := by
  obtain ⟨s, lv, vals, rfl, h4, h5, -, h6⟩ := arrayToPage_ok array options d page h hf hn hb
  refine ⟨_, rfl, rfl, ?_, rfl, fun ck => ?_⟩
  · have := (h6 none).rows
    rw [h5] at this
    exact this
  · exact array_vec ck _ none array vals ht (by intro d hd; cases hd) rfl rfl h4 (h6 none)

/-- The columns of the examples. -/
def clientFields : List ParquetType :=
  [.primitive (clientType "a" .int32 .optional), .primitive (clientType "b" .byteArray .optional)]

def clientSchema : SchemaDescriptor := SchemaDescriptor.new "s" clientFields

def clientOptions : WriteOptions := { writeStatistics := true, version := 2#32 }

/-- Two row groups; the first column of the first one has two pages. -/
def clientArrays : List (List (List Client.Array)) :=
  [[[.int32 [some 1#32, none, some 0xFFFFFFFF#32], .int32 [none]], [.binary [some [1#8, 2#8], none, some [], none]]],
   [[.int32 [some 7#32]], [.binary [some [255#8]]]]]

/-- The compressed page of an array. -/
def clientCompress (d : Descriptor) (a : Client.Array) : Res CompressedPage := do
  let page ← arrayToPage a clientOptions d
  compressPage toyCodecs true page [] .snappy

def clientGroups : List (List (List CompressedPage)) :=
  clientArrays.map fun g => (clientSchema.leaves.zip g).map fun (c, as) =>
    as.flatMap fun a => match clientCompress c.descriptor a with
      | .ok cp => [cp]
      | _ => []

example : ∀ c ∈ clientSchema.leaves, c.descriptor.primitiveType.physicalType = .int32 →
    (arrayToPage (.int32 [some 1#32, none, some 0xFFFFFFFF#32]) clientOptions c.descriptor).map' Page.buffer =
      .ok [2#8, 0#8, 0#8, 0#8, 3#8, 5#8, 1#8, 0#8, 0#8, 0#8, 255#8, 255#8, 255#8, 255#8] := by decide +kernel

/-! ### Files -/

theorem client_zip {α β γ : Type} {R : α → β → Prop} {S : β → γ → Prop} {as : List α} {bs : List β} {cs : List γ}
    (h1 : List.Forall₂ R as bs) (h2 : List.Forall₂ S bs cs) :
    List.Forall₂ (fun (x : α × β) c => R x.1 x.2 ∧ S x.2 c) (as.zip bs) cs := by
  induction h1 generalizing cs with
  | nil => cases h2; exact .nil
  | cons h _ ih => cases h2 with
    | cons h' hr => exact .cons ⟨h, h'⟩ (ih hr)

theorem client_zip_snd {α β δ γ : Type} {R : α → δ × β → Prop} {S : δ × β → γ → Prop} {T : α × β → γ → Prop}
    (hT : ∀ a d b c, R a (d, b) → S (d, b) c → T (a, b) c)
    {as : List α} {ds : List δ} {bs : List β} {cs : List γ}
    (h1 : List.Forall₂ R as (ds.zip bs)) (h2 : List.Forall₂ S (ds.zip bs) cs) :
    List.Forall₂ T (as.zip bs) cs := by
  induction bs generalizing as ds cs with
  | nil => simp only [List.zip_nil_right] at h1 h2 ⊢; cases h2; exact .nil
  | cons b bs ih =>
    cases ds with
    | nil => simp only [List.zip_nil_left] at h1 h2; cases h1; cases h2; exact .nil
    | cons d ds =>
      rw [List.zip_cons_cons] at h1 h2
      cases h1 with | cons ha hr1 =>
      cases h2 with | cons hc hr2 => exact .cons (hT _ _ _ _ ha hc) (ih hr1 hr2)

theorem client_groupRows {cs : Codecs} {ck : Bool} {options : WriteOptions} {ga : List (List Client.Array)}
    {columns : List (ColumnDescriptor × List CompressedPage)} (h : List.Forall₂ (ColumnOf cs ck options) ga columns) :
    groupRows columns = arrayRows ga ∧ (arrayRows ga < 2 ^ 63 → GroupRowsKnown columns) := by
  cases h with
  | nil => exact ⟨rfl, fun _ c hc => (List.not_mem_nil hc).elim⟩
  | cons hc _ =>
    obtain ⟨h1, h2⟩ := columnOf_rows hc
    refine ⟨h2, fun hlt c hc => ?_⟩
    rw [List.take_succ_cons, List.take_zero, List.mem_singleton] at hc
    subst hc
    exact ⟨h1, by rw [h2]; exact hlt⟩

/-- **C70 (partial)** from values to values: every file of flat optional columns, whose pages are made of
arrays as the client of the repository does (any number of row groups, columns and pages, any of the
correct codecs), accepted by the writer: its metadata is read, and for every column chunk the
page iterator, the decompressor and the page states give exactly the arrays, in order. Missing:
columns whose last array is empty, and int96 with statistics (`C70_violated`); what is missing in C59. -/
theorem C70_file_partial (cs : Codecs) (hcs : Lawful cs) (ck : Bool) (name : String) (fields : List ParquetType)
    (h0 : 0 < fields.length) (h31 : fields.length < 2 ^ 31) (hg : GoodTrees fields)
    (options : WriteOptions) (createdBy : Option String) (kv : Option (List Thrift.KeyValue))
    (arrays : List (List (List Client.Array))) (groups : List (List (List CompressedPage))) (n : Nat) (w : FileWriter)
    (h : Finished thriftCodecs ck (SchemaDescriptor.new name fields) options createdBy kv groups n w)
    (hcols : ∀ g ∈ groups, (SchemaDescriptor.new name fields).leaves.length ≤ g.length)
    (hpages : List.Forall₂ (fun ga g => List.Forall₂ (ColumnOf cs ck options) ga
      ((SchemaDescriptor.new name fields).leaves.zip g)) arrays groups)
    (hf : ∀ g ∈ groups, GroupFits thriftCodecs ((SchemaDescriptor.new name fields).leaves.zip g))
    (hlen : w.out.length < 2 ^ 63) (htotal : (arrays.map arrayRows).sum < 2 ^ 63) :
    ∃ md pre, w.out = pre ++ fileCodec.ser md ++ tail8 (fileCodec.ser md) ∧
      ((fileCodec.ser md).length < 2 ^ 31 →
        ∃ fm, readMetadata fileCodec w.out = .ok fm ∧ fm.numRows = (arrays.map arrayRows).sum ∧
          List.Forall₂ (fun (x : List (List Client.Array) × List (List CompressedPage)) group =>
            group.numRows = arrayRows x.1 ∧
            List.Forall₂ (fun (y : List Client.Array × List CompressedPage) chunk =>
              ChunkGives headerCodec (fun h => (headerCodec.ser h).length) cs ck w.out y.1 y.2 chunk)
              (x.1.zip x.2) group.columns) (arrays.zip groups) fm.rowGroups) := by
  have hmem : ∀ g ∈ groups, ∃ ga ∈ arrays, List.Forall₂ (ColumnOf cs ck options) ga
      ((SchemaDescriptor.new name fields).leaves.zip g) := fun g hg => Client.forall₂_right hpages hg
  have hsum : (groups.map fun g => groupRows ((SchemaDescriptor.new name fields).leaves.zip g)) =
      arrays.map arrayRows := by
    clear h hcols hf hlen htotal hmem
    induction hpages with
    | nil => rfl
    | cons hc _ ih => rw [List.map_cons, List.map_cons, ih, (client_groupRows hc).1]
  have hle : ∀ ga ∈ arrays, arrayRows ga ≤ (arrays.map arrayRows).sum := by
    intro ga hga
    obtain ⟨l, r, rfl⟩ := List.append_of_mem hga
    simp only [List.map_append, List.map_cons, List.sum_append, List.sum_cons]
    omega
  obtain ⟨md, pre, he, hr⟩ := C59_compact_partial ck name fields h0 h31 hg options createdBy kv groups n w h hf hlen
    hcols
    (by
      intro g hg c hc
      obtain ⟨ga, -, hga⟩ := hmem g hg
      obtain ⟨a, -, ha⟩ := Client.forall₂_right hga hc
      exact columnOf_readable ha)
    (by
      intro g hg
      obtain ⟨ga, hgm, hga⟩ := hmem g hg
      exact (client_groupRows hga).2 (Nat.lt_of_le_of_lt (hle ga hgm) htotal))
    (by rw [hsum]; exact htotal)
  refine ⟨md, pre, he, fun hmd => ?_⟩
  obtain ⟨fm, h1, -, -, -, -, -, h6, h7⟩ := hr hmd
  refine ⟨fm, h1, by rw [h6, hsum], (client_zip hpages h7).imp ?_⟩
  rintro ⟨ga, g⟩ group ⟨ha, hgr⟩
  refine ⟨by rw [hgr.rows]; exact (client_groupRows ha).1, ?_⟩
  exact client_zip_snd (fun a d b c hc hr => columnOf_gives hcs hc hr) ha hgr.chunks

theorem client_pageOf {d : Descriptor} {a : Client.Array} {cp : CompressedPage}
    (ht : HasType a d.primitiveType.physicalType) (hn : a.len < 2 ^ 31)
    (h : (match arrayToPage a clientOptions d with
      | .ok page => decide (page.buffer.length < 2 ^ 32) && decide (compressPage toyCodecs true page [] .snappy = .ok cp)
      | _ => false) = true) : PageOf toyCodecs true clientOptions .snappy d a cp := by
  refine ⟨ht, hn, ?_⟩
  cases hp : arrayToPage a clientOptions d with
  | ok page =>
    rw [hp] at h
    simp only [Bool.and_eq_true, decide_eq_true_eq] at h
    exact ⟨page, rfl, h.1, h.2⟩
  | err e => rw [hp] at h; cases h
  | panic => rw [hp] at h; cases h

def clientNew : FileWriter := FileWriter.new clientSchema clientOptions (some "me")

def clientEnd : Res Nat × FileWriter :=
  (writerThen (writerThen clientNew (clientGroups[0]?.getD [])) (clientGroups[1]?.getD [])).end_ thriftCodecs true none

theorem client_groups : clientGroups = [clientGroups[0]?.getD [], clientGroups[1]?.getD []] := rfl

/-- The arrays of the example are written to a file that meets the hypotheses. -/
theorem client_example : ∃ n, Finished thriftCodecs true clientSchema clientOptions (some "me") none clientGroups n
    clientEnd.2 := by
  have h1 : (clientNew.write thriftCodecs true (writerCall (clientGroups[0]?.getD []))).1.isOk = true := by
    decide +kernel
  have h2 : ((writerThen clientNew (clientGroups[0]?.getD [])).write thriftCodecs true
      (writerCall (clientGroups[1]?.getD []))).1.isOk = true := by decide +kernel
  have h3 : clientEnd.1.isOk = true := by decide +kernel
  have hw := writerThen_wrote (writerThen_wrote .nil h1) h2
  generalize hend : clientEnd = r at h3
  obtain ⟨a, b⟩ := r
  cases a with
  | ok n => exact ⟨n, clientNew, _, .inl rfl, hw, .inl hend⟩
  | err e => cases h3
  | panic => cases h3

theorem client_example_pages : List.Forall₂ (fun ga g => List.Forall₂ (ColumnOf toyCodecs true clientOptions) ga
      (clientSchema.leaves.zip g)) clientArrays clientGroups := by
  refine .cons (.cons ⟨⟨rfl, rfl, rfl⟩, ⟨.snappy, .cons (client_pageOf trivial (by decide) ?_) (.cons (client_pageOf trivial (by decide) ?_) .nil)⟩, ?_⟩
    (.cons ⟨⟨rfl, rfl, rfl⟩, ⟨.snappy, .cons (client_pageOf trivial (by decide) ?_) .nil⟩, ?_⟩ .nil))
    (.cons (.cons ⟨⟨rfl, rfl, rfl⟩, ⟨.snappy, .cons (client_pageOf trivial (by decide) ?_) .nil⟩, ?_⟩
      (.cons ⟨⟨rfl, rfl, rfl⟩, ⟨.snappy, .cons (client_pageOf trivial (by decide) ?_) .nil⟩, ?_⟩ .nil)) .nil)
  all_goals first | decide +kernel | (intro a ha; cases ha; decide)

/-- The example has two row groups, of four rows and one, with nulls, several pages and two types. -/
example :
    (∃ n, Finished thriftCodecs true (SchemaDescriptor.new "s" clientFields) clientOptions (some "me") none
      clientGroups n clientEnd.2) ∧
    GoodTrees clientFields ∧ Lawful toyCodecs ∧
    (∀ g ∈ clientGroups, clientSchema.leaves.length ≤ g.length) ∧
    List.Forall₂ (fun ga g => List.Forall₂ (ColumnOf toyCodecs true clientOptions) ga
      ((SchemaDescriptor.new "s" clientFields).leaves.zip g)) clientArrays clientGroups ∧
    (∀ g ∈ clientGroups, GroupFits thriftCodecs (clientSchema.leaves.zip g)) ∧
    clientEnd.2.out.length < 2 ^ 63 ∧ (clientArrays.map arrayRows).sum = 5 := by
  refine ⟨client_example, ?_, toyCodecs_lawful, by decide +kernel, client_example_pages, by decide +kernel,
    by decide +kernel, by decide +kernel⟩
  simp only [clientFields, clientType, GoodTrees, GoodTree, GoodPrimitive, SmallPhysical, and_true]
  exact ⟨⟨trivial, by simp, by simp, rfl⟩, ⟨trivial, by simp, by simp, rfl⟩⟩

/-- The arrays that the client reads from the first column of the first row group of a file. -/
def clientRead (file : List Byte) (pages : Nat) : Res (List Client.Array) := do
  let fm ← readMetadata fileCodec file
  match (fm.rowGroups.head?.bind fun g => g.columns.head?) with
  | none => .err .oos
  | some chunk =>
    let reader ← getPageIterator chunk file none [] 1000
    Client.collect true (fun _ => Decompressor.advance toyCodecs true (PageReader.iter headerCodec true) 0) (·.current)
      chunk.columnDescr.descriptor.primitiveType.physicalType (pages + 1) 0 (Decompressor.new reader []) none

/-- The file of one column, one row group and these arrays. -/
def clientWrite (t : PhysicalType) (arrays : List Client.Array) : Res Nat × FileWriter :=
  let schema := SchemaDescriptor.new "s" [.primitive (clientType "a" t .optional)]
  let group := (schema.leaves.map fun c => arrays.flatMap fun a => match clientCompress c.descriptor a with
    | .ok cp => [cp]
    | _ => [])
  let (r, w) := (FileWriter.new schema clientOptions none).write thriftCodecs true (writerCall group)
  match r with
  | .ok _ => w.end_ thriftCodecs true none
  | .err e => (.err e, w)
  | .panic => (.panic, w)

example : clientRead (clientWrite .int64 [.int64 [some 5#64], .int64 [], .int64 [none]]).2.out 3 =
    .ok [.int64 [some 5#64], .int64 [], .int64 [none]] := by decide +kernel

/-- The dictionary has entries of the type. -/
def entriesOf : Dict → PhysicalType → Bool
  | .int32 _, .int32 | .int64 _, .int64 | .int96 _, .int96 | .float _, .float | .double _, .double
  | .byteArray _, .byteArray | .fixedLenByteArray _ _, .fixedLenByteArray _ => true
  | _, _ => false

/-- **C70** a page with the dictionary of another type is not read: the program aborts. (Booleans have no
dictionary: one that is given is not looked at.) -/
theorem C70_dictionary_type (ck : Bool) (page : DataPage) (dict : Dict)
    (h : entriesOf dict page.descriptor.primitiveType.physicalType = false) :
    (page.descriptor.primitiveType.physicalType ≠ .boolean → pageToArray ck page (some dict) = .panic) ∧
    (page.descriptor.primitiveType.physicalType = .boolean →
      pageToArray ck page (some dict) = pageToArray ck page none) := by
  constructor
  · intro hb
    unfold pageToArray
    cases ht : page.descriptor.primitiveType.physicalType <;> cases dict <;>
      first
        | (rw [ht] at h; simp [entriesOf] at h; done)
        | exact absurd ht hb
        | rfl
  · intro hb
    unfold pageToArray
    rw [hb]

example : entriesOf (.int64 [1#64]) .int32 = false ∧ entriesOf (.int64 [1#64]) .int64 = true := by decide

/-- The dictionary has an entry with this index. -/
def hasEntry (i : Nat) : Dict → Prop
  | .int32 xs => i < xs.length
  | .int64 xs => i < xs.length
  | .int96 xs => i < xs.length
  | .float xs => i < xs.length
  | .double xs => i < xs.length
  | .byteArray xs => i < xs.length
  | .fixedLenByteArray buffer size => (i + 1) * size ≤ buffer.length

/-- **C70** a dictionary page of a required column (of either version, by any writer) in which some index
has no entry in the dictionary is refused as a whole: an error, no array, no abort. -/
theorem C70_index_beyond (ck : Bool) (page : DataPage) (dict : Dict) (e : Encoding) (idx : List Nat)
    (rep lv vals : List Byte)
    (ht : entriesOf dict page.descriptor.primitiveType.physicalType = true)
    (henc : page.encoding = .ok e) (he : e = .plainDictionary ∨ e = .rleDictionary)
    (hsel : page.selectedRows = none) (hf : FlatRequired page.descriptor) (hn : page.numValues = idx.length)
    (hsplit : splitBuffer page = .ok (rep, lv, vals)) (hi : IndexStream vals idx)
    (hx : ∃ i ∈ idx, ¬ hasEntry i dict) :
    pageToArray ck page (some dict) = .err .oos := by
  have h : RequiredPage page idx.length vals := ⟨⟨hf.repetition, hf.repeated⟩, hn, rep, lv, hsplit⟩
  have hrep : page.descriptor.maxRepLevel = 0#16 := hf.repeated
  obtain ⟨i, hix, hne⟩ := hx
  have key : ∀ {ι α : Type} (next : ι → Res (Option α × ι)) (fuel : Nat) (xs : List α), xs.length ≤ i →
      (do let state ← dictionaryState page xs
          stateToVec next fuel dictValue state) = .err .oos := by
    intro ι α next fuel xs hle
    refine dictionary_refused next fuel dictValue page xs idx vals .oos h hi ?_ ⟨i, hix, ?_⟩
    · intro j _
      rcases dictValue_cases xs j with ⟨h, -⟩ | ⟨h, -⟩
      · exact .inl h
      · exact .inr h
    · rcases dictValue_cases xs i with ⟨-, h⟩ | ⟨h, -⟩
      · omega
      · exact h
  generalize hp : page.descriptor.primitiveType.physicalType = t at ht
  cases dict <;> cases t <;> simp only [entriesOf, Bool.false_eq_true] at ht <;> rename_i ys
  · have := key (ι := List (Res (BitVec (8 * 4)))) itemsNext (page.buffer.length + 1) ys (by simpa [hasEntry] using hne)
    rw [← (dict_dispatch page ys e henc he).1 4] at this
    simp only [pageToArray, hp, expectDict, Dict.asInt32, Res.ok_bind, nativeToVec, hrep, Res.assert, decide_true,
      if_true, hsel, this, Res.map']
  · have := key (ι := List (Res (BitVec (8 * 8)))) itemsNext (page.buffer.length + 1) ys (by simpa [hasEntry] using hne)
    rw [← (dict_dispatch page ys e henc he).1 8] at this
    simp only [pageToArray, hp, expectDict, Dict.asInt64, Res.ok_bind, nativeToVec, hrep, Res.assert, decide_true,
      if_true, hsel, this, Res.map']
  · have := key (ι := List (Res (BitVec (8 * 12)))) itemsNext (page.buffer.length + 1) ys (by simpa [hasEntry] using hne)
    rw [← (dict_dispatch page ys e henc he).1 12] at this
    simp only [pageToArray, hp, expectDict, Dict.asInt96, Res.ok_bind, nativeToVec, hrep, Res.assert, decide_true,
      if_true, hsel, this, Res.map']
  · have := key (ι := List (Res (BitVec (8 * 4)))) itemsNext (page.buffer.length + 1) ys (by simpa [hasEntry] using hne)
    rw [← (dict_dispatch page ys e henc he).1 4] at this
    simp only [pageToArray, hp, expectDict, Dict.asFloat, Res.ok_bind, nativeToVec, hrep, Res.assert, decide_true,
      if_true, hsel, this, Res.map']
  · have := key (ι := List (Res (BitVec (8 * 8)))) itemsNext (page.buffer.length + 1) ys (by simpa [hasEntry] using hne)
    rw [← (dict_dispatch page ys e henc he).1 8] at this
    simp only [pageToArray, hp, expectDict, Dict.asDouble, Res.ok_bind, nativeToVec, hrep, Res.assert, decide_true,
      if_true, hsel, this, Res.map']
  · have := key (ι := PlainBytes.BinaryIter) bytesNext (page.buffer.length + 1) ys (by simpa [hasEntry] using hne)
    rw [← (dict_dispatch page ys e henc he).2.1] at this
    simp only [pageToArray, hp, expectDict, Dict.asByteArray, Res.ok_bind, binaryToVec, hrep, Res.assert, decide_true,
      if_true, this, Res.map']
  · rename_i buf size
    have := dictionary_refused (ι := List (List Byte)) (fun xs => .ok (xs.head?, xs.tail)) (page.buffer.length + 1)
      fixedDictValue page (buf, size) idx vals .oos h hi (by
        intro j _
        rcases fixedDictValue_cases buf size j with ⟨h, -⟩ | ⟨h, -⟩
        · exact .inl h
        · exact .inr h) ⟨i, hix, by
        rcases fixedDictValue_cases buf size i with ⟨-, h⟩ | ⟨h, -⟩
        · exact absurd h hne
        · exact h⟩
    rw [← (dict_dispatch page (buf, size) e henc he).2.2 _ hp] at this
    simp only [pageToArray, hp, expectDict, Dict.asFixed, Res.ok_bind, fixedToVec, hrep, Res.assert, decide_true,
      if_true, this, Res.map']

/-- Indices 1, 1 into a dictionary of one entry. -/
example :
    let page := clientPage 8#32 .byteArray .required 2#32 [] [1#8, 4#8, 1#8]
    entriesOf (.byteArray [[120#8]]) page.descriptor.primitiveType.physicalType = true ∧
    page.encoding = .ok .rleDictionary ∧ FlatRequired page.descriptor ∧ page.numValues = [1, 1].length ∧
    splitBuffer page = .ok ([], [], [1#8, 4#8, 1#8]) ∧ IndexStream [1#8, 4#8, 1#8] [1, 1] ∧
    ¬ hasEntry 1 (.byteArray [[120#8]]) ∧
    pageToArray true page (some (.byteArray [[120#8]])) = .err .oos ∧
    pageToArray true page (some (.byteArray [[120#8], []])) = .ok (.binary [some [], some []]) := by
  refine ⟨rfl, by decide +kernel, ⟨rfl, rfl, rfl⟩, by decide +kernel, by decide +kernel, ?_, by simp [hasEntry],
    by decide +kernel, by decide +kernel⟩
  refine ⟨1#8, [4#8, 1#8], rfl, by decide, .inr ⟨by decide, [.rle 2 1], ?_, by decide +kernel⟩⟩
  exact .cons (out := [4#8, 1#8]) (stream := []) ⟨by decide, [4#8], by decide, by decide⟩ .nil

/-- **C70** a PLAIN page of a required column of strings that ends within a string is refused as a whole: an
error, no array of the strings before, no abort. -/
theorem C70_truncated (ck : Bool) (page : DataPage) (items : List (List Byte)) (n : Nat)
    (rep lv tail : List Byte) (ht : page.descriptor.primitiveType.physicalType = .byteArray)
    (henc : page.encoding = .ok .plain) (hf : FlatRequired page.descriptor)
    (hsplit : splitBuffer page = .ok (rep, lv, plainBytes items ++ (leBytes 4 n ++ tail)))
    (hi : ∀ s ∈ items, s.length < 2 ^ 32) (hn : n < 2 ^ 32) (hshort : tail.length < n) :
    pageToArray ck page none = .err .oos := by
  have h : RequiredPage page page.numValues (plainBytes items ++ (leBytes 4 n ++ tail)) :=
    ⟨⟨hf.repetition, hf.repeated⟩, rfl, rep, lv, hsplit⟩
  have hst : binaryState page (none : Option (List (List Byte))) =
      .ok (.required ⟨plainBytes items ++ (leBytes 4 n ++ tail), some page.numValues⟩) := by
    unfold binaryState
    rw [henc]
    simp [Res.ok_bind, h.isOptional, hsplit]
  have hlen : items.length ≤ page.buffer.length := by
    have := splitBuffer_length page _ _ _ hsplit
    have := plainBytes_length items
    simp only [List.length_append] at *
    omega
  have hrep : page.descriptor.maxRepLevel = 0#16 := hf.repeated
  simp only [pageToArray, ht, expectDict, Res.ok_bind, binaryToVec, hst, hrep, Res.assert, decide_true, if_true,
    stateToVec, bytes_truncated items n tail hi hn hshort _ (page.buffer.length + 1) (by omega), Res.map']

example :
    let page := clientPage 0#32 .byteArray .required 2#32 [] [1#8, 0#8, 0#8, 0#8, 7#8, 2#8, 0#8, 0#8, 0#8, 9#8]
    page.encoding = .ok .plain ∧ FlatRequired page.descriptor ∧
    splitBuffer page = .ok ([], [], plainBytes [[7#8]] ++ (leBytes 4 2 ++ [9#8])) ∧
    pageToArray true page none = .err .oos :=
  ⟨by decide +kernel, ⟨rfl, rfl, rfl⟩, by decide +kernel, by decide +kernel⟩

/-- The width of the values of a physical type of fixed width. -/
def entryWidth : PhysicalType → Option Nat
  | .int32 | .float => some 4
  | .int64 | .double => some 8
  | .int96 => some 12
  | _ => none

/-- **C70** dictionary pages that do not hold the entries they announce are refused with an error: of booleans (they have no dictionaries), of numbers
and of strings of fixed length in too few bytes, of strings the last of which is cut. A dictionary that ends within
the length of a string aborts the program. -/
theorem C70_dictionary_refused (dp : DictPage) :
    deserializeDict dp .boolean = .err .oos ∧
    (∀ t w, entryWidth t = some w → dp.buffer.length < dp.numValues * w → dp.numValues * w < 2 ^ 64 →
      deserializeDict dp t = .err .oos) ∧
    (∀ size, dp.buffer.length < size * dp.numValues → dp.buffer.length < 2 ^ 64 - 1 →
      deserializeDict dp (.fixedLenByteArray size) = .err .oos) ∧
    (∀ items n tail, dp.buffer = plainBytes items ++ (leBytes 4 n ++ tail) → (∀ s ∈ items, s.length < 2 ^ 32) →
      n < 2 ^ 32 → tail.length < n → items.length < dp.numValues → deserializeDict dp .byteArray = .err .oos) ∧
    (∀ items tail, dp.buffer = plainBytes items ++ tail → (∀ s ∈ items, s.length < 2 ^ 32) →
      tail.length < 4 → items.length < dp.numValues → deserializeDict dp .byteArray = .panic) := by
  have native : ∀ w, dp.buffer.length < dp.numValues * w → dp.numValues * w < 2 ^ 64 →
      readNativeDict w dp.buffer dp.numValues = .err .oos := by
    intro w h1 h2
    unfold readNativeDict
    rw [Nat.mod_eq_of_lt h2]
    exact if_neg (by omega)
  -- the strings before
  have bin : ∀ (items : List (List Byte)) (tail : List Byte) (r : Res (List (List Byte))) (n : Nat),
      (∀ x, r ≠ .ok x) → (∀ s ∈ items, s.length < 2 ^ 32) → items.length < n →
      (∀ k, readBinaryDict (k + 1) tail = r) → readBinaryDict n (plainBytes items ++ tail) = r := by
    intro items tail r n hr hi hn h
    induction items generalizing n with
    | nil =>
      cases n with
      | zero => simp at hn
      | succ n => exact h n
    | cons s items ih =>
      cases n with
      | zero => simp at hn
      | succ n =>
        have hs := hi s List.mem_cons_self
        have e : plainBytes (s :: items) ++ tail = leBytes 4 s.length ++ (s ++ (plainBytes items ++ tail)) := by
          simp [plainBytes]
        have h4 : (leBytes 4 s.length).length = 4 := by simp [leBytes]
        have hg : getLength (leBytes 4 s.length ++ (s ++ (plainBytes items ++ tail))) = some s.length := by
          unfold getLength
          rw [if_pos (by simp [h4]), List.take_left' h4, Rle.leNat_leBytes, Nat.mod_eq_of_lt (by omega)]
        rw [e, readBinaryDict, hg]
        simp only [List.drop_left' h4]
        rw [if_neg (by simp), List.drop_left,
          ih n (fun x hx => hi x (List.mem_cons_of_mem _ hx)) (by simpa using hn)]
        cases r with
        | ok x => exact absurd rfl (hr x)
        | err e => rfl
        | panic => rfl
  refine ⟨rfl, ?_, ?_, ?_, ?_⟩
  · intro t w ht h1 h2
    cases t <;> simp only [entryWidth, reduceCtorEq, Option.some.injEq] at ht <;> subst ht <;>
      simp only [deserializeDict, native _ h1 h2, Res.map']
  · intro size h1 h2
    simp only [deserializeDict, readFixedDict]
    rw [if_neg (by omega)]
    rfl
  · intro items n tail hb hi hn ht hl
    have h4 : (leBytes 4 n).length = 4 := by simp [leBytes]
    simp only [deserializeDict, hb]
    rw [bin items _ (.err .oos) _ (by simp) hi hl]
    · rfl
    · intro k
      have hg : getLength (leBytes 4 n ++ tail) = some n := by
        unfold getLength
        rw [if_pos (by simp [h4]), List.take_left' h4, Rle.leNat_leBytes, Nat.mod_eq_of_lt (by omega)]
      rw [readBinaryDict, hg]
      simp only [List.drop_left' h4]
      exact if_pos ht
  · intro items tail hb hi ht hl
    simp only [deserializeDict, hb]
    rw [bin items _ .panic _ (by simp) hi hl]
    · rfl
    · intro k
      rw [readBinaryDict, getLength, if_neg (by omega)]

example : entryWidth .int96 = some 12 ∧ ([1#8, 2#8] : List Byte).length < 1 * 12 ∧
    ([1#8, 0#8, 0#8, 0#8, 120#8, 2#8, 0#8, 0#8, 0#8, 9#8] : List Byte) = plainBytes [[120#8]] ++ (leBytes 4 2 ++ [9#8]) ∧
    deserializeDict { buffer := [1#8, 0#8, 0#8, 0#8, 120#8, 2#8, 0#8, 0#8, 0#8, 9#8], numValues := 2, isSorted := false }
      .byteArray = .err .oos ∧
    deserializeDict { buffer := [1#8, 0#8, 0#8, 0#8, 120#8, 2#8], numValues := 2, isSorted := false } .byteArray =
      .panic := by decide +kernel

/-- **C70 is violated** when the last array is empty: its page is written and never read. And arrays of
int96 with statistics cannot be written: the writer panics (`todo!` in the reduction of statistics). -/
theorem C70_violated :
    ((clientWrite .int64 [.int64 [some 5#64], .int64 []]).1.isOk = true ∧
      clientRead (clientWrite .int64 [.int64 [some 5#64], .int64 []]).2.out 2 = .ok [.int64 [some 5#64]]) ∧
    (clientWrite .int96 [.int96 [some 5#96], .int96 [some 6#96]]).1 = .panic := by decide +kernel

end Pq.Props
