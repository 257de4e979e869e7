import Verif.Lemmas.Nested
import Verif.Props.Client
/-
C75, C76: columns nested in structures and in lists.
-/
namespace Pq.Props
open Pq.Spec Pq.Deser Pq.Client

/-! ### C75: fields of structures -/

/-- A V2 page of a field with this greatest definition level, for the examples. -/
def nestedPage (encoding : I32) (t : PhysicalType) (repetition : Repetition) (maxDef : BitVec 16) (n : I32)
    (levels : List Byte) (vals : List Byte) : DataPage :=
  let page := clientPage encoding t repetition n levels vals
  { page with descriptor := { page.descriptor with maxDefLevel := maxDef } }

/-- Three levels in two bits: the structure is null; its field is null; a value. -/
theorem nested_levels : LevelRuns 2 [0x02#8, 0x00#8, 0x02#8, 0x01#8, 0x03#8, 0xFE#8, 0xFF#8] [0, 1, 2] := by
  refine ⟨2, [.rle 1 0, .rle 1 1, .packed 1 [0xFE#8, 0xFF#8]], by decide, ?_, ?_, by decide⟩
  · intro v hv
    match v, hv with
    | 0, hv => simp at hv
    | 1, hv => simp at hv
    | v + 2, _ => omega
  · exact .cons (out := [2#8, 0#8]) ⟨by decide, [2#8], by decide, by decide⟩
      (.cons (out := [2#8, 1#8]) ⟨by decide, [2#8], by decide, by decide⟩
      (.cons (out := [3#8, 0xFE#8, 0xFF#8]) (stream := []) ⟨by decide, by decide, [3#8], by decide, rfl⟩ .nil))

/-- **C75** a PLAIN page of an optional field inside any number of structures (none repeated): the page holds the
definition levels of the rows, in any legal stream of runs, and the values that are there; what is read is the
value of a row if the field and all the structures around it are there, and a null if not. -/
theorem C75_plain_page (ck : Bool) (page : DataPage) (dict : Option Dict) (array : Client.Array)
    (rep lv vals : List Byte) (n : Nat) (rows : List (Nest Unit n))
    (hf : OptionalLeaf page.descriptor) (hmax : page.descriptor.maxDefLevel.toInt = n) (hpos : 0 < n)
    (ht : HasType array page.descriptor.primitiveType.physicalType)
    (hd : ∀ d, dict = some d → ∃ dp, deserializeDict dp page.descriptor.primitiveType.physicalType = .ok d)
    (henc : page.encoding = .ok .plain) (hsel : page.selectedRows = none)
    (hn : page.numValues = rows.length)
    (hsplit : splitBuffer page = .ok (rep, lv, vals)) (hlv : LevelRuns n lv (rows.map (Nest.level n)))
    (harray : arrayBits array = rows.map fun r => (Nest.value n r).isSome)
    (hv : PlainValues array vals) :
    pageToArray ck page dict = .ok array := by
  have hmax' : page.descriptor.maxDefLevel.toInt.toNat = n := by omega
  refine array_vec ck page dict array vals ht hd henc hsel hv
    (.ofLevels (rows.map (Nest.level n)) hf (by omega) (by rw [List.length_map]; exact hn) rep lv hsplit
      (by rw [hmax']; exact hlv) ?_)
  rw [harray, List.map_map, hmax']
  apply List.map_congr_left
  intro r _
  exact Nest.isSome_iff n r

/-- An optional string in an optional structure; the rows are: no structure, no string, "xy". -/
example :
    let page := nestedPage 0#32 .byteArray .optional 2#16 3#32
      [0x02#8, 0x00#8, 0x02#8, 0x01#8, 0x03#8, 0xFE#8, 0xFF#8] [2#8, 0#8, 0#8, 0#8, 120#8, 121#8]
    let array : Client.Array := .binary [none, none, some [120#8, 121#8]]
    let rows : List (Nest Unit 2) := [none, some none, some (some ())]
    OptionalLeaf page.descriptor ∧ page.descriptor.maxDefLevel.toInt = (2 : Nat) ∧
    HasType array page.descriptor.primitiveType.physicalType ∧
    page.encoding = .ok .plain ∧ page.selectedRows = none ∧ page.numValues = rows.length ∧
    page.definitionLevelEncoding = .ok .rle ∧
    splitBuffer page = .ok ([], [0x02#8, 0x00#8, 0x02#8, 0x01#8, 0x03#8, 0xFE#8, 0xFF#8],
      [2#8, 0#8, 0#8, 0#8, 120#8, 121#8]) ∧
    LevelRuns 2 [0x02#8, 0x00#8, 0x02#8, 0x01#8, 0x03#8, 0xFE#8, 0xFF#8] (rows.map (Nest.level 2)) ∧
    arrayBits array = (rows.map fun r => (Nest.value 2 r).isSome) ∧
    PlainValues array [2#8, 0#8, 0#8, 0#8, 120#8, 121#8] := by
  refine ⟨⟨rfl, rfl⟩, by decide, trivial, by decide +kernel, rfl, by decide +kernel, rfl, by decide +kernel,
    nested_levels, by decide +kernel, by decide +kernel, ?_⟩
  intro s hs
  have : s = [120#8, 121#8] := by simpa using hs
  rw [this]; decide

/-- **C75** dictionary pages of such fields. -/
theorem C75_dictionary_page (ck : Bool) (page : DataPage) (dp : DictPage) (e : Encoding) (entries : Client.Array)
    (rep lv vals : List Byte) (n : Nat) (rows : List (Nest Nat n))
    (hf : OptionalLeaf page.descriptor) (hmax : page.descriptor.maxDefLevel.toInt = n) (hpos : 0 < n)
    (ht : HasType entries page.descriptor.primitiveType.physicalType)
    (hb : page.descriptor.primitiveType.physicalType ≠ .boolean)
    (hall : ∀ b ∈ arrayBits entries, b = true) (hv : PlainValues entries dp.buffer)
    (hdn : dp.numValues = (arrayBits entries).length) (hl : dp.buffer.length < 2 ^ 64)
    (henc : page.encoding = .ok e) (he : e = .plainDictionary ∨ e = .rleDictionary)
    (hsel : page.selectedRows = none)
    (hc : ∀ r ∈ rows, ∀ i, Nest.value n r = some i → i < (arrayBits entries).length)
    (hn : page.numValues = rows.length)
    (hsplit : splitBuffer page = .ok (rep, lv, vals)) (hlv : LevelRuns n lv (rows.map (Nest.level n)))
    (hi : IndexStream vals (rows.filterMap (Nest.value n))) :
    ∃ d, deserializeDict dp page.descriptor.primitiveType.physicalType = .ok d ∧
      pageToArray ck page (some d) = .ok (pick entries (rows.map (Nest.value n))) := by
  have hmax' : page.descriptor.maxDefLevel.toInt.toNat = n := by omega
  refine dict_vec ck page dp e entries (rows.map (Nest.value n)) vals ht hb hall hv hdn hl henc he hsel ?_ ?_
    (.inl (.ofLevels (rows.map (Nest.level n)) hf (by omega) (by rw [List.length_map]; exact hn) rep lv hsplit
      (by rw [hmax']; exact hlv) ?_))
  · intro i hi
    obtain ⟨r, hr, h⟩ := List.mem_map.1 hi
    exact hc r hr i h
  · rw [List.filterMap_map]; exact hi
  · rw [List.map_map, List.map_map, hmax']
    apply List.map_congr_left
    intro r _
    exact Nest.isSome_iff n r

/-- The same with a dictionary of one entry (indices of no bits). -/
example :
    let rows : List (Nest Nat 2) := [none, some none, some (some (0 : Nat))]
    IndexStream [0#8] (rows.filterMap (Nest.value 2)) ∧ (∀ r ∈ rows, ∀ i, Nest.value 2 r = some i → i < 1) ∧
    (do let d ← deserializeDict { buffer := [1#8, 0#8, 0#8, 0#8, 120#8], numValues := 1, isSorted := false } .byteArray
        pageToArray true (nestedPage 8#32 .byteArray .optional 2#16 3#32
          [0x02#8, 0x00#8, 0x02#8, 0x01#8, 0x03#8, 0xFE#8, 0xFF#8] [0#8]) (some d)) =
      .ok (.binary [none, none, some [120#8]]) := by
  refine ⟨⟨0#8, [], rfl, by decide, .inl ⟨rfl, ?_⟩⟩, ?_, by decide +kernel⟩
  · intro i hi
    change i ∈ [0] at hi
    simpa using hi
  · intro r hr i hi
    cases hr with
    | head => cases hi
    | tail _ hr =>
      cases hr with
      | head => cases hi
      | tail _ hr =>
        cases hr with
        | head =>
          cases hi
          decide
        | tail _ hr => cases hr

/-- **C75** (partial) required fields of structures, if none of the structures is null in the page. The whole
claim is that a null structure makes a null. Missing: pages with such nulls, which are read as
something else (`C75_violated`). -/
theorem C75_required_partial (ck : Bool) (page : DataPage) (dict : Option Dict) (array : Client.Array)
    (rep lv vals : List Byte)
    (hf : RequiredLeaf page.descriptor)
    (ht : HasType array page.descriptor.primitiveType.physicalType)
    (hd : ∀ d, dict = some d → ∃ dp, deserializeDict dp page.descriptor.primitiveType.physicalType = .ok d)
    (henc : page.encoding = .ok .plain) (hsel : page.selectedRows = none)
    (hn : page.numValues = (arrayBits array).length) (hall : ∀ b ∈ arrayBits array, b = true)
    (hsplit : splitBuffer page = .ok (rep, lv, vals)) (hv : PlainValues array vals) :
    pageToArray ck page dict = .ok array :=
  array_required ck page dict array vals ht hd henc hsel hv hall ⟨hf, hn, rep, lv, hsplit⟩

/-- A required boolean in an optional structure, two rows with it. -/
example :
    let page := nestedPage 0#32 .boolean .required 1#16 2#32 [0x04#8, 0x01#8] [0x01#8]
    let array : Client.Array := .boolean [some true, some false]
    RequiredLeaf page.descriptor ∧ HasType array page.descriptor.primitiveType.physicalType ∧
    page.encoding = .ok .plain ∧ page.selectedRows = none ∧ page.numValues = (arrayBits array).length ∧
    (∀ b ∈ arrayBits array, b = true) ∧ splitBuffer page = .ok ([], [0x04#8, 0x01#8], [0x01#8]) ∧
    PlainValues array [0x01#8] := by
  refine ⟨⟨rfl, rfl⟩, trivial, by decide +kernel, rfl, by decide +kernel, by decide +kernel, by decide +kernel,
    by decide +kernel, ?_⟩
  intro i hi
  have : i < 2 := hi
  match i, this with
  | 0, _ => decide +kernel
  | 1, _ => decide +kernel

/-- **C75** which structures are there (`extend_validity`): of a column inside at least one optional level, those
of the outermost one. -/
theorem C75_validity (page : DataPage) (rep lv vals : List Byte) (n : Nat) (rows : List (Nest Unit (n + 1)))
    (before : List Bool) (e : Encoding)
    (hmax : page.descriptor.maxDefLevel.toInt = (n + 1 : Nat)) (he : page.definitionLevelEncoding = .ok e)
    (hn : page.numValues = rows.length) (hsplit : splitBuffer page = .ok (rep, lv, vals))
    (hlv : LevelRuns (n + 1) lv (rows.map (Nest.level (n + 1)))) :
    extendValidity before page = .ok (before ++ rows.map Option.isSome) := by
  have hmax' : page.descriptor.maxDefLevel.toInt.toNat = n + 1 := by omega
  obtain ⟨dec, us, h1, h2, h3, h4⟩ := levels_yield page.descriptor.maxDefLevel (by omega) lv _
    (by rw [hmax']; exact hlv)
  have h0 : page.descriptor.maxDefLevel ≠ 0#16 := by
    intro h
    rw [h] at hmax
    simp at hmax
    omega
  rw [List.length_map] at h1 h4
  have hlen : us.length = rows.length := by
    have := congrArg List.length h3
    simpa using this
  unfold extendValidity
  rw [hsplit]
  simp only [Res.ok_bind]
  rw [if_neg h0, he, hn, h1]
  simp only [Res.ok_bind]
  rw [h2.drain _ (by omega)]
  simp only [Res.ok_bind, Res.ok.injEq, List.append_cancel_left_eq]
  have : us.map (fun x => decide (x ≠ 0#32)) = (us.map BitVec.toNat).map fun l => decide (l ≠ 0) := by
    rw [List.map_map]
    apply List.map_congr_left
    intro u _
    have : u = 0#32 ↔ u.toNat = 0 := by rw [← BitVec.toNat_inj]; rfl
    simp only [Function.comp, ne_eq, this]
  rw [this, h3, List.map_map]
  apply List.map_congr_left
  intro r _
  cases r with
  | none => rfl
  | some r =>
    change decide (Nest.level n r + 1 ≠ 0) = true
    simp

example :
    let page := nestedPage 0#32 .int32 .required 1#16 2#32 [0x03#8, 0x02#8] [7#8, 0#8, 0#8, 0#8]
    page.descriptor.maxDefLevel.toInt = ((0 + 1 : Nat) : Int) ∧ page.definitionLevelEncoding = .ok .rle ∧
    page.numValues = 2 ∧ splitBuffer page = .ok ([], [0x03#8, 0x02#8], [7#8, 0#8, 0#8, 0#8]) ∧
    extendValidity [true] page = .ok [true, false, true] := by
  decide +kernel

/-- **C75** is false of the code: of a *required* field in an *optional* structure the page states do not look at
the definition levels. (1) Two rows, no structure and the number 7: one row is read. (2) Two rows, no structure and
`true`: two values are read, `true` and `false`. (3) The same with a dictionary: the first entry is read
for the null. The levels (a null, a value) are legal. -/
theorem C75_violated :
    LevelRuns 1 [0x03#8, 0x02#8] ([none, some ()].map (Nest.level (α := Unit) 1)) ∧
    PlainValues (.int32 [none, some 7#32]) [7#8, 0#8, 0#8, 0#8] ∧
    pageToArray true (nestedPage 0#32 .int32 .required 1#16 2#32 [0x03#8, 0x02#8] [7#8, 0#8, 0#8, 0#8]) none =
      .ok (.int32 [some 7#32]) ∧
    pageToArray true (nestedPage 0#32 .boolean .required 1#16 2#32 [0x03#8, 0x02#8] [1#8]) none =
      .ok (.boolean [some true, some false]) ∧
    (do let d ← deserializeDict { buffer := [7#8, 0#8, 0#8, 0#8, 8#8, 0#8, 0#8, 0#8], numValues := 2, isSorted := false } .int32
        pageToArray true (nestedPage 8#32 .int32 .required 1#16 2#32 [0x03#8, 0x02#8] [1#8, 2#8, 1#8]) (some d)) =
      .ok (.int32 [some 8#32, some 7#32]) := by
  refine ⟨⟨1, [.packed 1 [0x02#8]], by decide, ?_, ?_, by decide⟩, rfl, by decide +kernel,
    by decide +kernel, by decide +kernel⟩
  · intro v hv
    match v, hv with
    | 0, hv => simp at hv
    | v + 1, _ => omega
  · exact .cons (out := [3#8, 2#8]) (stream := []) ⟨by decide, by decide, [3#8], by decide, rfl⟩ .nil

/-! ### C76: lists -/

/-- The levels of a page of optional lists of optional 64-bit integers. -/
theorem lists_impl {τ : Type} (next : τ → Res (Option (BitVec (8 * 8)) × τ)) (rows : Lists) (values : τ)
    (h : Gives next values (rows.flatMap listItems)) (rep lv : List Byte)
    (hrep : LevelRuns 1 rep ((rows.flatMap listLevels).map Prod.fst))
    (hdef : LevelRuns 3 lv ((rows.flatMap listLevels).map Prod.snd)) :
    ((∃ row, rows.getLast? = some row ∧ HasItems row) →
      readArrayImpl next rep lv values (rows.flatMap listLevels).length .rle .rle 1#16 3#16 = .ok rows) ∧
    ((¬ ∃ row, rows.getLast? = some row ∧ HasItems row) →
      readArrayImpl next rep lv values (rows.flatMap listLevels).length .rle .rle 1#16 3#16 =
        .ok (rows ++ [some []])) := by
  obtain ⟨d1, us, a1, a2, a3, -⟩ := levels_yield 1#16 (by decide) rep _ hrep
  obtain ⟨d2, vs, b1, b2, b3, -⟩ := levels_yield 3#16 (by decide) lv _ hdef
  rw [List.length_map] at a1 b1
  have e : readArrayImpl next rep lv values (rows.flatMap listLevels).length .rle .rle 1#16 3#16 =
      composeArray next (rows.flatMap listLevels).length (.decoder d1) (.decoder d2) 1 3 values := by
    unfold readArrayImpl
    rw [if_pos ⟨rfl, rfl⟩]
    unfold levelIter
    rw [if_neg (by decide), if_neg (by decide), a1, b1]
    rfl
  rw [e]
  exact compose_rows next rows values h _ _ us vs (yields_decoder a2) (yields_decoder b2) a3 b3

/-- A page of optional lists of optional 64-bit integers, as the format has it: three definition levels, one
repetition level, the levels of the rows in any legal streams of runs. -/
structure ListPage (page : DataPage) (rows : Lists) (rep lv vals : List Byte) : Prop where
  type : page.descriptor.primitiveType.physicalType = .int64
  repeated : page.descriptor.maxRepLevel = 1#16
  definition : page.descriptor.maxDefLevel = 3#16
  repEncoding : page.repetitionLevelEncoding = .ok .rle
  defEncoding : page.definitionLevelEncoding = .ok .rle
  levels : page.numValues = (rows.flatMap listLevels).length
  small : page.numValues < 2 ^ 32
  split : splitBuffer page = .ok (rep, lv, vals)
  repLevels : LevelRuns 1 rep ((rows.flatMap listLevels).map Prod.fst)
  defLevels : LevelRuns 3 lv ((rows.flatMap listLevels).map Prod.snd)

theorem lists_plain {page : DataPage} {rows : Lists} {rep lv vals : List Byte} (h : ListPage page rows rep lv vals)
    (henc : page.encoding = .ok .plain)
    (hv : vals = (rows.flatMap listItems).flatMap fun x => leBytes 8 x.toNat) :
    ((∃ row, rows.getLast? = some row ∧ HasItems row) → pageToLists page none = .ok rows) ∧
    ((¬ ∃ row, rows.getLast? = some row ∧ HasItems row) → pageToLists page none = .ok (rows ++ [some []])) := by
  have hcast : (chunksExact 8 vals).map (nativeDecode 8) = (rows.flatMap listItems).map .ok := by
    have h1 := nativeCast_ok 8 (by decide) page rep lv (rows.flatMap listItems)
      (by rw [h.split, hv, funext (nativeToLe_eq 8)])
    unfold nativeCast at h1
    rw [h.split] at h1
    simp only [Res.ok_bind] at h1
    split at h1
    · simp at h1
    · injection h1
  have e : pageToLists page none = readArrayImpl itemsNext rep lv ((rows.flatMap listItems).map .ok)
      (rows.flatMap listLevels).length .rle .rle 1#16 3#16 := by
    unfold pageToLists
    rw [h.type]
    simp only
    unfold listsPlain
    rw [h.split, henc, h.repEncoding, h.defEncoding, h.repeated, h.definition]
    simp only [Res.ok_bind]
    rw [hcast, Nat.mod_eq_of_lt h.small, h.levels]
  rw [e]
  exact lists_impl itemsNext rows _ (.of_yields (yields_items _)) rep lv h.repLevels h.defLevels

/-- A V2 page of lists, for the examples. -/
def listPage (encoding : I32) (n rows : I32) (rep lv vals : List Byte) : DataPage :=
  { header := .v2 { numValues := n, numNulls := 0#32, numRows := rows, encoding
                    definitionLevelsByteLength := BitVec.ofNat 32 lv.length
                    repetitionLevelsByteLength := BitVec.ofNat 32 rep.length }
    buffer := rep ++ lv ++ vals
    descriptor := { primitiveType := clientType "item" .int64 .optional, maxDefLevel := 3#16, maxRepLevel := 1#16 }
    selectedRows := none }

theorem least_width (max w : Nat) (h : 2 ^ (w - 1) ≤ max) (v : Nat) (hv : max < 2 ^ v) : w ≤ v := by
  have : (2 : Nat) ^ (w - 1) < 2 ^ v := by omega
  have := (Nat.pow_lt_pow_iff_right (by decide : 1 < 2)).1 this
  omega

/-- The rows of the examples: a number and a null; no list; a number. -/
def listRows : Lists := [some [some 1#64, none], none, some [some 2#64]]

/-- Its values, and its page: the levels (repetition) 0 1 0 0 and (definition) 3 2 0 3. -/
def listValues : List Byte := [1#8, 0#8, 0#8, 0#8, 0#8, 0#8, 0#8, 0#8, 2#8, 0#8, 0#8, 0#8, 0#8, 0#8, 0#8, 0#8]

theorem list_rep : LevelRuns 1 [3#8, 2#8] [0, 1, 0, 0] :=
  ⟨1, [.packed 1 [2#8]], by decide, least_width 1 1 (by decide),
    .cons (out := [3#8, 2#8]) (stream := []) ⟨by decide, by decide, [3#8], by decide, rfl⟩ .nil, by decide⟩

theorem list_def : LevelRuns 3 [3#8, 0xCB#8, 0#8] [3, 2, 0, 3] :=
  ⟨2, [.packed 1 [0xCB#8, 0#8]], by decide, least_width 3 2 (by decide),
    .cons (out := [3#8, 0xCB#8, 0#8]) (stream := []) ⟨by decide, by decide, [3#8], by decide, rfl⟩ .nil, by decide⟩

/-- **C76** (partial) a PLAIN page of lists is read as the rows it holds, if the last row is a list with items. The
whole claim is about all rows. Missing: a last row that is null or empty, or no rows
(`C76_last_row`, `C76_violated`). -/
theorem C76_plain_partial {page : DataPage} {rows : Lists} {rep lv vals : List Byte}
    (h : ListPage page rows rep lv vals) (henc : page.encoding = .ok .plain)
    (hv : vals = (rows.flatMap listItems).flatMap fun x => leBytes 8 x.toNat)
    (hlast : ∃ row, rows.getLast? = some row ∧ HasItems row) : pageToLists page none = .ok rows :=
  (lists_plain h henc hv).1 hlast

/-- The page meets the hypotheses. -/
example : ListPage (listPage 0#32 4#32 3#32 [3#8, 2#8] [3#8, 0xCB#8, 0#8] listValues) listRows [3#8, 2#8]
      [3#8, 0xCB#8, 0#8] listValues ∧
    (listPage 0#32 4#32 3#32 [3#8, 2#8] [3#8, 0xCB#8, 0#8] listValues).encoding = .ok .plain ∧
    listValues = ((listRows.flatMap listItems).flatMap fun x => leBytes 8 x.toNat) ∧
    ∃ row, listRows.getLast? = some row ∧ HasItems row :=
  ⟨⟨rfl, rfl, rfl, rfl, rfl, by decide +kernel, by decide +kernel, by decide +kernel, list_rep, list_def⟩,
    by decide +kernel, by decide +kernel, _, rfl, _, _, rfl⟩

/-- **C76** what is read of any other page: an empty list more than it holds. -/
theorem C76_last_row {page : DataPage} {rows : Lists} {rep lv vals : List Byte}
    (h : ListPage page rows rep lv vals) (henc : page.encoding = .ok .plain)
    (hv : vals = (rows.flatMap listItems).flatMap fun x => leBytes 8 x.toNat)
    (hlast : ¬ ∃ row, rows.getLast? = some row ∧ HasItems row) :
    pageToLists page none = .ok (rows ++ [some []]) :=
  (lists_plain h henc hv).2 hlast

/-- A page with a last row that is null: repetition 0, definition 0. -/
theorem list_null : ListPage (listPage 0#32 1#32 1#32 [3#8, 0#8] [3#8, 0#8, 0#8] []) [none] [3#8, 0#8]
    [3#8, 0#8, 0#8] [] :=
  ⟨rfl, rfl, rfl, rfl, rfl, by decide +kernel, by decide +kernel, by decide +kernel,
    ⟨1, [.packed 1 [0#8]], by decide, least_width 1 1 (by decide),
      .cons (out := [3#8, 0#8]) (stream := []) ⟨by decide, by decide, [3#8], by decide, rfl⟩ .nil, by decide⟩,
    ⟨2, [.packed 1 [0#8, 0#8]], by decide, least_width 3 2 (by decide),
      .cons (out := [3#8, 0#8, 0#8]) (stream := []) ⟨by decide, by decide, [3#8], by decide, rfl⟩ .nil, by decide⟩⟩

example : ¬ ∃ row, ([none] : Lists).getLast? = some row ∧ HasItems row := by
  rintro ⟨row, h1, x, xs, h2⟩
  cases h1
  cases h2

theorem packed_gives (entries : List (BitVec (8 * 8))) (d : Bitpack.Decoder 4) (us : List (BitVec (8 * 4)))
    (h : Yields Bitpack.Decoder.next d us) (idx : List Nat) (items : List (BitVec (8 * 8)))
    (hi : (us.map BitVec.toNat).take idx.length = idx) (hitems : idx.map (entries[·]?) = items.map some) :
    Gives (packedNext entries) d items := by
  induction h generalizing idx items with
  | done _ =>
    simp only [List.map_nil, List.take_nil] at hi
    subst hi
    cases items with
    | nil => exact .nil _
    | cons i is => simp at hitems
  | @item s s' x xs hn _ ih =>
    cases idx with
    | nil =>
      cases items with
      | nil => exact .nil _
      | cons i is => simp at hitems
    | cons i idx =>
      cases items with
      | nil => simp at hitems
      | cons it items =>
        simp only [List.map_cons, List.length_cons, List.take_succ_cons, List.cons.injEq] at hi hitems
        refine .item (s' := s') ?_ (ih idx items hi.2 hitems.2)
        simp only [packedNext, hn, Res.ok_bind]
        rw [hi.1, hitems.1]

/-- **C76** (partial) pages with a dictionary: the indices in one bit-packed run that holds at least as many as the
page has levels (nulls and empty lists included). The whole claim is about all index streams. Missing: other
streams, which this code takes for something else or rejects (`C76_violated`), and the last row as above. -/
theorem C76_dictionary_partial {page : DataPage} {rows : Lists} {rep lv vals : List Byte}
    (h : ListPage page rows rep lv vals) (henc : page.encoding = .ok .plainDictionary)
    (entries : List (BitVec (8 * 8))) (w : Byte) (header packed : List Byte) (idx : List Nat)
    (hw : 0 < w.toNat ∧ w.toNat ≤ 32) (k : Nat) (hh : IsHeader header k) (hvals : vals = w :: (header ++ packed))
    (hlen : (rows.flatMap listLevels).length * w.toNat ≤ 8 * packed.length)
    (hidx : (fields packed w.toNat (rows.flatMap listLevels).length).take idx.length = idx)
    (hitems : idx.map (entries[·]?) = (rows.flatMap listItems).map some)
    (hlast : ∃ row, rows.getLast? = some row ∧ HasItems row) :
    pageToLists page (some (.int64 entries)) = .ok rows := by
  obtain ⟨us, h1, h2⟩ := (C06_decode_layout 4 w.toNat (rows.flatMap listLevels).length (by simp [IntSize])
    (by omega) packed).2 hw.1 hlen
  unfold Bitpack.decode at h1
  cases hd : Bitpack.Decoder.tryNew 4 packed w.toNat (rows.flatMap listLevels).length with
  | err e => rw [hd] at h1; simp at h1
  | panic => rw [hd] at h1; simp at h1
  | ok d =>
    rw [hd] at h1
    have hy := Yields.of_drain _ h1
    have hg := packed_gives entries d us hy idx _ (by rw [h2]; exact hidx) hitems
    have hx := Rle.decode_header header packed k hh
    have e : pageToLists page (some (.int64 entries)) = readArrayImpl (packedNext entries) rep lv d
        (rows.flatMap listLevels).length .rle .rle 1#16 3#16 := by
      unfold pageToLists
      rw [h.type]
      simp only [expectDict, Dict.asInt64, Res.ok_bind]
      unfold listsDict
      rw [h.split, henc, h.repEncoding, h.defEncoding, h.repeated, h.definition]
      simp only [Res.assert, decide_true, if_true, Res.ok_bind]
      rw [Nat.mod_eq_of_lt h.small, h.levels, hvals]
      unfold readDictArray
      simp only [hx, Res.ok_bind]
      rw [List.drop_left, hd]
      rfl
    rw [e]
    exact (lists_impl _ rows d hg rep lv h.repLevels h.defLevels).1 hlast

/-- The same rows through a dictionary of two entries, with a bit per index. -/
example : ListPage (listPage 2#32 4#32 3#32 [3#8, 2#8] [3#8, 0xCB#8, 0#8] [1#8, 3#8, 2#8]) listRows [3#8, 2#8]
      [3#8, 0xCB#8, 0#8] [1#8, 3#8, 2#8] ∧
    (listPage 2#32 4#32 3#32 [3#8, 2#8] [3#8, 0xCB#8, 0#8] [1#8, 3#8, 2#8]).encoding = .ok .plainDictionary ∧
    IsHeader [3#8] 3 ∧ (fields [2#8] 1 4).take 2 = [0, 1] ∧
    [0, 1].map (([1#64, 2#64] : List (BitVec 64))[·]?) = (listRows.flatMap listItems).map some :=
  ⟨⟨rfl, rfl, rfl, rfl, rfl, by decide +kernel, by decide +kernel, by decide +kernel, list_rep, list_def⟩,
    by decide +kernel, by decide, by decide, by decide +kernel⟩

/-- **C76** is false of the code. (1) One row, a null: two rows are read, the null and an empty list. (2) The rows of
the examples with their indices in a legal repeated run (the entry twice, all of one index): an error is
returned. (3) Two rows of one number each, both the second entry, in a repeated run whose value is the byte 1: read as
packed indices, the second and the first entry. (4) An index beyond the dictionary aborts the program, and so do a
page with less values than its levels say and a page of lists of another type. -/
theorem C76_violated :
    ListPage (listPage 0#32 1#32 1#32 [3#8, 0#8] [3#8, 0#8, 0#8] []) [none] [3#8, 0#8] [3#8, 0#8, 0#8] [] ∧
    pageToLists (listPage 0#32 1#32 1#32 [3#8, 0#8] [3#8, 0#8, 0#8] []) none = .ok [none, some []] ∧
    IndexStream [9#8, 4#8, 1#8, 0#8] [1, 1] ∧
    pageToLists (listPage 2#32 4#32 3#32 [3#8, 2#8] [3#8, 0xCB#8, 0#8] [9#8, 4#8, 1#8, 0#8])
      (some (.int64 [1#64, 2#64])) = .err .oos ∧
    IndexStream [1#8, 4#8, 1#8] [1, 1] ∧
    pageToLists (listPage 2#32 2#32 2#32 [3#8, 0#8] [3#8, 0x0F#8, 0#8] [1#8, 4#8, 1#8])
      (some (.int64 [1#64, 2#64])) = .ok [some [some 2#64], some [some 1#64]] ∧
    pageToLists (listPage 2#32 4#32 3#32 [3#8, 2#8] [3#8, 0xCB#8, 0#8] [1#8, 3#8, 2#8])
      (some (.int64 [1#64])) = .panic ∧
    pageToLists (listPage 0#32 4#32 3#32 [3#8, 2#8] [3#8, 0xCB#8, 0#8] (listValues.take 8)) none = .panic ∧
    (∀ (page : DataPage) (dict : Option Dict), page.descriptor.primitiveType.physicalType ≠ .int64 →
      pageToLists page dict = .panic) := by
  refine ⟨list_null, by decide +kernel, ?_, by decide +kernel, ?_, by decide +kernel, by decide +kernel,
    by decide +kernel, fun page dict h => by unfold pageToLists; split <;> first | rfl | contradiction⟩
  · exact ⟨9#8, [4#8, 1#8, 0#8], rfl, by decide, .inr ⟨by decide, [.rle 2 1],
      .cons (out := [4#8, 1#8, 0#8]) (stream := []) ⟨by decide, [4#8], by decide, by decide⟩ .nil, by decide⟩⟩
  · exact ⟨1#8, [4#8, 1#8], rfl, by decide, .inr ⟨by decide, [.rle 2 1],
      .cons (out := [4#8, 1#8]) (stream := []) ⟨by decide, [4#8], by decide, by decide⟩ .nil, by decide⟩⟩

end Pq.Props
