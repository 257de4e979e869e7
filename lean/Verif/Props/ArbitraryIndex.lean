import Verif.Lemmas.ArbitraryIndex
import Verif.Props.ArbitraryFile
import Verif.Props.Indexes
/-
Property theorems about page indexes of arbitrary bytes: C84.
-/
namespace Pq.Props

open Spec

/-- A boolean column whose index has 12 bytes at position 0. -/
def booleanChunk : ColumnChunkMetaData :=
  let t : PrimitiveType := { writerType "a" with physicalType := .boolean }
  { columnChunk := { fileOffset := 4#64, columnIndexOffset := some 0#64, columnIndexLength := some 12#32 }
    columnDescr := ⟨⟨t, 0, 0⟩, ["a"], .primitive t⟩ }

/-- The index of a boolean column with one page, whose bounds are empty. -/
def emptyBounds : Thrift.ColumnIndex :=
  { nullPages := [false], minValues := [[]], maxValues := [[]], boundaryOrder := 0#32 }

/-- **C84** reading the column indexes of any columns from a file of any bytes panics exactly if for some
column, those before it having been read, the bytes announced end beyond the file, or the column is
boolean and its index has an empty bound for a page that is not marked as a page of nulls. -/
theorem C84_column_indexes (codec : Codec Thrift.ColumnIndex) (hs : SaneCodec codec) (ck : Bool)
    (file : List Byte) (chunks : List ColumnChunkMetaData) (hn : chunks.length < 2 ^ 32) :
    readColumnsIndexes codec ck file chunks = .panic ↔
      ∃ (offset : Nat) (lengths : List Nat) (k : Nat) (c : ColumnChunkMetaData) (n : Nat),
        Announced chunks offset lengths ∧ chunks[k]? = some c ∧ lengths[k]? = some n ∧
        (∀ (i : Nat) ci ni, i < k → chunks[i]? = some ci → lengths[i]? = some ni →
          ∃ index, deserializeIndex codec (region file (offset + total (lengths.take i)) ni)
            ci.columnDescr.descriptor.primitiveType = .ok index) ∧
        (file.length - offset < total (lengths.take (k + 1)) ∨
          EmptyBooleanBound codec (region file (offset + total (lengths.take k)) n)
            c.columnDescr.descriptor.primitiveType) := by
  have main : ∀ offset lengths, prepareColumnIndexRead chunks = .ok (offset, lengths) →
      (readColumnsIndexes codec ck file chunks = .panic ↔
      ∃ (k : Nat) (c : ColumnChunkMetaData) (n : Nat), chunks[k]? = some c ∧ lengths[k]? = some n ∧
        (∀ (i : Nat) ci ni, i < k → chunks[i]? = some ci → lengths[i]? = some ni →
          ∃ index, deserializeIndex codec (region file (offset + total (lengths.take i)) ni)
            (typeOfChunk ci) = .ok index) ∧
        (file.length - offset < total (lengths.take (k + 1)) ∨
          EmptyBooleanBound codec (region file (offset + total (lengths.take k)) n) (typeOfChunk c))) := by
    intro offset lengths hp
    have hsmall := prepareRead_small hp
    rw [readColumnsIndexes, hp, Res.ok_bind]
    simp only
    rw [sumUsize_total ck lengths 0 (by omega) (fun _ => by omega), Res.ok_bind, Nat.zero_add,
      Nat.mod_eq_of_lt (by omega), deserializeColumnIndexes_panic hs]
    have reg : ∀ (i n : Nat), lengths[i]? = some n →
        ((((file.drop offset).take (total lengths)).drop (0 + total (lengths.take i))).take n) =
          region file (offset + total (lengths.take i)) n := by
      intro i n hi
      rw [Nat.zero_add]
      exact region_of_take file offset _ _ _ (by
        rw [← total_take_succ lengths i n hi]; exact total_take_le _ _)
    refine exists_congr fun k => exists_congr fun c => exists_congr fun n => and_congr_right fun _ =>
      and_congr_right fun hk => ?_
    rw [reg k n hk]
    refine and_congr ⟨fun h i ci ni hi e1 e2 => ?_, fun h i ci ni hi e1 e2 => ?_⟩ (or_congr_left ?_)
    · obtain ⟨x, hx⟩ := h i ci ni hi e1 e2
      rw [reg i ni e2] at hx
      exact ⟨x, hx⟩
    · rw [reg i ni e2]
      exact h i ci ni hi e1 e2
    · have := total_take_le lengths (k + 1)
      rw [List.length_take, List.length_drop]
      omega
  constructor
  · intro h
    cases hp : prepareColumnIndexRead chunks with
    | panic => exact absurd hp (prepareRead_ne_panic _ _ _)
    | err e => rw [readColumnsIndexes, hp] at h; cases h
    | ok x =>
      obtain ⟨offset, lengths⟩ := x
      obtain ⟨k, c, n, h1, h2, h3⟩ := (main offset lengths hp).1 h
      rcases announced_of_prepare hp with he | ha
      · subst he; simp at h2
      · exact ⟨offset, lengths, k, c, n, ha, h1, h2, h3⟩
  · rintro ⟨offset, lengths, k, c, n, ha, h1, h2, h3⟩
    exact (main offset lengths (prepareColumnIndexRead_announced ha)).2 ⟨k, c, n, h1, h2, h3⟩

example : Announced [booleanChunk] 0 [12] ∧
    EmptyBooleanBound columnIndexCodec (region (columnIndexCodec.ser emptyBounds) 0 12)
      booleanChunk.columnDescr.descriptor.primitiveType :=
  ⟨⟨⟨_, 0#64, rfl, rfl, by decide⟩, .cons ⟨12#32, rfl, by decide⟩ .nil⟩, rfl, emptyBounds,
    by decide +kernel, 0, [], [], rfl, rfl, rfl, (fun _ h => by cases h), .inl rfl⟩

/-- **C84** reading the page locations of any columns from a file of any bytes does not panic. -/
theorem C84_locations (codec : Codec Thrift.OffsetIndex) (hs : SaneCodec codec) (ck : Bool)
    (file : List Byte) (chunks : List ColumnChunkMetaData) (hn : chunks.length < 2 ^ 32) :
    readPagesLocations codec ck file chunks ≠ .panic := by
  rw [readPagesLocations]
  refine bind_ne_panic (prepareRead_ne_panic _ _ _) fun x hx => ?_
  obtain ⟨o, ls⟩ := x
  have := prepareRead_small hx
  simp only
  rw [sumUsize_total ck ls 0 (by omega) (fun _ => by omega), Res.ok_bind]
  exact pageLocationsLoop_ne_panic hs _ _ _

example : SaneCodec offsetIndexCodec ∧ [booleanChunk].length < 2 ^ 32 ∧
    readPagesLocations offsetIndexCodec true (List.replicate 20 255#8)
      [{ booleanChunk with columnChunk := { booleanChunk.columnChunk with
          offsetIndexOffset := some 2#64, offsetIndexLength := some 12#32 } }] = .err .oos :=
  ⟨Compact.codecOf_sane Compact.good_offsetIndex, by decide, by decide +kernel⟩

/-- **C84** the rows of the pages, and the pages for some selected rows, are computed from any page
locations and any number of rows or refused. -/
theorem C84_selection (ck : Bool) (locations : List Thrift.PageLocation) (numRows : Nat)
    (hr : numRows < 2 ^ 64) (selected : List Bool) (intervals : List Interval)
    (hi : ∀ iv ∈ intervals, iv.start + iv.length < 2 ^ 64) :
    computePageRowIntervals locations numRows ≠ .panic ∧ computeRows selected locations numRows ≠ .panic ∧
    selectPages ck intervals locations numRows ≠ .panic := by
  refine ⟨computePageRowIntervals_ne_panic _ _, ?_, selectPages_ne_panic ck _ _ _ hr hi⟩
  rw [computeRows]
  exact bind_ne_panic (computePageRowIntervals_ne_panic _ _) fun _ _ => by simp

/-- Page locations that go backwards are refused; others are not. -/
example :
    computePageRowIntervals [⟨4#64, 10#32, 5#64⟩, ⟨14#64, 10#32, 3#64⟩] 8 = .err .oos ∧
    selectPages true [⟨1, 3⟩] [⟨4#64, 10#32, 0#64⟩, ⟨14#64, 10#32, 3#64⟩] 8 =
      .ok [⟨4, 10, [⟨1, 2⟩], 3⟩, ⟨14, 10, [⟨0, 1⟩], 5⟩] := by
  decide +kernel

/-- **C84** the pages at any locations of a column of a file of any bytes: the reader can be made;
asking it for a page panics exactly if it is the first time, overflow checks are on and the first location
is before the start of the column. -/
theorem C84_pages (codec : Codec Thrift.FileMetaData) (header : Codec Thrift.PageHeader)
    (hs : SaneCodec header) (ck : Bool) (file : List Byte) (fm : FileMetaData)
    (h : readMetadata codec file = .ok fm) (c : ColumnChunkMetaData) (hc : InMetadata fm c)
    (pages : List FilteredPage) :
    ∃ r start length, IndexedReader.ofColumn file c pages = .ok r ∧ c.byteRange = .ok (start, length) ∧
      ((IndexedReader.next header ck r).1 = some .panic ↔
        ck = true ∧ ∃ p, pages.head? = some p ∧ p.start < start) ∧
      ∀ t, Reaches (IndexedReader.next header ck) (IndexedReader.next header ck r).2 t →
        (IndexedReader.next header ck t).1 ≠ some .panic := by
  obtain ⟨g, hg, hc⟩ := hc
  obtain ⟨m, -, hmeta, hn, ⟨x, hx⟩, -, -, -, -, -, -, -, hr, -⟩ :=
    (C83_metadata codec file fm h g hg).2.1 c hc
  have hpm : c.pageMetaData = .ok ⟨(m.dictionaryPageOffset.getD m.dataPageOffset).toNat, m.numValues, x,
      c.columnDescr.descriptor⟩ := by
    simp only [hr, ColumnChunkMetaData.pageMetaData, hn, hx, Res.ok_bind]
  refine ⟨IndexedReader.new file _ pages, _, _, by rw [IndexedReader.ofColumn, hpm]; rfl, hr, ?_, ?_⟩
  · rw [indexedNext_panic_iff hs]
    simp only [IndexedReader.new, true_and]
  · intro t ht
    have inv : ∀ s t : IndexedReader, Reaches (IndexedReader.next header ck) s t →
        s.maybeDict = false → t.maybeDict = false := by
      intro s t hst
      induction hst with
      | refl s => exact id
      | step _ ih => exact fun _ => ih (indexedNext_maybeDict ck _)
    have := inv _ t ht (indexedNext_maybeDict ck _)
    rw [Ne, indexedNext_panic_iff hs, this]
    simp

example : ∃ fm c r start length,
    readMetadata fileCodec (arbitraryFile (exampleHeader 3#32 4#32) [("a", 40#64), ("b", 2#64)]) = .ok fm ∧
    IndexedReader.ofColumn (arbitraryFile (exampleHeader 3#32 4#32) [("a", 40#64), ("b", 2#64)]) c
      [{ start := 9, length := 10, selectedRows := [⟨0, 1⟩], numRows := 1 }] = .ok r ∧
    c.byteRange = .ok (start, length) := by
  obtain ⟨fm, g, c, h, -, -, hc, -⟩ := arbitrary_read
  obtain ⟨r, start, length, h1, h2, -⟩ := C84_pages fileCodec headerCodec headerCodec_sane true _ fm h c hc _
  exact ⟨fm, c, r, start, length, h, h1, h2⟩

/-- **C84 is violated**: an index that ends beyond the file, and a boolean one with an empty bound,
abort the reader, whatever the build; a location before the column those with overflow checks. -/
theorem C84_violated :
    readColumnsIndexes columnIndexCodec false [0#8] [booleanChunk] = .panic ∧
    readColumnsIndexes columnIndexCodec false (columnIndexCodec.ser emptyBounds) [booleanChunk] = .panic ∧
    (IndexedReader.next headerCodec true (IndexedReader.new exampleFile
      { exampleColumn with columnStart := 9 }
      [{ start := 4, length := 10, selectedRows := [⟨0, 1⟩], numRows := 1 }])).1 = some .panic := by
  decide +kernel

example : SaneCodec columnIndexCodec ∧ SaneCodec offsetIndexCodec ∧ SaneCodec headerCodec :=
  ⟨Compact.codecOf_sane Compact.good_columnIndex, Compact.codecOf_sane Compact.good_offsetIndex,
    headerCodec_sane⟩

end Pq.Props
