import Verif.Lemmas.WriterOutcome3
import Verif.Props.Writer
/-
C89: how the calls of a writer end.
-/
namespace Pq.Props

open Spec

/-! ### Pages -/

/-- **C89** (pages): writing a page is done, refused or aborts as told from the page alone; what is
written is the header and the buffer, unless the sizes do not fit in the header. -/
theorem C89_page (codec : Codec Thrift.PageHeader) (off : Nat) (p : CompressedPage) :
    outcome (writePage codec off p).1 = pageOutcome p ∧
      (writePage codec off p).2 = (if SizesOk p then pageBytes codec p else []) := by
  refine ⟨writePage_outcome codec off p, ?_⟩
  rw [writePage, assembleHeader_outcome]
  by_cases hs : SizesOk p
  · simp only [if_pos hs, pageBytes]
  · simp only [if_neg hs]

def outcomeEmptyRows : CompressedPage := writerPage "a" [] 0#32 [] none
def outcomeNarrow : CompressedPage :=
  writerPage "a" [⟨0, 1⟩] 1#32 [9#8] (some { minValue := some [1#8], maxValue := some [1#8] })

/-- The three ends of a page. -/
example :
    pageOutcome (writerPage "a" [⟨0, 1⟩] 1#32 [9#8] (writerStatistics 9#8)) = .done ∧
    pageOutcome outcomeNarrow = .refused ∧ pageOutcome outcomeEmptyRows = .aborts := by
  decide +kernel

/-! ### Columns -/

/-- **C89** (columns): writing a column of less than 2^31 pages, which fit in memory, is done, refused or
aborts as told from the pages alone. -/
theorem C89_column_partial (cs : ThriftCodecs) (ck : Bool) (off : Nat) (d : ColumnDescriptor)
    (items : List (Res CompressedPage)) (hu : chunkUncompressed cs.page (given items) < 2 ^ 63)
    (hn : (given items).length < 2 ^ 31)
    (hlen : off + (writeColumnChunk cs ck off d items).2.length < 2 ^ 63) :
    outcome (writeColumnChunk cs ck off d items).1 = columnOutcome ck (.ok items) :=
  writeColumnChunk_outcome cs ck off d items hu hn hlen

def outcomeNulls (n : BitVec 64) : CompressedPage :=
  writerPage "a" [⟨0, 1⟩] 1#32 [9#8] (some { nullCount := some n })

def outcomeColumn : ColumnDescriptor :=
  { descriptor := { primitiveType := writerType "a", maxDefLevel := 0, maxRepLevel := 0 }
    pathInSchema := ["a"], baseType := .primitive (writerType "a") }

/-- A column whose null counts overflow, within the hypotheses: it depends on whether overflow is
detected. -/
example : chunkUncompressed thriftCodecs.page
      (given [.ok (outcomeNulls (2 ^ 63 - 1)), .ok (outcomeNulls 1)]) < 2 ^ 63 ∧
    4 + (writeColumnChunk thriftCodecs true 4 outcomeColumn
      [.ok (outcomeNulls (2 ^ 63 - 1)), .ok (outcomeNulls 1)]).2.length < 2 ^ 63 ∧
    columnOutcome true (.ok [.ok (outcomeNulls (2 ^ 63 - 1)), .ok (outcomeNulls 1)]) = .aborts ∧
    columnOutcome false (.ok [.ok (outcomeNulls (2 ^ 63 - 1)), .ok (outcomeNulls 1)]) = .done := by
  refine ⟨?_, ?_, ?_, ?_⟩ <;> decide +kernel

/-! ### Row groups -/

/-- **C89** (row groups): on a writer on which calls were made, some of them perhaps refused, writing a
row group which fits in memory is done, refused or aborts as told from the pages alone. Only when it is
done is the row group kept: otherwise the row groups and the position are those before the call.

Missing: that `write` never aborts, which is false (`C89_violated`). -/
theorem C89_write_partial {cs : ThriftCodecs} {ck : Bool} {schema : SchemaDescriptor}
    {options : WriteOptions} {createdBy : Option String} {groups : List (List (List CompressedPage))}
    {w : FileWriter} (h : Tried cs ck schema options createdBy groups w)
    (columns : List (Res (List (Res CompressedPage)))) (hm : Moderate cs schema.leaves.length columns)
    (hlen : (w.write cs ck columns).2.out.length < 2 ^ 63) :
    outcome (w.write cs ck columns).1 = groupOutcome ck schema.leaves.length columns ∧
    (w.write cs ck columns).2.rowGroups.length =
      groups.length + (if groupOutcome ck schema.leaves.length columns = .done then 1 else 0) ∧
    (groupOutcome ck schema.leaves.length columns ≠ .done →
      (w.write cs ck columns).2.rowGroups = w.rowGroups ∧
      (w.write cs ck columns).2.pageSpecs = w.pageSpecs ∧
      ∃ bytes, w.out ++ bytes = (w.write cs ck columns).2.out) := by
  have ho := write_outcome h columns hm hlen
  have hk := tried_kept h
  have hg : w.autoStart.rowGroups = w.rowGroups ∧ w.autoStart.pageSpecs = w.pageSpecs ∧
      ∃ bytes, w.autoStart.out = w.out ++ bytes := by
    by_cases h0 : w.offset = 0
    · rw [FileWriter.autoStart, if_pos h0, FileWriter.start, if_pos h0]
      exact ⟨rfl, rfl, _, rfl⟩
    · rw [autoStart_of_ne h0]
      exact ⟨rfl, rfl, [], (List.append_nil _).symm⟩
  obtain ⟨gb, b1, b2, b3⟩ := hk.built
  have hl : w.autoStart.rowGroups.length = groups.length := by rw [b1, List.length_map, ← b3.length_eq]
  rw [← ho]
  refine ⟨rfl, ?_⟩
  clear ho
  rw [FileWriter.write]
  obtain ⟨g1, g2, bytes, g3⟩ := hg
  split
  · rename_i b _
    exact ⟨by simpa [outcome] using hl, fun _ => ⟨g1, g2, bytes ++ b, by simp [g3]⟩⟩
  · rename_i b _
    exact ⟨by simpa [outcome] using hl, fun _ => ⟨g1, g2, bytes ++ b, by simp [g3]⟩⟩
  · exact ⟨by simp [outcome, hl], fun h => absurd rfl h⟩

instance (cs : ThriftCodecs) (n : Nat) (columns : List (Res (List (Res CompressedPage)))) :
    Decidable (Moderate cs n columns) :=
  if h : (∀ c ∈ given (columns.take n), (given c).length < 2 ^ 31) ∧
      ((given (columns.take n)).map fun c => chunkUncompressed cs.page (given c)).sum < 2 ^ 63
  then .isTrue ⟨h.1, h.2⟩ else .isFalse fun hf => h ⟨hf.1, hf.2⟩

theorem outcome_refused {cs : ThriftCodecs} {ck : Bool} {schema : SchemaDescriptor}
    {options : WriteOptions} {createdBy : Option String} {groups : List (List (List CompressedPage))}
    {w : FileWriter} (h : Tried cs ck schema options createdBy groups w)
    {columns : List (Res (List (Res CompressedPage)))}
    (hr : outcome (w.write cs ck columns).1 = .refused) :
    Tried cs ck schema options createdBy groups (w.write cs ck columns).2 := by
  generalize hw : w.write cs ck columns = r at hr
  obtain ⟨r, w'⟩ := r
  cases r with
  | ok u => cases hr
  | err e => exact .refused h hw
  | panic => cases hr

theorem outcome_accepted {cs : ThriftCodecs} {ck : Bool} {schema : SchemaDescriptor}
    {options : WriteOptions} {createdBy : Option String} {groups : List (List (List CompressedPage))}
    {w : FileWriter} (h : Tried cs ck schema options createdBy groups w) {g : List (List CompressedPage)}
    (hr : outcome (w.write cs ck (writerCall g)).1 = .done) :
    Tried cs ck schema options createdBy (groups ++ [g]) (w.write cs ck (writerCall g)).2 := by
  generalize hw : w.write cs ck (writerCall g) = r at hr
  obtain ⟨r, w'⟩ := r
  cases r with
  | ok u => exact .accepted h hw
  | err e => cases hr
  | panic => cases hr

/-- The example: after a row group that was refused and one that was accepted, a third; the
hypotheses hold. -/
example : Tried thriftCodecs true writerSchema writerOptions (some "me") [writerGroup1]
      (writerThen writerRetry writerGroup1) ∧
    Moderate thriftCodecs writerSchema.leaves.length (writerCall writerGroup2) ∧
    ((writerThen writerRetry writerGroup1).write thriftCodecs true (writerCall writerGroup2)).2.out.length
      < 2 ^ 63 ∧
    groupOutcome true writerSchema.leaves.length (writerCall writerGroup2) = .done ∧
    groupOutcome true writerSchema.leaves.length writerFailing = .refused := by
  refine ⟨outcome_accepted (groups := []) (outcome_refused .new ?_) ?_, ?_, ?_, ?_, ?_⟩
  · show outcome (writerNew.write thriftCodecs true writerFailing).1 = _
    decide +kernel
  · show outcome (writerRetry.write thriftCodecs true (writerCall writerGroup1)).1 = _
    decide +kernel
  all_goals decide +kernel

/-! ### The end -/

/-- **C89** (the end): ending the file in which the row groups `groups` were accepted, while others were
refused, is done, refused or aborts as told from the pages alone; for the synchronous and the
asynchronous writer. What `end` writes (indexes and metadata) is less than 2^31 bytes.

Missing: that it never aborts, and that it is done for row groups that were accepted, which are false
(`C89_violated`). -/
theorem C89_end_partial {cs : ThriftCodecs} {ck : Bool} {schema : SchemaDescriptor}
    {options : WriteOptions} {createdBy : Option String} {groups : List (List (List CompressedPage))}
    {w : FileWriter} (h : Tried cs ck schema options createdBy groups w)
    (kv : Option (List Thrift.KeyValue)) (hout : w.out.length + 4 < 2 ^ 63) :
    ((w.end_ cs ck kv).2.out.length < w.out.length + 2 ^ 31 → outcome (w.end_ cs ck kv).1 =
      endOutcome cs ck options.writeStatistics (groups.map (·.take schema.leaves.length))) ∧
    ((FileStreamer.end_ cs ck w kv).2.out.length < w.out.length + 2 ^ 31 →
      outcome (FileStreamer.end_ cs ck w kv).1 =
        endOutcome cs ck options.writeStatistics (groups.map (·.take schema.leaves.length))) := by
  have hl : w.autoStart.out.length ≤ w.out.length + 4 ∧ w.out.length ≤ w.autoStart.out.length := by
    by_cases h0 : w.offset = 0
    · rw [FileWriter.autoStart, if_pos h0, FileWriter.start, if_pos h0]
      simp [magic]
    · rw [autoStart_of_ne h0]
      exact ⟨by omega, Nat.le_refl _⟩
  exact ⟨fun he => endWith_outcome h kv (by omega) (by rw [FileWriter.end_] at he; omega),
    fun he => endWith_outcome h kv (by omega) (by rw [FileStreamer.end_] at he; omega)⟩

def outcomeNoStatistics : List (List CompressedPage) :=
  [[writerPage "a" [⟨0, 1⟩] 1#32 [9#8] (writerStatistics 9#8)], [writerPage "b" [⟨0, 1⟩] 1#32 [9#8] none]]

/-- The example: a file with two row groups, and one refused before; it can be ended. With the second
column without statistics it cannot. -/
example : Tried thriftCodecs true writerSchema writerOptions (some "me") [writerGroup1, writerGroup2]
      (writerThen (writerThen writerRetry writerGroup1) writerGroup2) ∧
    (writerThen (writerThen writerRetry writerGroup1) writerGroup2).out.length + 4 < 2 ^ 63 ∧
    ((writerThen (writerThen writerRetry writerGroup1) writerGroup2).end_ thriftCodecs true none).2.out.length <
      (writerThen (writerThen writerRetry writerGroup1) writerGroup2).out.length + 2 ^ 31 ∧
    endOutcome thriftCodecs true true ([writerGroup1, writerGroup2].map (·.take 2)) = .done ∧
    endOutcome thriftCodecs true true ([writerGroup1, outcomeNoStatistics].map (·.take 2)) = .refused ∧
    endOutcome thriftCodecs true false ([writerGroup1, outcomeNoStatistics].map (·.take 2)) = .done := by
  refine ⟨outcome_accepted (groups := [writerGroup1]) (outcome_accepted (groups := [])
    (outcome_refused .new ?_) ?_) ?_, ?_, ?_, ?_, ?_, ?_⟩
  · show outcome (writerNew.write thriftCodecs true writerFailing).1 = _
    decide +kernel
  · show outcome (writerRetry.write thriftCodecs true (writerCall writerGroup1)).1 = _
    decide +kernel
  · show outcome ((writerThen writerRetry writerGroup1).write thriftCodecs true (writerCall writerGroup2)).1 = _
    decide +kernel
  all_goals decide +kernel

/-! ### The claim is violated -/

def outcomeInt96 : CompressedPage :=
  .data { header := .v1 { numValues := 1#32, encoding := 0#32, definitionLevelEncoding := 3#32
                          repetitionLevelEncoding := 3#32, statistics := some { nullCount := some 0#64 } }
          buffer := [], compression := .uncompressed, uncompressedPageSize := 0
          descriptor := { primitiveType := { writerType "a" with physicalType := .int96 }
                          maxDefLevel := 0, maxRepLevel := 0 }
          selectedRows := some [⟨0, 1⟩] }

def outcomeWithoutRows : CompressedPage :=
  .data { header := .v1 { numValues := 1#32, encoding := 0#32, definitionLevelEncoding := 3#32
                          repetitionLevelEncoding := 3#32, statistics := writerStatistics 1#8 }
          buffer := [], compression := .uncompressed, uncompressedPageSize := 0
          descriptor := { primitiveType := writerType "b", maxDefLevel := 0, maxRepLevel := 0 }
          selectedRows := none }

def outcomeSecondRows : List (List CompressedPage) :=
  [[writerPage "a" [⟨0, 1⟩] 1#32 [9#8] (writerStatistics 9#8)], [outcomeWithoutRows]]

def outcomeManyRows : List (List CompressedPage) :=
  [[writerPage "a" [⟨0, 2 ^ 63 - 1⟩] 1#32 [9#8] (writerStatistics 9#8)], []]

/-- **C89 is violated**: `write` aborts for a page whose list of selected rows is empty, for a page of
int96 with statistics, for null counts whose sum overflows (if overflow is detected) and for rows whose
sum does; `end` refuses what `write` accepted, for a page of another column than the first that says
nothing about its rows, and for a page without statistics; and it aborts when the rows of all row groups
overflow. -/
theorem C89_violated :
    (writerNew.write thriftCodecs true (writerCall [[outcomeEmptyRows]])).1 = .panic ∧
    (writerNew.write thriftCodecs false (writerCall [[outcomeInt96]])).1 = .panic ∧
    (writerNew.write thriftCodecs true
      (writerCall [[outcomeNulls (2 ^ 63 - 1), outcomeNulls 1]])).1 = .panic ∧
    ((writerNew.write thriftCodecs true (writerCall outcomeSecondRows)).1 = .ok () ∧
      ((writerThen writerNew outcomeSecondRows).end_ thriftCodecs true none).1 = .err .oos) ∧
    ((writerNew.write thriftCodecs true (writerCall outcomeNoStatistics)).1 = .ok () ∧
      ((writerThen writerNew outcomeNoStatistics).end_ thriftCodecs true none).1 = .err .oos) ∧
    ((writerNew.write thriftCodecs true (writerCall outcomeManyRows)).1 = .ok () ∧
      ((writerThen writerNew outcomeManyRows).write thriftCodecs true (writerCall outcomeManyRows)).1 = .ok () ∧
      ((writerThen (writerThen writerNew outcomeManyRows) outcomeManyRows).end_ thriftCodecs true none).1 =
        .panic) := by
  refine ⟨?_, ?_, ?_, ⟨?_, ?_⟩, ⟨?_, ?_⟩, ?_, ?_, ?_⟩ <;> decide +kernel

end Pq.Props
