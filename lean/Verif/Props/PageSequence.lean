import Verif.Lemmas.PageSequence2
import Verif.Props.PageIO
import Verif.Props.FileMetadata
import Verif.Props.WholeFile
/-
C90, C91: what a page reader delivers, against another limit, filter or buffer, and against other bytes.
-/
namespace Pq.Props
open Spec

/-! ### C90 -/

/-- Two data pages, of three and of one byte: with a limit of two bytes the first is an error; with
a filter on the number of values one of them is left out. -/
def twoPages : List Byte :=
  pageBytes headerCodec (exampleData 3#32 [2#8, 1#8, 1#8]) ++ pageBytes headerCodec (exampleData 2#32 [7#8])

def buffers (xs : List (Option (Res CompressedPage))) : List (Option (Option (List Byte))) :=
  xs.map (Option.map fun x => match x with | .ok p => some p.buffer | _ => none)

/-- **C90**: on any bytes, a page reader that may allocate less delivers the same as one that may allocate
more, or the same up to an error. -/
theorem C90_limit (codec : Codec Thrift.PageHeader) (hs : SaneCodec codec) (hm : MonotoneCodec codec) (ck : Bool)
    (bytes : List Byte) (column : PageMetaData) (filter : PageFilter) (scratch : List Byte) (max max' : Nat)
    (hle : max ≤ max') (n : Nat) :
    SameUntilError
      (items (PageReader.next codec ck) n (PageReader.new bytes column filter scratch max)).1
      (items (PageReader.next codec ck) n (PageReader.new bytes column filter scratch max')).1 := by
  refine items_until_error (R := fun s t => s.maxPageSize ≤ max' ∧ t = { s with maxPageSize := max' })
    (fun s t h => ?_) n _ _ ⟨hle, rfl⟩
  obtain ⟨h, rfl⟩ := h
  rcases nextFuel_limit hs hm ck (s.reader.length + 2) s max' h with he | he
  · exact .inl he
  · right
    have hc := (nextFuel_spec (codec := codec) ck (s.reader.length + 2) s).1
    have e : PageReader.next codec ck { s with maxPageSize := max' } =
      ((PageReader.next codec ck s).1, { (PageReader.next codec ck s).2 with maxPageSize := max' }) := he
    rw [e]
    exact ⟨rfl, by rw [show (PageReader.next codec ck s).2.maxPageSize = s.maxPageSize from hc.1]; exact h, rfl⟩

example : SaneCodec headerCodec ∧ MonotoneCodec headerCodec ∧ 2 ≤ 100 ∧
    buffers (items (PageReader.next headerCodec true) 4
      (PageReader.new twoPages exampleColumn (fun _ _ => true) [5#8] 100)).1 =
      [some (some [2#8, 1#8, 1#8]), some (some [7#8]), none] ∧
    buffers (items (PageReader.next headerCodec true) 4
      (PageReader.new twoPages exampleColumn (fun _ _ => true) [5#8] 2)).1 = [some none] :=
  ⟨headerCodec_sane, Compact.codecOf_monotone _, by decide, by decide +kernel⟩

theorem stream_limit {codec : Codec Thrift.PageHeader} (hs : SaneCodec codec) (hm : MonotoneCodec codec) (ck : Bool)
    (m : Nat) (fuel : Nat) (r : PageReader) (hle : r.maxPageSize ≤ m) :
    (∃ e, (PageStream.nextFuel codec ck fuel r).1 = some (.err e)) ∨
    ((PageStream.nextFuel codec ck fuel { r with maxPageSize := m }).1 = (PageStream.nextFuel codec ck fuel r).1 ∧
      (PageStream.nextFuel codec ck fuel { r with maxPageSize := m }).2 =
        ⟨{ (PageStream.nextFuel codec ck fuel r).2.inner with maxPageSize := m },
          (PageStream.nextFuel codec ck fuel r).2.failed⟩ ∧
      (PageStream.nextFuel codec ck fuel r).2.inner.maxPageSize ≤ m) := by
  induction fuel generalizing r with
  | zero => exact .inr ⟨rfl, rfl, hle⟩
  | succ fuel ih =>
    simp only [PageStream.nextFuel]
    by_cases hv : r.totalNumValues.toInt ≤ r.seenNumValues.toInt
    · rw [if_pos hv, if_pos hv]; exact .inr ⟨rfl, rfl, hle⟩
    · rw [if_neg hv, if_neg hv]
      rcases hp : codec.parse r.maxPageSize r.reader with ⟨x, rest⟩
      cases x with
      | err e => exact .inl ⟨e, rfl⟩
      | panic => exact absurd (by rw [hp]) (hs.noPanic r.maxPageSize r.reader)
      | ok header =>
        simp only [hm.mono _ m _ _ _ hle hp]
        cases getPageHeader header with
        | err e => exact .inl ⟨e, rfl⟩
        | panic => exact .inr ⟨rfl, rfl, hle⟩
        | ok dh =>
          simp only
          cases addI64 ck r.seenNumValues (headerValues dh) with
          | err e => exact .inl ⟨e, rfl⟩
          | panic => exact .inr ⟨rfl, rfl, hle⟩
          | ok seen =>
            simp only
            cases toUsize header.compressedPageSize with
            | err e => exact .inl ⟨e, rfl⟩
            | panic => exact .inr ⟨rfl, rfl, hle⟩
            | ok n =>
              simp only
              cases dh with
              | none =>
                simp only [Bool.false_eq_true, if_false]
                by_cases hn : r.maxPageSize < n
                · rw [if_pos hn]; exact .inl ⟨_, rfl⟩
                · rw [if_neg hn, if_neg (show ¬ m < n by omega)]
                  by_cases hl : (rest.take n).length ≠ n
                  · rw [if_pos hl, if_pos hl]; exact .inl ⟨_, rfl⟩
                  · rw [if_neg hl, if_neg hl]
                    cases finishPage header (rest.take n) r.compression r.descriptor none with
                    | ok page => exact .inr ⟨rfl, rfl, hle⟩
                    | err e => exact .inl ⟨e, rfl⟩
                    | panic => exact .inr ⟨rfl, rfl, hle⟩
              | some h =>
                simp only
                by_cases hk : (!r.pagesFilter r.descriptor h) = true
                · rw [if_pos hk, if_pos hk]
                  exact ih { r with reader := rest.drop n, seenNumValues := seen } hle
                · rw [if_neg hk, if_neg hk]
                  by_cases hn : r.maxPageSize < n
                  · rw [if_pos hn]; exact .inl ⟨_, rfl⟩
                  · rw [if_neg hn, if_neg (show ¬ m < n by omega)]
                    by_cases hl : (rest.take n).length ≠ n
                    · rw [if_pos hl, if_pos hl]; exact .inl ⟨_, rfl⟩
                    · rw [if_neg hl, if_neg hl]
                      cases finishPage header (rest.take n) r.compression r.descriptor none with
                      | ok page => exact .inr ⟨rfl, rfl, hle⟩
                      | err e => exact .inl ⟨e, rfl⟩
                      | panic => exact .inr ⟨rfl, rfl, hle⟩

/-- **C90** for the stream. -/
theorem C90_stream_limit (codec : Codec Thrift.PageHeader) (hs : SaneCodec codec) (hm : MonotoneCodec codec)
    (ck : Bool) (bytes : List Byte) (column : PageMetaData) (filter : PageFilter) (scratch : List Byte)
    (max max' : Nat) (hle : max ≤ max') (n : Nat) :
    SameUntilError
      (items (PageStream.next codec ck) n ⟨PageReader.new bytes column filter scratch max, false⟩).1
      (items (PageStream.next codec ck) n ⟨PageReader.new bytes column filter scratch max', false⟩).1 := by
  refine items_until_error (R := fun s t => s.inner.maxPageSize ≤ max' ∧
    t = ⟨{ s.inner with maxPageSize := max' }, s.failed⟩) (fun s t h => ?_) n _ _ ⟨hle, rfl⟩
  obtain ⟨h, rfl⟩ := h
  obtain ⟨inner, failed⟩ := s
  simp only [PageStream.next]
  cases failed with
  | true => exact .inr ⟨rfl, h, rfl⟩
  | false =>
    simp only [Bool.false_eq_true, if_false]
    rcases stream_limit hs hm ck max' (inner.reader.length + 2) inner h with he | ⟨h1, h2, h3⟩
    · exact .inl he
    · exact .inr ⟨h1, h3, h2⟩

/-- The compact protocol meets the hypotheses on the codec. -/
example : SaneCodec headerCodec ∧ LocalCodec headerCodec ∧ MonotoneCodec headerCodec :=
  ⟨headerCodec_sane, Compact.codecOf_local _, Compact.codecOf_monotone _⟩

theorem keeps_wants (f : PageFilter) (r : PageReader) (h : r.pagesFilter = f) :
    r.wants = keeps f r.descriptor := by
  funext x
  cases x with
  | ok p => cases p <;> simp [PageReader.wants, keeps, passes, h]
  | err e => rfl
  | panic => rfl

/-- **C90**: on any bytes, a filter of pages leaves out the pages that do not pass, and changes nothing else:
if the reader without a filter comes to an end, so does that with the filter, having delivered the pages that
pass and the errors, in the same order; and whatever items the reader with the filter has delivered, the one
without can deliver items that are, minus those that do not pass, the same. -/
theorem C90_filter (codec : Codec Thrift.PageHeader) (hs : SaneCodec codec) (ck : Bool)
    (bytes : List Byte) (column : PageMetaData) (filter : PageFilter) (scratch : List Byte) (max : Nat) :
    (∀ xs t, Pulls (PageReader.next codec ck) (PageReader.new bytes column (fun _ _ => true) scratch max) xs t →
      ∃ t', Pulls (PageReader.next codec ck) (PageReader.new bytes column filter scratch max)
        (xs.filter (keeps filter column.descriptor)) t' ∧ t'.reader = t.reader ∧
        t'.seenNumValues = t.seenNumValues) ∧
    (∀ ys t', Pulled (PageReader.next codec ck) (PageReader.new bytes column filter scratch max) ys t' →
      ∃ xs t, Pulled (PageReader.next codec ck) (PageReader.new bytes column (fun _ _ => true) scratch max) xs t ∧
        ys = xs.filter (keeps filter column.descriptor) ∧ t'.reader = t.reader ∧
        t'.seenNumValues = t.seenNumValues) := by
  constructor
  · intro xs t h
    have := pulls_filter hs ck filter _ _ t xs h rfl rfl
    rw [keeps_wants filter _ rfl] at this
    exact ⟨_, this, rfl, rfl⟩
  · intro ys t' h
    obtain ⟨xs, h1, h2⟩ := pulled_filter hs ck _ t' ys h
    rw [keeps_wants filter _ rfl] at h2
    exact ⟨xs, _, h1, h2, rfl, rfl⟩

example : SaneCodec headerCodec ∧
    buffers (items (PageReader.next headerCodec true) 4
      (PageReader.new twoPages exampleColumn (fun _ h => h.numValues = 2) [] 100)).1 =
      [some (some [7#8]), none] := ⟨headerCodec_sane, by decide +kernel⟩

theorem items_congr {σ τ α : Type} {next : σ → Option (Res α) × σ} {next' : τ → Option (Res α) × τ} {R : σ → τ → Prop}
    (step : ∀ s t, R s t → (next' t).1 = (next s).1 ∧ R (next s).2 (next' t).2) (n : Nat) (s : σ) (t : τ)
    (h : R s t) : (items next' n t).1 = (items next n s).1 := by
  induction n generalizing s t with
  | zero => rfl
  | succ n ih =>
    obtain ⟨h1, h2⟩ := step s t h
    simp only [items]
    rcases hx : next s with ⟨x, s'⟩
    rcases hy : next' t with ⟨y, t'⟩
    rw [hx, hy] at h1 h2
    simp only at h1 h2
    subst h1
    have := ih s' t' h2
    rcases y with _ | (_ | _ | _)
    · rfl
    · simp only [this]
    · rfl
    · rfl

/-- **C90**: the content of the buffer passed to the page reader does not matter. -/
theorem C90_scratch (codec : Codec Thrift.PageHeader) (ck : Bool) (bytes : List Byte) (column : PageMetaData)
    (filter : PageFilter) (scratch scratch' : List Byte) (max n : Nat) :
    (items (PageReader.next codec ck) n (PageReader.new bytes column filter scratch' max)).1 =
      (items (PageReader.next codec ck) n (PageReader.new bytes column filter scratch max)).1 := by
  refine items_congr (R := fun s t => { s with scratch := [] } = { t with scratch := ([] : List Byte) })
    (fun s t h => ?_) n _ _ rfl
  have e : t = { s with scratch := t.scratch } := by
    cases s; cases t
    simp only [PageReader.mk.injEq] at h ⊢
    obtain ⟨h1, h2, h3, h4, h5, h6, -, h8, h9⟩ := h
    exact ⟨h1.symm, h2.symm, h3.symm, h4.symm, h5.symm, h6.symm, trivial, h8.symm, h9.symm⟩
  obtain ⟨h1, h2⟩ := build_scratch codec ck s t.scratch
  rw [← e] at h1 h2
  exact ⟨h1, h2.symm⟩

/-- `C90_limit` with the compact protocol, which meets its hypotheses. -/
theorem C90_limit_compact (ck : Bool) (bytes : List Byte) (column : PageMetaData) (filter : PageFilter)
    (scratch : List Byte) (max max' : Nat) (hle : max ≤ max') (n : Nat) :
    SameUntilError
      (items (PageReader.next headerCodec ck) n (PageReader.new bytes column filter scratch max)).1
      (items (PageReader.next headerCodec ck) n (PageReader.new bytes column filter scratch max')).1 :=
  C90_limit _ headerCodec_sane (Compact.codecOf_monotone _) ck bytes column filter scratch max max' hle n

example :
    buffers (items (PageReader.next headerCodec true) 4
      (PageReader.new twoPages exampleColumn (fun _ _ => true) [5#8] 100)).1 =
      [some (some [2#8, 1#8, 1#8]), some (some [7#8]), none] ∧
    buffers (items (PageReader.next headerCodec true) 4
      (PageReader.new twoPages exampleColumn (fun _ _ => true) [5#8] 2)).1 = [some none] ∧
    buffers (items (PageReader.next headerCodec true) 4
      (PageReader.new twoPages exampleColumn (fun _ h => h.numValues = 2) [] 100)).1 =
      [some (some [7#8]), none] := by
  decide +kernel

/-! ### C91 -/

theorem pulls_local {codec : Codec Thrift.PageHeader} (hs : SaneCodec codec) (hc : LocalCodec codec) (ck : Bool)
    (s t : PageReader) (ps : List CompressedPage) (h : Pulls (PageReader.next codec ck) s (ps.map .ok) t) :
    ∃ c, s.reader = c ++ t.reader ∧
      ∀ ext, Pulls (PageReader.next codec ck) { s with reader := c ++ ext } (ps.map .ok) { t with reader := ext } := by
  generalize hx : ps.map (Res.ok (α := CompressedPage)) = xs at h
  induction h generalizing ps with
  | @done s t h =>
    obtain ⟨c, h1, -, h2⟩ := next_local hs hc ck s t none (.inl rfl) h
    exact ⟨c, h1, fun ext => .done (h2 ext)⟩
  | @item s s' t x xs h _ ih =>
    cases ps with
    | nil => simp at hx
    | cons p ps =>
      simp only [List.map_cons, List.cons.injEq] at hx
      obtain ⟨rfl, rfl⟩ := hx
      obtain ⟨c, h1, -, h2⟩ := next_local hs hc ck s s' (some (.ok p)) (.inr ⟨p, rfl⟩) h
      obtain ⟨c', h3, h4⟩ := ih ps rfl
      refine ⟨c ++ c', by rw [h1, h3, List.append_assoc], fun ext => ?_⟩
      refine .item ?_ (h4 ext)
      rw [List.append_assoc]
      exact h2 (c' ++ ext)

/-- Two files that differ after the first page. -/
def localFile (last : Byte) : List Byte :=
  [80#8, 65#8, 82#8, 49#8] ++ pageBytes headerCodec (exampleData 3#32 [2#8, 1#8, 1#8]) ++
    pageBytes headerCodec (exampleData 2#32 [last])

/-- A column of the first of them: `values` values, in the first page. -/
def localColumn (values : I64) : ColumnChunkMetaData :=
  { exampleChunk ["a"] 4#64 with
    columnChunk := { fileOffset := 0#64
                     metaData := some { type := 1#32, encodings := [0#32], pathInSchema := ["a"]
                                        codec := 0#32, numValues := values
                                        totalUncompressedSize := 3#64
                                        totalCompressedSize := BitVec.ofNat 64
                                          (pageBytes headerCodec (exampleData 3#32 [2#8, 1#8, 1#8])).length
                                        dataPageOffset := 4#64 } } }

def localRead (values : I64) (last : Byte) : List (Option (Option (List Byte))) :=
  match getPageIterator (localColumn values) (localFile last) none [] 100 with
  | .ok r => buffers (items (PageReader.next headerCodec true) 4 r).1
  | _ => []

/-- **C91**: a page reader that came to its end without an error has read a prefix of the bytes, and whatever
follows that prefix, the same pages are delivered, and what follows is left. -/
theorem C91_local (codec : Codec Thrift.PageHeader) (hs : SaneCodec codec) (hc : LocalCodec codec) (ck : Bool)
    (bytes : List Byte) (column : PageMetaData) (filter : PageFilter) (scratch : List Byte) (max : Nat)
    (ps : List CompressedPage) (t : PageReader)
    (h : Pulls (PageReader.next codec ck) (PageReader.new bytes column filter scratch max) (ps.map .ok) t) :
    ∃ c, bytes = c ++ t.reader ∧ ∀ ext, ∃ t', t'.reader = ext ∧
      Pulls (PageReader.next codec ck) (PageReader.new (c ++ ext) column filter scratch max) (ps.map .ok) t' := by
  obtain ⟨c, h1, h2⟩ := pulls_local hs hc ck _ t ps h
  exact ⟨c, h1, fun ext => ⟨_, rfl, h2 ext⟩⟩

/-- The hypotheses of `C91_local`, for the two pages followed by other bytes. -/
example : ∃ (ps : List CompressedPage) (t : PageReader), Pulls (PageReader.next headerCodec true)
    (PageReader.new (twoPages ++ [1#8, 2#8]) exampleColumn (fun _ _ => true) [] 100) (ps.map .ok) t ∧
    ps.length = 2 ∧ t.reader = [1#8, 2#8] := by
  have hw : ∃ specs, writePages headerCodec 4
      ([exampleData 3#32 [2#8, 1#8, 1#8], exampleData 2#32 [7#8]].map .ok) = (.ok specs, twoPages) := by
    have h : (writePages headerCodec 4
      ([exampleData 3#32 [2#8, 1#8, 1#8], exampleData 2#32 [7#8]].map .ok)).1.isOk = true := by decide +kernel
    have h' : (writePages headerCodec 4
      ([exampleData 3#32 [2#8, 1#8, 1#8], exampleData 2#32 [7#8]].map .ok)).2 = twoPages := by decide +kernel
    generalize writePages headerCodec 4
      ([exampleData 3#32 [2#8, 1#8, 1#8], exampleData 2#32 [7#8]].map .ok) = w at h h'
    obtain ⟨a, b⟩ := w
    cases a with
    | ok specs => exact ⟨specs, by rw [← h']⟩
    | err e => simp [Res.isOk] at h
    | panic => simp [Res.isOk] at h
  obtain ⟨specs, hw⟩ := hw
  obtain ⟨t, h1, h2, -⟩ := C35_roundtrip_partial headerCodec _ headerCodec_lawful headerCodec_sane true 4
    [exampleData 3#32 [2#8, 1#8, 1#8], exampleData 2#32 [7#8]] specs twoPages [1#8, 2#8] hw exampleColumn (fun _ _ => true) [] 100
    (by
      intro p hp
      simp only [List.mem_cons, List.not_mem_nil, or_false] at hp
      rcases hp with rfl | rfl <;> exact ⟨rfl, rfl, by decide, by unfold knownEncoding; decide⟩)
    (by
      intro p hp
      simp only [List.mem_cons, List.not_mem_nil, or_false] at hp
      rcases hp with rfl | rfl <;> decide +kernel) rfl (by simp; decide)
  refine ⟨[exampleData 3#32 [2#8, 1#8, 1#8], exampleData 2#32 [7#8]].map readBack, t, ?_, rfl, h2⟩
  exact h1

/-- **C91**: what is read of a column into memory depends on the column's range of the file only, and so
does whether it can be read. -/
theorem C91_memory (column : ColumnChunkMetaData) (file file' : List Byte)
    (h : ∀ start length, column.byteRange = .ok (start, length) →
      region file' start length = region file start length) :
    readColumn file' column = readColumn file column := by
  unfold readColumn
  rcases hb : column.byteRange with ⟨start, length⟩ | e | _
  · have := h start length hb
    simp only [region] at this
    simp only [Res.ok_bind, this]
  · rfl
  · rfl

example : (localColumn 3#64).byteRange = .ok (4, (pageBytes headerCodec (exampleData 3#32 [2#8, 1#8, 1#8])).length) ∧
    region (localFile 8#8) 4 (pageBytes headerCodec (exampleData 3#32 [2#8, 1#8, 1#8])).length =
      region (localFile 7#8) 4 (pageBytes headerCodec (exampleData 3#32 [2#8, 1#8, 1#8])).length ∧
    localFile 8#8 ≠ localFile 7#8 := by decide +kernel

/-- **C91 (partial)**: the pages of a column chunk of a file that was written are read the same from any file
that has the same bytes in the range of the chunk, whatever it has elsewhere (`ColumnReads` is what
`C59_whole_file_partial` gives for every column chunk of a written file). Missing: foreign files, in which
the pages may go beyond the range (`C91_violated`). -/
theorem C91_written_partial (codec : Codec Thrift.PageHeader) (limit : Thrift.PageHeader → Nat)
    (hs : SaneCodec codec) (hc : LocalCodec codec) (file file' : List Byte)
    (c : ColumnDescriptor × List CompressedPage) (chunk : ColumnChunkMetaData)
    (h : ColumnReads codec limit file c chunk)
    (hf : ∀ start length, chunk.byteRange = .ok (start, length) →
      region file' start length = region file start length)
    (ck : Bool) (filter : Option PageFilter) (scratch : List Byte) (max : Nat)
    (hmax : ∀ p ∈ c.2, p.buffer.length ≤ max ∧ limit (headerOf p) ≤ max) :
    ∃ reader last, getPageIterator chunk file' filter scratch max = .ok reader ∧
      Pulls (PageReader.next codec ck) reader
        ((c.2.filter (passes (filter.getD fun _ _ => true) c.1.descriptor)).map fun p => .ok (readBack p))
        last := by
  obtain ⟨meta', hm, hp⟩ := h.inMemory
  obtain ⟨last, hp⟩ := hp ck (filter.getD fun _ _ => true) scratch max hmax
  rw [show (fun p => Res.ok (readBack p)) = Res.ok ∘ readBack from rfl, ← List.map_map] at hp ⊢
  obtain ⟨x, h1, h2⟩ := C91_local codec hs hc ck _ meta' _ scratch max _ last hp
  have hb := h.bytes
  rw [← C91_memory chunk file file' hf] at hb
  unfold readColumn at hb
  obtain ⟨⟨start, length⟩, hr, hb⟩ := Res.bind_eq_ok.1 hb
  simp only at hb
  by_cases hl : 2 ^ 63 ≤ length
  · rw [if_pos hl] at hb; simp at hb
  rw [if_neg hl] at hb
  have hb : (file'.drop start).take length = chunkBytes codec c.2 := by injection hb
  obtain ⟨t', -, h3⟩ := h2 (last.reader ++ (file'.drop start).drop length)
  refine ⟨_, t', ?_, h3⟩
  simp only [getPageIterator, hr, hm]
  rw [← List.append_assoc, ← h1, ← hb, List.take_append_drop]

/-- The columns of the example of C59 meet the hypotheses. -/
example : SaneCodec headerCodec ∧ LocalCodec headerCodec ∧ ∃ (c : ColumnDescriptor × List CompressedPage)
    (chunk : ColumnChunkMetaData), c.2.length = 3 ∧
      ColumnReads headerCodec (fun h => (headerCodec.ser h).length) writerEnd.2.out c chunk := by
  obtain ⟨fm, -, h⟩ := writer_example_reads
  refine ⟨headerCodec_sane, Compact.codecOf_local _, ?_⟩
  revert h
  generalize fm.rowGroups = groups
  intro h
  cases h with
  | cons h1 _ =>
    have := h1.chunks
    revert this
    generalize RowGroupMetaData.columns _ = columns
    intro h
    cases h with
    | cons h2 _ => exact ⟨_, _, by decide +kernel, h2⟩

/-- **C91**: the indexed reader reads the ranges of the page locations, and for the dictionary that from the
start of the column to the first location; what it delivers does not depend on the rest of the file. -/
theorem C91_indexed (codec : Codec Thrift.PageHeader) (ck : Bool) (file file' : List Byte) (column : PageMetaData)
    (pages : List FilteredPage) (hs : column.columnStart ≤ 2 ^ 63)
    (hd : ∀ p ∈ pages.head?, region file' column.columnStart (p.start - column.columnStart) =
      region file column.columnStart (p.start - column.columnStart))
    (hp : ∀ p ∈ pages, p.selectedRows ≠ [] → region file' p.start p.length = region file p.start p.length)
    (n : Nat) :
    (items (IndexedReader.next codec ck) n (IndexedReader.new file' column pages)).1 =
      (items (IndexedReader.next codec ck) n (IndexedReader.new file column pages)).1 := by
  have at' : ∀ start length, (length < 2 ^ 63 → region file' start length = region file start length) →
      readPageAt codec file' start length = readPageAt codec file start length := by
    intro start length h
    unfold readPageAt
    by_cases hl : 2 ^ 63 ≤ length
    · rw [if_pos hl, if_pos hl]
    · have := h (by omega)
      simp only [region] at this
      rw [if_neg hl, if_neg hl, this]
  refine items_congr (R := fun s t => t = { s with file := file' } ∧ s.file = file ∧ s.columnStart = column.columnStart ∧
    (s.maybeDict = true → s.pages.head? = pages.head?) ∧ ∀ p ∈ s.pages, p ∈ pages) (fun s t h => ?_) n _ _
    ⟨rfl, rfl, rfl, fun _ => rfl, fun p h => h⟩
  obtain ⟨rfl, hf, hc, hm, hm'⟩ := h
  have data : ∀ (l : List FilteredPage), (∀ p ∈ l, p ∈ pages) → ∀ s : IndexedReader, s.file = file →
      s.columnStart = column.columnStart → s.maybeDict = false →
      (IndexedReader.nextData codec { s with file := file' } l).1 = (IndexedReader.nextData codec s l).1 ∧
      (IndexedReader.nextData codec { s with file := file' } l).2 =
        { (IndexedReader.nextData codec s l).2 with file := file' } ∧
      (IndexedReader.nextData codec s l).2.file = file ∧
      (IndexedReader.nextData codec s l).2.columnStart = column.columnStart ∧
      (IndexedReader.nextData codec s l).2.maybeDict = false ∧
      ∀ p ∈ (IndexedReader.nextData codec s l).2.pages, p ∈ pages := by
    intro l
    induction l with
    | nil => intro _ s h1 h2 h3; exact ⟨rfl, rfl, h1, h2, h3, fun p h => by simp [IndexedReader.nextData] at h⟩
    | cons q l ih =>
      intro hq s h1 h2 h3
      simp only [IndexedReader.nextData]
      by_cases he : q.selectedRows.isEmpty
      · rw [if_pos he, if_pos he]
        exact ih (fun p h => hq p (.tail _ h)) s h1 h2 h3
      · rw [if_neg he, if_neg he]
        refine ⟨?_, rfl, h1, h2, h3, fun p h => hq p (.tail _ h)⟩
        simp only [IndexedReader.readPage, h1]
        rw [at' q.start q.length fun _ => hp q (hq q (.head _)) (by simpa using he)]
  have rd : ∀ q, pages.head? = some q → ∀ length, Deser.usub ck q.start column.columnStart = .ok length →
      readPageAt codec file' column.columnStart length = readPageAt codec file column.columnStart length := by
    intro q hq length hu
    refine at' _ _ fun hl => ?_
    have : length = q.start - column.columnStart := by
      unfold Deser.usub at hu
      by_cases h : column.columnStart ≤ q.start
      · rw [if_pos h] at hu; injection hu with hu; exact hu.symm
      · rw [if_neg h] at hu
        cases ck with
        | true => simp at hu
        | false =>
          simp only [Bool.false_eq_true, if_false] at hu
          injection hu with hu
          omega
    rw [this]
    exact hd q (by rw [hq]; rfl)
  simp only [IndexedReader.next]
  cases hb : s.maybeDict with
  | false =>
    simp only [Bool.false_eq_true, if_false]
    obtain ⟨h1, h2, h3, h4, h5, h6⟩ := data s.pages hm' s hf hc hb
    rw [hb] at h1 h2
    exact ⟨h1, h2, h3, h4, fun h => by rw [h5] at h; simp at h, h6⟩
  | true =>
    simp only [if_true]
    have hdict : IndexedReader.readDict codec ck { s with file := file', maybeDict := false } =
        IndexedReader.readDict codec ck { s with maybeDict := false } := by
      simp only [IndexedReader.readDict, hm hb, hc, hf]
      cases hq : pages.head? with
      | none => rfl
      | some q =>
        simp only
        rcases hu : Deser.usub ck q.start column.columnStart with length | e | _
        · simp only [readDictPage, rd q hq length hu]
        · rfl
        · rfl
    rw [hdict]
    cases IndexedReader.readDict codec ck { s with maybeDict := false } with
    | some x => exact ⟨rfl, rfl, hf, hc, fun h => by simp at h, hm'⟩
    | none =>
      obtain ⟨h1, h2, h3, h4, h5, h6⟩ := data s.pages hm' { s with maybeDict := false } hf hc rfl
      exact ⟨h1, h2, h3, h4, fun h => by rw [h5] at h; simp at h, h6⟩

/-- The hypotheses of `C91_indexed`: a file that differs in the last page only, which is not selected. -/
example : let a := 4 + (pageBytes headerCodec (exampleData 3#32 [2#8, 1#8, 1#8])).length
    let pages : List FilteredPage := [⟨4, a - 4, [⟨1, 1⟩], 3⟩, ⟨a, (localFile 7#8).length - a, [], 2⟩]
    (∀ p ∈ pages.head?, region (localFile 8#8) 4 (p.start - 4) = region (localFile 7#8) 4 (p.start - 4)) ∧
    (∀ p ∈ pages, p.selectedRows ≠ [] →
      region (localFile 8#8) p.start p.length = region (localFile 7#8) p.start p.length) ∧
    buffers (items (IndexedReader.next headerCodec true) 4
      (IndexedReader.new (localFile 8#8) exampleColumn pages)).1 = [some (some [2#8, 1#8, 1#8]), none] := by
  decide +kernel

/-- **C91 is violated** by the page reader on a file whose metadata announce more values than the range of the
column holds: the reader goes on beyond the range, and delivers what it finds there, here the page of another
column, as a page of this one. The files differ outside of the range only. -/
theorem C91_violated :
    (localColumn 5#64).byteRange = .ok (4, (pageBytes headerCodec (exampleData 3#32 [2#8, 1#8, 1#8])).length) ∧
    readColumn (localFile 7#8) (localColumn 5#64) = readColumn (localFile 8#8) (localColumn 5#64) ∧
    localRead 5#64 7#8 = [some (some [2#8, 1#8, 1#8]), some (some [7#8]), none] ∧
    localRead 5#64 8#8 = [some (some [2#8, 1#8, 1#8]), some (some [8#8]), none] := by
  decide +kernel

/-- With as many values as the range holds, the pages are those of the range. -/
example : localRead 3#64 7#8 = [some (some [2#8, 1#8, 1#8]), none] ∧
    localRead 3#64 8#8 = [some (some [2#8, 1#8, 1#8]), none] := by
  decide +kernel

end Pq.Props
