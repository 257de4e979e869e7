import Verif.Lemmas.PageSource
import Verif.Lemmas.ThriftProtocol
import Verif.Props.PageIO
import Verif.Props.Source
import Verif.Props.Indexes
import Verif.Props.FileMetadata
/-
Property theorems about reading pages, indexes and bloom filters from a reader: C82.
-/
namespace Pq.Props

open Spec

variable {σ : Type} {i : Input σ} {v : SourceView σ} {file : List Byte}

/-- The buffers of the items. -/
def buffersOf (l : List (Option (Res CompressedPage))) : List (Option (Res (List Byte))) :=
  l.map fun x => x.map fun r => r.map' CompressedPage.buffer

/-- **C82** opening a column: the page reader that `get_page_iterator` gives stands where the column starts,
wherever the reader stood before. -/
theorem C82_open (h : LawfulInput i v file) (column : ColumnChunkMetaData) (filter : Option PageFilter)
    (scratch : List Byte) (max : Nat) (s : σ) :
    let x := getPageIteratorFrom i column filter scratch max s
    (x.1 = .err .oos ∧ v.failed x.2 = true) ∨
    (v.failed x.2 = v.failed s ∧
      (x.1.map' fun r => { r with reader := file.drop (v.pos x.2) }) =
        getPageIterator column file filter scratch max) := by
  simp only [getPageIteratorFrom, getPageIterator, IoM.bind_at, IoM.bind, IoM.lift]
  cases column.byteRange with
  | err e => exact .inr ⟨rfl, rfl⟩
  | panic => exact .inr ⟨rfl, rfl⟩
  | ok range =>
    obtain ⟨start, length⟩ := range
    simp only [Source.seekTo]
    cases hs : i.source.seek s (.start start) with
    | mk q s1 =>
      cases q with
      | none =>
        rcases h.source.seek_err _ _ _ hs with ⟨h1, h2⟩ | h1
        · cases h1
        · exact .inl ⟨rfl, h1⟩
      | some q =>
        obtain ⟨k1, k2, k3⟩ := h.source.seek_ok _ _ _ _ hs
        injection k1 with k1
        subst k1
        simp only
        cases column.pageMetaData with
        | err e => exact .inr ⟨k3, rfl⟩
        | panic => exact .inr ⟨k3, rfl⟩
        | ok m =>
          refine .inr ⟨k3, ?_⟩
          simp only [Pure.pure, IoM.pure, Res.map', PageReader.new, k2]

-- opening the column from elsewhere
example : LawfulInput (tapeInput exampleFile) Tape.view exampleFile ∧
    let x := getPageIteratorFrom (tapeInput exampleFile) (exampleChunk ["a"] 4#64) none [] 1000
      ({ pos := 30, faults := [1] } : Tape)
    x.2.pos = 4 ∧ x.1.isOk = true := ⟨tapeInput_lawful _, by decide +kernel⟩

/-- **C82** opening a column with the stream of pages. -/
theorem C82_open_stream (h : LawfulInput i v file) (column : PageMetaData) (filter : PageFilter)
    (scratch : List Byte) (max : Nat) (s : σ) :
    let x := getPageStreamFrom i column scratch filter max s
    (x.1 = .err .oos ∧ v.failed x.2 = true) ∨
    (v.failed x.2 = v.failed s ∧ v.pos x.2 = column.columnStart ∧
      x.1 = .ok ⟨PageReader.new [] column filter scratch max, false⟩) := by
  simp only [getPageStreamFrom, IoM.bind_at, IoM.bind, Source.seekTo]
  cases hs : i.source.seek s (.start column.columnStart) with
  | mk q s1 =>
    cases q with
    | none =>
      rcases h.source.seek_err _ _ _ hs with ⟨h1, h2⟩ | h1
      · cases h1
      · exact .inl ⟨rfl, h1⟩
    | some q =>
      obtain ⟨k1, k2, k3⟩ := h.source.seek_ok _ _ _ _ hs
      injection k1 with k1
      subst k1
      exact .inr ⟨k3, k2, rfl⟩

-- opening the column from elsewhere
example :
    let x := getPageStreamFrom (tapeInput exampleFile) exampleColumn [] (fun _ _ => true) 1000
      ({ pos := 30, faults := [1] } : Tape)
    x.2.pos = 4 ∧ x.1.isOk = true := by
  decide +kernel

/-- **C82** the pages of a page reader, up to the first error, are those in the bytes from where its reader
stands, whatever pieces the reader delivers and however the thrift protocol asks for the bytes of the
headers; if the reader fails on the way, they are the same up to the error. (`calls` and `fuel` are the calls
of the protocol and the depth of the stack that suffice for the file.) -/
theorem C82_pages (h : LawfulInput i v file) {p : Protocol Thrift.PageHeader} (hp : LawfulProtocol p)
    (hs : SaneCodec p.codec) (ck : Bool) (calls fuel : Nat) (hcalls : file.length < calls)
    (hfuel : file.length < fuel) (r : PageReader) (s : σ) (n : Nat) :
    let x := items (PageReader.nextFuelFrom i p ck calls fuel) n (r, s)
    ItemsDelivered (v.failed s) (v.failed x.2.2) x.1
      (items (PageReader.next p.codec ck) n { r with reader := file.drop (v.pos s) }).1 := by
  refine items_delivered (failed := fun t => v.failed t.2)
    (R := fun (t' : _ × σ) t => t = t'.1.onBytes v file t'.2) ?_ n (r, s) _ rfl
  rintro ⟨r, s⟩ t rfl
  have := next_from h hp ck calls hcalls fuel r s
  rw [nextFuel_enough hs ck fuel ((r.onBytes v file s).reader.length + 2) (r.onBytes v file s) (by
    simp only [PageReader.onBytes, List.length_drop]; omega) (by omega)] at this
  exact this

-- the pages of a file, in pieces of different sizes; with a failure of the reader in the last page
example :
    let r := PageReader.new [] exampleColumn (fun _ _ => true) [] 1000
    let run := fun faults => items (PageReader.nextFuelFrom (tapeInput exampleFile)
      (Compact.protocolOf Compact.rPageHeader) true 200 200) 9 (r, { pos := 4, sizes := [1, 3, 2], faults })
    exampleFile.length < 200 ∧
    buffersOf (run []).1 =
      [some (.ok [1#8, 2#8, 3#8, 4#8]), some (.ok [2#8, 1#8, 1#8]), some (.ok [7#8]), none] ∧
    (run []).2.2.failed = false ∧
    buffersOf (run [40]).1 =
      [some (.ok [1#8, 2#8, 3#8, 4#8]), some (.ok [2#8, 1#8, 1#8]), some (.err .oos)] ∧
    (run [40]).2.2.failed = true := by
  decide +kernel

/-- **C82** the same for the asynchronous stream of pages. -/
theorem C82_stream (h : LawfulInput i v file) {p : Protocol Thrift.PageHeader} (hp : LawfulProtocol p)
    (hs : SaneCodec p.codec) (ck : Bool) (calls fuel : Nat) (hcalls : file.length < calls)
    (hfuel : file.length < fuel) (r : PageReader) (s : σ) (n : Nat) :
    let x := items (PageStream.nextFrom i p ck calls fuel) n (⟨r, false⟩, s)
    ItemsDelivered (v.failed s) (v.failed x.2.2) x.1
      (items (PageStream.next p.codec ck) n ⟨{ r with reader := file.drop (v.pos s) }, false⟩).1 := by
  refine items_delivered (failed := fun t => v.failed t.2)
    (R := fun (t' : PageStream × σ) (t : PageStream) => t'.1.failed = false ∧ t = ⟨t'.1.inner.onBytes v file t'.2, false⟩) ?_ n (⟨r, false⟩, s) _
    ⟨rfl, rfl⟩
  rintro ⟨⟨r, f⟩, s⟩ t ⟨rfl, rfl⟩
  have := stream_from h hp ck calls hcalls fuel r s
  rw [streamFuel_enough hs ck fuel ((r.onBytes v file s).reader.length + 2) (r.onBytes v file s) (by
    simp only [PageReader.onBytes, List.length_drop]; omega) (by omega)] at this
  simp only [PageStream.nextFrom, PageStream.next, Bool.false_eq_true, if_false]
  rcases this with h1 | ⟨h1, h2, h3, h4⟩
  · exact .inl h1
  · refine .inr ⟨h1, h2, fun pg hpg => ?_⟩
    have h4 := h4 pg hpg
    have hf : ∀ fuel (r : PageReader) (pg : CompressedPage),
        (PageStream.nextFuel p.codec ck fuel r).1 = some (.ok pg) →
        (PageStream.nextFuel p.codec ck fuel r).2.failed = false := by
      intro fuel
      induction fuel with
      | zero => intro r pg h; cases h
      | succ fuel ih =>
        intro r pg
        rw [PageStream.nextFuel]
        simp only
        repeat' split
        all_goals first | exact fun _ => rfl | exact ih _ _ | exact fun h => by cases h
    have hf := hf _ _ pg (h2 ▸ hpg)
    refine ⟨h3.trans hf, ?_⟩
    generalize PageStream.nextFuel p.codec ck ((r.onBytes v file s).reader.length + 2) (r.onBytes v file s) = y
      at h4 hf
    obtain ⟨a, b, c⟩ := y
    simp only at h4 hf
    rw [h4, hf]

-- the same of the stream
example :
    let r := PageReader.new [] exampleColumn (fun _ _ => true) [] 1000
    let run := fun faults => items (PageStream.nextFrom (tapeInput exampleFile)
      (Compact.protocolOf Compact.rPageHeader) true 200 200) 9
        (⟨r, false⟩, { pos := 4, sizes := [2, 1, 5], faults })
    buffersOf (run []).1 =
      [some (.ok [1#8, 2#8, 3#8, 4#8]), some (.ok [2#8, 1#8, 1#8]), some (.ok [7#8]), none] ∧
    (run []).2.2.failed = false ∧
    buffersOf (run [3]).1 = [some (.err .oos)] ∧ (run [3]).2.2.failed = true := by
  decide +kernel

/-- **C82** nothing follows an error in the stream, be it one of the reader, and the reader is not touched
again: polled again, it has ended. -/
theorem C82_stream_stops (i : Input σ) (p : Protocol Thrift.PageHeader) (ck : Bool) (calls fuel : Nat)
    (t : PageStream × σ) (e : Err) (he : (PageStream.nextFrom i p ck calls fuel t).1 = some (.err e)) :
    PageStream.nextFrom i p ck calls fuel (PageStream.nextFrom i p ck calls fuel t).2 =
      (none, (PageStream.nextFrom i p ck calls fuel t).2) := by
  suffices h : (PageStream.nextFrom i p ck calls fuel t).2.1.failed = true by
    generalize (PageStream.nextFrom i p ck calls fuel t).2 = u at h ⊢
    simp only [PageStream.nextFrom, h, if_true]
  obtain ⟨⟨r, f⟩, s⟩ := t
  cases f with
  | true => simp only [PageStream.nextFrom, if_true, reduceCtorEq] at he
  | false =>
    simp only [PageStream.nextFrom, if_false, Bool.false_eq_true] at he ⊢
    revert he
    induction fuel generalizing r s with
    | zero => intro h; cases h
    | succ fuel ih =>
      rw [PageStream.nextFuelFrom]
      simp only
      repeat' split
      all_goals first | exact fun _ => rfl | exact ih _ _ | exact fun h => by cases h

example :
    let r := PageReader.new [] exampleColumn (fun _ _ => true) [] 1000
    ((PageStream.nextFrom (tapeInput exampleFile) (Compact.protocolOf Compact.rPageHeader) true 200 200
      (⟨r, false⟩, { pos := 4, sizes := [2, 1, 5], faults := [3] })).1.map fun x => x.map' fun _ => ()) =
      some (.err .oos) := by
  decide +kernel

/-- **C82** the pages of the indexed reader are those in the bytes. -/
theorem C82_indexed (h : LawfulInput i v file) (codec : Codec Thrift.PageHeader) (ck : Bool)
    (r : IndexedReader) (s : σ) (n : Nat) :
    let x := items (IndexedReader.nextFrom i ck codec) n (r, s)
    ItemsDelivered (v.failed s) (v.failed x.2.2) x.1
      (items (IndexedReader.next codec ck) n { r with file }).1 := by
  refine items_delivered (failed := fun t => v.failed t.2)
    (R := fun (t' : _ × σ) t => t = { t'.1 with file }) ?_ n (r, s) _ rfl
  rintro ⟨r, s⟩ t rfl
  obtain ⟨h1, h2⟩ := indexed_from h codec ck r s
  rcases h2 with h2 | ⟨h2, h3⟩
  · exact .inl h2
  · exact .inr ⟨h2, h3, fun _ _ => h1⟩

-- the indexed reader, which does not read the first data page (none of its rows are selected)
example :
    let r := IndexedReader.new [] exampleColumn (examplePageLocations.map (·.1))
    let run := fun faults => items (IndexedReader.nextFrom (tapeInput exampleFile) true headerCodec) 9
      (r, { pos := 0, sizes := [7, 1, 5], faults })
    buffersOf (run []).1 =
      [some (.ok [1#8, 2#8, 3#8, 4#8]), some (.ok [7#8]), none] ∧
    (run []).2.2.failed = false ∧
    buffersOf (run [9]).1 = [some (.ok [1#8, 2#8, 3#8, 4#8]), some (.err .oos)] ∧
    (run [9]).2.2.failed = true := by
  decide +kernel

/-- **C82** for the page indexes and page locations. -/
theorem C82_indexes (h : LawfulInput i v file) (ck : Bool) (chunks : List ColumnChunkMetaData) :
    (∀ codec, Delivers v (readColumnsIndexesFrom i ck codec chunks)
      (readColumnsIndexes codec ck file chunks)) ∧
    ∀ codec, Delivers v (readPagesLocationsFrom i ck codec chunks)
      (readPagesLocations codec ck file chunks) :=
  ⟨fun codec => Delivers.columnIndexes h codec ck chunks, fun codec => Delivers.pageLocations h codec ck chunks⟩

-- the column indexes and the page locations of a file, in pieces, with and without a failure
example :
    let run := fun faults : List Nat => (readMetadata fileCodec indexedFile).bind fun fm =>
      let chunks := (fm.rowGroups.head?.map (·.columns)).getD []
      let t : Tape := { pos := 0, sizes := [9, 1, 50], faults }
      let x := readColumnsIndexesFrom (tapeInput indexedFile) true columnIndexCodec chunks t
      let y := readPagesLocationsFrom (tapeInput indexedFile) true offsetIndexCodec chunks t
      .ok (x.1.map' List.length, x.2.failed, y.1.map' List.length, y.2.failed)
    run [] = .ok (.ok 3, false, .ok 3, false) ∧ run [2] = .ok (.err .oos, true, .err .oos, true) := by
  decide +kernel

/-- **C82** for bloom filters. -/
theorem C82_filter (h : LawfulInput i v file) {p : Protocol Bloom.Header} (hp : LawfulProtocol p)
    (calls : Nat) (hcalls : file.length < calls) (offset : Option I64) :
    Delivers v (Bloom.readFilterFrom i calls p offset)
      (Bloom.readFilter (fun bytes => (p.codec.parse (2 ^ 64 - 1) bytes).1.map' fun header =>
        (header, (p.codec.parse (2 ^ 64 - 1) bytes).2)) offset file) := by
  have : (fun bytes => (p.codec.parse (2 ^ 64 - 1) bytes).1.map' fun header =>
      (header, (p.codec.parse (2 ^ 64 - 1) bytes).2)) = p.onBytes (2 ^ 64 - 1) := by
    funext bytes
    rw [Protocol.onBytes]
    rcases p.codec.parse (2 ^ 64 - 1) bytes with ⟨_ | _ | _, rest⟩ <;> rfl
  rw [this]
  exact Delivers.filter h hp calls hcalls offset

/-- The compact protocol satisfies the hypotheses. -/
example : LawfulProtocol (Compact.protocolOf Compact.rPageHeader) ∧
    SaneCodec (Compact.protocolOf Compact.rPageHeader).codec :=
  ⟨Compact.protocolOf_lawful _, Compact.codecOf_sane Compact.good_pageHeader⟩

/-- `parquet.thrift` `BloomFilterHeader`, of which `Bloom.Header` distinguishes the supported variants. -/
def bloomHeader : Compact.Repr' Bloom.Header := Compact.rStruct
  (fun h => [(1, some (Compact.rI32.toT h.numBytes)),
    (2, some (.struct (if h.algorithmIsBlock then .cons 1 (.struct .nil) .nil else .nil))),
    (3, some (.struct (.cons 1 (.struct .nil) .nil))),
    (4, some (.struct (if h.compressionIsUncompressed then .cons 1 (.struct .nil) .nil else .nil)))])
  (fun fs => do
    let numBytes ← Compact.req Compact.rI32 fs 1
    let variant := fun n => match fs.find n with
      | some (.struct (.cons 1 _ .nil)) => true
      | _ => false
    .ok { numBytes, algorithmIsBlock := variant 2, compressionIsUncompressed := variant 4 })

example : LawfulProtocol (Compact.protocolOf bloomHeader) := Compact.protocolOf_lawful _

/-- A file with a filter. -/
def bloomFile : List Byte :=
  [7#8, 7#8] ++ (Compact.codecOf bloomHeader).ser ⟨3#32, true, true⟩ ++ [1#8, 2#8, 3#8] ++ [9#8]

-- a bloom filter, in pieces, with and without a failure
example :
    let run := fun faults : List Nat => Bloom.readFilterFrom (tapeInput bloomFile) 50
      (Compact.protocolOf bloomHeader) (some 2#64) ({ pos := 1, sizes := [1, 2], faults } : Tape)
    bloomFile.length < 50 ∧ (run []).1 = .ok [1#8, 2#8, 3#8] ∧ (run []).2.failed = false ∧
    (run [5]).1 = .err .oos ∧ (run [5]).2.failed = true := by
  decide +kernel

end Pq.Props
