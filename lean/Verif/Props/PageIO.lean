import Verif.Lemmas.PageIO2
import Verif.Lemmas.ThriftCompact
import Verif.Lemmas.Statistics2
import Verif.Props.Compression
/-
C35, C36, C37: reading the pages of a column chunk.
-/
namespace Pq.Props
open Spec

/-! ### C35 -/

/-- Example pages: a dictionary, a V1 and a V2 page. -/
def pageDescriptor : Descriptor :=
  { primitiveType :=
      { fieldInfo := { name := "a", repetition := .required, id := none }
        logicalType := none, convertedType := none, physicalType := .int32 }
    maxDefLevel := 0, maxRepLevel := 0 }

def exampleDict (sorted : Bool) : CompressedPage :=
  .dict { buffer := [1#8, 2#8, 3#8, 4#8], compression := .uncompressed, numValues := 1
          uncompressedPageSize := 4, isSorted := sorted }

def exampleData (n : I32) (buffer : List Byte) : CompressedPage :=
  .data { header := .v1 { numValues := n, encoding := 8#32, definitionLevelEncoding := 3#32
                          repetitionLevelEncoding := 3#32 }
          buffer, compression := .uncompressed, uncompressedPageSize := buffer.length
          descriptor := pageDescriptor, selectedRows := none }

def exampleDataV2 (n : I32) (buffer : List Byte) : CompressedPage :=
  .data { header := .v2 { numValues := n, numNulls := 0#32, numRows := n, encoding := 0#32
                          definitionLevelsByteLength := 0#32, repetitionLevelsByteLength := 0#32
                          isCompressed := some false }
          buffer, compression := .uncompressed, uncompressedPageSize := buffer.length
          descriptor := pageDescriptor, selectedRows := none }

/-- The thrift compact protocol for page headers. -/
abbrev headerCodec : Codec Thrift.PageHeader := Compact.codecOf Compact.rPageHeader

theorem headerCodec_lawful :
    LawfulCodec headerCodec (fun x => Compact.cost (Compact.rPageHeader.toT x)) :=
  Compact.codecOf_lawful Compact.good_pageHeader (fun _ => ⟨_, rfl⟩)

theorem headerCodec_sane : SaneCodec headerCodec := Compact.codecOf_sane Compact.good_pageHeader

def examplePages : List CompressedPage :=
  [exampleDict false, exampleData 3#32 [2#8, 1#8, 1#8], exampleDataV2 2#32 [5#8, 0#8, 0#8, 0#8, 6#8, 0#8, 0#8, 0#8]]

def exampleColumn : PageMetaData :=
  { columnStart := 4, numValues := 5#64, compression := .uncompressed, descriptor := pageDescriptor }

/-- **C35 (partial)**: the pages of a column chunk, written by the page writer (followed by anything),
are read back: same kinds, headers and bytes, in order, minus those rejected by the page filter;
afterwards the reader has consumed the chunk and not a byte more, and stays exhausted. Missing: the
sortedness flag of a dictionary page and trailing pages without values (`C35_violated`). -/
theorem C35_roundtrip_partial (codec : Codec Thrift.PageHeader) (limit : Thrift.PageHeader → Nat)
    (hl : LawfulCodec codec limit) (hs : SaneCodec codec) (ck : Bool) (off : Nat)
    (pages : List CompressedPage) (specs : List PageWriteSpec) (bytes rest : List Byte)
    (hw : writePages codec off (pages.map .ok) = (.ok specs, bytes))
    (column : PageMetaData) (filter : PageFilter) (scratch : List Byte) (max : Nat)
    (hok : ∀ p ∈ pages, PageOk column.compression column.descriptor p)
    (hmax : ∀ p ∈ pages, p.buffer.length ≤ max ∧ limit (headerOf p) ≤ max)
    (hnum : column.numValues.toInt = (pages.map valuesOf).sum)
    (hlast : ∀ p, pages.getLast? = some p → 0 < valuesOf p) :
    ∃ t, Pulls (PageReader.next codec ck) (PageReader.new (bytes ++ rest) column filter scratch max)
        ((pages.filter (passes filter column.descriptor)).map fun p => .ok (readBack p)) t ∧
      t.reader = rest ∧ PageReader.next codec ck t = (none, t) := by
  obtain ⟨pages', h1, h2, h3, -⟩ := writePages_ok hw
  have : pages' = pages := by
    have := List.map_injective_iff.2 (fun a b h => by injection h : Function.Injective (Res.ok (α := CompressedPage))) h1
    exact this.symm
  subst this
  have hb : Before codec limit column.compression column.descriptor filter max rest
      (PageReader.new (bytes ++ rest) column filter scratch max) pages' := by
    refine ⟨by rw [← h2]; rfl, rfl, rfl, rfl, rfl, by simp [PageReader.new], ?_, ?_, hlast⟩
    · simp [PageReader.new, valuesSum, hnum]
    · exact fun p hp => ⟨hok p hp, h3 p hp, hmax p hp⟩
  obtain ⟨t, h4, h5⟩ := hb.pulls hl hs ck _ pages' rfl
  exact ⟨t, h4, by simpa using h5.reader, h5.next_nil ck⟩

example : (writePages headerCodec 4 (examplePages.map .ok)).1.isOk = true := by decide +kernel
example : ∀ p ∈ examplePages, PageOk exampleColumn.compression exampleColumn.descriptor p := by
  intro p hp
  simp only [examplePages, List.mem_cons, List.not_mem_nil, or_false] at hp
  rcases hp with rfl | rfl | rfl
  · rfl
  · exact ⟨rfl, rfl, by decide, by unfold knownEncoding; decide, by unfold knownEncoding; decide, by unfold knownEncoding; decide⟩
  · exact ⟨rfl, rfl, by decide, by unfold knownEncoding; decide⟩
example : ∀ p ∈ examplePages, p.buffer.length ≤ 1000 ∧
    Compact.cost (Compact.rPageHeader.toT (headerOf p)) ≤ 1000 := by decide +kernel
example : exampleColumn.numValues.toInt = (examplePages.map valuesOf).sum := by decide +kernel
example : ∀ p, examplePages.getLast? = some p → 0 < valuesOf p := by
  intro p h
  have : p = exampleDataV2 2#32 [5#8, 0#8, 0#8, 0#8, 6#8, 0#8, 0#8, 0#8] := by
    simpa [examplePages] using h.symm
  subst this
  decide

/-- A page forgetting what the file does not store. -/
def forget : Page → Page
  | .data p => .data { p with selectedRows := none }
  | .dict p => .dict { p with isSorted := false }

theorem compressPage_forget (cs : Codecs) (ck : Bool) (page : Page) (opts : CompressionOptions)
    (cp : CompressedPage) (h : compressPage cs ck page [] opts = .ok cp) :
    compressPage cs ck (forget page) [] opts = .ok (readBack cp) := by
  cases page with
  | data p =>
    obtain ⟨header, buffer, descriptor, rows⟩ := p
    obtain ⟨q, h', rfl⟩ := map'_ok _ (compressData _ _ _ _ _) _ h
    clear h
    rename' h' => h
    simp only [compressPage, forget, compressData] at h ⊢
    by_cases ho : opts ≠ .uncompressed
    · simp only [if_pos ho] at h ⊢
      cases header with
      | v1 hd =>
        simp only at h ⊢
        obtain ⟨b, h1, h⟩ := Res.bind_eq_ok.1 h
        injection h with h
        subst h
        simp only [h1, Res.ok_bind]
        rfl
      | v2 hd =>
        simp only [bind_assoc] at h ⊢
        obtain ⟨s1, h1, h⟩ := Res.bind_eq_ok.1 h
        obtain ⟨s2, h2, h⟩ := Res.bind_eq_ok.1 h
        obtain ⟨s3, h3, h⟩ := Res.bind_eq_ok.1 h
        obtain ⟨s4, h4, h⟩ := Res.bind_eq_ok.1 h
        injection h with h
        subst h
        simp only [h1, h2, h3, h4, Res.ok_bind]
        rfl
    · simp only [if_neg ho, Res.ok_bind, Res.ok.injEq] at h ⊢
      subst h
      rfl
  | dict p =>
    obtain ⟨buffer, n, sorted⟩ := p
    obtain ⟨q, h', rfl⟩ := map'_ok _ (compressDict _ _ _ _) _ h
    clear h
    rename' h' => h
    simp only [compressPage, forget, compressDict] at h ⊢
    by_cases ho : opts ≠ .uncompressed
    · simp only [if_pos ho] at h ⊢
      obtain ⟨b, h1, h⟩ := Res.bind_eq_ok.1 h
      injection h with h
      subst h
      simp only [h1, Res.ok_bind]
      rfl
    · simp only [if_neg ho, Res.ok_bind, Res.ok.injEq] at h ⊢
      subst h
      rfl

/-- **C35** end to end: compress a sequence of pages, write them, read the bytes back and decompress:
the pages come back, for every correct codec, whatever the buffers held. -/
theorem C35_pipeline (codec : Codec Thrift.PageHeader) (limit : Thrift.PageHeader → Nat)
    (hl : LawfulCodec codec limit) (hs : SaneCodec codec) (cs : Codecs) (hcs : Lawful cs) (ck : Bool)
    (opts : CompressionOptions) (pages : List Page) (cps : List CompressedPage)
    (hc : pages.map (fun p => compressPage cs ck p [] opts) = cps.map .ok)
    (hv2 : opts ≠ .uncompressed → ∀ page ∈ pages,
      ∀ p hd, page = .data p → p.header = .v2 hd → hd.isCompressed ≠ some false)
    (off : Nat) (specs : List PageWriteSpec) (bytes rest : List Byte)
    (hw : writePages codec off (cps.map .ok) = (.ok specs, bytes))
    (column : PageMetaData) (scratch : List Byte) (max : Nat)
    (hok : ∀ p ∈ cps, PageOk column.compression column.descriptor p)
    (hmax : ∀ p ∈ cps, p.buffer.length ≤ max ∧ limit (headerOf p) ≤ max)
    (hnum : column.numValues.toInt = (cps.map valuesOf).sum)
    (hlast : ∀ p, cps.getLast? = some p → 0 < valuesOf p) (caps : Nat → Nat) (buffer : List Byte) :
    observe (fun k => Decompressor.advance cs ck (PageReader.iter codec ck) (caps k)) (·.current)
        (pages.length + 1) 0
        (Decompressor.new (PageReader.new (bytes ++ rest) column (fun _ _ => true) scratch max) buffer)
      = pages.map (fun p => .ok (some (forget p))) ++ [.ok none] := by
  obtain ⟨pages', h1, h2, h3, -⟩ := writePages_ok hw
  have : pages' = cps := by
    have := List.map_injective_iff.2 (fun a b h => by injection h : Function.Injective (Res.ok (α := CompressedPage))) h1
    exact this.symm
  subst this
  have hb : Before codec limit column.compression column.descriptor (fun _ _ => true) max rest
      (PageReader.new (bytes ++ rest) column (fun _ _ => true) scratch max) pages' := by
    refine ⟨by rw [← h2]; rfl, rfl, rfl, rfl, rfl, by simp [PageReader.new], ?_, ?_, hlast⟩
    · simp [PageReader.new, valuesSum, hnum]
    · exact fun p hp => ⟨hok p hp, h3 p hp, hmax p hp⟩
  have hfil : pages'.filter (passes (fun _ _ => true) column.descriptor) = pages' := by
    rw [List.filter_eq_self]
    intro p _
    cases p <;> rfl
  have hlen : pages.length = pages'.length := by
    have := congrArg List.length hc
    simpa using this
  have hc' : (pages.map forget).map (fun p => compressPage cs ck p [] opts)
      = (pages'.map readBack).map .ok := by
    clear hv2 hw hok hmax hnum hlast h1 h2 h3 hb hfil hlen
    induction pages generalizing pages' with
    | nil => cases pages' <;> simp at hc ⊢
    | cons p ps ih =>
      cases pages' with
      | nil => simp at hc
      | cons q qs =>
        simp only [List.map_cons, List.cons.injEq] at hc ⊢
        exact ⟨compressPage_forget cs ck p opts q hc.1, ih _ hc.2⟩
  have key := C34_pipeline cs hcs ck (PageReader.iter codec ck) _
    (Before.serves hl hs ck column.compression column.descriptor (fun _ _ => true) max rest)
    (PageReader.new (bytes ++ rest) column (fun _ _ => true) scratch max) opts (pages.map forget)
    (pages'.map readBack) hc' (by
      intro ho page hp p hd e1 e2
      obtain ⟨q, hq, rfl⟩ := List.mem_map.1 hp
      cases q with
      | data q =>
        injection e1 with e1
        exact hv2 ho _ hq q hd rfl (by rw [← e1] at e2; exact e2)
      | dict q => cases e1)
    ⟨pages', hb, by rw [hfil, List.map_map]; rfl⟩ caps buffer
  simpa [hlen, Function.comp_def] using key

/-- The example runs: with a filter that keeps only V2 data pages. -/
example :
    let r := PageReader.new ((writePages headerCodec 4 (examplePages.map .ok)).2 ++ [9#8]) exampleColumn
      (fun _ h => match h with | .v2 _ => true | .v1 _ => false) [] 1000
    let r1 := PageReader.next headerCodec true r
    let r2 := PageReader.next headerCodec true r1.2
    let r3 := PageReader.next headerCodec true r2.2
    r1.1 = some (.ok (exampleDict false)) ∧
    r2.1 = some (.ok (exampleDataV2 2#32 [5#8, 0#8, 0#8, 0#8, 6#8, 0#8, 0#8, 0#8])) ∧
    r3.1 = none ∧ r3.2.reader = [9#8] := by decide +kernel

/-- The hypotheses of the pipeline theorem: a V1 page and a V2 page, compressed by the toy codec. -/
def pipelinePages : List Page := [exampleV1 [1#8, 2#8, 3#8], exampleV2 (some true)]
def pipelineCompressed : List CompressedPage :=
  pipelinePages.filterMap fun p => match compressPage toyCodecs true p [] .snappy with
    | .ok cp => some cp
    | _ => none
example : pipelinePages.map (fun p => compressPage toyCodecs true p [] .snappy)
    = pipelineCompressed.map .ok := by decide +kernel
example : (writePages headerCodec 4 (pipelineCompressed.map .ok)).1.isOk = true ∧
    (pipelineCompressed.map valuesOf).sum = 6 ∧
    (∀ p ∈ pipelineCompressed, p.buffer.length ≤ 1000 ∧
      Compact.cost (Compact.rPageHeader.toT (headerOf p)) ≤ 1000) := by decide +kernel
example :
    observe (fun _ => Decompressor.advance toyCodecs true (PageReader.iter headerCodec true) 16)
        (·.current) 3 0
        (Decompressor.new (PageReader.new
          ((writePages headerCodec 4 (pipelineCompressed.map .ok)).2 ++ [9#8])
          { columnStart := 4, numValues := 6#64, compression := .snappy, descriptor := exampleDescriptor }
          (fun _ _ => true) [3#8] 1000) [8#8])
      = [.ok (some (exampleV1 [1#8, 2#8, 3#8])), .ok (some (exampleV2 (some true))), .ok none] := by
  decide +kernel

/-- **C35 is violated** in two ways: a dictionary page marked as sorted is read back as unsorted; a
last page without values (here zero values, 1 byte) is not read back, and its bytes stay in the
reader. -/
theorem C35_violated :
    (let w := (writePages headerCodec 4 [.ok (exampleDict true), .ok (exampleData 5#32 [1#8])]).2
     (PageReader.next headerCodec true (PageReader.new w exampleColumn (fun _ _ => true) [] 100)).1
       = some (.ok (exampleDict false)) ∧ exampleDict true ≠ exampleDict false) ∧
    (let w := (writePages headerCodec 4 [.ok (exampleData 5#32 [1#8]), .ok (exampleData 0#32 [2#8])]).2
     let r1 := PageReader.next headerCodec true (PageReader.new w exampleColumn (fun _ _ => true) [] 100)
     r1.1 = some (.ok (exampleData 5#32 [1#8])) ∧
     (PageReader.next headerCodec true r1.2).1 = none ∧
     (PageReader.next headerCodec true r1.2).2.reader =
       pageBytes headerCodec (exampleData 0#32 [2#8])) := by decide +kernel

/-! ### C36 -/

/-- A header announcing the given sizes. -/
def exampleHeader (uncompressed compressed : I32) : Thrift.PageHeader :=
  { type := 0#32, uncompressedPageSize := uncompressed, compressedPageSize := compressed
    dataPageHeader := some { numValues := 5#32, encoding := 0#32, definitionLevelEncoding := 3#32
                             repetitionLevelEncoding := 3#32 } }

def exampleReader (uncompressed compressed : I32) (filter : PageFilter) : PageReader :=
  PageReader.new (headerCodec.ser (exampleHeader uncompressed compressed) ++ [1#8, 2#8]) exampleColumn
    filter [] 1000

/-- **C36** the limits, for any bytes, any thrift codec and any sequence of calls: every buffer size
ever reserved is at most the configured maximum, and so is every page; a delivered data page passes
the filter; the reader stops only when the announced number of values has been seen. -/
theorem C36_limits (codec : Codec Thrift.PageHeader) (ck : Bool) (reader : List Byte)
    (column : PageMetaData) (filter : PageFilter) (scratch : List Byte) (max : Nat) (r : PageReader)
    (hr : Reaches (PageReader.next codec ck) (PageReader.new reader column filter scratch max) r) :
    (∀ n ∈ r.reserved, n ≤ max) ∧
    (∀ p, (PageReader.next codec ck r).1 = some (.ok p) →
      p.buffer.length ≤ max ∧ p.compression = column.compression ∧
      passes filter column.descriptor p = true) ∧
    ((PageReader.next codec ck r).1 = none →
      column.numValues.toInt ≤ (PageReader.next codec ck r).2.seenNumValues.toInt) ∧
    (column.numValues.toInt ≤ r.seenNumValues.toInt → PageReader.next codec ck r = (none, r)) := by
  have inv : ∀ s t : PageReader, Reaches (PageReader.next codec ck) s t →
      SameConfig (PageReader.new reader column filter scratch max) s → (∀ n ∈ s.reserved, n ≤ max) →
      SameConfig (PageReader.new reader column filter scratch max) t ∧ (∀ n ∈ t.reserved, n ≤ max) := by
    intro s t h
    induction h with
    | refl s => exact fun a b => ⟨a, b⟩
    | step h ih =>
      rename_i s t
      intro a b
      obtain ⟨h1, h2, -⟩ := nextFuel_spec (codec := codec) ck (s.reader.length + 2) s
      refine ih (a.trans h1) fun n hn => ?_
      rcases h2 n hn with h | h
      · exact b n h
      · rw [a.1] at h; exact h
  obtain ⟨hcfg, hres⟩ := inv _ _ hr (SameConfig.refl _) (by simp [PageReader.new])
  obtain ⟨h1, h2, h3, h4⟩ := nextFuel_spec (codec := codec) ck (r.reader.length + 2) r
  have htot : r.totalNumValues = column.numValues := hcfg.2.1
  have hstop : column.numValues.toInt ≤ r.seenNumValues.toInt →
      PageReader.next codec ck r = (none, r) := by
    intro h
    rw [← htot] at h
    rw [PageReader.next, PageReader.nextFuel, nextPage]
    simp only [if_pos h]
  refine ⟨hres, ?_, ?_, hstop⟩
  · intro p hp
    obtain ⟨a, b, e⟩ := h3 p hp
    rw [hcfg.1] at a
    rw [hcfg.2.2.2.2] at b
    rw [hcfg.2.2.1, hcfg.2.2.2.1] at e
    exact ⟨a, b, e⟩
  · intro h
    have := h4 h
    rw [h1.2.1, htot] at this
    exact this

example : Reaches (PageReader.next headerCodec true)
    (PageReader.new [1#8, 2#8] exampleColumn (fun _ _ => true) [] 100)
    (PageReader.next headerCodec true
      (PageReader.new [1#8, 2#8] exampleColumn (fun _ _ => true) [] 100)).2 := .step (.refl _)

/-- **C36** bad sizes, for any reader with values to come whose next bytes parse as a valid header: a
negative size is an error, a size above the maximum is an allocation error, a truncated page is an
error. (`headerValues` fits the counter unless 2^63 values have been announced.) -/
theorem C36_errors (codec : Codec Thrift.PageHeader) (ck : Bool) (r : PageReader)
    (h : Thrift.PageHeader) (dh : Option DataPageHeader) (rest : List Byte)
    (hp : codec.parse r.maxPageSize r.reader = (.ok h, rest)) (hv : ValidHeader h dh)
    (htodo : r.seenNumValues.toInt < r.totalNumValues.toInt)
    (hseen : -(2 ^ 62) ≤ r.seenNumValues.toInt ∧ r.seenNumValues.toInt < 2 ^ 62) :
    (h.compressedPageSize.toInt < 0 → (PageReader.next codec ck r).1 = some (.err .oos)) ∧
    ((r.maxPageSize : Int) < h.compressedPageSize.toInt →
      (PageReader.next codec ck r).1 = some (.err .wouldOverAllocate)) ∧
    (h.compressedPageSize.toInt ≤ r.maxPageSize → (rest.length : Int) < h.compressedPageSize.toInt →
      (PageReader.next codec ck r).1 = some (.err .oos)) := by
  have hg := (getPageHeader_iff h dh).2 hv
  have hb := headerValues_bound dh
  obtain ⟨s, hs, -⟩ := addI64_toInt ck (a := r.seenNumValues) (b := headerValues dh)
    (by omega) (by omega)
  have hnext : ∀ e, (buildPage codec ck { r with scratch := [] }).1 = .err e →
      (PageReader.next codec ck r).1 = some (.err e) := by
    intro e he
    rw [PageReader.next, PageReader.nextFuel, nextPage]
    simp only [if_neg (by omega : ¬ r.totalNumValues.toInt ≤ r.seenNumValues.toInt), he,
      PageReader.wants, if_true]
  have hpos : 0 ≤ h.compressedPageSize.toInt →
      toUsize h.compressedPageSize = .ok h.compressedPageSize.toInt.toNat := by
    intro hx
    rw [toUsize, if_pos hx]
  refine ⟨fun hn => ?_, fun hn => ?_, fun hn hn' => ?_⟩
  · have hu : toUsize h.compressedPageSize = .err .oos := by
      rw [toUsize, if_neg (by omega)]
    refine hnext _ ?_
    rw [buildPage]
    simp only [hp, hg, hs, hu]
  · refine hnext _ ?_
    rw [buildPage]
    simp only [hp, hg, hs, hpos (by omega)]
    rw [if_pos (by omega)]
  · refine hnext _ ?_
    rw [buildPage]
    simp only [hp, hg, hs, hpos (by omega)]
    rw [if_neg (by omega), if_pos (by simp only [List.length_take]; omega)]

/-- The hypotheses of `C36_errors`, with each of the three conclusions. -/
example : ∀ size : I32,
    headerCodec.parse 1000 (exampleReader 0#32 size (fun _ _ => true)).reader
      = (.ok (exampleHeader 0#32 size), [1#8, 2#8]) :=
  fun size => headerCodec_lawful.roundtrip (exampleHeader 0#32 size) [1#8, 2#8] 1000 (by
    show 0 ≤ 1000
    decide)
example : ValidHeader (exampleHeader 0#32 7#32) (some (.v1
    { numValues := 5#32, encoding := 0#32, definitionLevelEncoding := 3#32
      repetitionLevelEncoding := 3#32 })) := by
  refine Or.inl ⟨rfl, _, rfl, rfl, ?_, ?_, ?_⟩ <;> (unfold knownEncoding; decide)
example :
    (PageReader.next headerCodec true (exampleReader 0#32 (-1#32) (fun _ _ => true))).1 = some (.err .oos) ∧
    (PageReader.next headerCodec true (exampleReader 0#32 1001#32 (fun _ _ => true))).1
      = some (.err .wouldOverAllocate) ∧
    (PageReader.next headerCodec true (exampleReader 0#32 3#32 (fun _ _ => true))).1
      = some (.err .oos) ∧
    (PageReader.next headerCodec true (exampleReader 0#32 2#32 (fun _ _ => true))).1.isSome = true := by
  decide +kernel

/-- **C36** no panic, on any bytes: without overflow checks always; with them as long as the counter
of values has room for what the remaining bytes can announce. -/
theorem C36_no_panic (codec : Codec Thrift.PageHeader) (hs : SaneCodec codec) (ck : Bool)
    (r : PageReader)
    (hroom : ck = true → -(2 ^ 62) ≤ r.seenNumValues.toInt ∧ r.seenNumValues.toInt < 2 ^ 62 ∧
      r.reader.length < 2 ^ 30) :
    (PageReader.next codec ck r).1 ≠ some .panic := by
  refine nextFuel_safe hs ck _ r (by omega) fun h => ?_
  have := hroom h
  push_cast
  constructor <;> omega

example : SaneCodec headerCodec ∧
    -(2 ^ 62) ≤ (exampleReader 0#32 3#32 (fun _ _ => true)).seenNumValues.toInt ∧
    (exampleReader 0#32 3#32 (fun _ _ => true)).seenNumValues.toInt < 2 ^ 62 ∧
    (exampleReader 0#32 3#32 (fun _ _ => true)).reader.length < 2 ^ 30 :=
  ⟨headerCodec_sane, by decide +kernel, by decide +kernel, by decide +kernel⟩

/-- **C36** for the asynchronous reader: as long as the synchronous reader reports no error, the
stream delivers the same page, or ends, and is left at the same place. -/
theorem C36_stream (codec : Codec Thrift.PageHeader) (ck : Bool) (r : PageReader) :
    ((PageReader.next codec ck r).1 = none →
      (PageStream.next codec ck ⟨r, false⟩).1 = none ∧
      (PageStream.next codec ck ⟨r, false⟩).2.inner.reader = (PageReader.next codec ck r).2.reader) ∧
    (∀ p, (PageReader.next codec ck r).1 = some (.ok p) →
      (PageStream.next codec ck ⟨r, false⟩).1 = some (.ok p) ∧
      (PageStream.next codec ck ⟨r, false⟩).2.failed = false ∧
      (PageStream.next codec ck ⟨r, false⟩).2.inner.reader = (PageReader.next codec ck r).2.reader ∧
      (PageStream.next codec ck ⟨r, false⟩).2.inner.seenNumValues =
        (PageReader.next codec ck r).2.seenNumValues) := by
  obtain ⟨h1, h2⟩ := stream_nextFuel (codec := codec) ck (r.reader.length + 2) r r rfl
  refine ⟨fun h => ?_, fun p h => ?_⟩
  · obtain ⟨a, -, b⟩ := h1 h
    exact ⟨a, b⟩
  · obtain ⟨a, b, e⟩ := h2 p h
    refine ⟨a, b, ?_, ?_⟩
    · exact (congrArg PageReader.reader e :)
    · exact (congrArg PageReader.seenNumValues e :)

/-- **C36** nothing follows an error in the stream: polled again, and again, it has ended. -/
theorem C36_stream_stops (codec : Codec Thrift.PageHeader) (ck : Bool) (s : PageStream) (e : Err)
    (he : (PageStream.next codec ck s).1 = some (.err e)) :
    PageStream.next codec ck (PageStream.next codec ck s).2 = (none, (PageStream.next codec ck s).2) := by
  suffices h : (PageStream.next codec ck s).2.failed = true by
    generalize (PageStream.next codec ck s).2 = t at h ⊢
    simp only [PageStream.next, h, if_true]
  by_cases hf : s.failed = true
  · simp only [PageStream.next, hf, if_true, reduceCtorEq] at he
  · simp only [PageStream.next, hf, if_false, Bool.false_eq_true] at he ⊢
    exact stream_failed ck _ _ e he

example :
    (PageStream.next headerCodec true ⟨exampleReader 0#32 (-1#32) (fun _ _ => true), false⟩).1
      = some (.err .oos) := by
  decide +kernel

/-- **C34** `swap_buffer` of the page reader exchanges the reader's buffer with the one given, and what
is read afterwards does not depend on it; a page takes the buffer, the end leaves it. -/
theorem C34_swap (codec : Codec Thrift.PageHeader) (ck : Bool) (r : PageReader) (b : List Byte) :
    let it := PageReader.iter codec ck
    (it.swap r b).1 = r.scratch ∧ (it.swap r b).2 = { r with scratch := b } ∧
    (it.next (it.swap r b).2).1 = (it.next r).1 ∧
    ((it.next r).1 ≠ none → (it.next (it.swap r b).2).2 = (it.next r).2) ∧
    ((it.next r).1 = none → (it.next r).2.reader = (it.next (it.swap r b).2).2.reader) := by
  refine ⟨rfl, rfl, ?_⟩
  simp only [PageReader.iter, PageReader.swap, PageReader.next, PageReader.nextFuel]
  rcases nextPage codec ck { r with scratch := [] } with ⟨_ | page, r'⟩
  · exact ⟨rfl, fun h => (h rfl).elim, fun _ => rfl⟩
  · exact ⟨rfl, fun _ => rfl, fun _ => rfl⟩

/-- **C36 is violated** in two ways: the uncompressed size (which sizes the decompression buffer) is
not limited - a page of 2 bytes announcing 2^31 - 1 is delivered under a limit of 1000; and the
stream skips a filtered page without noticing that it is truncated, or larger than the maximum, where
the synchronous reader reports an error. -/
theorem C36_violated :
    (∃ p, (PageReader.next headerCodec true
        (exampleReader 2147483647#32 2#32 (fun _ _ => true))).1 = some (.ok p) ∧
      p.uncompressedSize = 2147483647) ∧
    (PageReader.next headerCodec true (exampleReader 0#32 3#32 (fun _ _ => false))).1
      = some (.err .oos) ∧
    (PageStream.next headerCodec true ⟨exampleReader 0#32 3#32 (fun _ _ => false), false⟩).1 = none ∧
    (PageReader.next headerCodec true (exampleReader 0#32 2000#32 (fun _ _ => false))).1
      = some (.err .wouldOverAllocate) ∧
    (PageStream.next headerCodec true ⟨exampleReader 0#32 2000#32 (fun _ _ => false), false⟩).1
      = none := by
  refine ⟨⟨.data { header := .v1 { numValues := 5#32, encoding := 0#32
                                   definitionLevelEncoding := 3#32
                                   repetitionLevelEncoding := 3#32 }
                   buffer := [1#8, 2#8], compression := .uncompressed
                   uncompressedPageSize := 2147483647, descriptor := pageDescriptor
                   selectedRows := none }, ?_, rfl⟩, ?_, ?_, ?_, ?_⟩ <;> decide +kernel

/-! ### C37 -/

/-- An example file: magic, dictionary, two data pages. -/
def exampleFile : List Byte :=
  [80#8, 65#8, 82#8, 49#8] ++ pageBytes headerCodec (exampleDict false) ++
    pageBytes headerCodec (exampleData 3#32 [2#8, 1#8, 1#8]) ++
    pageBytes headerCodec (exampleData 2#32 [7#8])

def examplePageLocations : List (FilteredPage × CompressedPage) :=
  let a := 4 + (pageBytes headerCodec (exampleDict false)).length
  let b := (pageBytes headerCodec (exampleData 3#32 [2#8, 1#8, 1#8])).length
  [({ start := a, length := b, selectedRows := [], numRows := 3 }, exampleData 3#32 [2#8, 1#8, 1#8]),
   ({ start := a + b, length := (pageBytes headerCodec (exampleData 2#32 [7#8])).length
      selectedRows := [⟨1, 1⟩], numRows := 2 }, exampleData 2#32 [7#8])]

/-- **C37**: if the page locations point at pages (`pairs`: location and page), the indexed reader
delivers exactly the pages with a non-empty selection, in order and with their selection, preceded
by the dictionary page iff bytes of the column precede the first location. -/
theorem C37_indexed (codec : Codec Thrift.PageHeader) (limit : Thrift.PageHeader → Nat)
    (hl : LawfulCodec codec limit) (ck : Bool) (file : List Byte) (column : PageMetaData)
    (pairs : List (FilteredPage × CompressedPage)) (dict : CompressedDictPage)
    (hat : ∀ x ∈ pairs,
      At codec limit column.compression column.descriptor file x.1.start x.1.length x.2)
    (hstart : ∀ x, pairs.head? = some x → column.columnStart ≤ x.1.start)
    (hdict : ∀ x, pairs.head? = some x → column.columnStart < x.1.start →
      At codec limit column.compression column.descriptor file column.columnStart
        (x.1.start - column.columnStart) (.dict dict)) :
    ∃ t, Pulls (IndexedReader.next codec ck) (IndexedReader.new file column (pairs.map (·.1)))
      ((dictFirst column.columnStart (pairs.map (·.1)) dict ++
        (pairs.filter fun x => x.1.selectedRows ≠ []).map
          fun x => readSelected x.1.selectedRows x.2).map .ok) t := by
  rw [← selected_eq]
  let r : IndexedReader := { IndexedReader.new file column (pairs.map (·.1)) with maybeDict := false }
  have hdata : Pulls (IndexedReader.next codec ck) r ((selected pairs).map .ok) { r with pages := [] } :=
    data_pulls hl ck pairs.length pairs (Nat.le_refl _) r rfl rfl hat
  have hfirst : ∀ (h : r.readDict codec ck = none),
      Pulls (IndexedReader.next codec ck) (IndexedReader.new file column (pairs.map (·.1)))
        ((selected pairs).map .ok) { r with pages := [] } := by
    intro h
    have e : IndexedReader.next codec ck (IndexedReader.new file column (pairs.map (·.1)))
        = IndexedReader.next codec ck r := by
      have h' : IndexedReader.readDict codec ck
          { IndexedReader.new file column (pairs.map (·.1)) with maybeDict := false } = none := h
      rw [IndexedReader.next]
      simp only [h']
      rfl
    generalize hx : (selected pairs).map Res.ok = xs at hdata
    generalize ht : ({ r with pages := [] } : IndexedReader) = t at hdata
    cases hdata with
    | done h1 => exact .done (by rw [e, h1])
    | item h1 h2 => exact .item (by rw [e, h1]) h2
  cases hp : pairs with
  | nil =>
    subst hp
    exact ⟨_, hfirst rfl⟩
  | cons x xs =>
    have hx : pairs.head? = some x := by rw [hp]; rfl
    have hs := hstart x hx
    have hhead : r.pages.head? = some x.1 := by
      show (pairs.map (·.1)).head? = _
      rw [hp]; rfl
    have hsub : Deser.usub ck x.1.start r.columnStart = .ok (x.1.start - column.columnStart) := by
      show Deser.usub ck x.1.start column.columnStart = _
      rw [Deser.usub, if_pos hs]
    rw [show dictFirst column.columnStart ((x :: xs).map (·.1)) dict =
      if column.columnStart < x.1.start then [readBack (.dict dict)] else [] from rfl, ← hp]
    by_cases hlt : column.columnStart < x.1.start
    · rw [if_pos hlt]
      refine ⟨_, .item (s' := r) ?_ hdata⟩
      have hrd : r.readDict codec ck = some (.ok (readBack (.dict dict))) := by
        rw [IndexedReader.readDict, hhead]
        simp only [hsub]
        rw [if_pos (by omega)]
        congr 1
        exact readDictPage_at hl (hdict x hx hlt)
      have h' : IndexedReader.readDict codec ck
          { IndexedReader.new file column (pairs.map (·.1)) with maybeDict := false }
          = some (.ok (readBack (.dict dict))) := hrd
      rw [IndexedReader.next]
      simp only [h']
      rfl
    · rw [if_neg hlt]
      refine ⟨_, hfirst ?_⟩
      rw [IndexedReader.readDict, hhead]
      simp only [hsub]
      rw [if_neg (by omega)]

example : ∀ x ∈ examplePageLocations,
    At headerCodec (fun x => Compact.cost (Compact.rPageHeader.toT x)) exampleColumn.compression
      exampleColumn.descriptor exampleFile x.1.start x.1.length x.2 := by
  intro x hx
  simp only [examplePageLocations, List.mem_cons, List.not_mem_nil, or_false] at hx
  rcases hx with rfl | rfl
  · exact ⟨by decide +kernel, by decide +kernel, by decide +kernel, ⟨by decide, by decide, fun _ h => by cases h⟩, rfl,
      fun q h => by injection h with h; subst h; rfl⟩
  · exact ⟨by decide +kernel, by decide +kernel, by decide +kernel, ⟨by decide, by decide, fun _ h => by cases h⟩, rfl,
      fun q h => by injection h with h; subst h; rfl⟩
example :
    At headerCodec (fun x => Compact.cost (Compact.rPageHeader.toT x)) exampleColumn.compression
      exampleColumn.descriptor exampleFile exampleColumn.columnStart
      (pageBytes headerCodec (exampleDict false)).length (exampleDict false) :=
  ⟨by decide +kernel, by decide +kernel, by decide +kernel,
    ⟨by decide, by decide, fun _ h => by injection h with h; subst h; decide⟩, rfl,
    fun q h => by cases h⟩

/-- **C37**, whatever the file: if bytes of the column precede the first location, the first item of
the indexed reader is made of them, and is a dictionary page or an error: never a data page. -/
theorem C37_dictionary (codec : Codec Thrift.PageHeader) (ck : Bool) (file : List Byte)
    (column : PageMetaData) (pages : List FilteredPage) (x : FilteredPage)
    (hx : pages.head? = some x) (hlt : column.columnStart < x.start) :
    ∃ r, (IndexedReader.next codec ck (IndexedReader.new file column pages)).1 = some r ∧
      ∀ p, r = .ok p → ∃ d, p = .dict d := by
  have hs : Deser.usub ck x.start column.columnStart = .ok (x.start - column.columnStart) := by
    rw [Deser.usub, if_pos (by omega)]
  have h' : IndexedReader.readDict codec ck
      { IndexedReader.new file column pages with maybeDict := false } = some (readDictPage codec file
        column.columnStart (x.start - column.columnStart) column.compression column.descriptor) := by
    rw [IndexedReader.readDict]
    simp only [IndexedReader.new, hx, hs]
    rw [if_pos (by omega)]
  refine ⟨readDictPage codec file column.columnStart (x.start - column.columnStart) column.compression
    column.descriptor, ?_, ?_⟩
  · rw [IndexedReader.next]
    simp only [h']
    rfl
  · intro p hp
    rw [readDictPage] at hp
    obtain ⟨⟨header, data⟩, -, hp⟩ := Res.bind_eq_ok.1 hp
    obtain ⟨page, -, hp⟩ := Res.bind_eq_ok.1 hp
    split at hp
    · injection hp with hp
      exact ⟨_, hp.symm⟩
    · cases hp

/-- A dictionary page where it should be, and a column said to start at its first data page. -/
example : exampleColumn.columnStart < 4 + (pageBytes headerCodec (exampleDict false)).length ∧
    ((IndexedReader.next headerCodec true (IndexedReader.new exampleFile exampleColumn
      (examplePageLocations.map (·.1)))).1.map fun r => r.map' fun p => p.buffer) =
        some (.ok (exampleDict false).buffer) ∧
    ((IndexedReader.next headerCodec true (IndexedReader.new exampleFile
      { exampleColumn with columnStart := 4 + (pageBytes headerCodec (exampleDict false)).length }
      ((examplePageLocations.map (·.1)).drop 1))).1.map fun r => r.map' fun p => p.buffer) =
        some (.err .oos) := by
  decide +kernel

/-- **C37 is violated** by files whose locations do not fit the column: with overflow checks a first
location before the column start panics; and the sizes in the header are not compared with the
location, so that the page delivered may have fewer bytes than its header says. -/
theorem C37_violated :
    (IndexedReader.next headerCodec true (IndexedReader.new exampleFile
      { exampleColumn with columnStart := 9 }
      [{ start := 4, length := 10, selectedRows := [⟨0, 1⟩], numRows := 1 }])).1 = some .panic ∧
    (∃ p, (IndexedReader.next headerCodec true (IndexedReader.new exampleFile exampleColumn
        [{ start := 4, length := (pageBytes headerCodec (exampleDict false)).length - 3
           selectedRows := [⟨0, 1⟩], numRows := 1 }])).1 = some (.ok p) ∧
      p.buffer = [1#8] ∧ (exampleDict false).buffer.length = 4) := by
  refine ⟨by decide +kernel,
    .dict { buffer := [1#8], compression := .uncompressed, numValues := 1
            uncompressedPageSize := 4, isSorted := false }, by decide +kernel, rfl, rfl⟩

end Pq.Props
