import Verif.Lemmas.Compression2
import Verif.Lemmas.Util
/-
C33, C34, C53: page compression, buffer recycling, Hadoop LZ4 frames.
-/
namespace Pq.Props
open Spec

/-- A toy codec: every format stores a marker byte and the data. -/
def toyCodecs : Codecs where
  active := fun _ => true
  encStream := fun _ _ x => .ok (7#8 :: x)
  maxLen := fun _ n => .ok (n + 1)
  encBlock := fun _ x n => if x.length < n then .ok (7#8 :: x) else .err .oos
  readExact := fun _ i o =>
    if o.length ≤ (i.drop 1).length then (.ok (), (i.drop 1).take o.length) else (.err .oos, o)
  snappyLen := fun i => .ok (i.length - 1)
  decBlock := fun _ i o =>
    if (i.drop 1).length ≤ o.length then
      (.ok (i.drop 1).length, i.drop 1 ++ o.drop (i.drop 1).length)
    else (.err .oos, o)

theorem toyCodecs_lawful : Lawful toyCodecs where
  stream := by
    intro c lvl x y h out ho
    simp only [toyCodecs, Res.ok.injEq] at h ⊢
    subst h
    simp [ho]
  block := by
    intro c x n y h out ho
    simp only [toyCodecs] at h ⊢
    split at h
    · simp only [Res.ok.injEq] at h
      subst h
      simp [ho]
    · simp at h
  snappyLen := by
    intro x n y h
    simp only [toyCodecs] at h ⊢
    split at h
    · simp only [Res.ok.injEq] at h
      subst h
      simp
    · simp at h

theorem toyCodecs_pure : Spec.Pure toyCodecs where
  stream := by
    intro c i o o' h
    simp only [toyCodecs, h]
    split <;> simp
  block := by
    intro c i n
    simp only [toyCodecs]
    by_cases h : (i.drop 1).length ≤ n
    · refine Or.inr ⟨i.drop 1, h, ?_⟩
      intro o ho
      rw [if_pos (by omega)]
    · refine Or.inl ⟨.err .oos, by simp, ?_⟩
      intro o ho
      rw [if_neg (by omega)]

/-! ### C33 -/

/-- **C33** except for V2 pages flagged as not compressed: whatever `compress` makes of a page (with
an empty scratch buffer), `decompress` turns back into the page, with every header field, for every
correct codec and every buffer content and capacity. -/
theorem C33_roundtrip_partial (cs : Codecs) (hl : Lawful cs) (ck : Bool) (page : Page)
    (opts : CompressionOptions) (cp : CompressedPage)
    (h : compressPage cs ck page [] opts = .ok cp)
    (hv2 : opts ≠ .uncompressed →
      ∀ p hd, page = .data p → p.header = .v2 hd → hd.isCompressed ≠ some false)
    (cap : Nat) (buf : List Byte) :
    decompressPage cs ck cp cap buf = .ok page ∧ cp.uncompressedSize = page.buffer.length ∧
      cp.compression = opts.codec := by
  by_cases ho : opts = .uncompressed
  · subst ho
    cases page with
    | data p =>
      simp [compressPage, compressData, Res.map'] at h
      rw [← h]
      exact ⟨rfl, rfl, rfl⟩
    | dict p =>
      simp [compressPage, compressDict, Res.map'] at h
      rw [← h]
      exact ⟨rfl, rfl, rfl⟩
  · obtain ⟨h1, h2, h3, h4⟩ := compressPage_into cs hl ck page opts ho cp h (hv2 ho)
    refine ⟨?_, h2, ?_⟩
    · rw [decompressPage_of_into cs ck cp cap buf page.buffer h1 h4, h3]
      cases page <;> rfl
    · cases page with
      | data p =>
        simp only [compressPage] at h
        cases hc : compressData cs ck p [] opts with
        | ok x =>
          rw [hc] at h
          simp only [Res.map', Res.ok.injEq] at h
          subst h
          unfold compressData at hc
          dsimp only at hc
          rw [if_pos ho] at hc
          cases hh : p.header with
          | v1 hd =>
            rw [hh] at hc
            simp only [Res.bind_eq_ok, Res.ok.injEq] at hc
            obtain ⟨_, _, hc⟩ := hc
            rw [← hc]; rfl
          | v2 hd =>
            rw [hh] at hc
            simp only [Res.bind_eq_ok, Res.ok.injEq] at hc
            obtain ⟨_, _, _, _, _, _, _, _, hc⟩ := hc
            rw [← hc]; rfl
        | err e => rw [hc] at h; simp [Res.map'] at h
        | panic => rw [hc] at h; simp [Res.map'] at h
      | dict p =>
        simp only [compressPage] at h
        cases hc : compressDict cs p [] opts with
        | ok x =>
          rw [hc] at h
          simp only [Res.map', Res.ok.injEq] at h
          subst h
          unfold compressDict at hc
          dsimp only at hc
          rw [if_pos ho] at hc
          simp only [Res.bind_eq_ok, Res.ok.injEq] at hc
          obtain ⟨_, _, hc⟩ := hc
          rw [← hc]; rfl
        | err e => rw [hc] at h; simp [Res.map'] at h
        | panic => rw [hc] at h; simp [Res.map'] at h

/-- A descriptor for the examples. -/
def exampleDescriptor : Descriptor :=
  { primitiveType := { fieldInfo := { name := "c", repetition := .optional, id := none }
                       logicalType := none, convertedType := none, physicalType := .int32 }
    maxDefLevel := 1#16, maxRepLevel := 0#16 }

/-- A V2 page whose buffer has two bytes of levels and three of values. -/
def exampleV2 (isCompressed : Option Bool) : Page :=
  .data { header := .v2 { numValues := 3#32, numNulls := 0#32, numRows := 3#32, encoding := 0#32
                          definitionLevelsByteLength := 2#32, repetitionLevelsByteLength := 0#32
                          isCompressed }
          buffer := [1#8, 2#8, 30#8, 40#8, 50#8], descriptor := exampleDescriptor
          selectedRows := none }

/-- A V1 page. -/
def exampleV1 (content : List Byte) : Page :=
  .data { header := .v1 { numValues := 3#32, encoding := 0#32, definitionLevelEncoding := 3#32
                          repetitionLevelEncoding := 3#32 }
          buffer := content, descriptor := exampleDescriptor, selectedRows := none }

example : (compressPage toyCodecs true (exampleV2 (some true)) [] .snappy).map' (·.buffer)
    = .ok [1#8, 2#8, 7#8, 30#8, 40#8, 50#8] := by decide +kernel
example : (compressPage toyCodecs true (exampleV2 none) [] .snappy >>= fun cp =>
    decompressPage toyCodecs true cp 3 [9#8, 9#8]) = .ok (exampleV2 none) := by decide +kernel

/-- **C33 is violated** by a V2 page whose header says `is_compressed = false`: the writer compresses
the values all the same, and the reader then rejects the page; `compress` called with a non-empty
buffer leaves its content in the page. -/
theorem C33_violated :
    (compressPage toyCodecs true (exampleV2 (some false)) [] .snappy >>= fun cp =>
      decompressPage toyCodecs true cp 0 []) = .err .oos ∧
    (compressPage toyCodecs true (exampleV1 [1#8]) [5#8] .snappy).map' (·.buffer)
      = .ok [5#8, 7#8, 1#8] := by
  decide +kernel

/-- **C33**: pages of unsupported or inactive codecs are refused, never mangled; asked to compress or decompress without
a codec, the functions of the library refuse as well, and leave the output alone. -/
theorem C33_unsupported (cs : Codecs) (ck : Bool) (p : DictPage) (buf : List Byte) :
    compressPage cs ck (.dict p) buf .lzo = .err .featureNotSupported ∧
    compressPage cs ck (.dict p) buf .lz4 = .err .featureNotSupported ∧
    (∀ lvl, cs.active .gzip = false →
      compressPage cs ck (.dict p) buf (.gzip lvl) = .err .featureNotActive) ∧
    (cs.active .snappy = false → compressPage cs ck (.dict p) buf .snappy = .err .featureNotActive) ∧
    (∀ input output, compressBytes cs .uncompressed input output = .err .invalidParameter ∧
      decompressBytes cs .uncompressed input output = (.err .invalidParameter, output) ∧
      decompressBytes cs .lzo input output = (.err .featureNotSupported, output)) := by
  refine ⟨rfl, rfl, fun lvl h => ?_, fun h => ?_, fun _ _ => ⟨rfl, rfl, rfl⟩⟩ <;>
    simp [compressPage, compressDict, compressBytes, h, Res.map']

example : ({ toyCodecs with active := fun _ => false } : Codecs).active .gzip = false ∧
    compressPage { toyCodecs with active := fun _ => false } true
      (.dict { buffer := [7#8], numValues := 1, isSorted := false }) [] (.gzip none) = .err .featureNotActive := by
  decide +kernel

/-! ### C34 -/

/-- **C34** for the compressor: the stream of compressed pages (and errors) is the one obtained by
compressing every page into a fresh buffer, whatever the scratch buffer held. -/
theorem C34_compressor (cs : Codecs) (ck : Bool) (opts : CompressionOptions)
    (items : List (Res Page)) (buffer : List Byte) :
    observe (fun _ => Compressor.advance cs ck) (·.current) (items.length + 1) 0
        (Compressor.new items opts buffer)
      = items.map (fun x => (x >>= fun p => compressPage cs ck p [] opts).map' some) ++ [.ok none] :=
  compressor_observe cs ck opts items buffer none 0

/-- An iterator over a list of pages, with a buffer to swap. -/
def listIter : PageIter (List (Res CompressedPage) × List Byte) where
  next := fun s => match s.1 with
    | [] => (none, s)
    | x :: xs => (some x, (xs, []))
  swap := fun s b => (s.2, (s.1, b))

theorem listIter_serves : Serves listIter (fun s xs => s.1 = xs) where
  nil := by rintro ⟨a, b⟩ h; simp only at h; subst h; exact ⟨_, rfl, rfl⟩
  cons := by rintro ⟨a, b⟩ x xs h; simp only at h; subst h; exact ⟨_, rfl, rfl⟩
  swap := by rintro ⟨a, b⟩ xs c h; exact h

/-- A compressed V1 page announcing `size` bytes. -/
def exampleCompressed (codec : Compression) (size : Nat) (content : List Byte) : CompressedPage :=
  .data { header := .v1 { numValues := 3#32, encoding := 0#32, definitionLevelEncoding := 3#32
                          repetitionLevelEncoding := 3#32 }
          buffer := content, compression := codec, uncompressedPageSize := size
          descriptor := exampleDescriptor, selectedRows := none }

theorem exampleCompressed_exact :
    ExactSize toyCodecs true (exampleCompressed .snappy 2 [7#8, 1#8, 2#8]) := by
  refine ⟨by decide, ?_⟩
  intro o k ho h
  simp only [payload, exampleCompressed] at ho h ⊢
  simp [toyCodecs, ho] at h
  exact h.symm

/-- **C34** for the decompressor, when no page announces more bytes than its block decoder produces:
the stream of pages (and errors) is the one obtained by decompressing every page into a fresh
buffer, for every page iterator, every initial buffer and all buffer capacities along the way.
Missing: oversized announcements (see `C34_violated`) and the legacy `LZ4` codec. -/
theorem C34_decompressor_partial {σ : Type} (cs : Codecs) (hp : Spec.Pure cs) (ck : Bool)
    (it : PageIter σ) (R : σ → List (Res CompressedPage) → Prop) (hs : Serves it R) (s : σ)
    (items : List (Res CompressedPage)) (hR : R s items)
    (hex : ∀ p, .ok p ∈ items → ExactSize cs ck p)
    (caps : Nat → Nat) (buffer : List Byte) :
    observe (fun k => Decompressor.advance cs ck it (caps k)) (·.current) (items.length + 1) 0
        (Decompressor.new s buffer)
      = items.map (fun x => (x >>= fun p => decompressPage cs ck p 0 []).map' some) ++ [.ok none] :=
  decompressor_observe cs ck it R hs items
    (fun p hm => overwrites_of_bytes cs ck p
      (bytesPure_of cs hp _ (hex p hm).1 _ _ fun o k ho hk => (hex p hm).2 o k ho hk))
    caps 0 _ hR

example (caps : Nat → Nat) (buffer : List Byte) :
    observe (fun k => Decompressor.advance toyCodecs true listIter (caps k)) (·.current) 3 0
        (Decompressor.new ([.ok (exampleCompressed .snappy 2 [7#8, 1#8, 2#8]), .err .oos], []) buffer)
      = [decompressPage toyCodecs true (exampleCompressed .snappy 2 [7#8, 1#8, 2#8]) 0 [] |>.map' some,
         .err .oos, .ok none] :=
  C34_decompressor_partial toyCodecs toyCodecs_pure true listIter _ listIter_serves
    ([.ok (exampleCompressed .snappy 2 [7#8, 1#8, 2#8]), .err .oos], [])
    [.ok (exampleCompressed .snappy 2 [7#8, 1#8, 2#8]), .err .oos] rfl
    (by
      intro p hp
      simp only [List.mem_cons, Res.ok.injEq, reduceCtorEq, List.not_mem_nil, or_false] at hp
      exact hp ▸ exampleCompressed_exact) caps buffer

/-- **C34** end to end: a stream of pages compressed by the compressor and decompressed by the
decompressor comes back unchanged, whatever the buffers held, for every correct codec. -/
theorem C34_pipeline {σ : Type} (cs : Codecs) (hl : Lawful cs) (ck : Bool)
    (it : PageIter σ) (R : σ → List (Res CompressedPage) → Prop) (hs : Serves it R) (s : σ)
    (opts : CompressionOptions) (pages : List Page) (cps : List CompressedPage)
    (hc : pages.map (fun p => compressPage cs ck p [] opts) = cps.map .ok)
    (hv2 : opts ≠ .uncompressed → ∀ page ∈ pages,
      ∀ p hd, page = .data p → p.header = .v2 hd → hd.isCompressed ≠ some false)
    (hR : R s (cps.map .ok)) (caps : Nat → Nat) (buffer : List Byte) :
    observe (fun k => Decompressor.advance cs ck it (caps k)) (·.current) (cps.length + 1) 0
        (Decompressor.new s buffer)
      = pages.map (fun p => .ok (some p)) ++ [.ok none] := by
  have hpair : ∀ (pages : List Page) (cps : List CompressedPage),
      pages.map (fun p => compressPage cs ck p [] opts) = cps.map .ok →
      (opts ≠ .uncompressed → ∀ page ∈ pages,
        ∀ p hd, page = .data p → p.header = .v2 hd → hd.isCompressed ≠ some false) →
      (∀ cp ∈ cps, Overwrites cs ck cp) ∧
      cps.map (fun cp => decompressPage cs ck cp 0 []) = pages.map .ok := by
    intro pages
    induction pages with
    | nil =>
      intro cps h _
      cases cps with
      | nil => simp
      | cons c cs' => simp at h
    | cons p ps ih =>
      intro cps h hv
      cases cps with
      | nil => simp at h
      | cons c cps =>
        simp only [List.map_cons, List.cons.injEq] at h
        obtain ⟨i1, i2⟩ := ih cps h.2 (fun ho q hq => hv ho q (List.mem_cons_of_mem _ hq))
        constructor
        · intro cp hcp
          rcases List.mem_cons.1 hcp with rfl | hcp
          · by_cases ho : opts = .uncompressed
            · intro hne
              exfalso
              have := (C33_roundtrip_partial cs hl ck p opts cp h.1 (fun h => absurd ho h) 0 []).2.2
              rw [ho] at this
              exact hne this
            · exact overwrites_of_compress cs hl ck p opts cp h.1 (hv ho p (by simp))
          · exact i1 cp hcp
        · rw [List.map_cons, List.map_cons, i2,
            (C33_roundtrip_partial cs hl ck p opts c h.1 (fun ho => hv ho p (by simp)) 0 []).1]
  obtain ⟨h1, h2⟩ := hpair pages cps hc hv2
  have := decompressor_observe cs ck it R hs (cps.map .ok)
    (fun p hm => h1 p (by simpa using hm)) caps 0 (Decompressor.new s buffer) hR
  rw [List.length_map] at this
  rw [this]
  congr 1
  rw [List.map_map]
  have e : ((fun x => Res.map' some (x >>= fun p => decompressPage cs ck p 0 [])) ∘ Res.ok)
      = fun cp => Res.map' some (decompressPage cs ck cp 0 []) := by
    funext cp; rfl
  rw [e]
  have h3 := congrArg (List.map (Res.map' some)) h2
  rw [List.map_map, List.map_map] at h3
  exact h3

example : let page : Page := .data { header := .v1 { numValues := 2#32, encoding := 0#32, definitionLevelEncoding := 3#32,
                                                     repetitionLevelEncoding := 3#32, statistics := none }
                                     buffer := [1#8, 2#8]
                                     descriptor := exampleDescriptor
                                     selectedRows := none }
    (compressPage toyCodecs true page [] .snappy).map' (·.buffer) = .ok [7#8, 1#8, 2#8] := by decide +kernel

/-- **C34** what a page that announces more bytes than its block holds is completed with: the bytes that the
buffer had at the same place if it was large enough, zeros otherwise and beyond its content; never anything else. -/
theorem C34_leftover (cs : Codecs) (hp : Spec.Pure cs) (ck : Bool) (page : CompressedPage)
    (hc : page.compression = .snappy ∨ page.compression = .lz4Raw) :
    ∃ content : List Byte, ∀ (cap : Nat) (buffer : List Byte) (page' : Page),
      decompressPage cs ck page cap buffer = .ok page' →
      content.length ≤ page.uncompressedSize ∧ page'.buffer.length = page.uncompressedSize ∧
      ∀ i < page.uncompressedSize, page'.buffer[i]? =
        if i < content.length then content[i]?
        else some (if page.uncompressedSize ≤ cap then (buffer[i]?).getD 0#8 else 0#8) := by
  have key : ∃ content : List Byte, ∀ o out : List Byte, o.length = page.uncompressedSize →
      decompressInto cs ck page o = (.ok (), out) →
      out = content ++ o.drop content.length ∧ content.length ≤ page.uncompressedSize := by
    cases page with
    | dict p => exact decompressBytes_block cs hp _ hc _ _
    | data p =>
      cases hh : p.header with
      | v1 hd =>
        obtain ⟨w, h⟩ := decompressBytes_block cs hp _ hc p.buffer p.uncompressedPageSize
        refine ⟨w, fun o out ho he => ?_⟩
        simp only [decompressInto, hh] at he
        exact h o out ho he
      | v2 hd =>
        simp only [decompressInto, hh, decompressV2, CompressedPage.uncompressedSize]
        cases hs : addI32 ck hd.definitionLevelsByteLength hd.repetitionLevelsByteLength with
        | err e => exact ⟨[], fun o out ho he => by simp at he⟩
        | panic => exact ⟨[], fun o out ho he => by simp at he⟩
        | ok sum =>
          simp only
          split
          · obtain ⟨w, h⟩ := decompressBytes_block cs hp _ hc (p.buffer.drop (asUsize sum))
              (p.uncompressedPageSize - asUsize sum)
            refine ⟨p.buffer.take (asUsize sum) ++ w, fun o out ho he => ?_⟩
            split at he
            · simp at he
            · rename_i hl
              simp only [not_or, Nat.not_lt] at hl
              rcases hd : decompressBytes cs p.compression (p.buffer.drop (asUsize sum)) (o.drop (asUsize sum)) with ⟨r, t⟩
              rw [hd] at he
              simp only [Prod.mk.injEq] at he
              obtain ⟨rfl, he⟩ := he
              obtain ⟨h1, h2⟩ := h _ _ (by simp [ho]) hd
              have hlen : (p.buffer.take (asUsize sum)).length = asUsize sum := by simp; omega
              refine ⟨?_, ?_⟩
              · rw [← he, h1, List.length_append, hlen, ← List.drop_drop, List.append_assoc]
              · rw [List.length_append, hlen]; omega
          · refine ⟨p.buffer, fun o out ho he => ?_⟩
            split at he
            · simp at he
            · rename_i hl
              simp only [Decidable.not_not] at hl
              simp only [Prod.mk.injEq, true_and] at he
              refine ⟨?_, by omega⟩
              rw [← he, List.drop_eq_nil_of_le (by omega), List.append_nil]
  obtain ⟨content, h⟩ := key
  refine ⟨content, fun cap buffer page' he => ?_⟩
  have hne : page.compression ≠ .uncompressed := by rcases hc with hc | hc <;> rw [hc] <;> decide
  unfold decompressPage decompressBuffer at he
  rw [if_pos hne] at he
  simp only at he
  rcases hd : decompressInto cs ck page (prepareBuffer cap buffer page.uncompressedSize) with ⟨r, out⟩
  rw [hd] at he
  cases r with
  | err e => cases he
  | panic => cases he
  | ok u =>
    obtain ⟨h1, h2⟩ := h _ _ (prepareBuffer_length _ _ _) hd
    have hb : page'.buffer = out := by
      simp only [Res.map', Res.ok.injEq] at he
      rw [← he]
      cases page <;> rfl
    rw [hb, h1]
    refine ⟨h2, ?_, fun i hi => ?_⟩
    · rw [List.length_append, List.length_drop, prepareBuffer_length]; omega
    · rw [List.getElem?_append]
      split
      · rfl
      · rw [List.getElem?_drop, show content.length + (i - content.length) = i by omega, prepareBuffer_at _ _ _ _ hi]

example : Spec.Pure toyCodecs ∧ (exampleCompressed .snappy 4 [7#8, 9#8]).compression = .snappy ∧
    (decompressPage toyCodecs true (exampleCompressed .snappy 4 [7#8, 9#8]) 4 [1#8, 2#8, 3#8]).map' Page.buffer =
      .ok [9#8, 2#8, 3#8, 0#8] ∧
    (decompressPage toyCodecs true (exampleCompressed .snappy 4 [7#8, 9#8]) 3 [1#8, 2#8, 3#8]).map' Page.buffer =
      .ok [9#8, 0#8, 0#8, 0#8] := ⟨toyCodecs_pure, rfl, by decide +kernel⟩

/-- **C34 is violated** for block codecs: a page announcing more bytes than its block holds (4 for 1)
is completed with the bytes of the previous page, so the same page reads differently after another
one. -/
theorem C34_violated :
    (observe (fun _ => Decompressor.advance toyCodecs true listIter 16) (·.current) 2 0
      (Decompressor.new ([.ok (exampleCompressed .snappy 4 [7#8, 1#8, 2#8, 3#8, 4#8]),
        .ok (exampleCompressed .snappy 4 [7#8, 9#8])], []) [])).map (Res.map' (Option.map Page.buffer))
      = [.ok (some [1#8, 2#8, 3#8, 4#8]), .ok (some [9#8, 2#8, 3#8, 4#8])] ∧
    (decompressPage toyCodecs true (exampleCompressed .snappy 4 [7#8, 9#8]) 0 []).map' Page.buffer
      = .ok [9#8, 0#8, 0#8, 0#8] := by
  decide +kernel

/-! ### C53 -/

/-- Two frames of the toy codec, the second one at least as large as the first. -/
def exampleFrames : Frames := [([1#8], [7#8, 1#8]), ([2#8, 3#8, 4#8], [7#8, 2#8, 3#8, 4#8])]

theorem toyCodecs_dec (d o : List Byte) (h : d.length ≤ o.length) :
    toyCodecs.decBlock .lz4 (7#8 :: d) o = (.ok d.length, d ++ o.drop d.length) := by
  simp [toyCodecs, h]

theorem exampleFrames_growing : Growing exampleFrames ∧
    (∀ f ∈ exampleFrames, f.1.length < 2 ^ 32 ∧ f.2.length < 2 ^ 32) ∧
    ∀ f ∈ exampleFrames, ∀ o : List Byte, f.1.length ≤ o.length →
      toyCodecs.decBlock .lz4 f.2 o = (.ok f.1.length, f.1 ++ o.drop f.1.length) := by
  refine ⟨⟨by decide, trivial⟩, forall_mem_of_all _ (by decide), ?_⟩
  intro f hf o ho
  simp only [exampleFrames, List.mem_cons, List.not_mem_nil, or_false] at hf
  rcases hf with rfl | rfl <;> exact toyCodecs_dec _ o ho

example : tryDecompressHadoop toyCodecs (framesBytes exampleFrames) [0#8, 0#8, 0#8, 0#8]
    = (.ok (), [1#8, 2#8, 3#8, 4#8]) := by decide +kernel

/-- **C53** when after every frame but the last more bytes remain than that frame's compressed size:
the output becomes the concatenation of the frames' contents (followed by what was left of it). -/
theorem C53_frames_partial (cs : Codecs) (fs : Frames) (hg : Growing fs)
    (hsz : ∀ f ∈ fs, f.1.length < 2 ^ 32 ∧ f.2.length < 2 ^ 32)
    (hdec : ∀ f ∈ fs, ∀ o : List Byte, f.1.length ≤ o.length →
      cs.decBlock .lz4 f.2 o = (.ok f.1.length, f.1 ++ o.drop f.1.length))
    (output : List Byte) (ho : (fs.flatMap Prod.fst).length ≤ output.length) :
    tryDecompressHadoop cs (framesBytes fs) output
      = (.ok (), fs.flatMap Prod.fst ++ output.drop (fs.flatMap Prod.fst).length) := by
  unfold tryDecompressHadoop
  rw [hadoopLoop_frames cs fs hg hsz hdec _ (Nat.le_refl _) [] output ho]
  simp

example (output : List Byte) (h : 4 ≤ output.length) :
    tryDecompressHadoop toyCodecs (framesBytes exampleFrames) output
      = (.ok (), [1#8, 2#8, 3#8, 4#8] ++ output.drop 4) :=
  C53_frames_partial toyCodecs exampleFrames exampleFrames_growing.1 exampleFrames_growing.2.1
    exampleFrames_growing.2.2 output h

/-- **C53** (soundness): whenever the Hadoop decoder succeeds, the input was a sequence of frames, as those of
`C53_frames_partial`, and the output starts with the concatenation of their contents. -/
theorem C53_sound (cs : Codecs) (hp : Spec.Pure cs) (input output out : List Byte)
    (h : tryDecompressHadoop cs input output = (.ok (), out)) :
    ∃ fs : Frames, input = framesBytes fs ∧ Growing fs ∧
      (fs.flatMap Prod.fst).length ≤ output.length ∧
      out = fs.flatMap Prod.fst ++ output.drop (fs.flatMap Prod.fst).length ∧
      ∀ f ∈ fs, ∃ o : List Byte,
        cs.decBlock .lz4 f.2 o = (.ok f.1.length, f.1 ++ o.drop f.1.length) := by
  unfold tryDecompressHadoop at h
  split at h
  · rename_i n o heq
    split at h
    · rename_i hn
      subst hn
      simp only [Prod.mk.injEq, true_and] at h
      subst h
      have := hadoopLoop_sound cs hp _ input [] output o (Nat.le_refl _) heq
      simpa using this
    · simp at h
  · simp at h
  · simp at h

example : tryDecompressHadoop toyCodecs (framesBytes exampleFrames) [0#8, 0#8, 0#8, 0#8, 9#8] =
    (.ok (), [1#8, 2#8, 3#8, 4#8, 9#8]) := by decide +kernel

/-- **C53 is violated** when a later part of the input is not larger than an earlier frame: the two
legal frames below (10 and 1 bytes) are rejected, because the loop compares the remaining length with
the compressed size of the frame just read. -/
theorem C53_violated :
    let fs : Frames := [(List.replicate 10 1#8, 7#8 :: List.replicate 10 1#8), ([2#8], [7#8, 2#8])]
    (tryDecompressHadoop toyCodecs (framesBytes fs) (List.replicate 11 0#8)).1 = .err .oos ∧
    (decompressBytes toyCodecs .lz4 (framesBytes fs) (List.replicate 11 0#8)).1 = .err .oos := by
  decide +kernel

end Pq.Props
