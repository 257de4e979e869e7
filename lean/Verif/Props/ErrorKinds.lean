import Verif.Lemmas.ErrorKindsMessage
import Verif.Props.PageIO
import Verif.Props.PageState
import Verif.Props.Writer
/-
C93: what the kind of an error tells (`src/error.rs:20-35`).
-/
namespace Pq.Props
open Pq Pq.Spec

/-- C93: what does not parse as thrift is out of specification, for each of the structures read. -/
theorem C93_thrift : CodecOos (Compact.codecOf Compact.rPageHeader) ∧
    CodecOos (Compact.codecOf Compact.rFileMetaData) ∧ CodecOos (Compact.codecOf Compact.rColumnIndex) ∧
    CodecOos (Compact.codecOf Compact.rOffsetIndex) ∧ CodecOos (Compact.codecOf Compact.rColumnMetaData) :=
  ⟨codecOf_kind _ rPageHeader_kind, codecOf_kind _ rFileMetaData_kind, codecOf_kind _ rColumnIndex_kind,
   codecOf_kind _ rOffsetIndex_kind, codecOf_kind _ rColumnMetaData_kind⟩

example : ((Compact.codecOf Compact.rPageHeader).parse 100 [0x00#8]).1 = .err .oos := by decide +kernel

/-- C93: reading the metadata of a file fails because the file is out of specification, never for another
reason. -/
theorem C93_metadata (codec : Codec Thrift.FileMetaData) (h : CodecOos codec) (file : List Byte) (size : Nat) :
    FailsOos (readMetadataWithSize codec file size) ∧ FailsOos (readMetadata codec file) := by
  have key : ∀ size, FailsOos (readMetadataWithSize codec file size) := by
    intro size
    unfold readMetadataWithSize
    cases hf : footerBytes file size with
    | err e => exact Kinds.of_eq hf (footerBytes_kind _ _)
    | panic => exact Kinds.panic
    | ok reader =>
      dsimp only
      have := h (reader.length * 2 + 1024) reader
      unfold deserializeMetadata
      cases hp : (codec.parse (reader.length * 2 + 1024) reader).1 with
      | err e => exact Kinds.of_eq hp this
      | panic => exact Kinds.panic
      | ok m => exact fileMetaData_kind m
  exact ⟨key _, key _⟩

/-- A file that is too short. -/
example : (readMetadata (Compact.codecOf Compact.rFileMetaData) magic).map' (fun _ => ()) = .err .oos := by decide +kernel

/-- C93: so do statistics, the schema - from thrift or from a message - and bloom filters. -/
theorem C93_schema (s : Thrift.Statistics) (t : PrimitiveType) (es : List Thrift.SchemaElement)
    (cm : Message.CaseMaps) (message : String) (parse : List Byte → Res (Bloom.Header × List Byte))
    (hparse : ∀ b, FailsOos (parse b)) (offset : Option I64) (file : List Byte) :
    FailsOos (deserializeStatistics s t) ∧ FailsOos (ParquetType.tryFromThrift es) ∧
    FailsOos (Message.fromMessage cm message) ∧ FailsOos (Bloom.readFilter parse offset file) := by
  refine ⟨deserializeStatistics_kind _ _, parquetType_kind _, Message.fromMessage_oos _ _, ?_⟩
  unfold Bloom.readFilter
  split
  · exact Kinds.ok _
  · refine Kinds.bind (hparse _) fun x _ => ?_
    dsimp only
    exact Kinds.ite (fun _ => Kinds.ok _) fun _ => Kinds.ite (fun _ => Kinds.ok _) fun _ =>
      Kinds.bind (toUsize_kind _) fun _ _ => Kinds.ok _

example : (ParquetType.tryFromThrift []).map' (fun _ => ()) = .err .oos ∧
    Bloom.readFilter (fun b => .ok (⟨-1#32, true, true⟩, b)) (some 0#64) [1#8] = .err .oos := by decide +kernel

/-- C93: so do the page indexes, and selecting pages with them. -/
theorem C93_indexes (cc : Codec Thrift.ColumnIndex) (oc : Codec Thrift.OffsetIndex) (hc : CodecOos cc)
    (ho : CodecOos oc) (ck : Bool) (file : List Byte) (chunks : List ColumnChunkMetaData)
    (intervals : List Interval) (locations : List Thrift.PageLocation) (n : Nat) (selected : List Bool) :
    FailsOos (readColumnsIndexes cc ck file chunks) ∧ FailsOos (readPagesLocations oc ck file chunks) ∧
    FailsOos (selectPages ck intervals locations n) ∧ FailsOos (computeRows selected locations n) := by
  refine ⟨?_, ?_, selectPages_kind _ _ _ _, computeRows_kind _ _ _⟩
  · have key : ∀ data (cs : List ColumnChunkMetaData) lens start,
        FailsOos (deserializeColumnIndexes cc data start cs lens) := by
      intro data cs
      induction cs with
      | nil => intro lens start; unfold deserializeColumnIndexes; exact Kinds.ok _
      | cons c cs ih =>
        intro lens start
        cases lens with
        | nil => unfold deserializeColumnIndexes; exact Kinds.ok _
        | cons l lens =>
          unfold deserializeColumnIndexes
          refine Kinds.bind (slice_kind _ _ _) fun r _ => Kinds.bind ?_ fun _ _ =>
            Kinds.bind (ih _ _) fun _ _ => Kinds.ok _
          have := hc (r.length * 2 + 1024) r
          unfold deserializeIndex
          cases hp : (cc.parse (r.length * 2 + 1024) r).1 with
          | err e => exact Kinds.of_eq hp this
          | panic => exact Kinds.panic
          | ok m => exact indexOfThrift_kind _ _
    unfold readColumnsIndexes
    exact Kinds.bind (prepareColumn_kind _) fun _ _ => Kinds.bind (sumUsize_kind _ _ _) fun _ _ => key _ _ _ _
  · have key : ∀ len k reader, FailsOos (pageLocationsLoop oc len k reader) := by
      intro len k
      induction k with
      | zero => intro reader; exact Kinds.ok _
      | succ k ih =>
        intro reader
        have := ho len reader
        unfold pageLocationsLoop
        rcases hp : oc.parse len reader with ⟨r, rest⟩
        rw [hp] at this
        cases r with
        | err e => exact Kinds.of_eq rfl this
        | panic => exact Kinds.panic
        | ok m => exact Kinds.map' (ih _)
    unfold readPagesLocations
    exact Kinds.bind (prepareOffset_kind _) fun _ _ => Kinds.bind (sumUsize_kind _ _ _) fun _ _ => key _ _ _

example : selectPages true [⟨0, 5⟩] [{ offset := 0, compressedPageSize := 10#32, firstRowIndex := 7 }] 5 =
    .err .oos := by decide +kernel

/-- C93: so do the decoders of the values of pages. -/
theorem C93_decoders (ck : Bool) (data : List Byte) (b n k : Nat) :
    FailsOos (Rle.decode data n k) ∧ FailsOos (Bitpack.decode b data n k) ∧ FailsOos (Delta.decode ck data) ∧
    FailsOos (DeltaLength.decode ck data) ∧ FailsOos (DeltaByteArray.decode ck data) :=
  ⟨rleDecode_kind _ _ _, bitDecode_kind _ _ _ _, deltaDecode_kind _ _, dlDecode_kind _ _, dbaDecode_kind _ _⟩

/-- A block without its bit width. -/
example : Delta.decode true [0x80#8, 0x01#8, 0x01#8, 0x02#8, 0x00#8, 0x00#8] = .err .oos := by decide +kernel

theorem toUsize_i32_lt (x : I32) (n : Nat) (h : toUsize x = .ok n) : n ≤ 2 ^ 31 - 1 := by
  unfold toUsize at h
  split at h
  · have := Res.ok.inj h
    have h3 := BitVec.toInt_lt (x := x)
    omega
  · cases h

theorem buildPage_kinds (codec : Codec Thrift.PageHeader) (h : CodecOos codec) (ck : Bool) (r : PageReader) :
    Fails (PageKinds r.maxPageSize) (buildPage codec ck r).1 := by
  have hp := h r.maxPageSize r.reader
  unfold buildPage
  rcases hr : codec.parse r.maxPageSize r.reader with ⟨p, rest⟩
  rw [hr] at hp
  cases p with
  | err e => exact Kinds.err (.inl (hp e rfl))
  | panic => exact Kinds.panic
  | ok header =>
    dsimp only
    cases hg : getPageHeader header with
    | err e => exact Kinds.err (.inl (getPageHeader_kind _ e hg))
    | panic => exact Kinds.panic
    | ok dh =>
      dsimp only
      cases ha : addI64 ck r.seenNumValues (headerValues dh) with
      | err e => exact Kinds.err (.inl (addI64_kind _ _ _ e ha))
      | panic => exact Kinds.panic
      | ok seen =>
        dsimp only
        cases hu : toUsize header.compressedPageSize with
        | err e => exact Kinds.err (.inl (toUsize_kind _ e hu))
        | panic => exact Kinds.panic
        | ok size =>
          have := toUsize_i32_lt _ _ hu
          dsimp only
          split
          · exact Kinds.err (.inr ⟨rfl, by omega⟩)
          · split
            · exact Kinds.err (.inl rfl)
            · exact Kinds.mono (finishPage_kind _ _ _ _ _) fun e he => .inl he

/-- C93: reading pages fails because the file is out of specification, or because a page announces more
bytes than the limit given by the caller. -/
theorem C93_pages (codec : Codec Thrift.PageHeader) (h : CodecOos codec) (ck : Bool) (r : PageReader) (page r')
    (hn : PageReader.next codec ck r = (some page, r')) : Fails (PageKinds r.maxPageSize) page := by
  have key : ∀ fuel (r : PageReader) page r', PageReader.nextFuel codec ck fuel r = (some page, r') →
      Fails (PageKinds r.maxPageSize) page := by
    intro fuel
    induction fuel with
    | zero =>
      intro r page r' hn
      cases hn
      exact Kinds.panic
    | succ fuel ih =>
      intro r page r' hn
      have hb := buildPage_kinds codec h ck { r with scratch := [] }
      have hm : (buildPage codec ck { r with scratch := [] }).2.maxPageSize = r.maxPageSize := by
        unfold buildPage
        repeat' (first | rfl | split | dsimp only)
      unfold PageReader.nextFuel nextPage at hn
      dsimp only at hn
      split at hn
      · cases hn
      · rename_i heq
        split at heq
        · cases heq
        · cases heq
          split at hn
          · cases hn
            exact hb
          · have := ih _ _ _ hn
            rwa [show ({ (buildPage codec ck { r with scratch := [] }).2 with scratch := [] } :
              PageReader).maxPageSize = r.maxPageSize from hm] at this
  exact key _ _ _ _ hn

/-- Both kinds occur. -/
example :
    (PageReader.next headerCodec true (exampleReader 0#32 1001#32 (fun _ _ => true))).1
      = some (.err .wouldOverAllocate) ∧
    (PageReader.next headerCodec true (exampleReader 0#32 3#32 (fun _ _ => true))).1 = some (.err .oos) ∧
    (exampleReader 0#32 3#32 (fun _ _ => true)).maxPageSize = 1000 ∧ CodecOos headerCodec :=
  ⟨by decide +kernel, by decide +kernel, rfl, C93_thrift.1⟩

/-- C93: with the largest limit, every error is the fault of the file. -/
theorem C93_pages_unlimited (codec : Codec Thrift.PageHeader) (h : CodecOos codec) (ck : Bool) (r : PageReader)
    (page r') (hl : 2 ^ 31 - 1 ≤ r.maxPageSize) (hn : PageReader.next codec ck r = (some page, r')) :
    FailsOos page := by
  intro e he
  rcases C93_pages codec h ck r page r' hn e he with h | ⟨-, h⟩
  · exact h
  · omega

example : (PageReader.next headerCodec true { exampleReader 0#32 1001#32 (fun _ _ => true) with
      maxPageSize := 2 ^ 31 }).1 = some (.err .oos) := by decide +kernel

/-- C93: the same for the asynchronous reader. -/
theorem C93_stream (codec : Codec Thrift.PageHeader) (h : CodecOos codec) (ck : Bool) (s : PageStream) (page s')
    (hn : PageStream.next codec ck s = (some page, s')) : Fails (PageKinds s.inner.maxPageSize) page := by
  have key : ∀ fuel (r : PageReader) page s', PageStream.nextFuel codec ck fuel r = (some page, s') →
      Fails (PageKinds r.maxPageSize) page := by
    intro fuel
    induction fuel with
    | zero =>
      intro r page r' hn
      cases hn
      exact Kinds.panic
    | succ fuel ih =>
      intro r page s' hn
      have hp := h r.maxPageSize r.reader
      unfold PageStream.nextFuel at hn
      split at hn
      · cases hn
      rcases hr : codec.parse r.maxPageSize r.reader with ⟨p, rest⟩
      rw [hr] at hp hn
      cases p with
      | err e => cases hn; exact Kinds.err (.inl (hp e rfl))
      | panic => cases hn; exact Kinds.panic
      | ok header =>
        dsimp only at hn
        cases hg : getPageHeader header with
        | err e => rw [hg] at hn; cases hn; exact Kinds.err (.inl (getPageHeader_kind _ e hg))
        | panic => rw [hg] at hn; cases hn; exact Kinds.panic
        | ok dh =>
          rw [hg] at hn
          dsimp only at hn
          cases ha : addI64 ck r.seenNumValues (headerValues dh) with
          | err e => rw [ha] at hn; cases hn; exact Kinds.err (.inl (addI64_kind _ _ _ e ha))
          | panic => rw [ha] at hn; cases hn; exact Kinds.panic
          | ok seen =>
            rw [ha] at hn
            dsimp only at hn
            cases hu : toUsize header.compressedPageSize with
            | err e => rw [hu] at hn; cases hn; exact Kinds.err (.inl (toUsize_kind _ e hu))
            | panic => rw [hu] at hn; cases hn; exact Kinds.panic
            | ok size =>
              have hs := toUsize_i32_lt _ _ hu
              rw [hu] at hn
              dsimp only at hn
              have hk : ∀ (skip : Bool) (r' r1 r2 : PageReader) (buffer : List Byte)
                  (tail : Option (Res CompressedPage) × PageStream),
                  (∀ page s', tail = (some page, s') → FailsOos page) → r'.maxPageSize = r.maxPageSize →
                  (if skip then PageStream.nextFuel codec ck fuel r'
                    else if r.maxPageSize < size then (some (.err .wouldOverAllocate), ⟨r1, true⟩)
                    else if buffer.length ≠ size then (some (.err .oos), ⟨r2, true⟩)
                    else tail) = (some page, s') →
                  Fails (PageKinds r.maxPageSize) page := by
                intro skip r' r1 r2 buffer tail hf hm hn
                split at hn
                · exact hm ▸ ih _ _ _ hn
                · split at hn
                  · cases hn; exact Kinds.err (.inr ⟨rfl, by omega⟩)
                  · split at hn
                    · cases hn; exact Kinds.err (.inl rfl)
                    · exact Kinds.mono (hf _ _ hn) fun e he => .inl he
              refine hk _ _ _ _ _ _ ?_ ?_ hn
              · intro page s' ht
                split at ht
                · cases ht; exact Kinds.ok _
                · rename_i hf; cases ht; exact Kinds.of_eq hf (finishPage_kind _ _ _ _ _)
                · cases ht; exact Kinds.panic
              · rfl
  unfold PageStream.next at hn
  split at hn
  · cases hn
  · exact key _ _ _ _ hn

example : (PageStream.next headerCodec true ⟨exampleReader 0#32 1001#32 (fun _ _ => true), false⟩).1
      = some (.err .wouldOverAllocate) := by decide +kernel

/-- C93: a reader that goes by the page indexes never reports too large a page. -/
theorem C93_indexed (codec : Codec Thrift.PageHeader) (h : CodecOos codec) (ck : Bool) (r : IndexedReader) (page r')
    (hn : IndexedReader.next codec ck r = (some page, r')) : FailsOos page := by
  have hat : ∀ file start length, FailsOos (readPageAt codec file start length) := by
    intro file start length
    unfold readPageAt
    refine Kinds.ite (fun _ => Kinds.oos) fun _ => ?_
    have := h (1024 * 1024) ((file.drop start).take length)
    dsimp only
    rcases hr : codec.parse (1024 * 1024) ((file.drop start).take length) with ⟨p, rest⟩
    rw [hr] at this
    cases p with
    | ok _ => exact Kinds.ok _
    | err e => exact Kinds.of_eq rfl this
    | panic => exact Kinds.panic
  have hpage : ∀ p, FailsOos (r.readPage codec p) := by
    intro p
    unfold IndexedReader.readPage
    exact Kinds.bind (hat _ _ _) fun _ _ => finishPage_kind _ _ _ _ _
  have hdata : ∀ (r : IndexedReader), (∀ p, FailsOos (r.readPage codec p)) → ∀ ps page r',
      r.nextData codec ps = (some page, r') → FailsOos page := by
    intro r hpage ps
    induction ps with
    | nil => intro page r' hn; cases hn
    | cons p ps ih =>
      intro page r' hn
      unfold IndexedReader.nextData at hn
      split at hn
      · exact ih _ _ hn
      · cases hn; exact hpage p
  unfold IndexedReader.next at hn
  split at hn
  · dsimp only at hn
    split at hn
    · rename_i hd
      cases hn
      unfold IndexedReader.readDict at hd
      split at hd
      · cases hd
      · split at hd
        · rename_i hu; cases hd; exact Kinds.of_eq hu (usub_kind _ _ _)
        · cases hd; exact Kinds.panic
        · split at hd
          · cases hd
            unfold readDictPage
            refine Kinds.bind (hat _ _ _) fun _ _ => Kinds.bind (finishPage_kind _ _ _ _ _) fun q _ => ?_
            cases q
            · exact Kinds.oos
            · exact Kinds.ok _
          · cases hd
    · refine hdata _ ?_ _ _ _ hn
      exact hpage
  · exact hdata _ hpage _ _ _ hn

/-- A page beyond the end of the file. -/
example : (IndexedReader.next headerCodec true (IndexedReader.new [1#8, 2#8, 3#8] exampleColumn
    [⟨4, 10, [⟨0, 5⟩], 5⟩])).1 = some (.err .oos) := by decide +kernel

theorem innerCompress_kind (cs : Codecs) (h : CodecsOos cs) (c i o) : FailsOos (innerCompress cs c i o) := by
  unfold innerCompress
  exact Kinds.bind (h.maxLen _ _) fun _ _ => Kinds.bind (h.encBlock _ _ _) fun _ _ => Kinds.ok _

theorem compressBytes_kinds (cs : Codecs) (h : CodecsOos cs) (o : CompressionOptions) (ho : o ≠ .uncompressed)
    (input output : List Byte) :
    Fails (CompressionKinds cs o.codec fun c => c = .lzo ∨ c = .lz4) (compressBytes cs o input output) := by
  have mono : ∀ {α : Type} {r : Res α}, FailsOos r →
      Fails (CompressionKinds cs o.codec fun c => c = .lzo ∨ c = .lz4) r :=
    fun h => Kinds.mono h fun _ he => .inl he
  unfold compressBytes
  cases o with
  | uncompressed => exact absurd rfl ho
  | lzo => exact Kinds.err (.inr (.inr ⟨rfl, .inl rfl⟩))
  | lz4 => exact Kinds.err (.inr (.inr ⟨rfl, .inr rfl⟩))
  | brotli l =>
    exact Kinds.ite (fun _ => Kinds.bind (mono (h.encStream _ _ _)) fun _ _ => Kinds.ok _)
      fun hc => Kinds.err (.inr (.inl ⟨rfl, _, rfl, by simpa [CompressionOptions.codec] using hc⟩))
  | gzip l =>
    exact Kinds.ite (fun _ => Kinds.bind (mono (h.encStream _ _ _)) fun _ _ => Kinds.ok _)
      fun hc => Kinds.err (.inr (.inl ⟨rfl, _, rfl, by simpa [CompressionOptions.codec] using hc⟩))
  | zstd l =>
    exact Kinds.ite (fun _ => Kinds.bind (mono (h.encStream _ _ _)) fun _ _ => Kinds.ok _)
      fun hc => Kinds.err (.inr (.inl ⟨rfl, _, rfl, by simpa [CompressionOptions.codec] using hc⟩))
  | snappy =>
    exact Kinds.ite (fun _ => mono (innerCompress_kind cs h _ _ _))
      fun hc => Kinds.err (.inr (.inl ⟨rfl, _, rfl, by simpa [CompressionOptions.codec] using hc⟩))
  | lz4Raw =>
    exact Kinds.ite (fun _ => mono (innerCompress_kind cs h _ _ _))
      fun hc => Kinds.err (.inr (.inl ⟨rfl, _, rfl, by simpa [CompressionOptions.codec] using hc⟩))

/-- C93: compressing a page asks for a feature only if the codec needs it and it is not active, and reports
as unsupported only LZO and the old LZ4; it never complains about a parameter. -/
theorem C93_compress (cs : Codecs) (h : CodecsOos cs) (ck : Bool) (page : Page) (buffer : List Byte)
    (o : CompressionOptions) :
    Fails (CompressionKinds cs o.codec fun c => c = .lzo ∨ c = .lz4) (compressPage cs ck page buffer o) := by
  have mono : ∀ {α : Type} {r : Res α}, FailsOos r →
      Fails (CompressionKinds cs o.codec fun c => c = .lzo ∨ c = .lz4) r :=
    fun h => Kinds.mono h fun _ he => .inl he
  unfold compressPage
  cases page with
  | data p =>
    dsimp only
    unfold compressData
    dsimp only
    refine Kinds.map' (Kinds.ite (fun ho => ?_) fun _ => Kinds.ok _)
    split
    · exact Kinds.bind (compressBytes_kinds cs h o ho _ _) fun _ _ => Kinds.ok _
    · refine Kinds.bind (by unfold addI32; kinds) fun _ _ => Kinds.bind (mono (slice_kind _ _ _)) fun _ _ =>
        Kinds.bind (mono (slice_kind _ _ _)) fun _ _ => Kinds.bind (compressBytes_kinds cs h o ho _ _) fun _ _ =>
        Kinds.ok _
  | dict p =>
    dsimp only
    unfold compressDict
    dsimp only
    exact Kinds.map' (Kinds.ite (fun ho => Kinds.bind (compressBytes_kinds cs h o ho _ _) fun _ _ => Kinds.ok _)
      fun _ => Kinds.ok _)

theorem toyCodecs_oos : CodecsOos toyCodecs where
  encStream := fun _ _ _ => Kinds.ok _
  maxLen := fun _ _ => Kinds.ok _
  encBlock := fun _ _ _ => by simp only [toyCodecs]; kinds
  readExact := fun _ _ _ => by simp only [toyCodecs]; split <;> kinds
  snappyLen := fun _ => Kinds.ok _
  decBlock := fun _ _ _ => by simp only [toyCodecs]; split <;> kinds

example : CodecsOos toyCodecs ∧ compressPage toyCodecs true (exampleV1 [1#8]) [] .lz4 = .err .featureNotSupported ∧
    compressPage { toyCodecs with active := (· ≠ .lz4) } true (exampleV1 [1#8]) [] .lz4Raw = .err .featureNotActive :=
  ⟨toyCodecs_oos, by decide +kernel, by decide +kernel⟩

/-- C93: and when the needed feature is not active, that is what is reported, whatever the data. -/
theorem C93_inactive (cs : Codecs) (o : CompressionOptions) (input output : List Byte)
    (ho : o.codec ≠ .lz4) (h : Inactive cs o.codec) :
    compressBytes cs o input output = .err .featureNotActive ∧
    decompressBytes cs o.codec input output = (.err .featureNotActive, output) := by
  obtain ⟨f, hf, ha⟩ := h
  cases o <;> simp only [CompressionOptions.codec, neededFeature, Option.some.injEq, reduceCtorEq, ne_eq,
    not_true_eq_false] at hf ho <;> subst hf <;>
    simp [compressBytes, decompressBytes, CompressionOptions.codec, ha]

example : Inactive { toyCodecs with active := (· ≠ .lz4) } CompressionOptions.lz4Raw.codec :=
  ⟨.lz4, rfl, rfl⟩

theorem decompressBytes_kinds (cs : Codecs) (h : CodecsOos cs) (c : Compression) (hc : c ≠ .uncompressed)
    (input output : List Byte) :
    Fails (CompressionKinds cs c fun c => c = .lzo) (decompressBytes cs c input output).1 := by
  have mono : ∀ {α : Type} {r : Res α}, FailsOos r → Fails (CompressionKinds cs c fun c => c = .lzo) r :=
    fun h => Kinds.mono h fun _ he => .inl he
  unfold decompressBytes
  cases c with
  | uncompressed => exact absurd rfl hc
  | lzo => exact Kinds.err (.inr (.inr ⟨rfl, rfl⟩))
  | brotli =>
    dsimp only
    split
    · exact mono (h.readExact _ _ _)
    · rename_i hc; exact Kinds.err (.inr (.inl ⟨rfl, _, rfl, by simpa [CompressionOptions.codec] using hc⟩))
  | gzip =>
    dsimp only
    split
    · exact mono (h.readExact _ _ _)
    · rename_i hc; exact Kinds.err (.inr (.inl ⟨rfl, _, rfl, by simpa [CompressionOptions.codec] using hc⟩))
  | zstd =>
    dsimp only
    split
    · exact mono (h.readExact _ _ _)
    · rename_i hc; exact Kinds.err (.inr (.inl ⟨rfl, _, rfl, by simpa [CompressionOptions.codec] using hc⟩))
  | snappy =>
    dsimp only
    split
    · cases hl : cs.snappyLen input with
      | err e => exact Kinds.err (.inl (h.snappyLen _ e hl))
      | panic => exact Kinds.panic
      | ok len =>
        dsimp only
        split
        · exact Kinds.err (.inl rfl)
        · exact Kinds.map' (mono (h.decBlock _ _ _))
    · rename_i hc; exact Kinds.err (.inr (.inl ⟨rfl, _, rfl, by simpa [CompressionOptions.codec] using hc⟩))
  | lz4Raw =>
    dsimp only
    split
    · exact Kinds.map' (mono (h.decBlock _ _ _))
    · rename_i hc; exact Kinds.err (.inr (.inl ⟨rfl, _, rfl, by simpa [CompressionOptions.codec] using hc⟩))
  | lz4 =>
    dsimp only
    split
    · rcases ht : tryDecompressHadoop cs input output with ⟨r, o⟩
      cases r with
      | err e => exact Kinds.map' (mono (h.decBlock _ _ _))
      | panic => exact Kinds.panic
      | ok _ => exact Kinds.ok _
    · rename_i hc; exact Kinds.err (.inr (.inl ⟨rfl, _, rfl, by simpa [CompressionOptions.codec] using hc⟩))

/-- C93: decompressing a page: the same, with only LZO unsupported. -/
theorem C93_decompress (cs : Codecs) (h : CodecsOos cs) (ck : Bool) (page : CompressedPage) (cap : Nat)
    (buffer : List Byte) :
    Fails (CompressionKinds cs page.compression fun c => c = .lzo) (decompressPage cs ck page cap buffer) := by
  have hinto : page.compression ≠ .uncompressed → ∀ b,
      Fails (CompressionKinds cs page.compression fun c => c = .lzo) (decompressInto cs ck page b).1 := by
    intro hc b
    unfold decompressInto
    cases page with
    | dict p => exact decompressBytes_kinds cs h _ hc _ _
    | data p =>
      dsimp only
      split
      · exact decompressBytes_kinds cs h _ hc _ _
      · rename_i header _
        unfold decompressV2
        cases ha : addI32 ck header.definitionLevelsByteLength header.repetitionLevelsByteLength with
        | err e =>
          unfold addI32 at ha
          split at ha <;> cases ha
        | panic => exact Kinds.panic
        | ok sum =>
          dsimp only
          split
          · split
            · exact Kinds.err (.inl rfl)
            · exact decompressBytes_kinds cs h _ hc _ _
          · split
            · exact Kinds.err (.inl rfl)
            · exact Kinds.ok _
  unfold decompressPage decompressBuffer
  by_cases hc : page.compression ≠ .uncompressed
  · rw [if_pos hc]
    dsimp only
    have := hinto hc (prepareBuffer cap buffer page.uncompressedSize)
    rcases hr : decompressInto cs ck page (prepareBuffer cap buffer page.uncompressedSize) with ⟨r, b⟩
    rw [hr] at this
    cases r with
    | ok _ => exact Kinds.ok _
    | err e => exact Kinds.of_eq rfl this
    | panic => exact Kinds.panic
  · rw [if_neg hc]
    exact Kinds.ok _

example : decompressPage toyCodecs true (.dict
    { buffer := [7#8, 1#8], compression := .lzo, uncompressedPageSize := 1, numValues := 1, isSorted := false })
    0 [] = .err .featureNotSupported := by
  decide +kernel

/-- C93: decoding the pages of a native, fixed-length or binary column reports as unsupported only what is
neither plain nor dictionary-encoded with a dictionary at hand. -/
theorem C93_decode {π : Type} (b : Nat) (page : DataPage) (dict : Option π) (encoding : Encoding)
    (he : page.encoding = .ok encoding)
    (hs : encoding = .plain ∨ ((encoding = .plainDictionary ∨ encoding = .rleDictionary) ∧ dict.isSome)) :
    FailsOos (Deser.nativeState b page dict) ∧ FailsOos (Deser.binaryState page dict) ∧
    (∀ size, page.descriptor.primitiveType.physicalType = .fixedLenByteArray size →
      FailsOos (Deser.fixedState page dict)) := by
  have hd := fun (ι : Type) (d : π) => dictState_kind (ι := ι) page d
  refine ⟨?_, ?_, fun size hp => ?_⟩
  · unfold Deser.nativeState
    rw [he]
    rw [Res.ok_bind]
    rcases hs with rfl | ⟨rfl | rfl, hd'⟩
    · cases dict <;> dsimp only <;> kinds
    · obtain ⟨d, rfl⟩ := Option.isSome_iff_exists.1 hd'
      exact hd _ d
    · obtain ⟨d, rfl⟩ := Option.isSome_iff_exists.1 hd'
      exact hd _ d
  · unfold Deser.binaryState
    rw [he]
    rw [Res.ok_bind]
    rcases hs with rfl | ⟨rfl | rfl, hd'⟩
    · cases dict <;> dsimp only <;> kinds
    · obtain ⟨d, rfl⟩ := Option.isSome_iff_exists.1 hd'
      exact hd _ d
    · obtain ⟨d, rfl⟩ := Option.isSome_iff_exists.1 hd'
      exact hd _ d
  · unfold Deser.fixedState
    rw [hp]
    dsimp only
    rw [he]
    rw [Res.ok_bind]
    rcases hs with rfl | ⟨rfl | rfl, hd'⟩
    · cases dict <;> dsimp only <;> kinds
    · obtain ⟨d, rfl⟩ := Option.isSome_iff_exists.1 hd'
      exact hd _ d
    · obtain ⟨d, rfl⟩ := Option.isSome_iff_exists.1 hd'
      exact hd _ d

/-- A plain page of a binary column whose levels are cut off. -/
example : (statePage [9, 0] 3#32 0#32 .byteArray .optional 1#16).encoding = .ok .plain ∧
    (Deser.binaryState (π := Unit) (statePage [9, 0] 3#32 0#32 .byteArray .optional 1#16) none).map' (fun _ => ()) =
      .err .oos := by decide +kernel

/-- C93: writing a row group fails with an error of the pages handed in, or because they cannot be written
within the specification. -/
theorem C93_write (cs : ThriftCodecs) (ck : Bool) (w : FileWriter)
    (rowGroup : List (Res (List (Res CompressedPage)))) :
    Fails (fun e => e = .oos ∨ .err e ∈ rowGroup ∨ ∃ pages, .ok pages ∈ rowGroup ∧ .err e ∈ pages)
      (w.write cs ck rowGroup).1 := by
  unfold FileWriter.write
  dsimp only
  have := writeRowGroup_kind (P := fun e => e = .oos ∨ .err e ∈ rowGroup ∨
    ∃ pages, .ok pages ∈ rowGroup ∧ .err e ∈ pages) (.inl rfl) cs ck w.autoStart.offset
    w.autoStart.schema.leaves rowGroup w.autoStart.rowGroups.length
    (fun c hc e he => .inr (.inl (he ▸ hc)))
    (fun pages hp p hpp e he => .inr (.inr ⟨pages, hp, he ▸ hpp⟩))
  rcases hw : writeRowGroup cs ck w.autoStart.offset w.autoStart.schema.leaves rowGroup
    w.autoStart.rowGroups.length with ⟨r, b⟩
  rw [hw] at this
  cases r with
  | ok _ => exact Kinds.ok _
  | err e => exact Kinds.of_eq rfl this
  | panic => exact Kinds.panic

/-- The caller's error comes back. -/
example : (writerNew.write thriftCodecs true [.ok [.err .featureNotActive]]).1 = .err .featureNotActive := by
  decide +kernel

/-- C93: ending a file complains about a parameter exactly if the writer has already ended it. -/
theorem C93_end (cs : ThriftCodecs) (ck : Bool) (w : FileWriter) (kv : Option (List Thrift.KeyValue)) :
    ((w.end_ cs ck kv).1 = .err .invalidParameter ↔ w.offset ≠ 0 ∧ w.state ≠ .started) ∧
    (w.offset = 0 ∨ w.state = .started → FailsOos (w.end_ cs ck kv).1) ∧
    (w.start.1 = .err .invalidParameter ↔ w.offset ≠ 0) ∧ (w.offset = 0 → w.start.1 = .ok ()) := by
  have hstart : (w.autoStart.state ≠ .started) ↔ w.offset ≠ 0 ∧ w.state ≠ .started := by
    unfold FileWriter.autoStart FileWriter.start
    by_cases h : w.offset = 0 <;> simp [h]
  have hgood : w.autoStart.state = .started → FailsOos (w.end_ cs ck kv).1 := by
    intro hs
    unfold FileWriter.end_ FileWriter.endWith
    dsimp only
    rw [if_neg (by simpa using hs)]
    generalize w.autoStart = v
    cases h1 : sumI64 ck 0 (v.rowGroups.map (·.numRows)) with
    | err e => exact Kinds.of_eq h1 (sumI64_kind _ _ _)
    | panic => exact Kinds.panic
    | ok n =>
      dsimp only
      have hc : FailsOos (v.columnIndexes cs).1 := by
        unfold FileWriter.columnIndexes
        split
        · exact indexGroups_kind _ _ (fun p => writeColumnIndex_kind _ _) _ _ _
        · exact Kinds.ok _
      rcases hc' : v.columnIndexes cs with ⟨r, v2⟩
      rw [hc'] at hc
      cases r with
      | err e => exact Kinds.of_eq rfl hc
      | panic => exact Kinds.panic
      | ok _ =>
        dsimp only
        have ho : FailsOos (v2.offsetIndexes cs ck).1 := by
          unfold FileWriter.offsetIndexes
          exact indexGroups_kind _ _ (fun p => writeOffsetIndex_kind _ _ _) _ _ _
        rcases ho' : v2.offsetIndexes cs ck with ⟨r, v3⟩
        rw [ho'] at ho
        cases r with
        | err e => exact Kinds.of_eq rfl ho
        | panic => exact Kinds.panic
        | ok _ =>
          dsimp only
          have he : FailsOos (endFile cs ck (v3.fileMetadata n kv)).1 := by
            unfold endFile
            dsimp only
            split
            · exact Kinds.panic
            · exact Kinds.ok _
          rcases he' : endFile cs ck (v3.fileMetadata n kv) with ⟨r, b⟩
          rw [he'] at he
          cases r with
          | err e => exact Kinds.of_eq rfl he
          | panic => exact Kinds.panic
          | ok _ => exact Kinds.ok _
  refine ⟨⟨fun h => hstart.1 fun hs => ?_, fun h => ?_⟩, fun h => hgood ?_, ?_, ?_⟩
  · cases hgood hs _ h
  · unfold FileWriter.end_ FileWriter.endWith
    dsimp only
    rw [if_pos (hstart.2 h)]
  · by_contra hs
    have := hstart.1 hs
    rcases h with h | h
    · exact this.1 h
    · exact this.2 h
  · unfold FileWriter.start
    split <;> simp_all
  · intro h
    unfold FileWriter.start
    rw [if_pos h]

example : (writerNew.end_ thriftCodecs true none).2.offset ≠ 0 ∧
    (writerNew.end_ thriftCodecs true none).2.state ≠ .started := by decide +kernel

/-- A page with statistics, and a reader of it with a limit. -/
def statisticsReader (limit : Nat) : PageReader :=
  PageReader.new (headerCodec.ser
    { type := 0#32, uncompressedPageSize := 2#32, compressedPageSize := 2#32
      dataPageHeader := some { numValues := 5#32, encoding := 0#32, definitionLevelEncoding := 3#32
                               repetitionLevelEncoding := 3#32
                               statistics := some { maxValue := some [1#8, 2#8, 3#8, 4#8, 5#8, 6#8] } } } ++
    [1#8, 2#8]) exampleColumn (fun _ _ => true) [] limit

/-- **C93 is violated**: `InvalidParameter`, said to be about parameters "when encoding", is what decoding a
boolean page reports when the file uses another encoding (where other columns report a feature that is not
supported), and what decoding a fixed-length page reports when the column has another type; and a page header
that takes more than the limit is reported as out of specification, although the file is read with a larger
limit and the limit on the page is reported as such. -/
theorem C93_violated :
    Deser.booleanState (statePage [] 0#32 3#32 .boolean .required 0#16) = .err .invalidParameter ∧
    (Deser.nativeState (π := Unit) 4 (statePage [] 0#32 5#32 .int32 .required 0#16) none).map' (fun _ => ()) =
      .err .featureNotSupported ∧
    (Deser.fixedState (π := Unit) (statePage [] 0#32 0#32 .int32 .required 0#16) none).map' (fun _ => ()) =
      .err .invalidParameter ∧
    (PageReader.next headerCodec true (statisticsReader 5)).1 = some (.err .oos) ∧
    ((PageReader.next headerCodec true (statisticsReader 6)).1.map (·.isOk)) = some true := by
  refine ⟨rfl, by decide +kernel, by decide +kernel, by decide +kernel, by decide +kernel⟩

end Pq.Props
