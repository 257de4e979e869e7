import Verif.Lemmas.ProfilesRead
import Verif.Lemmas.Arbitrary
import Verif.Props.ArbitraryFile
import Verif.Props.Writer
/-
Property C97: what is computed without aborting does not depend on whether the build has overflow checks.
-/
namespace Pq.Props
open Spec

/-- **C97** writing: a call of `write` or `end` (of either writer), or writing a sidecar, aborts with overflow checks,
or does what it does without: the result, the bytes and the state of the writer are the same. -/
theorem C97_write (cs : ThriftCodecs) (w : FileWriter) (rowGroup : List (Res (List (Res CompressedPage))))
    (kv : Option (List Thrift.KeyValue)) (files : List (String × FileWriter)) :
    AgreesAfter (w.write cs true rowGroup) (w.write cs false rowGroup) ∧
    AgreesAfter (w.end_ cs true kv) (w.end_ cs false kv) ∧
    AgreesAfter (FileStreamer.end_ cs true w kv) (FileStreamer.end_ cs false w kv) ∧
    AgreesAfter (writeSidecar cs true files) (writeSidecar cs false files) := by
  refine ⟨write_agrees cs w rowGroup, endWith_agrees _ cs w kv, endWith_agrees _ cs w kv, ?_⟩
  unfold writeSidecar
  rcases (collectMetadatas files).bind mergeMetadatas with m | e | _
  · simp only [writeMetadataSidecar]
    rcases endFile_agrees cs m with h | h
    · left; simp only [h, Res.map']
    · right; rw [h]
  · exact .inr rfl
  · exact .inl rfl

/-- **C97** so a file that is written with overflow checks, by either writer, is the file that is written without. -/
theorem C97_file (cs : ThriftCodecs) (schema : SchemaDescriptor) (options : WriteOptions) (createdBy : Option String)
    (kv : Option (List Thrift.KeyValue)) (groups : List (List (List CompressedPage))) (n : Nat) (w' : FileWriter)
    (h : Finished cs true schema options createdBy kv groups n w') :
    Finished cs false schema options createdBy kv groups n w' := by
  obtain ⟨w0, w, hf, hw, he⟩ := h
  refine ⟨w0, w, hf, ?_, ?_⟩
  · clear he
    induction hw with
    | nil => exact .nil
    | snoc _ hw ih =>
      refine .snoc ih ?_
      rcases write_agrees cs _ _ with h | h
      · rw [hw] at h; cases h
      · rw [← h]; exact hw
  · obtain ⟨-, h1, h2, -⟩ := C97_write cs w [] kv []
    rcases he with he | he
    · rcases h1 with h | h
      · rw [he] at h; cases h
      · exact .inl (h ▸ he)
    · rcases h2 with h | h
      · rw [he] at h; cases h
      · exact .inr (h ▸ he)

/-- The hypothesis, for a file of two row groups. -/
example : ∃ n, Finished thriftCodecs true writerSchema writerOptions (some "me") (some []) writerGroups n writerEnd.2 :=
  writer_example

/-- The two differ: rows that add up to 2^63. -/
example : sumI64 true 0 [0x4000000000000000#64, 0x4000000000000000#64] = .panic ∧
    sumI64 false 0 [0x4000000000000000#64, 0x4000000000000000#64] = .ok 0x8000000000000000#64 := by
  decide +kernel

/-- **C97** reading pages, of any bytes: the page reader, the stream of pages and the indexed reader, called any number
of times: an item is an abort, or the items and what is left of the reader are the same. -/
theorem C97_pages (codec : Codec Thrift.PageHeader) (n : Nat) (r : PageReader) (s : PageStream) (i : IndexedReader) :
    (some .panic ∈ (items (PageReader.next codec true) n r).1 ∨
      items (PageReader.next codec true) n r = items (PageReader.next codec false) n r) ∧
    (some .panic ∈ (items (PageStream.next codec true) n s).1 ∨
      items (PageStream.next codec true) n s = items (PageStream.next codec false) n s) ∧
    (some .panic ∈ (items (IndexedReader.next codec true) n i).1 ∨
      items (IndexedReader.next codec true) n i = items (IndexedReader.next codec false) n i) := by
  refine ⟨items_agrees _ _ (fun r => nextFuel_agrees codec _ r) n r, items_agrees _ _ (fun s => ?_) n s,
    items_agrees _ _ (fun i => indexedNext_agrees codec i) n i⟩
  unfold PageStream.next
  cases s.failed
  · exact streamFuel_agrees codec _ _
  · exact .inr rfl

/-- **C97** compressing and decompressing a page, and the streaming compressor and decompressors over any reader of
pages that agrees. -/
theorem C97_compression {σ : Type} (cs : Codecs) (page : Page) (compressed : CompressedPage) (cap : Nat)
    (buffer : List Byte) (options : CompressionOptions) (c : Compressor) (it it' : PageIter σ)
    (hn : ∀ s, AgreesItem (it.next s) (it'.next s)) (hs : it.swap = it'.swap) (d : Decompressor σ)
    (b : BasicDecompressor σ) :
    Agrees (compressPage cs true page buffer options) (compressPage cs false page buffer options) ∧
    AgreesAfter (c.advance cs true) (c.advance cs false) ∧
    Agrees (decompressPage cs true compressed cap buffer) (decompressPage cs false compressed cap buffer) ∧
    AgreesAfter (d.advance cs true it cap) (d.advance cs false it' cap) ∧
    AgreesAfter (b.advance cs true it.next (cap, buffer)) (b.advance cs false it'.next (cap, buffer)) :=
  ⟨compressPage_agrees cs page buffer options, compressorAdvance_agrees cs c, decompressPage_agrees cs _ cap buffer,
    decompressorAdvance_agrees cs it it' hn hs cap d, basicAdvance_agrees cs _ _ hn _ b⟩

/-- The hypotheses, for the page reader. -/
example (codec : Codec Thrift.PageHeader) :
    (∀ s, AgreesItem ((PageReader.iter codec true).next s) ((PageReader.iter codec false).next s)) ∧
    (PageReader.iter codec true).swap = (PageReader.iter codec false).swap :=
  ⟨fun s => nextFuel_agrees codec _ s, rfl⟩

/-- The two differ: a page that aborts the decompressor is refused without overflow checks. -/
example : firstPage true (arbitraryFile overflowHeader [("a", 40#64)]) = .panic ∧
    firstPage false (arbitraryFile overflowHeader [("a", 40#64)]) = .err .oos := by
  decide +kernel

/-- **C97** metadata: the schema of any elements, the metadata of a file converted back, its column indexes and page
locations from any bytes, and the pages of selected rows. -/
theorem C97_metadata (elements : List Thrift.SchemaElement) (m : FileMetaData)
    (columnCodec : Codec Thrift.ColumnIndex) (offsetCodec : Codec Thrift.OffsetIndex) (file : List Byte)
    (chunks : List ColumnChunkMetaData) (intervals : List Interval) (locations : List Thrift.PageLocation)
    (numRows : Nat) :
    Agrees (SchemaDescriptor.tryFromThriftCk true elements) (SchemaDescriptor.tryFromThriftCk false elements) ∧
    Agrees (m.intoThrift true) (m.intoThrift false) ∧
    Agrees (readColumnsIndexes columnCodec true file chunks) (readColumnsIndexes columnCodec false file chunks) ∧
    Agrees (readPagesLocations offsetCodec true file chunks) (readPagesLocations offsetCodec false file chunks) ∧
    Agrees (selectPages true intervals locations numRows) (selectPages false intervals locations numRows) :=
  ⟨tryFromThriftCk_agrees elements, fileIntoThrift_agrees m, readColumnsIndexes_agrees _ _ _,
    readPagesLocations_agrees _ _ _, selectPages_agrees _ _ _⟩

/-- The two differ: an interval that ends beyond 2^64. -/
example : selectPages true [⟨2 ^ 64 - 1, 1⟩] [⟨4#64, 10#32, 0#64⟩] 3 = .panic ∧
    selectPages false [⟨2 ^ 64 - 1, 1⟩] [⟨4#64, 10#32, 0#64⟩] 3 = .ok [⟨4, 10, [], 3⟩] := by decide +kernel

/-- **C97** encodings: the delta encoders and decoders, the hybrid decoder, and the splitting of runs and values by
selected rows, whatever the iterator of runs. -/
theorem C97_encodings {σ α : Type} (xs : List I64) (items : List (List Byte)) (bytes : List Byte) (n N : Nat)
    (runs : σ → Res (Option Deser.Encoded × σ)) (filtered : Deser.FilteredIter σ)
    (next : σ → Res (Option α × σ)) (sliced : Deser.SliceIter σ) :
    Agrees (Delta.encode true xs) (Delta.encode false xs) ∧
    Agrees (DeltaLength.encode true items) (DeltaLength.encode false items) ∧
    Agrees (DeltaByteArray.encode true items) (DeltaByteArray.encode false items) ∧
    Agrees (Delta.decode true bytes) (Delta.decode false bytes) ∧
    Agrees (DeltaLength.decode true bytes) (DeltaLength.decode false bytes) ∧
    Agrees (DeltaByteArray.decode true bytes) (DeltaByteArray.decode false bytes) ∧
    Agrees (Rle.decodeCk true bytes n N) (Rle.decodeCk false bytes n N) ∧
    Agrees (filtered.next true runs) (filtered.next false runs) ∧
    Agrees (sliced.next true next) (sliced.next false next) := by
  refine ⟨deltaEncode_agrees xs, lengthEncode_agrees items, byteArrayEncode_agrees items, Delta.decode_checked bytes,
    DeltaLength.decode_checked bytes, DeltaByteArray.decode_checked bytes, ?_, filteredNext_agrees runs filtered,
    sliceNext_agrees next sliced⟩
  have h' : Rle.decodeCk false bytes n N = Rle.decode bytes n N := by
    rcases Rle.decodeCk_eq false bytes n N with h | ⟨h, _⟩
    · exact h
    · cases h
  rw [h']
  rcases Rle.decodeCk_eq true bytes n N with h | ⟨_, h, _⟩
  · exact .inr h
  · exact .inl h

/-- The two differ, and agree: values whose difference is beyond 2^63, and others. -/
example : Delta.encode true [0x7FFFFFFFFFFFFFFF#64, 0x8000000000000000#64] = .panic ∧
    (Delta.encode false [0x7FFFFFFFFFFFFFFF#64, 0x8000000000000000#64]).isOk = true ∧
    (Delta.encode true [1#64, 2#64]).isOk = true := by decide +kernel

/-- **C97** statistics of chunks, and bloom filters of any bytes. -/
theorem C97_bloom (stats : List (Option Statistics)) (bitset : List Byte) (hash : BitVec 64) :
    Agrees (reduceStatistics true stats) (reduceStatistics false stats) ∧
    Agrees (Bloom.isInSet true bitset hash) (Bloom.isInSet false bitset hash) ∧
    Agrees (Bloom.insert true bitset hash) (Bloom.insert false bitset hash) :=
  ⟨reduceStatistics_agrees stats, isInSet_agrees bitset hash, bloomInsert_agrees bitset hash⟩

/-- A page of booleans with this many nulls. -/
def nullsOnly (n : I64) : Option Statistics :=
  some (.boolean { nullCount := some n, distinctCount := none, minValue := none, maxValue := none })

/-- The two differ: two pages with as many nulls as fit. -/
example : reduceStatistics true [nullsOnly 0x7FFFFFFFFFFFFFFF#64, nullsOnly 1#64] = .panic ∧
    reduceStatistics false [nullsOnly 0x7FFFFFFFFFFFFFFF#64, nullsOnly 1#64] =
      .ok (nullsOnly 0x8000000000000000#64) := by
  decide +kernel

end Pq.Props
