import Verif.Lemmas.ProfilesIo
import Verif.Props.Sink
import Verif.Props.PageSource
/-
Property C97 for sinks that may fail, and for readers that deliver pieces and may fail.
-/
namespace Pq.Props
open Spec

/-- **C97** writing to any sink, that may fail at any call: a sequence of calls of either writer, in any order, aborts
with overflow checks, or all the results, what the sink has been given and the state of the writer are those without. -/
theorem C97_sink {σ : Type} (o : Output σ) (cs : ThriftCodecs) (async : Bool) :
    ∀ (calls : List WriterCall) (w : SinkWriter σ),
    .panic ∈ (callsTo o cs true async w calls).1 ∨ callsTo o cs true async w calls = callsTo o cs false async w calls
  | [], _ => .inr rfl
  | c :: calls, w => by
    have hc : AgreesAfter (callTo o cs true async w c) (callTo o cs false async w c) := by
      have map' : ∀ {α β : Type} {x y : Res α × SinkWriter σ} (f : α → β), AgreesAfter x y →
          AgreesAfter (x.1.map' f, x.2) (y.1.map' f, y.2) := by
        intro α β x y f h
        rcases h with h | h
        · left; show x.1.map' f = .panic; rw [h]; rfl
        · right; rw [h]
      cases c with
      | start => exact .inr rfl
      | write rowGroup => exact map' _ (sinkWrite_agrees o cs w rowGroup)
      | end_ kv =>
        cases async
        · exact map' some (sinkEndWith_agrees o cs _ w kv)
        · exact map' some (sinkEndWith_agrees o cs _ w kv)
    rw [callsTo, callsTo]
    rcases hc with h | h
    · left; rw [h]; exact List.mem_cons_self
    · rw [h]
      rcases C97_sink o cs async calls (callTo o cs false async w c).2 with h | h
      · left; exact List.mem_cons_of_mem _ h
      · right; rw [h]

/-- A writer that has been told of two row groups with 2^62 rows. -/
def manyRows : SinkWriter Disk :=
  let group : Thrift.RowGroup := { columns := [], totalByteSize := 0#64, numRows := 0x4000000000000000#64 }
  let w := SinkWriter.new { bytes := [], room := 2000 } writerSchema writerOptions none
  { w with rest := { w.rest with offset := 4, state := .started, rowGroups := [group, group] } }

/-- The two differ at the end of this file, and agree on a disk with little room. -/
example : (callsTo diskOutput thriftCodecs true false manyRows [.end_ none]).1 = [.panic] ∧
    (callsTo diskOutput thriftCodecs false false manyRows [.end_ none]).1.map (·.isOk) = [true] ∧
    (diskRun 300 []).1.map (·.isOk) = [true, false, false] := by
  decide +kernel

/-- **C97** the same for a sidecar. -/
theorem C97_sink_sidecar {σ : Type} (o : Output σ) (cs : ThriftCodecs) (metadata : Thrift.FileMetaData) (s : σ) :
    AgreesAfter (writeMetadataSidecarTo o cs true metadata s) (writeMetadataSidecarTo o cs false metadata s) :=
  writeMetadataSidecarTo_agrees o cs metadata s

/-- A sidecar on a disk with enough room, and with too little. -/
example :
    let run := fun ck room => (writeMetadataSidecarTo diskOutput thriftCodecs ck
      (writerEnd.2.fileMetadata 3#64 none) { bytes := [], room }).1.isOk
    run true 2000 = true ∧ run false 2000 = true ∧ run true 20 = false ∧ run false 20 = false := by
  decide +kernel

/-- **C97** reading from any reader, that delivers pieces and may fail: an item of a page reader, a page stream or an
indexed reader is an abort, or the items, what is left, and the state of the reader are the same; so are the indexes. -/
theorem C97_sources {σ : Type} (i : Input σ) (p : Protocol Thrift.PageHeader) (calls fuel n : Nat)
    (codec : Codec Thrift.PageHeader) (columnCodec : Codec Thrift.ColumnIndex)
    (offsetCodec : Codec Thrift.OffsetIndex) (chunks : List ColumnChunkMetaData)
    (r : PageReader) (st : PageStream) (x : IndexedReader) (s : σ) :
    (some .panic ∈ (items (PageReader.nextFuelFrom i p true calls fuel) n (r, s)).1 ∨
      items (PageReader.nextFuelFrom i p true calls fuel) n (r, s) =
        items (PageReader.nextFuelFrom i p false calls fuel) n (r, s)) ∧
    (some .panic ∈ (items (PageStream.nextFrom i p true calls fuel) n (st, s)).1 ∨
      items (PageStream.nextFrom i p true calls fuel) n (st, s) =
        items (PageStream.nextFrom i p false calls fuel) n (st, s)) ∧
    (some .panic ∈ (items (IndexedReader.nextFrom i true codec) n (x, s)).1 ∨
      items (IndexedReader.nextFrom i true codec) n (x, s) = items (IndexedReader.nextFrom i false codec) n (x, s)) ∧
    AgreesAfter (readColumnsIndexesFrom i true columnCodec chunks s)
      (readColumnsIndexesFrom i false columnCodec chunks s) ∧
    AgreesAfter (readPagesLocationsFrom i true offsetCodec chunks s)
      (readPagesLocationsFrom i false offsetCodec chunks s) :=
  ⟨items_agrees _ _ (nextFuelFrom_agrees i p calls fuel) n _,
    items_agrees _ _ (streamNextFrom_agrees i p calls fuel) n _,
    items_agrees _ _ (indexedNextFrom_agrees i codec) n _,
    readColumnsIndexesFrom_agrees i columnCodec chunks s, readPagesLocationsFrom_agrees i offsetCodec chunks s⟩

/-- The two differ: a page after a number of values that is nearly as much as fits. The reader has delivered the same
pieces. -/
example :
    let r := { PageReader.new [] exampleColumn (fun _ _ => true) [] 1000 with
      totalNumValues := 0x7FFFFFFFFFFFFFFF#64, seenNumValues := 0x7FFFFFFFFFFFFFFE#64 }
    let run := fun ck => items (PageReader.nextFuelFrom (tapeInput exampleFile)
      (Compact.protocolOf Compact.rPageHeader) ck 200 200) 2 (r, { pos := 4, sizes := [1, 3, 2], faults := [] })
    buffersOf (run true).1 = [some (.ok [1#8, 2#8, 3#8, 4#8]), some .panic] ∧
    buffersOf (run false).1 = [some (.ok [1#8, 2#8, 3#8, 4#8]), some (.ok [2#8, 1#8, 1#8])] := by
  decide +kernel

/-- **C97** the reader of ranges of a remote object: a poll, and a read that is awaited, abort or give the same bytes
and leave the same state, whatever the answers to the requests are. -/
theorem C97_ranges (get : RangeGet) (depth polls : Nat) (s : RangedStreamer) (n : Nat) :
    ((s.pollRead true get depth n).1 = .panic ∨ s.pollRead true get depth n = s.pollRead false get depth n) ∧
    ((s.awaitRead true get depth polls n).1 = .panic ∨
      s.awaitRead true get depth polls n = s.awaitRead false get depth polls n) :=
  ⟨pollRead_agrees get depth s n, awaitRead_agrees get depth polls s n⟩

/-- The two differ: the last byte before 2^64. -/
example :
    let s : RangedStreamer := { RangedStreamer.new 10 4 with
      pos := 2 ^ 64 - 1, state := .hasChunk { start := 2 ^ 64 - 1, data := [7#8] } }
    let get : RangeGet := fun _ _ _ => { pending := 0, result := none }
    (s.pollRead true get 5 1).1 = .panic ∧ (s.pollRead false get 5 1).1 = .ready [7#8] := by
  decide +kernel

end Pq.Props
