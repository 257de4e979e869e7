import Mathlib.Data.List.Infix
import Verif.Lemmas.Sink
import Verif.Props.Writer
/-
Property theorems about writing to a sink that may fail: C64, C65, C66.
-/
namespace Pq.Props

open Spec

variable {σ : Type} {o : Output σ} {v : SinkView σ}

/-! ### C64 -/

/-- The thrift protocol, writing a struct to a disk in two pieces. -/
def diskOutput : Output Disk := { sink := Disk.sink, cut := fun bytes => [bytes.take 1, bytes.drop 1] }

theorem diskOutput_lawful : LawfulOutput diskOutput Disk.view :=
  ⟨disk_lawful, fun bytes => by
    simp only [diskOutput, List.flatten_cons, List.flatten_nil, List.append_nil, List.take_append_drop]⟩

/-- The calls of the example on a disk with this much room, failing after these numbers of bytes. -/
def diskRun (room : Nat) (faults : List Nat) : List (Res (Option Nat)) × SinkWriter Disk :=
  callsTo diskOutput thriftCodecs true false
    (.new { bytes := [], room, faults } writerSchema writerOptions (some "me"))
    (fileCalls writerGroups (some []))

/-- **C64** for every sink that may fail at any call after accepting any part of what it was given, every
way in which the thrift protocol cuts its bytes, both writers and every sequence of calls: as long as
nothing failed the results, the writer and the bytes are those without failures. If something failed,
then there is a first call during which it did. This call returned an error; the results before are
those without failures; and at its end the sink had what the calls before it had written, and of what it
would have written without failures a part from the start. -/
theorem C64_faults (h : LawfulOutput o v) (cs : ThriftCodecs) (ck async : Bool) (w : SinkWriter σ)
    (hw : v.failed w.sink = false) (calls : List WriterCall) :
    let run := callsTo o cs ck async w calls
    (v.failed run.2.sink = false →
      run.1 = (callsOn cs ck async (v.writer w) calls).1 ∧
      v.writer run.2 = (callsOn cs ck async (v.writer w) calls).2) ∧
    (v.failed run.2.sink = true → ∃ before call after, calls = before ++ call :: after ∧
      run.1.take before.length = (callsOn cs ck async (v.writer w) before).1 ∧
      run.1[before.length]? = some (.err .oos) ∧
      let good := (callsOn cs ck async (v.writer w) before).2
      let bad := (callsTo o cs ck async w (before ++ [call])).2
      good.out <+: v.held bad.sink ∧ v.held bad.sink <+: (callOn cs ck async good call).2.out) := by
  intro run
  induction calls generalizing w with
  | nil =>
    refine ⟨fun _ => ⟨rfl, rfl⟩, fun hf => ?_⟩
    rw [show run.2 = w from rfl, hw] at hf
    cases hf
  | cons c calls ih =>
    have hc := SimCall.call h cs ck async w c
    rcases hc with ⟨h1, h2, h3⟩ | ⟨h1, h2, h3, h4⟩
    · obtain ⟨i1, i2⟩ := ih (callTo o cs ck async w c).2 (h3.trans hw)
      constructor
      · intro hf
        obtain ⟨j1, j2⟩ := i1 hf
        rw [h2] at j1 j2
        exact ⟨by simp only [run, callsTo, callsOn, h1, j1], j2⟩
      · intro hf
        obtain ⟨before, call, after, j1, j2, j3, j4, j5⟩ := i2 hf
        rw [h2] at j2 j4 j5
        refine ⟨c :: before, call, after, by rw [j1, List.cons_append], ?_, ?_, ?_, ?_⟩
        · simp only [run, callsTo, List.length_cons, List.take_succ_cons, callsOn, h1, j2]
        · simpa only [run, callsTo, List.length_cons, List.getElem?_cons_succ] using j3
        · exact j4
        · exact j5
    · have hf := callsTo_failed h cs ck async calls _ h2
      refine ⟨fun hf' => ?_, fun _ => ⟨[], c, calls, rfl, rfl, ?_, ?_, ?_⟩⟩
      · rw [show run.2 = (callsTo o cs ck async (callTo o cs ck async w c).2 calls).2 from rfl, hf] at hf'
        cases hf'
      · simp only [run, callsTo, List.length_nil, List.getElem?_cons_zero, h1]
      · exact h3
      · exact h4

/-- With enough room nothing fails; with less, the second row group fails, or the end; a disk failing for a
while also fails the end. -/
example : LawfulOutput diskOutput Disk.view ∧
    (diskRun 2000 []).2.sink.failed = false ∧
    ((diskRun 300 []).1.map (·.isOk) = [true, false, false] ∧ (diskRun 300 []).2.sink.failed = true) ∧
    ((diskRun 2000 [420]).1.map (·.isOk) = [true, true, false] ∧
      (diskRun 2000 [420]).2.sink.bytes = writerEnd.2.out.take 420) :=
  ⟨diskOutput_lawful, by decide +kernel⟩

/-- **C64** no failure is lost: if all row groups and the end of the file were reported as written, then
the sink has, flushed, a whole file (see C40 to C44 and C59 for what that is), of which `n` is the length
returned. -/
theorem C64_success (h : LawfulOutput o v) (cs : ThriftCodecs) (ck async : Bool) (s : σ)
    (hs : v.held s = []) (hf : v.failed s = false) (schema : SchemaDescriptor) (options : WriteOptions)
    (createdBy : Option String) (groups : List (List (List CompressedPage)))
    (kv : Option (List Thrift.KeyValue)) :
    let run := callsTo o cs ck async (.new s schema options createdBy) (fileCalls groups kv)
    (∀ r ∈ run.1, r.isOk = true) →
    ∃ n w, Finished cs ck schema options createdBy kv groups n w ∧
      run.1.getLast? = some (.ok (some n)) ∧
      v.held run.2.sink = w.out ∧ v.safe run.2.sink = w.out := by
  intro run hok
  have hv : v.writer (SinkWriter.new s schema options createdBy) =
      FileWriter.new schema options createdBy := by
    simp only [SinkView.writer, SinkWriter.new, hs]
    rfl
  have hc := C64_faults h cs ck async (.new s schema options createdBy) hf (fileCalls groups kv)
  have hnot : v.failed run.2.sink = false := by
    cases hx : v.failed run.2.sink with
    | false => rfl
    | true =>
      obtain ⟨before, call, after, -, -, h3, -⟩ := hc.2 hx
      have := hok _ (List.mem_of_getElem? h3)
      cases this
  obtain ⟨h1, h2⟩ := hc.1 hnot
  rw [hv] at h1 h2
  obtain ⟨w1, n, k1, k2, k3⟩ := callsOn_finished (async := async) (before := [])
    (groups := groups) (kv := kv) (.nil (cs := cs) (ck := ck) (w0 := FileWriter.new schema options createdBy))
    (by rw [← h1]; exact hok)
  refine ⟨n, run.2 |> v.writer, ⟨_, w1, .inl rfl, by simpa using k1, ?_⟩, by rw [← k2, ← h1], rfl, ?_⟩
  · rw [h2, ← k3]
    cases async
    · exact .inl rfl
    · exact .inr rfl
  · have hend : ∃ w2 : SinkWriter σ, run.2 = (callTo o cs ck async w2 (.end_ kv)).2 ∧
        (callTo o cs ck async w2 (.end_ kv)).1 ∈ run.1 := by
      have ha := callsTo_append (o := o) cs ck async (.new s schema options createdBy)
        (groups.map fun g => .write (g.map fun pages => .ok (pages.map .ok))) [.end_ kv]
      refine ⟨_, congrArg Prod.snd ha, ?_⟩
      rw [show run.1 = _ from congrArg Prod.fst ha]
      simp [callsTo]
    obtain ⟨w2, he, hm⟩ := hend
    have hm := hok _ hm
    rw [he]
    change v.safe _ = v.held _
    simp only [callTo] at hm ⊢
    cases async with
    | true =>
      simp only [if_true] at hm ⊢
      generalize hr : w2.endStream o cs ck kv = r at hm
      obtain ⟨r, w3⟩ := r
      cases r with
      | ok n => exact endWith_safe h hr
      | err e => cases hm
      | panic => cases hm
    | false =>
      simp only [Bool.false_eq_true, if_false] at hm ⊢
      generalize hr : w2.end_ o cs ck kv = r at hm
      obtain ⟨r, w3⟩ := r
      cases r with
      | ok n => exact endWith_safe h hr
      | err e => cases hm
      | panic => cases hm

/-- With enough room the file of the example is written. -/
example :
    (diskRun 2000 []).1.map (·.isOk) = [true, true, true] ∧
      (diskRun 2000 []).2.sink.bytes = writerEnd.2.out ∧
      (diskRun 2000 []).2.sink.flushed = writerEnd.2.out := by
  decide +kernel

/-- **C64** for a file with metadata only. -/
theorem C64_sidecar (h : LawfulOutput o v) (cs : ThriftCodecs) (ck : Bool) (md : Thrift.FileMetaData)
    (s : σ) :
    let (r, s') := writeMetadataSidecarTo o cs ck md s
    (r = (writeMetadataSidecar cs ck md).1 ∧
      v.held s' = v.held s ++ (writeMetadataSidecar cs ck md).2 ∧ v.failed s' = v.failed s) ∨
    (r = .err .oos ∧ v.failed s' = true ∧
      ∃ part, part <+: (writeMetadataSidecar cs ck md).2 ∧ v.held s' = v.held s ++ part) :=
  Sim.sidecar h cs ck md s

example : LawfulOutput diskOutput Disk.view := diskOutput_lawful

/-! ### C65 -/

/-- **C65 (partial)** a file cut anywhere, as by a crash while it is written: if its metadata is read at
all, then the cut is right after magic bytes that belong to the data or to the metadata; so a file with
magic bytes only at its start and its end is refused, with an error, wherever it is cut. Missing: files
with data or metadata containing the magic bytes (`C65_violated`). -/
theorem C65_cut_partial (cs : ThriftCodecs) (ck : Bool) (schema : SchemaDescriptor)
    (options : WriteOptions) (createdBy : Option String) (kv : Option (List Thrift.KeyValue))
    (groups : List (List (List CompressedPage))) (n : Nat) (w : FileWriter)
    (_ : Finished cs ck schema options createdBy kv groups n w) (k : Nat) (hk : k < w.out.length)
    (hmagic : ∀ i, 0 < i → i + 4 < w.out.length → (w.out.drop i).take 4 ≠ par1) :
    readMetadata cs.file (w.out.take k) = .err .oos := by
  refine C39_rejects cs.file (w.out.take k) ?_
  have hl : (w.out.take k).length = k := by simp only [List.length_take]; omega
  rw [hl]
  by_cases h12 : k < 12
  · exact .inl h12
  · refine .inr (.inl fun hp => hmagic (k - 4) (by omega) (by omega) ?_)
    rw [List.drop_take] at hp
    rwa [show k - (k - 4) = 4 by omega] at hp

/-- The file of the example has magic bytes only at its start and its end. -/
example : ∀ i, 0 < i → i + 4 < writerEnd.2.out.length → (writerEnd.2.out.drop i).take 4 ≠ par1 := by
  have h : ∀ t ∈ writerEnd.2.out.tail.tails, 4 < t.length → t.take 4 ≠ par1 := by decide +kernel
  intro i h0 hi
  refine h _ ?_ (by simp only [List.length_drop]; omega)
  rw [List.mem_tails, ← List.drop_one, show i = 1 + (i - 1) by omega, ← List.drop_drop]
  exact List.drop_suffix _ _

/-- **C65** and wherever a file is cut, reading its metadata does not panic. -/
theorem C65_no_panic (codec : Codec Thrift.FileMetaData) (hc : SaneCodec codec) (file : List Byte)
    (k : Nat) : readMetadata codec (file.take k) ≠ .panic :=
  C39_no_panic codec hc (file.take k) _

example : SaneCodec fileCodec := Compact.codecOf_sane Compact.good_fileMetaData

/-- A file without row groups. -/
def crashInner : List Byte := (writerNew.end_ thriftCodecs true none).2.out

/-- A file with a page that has this file as its data. -/
def crashOuter : Res Nat × FileWriter :=
  (writerThen writerNew [[writerPage "a" [⟨0, 1⟩] 1#32 crashInner (writerStatistics 1#8)],
    [writerPage "b" [⟨0, 1⟩] 1#32 [1#8, 0#8, 0#8, 0#8] (writerStatistics 1#8)]]).end_ thriftCodecs true none

/-- **C65 is violated**: a file cut after a page whose data ends like a file is read as if it were
complete, and has no row groups. (The format has no means against this.) -/
theorem C65_violated :
    crashOuter.1.isOk = true ∧
    ∃ k < crashOuter.2.out.length,
      (match readMetadata thriftCodecs.file (crashOuter.2.out.take k) with
        | .ok fm => some fm.rowGroups.length
        | _ => none) = some 0 ∧
      (match readMetadata thriftCodecs.file crashOuter.2.out with
        | .ok fm => some fm.rowGroups.length
        | _ => none) = some 1 :=
  ⟨by decide +kernel,
    4 + (pageBytes headerCodec
      (writerPage "a" [⟨0, 1⟩] 1#32 crashInner (writerStatistics 1#8))).length,
    by decide +kernel, by decide +kernel, by decide +kernel⟩

/-! ### C66 -/

/-- **C66 (partial)** a row group that could not be written may be written again if nothing of it got to
the sink: the writer is as before. Missing: sinks that accepted a part before they failed, and failures
of `end` (`C66_violated`). -/
theorem C66_retry_partial (cs : ThriftCodecs) (ck async : Bool) (w w' : SinkWriter σ) (e : Err)
    (hstarted : w.rest.offset ≠ 0) (rowGroup : List (Res (List (Res CompressedPage))))
    (he : callTo o cs ck async w (.write rowGroup) = (.err e, w'))
    (hheld : v.held w'.sink = v.held w.sink) : v.writer w' = v.writer w := by
  simp only [callTo, SinkWriter.write, SinkWriter.autoStart, if_neg hstarted,
    SinkWriter.writeStarted] at he
  generalize writeRowGroupTo o cs ck w.rest.offset w.rest.schema.leaves rowGroup
    w.rest.rowGroups.length w.sink = m at he
  obtain ⟨r, s⟩ := m
  cases r with
  | ok x => cases he
  | panic => cases he
  | err e' =>
    simp only [Prod.mk.injEq] at he
    obtain ⟨-, rfl⟩ := he
    simp only [SinkView.writer] at hheld ⊢
    rw [hheld]

/-- A disk that fails before the second row group, once: written again, the file is that without
failures. -/
example :
    let calls := [.start, .write (writerCall writerGroup1), .write (writerCall writerGroup2),
      .write (writerCall writerGroup2), .end_ (some [])]
    let first := callsTo diskOutput thriftCodecs true false
      (.new { bytes := [], room := 2000 } writerSchema writerOptions (some "me")) (calls.take 2)
    let run := callsTo diskOutput thriftCodecs true false
      (.new { bytes := [], room := 2000, faults := [first.2.sink.bytes.length] }
        writerSchema writerOptions (some "me")) calls
    run.1.map (·.isOk) = [true, true, false, true, true] ∧ run.2.sink.bytes = writerEnd.2.out := by
  decide +kernel

/-- Where the metadata of a file says that the pages of its columns and their offset indexes are, and
whether they are there: the bytes of the pages, and the length of the index at its end. -/
def columnsThere (w : FileWriter) (groups : List (List (List CompressedPage))) : List (List (Bool × Bool)) :=
  match w.metadata with
  | none => []
  | some md => (md.rowGroups.zip groups).map fun rg => (rg.1.columns.zip rg.2).map fun c =>
    ((c.1.metaData.map fun m =>
        decide (c.2 = [] ∨ region w.out (rangeOf m).1.toNat (rangeOf m).2.toNat = chunkBytes headerCodec c.2))
      |>.getD false,
     (match c.1.offsetIndexOffset, c.1.offsetIndexLength with
      | some a, some b =>
        (match ((Compact.codecOf Compact.rOffsetIndex).parse 10000 (region w.out a.toNat b.toNat)).1 with
          | .ok oi => decide (oi.pageLocations.length = (c.2.filter isData).length)
          | _ => false)
      | _, _ => false))

/-- The calls of the example, that of index `i` being made twice, on a disk failing once after this many
bytes. -/
def retryRun (i : Nat) (fault : Nat) : List (Res (Option Nat)) × SinkWriter Disk :=
  let calls := fileCalls writerGroups (some [])
  callsTo diskOutput thriftCodecs true false
    (.new { bytes := [], room := 4000, faults := [fault] } writerSchema writerOptions (some "me"))
    (calls.take (i + 1) ++ calls.drop i)

/-- **C66 is violated**: a disk that fails once, in the middle of a call that is then made again and
succeeds, as do all others. If it fails within the magic bytes, the file does not begin with them and
neither the pages nor the indexes are where the metadata says. In all cases the metadata of the file is
read without complaint. -/
theorem C66_violated :
    (columnsThere writerEnd.2 writerGroups = [[(true, true), (true, true)], [(true, true), (true, true)]]) ∧
    (let run := retryRun 0 2
     run.1.map (·.isOk) = [false, true, true, true] ∧
     run.2.sink.bytes.take 4 ≠ par1 ∧
     (readMetadata fileCodec run.2.sink.bytes).isOk = true ∧
     columnsThere (Disk.view.writer run.2) writerGroups =
       [[(false, false), (false, false)], [(false, false), (true, false)]]) :=
  ⟨by decide +kernel, by decide +kernel, by decide +kernel, by decide +kernel, by decide +kernel⟩

/-- **C66 is violated** likewise if the disk fails within the second row group: its pages and all
indexes are elsewhere (`C66_violated`). -/
theorem C66_violated_group :
    let run := retryRun 1 230
    run.1.map (·.isOk) = [true, false, true, true] ∧
    (readMetadata fileCodec run.2.sink.bytes).isOk = true ∧
    columnsThere (Disk.view.writer run.2) writerGroups =
      [[(true, false), (true, false)], [(false, false), (true, false)]] :=
  ⟨by decide +kernel, by decide +kernel, by decide +kernel⟩

/-- **C66 is violated** likewise if the disk fails within the footer: all indexes are elsewhere. -/
theorem C66_violated_end :
    let run := retryRun 2 (writerEnd.2.out.length - 3)
    run.1.map (·.isOk) = [true, true, false, true] ∧
    (readMetadata fileCodec run.2.sink.bytes).isOk = true ∧
    columnsThere (Disk.view.writer run.2) writerGroups =
      [[(true, false), (true, false)], [(true, false), (true, false)]] :=
  ⟨by decide +kernel, by decide +kernel, by decide +kernel⟩

end Pq.Props
