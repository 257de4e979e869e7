import Verif.Model.Sink
import Verif.Spec.Writer
/-
Model-independent description of a sink that may fail, and of histories of calls on a writer to it.
-/
namespace Pq.Spec

/-- What can be observed of a sink: the bytes it has accepted, those of them that are safe (on disk), and
whether a call of it has failed so far. -/
structure SinkView (σ : Type) where
  held : σ → List Byte
  safe : σ → List Byte
  failed : σ → Bool

/-- A sink that appends what it is given; when it fails, it may have accepted any part of it from the
start, and it may fail or not at any later call. After a flush everything accepted is safe. -/
structure LawfulSink {σ : Type} (sink : Sink σ) (v : SinkView σ) : Prop where
  write_ok : ∀ s s' bytes, sink.writeAll s bytes = (true, s') →
    v.held s' = v.held s ++ bytes ∧ v.failed s' = v.failed s
  write_err : ∀ s s' bytes, sink.writeAll s bytes = (false, s') →
    (∃ part, part <+: bytes ∧ v.held s' = v.held s ++ part) ∧ v.failed s' = true
  flush_ok : ∀ s s', sink.flush s = (true, s') →
    v.held s' = v.held s ∧ v.failed s' = v.failed s ∧ v.safe s' = v.held s'
  flush_err : ∀ s s', sink.flush s = (false, s') → v.held s' = v.held s ∧ v.failed s' = true

/-- A lawful sink, and a protocol that writes all the bytes of a struct in order, in any pieces. -/
structure LawfulOutput {σ : Type} (o : Output σ) (v : SinkView σ) : Prop where
  sink : LawfulSink o.sink v
  cut : ∀ bytes, (o.cut bytes).flatten = bytes

/-- The writer on a sink that does not fail, with the same fields and what the sink has accepted. -/
def SinkView.writer {σ : Type} (v : SinkView σ) (w : SinkWriter σ) : FileWriter :=
  { w.rest with out := v.held w.sink }

/-- A call and its result (`some n` for `end`), without failures of the sink; `async` for `FileStreamer`. -/
def callOn (cs : ThriftCodecs) (ck async : Bool) (w : FileWriter) :
    WriterCall → Res (Option Nat) × FileWriter
  | .start => (w.start.1.map' fun _ => none, w.start.2)
  | .write rowGroup =>
    ((w.write cs ck rowGroup).1.map' fun _ => none, (w.write cs ck rowGroup).2)
  | .end_ kv =>
    let r := if async then FileStreamer.end_ cs ck w kv else w.end_ cs ck kv
    (r.1.map' some, r.2)

/-- A call and its result on a sink that may fail. -/
def callTo {σ : Type} (o : Output σ) (cs : ThriftCodecs) (ck async : Bool) (w : SinkWriter σ) :
    WriterCall → Res (Option Nat) × SinkWriter σ
  | .start => ((w.start o).1.map' fun _ => none, (w.start o).2)
  | .write rowGroup =>
    ((w.write o cs ck rowGroup).1.map' fun _ => none, (w.write o cs ck rowGroup).2)
  | .end_ kv =>
    let r := if async then w.endStream o cs ck kv else w.end_ o cs ck kv
    (r.1.map' some, r.2)

/-- The results of some calls and the writer after them. -/
def callsOn (cs : ThriftCodecs) (ck async : Bool) :
    FileWriter → List WriterCall → List (Res (Option Nat)) × FileWriter
  | w, [] => ([], w)
  | w, c :: calls =>
    ((callOn cs ck async w c).1 :: (callsOn cs ck async (callOn cs ck async w c).2 calls).1,
      (callsOn cs ck async (callOn cs ck async w c).2 calls).2)

/-- The results of some calls on a sink that may fail, and the writer after them. -/
def callsTo {σ : Type} (o : Output σ) (cs : ThriftCodecs) (ck async : Bool) :
    SinkWriter σ → List WriterCall → List (Res (Option Nat)) × SinkWriter σ
  | w, [] => ([], w)
  | w, c :: calls =>
    ((callTo o cs ck async w c).1 :: (callsTo o cs ck async (callTo o cs ck async w c).2 calls).1,
      (callsTo o cs ck async (callTo o cs ck async w c).2 calls).2)

/-- The calls writing these row groups and ending the file. -/
def fileCalls (groups : List (List (List CompressedPage))) (kv : Option (List Thrift.KeyValue)) :
    List WriterCall :=
  groups.map (fun g => .write (g.map fun pages => .ok (pages.map .ok))) ++ [.end_ kv]

/-! ### A disk -/

/-- A disk: the bytes written, the bytes flushed, the room left, and the numbers of bytes after which it
fails once (counted from the last failure), as when a write is interrupted. -/
structure Disk where
  bytes : List Byte
  flushed : List Byte := []
  room : Nat
  faults : List Nat := []
  failed : Bool := false

/-- Writing to the disk: up to the room left, and up to the next fault. -/
def Disk.sink : Sink Disk where
  writeAll d b :=
    match d.faults with
    | k :: faults =>
      if b.length ≤ k then
        if b.length ≤ d.room then
          (true, { d with bytes := d.bytes ++ b, room := d.room - b.length
                          faults := (k - b.length) :: faults })
        else (false, { d with bytes := d.bytes ++ b.take d.room, room := 0, failed := true })
      else (false, { d with bytes := d.bytes ++ b.take (min k d.room)
                            room := d.room - min k d.room, faults, failed := true })
    | [] =>
      if b.length ≤ d.room then
        (true, { d with bytes := d.bytes ++ b, room := d.room - b.length })
      else (false, { d with bytes := d.bytes ++ b.take d.room, room := 0, failed := true })
  flush d := (true, { d with flushed := d.bytes })

/-- What is on the disk. -/
def Disk.view : SinkView Disk := { held := (·.bytes), safe := (·.flushed), failed := (·.failed) }

end Pq.Spec
