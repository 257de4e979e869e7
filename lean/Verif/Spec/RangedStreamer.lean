import Verif.Model.RangedStreamer
import Verif.Spec.Source
/-
What is assumed of the function that fetches ranges, and what is known of the reader.
-/
namespace Pq.Spec

/-- What is fetched are the bytes asked for, as far as the object has them; a call may fail. -/
def HonestGet (object : List Byte) (get : RangeGet) : Prop :=
  ∀ k start length o, (get k start length).result = some o →
    o.start = start ∧ o.data = (object.drop start).take length

/-- No call fails. -/
def ReliableGet (get : RangeGet) : Prop := ∀ k start length, (get k start length).result ≠ none

/-- No future keeps one waiting for more than `P` polls. -/
def PromptGet (P : Nat) (get : RangeGet) : Prop := ∀ k start length, (get k start length).pending ≤ P

/-- A chunk is what the object has from its start on. -/
def ChunkOf (object : List Byte) (o : SeekOutput) : Prop :=
  o.start < 2 ^ 64 ∧ o.data <+: object.drop o.start

/-- The reader holds a piece of the object, or waits for one, or has failed. -/
structure Coherent (object : List Byte) (s : RangedStreamer) : Prop where
  small : object.length < 2 ^ 63
  length : s.length = object.length
  pos : s.pos < 2 ^ 64
  chunk : ∀ o, s.state = .hasChunk o → ChunkOf object o
  future : ∀ f o, s.state = .seeking f → f.result = some o → ChunkOf object o

/-- What is done with a reader: a poll with a buffer of some bytes (whether the read it belongs to is ever
finished or not), or a seek. -/
inductive RangeOp where
  | poll (n : Nat)
  | seek (target : SeekFrom)

/-- The operations one after the other: where the reader was at each poll, what it asked for, what it got. -/
def runOps (ck : Bool) (get : RangeGet) (depth : Nat) :
    RangedStreamer → List RangeOp → List (Nat × Nat × RangePoll)
  | _, [] => []
  | s, .poll n :: ops =>
    (s.pos, n, (s.pollRead ck get depth n).1) :: runOps ck get depth (s.pollRead ck get depth n).2 ops
  | s, .seek target :: ops => runOps ck get depth (s.seek target).2 ops

/-- The seeks stay below `2^64`: they are arguments of type `u64`. -/
def SeeksFit (ops : List RangeOp) : Prop := ∀ n, RangeOp.seek (.start n) ∈ ops → n < 2 ^ 64

/-- A reader that can go on: it has not failed, and what it waits for comes. -/
structure Steady (P : Nat) (get : RangeGet) (s : RangedStreamer) : Prop where
  alive : s.state ≠ .completed
  prompt : ∀ f, s.state = .seeking f → f.pending ≤ P
  reliable : ReliableGet get → ∀ f, s.state = .seeking f → f.result ≠ none

end Pq.Spec
