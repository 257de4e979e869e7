import Verif.Model.Source
/-
What is assumed of a reader: it reads a file that does not change, in pieces of any size, and may fail at
any time.
-/
namespace Pq.Spec

/-- What is known of the state of a reader: where it is, and whether a call of it has failed that need not
have failed. -/
structure SourceView (σ : Type) where
  pos : σ → Nat
  failed : σ → Bool

/-- Where a seek leads: nowhere, if that is before the start. -/
def seekTarget (len pos : Nat) : SeekFrom → Option Nat
  | .start n => some n
  | .end_ k => if 0 ≤ (len : Int) + k then some ((len : Int) + k).toNat else none
  | .current k => if 0 ≤ (pos : Int) + k then some ((pos : Int) + k).toNat else none

/-- A reader of `file`. -/
structure LawfulSource {σ : Type} (src : Source σ) (v : SourceView σ) (file : List Byte) : Prop where
  seek_ok : ∀ s s' tgt n, src.seek s tgt = (some n, s') →
    seekTarget file.length (v.pos s) tgt = some n ∧ v.pos s' = n ∧ v.failed s' = v.failed s
  seek_err : ∀ s s' tgt, src.seek s tgt = (none, s') →
    (seekTarget file.length (v.pos s) tgt = none ∧ v.failed s' = v.failed s) ∨ v.failed s' = true
  read_ok : ∀ s s' n b, src.read s n = (some b, s') →
    b <+: (file.drop (v.pos s)).take n ∧ (b = [] → n = 0 ∨ file.length ≤ v.pos s) ∧
    v.pos s' = v.pos s + b.length ∧ v.failed s' = v.failed s
  read_err : ∀ s s' n, src.read s n = (none, s') → v.failed s' = true

/-- A reader of `file` that is read with buffers of at least a byte. -/
structure LawfulInput {σ : Type} (i : Input σ) (v : SourceView σ) (file : List Byte) : Prop where
  source : LawfulSource i.source v file
  buffer : ∀ n, 0 < i.buffer n

/-- A call that succeeds like the given result, or the reader failed. -/
def Delivers {σ α : Type} (v : SourceView σ) (m : IoM σ α) (r : Res α) : Prop := ∀ s,
  ((m s).1 = r ∧ v.failed (m s).2 = v.failed s) ∨ ((m s).1 = .err .oos ∧ v.failed (m s).2 = true)

/-- A reader that does not fail without need. -/
structure Reliable {σ : Type} (src : Source σ) : Prop where
  seek : ∀ s n, (src.seek s (.start n)).1 ≠ none
  read : ∀ s n, (src.read s n).1 ≠ none

/-- A reader of a file: the sizes of the pieces it delivers (then one byte each), and the calls that
fail. -/
structure Tape where
  pos : Nat := 0
  sizes : List Nat := []
  faults : List Nat := []
  calls : Nat := 0
  failed : Bool := false

/-- One more call; whether it fails. -/
def Tape.tick (t : Tape) : Bool × Tape :=
  if t.calls ∈ t.faults then (true, { t with calls := t.calls + 1, failed := true })
  else (false, { t with calls := t.calls + 1 })

/-- The reader of a tape. -/
def Tape.source (file : List Byte) : Source Tape where
  seek := fun t tgt =>
    match t.tick with
    | (true, t) => (none, t)
    | (false, t) =>
      match seekTarget file.length t.pos tgt with
      | none => (none, t)
      | some n => (some n, { t with pos := n })
  read := fun t n =>
    match t.tick with
    | (true, t) => (none, t)
    | (false, t) =>
      let b := (file.drop t.pos).take (min n (max 1 (t.sizes.headD 1)))
      (some b, { t with pos := t.pos + b.length, sizes := t.sizes.tail })

/-- What is known of a tape. -/
def Tape.view : SourceView Tape := { pos := Tape.pos, failed := Tape.failed }

/-- A reader of a file that is cut by somebody else, from some call on. -/
def Tape.shrinking (file : List Byte) (call len : Nat) : Source Tape where
  seek := fun t => (Tape.source (if t.calls < call then file else file.take len)).seek t
  read := fun t => (Tape.source (if t.calls < call then file else file.take len)).read t

end Pq.Spec
