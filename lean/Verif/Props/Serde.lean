import Verif.Model.Serde
import Verif.Lemmas.ThriftCompact
/-
Property C81 (serde of the metadata of column chunks).
-/
namespace Pq.Props
open Pq.Serde

theorem pieces_empty (pieces : List (List Byte)) (h : pieces.flatten ≠ []) :
    (sliceSink.pieces pieces ([], 0)).1 = .err .oos := by
  induction pieces with
  | nil => simp at h
  | cons b bs ih =>
    unfold Sink.pieces
    show (IoM.bind (sliceSink.all b) (fun _ => sliceSink.pieces bs) ([], 0)).1 = _
    unfold IoM.bind Sink.all sliceSink
    simp only [List.length_nil, Nat.zero_sub, List.take_zero]
    cases b with
    | nil =>
      simp only [List.length_nil, List.take_zero, List.nil_append, List.drop_nil, decide_true]
      exact ih (by simpa using h)
    | cons x xs => simp

theorem encFields_ne_nil (prev : BitVec 16) (fs : Compact.TFields) : Compact.encFields prev fs ≠ [] := by
  cases fs with
  | nil => simp [Compact.encFields]
  | cons id v fs =>
    intro h
    rw [Compact.encFields, List.append_eq_nil_iff] at h
    have h1 := h.1
    unfold Compact.fieldHeader at h1
    simp only at h1
    split at h1 <;> simp at h1

/-- **C81** is violated, for every column chunk, every way in which the protocol cuts its bytes, and every
data format: serialising always fails, since the buffer is a slice of length zero. -/
theorem C81_violated {S : Type} (cut : List Byte → List (List Byte)) (hcut : ∀ b, (cut b).flatten = b)
    (serializeBytes : List Byte → Res S) (chunk : Thrift.ColumnChunk) :
    serializeColumnChunk (Compact.codecOf Compact.rColumnChunk) cut serializeBytes chunk = .err .oos := by
  unfold serializeColumnChunk Output.struct
  have hne : (Compact.codecOf Compact.rColumnChunk).ser chunk ≠ [] := by
    exact encFields_ne_nil _ _
  have h := pieces_empty (cut ((Compact.codecOf Compact.rColumnChunk).ser chunk)) (by rw [hcut]; exact hne)
  generalize (Compact.codecOf Compact.rColumnChunk).ser chunk = bytes at h
  show (match IoM.bind (sliceSink.pieces (cut bytes)) (fun _ => IoM.pure bytes.length) ([], 0) with
    | (.ok _, (buf, _)) => serializeBytes buf
    | (.err e, _) => .err e
    | (.panic, _) => .panic) = _
  unfold IoM.bind
  cases hr : sliceSink.pieces (cut bytes) ([], 0) with
  | mk r s =>
    rw [hr] at h
    simp only at h
    subst h
    rfl

-- the cursor itself is a writer: bytes that fit are written
example : sliceSink.writeAll ([0, 0, 0, 0], 1) [7, 8] = (true, ([0, 7, 8, 0], 3)) ∧
    sliceSink.writeAll ([0, 0], 1) [7, 8] = (false, ([0, 7], 2)) := by decide

/-- **C81** (partial): full claim: the metadata of a column chunk, serialised in any data format that keeps
byte strings and then deserialised, are the same. Proved of deserialising: given the thrift bytes of a column chunk,
it returns the column chunk. Missing: serialising never produces them, see `C81_violated`. -/
theorem C81_deserialize_partial (chunk : Thrift.ColumnChunk)
    (h : Compact.cost (Compact.rColumnChunk.toT chunk) < 2 ^ 64) :
    deserializeColumnChunk (Compact.codecOf Compact.rColumnChunk)
      (.ok ((Compact.codecOf Compact.rColumnChunk).ser chunk)) = .ok chunk := by
  have := (Compact.codecOf_lawful Compact.good_columnChunk (fun _ => ⟨_, rfl⟩)).roundtrip chunk [] (2 ^ 64 - 1)
    (by omega)
  rw [List.append_nil] at this
  unfold deserializeColumnChunk
  rw [Res.ok_bind, this]

-- a column chunk with some metadata
example :
    let chunk : Thrift.ColumnChunk :=
      { filePath := some "a", fileOffset := 4#64, metaData := none, offsetIndexOffset := some 9#64
        offsetIndexLength := some 3#32, columnIndexOffset := none, columnIndexLength := none }
    Compact.cost (Compact.rColumnChunk.toT chunk) < 2 ^ 64 ∧
    (Compact.codecOf Compact.rColumnChunk).ser chunk = [0x18, 1, 0x61, 0x16, 8, 0x26, 18, 0x15, 6, 0] := by
  decide +kernel

/-- **C81** (failures): whatever bytes are deserialised, the result is a column chunk or an error. -/
theorem C81_arbitrary (bytes : Res (List Byte)) (h : bytes ≠ .panic) :
    deserializeColumnChunk (Compact.codecOf Compact.rColumnChunk) bytes ≠ .panic := by
  unfold deserializeColumnChunk
  cases bytes with
  | panic => exact absurd rfl h
  | err e => intro h; cases h
  | ok b => exact (Compact.codecOf_sane Compact.good_columnChunk).noPanic _ _

example : (Res.ok [1#8, 2#8] : Res (List Byte)) ≠ .panic := by simp

end Pq.Props
