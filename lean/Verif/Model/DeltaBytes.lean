import Verif.Model.Delta
/-
Model of `src/encoding/delta_length_byte_array/{encoder,decoder}.rs`,
`src/encoding/delta_byte_array/{encoder,decoder}.rs` and `src/encoding/plain_byte_array.rs`.
-/
namespace Pq.DeltaLength

/-- `src/encoding/delta_length_byte_array/encoder.rs:7-19` `encode`, returning the appended
bytes (`ck`: overflow checks, see `Verif/Model/Delta.lean`). -/
def encode (ck : Bool) (items : List (List Byte)) : Res (List Byte) := do
  let lengths ← Delta.encode ck (items.map fun x => BitVec.ofNat 64 x.length)
  return lengths ++ items.flatten

/-- `src/encoding/delta_length_byte_array/decoder.rs:32-36` `Decoder`. -/
structure Decoder where
  values : List Byte
  lengths : Delta.Decoder
  totalLength : BitVec 32

/-- `src/encoding/delta_length_byte_array/decoder.rs:39-46` `Decoder::try_new`. -/
def Decoder.tryNew (ck : Bool) (values : List Byte) : Res Decoder := do
  let lengths ← Delta.Decoder.tryNew ck values
  return { values, lengths, totalLength := 0#32 }

/-- `src/encoding/delta_length_byte_array/decoder.rs:70-80` `next`; the `u32` sum panics on
overflow when `ck`, else wraps. -/
def Decoder.next (ck : Bool) (d : Decoder) : Res (Option (BitVec 32) × Decoder) := do
  let (o, lengths) ← d.lengths.next ck
  match o with
  | none => return (none, { d with lengths })
  | some v =>
    let v := v.setWidth 32
    if ck && BitVec.uaddOverflow d.totalLength v then Res.panic
    else return (some v, { d with lengths, totalLength := d.totalLength + v })

/-- `src/encoding/delta_length_byte_array/decoder.rs:51-55` `into_values` (and 60-64 `values`,
which is the same). -/
def Decoder.intoValues (d : Decoder) : Res (List Byte) := do
  let _ ← Res.assert (d.lengths.valuesRemaining == 0)
  let start := d.lengths.consumedBytes
  slice d.values start (start + d.totalLength.toNat)

/-- Collecting the lengths by reference (`decoder.by_ref().collect()`), keeping the decoder. -/
def Decoder.drain (ck : Bool) : Nat → Decoder → Res (List (BitVec 32) × Decoder)
  | 0, _ => .panic
  | fuel + 1, d => do
    let (o, d) ← d.next ck
    match o with
    | none => return ([], d)
    | some x =>
      let (xs, d) ← Decoder.drain ck fuel d
      return (x :: xs, d)

/-- The documented use (`src/encoding/delta_length_byte_array/decoder.rs:21-30`): the lengths,
then the concatenated values. -/
def decode (ck : Bool) (values : List Byte) : Res (List (BitVec 32) × List Byte) := do
  let d ← Decoder.tryNew ck values
  let (lengths, d) ← d.drain ck (d.lengths.valuesRemaining + 1)
  let bytes ← d.intoValues
  return (lengths, bytes)

end Pq.DeltaLength

namespace Pq.DeltaByteArray

/-- `src/encoding/delta_byte_array/encoder.rs:13-19`: index of the first difference of the
zipped strings, or `None` (the zip stops at the shorter string). -/
def firstDiff : List Byte → List Byte → Option Nat
  | a :: as, b :: bs => if a ≠ b then some 0 else (firstDiff as bs).map (· + 1)
  | _, _ => none

/-- `src/encoding/delta_byte_array/encoder.rs:10-25`: the prefix lengths. The subtraction of line
22 panics when `ck` and the prefix is longer than the item (its result is otherwise unused). -/
def prefixes (ck : Bool) : List Byte → List (List Byte) → Res (List Nat)
  | _, [] => .ok []
  | previous, item :: rest =>
    let prefix_length := (firstDiff item previous).getD previous.length
    if ck && decide (item.length < prefix_length) then .panic
    else (prefixes ck item rest).map' (prefix_length :: ·)

/-- `src/encoding/delta_byte_array/encoder.rs:28-30`: `&item[prefix..]` for each item. -/
def suffixes : List (List Byte) → List Nat → Res (List (List Byte))
  | item :: items, p :: ps => do
    let s ← slice item p item.length
    let rest ← suffixes items ps
    return s :: rest
  | _, _ => .ok []

/-- `src/encoding/delta_byte_array/encoder.rs:6-33` `encode`. -/
def encode (ck : Bool) (items : List (List Byte)) : Res (List Byte) := do
  let ps ← prefixes ck [] items
  let a ← Delta.encode ck (ps.map (BitVec.ofNat 64))
  let rest ← suffixes items ps
  let b ← DeltaLength.encode ck rest
  return a ++ b

/-- `src/encoding/delta_byte_array/decoder.rs:11-39`, used as in its tests (62-74): collect the
prefix lengths (`as u32`), `into_lengths` (25-30), collect the suffix lengths, `values`. -/
def decode (ck : Bool) (values : List Byte) :
    Res (List (BitVec 32) × List (BitVec 32) × List Byte) := do
  let d ← Delta.Decoder.tryNew ck values
  let (ps, d) ← d.drain ck (d.valuesRemaining + 1)
  let _ ← Res.assert (d.valuesRemaining == 0)
  let rest ← slice values d.consumedBytes values.length
  let (lengths, bytes) ← DeltaLength.decode ck rest
  return (ps.map (BitVec.setWidth 32), lengths, bytes)

end Pq.DeltaByteArray

namespace Pq.PlainBytes

/-- `src/encoding/plain_byte_array.rs:8-11` `BinaryIter`. -/
structure BinaryIter where
  values : List Byte
  length : Option Nat

/-- `src/encoding/plain_byte_array.rs:23-40` `next`. The item is `Except`: an `Err` item does
not end the iterator. -/
def BinaryIter.next (it : BinaryIter) : Option (Except Err (List Byte) × BinaryIter) :=
  if it.values.length < 4 then none
  else
    let length' := it.length.map (· - 1)
    let length := leNat (it.values.take 4)
    let values := it.values.drop 4
    if values.length < length then some (.error .oos, { values, length := length' })
    else some (.ok (values.take length), { values := values.drop length, length := length' })

/-- `src/encoding/plain_byte_array.rs:43-45` `size_hint`. -/
def BinaryIter.sizeHint (it : BinaryIter) : Nat × Option Nat := (it.length.getD 0, it.length)

/-- All the items. Every item shortens the buffer by at least 4 bytes, so
`values.length + 1` steps suffice. -/
def BinaryIter.items : Nat → BinaryIter → Option (List (Except Err (List Byte)))
  | 0, _ => none
  | fuel + 1, it =>
    match it.next with
    | none => some []
    | some (x, it) => (BinaryIter.items fuel it).map (x :: ·)

end Pq.PlainBytes
