import Verif.Spec.DeltaBytes
/-
How many bytes the encodings take.
-/
namespace Pq.Spec

/-- The number of bits of a number. -/
def bitSize (v : Nat) : Nat := if v = 0 then 0 else Nat.log2 v + 1

/-- The number of bytes of the shortest varint of a number. -/
def varintSize (v : Nat) : Nat := Nat.log2 v / 7 + 1

/-- The differences of successive values. -/
def differences (xs : List (BitVec 64)) : List (BitVec 64) := List.zipWith (fun a b => b - a) xs xs.tail

/-- The smallest and the greatest of some integers. -/
def lowest (is : List Int) : Int := is.min?.getD 0
def highest (is : List Int) : Int := is.max?.getD 0

/-- The size of a block of 128 deltas in one miniblock: the smallest delta, the width, and 128 values of as
many bits as the greatest distance to the smallest has. -/
def deltaBlockSize (ds : List (BitVec 64)) : Nat :=
  let is := ds.map BitVec.toInt
  varintSize (zigzagNat (lowest is)) + 1 + 16 * bitSize (highest is - lowest is).toNat

/-- The size of a DELTA_BINARY_PACKED stream with blocks of 128 deltas. -/
def deltaSize (xs : List (BitVec 64)) : Nat :=
  let ds := differences xs
  3 + varintSize xs.length + varintSize (zigzagNat (xs.headD 0#64).toInt) +
    ((List.range ((ds.length + 127) / 128)).map fun i => deltaBlockSize ((ds.drop (128 * i)).take 128)).sum

/-- The number of first bytes that two strings have in common. -/
def commonPrefix : List Byte → List Byte → Nat
  | a :: as, b :: bs => if a = b then commonPrefix as bs + 1 else 0
  | _, _ => 0

/-- For each string, how much it has in common with the one before; and the rest of it. -/
def shared (previous : List Byte) : List (List Byte) → List (Nat × List Byte)
  | [] => []
  | x :: xs => (commonPrefix x previous, x.drop (commonPrefix x previous)) :: shared x xs

/-- The size of a DELTA_LENGTH_BYTE_ARRAY section. -/
def deltaLengthSize (items : List (List Byte)) : Nat :=
  deltaSize (items.map fun s => BitVec.ofNat 64 s.length) + (items.map List.length).sum

/-- The deltas of a block are closer to each other than 2^63. -/
def CloseDeltas (xs : List (BitVec 64)) : Prop :=
  ∀ i, let is := (((differences xs).drop (128 * i)).take 128).map BitVec.toInt
    highest is - lowest is < 2 ^ 63

end Pq.Spec
