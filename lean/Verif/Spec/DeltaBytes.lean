import Verif.Spec.Delta
/-
How a reader turns lengths and concatenated bytes into strings (Encodings.md, DELTA_LENGTH_BYTE_ARRAY
and DELTA_BYTE_ARRAY), and the PLAIN layout of byte arrays.
-/
namespace Pq.Spec

/-- Cut consecutive strings of the given lengths. -/
def cut : List Nat → List Byte → List (List Byte)
  | [], _ => []
  | l :: ls, bytes => bytes.take l :: cut ls (bytes.drop l)

/-- Rebuild strings from shared-prefix lengths, suffix lengths and suffix bytes. -/
def rebuild : List Byte → List Nat → List Nat → List Byte → List (List Byte)
  | previous, p :: ps, l :: ls, bytes =>
    let s := previous.take p ++ bytes.take l
    s :: rebuild s ps ls (bytes.drop l)
  | _, _, _, _ => []

/-- `b` is a proper prefix of `a`. -/
def ProperPrefix (b a : List Byte) : Prop := b <+: a ∧ b.length < a.length

/-- Some string of the sequence is a proper prefix of the one before it. -/
def Shrinks (previous : List Byte) : List (List Byte) → Prop
  | [] => False
  | x :: xs => ProperPrefix x previous ∨ Shrinks x xs

/-- The PLAIN layout: 4-byte little-endian length, then the bytes. -/
def plainBytes (items : List (List Byte)) : List Byte :=
  items.flatMap fun s => leBytes 4 s.length ++ s

end Pq.Spec
