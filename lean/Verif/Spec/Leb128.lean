import Verif.Model.Base
/-
Model-independent description of LEB128 (parquet format, "ULEB-128"): little-endian base-128
digits, one per byte, the most significant bit of a byte tells whether another byte follows.
-/
namespace Pq.Spec

/-- Number denoted by a list of base-128 digits, least significant first. -/
def base128 : List Byte → Nat
  | [] => 0
  | b :: bs => b.toNat % 128 + 128 * base128 bs

/-- A complete varint: every byte but the last has the continuation bit. -/
def IsVarint : List Byte → Prop
  | [] => False
  | [b] => b.toNat < 128
  | b :: bs => 128 ≤ b.toNat ∧ IsVarint bs

instance decIsVarint : (bs : List Byte) → Decidable (IsVarint bs)
  | [] => .isFalse id
  | [b] => inferInstanceAs (Decidable (b.toNat < 128))
  | b :: c :: bs => by
    have := decIsVarint (c :: bs)
    exact inferInstanceAs (Decidable (128 ≤ b.toNat ∧ IsVarint (c :: bs)))

/-- The zig-zag image of an integer: 0, -1, 1, -2, … ↦ 0, 1, 2, 3, … -/
def zigzagNat (i : Int) : Nat := if 0 ≤ i then (2 * i).toNat else (-2 * i - 1).toNat

end Pq.Spec

namespace Pq.Spec

/-- The bytes a varint reader may look at: up to and including the first byte without
continuation bit (everything if there is no such byte). -/
def varintPrefix : List Byte → List Byte
  | [] => []
  | b :: bs => if b.toNat < 128 then [b] else b :: varintPrefix bs

/-- `n` continuation bytes followed by a byte with more than one payload bit (or a further
continuation bit): with `n = 9`, the number does not fit in 64 bits. -/
def Overlong : Nat → List Byte → Prop
  | _, [] => False
  | 0, b :: _ => 1 < b.toNat
  | n + 1, b :: bs => 128 ≤ b.toNat ∧ Overlong n bs

instance decOverlong : (n : Nat) → (bs : List Byte) → Decidable (Overlong n bs)
  | 0, [] => .isFalse id
  | _ + 1, [] => .isFalse id
  | 0, b :: _ => inferInstanceAs (Decidable (1 < b.toNat))
  | n + 1, b :: bs => by
    have := decOverlong n bs
    exact inferInstanceAs (Decidable (128 ≤ b.toNat ∧ Overlong n bs))

/-- The number that a reader of varints finds, and what follows it; none if it has more than 64 bits. -/
def readVarint (bytes : List Byte) : Option (Nat × List Byte) :=
  if Overlong 9 bytes then none
  else some (base128 (varintPrefix bytes), bytes.drop (varintPrefix bytes).length)

end Pq.Spec
