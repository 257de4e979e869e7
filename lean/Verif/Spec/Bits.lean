import Verif.Model.Base
/-
Model-independent vocabulary for bit streams: bit `i` of a byte string, least significant bit
of each byte first (the order of the parquet RLE/bit-packing hybrid and of PLAIN booleans).
-/
namespace Pq.Spec

/-- Bit `i` of a byte string (LSB first); `false` past the end. -/
def bitAt (bs : List Byte) (i : Nat) : Bool := (bs.getD (i / 8) 0#8).getLsbD (i % 8)

/-- The `k`-th `n`-bit little-endian number of a bit stream. -/
def fieldAt (bs : List Byte) (n k : Nat) : Nat :=
  (List.range n).foldr (fun j acc => acc + (if bitAt bs (k * n + j) then 2 ^ j else 0)) 0

/-- The first `count` `n`-bit numbers of a bit stream: the parquet bit-packed layout. -/
def fields (bs : List Byte) (n count : Nat) : List Nat := (List.range count).map (fieldAt bs n)

end Pq.Spec
