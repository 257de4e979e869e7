import Verif.Spec.Delta
import Verif.Spec.Leb128
import Verif.Spec.WriterOutcome
/-
How reading arbitrary bytes as DELTA_BINARY_PACKED ends, told from the structure of the format alone: the varints of the
header, the bit widths of the miniblocks and the number of bytes that are there.
-/
namespace Pq.Spec

/-- The miniblocks of `v` values, as far as they are needed for `values` values: each is to be there in full, and then
to have a width of at most 64 bits. (There are always enough of them.) -/
def endOfMinis (v : Nat) (next : List Byte → Outcome) : List Byte → List Byte → Nat → Outcome
  | _, bytes, 0 => next bytes
  | [], _, _ + 1 => .aborts
  | width :: widths, bytes, values + 1 =>
    if bytes.length < v * width.toNat / 8 then .refused
    else if 64 < width.toNat then .aborts
    else endOfMinis v next widths (bytes.drop (v * width.toNat / 8)) (values + 1 - v)

/-- At most `blocks` blocks of `M` miniblocks, until there are as many values: each has the smallest delta, a varint,
and the widths of all its miniblocks. -/
def endOfBlocks (M v : Nat) : Nat → Nat → List Byte → Outcome
  | _, 0, _ => .done
  | 0, _ + 1, _ => .refused
  | blocks + 1, values + 1, bytes =>
    match readVarint bytes with
    | none => .aborts
    | some (_, bytes) =>
      if bytes.length < M then .refused
      else endOfMinis v (endOfBlocks M v blocks (values + 1 - M * v)) (bytes.take M) (bytes.drop M)
        (min (values + 1) (M * v))

/-- A stream: the header gives the size of a block, the number of miniblocks of a block, the number of values and the
first value. Miniblocks of no values (a block of less values than miniblocks) are refused in the second block. -/
def endOfDelta (bytes : List Byte) : Outcome :=
  match readVarint bytes with
  | none => .aborts
  | some (size, bytes) =>
    match readVarint bytes with
    | none => .aborts
    | some (minis, bytes) =>
      match readVarint bytes with
      | none => .aborts
      | some (count, bytes) =>
        match readVarint bytes with
        | none => .aborts
        | some (_, bytes) =>
          let v := size / minis
          if size % 128 = 0 ∧ minis ≠ 0 ∧ v % 8 = 0 then
            endOfBlocks minis v (if v = 0 then 2 else count - 1) (count - 1) bytes
          else .aborts

end Pq.Spec
