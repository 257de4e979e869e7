import Verif.Spec.Rle
/-
Model-independent description of DELTA_BINARY_PACKED (Encodings.md):

    delta-binary-packed := <block size> <miniblocks per block> <total count> <first value> <block>*
    block               := <min delta> <list of bitwidths of miniblocks> <miniblocks>

The block size is a multiple of 128, the miniblock size (block size / miniblocks per block) is
here only required to be a positive multiple of 8. All numbers of the header are varints, the
first value and the minimum deltas are zig-zag varints. Arithmetic is modulo 2^64. The last
block only contains the miniblocks that are needed, but all the bit widths.
-/
namespace Pq.Spec

/-- A value and the values obtained by successively adding the deltas. -/
def prefixSums (first : BitVec 64) : List (BitVec 64) → List (BitVec 64)
  | [] => [first]
  | d :: ds => first :: prefixSums (first + d) ds

structure MiniBlock where
  width : Nat
  bytes : List Byte

/-- A miniblock of `v` values. -/
def MiniBlock.Ok (v : Nat) (m : MiniBlock) : Prop :=
  m.width ≤ 64 ∧ 8 * m.bytes.length = v * m.width ∧ v * m.width < 2 ^ 64

/-- The deltas of a miniblock. -/
def MiniBlock.deltas (v : Nat) (minDelta : BitVec 64) (m : MiniBlock) : List (BitVec 64) :=
  (fields m.bytes m.width v).map fun f => minDelta + BitVec.ofNat 64 f

/-- `out` is a serialisation of a block with `M` bit widths. -/
def BlockSer (M v : Nat) (minDelta : BitVec 64) (minis : List MiniBlock) (out : List Byte) : Prop :=
  ∃ h widths, IsHeader h (zigzagNat minDelta.toInt) ∧ widths.length = M ∧
    minis.length ≤ M ∧
    (widths.take minis.length).map BitVec.toNat = minis.map MiniBlock.width ∧
    (∀ m ∈ minis, m.Ok v) ∧ out = h ++ widths ++ minis.flatMap MiniBlock.bytes

/-- `out` is a sequence of blocks holding exactly `r` deltas `ds`. -/
inductive DeltaBlocks (M v : Nat) : Nat → List Byte → List (BitVec 64) → Prop where
  | nil : DeltaBlocks M v 0 [] []
  | cons {r : Nat} {minDelta : BitVec 64} {minis : List MiniBlock} {out rest : List Byte}
      {ds : List (BitVec 64)} :
      0 < r → minis.length = (min r (M * v) + v - 1) / v →
      BlockSer M v minDelta minis out →
      DeltaBlocks M v (r - min r (M * v)) rest ds →
      DeltaBlocks M v r (out ++ rest)
        ((minis.flatMap (MiniBlock.deltas v minDelta)).take (min r (M * v)) ++ ds)

/-- `out` is a legal DELTA_BINARY_PACKED stream of the values `xs` with blocks of `B` values in
`M` miniblocks. -/
def DeltaStream (B M : Nat) (xs : List (BitVec 64)) (out : List Byte) : Prop :=
  ∃ h1 h2 h3 h4 body first ds v,
    0 < M ∧ B % 128 = 0 ∧ B = M * v ∧ v % 8 = 0 ∧ 0 < v ∧
    IsHeader h1 B ∧ IsHeader h2 M ∧ IsHeader h3 xs.length ∧
    IsHeader h4 (zigzagNat (BitVec.toInt first)) ∧
    out = h1 ++ h2 ++ h3 ++ h4 ++ body ∧
    DeltaBlocks M v (xs.length - 1) body ds ∧
    (xs = [] ∧ ds = [] ∨ xs = prefixSums first ds)

/-- `h` is the header of a stream: the block size `B`, the number `M` of miniblocks of a block, the
number `n` of values and the first value, all complete. -/
def DeltaHeader (B M n : Nat) (first : BitVec 64) (h : List Byte) : Prop :=
  ∃ h1 h2 h3 h4, IsHeader h1 B ∧ IsHeader h2 M ∧ IsHeader h3 n ∧
    IsHeader h4 (zigzagNat first.toInt) ∧ h = h1 ++ h2 ++ h3 ++ h4

end Pq.Spec
