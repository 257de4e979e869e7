import Verif.Spec.Delta
/-
Model-independent description of the additions by which the values of a DELTA_BINARY_PACKED stream are
obtained: each delta is the smallest delta of its block plus a distance, each value is the one before
plus a delta.
-/
namespace Pq.Spec

/-- The distances in a miniblock. -/
def MiniBlock.distances (v : Nat) (m : MiniBlock) : List (BitVec 64) :=
  (fields m.bytes m.width v).map (BitVec.ofNat 64)

/-- `out` is a sequence of blocks holding exactly `r` deltas, in two parts each. -/
inductive DeltaParts (M v : Nat) : Nat → List Byte → List (BitVec 64 × BitVec 64) → Prop where
  | nil : DeltaParts M v 0 [] []
  | cons {r : Nat} {minDelta : BitVec 64} {minis : List MiniBlock} {out rest : List Byte}
      {ps : List (BitVec 64 × BitVec 64)} :
      0 < r → minis.length = (min r (M * v) + v - 1) / v →
      BlockSer M v minDelta minis out →
      DeltaParts M v (r - min r (M * v)) rest ps →
      DeltaParts M v r (out ++ rest)
        (((minis.flatMap (MiniBlock.distances v)).take (min r (M * v))).map (fun d => (minDelta, d)) ++ ps)

/-- The values, of which the first is given. -/
def valuesOfParts (first : BitVec 64) (ps : List (BitVec 64 × BitVec 64)) : List (BitVec 64) :=
  prefixSums first (ps.map fun p => p.1 + p.2)

/-- It is an `i64`. -/
def InI64 (z : Int) : Prop := -2 ^ 63 ≤ z ∧ z < 2 ^ 63

instance (z : Int) : Decidable (InI64 z) := inferInstanceAs (Decidable (_ ∧ _))

/-- No addition leaves the range of `i64`. -/
def NoOverflow : BitVec 64 → List (BitVec 64 × BitVec 64) → Prop
  | _, [] => True
  | x, p :: ps => (InI64 (p.1.toInt + p.2.toInt) ∧ InI64 (x.toInt + (p.1 + p.2).toInt)) ∧
    NoOverflow (x + (p.1 + p.2)) ps

instance : ∀ x ps, Decidable (NoOverflow x ps)
  | _, [] => .isTrue trivial
  | x, p :: ps =>
    have := instDecidableNoOverflow (x + (p.1 + p.2)) ps
    inferInstanceAs (Decidable (_ ∧ _))

end Pq.Spec
