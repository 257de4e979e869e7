import Verif.Spec.Client
/-
Vocabulary for C77: the deprecated BIT_PACKED encoding of levels (Encodings.md): most significant bit first, no
length in front.
-/
namespace Pq.Spec

/-- The `i`-th bit of bytes, from the most significant one of the first byte. -/
def msbAt (bs : List Byte) (i : Nat) : Bool := (bs.getD (i / 8) 0#8).getLsbD (7 - i % 8)

/-- One-bit levels in the BIT_PACKED encoding: as many bytes as needed. -/
def PackedLevels (lv : List Byte) (bits : List Bool) : Prop :=
  lv.length = (bits.length + 7) / 8 ∧ ∀ i, i < bits.length → msbAt lv i = bits.getD i false

end Pq.Spec
