import Verif.Spec.Rle
/-
Model-independent layout of a data page (parquet format, Data Pages).
-/
namespace Pq.Spec

/-- In a V1 page each kind of levels, if the column has it, is preceded by its length as a
four-byte little-endian number. -/
def PrefixedV1 (has : Bool) (levels rest buffer : List Byte) : Prop :=
  if has then levels.length < 2 ^ 32 ∧ buffer = leBytes 4 levels.length ++ levels ++ rest
  else levels = [] ∧ buffer = rest

/-- Layout of a V1 data page. -/
def LayoutV1 (hasRep hasDef : Bool) (rep def' values buffer : List Byte) : Prop :=
  ∃ rest, PrefixedV1 hasRep rep rest buffer ∧ PrefixedV1 hasDef def' values rest

end Pq.Spec
