import Verif.Spec.Schema
/-
When a schema is part of another one, told by the names on the way from the root.
-/
namespace Pq.Spec

/-- `n` is a node below (or at) `t`, and the names on the way to it are `path` (without that of `t`). -/
inductive NodeAt : ParquetType → List String → ParquetType → Prop
  | here (t : ParquetType) : NodeAt t [] t
  | deeper {i l c fields f path n} (hf : f ∈ fields) (h : NodeAt f path n) :
      NodeAt (.group i l c fields) (f.info.name :: path) n

/-- As `NodeAt`, where of several fields of a group with the same name only the last one counts. -/
inductive LastAt : ParquetType → List String → ParquetType → Prop
  | here (t : ParquetType) : LastAt t [] t
  | deeper {i l c pre f post path n} (hl : ∀ g ∈ post, g.info.name ≠ f.info.name) (h : LastAt f path n) :
      LastAt (.group i l c (pre ++ f :: post)) (f.info.name :: path) n

/-- Both are groups, or both are primitives with the same name, repetition, id and physical type. -/
def Matching : ParquetType → ParquetType → Prop
  | .primitive q, .primitive p => q.fieldInfo = p.fieldInfo ∧ q.physicalType = p.physicalType
  | .group .., .group .. => True
  | _, _ => False

/-- The fields of every group have different names. -/
def DifferentNames (t : ParquetType) : Prop :=
  ∀ path i l c fields, NodeAt t path (.group i l c fields) → (fields.map fun f => f.info.name).Nodup

/-- No group is empty. -/
def GroupsHaveFields (t : ParquetType) : Prop :=
  ∀ path i l c, ¬ NodeAt t path (.group i l c [])

/-- `p` is a column of `t`: it is a primitive of `t` and `path` are the nodes on the way to it, without the
root. -/
def IsColumn (t : ParquetType) (path : List FieldInfo) (p : PrimitiveType) : Prop :=
  ∃ root, (root :: path, p) ∈ leafPaths t

end Pq.Spec
