import Verif.Model.Schema
/-
The schema descriptor in builds with overflow checks (`ck`). `Model/Schema.lean` wraps the `i16` levels of
`src/metadata/schema_descriptor.rs:106-115`; here they panic with overflow checks. `C50_checked` compares
the two.
-/
namespace Pq

/-- `i16` increment: panics on overflow with overflow checks, wraps otherwise. -/
def incI16 (ck : Bool) (x : BitVec 16) : Res (BitVec 16) :=
  if ck ∧ x = 0x7FFF#16 then .panic else .ok (x + 1)

/-- `src/metadata/schema_descriptor.rs:106-115`: levels after entering a node, as (rep, def). -/
def enterLevelsCk (ck : Bool) (rep : Repetition) (maxRep maxDef : BitVec 16) :
    Res (BitVec 16 × BitVec 16) :=
  match rep with
  | .optional => do
    let maxDef ← incI16 ck maxDef
    .ok (maxRep, maxDef)
  | .repeated => do
    let maxDef ← incI16 ck maxDef
    let maxRep ← incI16 ck maxRep
    .ok (maxRep, maxDef)
  | .required => .ok (maxRep, maxDef)

mutual
/-- `src/metadata/schema_descriptor.rs:97-144` `build_tree` (leaves pushed = list returned). -/
def buildTreeCk (ck : Bool) (tp base : ParquetType) (maxRep maxDef : BitVec 16) (path : List String) :
    Res (List ColumnDescriptor) :=
  match tp with
  | .primitive p =>
    match enterLevelsCk ck p.fieldInfo.repetition maxRep maxDef with
    | .err e => .err e
    | .panic => .panic
    | .ok lv =>
      .ok [{ descriptor := { primitiveType := p, maxDefLevel := lv.2, maxRepLevel := lv.1 }
             pathInSchema := path ++ [p.fieldInfo.name]
             baseType := base }]
  | .group info _ _ fields =>
    match enterLevelsCk ck info.repetition maxRep maxDef with
    | .err e => .err e
    | .panic => .panic
    | .ok lv => buildTreesCk ck fields base lv.1 lv.2 (path ++ [info.name])
/-- `src/metadata/schema_descriptor.rs:130-141`: the loop over the fields of a group. -/
def buildTreesCk (ck : Bool) (fields : List ParquetType) (base : ParquetType) (maxRep maxDef : BitVec 16)
    (path : List String) : Res (List ColumnDescriptor) :=
  match fields with
  | [] => .ok []
  | f :: fs =>
    match buildTreeCk ck f base maxRep maxDef path with
    | .err e => .err e
    | .panic => .panic
    | .ok xs => (buildTreesCk ck fs base maxRep maxDef path).map' (xs ++ ·)
end

/-- `src/metadata/schema_descriptor.rs:32-35`: the loop over the fields. -/
def leavesCk (ck : Bool) : List ParquetType → Res (List ColumnDescriptor)
  | [] => .ok []
  | f :: fs =>
    match buildTreeCk ck f f 0#16 0#16 [] with
    | .err e => .err e
    | .panic => .panic
    | .ok xs => (leavesCk ck fs).map' (xs ++ ·)

/-- `src/metadata/schema_descriptor.rs:30-42` `new`. -/
def SchemaDescriptor.newCk (ck : Bool) (name : String) (fields : List ParquetType) : Res SchemaDescriptor :=
  (leavesCk ck fields).map' fun leaves => { name, fields, leaves }

/-- `src/metadata/schema_descriptor.rs:85-88` `try_from_thrift` (with 76-83 `try_from_type`). -/
def SchemaDescriptor.tryFromThriftCk (ck : Bool) (elements : List Thrift.SchemaElement) :
    Res SchemaDescriptor :=
  match ParquetType.tryFromThrift elements with
  | .ok (.group info _ _ fields) => SchemaDescriptor.newCk ck info.name fields
  | .ok (.primitive _) => .err .oos
  | .err e => .err e
  | .panic => .panic

end Pq
