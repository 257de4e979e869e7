import Verif.Model.Bridge
import Mathlib.Data.Nat.Log
/-
Model of `src/schema/types/{basic_type,parquet_type,spec}.rs`, `src/schema/io_thrift/*.rs`,
`src/metadata/column_descriptor.rs` and `src/metadata/schema_descriptor.rs`.
-/
namespace Pq

/-- `src/schema/types/basic_type.rs:9-16`. -/
structure FieldInfo where
  name : String
  repetition : Repetition
  id : Option I32
  deriving DecidableEq, Repr

/-- `src/schema/types/parquet_type.rs:16-25`. -/
structure PrimitiveType where
  fieldInfo : FieldInfo
  logicalType : Option PrimitiveLogicalType
  convertedType : Option PrimitiveConvertedType
  physicalType : PhysicalType
  deriving DecidableEq, Repr

/-- `src/schema/types/parquet_type.rs:48-56`. -/
inductive ParquetType where
  | primitive (p : PrimitiveType)
  | group (fieldInfo : FieldInfo) (logicalType : Option GroupLogicalType)
      (convertedType : Option GroupConvertedType) (fields : List ParquetType)

namespace ParquetType

/-- `src/schema/types/parquet_type.rs:61-66` `get_field_info`. -/
def info : ParquetType → FieldInfo
  | .primitive p => p.fieldInfo
  | .group i _ _ _ => i

/-- `src/schema/types/parquet_type.rs:69-71` `name`. -/
def name (t : ParquetType) : String := t.info.name

mutual
/-- `src/schema/types/parquet_type.rs:75-112` `check_contains`; the arguments are swapped (the
candidate sub-schema first). The `HashMap` of lines 94-97 is a search for the last field of that
name. -/
def containedIn : ParquetType → ParquetType → Bool
  | .primitive q, .primitive p =>
    p.fieldInfo == q.fieldInfo && p.physicalType == q.physicalType
  | .group _ _ _ others, .group _ _ _ fields => allContainedIn others fields
  | _, _ => false
/-- `src/schema/types/parquet_type.rs:99-108`: the loop over the fields of the sub-schema. -/
def allContainedIn : List ParquetType → List ParquetType → Bool
  | [], _ => true
  | f :: fs, fields =>
    (match fields.reverse.find? (fun t => t.name == f.name) with
      | some t => containedIn f t
      | none => false) && allContainedIn fs fields
end

/-- `src/schema/types/parquet_type.rs:117-129` `new_root`. -/
def newRoot (name : String) (fields : List ParquetType) : ParquetType :=
  .group { name, repetition := .optional, id := none } none none fields

end ParquetType

/-! ### `src/schema/types/spec.rs` -/

/-- `src/schema/types/spec.rs:43-52`: the largest decimal precision of a fixed-length byte array.
The source computes `floor(log10(2^(8·length-1) - 1))` in `f64`. Simplification: the floating
point operations are replaced by their mathematical meaning. For exponents up to 1023 the rounded
computation gives the exact floor (a power of two is never close enough to a power of ten); above,
`2f64.powi` is infinite and the cast saturates at `usize::MAX`; for exponents below 1 the logarithm
of a negative number or zero is cast to 0. `length as i32` keeps the low 32 bits. -/
def maxPrecision (length : Nat) : Res Nat :=
  let l := (asI32 length).toInt
  let m := l * 8
  if m < -2 ^ 31 ∨ 2 ^ 31 ≤ m then .err .oos
  else
    let e := m - 1
    if e < -2 ^ 31 then .err .oos
    else if e < 1 then .ok 0
    else if 1023 < e then .ok (2 ^ 64 - 1)
    else .ok (Nat.log 10 (2 ^ e.toNat - 1))

/-- `src/schema/types/spec.rs:6-71` `check_decimal_invariants`. -/
def checkDecimalInvariants (t : PhysicalType) (precision scale : Nat) : Res Unit :=
  if precision < 1 then .err .oos
  else if scale > precision then .err .oos
  else
    match t with
    | .int32 => if 1 ≤ precision ∧ precision ≤ 9 then .ok () else .err .oos
    | .int64 => if 1 ≤ precision ∧ precision ≤ 18 then .ok () else .err .oos
    | .fixedLenByteArray length =>
      match maxPrecision length with
      | .ok m => if precision > m then .err .oos else .ok ()
      | .err e => .err e
      | .panic => .panic
    | .byteArray => .ok ()
    | _ => .err .oos

/-- `src/schema/types/spec.rs:73-127` `check_converted_invariants`. -/
def checkConvertedInvariants (t : PhysicalType) : Option PrimitiveConvertedType → Res Unit
  | none => .ok ()
  | some c =>
    match c with
    | .utf8 | .bson | .json => if t ≠ .byteArray then .err .oos else .ok ()
    | .decimal precision scale => checkDecimalInvariants t precision scale
    | .date | .timeMillis | .uint8 | .uint16 | .uint32 | .int8 | .int16 | .int32 =>
      if t ≠ .int32 then .err .oos else .ok ()
    | .timeMicros | .timestampMillis | .timestampMicros | .uint64 | .int64 =>
      if t ≠ .int64 then .err .oos else .ok ()
    | .interval => if t ≠ .fixedLenByteArray 12 then .err .oos else .ok ()
    | .enum => if t ≠ .byteArray then .err .oos else .ok ()

/-- `src/schema/types/spec.rs:129-182` `check_logical_invariants`. -/
def checkLogicalInvariants (t : PhysicalType) : Option PrimitiveLogicalType → Res Unit
  | none => .ok ()
  | some l =>
    match l, t with
    | .enum, .byteArray => .ok ()
    | .decimal precision scale, t => checkDecimalInvariants t precision scale
    | .date, .int32 => .ok ()
    | .time .milliseconds _, .int32 => .ok ()
    | .time unit _, .int64 => if unit = .milliseconds then .err .oos else .ok ()
    | .timestamp _ _, .int64 => .ok ()
    | .integer .int8, .int32 => .ok ()
    | .integer .int16, .int32 => .ok ()
    | .integer .int32, .int32 => .ok ()
    | .integer .uint8, .int32 => .ok ()
    | .integer .uint16, .int32 => .ok ()
    | .integer .uint32, .int32 => .ok ()
    | .integer .uint64, .int64 => .ok ()
    | .integer .int64, .int64 => .ok ()
    | .unknown, .int32 => .ok ()
    | .string, .byteArray => .ok ()
    | .json, .byteArray => .ok ()
    | .bson, .byteArray => .ok ()
    | .uuid, .fixedLenByteArray n => if n = 16 then .ok () else .err .oos
    | _, _ => .err .oos

/-- `src/schema/types/parquet_type.rs:154-177` `try_from_primitive`. -/
def ParquetType.tryFromPrimitive (name : String) (physicalType : PhysicalType)
    (repetition : Repetition) (convertedType : Option PrimitiveConvertedType)
    (logicalType : Option PrimitiveLogicalType) (id : Option I32) : Res ParquetType := do
  checkConvertedInvariants physicalType convertedType
  checkLogicalInvariants physicalType logicalType
  .ok (.primitive { fieldInfo := { name, repetition, id }, convertedType, logicalType, physicalType })

/-! ### `src/schema/io_thrift/to_thrift.rs` -/

/-- `src/schema/io_thrift/to_thrift.rs:20-46`: the element of a primitive field. -/
def PrimitiveType.toElement (p : PrimitiveType) : Thrift.SchemaElement :=
  let (type, typeLength) := p.physicalType.toThrift
  let (convertedType, maybeDecimal) :=
    match p.convertedType with
    | some c => (some c.toThrift.1, c.toThrift.2)
    | none => (none, none)
  { type := some type
    typeLength
    repetitionType := some p.fieldInfo.repetition.toThrift
    name := p.fieldInfo.name
    numChildren := none
    convertedType
    precision := maybeDecimal.map (·.1)
    scale := maybeDecimal.map (·.2)
    fieldId := p.fieldInfo.id
    logicalType := p.logicalType.map (·.toThrift) }

mutual
/-- `src/schema/io_thrift/to_thrift.rs:18-83` `to_thrift_helper` (elements pushed = list
returned). -/
def ParquetType.toThriftHelper : ParquetType → Bool → List Thrift.SchemaElement
  | .primitive p, _ => [p.toElement]
  | .group info logicalType convertedType fields, isRoot =>
    { type := none
      typeLength := none
      repetitionType := (if isRoot then none else some info.repetition).map (·.toThrift)
      name := info.name
      numChildren := some (asI32 fields.length)
      convertedType := convertedType.map (·.toThrift)
      scale := none
      precision := none
      fieldId := info.id
      logicalType := logicalType.map (·.toThrift) } :: ParquetType.toThriftList fields
/-- `src/schema/io_thrift/to_thrift.rs:78-80`: the loop over the children. -/
def ParquetType.toThriftList : List ParquetType → List Thrift.SchemaElement
  | [] => []
  | f :: fs => ParquetType.toThriftHelper f false ++ ParquetType.toThriftList fs
end

/-- `src/schema/io_thrift/to_thrift.rs:9-13` `to_thrift`. -/
def ParquetType.toThrift (t : ParquetType) : List Thrift.SchemaElement := t.toThriftHelper true

/-! ### `src/schema/io_thrift/from_thrift.rs` -/

/-- `Option::map(..).transpose()?`. -/
def transposeMap {α β : Type} (f : α → Res β) : Option α → Res (Option β)
  | none => .ok none
  | some a => (f a).map' some

/-- `src/schema/io_thrift/from_thrift.rs:65-73`: precision and scale, both or none. -/
def maybeDecimal (precision scale : Option I32) : Res (Option (I32 × I32)) :=
  match precision, scale with
  | some p, some s => .ok (some (p, s))
  | none, none => .ok none
  | _, _ => .err .oos

/-- `src/schema/io_thrift/from_thrift.rs:53-94`: a primitive field. -/
def primitiveOfElement (e : Thrift.SchemaElement) : Res ParquetType := do
  let repetition ← Res.ofOption .oos e.repetitionType
  let repetition ← Repetition.ofThrift repetition
  let physicalType ← Res.ofOption .oos e.type
  let convertedType ← transposeMap (fun c => do
    let d ← maybeDecimal e.precision e.scale
    PrimitiveConvertedType.ofThrift c d) e.convertedType
  let logicalType ← transposeMap PrimitiveLogicalType.ofThrift e.logicalType
  let physicalType ← PhysicalType.ofThrift physicalType e.typeLength
  ParquetType.tryFromPrimitive e.name physicalType repetition convertedType logicalType e.fieldId

/-- `src/schema/io_thrift/from_thrift.rs:107-132`: a group that is not the root. -/
def groupOfElement (e : Thrift.SchemaElement) (fields : List ParquetType) : Res ParquetType := do
  let repetition ← Res.ofOption .oos e.repetitionType
  let repetition ← Repetition.ofThrift repetition
  let convertedType ← transposeMap GroupConvertedType.ofThrift e.convertedType
  let logicalType ← transposeMap GroupLogicalType.ofThrift e.logicalType
  .ok (.group { name := e.name, repetition, id := e.fieldId } logicalType convertedType fields)

/-- `src/schema/io_thrift/from_thrift.rs:96-102`: the loop over the `n` children. -/
def childrenLoop {α : Type} (helper : Nat → Res (Nat × α)) : Nat → Nat → Res (Nat × List α)
  | 0, next => .ok (next, [])
  | n + 1, next => do
    let (next, child) ← helper next
    let (next, rest) ← childrenLoop helper n next
    .ok (next, child :: rest)

/-- `src/schema/io_thrift/from_thrift.rs:35-137` `from_thrift_helper`. The recursion is bounded by
`fuel` (the index strictly increases along it). A negative number of children means an empty
loop. -/
def fromThriftHelper (elements : List Thrift.SchemaElement) : Nat → Nat → Res (Nat × ParquetType)
  | 0, _ => .panic
  | fuel + 1, index =>
    match elements[index]? with
    | none => .err .oos
    | some e =>
      match e.numChildren with
      | none => (primitiveOfElement e).map' fun t => (index + 1, t)
      | some n =>
        if n = 0#32 then (primitiveOfElement e).map' fun t => (index + 1, t)
        else
          match childrenLoop (fromThriftHelper elements fuel) n.toInt.toNat (index + 1) with
          | .err e => .err e
          | .panic => .panic
          | .ok (next, fields) =>
            if index = 0 then .ok (next, ParquetType.newRoot e.name fields)
            else (groupOfElement e fields).map' fun t => (next, t)

/-- `src/schema/io_thrift/from_thrift.rs:13-19`: the loop over the top-level nodes. -/
def topLevel (elements : List Thrift.SchemaElement) : Nat → Nat → Res (List ParquetType)
  | 0, _ => .panic
  | fuel + 1, index =>
    if index < elements.length then do
      let (next, t) ← fromThriftHelper elements (elements.length + 1) index
      let rest ← topLevel elements fuel next
      .ok (t :: rest)
    else .ok []

/-- `src/schema/io_thrift/from_thrift.rs:12-28` `try_from_thrift`. -/
def ParquetType.tryFromThrift (elements : List Thrift.SchemaElement) : Res ParquetType :=
  match topLevel elements (elements.length + 1) 0 with
  | .ok [t] => .ok t
  | .ok _ => .err .oos
  | .err e => .err e
  | .panic => .panic

/-! ### descriptors -/

/-- `src/metadata/column_descriptor.rs:9-18`; levels are `i16`. -/
structure Descriptor where
  primitiveType : PrimitiveType
  maxDefLevel : BitVec 16
  maxRepLevel : BitVec 16
  deriving DecidableEq, Repr

/-- `src/metadata/column_descriptor.rs:25-34`. -/
structure ColumnDescriptor where
  descriptor : Descriptor
  pathInSchema : List String
  baseType : ParquetType

/-- `src/metadata/schema_descriptor.rs:18-26`. -/
structure SchemaDescriptor where
  name : String
  fields : List ParquetType
  leaves : List ColumnDescriptor

/-- `src/metadata/schema_descriptor.rs:106-115`: levels after entering a node, as (rep, def). The
`i16` additions wrap (release arithmetic). -/
def enterLevels (rep : Repetition) (maxRep maxDef : BitVec 16) : BitVec 16 × BitVec 16 :=
  match rep with
  | .optional => (maxRep, maxDef + 1)
  | .repeated => (maxRep + 1, maxDef + 1)
  | .required => (maxRep, maxDef)

mutual
/-- `src/metadata/schema_descriptor.rs:97-144` `build_tree` (leaves pushed = list returned). The
mutable path (a push on entry, a pop by the caller after each child) is passed down. -/
def buildTree (tp base : ParquetType) (maxRep maxDef : BitVec 16) (path : List String) :
    List ColumnDescriptor :=
  match tp with
  | .primitive p =>
    let lv := enterLevels p.fieldInfo.repetition maxRep maxDef
    [{ descriptor := { primitiveType := p, maxDefLevel := lv.2, maxRepLevel := lv.1 }
       pathInSchema := path ++ [p.fieldInfo.name]
       baseType := base }]
  | .group info _ _ fields =>
    let lv := enterLevels info.repetition maxRep maxDef
    buildTrees fields base lv.1 lv.2 (path ++ [info.name])
/-- `src/metadata/schema_descriptor.rs:130-141`: the loop over the fields of a group. -/
def buildTrees (fields : List ParquetType) (base : ParquetType) (maxRep maxDef : BitVec 16)
    (path : List String) : List ColumnDescriptor :=
  match fields with
  | [] => []
  | f :: fs => buildTree f base maxRep maxDef path ++ buildTrees fs base maxRep maxDef path
end

/-- `src/metadata/schema_descriptor.rs:30-42` `new`. -/
def SchemaDescriptor.new (name : String) (fields : List ParquetType) : SchemaDescriptor :=
  { name, fields, leaves := fields.flatMap fun f => buildTree f f 0#16 0#16 [] }

/-- `src/metadata/schema_descriptor.rs:62-74` `into_thrift`. -/
def SchemaDescriptor.intoThrift (s : SchemaDescriptor) : List Thrift.SchemaElement :=
  (ParquetType.group { name := s.name, repetition := .optional, id := none } none none
    s.fields).toThrift

/-- `src/metadata/schema_descriptor.rs:76-83` `try_from_type`. -/
def SchemaDescriptor.tryFromType : ParquetType → Res SchemaDescriptor
  | .group info _ _ fields => .ok (SchemaDescriptor.new info.name fields)
  | .primitive _ => .err .oos

/-- `src/metadata/schema_descriptor.rs:85-88` `try_from_thrift`. -/
def SchemaDescriptor.tryFromThrift (elements : List Thrift.SchemaElement) : Res SchemaDescriptor :=
  match ParquetType.tryFromThrift elements with
  | .ok t => SchemaDescriptor.tryFromType t
  | .err e => .err e
  | .panic => .panic

end Pq
