import Verif.Model.PageIO
/-
The thrift compact protocol and the thrift structures written with it. This code is not in the
repository but in the external crate `parquet_format_safe` (used in `src/write/page.rs:201-215`,
`src/write/column_chunk.rs:55-60`, `src/write/indexes/write.rs:12-38`, `src/write/file.rs:25-41`,
`src/read/page/reader.rs:164-171`, `src/read/indexes/read.rs`, `src/read/metadata.rs:100-105`).
It is modelled after the specification of the protocol and `parquet.thrift`, to have a concrete
`Codec` the theorems, which are about any lawful codec, can be applied to.

Simplifications: varints have no upper length; the allocation limit is checked once against the sum
of the lengths of the strings and lists; sets and maps (unused by Parquet) are errors, also in
unknown fields; a value of an unexpected type is an error.
-/
namespace Pq.Compact

mutual
/-- A thrift value. -/
inductive TVal where
  | bool (b : Bool)
  | byte (x : Byte)
  | i16 (x : BitVec 16)
  | i32 (x : I32)
  | i64 (x : I64)
  | double (x : BitVec 64)
  | binary (bs : List Byte)
  | list (elem : Nat) (vs : TList)
  | struct (fs : TFields)
/-- The elements of a list. -/
inductive TList where
  | nil
  | cons (v : TVal) (vs : TList)
/-- The fields of a structure, in the order of the bytes, with their ids. -/
inductive TFields where
  | nil
  | cons (id : BitVec 16) (v : TVal) (fs : TFields)
end

/-- Number of elements. -/
def TList.length : TList → Nat
  | .nil => 0
  | .cons _ vs => vs.length + 1

/-! ### Encoding -/

/-- Unsigned varint; `fuel` exceeds the number of digits. -/
def uvarAux : Nat → Nat → List Byte
  | 0, _ => []
  | fuel + 1, n =>
    if n < 128 then [BitVec.ofNat 8 n] else BitVec.ofNat 8 (n % 128 + 128) :: uvarAux fuel (n / 128)

/-- Unsigned varint. -/
def uvar (n : Nat) : List Byte := uvarAux (n + 1) n

/-- Zigzag varint. -/
def zvar {w : Nat} (x : BitVec w) : List Byte :=
  uvar (if 0 ≤ x.toInt then 2 * x.toInt.toNat else 2 * (-x.toInt).toNat - 1)

/-- Type code in field headers; booleans are in the code. -/
def fieldCode : TVal → Nat
  | .bool true => 1
  | .bool false => 2
  | .byte _ => 3
  | .i16 _ => 4
  | .i32 _ => 5
  | .i64 _ => 6
  | .double _ => 7
  | .binary _ => 8
  | .list _ _ => 9
  | .struct _ => 12

/-- Type code of list elements. -/
def elemCode : TVal → Nat
  | .bool _ => 1
  | v => fieldCode v

/-- Field header: the difference to the previous id in the high nibble if it is small, else the id
as zigzag varint. -/
def fieldHeader (prev id : BitVec 16) (code : Nat) : List Byte :=
  let delta := id.toInt - prev.toInt
  if 0 < delta ∧ delta < 15 then [BitVec.ofNat 8 (delta.toNat * 16 + code)]
  else BitVec.ofNat 8 code :: zvar id

/-- List header: the length in the high nibble if it is small. -/
def listHeader (n elem : Nat) : List Byte :=
  if n < 15 then [BitVec.ofNat 8 (n * 16 + elem)] else BitVec.ofNat 8 (240 + elem) :: uvar n

/-- Booleans are in the field header. -/
def isBool : TVal → Bool
  | .bool _ => true
  | _ => false

mutual
/-- A value (outside of a field, for booleans). -/
def encVal : TVal → List Byte
  | .bool b => [if b then 1#8 else 2#8]
  | .byte x => [x]
  | .i16 x => zvar x
  | .i32 x => zvar x
  | .i64 x => zvar x
  | .double x => toLe 8 x
  | .binary bs => uvar bs.length ++ bs
  | .list elem vs => listHeader vs.length elem ++ encList vs
  | .struct fs => encFields 0 fs
/-- The elements of a list. -/
def encList : TList → List Byte
  | .nil => []
  | .cons v vs => encVal v ++ encList vs
/-- The fields following the id `prev`, then the stop byte. -/
def encFields (prev : BitVec 16) : TFields → List Byte
  | .nil => [0#8]
  | .cons id v fs =>
    fieldHeader prev id (fieldCode v)
      ++ ((if isBool v then [] else encVal v) ++ encFields id fs)
end

/-! ### Decoding -/

/-- First byte. -/
def readByte : List Byte → Res (Byte × List Byte)
  | [] => .err .oos
  | b :: bs => .ok (b, bs)

/-- First `n` bytes. -/
def readN (n : Nat) (bs : List Byte) : Res (List Byte × List Byte) :=
  if n ≤ bs.length then .ok (bs.take n, bs.drop n) else .err .oos

/-- Unsigned varint. -/
def readUvar : List Byte → Res (Nat × List Byte)
  | [] => .err .oos
  | b :: bs =>
    if b.toNat < 128 then .ok (b.toNat, bs)
    else do
      let (n, bs) ← readUvar bs
      .ok (b.toNat % 128 + 128 * n, bs)

/-- Zigzag varint. -/
def readZvar (w : Nat) (bs : List Byte) : Res (BitVec w × List Byte) := do
  let (n, bs) ← readUvar bs
  .ok (BitVec.ofInt w (if n % 2 = 0 then (n / 2 : Nat) else -((n + 1) / 2 : Nat)), bs)

/-- List header. -/
def readListHeader (bs : List Byte) : Res ((Nat × Nat) × List Byte) := do
  let (b, bs) ← readByte bs
  let elem := b.toNat % 16
  if b.toNat / 16 < 15 then .ok ((b.toNat / 16, elem), bs)
  else do
    let (n, bs) ← readUvar bs
    .ok ((n, elem), bs)

/-- Field id: `delta` after the previous one, or a zigzag varint. -/
def readId (prev : BitVec 16) (delta : Nat) (bs : List Byte) : Res (BitVec 16 × List Byte) :=
  if delta = 0 then readZvar 16 bs else .ok (prev + BitVec.ofNat 16 delta, bs)

/-- Booleans are in the field header; `other` is the value of other types. -/
def orBool (code : Nat) (bs : List Byte) (other : Res (TVal × List Byte)) :
    Res (TVal × List Byte) :=
  if code = 1 then .ok (.bool true, bs)
  else if code = 2 then .ok (.bool false, bs)
  else other

/-- A boolean outside of a field. -/
def readBool (b : Byte) (bs : List Byte) : Res (TVal × List Byte) :=
  if b = 1#8 then .ok (.bool true, bs)
  else if b = 2#8 then .ok (.bool false, bs) else .err .oos

mutual
/-- A value of type `code`; `fuel` bounds the nesting and the number of elements. -/
def decVal : Nat → Nat → List Byte → Res (TVal × List Byte)
  | 0, _, _ => .err .oos
  | fuel + 1, code, bs =>
    match code with
    | 1 | 2 => do
      let (b, bs) ← readByte bs
      readBool b bs
    | 3 => do
      let (b, bs) ← readByte bs
      .ok (.byte b, bs)
    | 4 => do
      let (x, bs) ← readZvar 16 bs
      .ok (.i16 x, bs)
    | 5 => do
      let (x, bs) ← readZvar 32 bs
      .ok (.i32 x, bs)
    | 6 => do
      let (x, bs) ← readZvar 64 bs
      .ok (.i64 x, bs)
    | 7 => do
      let (x, bs) ← readN 8 bs
      .ok (.double (fromLe 64 x), bs)
    | 8 => do
      let (n, bs) ← readUvar bs
      let (x, bs) ← readN n bs
      .ok (.binary x, bs)
    | 9 => do
      let ((n, elem), bs) ← readListHeader bs
      let (vs, bs) ← decList fuel elem n bs
      .ok (.list elem vs, bs)
    | 12 => do
      let (fs, bs) ← decFields fuel 0 bs
      .ok (.struct fs, bs)
    | _ => .err .oos
/-- `n` values. -/
def decList : Nat → Nat → Nat → List Byte → Res (TList × List Byte)
  | 0, _, _, _ => .err .oos
  | _ + 1, _, 0, bs => .ok (.nil, bs)
  | fuel + 1, code, n + 1, bs => do
    let (v, bs) ← decVal fuel code bs
    let (vs, bs) ← decList fuel code n bs
    .ok (.cons v vs, bs)
/-- The fields up to the stop byte. -/
def decFields : Nat → BitVec 16 → List Byte → Res (TFields × List Byte)
  | 0, _, _ => .err .oos
  | fuel + 1, prev, bs => do
    let (b, bs) ← readByte bs
    if b.toNat % 16 = 0 then .ok (.nil, bs)
    else do
      let (id, bs) ← readId prev (b.toNat / 16) bs
      let (v, bs) ← orBool (b.toNat % 16) bs (decVal fuel (b.toNat % 16) bs)
      let (fs, bs) ← decFields fuel id bs
      .ok (.cons id v fs, bs)
end

mutual
/-- What counts towards the allocation limit. -/
def cost : TVal → Nat
  | .binary bs => bs.length
  | .list _ vs => vs.length + costList vs
  | .struct fs => costFields fs
  | _ => 0
/-- See `cost`. -/
def costList : TList → Nat
  | .nil => 0
  | .cons v vs => cost v + costList vs
/-- See `cost`. -/
def costFields : TFields → Nat
  | .nil => 0
  | .cons _ v fs => cost v + costFields fs
end

/-- A structure at the beginning of the bytes. -/
def readStruct (max : Nat) (bs : List Byte) : Res TVal × List Byte :=
  match decVal (2 * bs.length + 1) 12 bs with
  | .ok (v, rest) => (if cost v ≤ max then .ok v else .err .oos, rest)
  | .err e => (.err e, [])
  | .panic => (.panic, [])

/-! ### Structures -/

/-- A structure or enumeration type of `parquet.thrift`: its representation as a thrift value. -/
structure Repr' (T : Type) where
  code : Nat
  toT : T → TVal
  ofT : TVal → Res T

/-- The `Codec` of a structure type. -/
def codecOf {T : Type} (r : Repr' T) : Codec T :=
  { ser := fun x => encVal (r.toT x)
    parse := fun max bs =>
      match readStruct max bs with
      | (.ok v, rest) => (r.ofT v, rest)
      | (.err e, rest) => (.err e, rest)
      | (.panic, rest) => (.panic, rest) }

/-- Present fields, in order. -/
def fieldsOf : List (BitVec 16 × Option TVal) → TFields
  | [] => .nil
  | (_, none) :: fs => fieldsOf fs
  | (id, some v) :: fs => .cons id v (fieldsOf fs)

/-- Value of a field; a repeated field overwrites the earlier one. -/
def TFields.find (id : BitVec 16) : TFields → Option TVal
  | .nil => none
  | .cons i v fs => match fs.find id with
    | some w => some w
    | none => if i = id then some v else none

/-- Elements of a list. -/
def listOf {T : Type} (r : Repr' T) : List T → TList
  | [] => .nil
  | x :: xs => .cons (r.toT x) (listOf r xs)

/-- Elements of a list. -/
def ofList {T : Type} (r : Repr' T) : TList → Res (List T)
  | .nil => .ok []
  | .cons v vs => do
    let x ← r.ofT v
    let xs ← ofList r vs
    .ok (x :: xs)

/-- `bool`. -/
def rBool : Repr' Bool :=
  { code := 1, toT := .bool, ofT := fun | .bool b => .ok b | _ => .err .oos }
/-- `i8`. -/
def rByte : Repr' Byte :=
  { code := 3, toT := .byte, ofT := fun | .byte b => .ok b | _ => .err .oos }
/-- `i16`. -/
def rI16 : Repr' (BitVec 16) :=
  { code := 4, toT := .i16, ofT := fun | .i16 b => .ok b | _ => .err .oos }
/-- `i32`, and the enumerations. -/
def rI32 : Repr' I32 :=
  { code := 5, toT := .i32, ofT := fun | .i32 b => .ok b | _ => .err .oos }
/-- `i64`. -/
def rI64 : Repr' I64 :=
  { code := 6, toT := .i64, ofT := fun | .i64 b => .ok b | _ => .err .oos }
/-- `binary`. -/
def rBinary : Repr' (List Byte) :=
  { code := 8, toT := .binary, ofT := fun | .binary b => .ok b | _ => .err .oos }

/-- The bytes of a string. -/
def stringBytes (s : String) : List Byte := s.toUTF8.data.toList.map UInt8.toBitVec

/-- The string with the given bytes, if they are UTF-8. -/
def stringOfBytes (bs : List Byte) : Res String :=
  match String.fromUTF8? ⟨⟨bs.map UInt8.ofBitVec⟩⟩ with
  | some s => .ok s
  | none => .err .oos

/-- `string`. -/
def rString : Repr' String :=
  { code := 8, toT := fun s => .binary (stringBytes s)
    ofT := fun | .binary b => stringOfBytes b | _ => .err .oos }

/-- `list<T>`. -/
def rList {T : Type} (r : Repr' T) : Repr' (List T) :=
  { code := 9, toT := fun xs => .list r.code (listOf r xs)
    ofT := fun | .list _ vs => ofList r vs | _ => .err .oos }

/-- A required field. -/
def req {T : Type} (r : Repr' T) (fs : TFields) (id : BitVec 16) : Res T :=
  match fs.find id with
  | none => .err .oos
  | some v => r.ofT v

/-- An optional field. -/
def opt {T : Type} (r : Repr' T) (fs : TFields) (id : BitVec 16) : Res (Option T) :=
  match fs.find id with
  | none => .ok none
  | some v => (r.ofT v).map' some

/-- A structure with the given fields. -/
def rStruct {T : Type} (fields : T → List (BitVec 16 × Option TVal)) (read : TFields → Res T) :
    Repr' T :=
  { code := 12, toT := fun x => .struct (fieldsOf (fields x))
    ofT := fun | .struct fs => read fs | _ => .err .oos }

/-- Fields of `Statistics`. -/
def rStatistics : Repr' Thrift.Statistics := rStruct
  (fun s => [(1, s.max.map rBinary.toT), (2, s.min.map rBinary.toT),
    (3, s.nullCount.map rI64.toT), (4, s.distinctCount.map rI64.toT),
    (5, s.maxValue.map rBinary.toT), (6, s.minValue.map rBinary.toT)])
  (fun fs => do
    let max ← opt rBinary fs 1
    let min ← opt rBinary fs 2
    let nullCount ← opt rI64 fs 3
    let distinctCount ← opt rI64 fs 4
    let maxValue ← opt rBinary fs 5
    let minValue ← opt rBinary fs 6
    .ok { max, min, nullCount, distinctCount, maxValue, minValue })

/-- Fields of `DataPageHeader`. -/
def rDataPageHeader : Repr' Thrift.DataPageHeader := rStruct
  (fun h => [(1, some (rI32.toT h.numValues)), (2, some (rI32.toT h.encoding)),
    (3, some (rI32.toT h.definitionLevelEncoding)), (4, some (rI32.toT h.repetitionLevelEncoding)),
    (5, h.statistics.map rStatistics.toT)])
  (fun fs => do
    let numValues ← req rI32 fs 1
    let encoding ← req rI32 fs 2
    let definitionLevelEncoding ← req rI32 fs 3
    let repetitionLevelEncoding ← req rI32 fs 4
    let statistics ← opt rStatistics fs 5
    .ok { numValues, encoding, definitionLevelEncoding, repetitionLevelEncoding, statistics })

/-- Fields of `DataPageHeaderV2`. -/
def rDataPageHeaderV2 : Repr' Thrift.DataPageHeaderV2 := rStruct
  (fun h => [(1, some (rI32.toT h.numValues)), (2, some (rI32.toT h.numNulls)),
    (3, some (rI32.toT h.numRows)), (4, some (rI32.toT h.encoding)),
    (5, some (rI32.toT h.definitionLevelsByteLength)),
    (6, some (rI32.toT h.repetitionLevelsByteLength)),
    (7, h.isCompressed.map rBool.toT), (8, h.statistics.map rStatistics.toT)])
  (fun fs => do
    let numValues ← req rI32 fs 1
    let numNulls ← req rI32 fs 2
    let numRows ← req rI32 fs 3
    let encoding ← req rI32 fs 4
    let definitionLevelsByteLength ← req rI32 fs 5
    let repetitionLevelsByteLength ← req rI32 fs 6
    let isCompressed ← opt rBool fs 7
    let statistics ← opt rStatistics fs 8
    .ok { numValues, numNulls, numRows, encoding, definitionLevelsByteLength
          repetitionLevelsByteLength, isCompressed, statistics })

/-- Fields of `DictionaryPageHeader`. -/
def rDictionaryPageHeader : Repr' Thrift.DictionaryPageHeader := rStruct
  (fun h => [(1, some (rI32.toT h.numValues)), (2, some (rI32.toT h.encoding)),
    (3, h.isSorted.map rBool.toT)])
  (fun fs => do
    let numValues ← req rI32 fs 1
    let encoding ← req rI32 fs 2
    let isSorted ← opt rBool fs 3
    .ok { numValues, encoding, isSorted })

/-- Fields of `PageHeader`. -/
def rPageHeader : Repr' Thrift.PageHeader := rStruct
  (fun h => [(1, some (rI32.toT h.type)), (2, some (rI32.toT h.uncompressedPageSize)),
    (3, some (rI32.toT h.compressedPageSize)), (4, h.crc.map rI32.toT),
    (5, h.dataPageHeader.map rDataPageHeader.toT),
    (7, h.dictionaryPageHeader.map rDictionaryPageHeader.toT),
    (8, h.dataPageHeaderV2.map rDataPageHeaderV2.toT)])
  (fun fs => do
    let type ← req rI32 fs 1
    let uncompressedPageSize ← req rI32 fs 2
    let compressedPageSize ← req rI32 fs 3
    let crc ← opt rI32 fs 4
    let dataPageHeader ← opt rDataPageHeader fs 5
    let dictionaryPageHeader ← opt rDictionaryPageHeader fs 7
    let dataPageHeaderV2 ← opt rDataPageHeaderV2 fs 8
    .ok { type, uncompressedPageSize, compressedPageSize, crc, dataPageHeader
          dictionaryPageHeader, dataPageHeaderV2 })

/-- The empty structures (`StringType`, `MilliSeconds`, …). -/
def rEmpty : Repr' Unit := rStruct (fun _ => []) (fun _ => .ok ())

/-- `TimeUnit`, a union. -/
def rTimeUnit : Repr' Thrift.TimeUnit := rStruct
  (fun u => match u with
    | .millis => [(1, some (rEmpty.toT ()))]
    | .micros => [(2, some (rEmpty.toT ()))]
    | .nanos => [(3, some (rEmpty.toT ()))])
  (fun fs => match fs with
    | .cons 1 _ .nil => .ok .millis
    | .cons 2 _ .nil => .ok .micros
    | .cons 3 _ .nil => .ok .nanos
    | _ => .err .oos)

/-- Fields of `DecimalType`. -/
def rDecimal : Repr' (I32 × I32) := rStruct
  (fun d => [(1, some (rI32.toT d.1)), (2, some (rI32.toT d.2))])
  (fun fs => do
    let scale ← req rI32 fs 1
    let precision ← req rI32 fs 2
    .ok (scale, precision))

/-- Fields of `TimeType` and `TimestampType`. -/
def rTime : Repr' (Bool × Thrift.TimeUnit) := rStruct
  (fun t => [(1, some (rBool.toT t.1)), (2, some (rTimeUnit.toT t.2))])
  (fun fs => do
    let isAdjustedToUTC ← req rBool fs 1
    let unit ← req rTimeUnit fs 2
    .ok (isAdjustedToUTC, unit))

/-- Fields of `IntType`. -/
def rInt : Repr' (Byte × Bool) := rStruct
  (fun t => [(1, some (rByte.toT t.1)), (2, some (rBool.toT t.2))])
  (fun fs => do
    let bitWidth ← req rByte fs 1
    let isSigned ← req rBool fs 2
    .ok (bitWidth, isSigned))

/-- `LogicalType`, a union. -/
def rLogicalType : Repr' Thrift.LogicalType := rStruct
  (fun t => match t with
    | .string => [(1, some (rEmpty.toT ()))]
    | .map => [(2, some (rEmpty.toT ()))]
    | .list => [(3, some (rEmpty.toT ()))]
    | .enum => [(4, some (rEmpty.toT ()))]
    | .decimal s p => [(5, some (rDecimal.toT (s, p)))]
    | .date => [(6, some (rEmpty.toT ()))]
    | .time a u => [(7, some (rTime.toT (a, u)))]
    | .timestamp a u => [(8, some (rTime.toT (a, u)))]
    | .integer w s => [(10, some (rInt.toT (w, s)))]
    | .unknown => [(11, some (rEmpty.toT ()))]
    | .json => [(12, some (rEmpty.toT ()))]
    | .bson => [(13, some (rEmpty.toT ()))]
    | .uuid => [(14, some (rEmpty.toT ()))])
  (fun fs => match fs with
    | .cons 1 _ .nil => .ok .string
    | .cons 2 _ .nil => .ok .map
    | .cons 3 _ .nil => .ok .list
    | .cons 4 _ .nil => .ok .enum
    | .cons 5 v .nil => (rDecimal.ofT v).map' fun d => .decimal d.1 d.2
    | .cons 6 _ .nil => .ok .date
    | .cons 7 v .nil => (rTime.ofT v).map' fun d => .time d.1 d.2
    | .cons 8 v .nil => (rTime.ofT v).map' fun d => .timestamp d.1 d.2
    | .cons 10 v .nil => (rInt.ofT v).map' fun d => .integer d.1 d.2
    | .cons 11 _ .nil => .ok .unknown
    | .cons 12 _ .nil => .ok .json
    | .cons 13 _ .nil => .ok .bson
    | .cons 14 _ .nil => .ok .uuid
    | _ => .err .oos)

/-- Fields of `SchemaElement`. -/
def rSchemaElement : Repr' Thrift.SchemaElement := rStruct
  (fun e => [(1, e.type.map rI32.toT), (2, e.typeLength.map rI32.toT),
    (3, e.repetitionType.map rI32.toT), (4, some (rString.toT e.name)),
    (5, e.numChildren.map rI32.toT), (6, e.convertedType.map rI32.toT), (7, e.scale.map rI32.toT),
    (8, e.precision.map rI32.toT), (9, e.fieldId.map rI32.toT),
    (10, e.logicalType.map rLogicalType.toT)])
  (fun fs => do
    let type ← opt rI32 fs 1
    let typeLength ← opt rI32 fs 2
    let repetitionType ← opt rI32 fs 3
    let name ← req rString fs 4
    let numChildren ← opt rI32 fs 5
    let convertedType ← opt rI32 fs 6
    let scale ← opt rI32 fs 7
    let precision ← opt rI32 fs 8
    let fieldId ← opt rI32 fs 9
    let logicalType ← opt rLogicalType fs 10
    .ok { type, typeLength, repetitionType, name, numChildren, convertedType, scale, precision
          fieldId, logicalType })

/-- Fields of `PageLocation`. -/
def rPageLocation : Repr' Thrift.PageLocation := rStruct
  (fun l => [(1, some (rI64.toT l.offset)), (2, some (rI32.toT l.compressedPageSize)),
    (3, some (rI64.toT l.firstRowIndex))])
  (fun fs => do
    let offset ← req rI64 fs 1
    let compressedPageSize ← req rI32 fs 2
    let firstRowIndex ← req rI64 fs 3
    .ok { offset, compressedPageSize, firstRowIndex })

/-- Fields of `OffsetIndex`. -/
def rOffsetIndex : Repr' Thrift.OffsetIndex := rStruct
  (fun i => [(1, some ((rList rPageLocation).toT i.pageLocations))])
  (fun fs => do
    let pageLocations ← req (rList rPageLocation) fs 1
    .ok { pageLocations })

/-- Fields of `ColumnIndex`. -/
def rColumnIndex : Repr' Thrift.ColumnIndex := rStruct
  (fun i => [(1, some ((rList rBool).toT i.nullPages)), (2, some ((rList rBinary).toT i.minValues)),
    (3, some ((rList rBinary).toT i.maxValues)), (4, some (rI32.toT i.boundaryOrder)),
    (5, i.nullCounts.map (rList rI64).toT)])
  (fun fs => do
    let nullPages ← req (rList rBool) fs 1
    let minValues ← req (rList rBinary) fs 2
    let maxValues ← req (rList rBinary) fs 3
    let boundaryOrder ← req rI32 fs 4
    let nullCounts ← opt (rList rI64) fs 5
    .ok { nullPages, minValues, maxValues, boundaryOrder, nullCounts })

/-- Fields of `PageEncodingStats`. -/
def rPageEncodingStats : Repr' Thrift.PageEncodingStats := rStruct
  (fun s => [(1, some (rI32.toT s.pageType)), (2, some (rI32.toT s.encoding)),
    (3, some (rI32.toT s.count))])
  (fun fs => do
    let pageType ← req rI32 fs 1
    let encoding ← req rI32 fs 2
    let count ← req rI32 fs 3
    .ok { pageType, encoding, count })

/-- Fields of `KeyValue`. -/
def rKeyValue : Repr' Thrift.KeyValue := rStruct
  (fun k => [(1, some (rString.toT k.key)), (2, k.value.map rString.toT)])
  (fun fs => do
    let key ← req rString fs 1
    let value ← opt rString fs 2
    .ok { key, value })

/-- Fields of `ColumnMetaData`. -/
def rColumnMetaData : Repr' Thrift.ColumnMetaData := rStruct
  (fun c => [(1, some (rI32.toT c.type)), (2, some ((rList rI32).toT c.encodings)),
    (3, some ((rList rString).toT c.pathInSchema)), (4, some (rI32.toT c.codec)),
    (5, some (rI64.toT c.numValues)), (6, some (rI64.toT c.totalUncompressedSize)),
    (7, some (rI64.toT c.totalCompressedSize)), (8, c.keyValueMetadata.map (rList rKeyValue).toT),
    (9, some (rI64.toT c.dataPageOffset)), (10, c.indexPageOffset.map rI64.toT),
    (11, c.dictionaryPageOffset.map rI64.toT), (12, c.statistics.map rStatistics.toT),
    (13, c.encodingStats.map (rList rPageEncodingStats).toT),
    (14, c.bloomFilterOffset.map rI64.toT)])
  (fun fs => do
    let type ← req rI32 fs 1
    let encodings ← req (rList rI32) fs 2
    let pathInSchema ← req (rList rString) fs 3
    let codec ← req rI32 fs 4
    let numValues ← req rI64 fs 5
    let totalUncompressedSize ← req rI64 fs 6
    let totalCompressedSize ← req rI64 fs 7
    let keyValueMetadata ← opt (rList rKeyValue) fs 8
    let dataPageOffset ← req rI64 fs 9
    let indexPageOffset ← opt rI64 fs 10
    let dictionaryPageOffset ← opt rI64 fs 11
    let statistics ← opt rStatistics fs 12
    let encodingStats ← opt (rList rPageEncodingStats) fs 13
    let bloomFilterOffset ← opt rI64 fs 14
    .ok { type, encodings, pathInSchema, codec, numValues, totalUncompressedSize
          totalCompressedSize, keyValueMetadata, dataPageOffset, indexPageOffset
          dictionaryPageOffset, statistics, encodingStats, bloomFilterOffset })

/-- Fields of `ColumnChunk`. -/
def rColumnChunk : Repr' Thrift.ColumnChunk := rStruct
  (fun c => [(1, c.filePath.map rString.toT), (2, some (rI64.toT c.fileOffset)),
    (3, c.metaData.map rColumnMetaData.toT), (4, c.offsetIndexOffset.map rI64.toT),
    (5, c.offsetIndexLength.map rI32.toT), (6, c.columnIndexOffset.map rI64.toT),
    (7, c.columnIndexLength.map rI32.toT)])
  (fun fs => do
    let filePath ← opt rString fs 1
    let fileOffset ← req rI64 fs 2
    let metaData ← opt rColumnMetaData fs 3
    let offsetIndexOffset ← opt rI64 fs 4
    let offsetIndexLength ← opt rI32 fs 5
    let columnIndexOffset ← opt rI64 fs 6
    let columnIndexLength ← opt rI32 fs 7
    .ok { filePath, fileOffset, metaData, offsetIndexOffset, offsetIndexLength, columnIndexOffset
          columnIndexLength })

/-- Fields of `SortingColumn`. -/
def rSortingColumn : Repr' Thrift.SortingColumn := rStruct
  (fun s => [(1, some (rI32.toT s.columnIdx)), (2, some (rBool.toT s.descending)),
    (3, some (rBool.toT s.nullsFirst))])
  (fun fs => do
    let columnIdx ← req rI32 fs 1
    let descending ← req rBool fs 2
    let nullsFirst ← req rBool fs 3
    .ok { columnIdx, descending, nullsFirst })

/-- Fields of `RowGroup`. -/
def rRowGroup : Repr' Thrift.RowGroup := rStruct
  (fun g => [(1, some ((rList rColumnChunk).toT g.columns)), (2, some (rI64.toT g.totalByteSize)),
    (3, some (rI64.toT g.numRows)), (4, g.sortingColumns.map (rList rSortingColumn).toT),
    (5, g.fileOffset.map rI64.toT), (6, g.totalCompressedSize.map rI64.toT),
    (7, g.ordinal.map rI16.toT)])
  (fun fs => do
    let columns ← req (rList rColumnChunk) fs 1
    let totalByteSize ← req rI64 fs 2
    let numRows ← req rI64 fs 3
    let sortingColumns ← opt (rList rSortingColumn) fs 4
    let fileOffset ← opt rI64 fs 5
    let totalCompressedSize ← opt rI64 fs 6
    let ordinal ← opt rI16 fs 7
    .ok { columns, totalByteSize, numRows, sortingColumns, fileOffset, totalCompressedSize
          ordinal })

/-- `ColumnOrder`, a union with one alternative. -/
def rColumnOrder : Repr' Unit := rStruct
  (fun _ => [(1, some (rEmpty.toT ()))])
  (fun fs => match fs with
    | .cons 1 _ .nil => .ok ()
    | _ => .err .oos)

/-- Fields of `FileMetaData`. -/
def rFileMetaData : Repr' Thrift.FileMetaData := rStruct
  (fun f => [(1, some (rI32.toT f.version)), (2, some ((rList rSchemaElement).toT f.schema)),
    (3, some (rI64.toT f.numRows)), (4, some ((rList rRowGroup).toT f.rowGroups)),
    (5, f.keyValueMetadata.map (rList rKeyValue).toT), (6, f.createdBy.map rString.toT),
    (7, f.columnOrders.map (rList rColumnOrder).toT)])
  (fun fs => do
    let version ← req rI32 fs 1
    let schema ← req (rList rSchemaElement) fs 2
    let numRows ← req rI64 fs 3
    let rowGroups ← req (rList rRowGroup) fs 4
    let keyValueMetadata ← opt (rList rKeyValue) fs 5
    let createdBy ← opt rString fs 6
    let columnOrders ← opt (rList rColumnOrder) fs 7
    .ok { version, schema, numRows, rowGroups, keyValueMetadata, createdBy, columnOrders })

end Pq.Compact
