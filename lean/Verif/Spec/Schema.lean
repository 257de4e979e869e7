import Verif.Model.Schema
/-
Model-independent statements about schemas: the codes of `parquet.thrift`, the legal annotations
of LogicalTypes.md, well-formed schema trees and the leaves of a tree.
-/
namespace Pq.Spec

/-! ### the codes of parquet.thrift -/

/-- `enum FieldRepetitionType`. -/
def repetitionTable : List (Repetition × Nat) := [(.required, 0), (.optional, 1), (.repeated, 2)]

/-- `enum CompressionCodec`. -/
def compressionTable : List (Compression × Nat) :=
  [(.uncompressed, 0), (.snappy, 1), (.gzip, 2), (.lzo, 3), (.brotli, 4), (.lz4, 5), (.zstd, 6),
    (.lz4Raw, 7)]

/-- `enum PageType` without `INDEX_PAGE = 1`, which is not supported. -/
def pageTypeTable : List (PageType × Nat) :=
  [(.dataPage, 0), (.dictionaryPage, 2), (.dataPageV2, 3)]

/-- `enum Encoding` (code 1, `GROUP_VAR_INT`, was never used). -/
def encodingTable : List (Encoding × Nat) :=
  [(.plain, 0), (.plainDictionary, 2), (.rle, 3), (.bitPacked, 4), (.deltaBinaryPacked, 5),
    (.deltaLengthByteArray, 6), (.deltaByteArray, 7), (.rleDictionary, 8), (.byteStreamSplit, 9)]

/-- `enum BoundaryOrder`. -/
def boundaryTable : List (BoundaryOrder × Nat) :=
  [(.unordered, 0), (.ascending, 1), (.descending, 2)]

/-- `enum ConvertedType`, group annotations. -/
def groupConvertedTable : List (GroupConvertedType × Nat) :=
  [(.map, 1), (.mapKeyValue, 2), (.list, 3)]

/-- `enum ConvertedType`, primitive annotations other than `DECIMAL = 5`. -/
def convertedTable : List (PrimitiveConvertedType × Nat) :=
  [(.utf8, 0), (.enum, 4), (.date, 6), (.timeMillis, 7), (.timeMicros, 8),
    (.timestampMillis, 9), (.timestampMicros, 10), (.uint8, 11), (.uint16, 12), (.uint32, 13),
    (.uint64, 14), (.int8, 15), (.int16, 16), (.int32, 17), (.int64, 18), (.json, 19),
    (.bson, 20), (.interval, 21)]

/-- `enum Type` other than `FIXED_LEN_BYTE_ARRAY = 7`. -/
def physicalTable : List (PhysicalType × Nat) :=
  [(.boolean, 0), (.int32, 1), (.int64, 2), (.int96, 3), (.float, 4), (.double, 5),
    (.byteArray, 6)]

/-! ### legal annotations (LogicalTypes.md) -/

/-- DECIMAL: `precision > 0`, `0 ≤ scale ≤ precision`, and the unscaled values of `precision`
decimal digits fit the physical type. -/
def LegalDecimal (t : PhysicalType) (precision scale : Nat) : Prop :=
  1 ≤ precision ∧ scale ≤ precision ∧
    match t with
    | .int32 => 10 ^ precision - 1 ≤ 2 ^ 31 - 1
    | .int64 => 10 ^ precision - 1 ≤ 2 ^ 63 - 1
    | .fixedLenByteArray n => 0 < n ∧ 10 ^ precision - 1 ≤ 2 ^ (8 * n - 1) - 1
    | .byteArray => True
    | _ => False

/-- Legal converted types. -/
def LegalConverted (t : PhysicalType) : PrimitiveConvertedType → Prop
  | .utf8 => t = .byteArray
  | .enum => t = .byteArray
  | .json => t = .byteArray
  | .bson => t = .byteArray
  | .decimal p s => LegalDecimal t p s
  | .date => t = .int32
  | .timeMillis => t = .int32
  | .timeMicros => t = .int64
  | .timestampMillis => t = .int64
  | .timestampMicros => t = .int64
  | .uint8 => t = .int32
  | .uint16 => t = .int32
  | .uint32 => t = .int32
  | .uint64 => t = .int64
  | .int8 => t = .int32
  | .int16 => t = .int32
  | .int32 => t = .int32
  | .int64 => t = .int64
  | .interval => t = .fixedLenByteArray 12

/-- Legal logical types; `UNKNOWN` may annotate any type. -/
def LegalLogical (t : PhysicalType) : PrimitiveLogicalType → Prop
  | .string => t = .byteArray
  | .enum => t = .byteArray
  | .json => t = .byteArray
  | .bson => t = .byteArray
  | .uuid => t = .fixedLenByteArray 16
  | .decimal p s => LegalDecimal t p s
  | .date => t = .int32
  | .time .milliseconds _ => t = .int32
  | .time .microseconds _ => t = .int64
  | .time .nanoseconds _ => t = .int64
  | .timestamp _ _ => t = .int64
  | .integer .int8 => t = .int32
  | .integer .int16 => t = .int32
  | .integer .int32 => t = .int32
  | .integer .uint8 => t = .int32
  | .integer .uint16 => t = .int32
  | .integer .uint32 => t = .int32
  | .integer .int64 => t = .int64
  | .integer .uint64 => t = .int64
  | .unknown => True

/-! ### schema trees -/

/-- Parameters of an annotation that fit thrift's `i32`. -/
def SmallConverted : PrimitiveConvertedType → Prop
  | .decimal p s => p < 2 ^ 31 ∧ s < 2 ^ 31
  | _ => True

/-- Parameters of an annotation that fit thrift's `i32`. -/
def SmallLogical : PrimitiveLogicalType → Prop
  | .decimal p s => p < 2 ^ 31 ∧ s < 2 ^ 31
  | _ => True

/-- Parameters of a physical type that fit thrift's `i32`. -/
def SmallPhysical : PhysicalType → Prop
  | .fixedLenByteArray n => n < 2 ^ 31
  | _ => True

/-- A primitive field whose annotations are accepted by the constructor and whose parameters fit
thrift's `i32`. -/
def GoodPrimitive (p : PrimitiveType) : Prop :=
  SmallPhysical p.physicalType ∧
  (∀ c, p.convertedType = some c → SmallConverted c) ∧
  (∀ l, p.logicalType = some l → SmallLogical l) ∧
  ParquetType.tryFromPrimitive p.fieldInfo.name p.physicalType p.fieldInfo.repetition
    p.convertedType p.logicalType p.fieldInfo.id = .ok (.primitive p)

mutual
/-- Every primitive is good and every group has between 1 and 2^31-1 children. -/
def GoodTree : ParquetType → Prop
  | .primitive p => GoodPrimitive p
  | .group _ _ _ fields => 0 < fields.length ∧ fields.length < 2 ^ 31 ∧ GoodTrees fields
def GoodTrees : List ParquetType → Prop
  | [] => True
  | f :: fs => GoodTree f ∧ GoodTrees fs
end

mutual
/-- The primitive leaves of a tree in depth-first order, each with the nodes on the way from the
root down to and including the leaf. -/
def leafPaths : ParquetType → List (List FieldInfo × PrimitiveType)
  | .primitive p => [([p.fieldInfo], p)]
  | .group info _ _ fields => (leafPathsList fields).map fun (path, p) => (info :: path, p)
def leafPathsList : List ParquetType → List (List FieldInfo × PrimitiveType)
  | [] => []
  | f :: fs => leafPaths f ++ leafPathsList fs
end

/-- The maximum definition level of a path: the number of nodes that are not required. -/
def defLevel (path : List FieldInfo) : Nat := (path.filter fun i => i.repetition != .required).length

/-- The maximum repetition level of a path: the number of repeated nodes. -/
def repLevel (path : List FieldInfo) : Nat := (path.filter fun i => i.repetition == .repeated).length

mutual
/-- The nodes of a tree, each given by the nodes on the way from the root down to and including it. -/
def nodePaths : ParquetType → List (List FieldInfo)
  | .primitive p => [[p.fieldInfo]]
  | .group info _ _ fields => [info] :: (nodePathsList fields).map (info :: ·)
def nodePathsList : List ParquetType → List (List FieldInfo)
  | [] => []
  | f :: fs => nodePaths f ++ nodePathsList fs
end

/-- Every node of these trees has a definition level that fits an `i16`. -/
def ShallowFields (fields : List ParquetType) : Prop :=
  ∀ f ∈ fields, ∀ path ∈ nodePaths f, defLevel path < 2 ^ 15

end Pq.Spec
