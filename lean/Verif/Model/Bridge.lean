import Verif.Model.Format
/-
Model of `src/parquet_bridge.rs`, `src/schema/types/physical_type.rs` and
`src/schema/types/converted_type.rs`: the rust enumerations and their conversions from and to
thrift. A thrift enumeration is its `i32` value (a newtype in `parquet_format_safe`); the numeric
constants are those of `parquet.thrift`.
-/
namespace Pq

/-- `src/parquet_bridge.rs:18-25`. -/
inductive Repetition where
  | required | optional | repeated
  deriving DecidableEq, Repr

/-- `src/parquet_bridge.rs:27-38`. -/
def Repetition.ofThrift (x : I32) : Res Repetition :=
  if x = 0#32 then .ok .required
  else if x = 1#32 then .ok .optional
  else if x = 2#32 then .ok .repeated
  else .err .oos

/-- `src/parquet_bridge.rs:40-48`. -/
def Repetition.toThrift : Repetition → I32
  | .required => 0#32 | .optional => 1#32 | .repeated => 2#32

/-- `src/parquet_bridge.rs:52-61`. -/
inductive Compression where
  | uncompressed | snappy | gzip | lzo | brotli | lz4 | zstd | lz4Raw
  deriving DecidableEq, Repr

/-- `src/parquet_bridge.rs:63-79`. -/
def Compression.ofThrift (x : I32) : Res Compression :=
  if x = 0#32 then .ok .uncompressed
  else if x = 1#32 then .ok .snappy
  else if x = 2#32 then .ok .gzip
  else if x = 3#32 then .ok .lzo
  else if x = 4#32 then .ok .brotli
  else if x = 5#32 then .ok .lz4
  else if x = 6#32 then .ok .zstd
  else if x = 7#32 then .ok .lz4Raw
  else .err .oos

/-- `src/parquet_bridge.rs:81-94`. -/
def Compression.toThrift : Compression → I32
  | .uncompressed => 0#32 | .snappy => 1#32 | .gzip => 2#32 | .lzo => 3#32
  | .brotli => 4#32 | .lz4 => 5#32 | .zstd => 6#32 | .lz4Raw => 7#32

/-- `src/parquet_bridge.rs:161-188` `BrotliLevel`, `190-219` `GzipLevel`, `228-251` `ZstdLevel`:
a level that passed `is_valid_level` (lines 147-158). -/
structure Level where
  value : Int
  deriving DecidableEq, Repr

/-- `src/parquet_bridge.rs:147-158` `is_valid_level`. -/
def isValidLevel (minimum maximum level : Int) : Res Unit :=
  if minimum ≤ level ∧ level ≤ maximum then .ok () else .err .invalidParameter

/-- `src/parquet_bridge.rs:180-182` `BrotliLevel::try_new`. -/
def brotliLevel (level : Int) : Res Level := (isValidLevel 0 11 level).map' fun _ => ⟨level⟩
/-- `src/parquet_bridge.rs:211-213` `GzipLevel::try_new`. -/
def gzipLevel (level : Int) : Res Level := (isValidLevel 0 10 level).map' fun _ => ⟨level⟩
/-- `src/parquet_bridge.rs:243-245` `ZstdLevel::try_new`. -/
def zstdLevel (level : Int) : Res Level := (isValidLevel 1 22 level).map' fun _ => ⟨level⟩

/-- `src/parquet_bridge.rs:100-109` `CompressionOptions`. -/
inductive CompressionOptions where
  | uncompressed | snappy | gzip (level : Option Level) | lzo | brotli (level : Option Level)
  | lz4 | zstd (level : Option Level) | lz4Raw
  deriving DecidableEq, Repr

/-- `src/parquet_bridge.rs:111-124`. -/
def CompressionOptions.codec : CompressionOptions → Compression
  | .uncompressed => .uncompressed | .snappy => .snappy | .gzip _ => .gzip | .lzo => .lzo
  | .brotli _ => .brotli | .lz4 => .lz4 | .zstd _ => .zstd | .lz4Raw => .lz4Raw

/-- `src/parquet_bridge.rs:126-139`. -/
def CompressionOptions.toThrift : CompressionOptions → I32
  | .uncompressed => 0#32 | .snappy => 1#32 | .gzip _ => 2#32 | .lzo => 3#32
  | .brotli _ => 4#32 | .lz4 => 5#32 | .zstd _ => 6#32 | .lz4Raw => 7#32

/-- `src/parquet_bridge.rs:261-265`. -/
inductive PageType where
  | dataPage | dataPageV2 | dictionaryPage
  deriving DecidableEq, Repr

/-- `src/parquet_bridge.rs:267-278`. -/
def PageType.ofThrift (x : I32) : Res PageType :=
  if x = 0#32 then .ok .dataPage
  else if x = 3#32 then .ok .dataPageV2
  else if x = 2#32 then .ok .dictionaryPage
  else .err .oos

/-- `src/parquet_bridge.rs:280-288`. -/
def PageType.toThrift : PageType → I32
  | .dataPage => 0#32 | .dataPageV2 => 3#32 | .dictionaryPage => 2#32

/-- `src/parquet_bridge.rs:291-330`. -/
inductive Encoding where
  | plain | plainDictionary | rle | bitPacked | deltaBinaryPacked | deltaLengthByteArray
  | deltaByteArray | rleDictionary | byteStreamSplit
  deriving DecidableEq, Repr

/-- `src/parquet_bridge.rs:332-349`. -/
def Encoding.ofThrift (x : I32) : Res Encoding :=
  if x = 0#32 then .ok .plain
  else if x = 2#32 then .ok .plainDictionary
  else if x = 3#32 then .ok .rle
  else if x = 4#32 then .ok .bitPacked
  else if x = 5#32 then .ok .deltaBinaryPacked
  else if x = 6#32 then .ok .deltaLengthByteArray
  else if x = 7#32 then .ok .deltaByteArray
  else if x = 8#32 then .ok .rleDictionary
  else if x = 9#32 then .ok .byteStreamSplit
  else .err .oos

/-- `src/parquet_bridge.rs:351-365`. -/
def Encoding.toThrift : Encoding → I32
  | .plain => 0#32 | .plainDictionary => 2#32 | .rle => 3#32 | .bitPacked => 4#32
  | .deltaBinaryPacked => 5#32 | .deltaLengthByteArray => 6#32 | .deltaByteArray => 7#32
  | .rleDictionary => 8#32 | .byteStreamSplit => 9#32

/-- `src/parquet_bridge.rs:411-437`: `self.encoding.try_into().unwrap()`. -/
def Encoding.unwrapThrift (x : I32) : Res Encoding :=
  match Encoding.ofThrift x with
  | .ok e => .ok e
  | _ => .panic

/-- `src/parquet_bridge.rs:370-374`. -/
inductive BoundaryOrder where
  | unordered | ascending | descending
  deriving DecidableEq, Repr

/-- `src/parquet_bridge.rs:382-393`. -/
def BoundaryOrder.ofThrift (x : I32) : Res BoundaryOrder :=
  if x = 0#32 then .ok .unordered
  else if x = 1#32 then .ok .ascending
  else if x = 2#32 then .ok .descending
  else .err .oos

/-- `src/parquet_bridge.rs:395-403`. -/
def BoundaryOrder.toThrift : BoundaryOrder → I32
  | .unordered => 0#32 | .ascending => 1#32 | .descending => 2#32

/-- `src/parquet_bridge.rs:441-445`. -/
inductive TimeUnit where
  | milliseconds | microseconds | nanoseconds
  deriving DecidableEq, Repr

/-- `src/parquet_bridge.rs:447-455`. -/
def TimeUnit.ofThrift : Thrift.TimeUnit → TimeUnit
  | .millis => .milliseconds | .micros => .microseconds | .nanos => .nanoseconds

/-- `src/parquet_bridge.rs:457-465`. -/
def TimeUnit.toThrift : TimeUnit → Thrift.TimeUnit
  | .milliseconds => .millis | .microseconds => .micros | .nanoseconds => .nanos

/-- `src/parquet_bridge.rs:470-479`. -/
inductive IntegerType where
  | int8 | int16 | int32 | int64 | uint8 | uint16 | uint32 | uint64
  deriving DecidableEq, Repr

/-- `src/parquet_bridge.rs:483-501`. -/
inductive PrimitiveLogicalType where
  | string | enum
  | decimal (precision scale : Nat)
  | date
  | time (unit : TimeUnit) (isAdjustedToUtc : Bool)
  | timestamp (unit : TimeUnit) (isAdjustedToUtc : Bool)
  | integer (type : IntegerType)
  | unknown | json | bson | uuid
  deriving DecidableEq, Repr

/-- `src/parquet_bridge.rs:505-508`. -/
inductive GroupLogicalType where
  | map | list
  deriving DecidableEq, Repr

/-- `src/parquet_bridge.rs:510-517`. -/
def GroupLogicalType.toThrift : GroupLogicalType → Thrift.LogicalType
  | .map => .map | .list => .list

/-- `src/parquet_bridge.rs:519-535`; the bit width is an `i8` widened to `i32` (line 573). -/
def IntegerType.ofThrift (bitWidth : Int) (isSigned : Bool) : IntegerType :=
  if isSigned then
    if bitWidth = 8 then .int8 else if bitWidth = 16 then .int16
    else if bitWidth = 32 then .int32 else if bitWidth = 64 then .int64 else .int32
  else
    if bitWidth = 8 then .uint8 else if bitWidth = 16 then .uint16
    else if bitWidth = 32 then .uint32 else if bitWidth = 64 then .uint64 else .int32

/-- `src/parquet_bridge.rs:537-550`. -/
def IntegerType.toPair : IntegerType → Nat × Bool
  | .int8 => (8, true) | .int16 => (16, true) | .int32 => (32, true) | .int64 => (64, true)
  | .uint8 => (8, false) | .uint16 => (16, false) | .uint32 => (32, false) | .uint64 => (64, false)

/-- `src/parquet_bridge.rs:552-582`. -/
def PrimitiveLogicalType.ofThrift : Thrift.LogicalType → Res PrimitiveLogicalType
  | .string => .ok .string
  | .enum => .ok .enum
  | .decimal scale precision => do
      let p ← toUsize precision
      let s ← toUsize scale
      .ok (.decimal p s)
  | .date => .ok .date
  | .time utc unit => .ok (.time (TimeUnit.ofThrift unit) utc)
  | .timestamp utc unit => .ok (.timestamp (TimeUnit.ofThrift unit) utc)
  | .integer bw signed => .ok (.integer (IntegerType.ofThrift bw.toInt signed))
  | .unknown => .ok .unknown
  | .json => .ok .json
  | .bson => .ok .bson
  | .uuid => .ok .uuid
  | .map => .err .oos
  | .list => .err .oos

/-- `src/parquet_bridge.rs:584-594`. -/
def GroupLogicalType.ofThrift : Thrift.LogicalType → Res GroupLogicalType
  | .list => .ok .list
  | .map => .ok .map
  | _ => .err .oos

/-- `src/parquet_bridge.rs:596-635`; `as i32` and `as i8` keep the low bits. -/
def PrimitiveLogicalType.toThrift : PrimitiveLogicalType → Thrift.LogicalType
  | .string => .string
  | .enum => .enum
  | .decimal precision scale => .decimal (asI32 scale) (asI32 precision)
  | .date => .date
  | .time unit utc => .time utc unit.toThrift
  | .timestamp unit utc => .timestamp utc unit.toThrift
  | .integer t => .integer (BitVec.ofNat 8 t.toPair.1) t.toPair.2
  | .unknown => .unknown
  | .json => .json
  | .bson => .bson
  | .uuid => .uuid

/-- `src/schema/types/physical_type.rs:10-19`. -/
inductive PhysicalType where
  | boolean | int32 | int64 | int96 | float | double | byteArray
  | fixedLenByteArray (size : Nat)
  deriving DecidableEq, Repr

/-- `src/schema/types/physical_type.rs:21-41`. -/
def PhysicalType.ofThrift (type : I32) (length : Option I32) : Res PhysicalType :=
  if type = 0#32 then .ok .boolean
  else if type = 1#32 then .ok .int32
  else if type = 2#32 then .ok .int64
  else if type = 3#32 then .ok .int96
  else if type = 4#32 then .ok .float
  else if type = 5#32 then .ok .double
  else if type = 6#32 then .ok .byteArray
  else if type = 7#32 then do
    let l ← Res.ofOption .oos length
    let l ← toUsize l
    .ok (.fixedLenByteArray l)
  else .err .oos

/-- `src/schema/types/physical_type.rs:43-58`. -/
def PhysicalType.toThrift : PhysicalType → I32 × Option I32
  | .boolean => (0#32, none) | .int32 => (1#32, none) | .int64 => (2#32, none)
  | .int96 => (3#32, none) | .float => (4#32, none) | .double => (5#32, none)
  | .byteArray => (6#32, none)
  | .fixedLenByteArray n => (7#32, some (asI32 n))

/-- `src/schema/types/converted_type.rs:8-92`. -/
inductive PrimitiveConvertedType where
  | utf8 | enum | decimal (precision scale : Nat) | date | timeMillis | timeMicros
  | timestampMillis | timestampMicros | uint8 | uint16 | uint32 | uint64
  | int8 | int16 | int32 | int64 | json | bson | interval
  deriving DecidableEq, Repr

/-- `src/schema/types/converted_type.rs:96-104`. -/
inductive GroupConvertedType where
  | map | mapKeyValue | list
  deriving DecidableEq, Repr

/-- `src/schema/types/converted_type.rs:106-147`. -/
def PrimitiveConvertedType.ofThrift (ty : I32) (maybeDecimal : Option (I32 × I32)) :
    Res PrimitiveConvertedType :=
  if ty = 0#32 then .ok .utf8
  else if ty = 4#32 then .ok .enum
  else if ty = 5#32 then
    match maybeDecimal with
    | some (precision, scale) => do
      let p ← toUsize precision
      let s ← toUsize scale
      .ok (.decimal p s)
    | none => .err .oos
  else if ty = 6#32 then .ok .date
  else if ty = 7#32 then .ok .timeMillis
  else if ty = 8#32 then .ok .timeMicros
  else if ty = 9#32 then .ok .timestampMillis
  else if ty = 10#32 then .ok .timestampMicros
  else if ty = 11#32 then .ok .uint8
  else if ty = 12#32 then .ok .uint16
  else if ty = 13#32 then .ok .uint32
  else if ty = 14#32 then .ok .uint64
  else if ty = 15#32 then .ok .int8
  else if ty = 16#32 then .ok .int16
  else if ty = 17#32 then .ok .int32
  else if ty = 18#32 then .ok .int64
  else if ty = 19#32 then .ok .json
  else if ty = 20#32 then .ok .bson
  else if ty = 21#32 then .ok .interval
  else .err .oos

/-- `src/schema/types/converted_type.rs:149-160`. -/
def GroupConvertedType.ofThrift (ty : I32) : Res GroupConvertedType :=
  if ty = 3#32 then .ok .list
  else if ty = 1#32 then .ok .map
  else if ty = 2#32 then .ok .mapKeyValue
  else .err .oos

/-- `src/schema/types/converted_type.rs:162-170`. -/
def GroupConvertedType.toThrift : GroupConvertedType → I32
  | .map => 1#32 | .list => 3#32 | .mapKeyValue => 2#32

/-- `src/schema/types/converted_type.rs:172-200`. -/
def PrimitiveConvertedType.toThrift : PrimitiveConvertedType → I32 × Option (I32 × I32)
  | .utf8 => (0#32, none) | .enum => (4#32, none)
  | .decimal p s => (5#32, some (asI32 p, asI32 s))
  | .date => (6#32, none) | .timeMillis => (7#32, none) | .timeMicros => (8#32, none)
  | .timestampMillis => (9#32, none) | .timestampMicros => (10#32, none)
  | .uint8 => (11#32, none) | .uint16 => (12#32, none) | .uint32 => (13#32, none)
  | .uint64 => (14#32, none) | .int8 => (15#32, none) | .int16 => (16#32, none)
  | .int32 => (17#32, none) | .int64 => (18#32, none) | .json => (19#32, none)
  | .bson => (20#32, none) | .interval => (21#32, none)

end Pq
