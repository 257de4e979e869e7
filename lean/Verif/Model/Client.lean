import Verif.Model.Deserialize
import Verif.Model.Statistics
import Verif.Model.Compression
import Verif.Model.Writer
/-
Model of the client code of the repository, `tests/it/write/*.rs` and `tests/it/read/*.rs`: how arrays of
optional values are made into pages, and how pages are made into arrays again with the page states of the
library. Values are bit patterns; `[u32; 3]` (int96) is 96 bits, its first word lowest.
-/
namespace Pq.Client
open Pq.Deser

/-- `tests/it/main.rs:9-21` `Array`, without the nested arrays and `UInt32` (which no page is read into). -/
inductive Array where
  | int32 (xs : List (Option (BitVec (8 * 4))))
  | int64 (xs : List (Option (BitVec (8 * 8))))
  | int96 (xs : List (Option (BitVec (8 * 12))))
  | float (xs : List (Option (BitVec (8 * 4))))
  | double (xs : List (Option (BitVec (8 * 8))))
  | boolean (xs : List (Option Bool))
  | binary (xs : List (Option (List Byte)))
  | fixedLenBinary (xs : List (Option (List Byte)))
  deriving DecidableEq, Repr

/-- `tests/it/main.rs:24-38` `len`. -/
def Array.len : Array → Nat
  | .int32 xs => xs.length
  | .int64 xs => xs.length
  | .int96 xs => xs.length
  | .float xs => xs.length
  | .double xs => xs.length
  | .boolean xs => xs.length
  | .binary xs => xs.length
  | .fixedLenBinary xs => xs.length

/-! ### Writing -/

/-- `tests/it/write/primitive.rs:11-41` and `tests/it/write/binary.rs:11-42` `unzip_option`: values and
validity; `toLe` appends a value to the values (line 22, and lines 22-23). The first four bytes of the
length are those of a `usize`. -/
def unzipOption {α : Type} (toLe : α → List Byte) (array : List (Option α)) :
    Res (List Byte × List Byte) := do
  let values := array.flatMap fun value => match value with
    | some item => toLe item
    | none => []
  let validity ← Rle.encodeBool (array.map Option.isSome)
  .ok (values, (Pq.toLe 8 (BitVec.ofNat 64 validity.length)).take 4 ++ validity)

/-- `Iterator::max_by`: the last of several maxima. -/
def maxBy {α : Type} (cmp : α → α → Ordering) : List α → Option α
  | [] => none
  | x :: xs => some (xs.foldl (fun a b => match cmp a b with | .gt => a | _ => b) x)

/-- `Iterator::min_by`: the first of several minima. -/
def minBy {α : Type} (cmp : α → α → Ordering) : List α → Option α
  | [] => none
  | x :: xs => some (xs.foldl (fun a b => match cmp a b with | .gt => b | _ => a) x)

/-- `tests/it/write/primitive.rs:52-63` and `tests/it/write/binary.rs:53-72`: the statistics of an array. -/
def arrayStatistics {α : Type} (ord : α → α → Ordering)
    (statistics : Option I64 → Option α → Option α → Statistics) (array : List (Option α))
    (options : WriteOptions) : Res (Option Thrift.Statistics) :=
  if options.writeStatistics then
    let flat := array.filterMap id
    (serializeStatistics (statistics (some (BitVec.ofNat 64 (array.length - flat.length)))
      (maxBy ord flat) (minBy ord flat))).map' some
  else .ok none

/-- `tests/it/write/primitive.rs:43-79` and `tests/it/write/binary.rs:44-88` `array_to_page_v1`;
`statistics` makes the statistics out of null count, maximum and minimum. -/
def arrayToPageV1 {α : Type} (toLe : α → List Byte) (ord : α → α → Ordering)
    (statistics : Option I64 → Option α → Option α → Statistics) (array : List (Option α))
    (options : WriteOptions) (descriptor : Descriptor) : Res Page := do
  let (values, buffer) ← unzipOption toLe array
  let buffer := buffer ++ values
  let statistics ← arrayStatistics ord statistics array options
  let header : Thrift.DataPageHeader :=
    { numValues := BitVec.ofNat 32 array.length
      encoding := Encoding.plain.toThrift
      definitionLevelEncoding := Encoding.rle.toThrift
      repetitionLevelEncoding := Encoding.rle.toThrift
      statistics }
  .ok (.data (DataPage.new (.v1 header) buffer descriptor (some array.length)))

/-- `src/types.rs:33-35` `ord` of `f32` and `f64`: NaN is equal to everything. -/
def floatOrd (e m : Nat) (x y : BitVec (1 + e + m)) : Ordering :=
  if floatGt e m x y then .gt else if floatGt e m y x then .lt else .eq

/-- `PrimitiveStatistics` as in `tests/it/write/primitive.rs:53-59`. -/
def primitiveStatistics {α : Type} (t : PrimitiveType) (nullCount : Option I64) (max min : Option α) :
    PrimitiveStatistics α :=
  { primitiveType := t, nullCount, distinctCount := none, maxValue := max, minValue := min }

/-- `tests/it/write/binary.rs:22-23`: `item.len() as i32`, then the item. -/
def binaryToLe (item : List Byte) : List Byte := toLe 4 (BitVec.ofNat 32 item.length) ++ item

/-- The triple of a 96-bit pattern. -/
def int96Of (x : BitVec (8 * 12)) : Int96 := int96FromLe (toLe 12 x)

/-- `tests/it/write/mod.rs:24-39` `array_to_page`. -/
def arrayToPage (array : Array) (options : WriteOptions) (descriptor : Descriptor) : Res Page :=
  let t := descriptor.primitiveType
  match array with
  | .int32 a => arrayToPageV1 (nativeToLe 4) intOrd
      (fun n max min => .int32 (primitiveStatistics t n max min)) a options descriptor
  | .int64 a => arrayToPageV1 (nativeToLe 8) intOrd
      (fun n max min => .int64 (primitiveStatistics t n max min)) a options descriptor
  | .int96 a => arrayToPageV1 (nativeToLe 12) (fun x y => int96Ord (int96Of x) (int96Of y))
      (fun n max min => .int96 (primitiveStatistics t n (max.map int96Of) (min.map int96Of))) a
      options descriptor
  | .float a => arrayToPageV1 (nativeToLe 4) (floatOrd 8 23)
      (fun n max min => .float (primitiveStatistics t n max min)) a options descriptor
  | .double a => arrayToPageV1 (nativeToLe 8) (floatOrd 11 52)
      (fun n max min => .double (primitiveStatistics t n max min)) a options descriptor
  | .binary a => arrayToPageV1 binaryToLe ordBinary
      (fun n max min => .binary { primitiveType := t, nullCount := n, distinctCount := none,
                                  maxValue := max, minValue := min }) a options descriptor
  | _ => .panic   -- `todo!()`

/-! ### Reading -/

/-- The iterator over a list of items, some of which may be errors. -/
def itemsNext {α : Type} : List (Res α) → Res (Option α × List (Res α))
  | [] => .ok (none, [])
  | .ok x :: xs => .ok (some x, xs)
  | .err e :: _ => .err e
  | .panic :: _ => .panic

/-- `tests/it/read/utils.rs:26-35`: one item per bit of a bitmap. -/
def fillBits {τ α : Type} (next : τ → Res (Option α × τ)) : List Bool → τ → Res (List (Option α) × τ)
  | [], t => .ok ([], t)
  | true :: bits, t => do
    let (x, t) ← next t
    let (xs, t) ← fillBits next bits t
    .ok (x :: xs, t)
  | false :: bits, t => do
    let (xs, t) ← fillBits next bits t
    .ok (none :: xs, t)

/-- `tests/it/read/utils.rs:39-41`: `values.by_ref().take(length)`, until there are no more. -/
def takeValues {τ α : Type} (next : τ → Res (Option α × τ)) : Nat → τ → Res (List (Option α) × τ)
  | 0, t => .ok ([], t)
  | n + 1, t => do
    let (x, t) ← next t
    match x with
    | none => .ok ([], t)
    | some x => do
      let (xs, t) ← takeValues next n t
      .ok (some x :: xs, t)

/-- `tests/it/read/utils.rs:25-47`: the closure, for one run. -/
def deserializeRun {τ α : Type} (next : τ → Res (Option α × τ)) (run : Encoded) (t : τ) :
    Res (List (Option α) × τ) :=
  match run with
  | .bitmap bitmap length => do
    let it ← Bitmap.Iter.new bitmap 0 length
    let bits ← it.collect
    fillBits next bits t
  | .repeated isSet length =>
    if isSet then takeValues next length t else .ok (List.replicate length none, t)

/-- `tests/it/read/utils.rs:25-47`: `try_for_each` over the runs. -/
def deserializeRuns {τ α : Type} (next : τ → Res (Option α × τ)) :
    Nat → RunIter → τ → Res (List (Option α))
  | 0, _, _ => .panic
  | fuel + 1, it, t =>
    match it.next with
    | .err e => .err e
    | .panic => .panic
    | .ok (none, _) => .ok []
    | .ok (some run, it) => do
      let (xs, t) ← deserializeRun next run t
      let rest ← deserializeRuns next fuel it t
      .ok (xs ++ rest)

/-- `tests/it/read/utils.rs:19-49` `deserialize_bitmap`; every run takes a byte, so that the fuel is
enough. -/
def deserializeBitmap {τ α : Type} (next : τ → Res (Option α × τ)) (validity : RunIter) (t : τ) :
    Res (List (Option α)) :=
  deserializeRuns next (validity.iter.values.length + 1) validity t

/-- `tests/it/read/utils.rs:56-65`: one item per level. -/
def levelsNext {τ α : Type} (max : Nat) (next : τ → Res (Option α × τ)) (s : Rle.Dec × τ) :
    Res (Option (Option α) × (Rle.Dec × τ)) := do
  let (x, levels) ← s.1.next
  match x with
  | none => .ok (none, (levels, s.2))
  | some x =>
    if x.toNat = max then do
      let (o, t) ← next s.2
      .ok (some o, (levels, t))
    else .ok (some none, (levels, s.2))

/-- `tests/it/read/utils.rs:51-66` `deserialize_levels`. -/
def deserializeLevels {τ α : Type} (levels : Rle.Dec) (max : Nat) (next : τ → Res (Option α × τ)) (t : τ) :
    Res (List (Option α)) :=
  drain (levelsNext max next) (levels.remaining + 1) (levels, t)

/-- `tests/it/read/utils.rs:7-17` `deserialize_optional`. -/
def deserializeOptional {τ α : Type} (validity : DefLevels) (next : τ → Res (Option α × τ)) (t : τ) :
    Res (List (Option α)) :=
  match validity with
  | .bitmap it => deserializeBitmap next it t
  | .levels levels max => deserializeLevels levels max next t

/-- `dict.indexes.map(|x| x.and_then(|x| dict.dict.value(x as usize)))`
(`tests/it/read/primitive.rs:105-107`, `tests/it/read/binary.rs:25-27`). -/
def indexedNext {α : Type} (value : Nat → Res α) (indexes : Rle.Dec) : Res (Option α × Rle.Dec) := do
  let (x, indexes) ← indexes.next
  match x with
  | none => .ok (none, indexes)
  | some x => do
    let v ← value x.toNat
    .ok (some v, indexes)

/-- `tests/it/read/primitive.rs:95-110`, `tests/it/read/binary.rs:11-30` and
`tests/it/read/fixed_binary.rs:14-31`: the items of a page state, whose plain values are iterated by
`next`; at most `fuel` of them if the column is required. -/
def stateToVec {ι π α : Type} (next : ι → Res (Option α × ι)) (fuel : Nat) (value : π → Nat → Res α) :
    PageState ι π → Res (List (Option α))
  | .optional validity values => deserializeOptional validity next values
  | .required values => (drain next fuel values).map' (·.map some)
  | .requiredDictionary indexes dict =>
    (drain (indexedNext (value dict)) (indexes.remaining + 1) indexes).map' (·.map some)
  | .optionalDictionary validity indexes dict =>
    deserializeOptional validity (indexedNext (value dict)) indexes

/-- `tests/it/read/dictionary/primitive.rs:19-25` and `tests/it/read/dictionary/binary.rs:15-20`
`value`. -/
def dictValue {α : Type} (values : List α) (index : Nat) : Res α :=
  match values[index]? with
  | some x => .ok x
  | none => .err .oos

/-- `tests/it/read/primitive.rs:46-80`: the page with selected rows (`FilteredPageState`). In the optional
case the result is `OptionalValues` under `SliceFilteredIter`. -/
def filteredToVec (ck : Bool) (b : Nat) (page : DataPage) (rows : List Interval) :
    Res (List (Option (BitVec (8 * b)))) := do
  let encoding ← page.encoding
  match encoding with
  | .plain =>
    if isOptional page then do
      let (_, defLevels, _) ← splitBuffer page
      let validity := BoolIter.new (RunIter.new { values := defLevels, numBits := 1 } page.numValues)
      let values ← nativeCast b page
      drain (SliceIter.next ck (optionalNext (BoolIter.next RunIter.next) itemsNext))
        ((rows.map (·.length)).sum + rows.length + page.numValues + 1)
        (SliceIter.new (validity, values) rows)
    else do
      let values ← nativeCast b page
      (drain (SliceIter.next ck itemsNext) ((rows.map (·.length)).sum + rows.length + values.length + 1)
        (SliceIter.new values rows)).map' (·.map some)
  | _ => .err .featureNotSupported

/-- `tests/it/read/primitive.rs:87-116` `page_to_vec`. -/
def nativeToVec (ck : Bool) (b : Nat) (page : DataPage) (dict : Option (List (BitVec (8 * b)))) :
    Res (List (Option (BitVec (8 * b)))) := do
  Res.assert (page.descriptor.maxRepLevel = 0#16)
  match page.selectedRows with
  | some rows => filteredToVec ck b page rows
  | none => do
    let state ← nativeState b page dict
    stateToVec itemsNext (page.buffer.length + 1) dictValue state

/-- The iterator over byte strings, an error ending everything. -/
def bytesNext (it : PlainBytes.BinaryIter) : Res (Option (List Byte) × PlainBytes.BinaryIter) :=
  match it.next with
  | none => .ok (none, it)
  | some (.ok x, it) => .ok (some x, it)
  | some (.error e, _) => .err e

/-- `tests/it/read/binary.rs:6-31` `page_to_vec`. -/
def binaryToVec (page : DataPage) (dict : Option (List (List Byte))) : Res (List (Option (List Byte))) := do
  Res.assert (page.descriptor.maxRepLevel = 0#16)
  let state ← binaryState page dict
  stateToVec bytesNext (page.buffer.length + 1) dictValue state

/-- `tests/it/read/dictionary/fixed_len_binary.rs:15-23` `value`, with the size and the values. -/
def fixedDictValue (dict : List Byte × Nat) (index : Nat) : Res (List Byte) :=
  if (index + 1) * dict.2 ≤ dict.1.length then .ok ((dict.1.drop (index * dict.2)).take dict.2)
  else .err .oos

/-- `tests/it/read/fixed_binary.rs:6-32` `page_to_vec`. -/
def fixedToVec (page : DataPage) (dict : Option (List Byte × Nat)) : Res (List (Option (List Byte))) := do
  Res.assert (page.descriptor.maxRepLevel = 0#16)
  let state ← fixedState page dict
  stateToVec (fun xs => .ok (xs.head?, xs.tail)) (page.buffer.length + 1) fixedDictValue state

/-- `tests/it/read/boolean.rs:8-21` `page_to_vec`. -/
def booleanToVec (page : DataPage) : Res (List (Option Bool)) := do
  Res.assert (page.descriptor.maxRepLevel = 0#16)
  let state ← booleanState page
  match state with
  | .optional validity values => deserializeOptional validity (fun s => .ok (Bitmap.Iter.next s)) values
  | .required bitmap length => do
    let it ← Bitmap.Iter.new bitmap 0 length
    (it.collect).map' (·.map some)

/-- `tests/it/read/dictionary/mod.rs:13-21` `DecodedDictPage`. -/
inductive Dict where
  | int32 (values : List (BitVec (8 * 4)))
  | int64 (values : List (BitVec (8 * 8)))
  | int96 (values : List (BitVec (8 * 12)))
  | float (values : List (BitVec (8 * 4)))
  | double (values : List (BitVec (8 * 8)))
  | byteArray (values : List (List Byte))
  | fixedLenByteArray (values : List Byte) (size : Nat)
  deriving DecidableEq, Repr

/-- `tests/it/read/dictionary/primitive.rs:28-47` `read` (`wrapping_mul`). -/
def readNativeDict (b : Nat) (buf : List Byte) (numValues : Nat) : Res (List (BitVec (8 * b))) :=
  let typedSize := numValues * b % 2 ^ 64
  if typedSize ≤ buf.length then collectRes ((chunksExact b (buf.take typedSize)).map (nativeDecode b))
  else .err .oos

/-- `tests/it/read/dictionary/binary.rs:23-43` `read_plain`: a length that is cut off panics
(`unwrap`). -/
def readBinaryDict : Nat → List Byte → Res (List (List Byte))
  | 0, _ => .ok []
  | n + 1, bytes =>
    match getLength bytes with
    | none => .panic
    | some slotLength =>
      let bytes := bytes.drop 4
      if slotLength > bytes.length then .err .oos
      else (readBinaryDict n (bytes.drop slotLength)).map' (bytes.take slotLength :: ·)

/-- `tests/it/read/dictionary/fixed_len_binary.rs:26-31` `read` (`saturating_mul`). -/
def readFixedDict (buf : List Byte) (size numValues : Nat) : Res (List Byte) :=
  let length := min (size * numValues) (2 ^ 64 - 1)
  if length ≤ buf.length then .ok (buf.take length) else .err .oos

/-- `tests/it/read/dictionary/mod.rs:23-57` `deserialize`. -/
def deserializeDict (page : DictPage) (t : PhysicalType) : Res Dict :=
  match t with
  | .boolean => .err .oos
  | .int32 => (readNativeDict 4 page.buffer page.numValues).map' .int32
  | .int64 => (readNativeDict 8 page.buffer page.numValues).map' .int64
  | .int96 => (readNativeDict 12 page.buffer page.numValues).map' .int96
  | .float => (readNativeDict 4 page.buffer page.numValues).map' .float
  | .double => (readNativeDict 8 page.buffer page.numValues).map' .double
  | .byteArray => (readBinaryDict page.numValues page.buffer).map' .byteArray
  | .fixedLenByteArray size => (readFixedDict page.buffer size page.numValues).map' (.fixedLenByteArray · size)

/-- `if let DecodedDictPage::Int32(dict) = dict` (`tests/it/read/mod.rs:48-146`). -/
def Dict.asInt32 : Dict → Option (List (BitVec (8 * 4)))
  | .int32 d => some d
  | _ => none

/-- `if let DecodedDictPage::Int64(dict) = dict` (`tests/it/read/mod.rs:48-146`). -/
def Dict.asInt64 : Dict → Option (List (BitVec (8 * 8)))
  | .int64 d => some d
  | _ => none

/-- `if let DecodedDictPage::Int96(dict) = dict` (`tests/it/read/mod.rs:48-146`). -/
def Dict.asInt96 : Dict → Option (List (BitVec (8 * 12)))
  | .int96 d => some d
  | _ => none

/-- `if let DecodedDictPage::Float(dict) = dict` (`tests/it/read/mod.rs:48-146`). -/
def Dict.asFloat : Dict → Option (List (BitVec (8 * 4)))
  | .float d => some d
  | _ => none

/-- `if let DecodedDictPage::Double(dict) = dict` (`tests/it/read/mod.rs:48-146`). -/
def Dict.asDouble : Dict → Option (List (BitVec (8 * 8)))
  | .double d => some d
  | _ => none

/-- `if let DecodedDictPage::ByteArray(dict) = dict` (`tests/it/read/mod.rs:48-146`). -/
def Dict.asByteArray : Dict → Option (List (List Byte))
  | .byteArray d => some d
  | _ => none

/-- `if let DecodedDictPage::FixedLenByteArray(dict) = dict` (`tests/it/read/mod.rs:48-146`). -/
def Dict.asFixed : Dict → Option (List Byte × Nat)
  | .fixedLenByteArray d s => some (d, s)
  | _ => none

/-- `dict.map(|dict| if let DecodedDictPage::.. = dict { dict } else { panic!() })`, e.g.
`tests/it/read/mod.rs:54-60`. -/
def expectDict {β : Type} (f : Dict → Option β) : Option Dict → Res (Option β)
  | none => .ok none
  | some d => match f d with
    | some x => .ok (some x)
    | none => .panic

/-- `tests/it/read/mod.rs:48-146` `page_to_array`, for pages that are not nested (of a nested one the
assertion in `page_to_vec` fails; the repository has other code for those, see `Model/ClientNested`). -/
def pageToArray (ck : Bool) (page : DataPage) (dict : Option Dict) : Res Array :=
  match page.descriptor.primitiveType.physicalType with
  | .boolean => (booleanToVec page).map' .boolean
  | .int32 => do
    let dict ← expectDict Dict.asInt32 dict
    (nativeToVec ck 4 page dict).map' .int32
  | .int64 => do
    let dict ← expectDict Dict.asInt64 dict
    (nativeToVec ck 8 page dict).map' .int64
  | .int96 => do
    let dict ← expectDict Dict.asInt96 dict
    (nativeToVec ck 12 page dict).map' .int96
  | .float => do
    let dict ← expectDict Dict.asFloat dict
    (nativeToVec ck 4 page dict).map' .float
  | .double => do
    let dict ← expectDict Dict.asDouble dict
    (nativeToVec ck 8 page dict).map' .double
  | .byteArray => do
    let dict ← expectDict Dict.asByteArray dict
    (binaryToVec page dict).map' .binary
  | .fixedLenByteArray _ => do
    let dict ← expectDict Dict.asFixed dict
    (fixedToVec page dict).map' .fixedLenBinary

/-- `tests/it/read/mod.rs:148-163` `collect`, over a streaming iterator with its `advance` (the `k`-th one)
and `get`. At most `fuel` items. -/
def collect {σ : Type} (ck : Bool) (advance : Nat → σ → Res Unit × σ) (get : σ → Option Page)
    (t : PhysicalType) : Nat → Nat → σ → Option Dict → Res (List Array)
  | 0, _, _, _ => .panic
  | fuel + 1, k, s, dict =>
    match advance k s with
    | (.err e, _) => .err e
    | (.panic, _) => .panic
    | (.ok (), s) =>
      match get s with
      | none => .ok []
      | some (.data page) => do
        let array ← pageToArray ck page dict
        let rest ← collect ck advance get t fuel (k + 1) s dict
        .ok (array :: rest)
      | some (.dict page) => do
        let dict ← deserializeDict page t
        collect ck advance get t fuel (k + 1) s (some dict)

end Pq.Client
