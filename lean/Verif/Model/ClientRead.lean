import Verif.Model.ClientNested
import Verif.Model.FileMetadata
import Verif.Model.BasicDecompressor
/-
Model of the client code of the repository that reads a field of a file by its name: `columns_to_array` and
`read_column` of `tests/it/read/mod.rs`.
-/
namespace Pq.Client

/-- What `page_to_array` returns: `tests/it/main.rs:9-21` `Array`, without structures. -/
inductive PageArray where
  | flat (array : Array)
  | lists (lists : Lists)
  deriving DecidableEq

/-- What `columns_to_array` returns: `tests/it/main.rs:9-21` `Array`; structures are only made there. -/
inductive FieldArray where
  | page (array : PageArray)
  | struct (arrays : List PageArray) (validity : List Bool)
  deriving DecidableEq

/-- `tests/it/read/mod.rs:48-146` `page_to_array`, of any page. -/
def pageToAny (ck : Bool) (page : DataPage) (dict : Option Dict) : Res PageArray :=
  if page.descriptor.maxRepLevel = 0#16 then (pageToArray ck page dict).map' .flat
  else (pageToLists page dict).map' .lists

/-- The variables `validity` and `arrays` of `columns_to_array`. -/
structure Reading where
  validity : List Bool
  arrays : List PageArray

/-- `tests/it/read/mod.rs:182-187`: one data page; `filled` is `has_filled`. -/
def Reading.push (ck filled : Bool) (r : Reading) (page : DataPage) (dict : Option Dict) : Res Reading := do
  let validity ← if filled then .ok r.validity else extendValidity r.validity page
  let array ← pageToAny ck page dict
  .ok { validity, arrays := r.arrays ++ [array] }

/-- `tests/it/read/mod.rs:179-192`: the loop over the pages of a column, over a streaming iterator with its `advance`
(the `k`-th one) and `get`; also the iterator after it. At most `fuel` items. -/
def readPages {σ : Type} (ck : Bool) (advance : Nat → σ → Res Unit × σ) (get : σ → Option Page)
    (t : PhysicalType) (filled : Bool) : Nat → Nat → σ → Option Dict → Reading → Res (Reading × σ)
  | 0, _, _, _, _ => .panic
  | fuel + 1, k, s, dict, r =>
    match advance k s with
    | (.err e, _) => .err e
    | (.panic, _) => .panic
    | (.ok (), s) =>
      match get s with
      | none => .ok (r, s)
      | some (.data page) => do
        let r ← r.push ck filled page dict
        readPages ck advance get t filled fuel (k + 1) s dict r
      | some (.dict page) => do
        let dict ← deserializeDict page t
        readPages ck advance get t filled fuel (k + 1) s (some dict) r

/-- `tests/it/read/mod.rs:175-196`: the loop over the columns, for the `ColumnIterator` of `get_column_iterator`. The
`c`-th decompressor is called with the buffers `buffers c`. At most `fuel` columns of at most `pages` pages. The page
reader is borrowed: what the loop left of it goes back to the iterator. -/
def readColumnsLoop (codec : Codec Thrift.PageHeader) (cs : Codecs) (ck : Bool)
    (buffers : Nat → Nat → Nat × List Byte) (pages : Nat) :
    Nat → Nat → Bool → ColumnIterator → Reading → Res Reading
  | 0, _, _, _, _ => .panic
  | fuel + 1, c, filled, columns, r =>
    match columns.advance with
    | .err e => .err e
    | .panic => .panic
    | .ok (.finished _) => .ok r
    | .ok (.some s) =>
      match s.get with
      | none => readColumnsLoop codec cs ck buffers pages fuel (c + 1) true s r
      | some (reader, column) => do
        let (r, d) ← readPages ck (fun k => BasicDecompressor.advance cs ck (PageReader.next codec ck) (buffers c k))
          (·.current) column.physicalType filled pages 0 (BasicDecompressor.new reader) none r
        readColumnsLoop codec cs ck buffers pages fuel (c + 1) true { s with current := some (d.iter, column) } r

/-- `tests/it/read/mod.rs:198-212`: the array of a field. A primitive field is the last page; of the annotated groups
only lists are supported (`todo!`), and `unwrap` panics without a page. -/
def Reading.finish (r : Reading) : ParquetType → Res FieldArray
  | .primitive _ =>
    match r.arrays.getLast? with
    | some a => .ok (.page a)
    | none => .err .oos
  | .group _ _ (some .list) _ => (Res.unwrap r.arrays.getLast?).map' .page
  | .group _ _ (some _) _ => .panic
  | .group _ _ none _ => .ok (.struct r.arrays r.validity)

/-- `tests/it/read/mod.rs:165-213` `columns_to_array`. -/
def columnsToArray (codec : Codec Thrift.PageHeader) (cs : Codecs) (ck : Bool)
    (buffers : Nat → Nat → Nat × List Byte) (pages : Nat) (columns : ColumnIterator) (field : ParquetType) :
    Res FieldArray := do
  let r ← readColumnsLoop codec cs ck buffers pages (columns.columns.length + 1) 0 false columns
    { validity := [], arrays := [] }
  r.finish field

/-- `tests/it/read/mod.rs:238-240`: `column_meta.statistics().transpose()` of every column, or the first error. -/
def fieldStatistics : List ColumnChunkMetaData → Res (List (Option Statistics))
  | [] => .ok []
  | c :: cs => do
    let s ← c.statistics
    let s ← match s with
      | none => .ok none
      | some s => s.map' some
    let rest ← fieldStatistics cs
    .ok (s :: rest)

/-- `tests/it/read/mod.rs:215-245` `read_column`: the array of a field of a row group and the statistics of its last
column. A row group that is not there panics; so does `unwrap` without any column. `usize::MAX` is `2 ^ 64 - 1`. -/
def readField (codec : Codec Thrift.FileMetaData) (pageCodec : Codec Thrift.PageHeader) (cs : Codecs) (ck : Bool)
    (buffers : Nat → Nat → Nat × List Byte) (pages : Nat) (file : List Byte) (rowGroup : Nat) (name : String) :
    Res (FieldArray × Option Statistics) := do
  let metadata ← readMetadata codec file
  match metadata.schemaDescr.fields.find? fun f => f.name == name with
  | none => .err .oos
  | some field => do
    let group ← Res.unwrap metadata.rowGroups[rowGroup]?
    let columns ← getColumnIterator file group field.name none [] (2 ^ 64 - 1)
    let chunks ← getFieldColumns field.name group.columns
    let statistics ← fieldStatistics chunks
    let array ← columnsToArray pageCodec cs ck buffers pages columns field
    let last ← Res.unwrap statistics.getLast?
    .ok (array, last)

end Pq.Client
