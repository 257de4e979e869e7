import Verif.Model.Writer
/-
The writers of `src/write/` once more, on a writer (`std::io::Write`, `futures::AsyncWrite`) that may
fail at any call. `Model/Writer.lean` has the same functions on a writer that does not fail; both are
compared in `Lemmas/Sink.lean`.

A sink has a state and two operations, `write_all` and `flush`, that say whether they succeeded. Errors
of the sink are errors out of spec (`src/error.rs:97-101`). A struct is handed to the sink by the thrift
protocol in pieces (the protocol is external; how it cuts is a parameter). In the asynchronous functions
every call of the sink is followed by `await`; a future dropped there is like a sink failing there, except
that nobody gets the error.
-/
namespace Pq

/-- `std::io::Write` with `write_all` and `flush` (`src/write/file.rs:20`, `:38`, `:39`), or the same of
`AsyncWriteExt` (`src/write/stream.rs:20`, `:42`, `:43`). -/
structure Sink (σ : Type) where
  writeAll : σ → List Byte → Bool × σ
  flush : σ → Bool × σ

/-- A function using a sink: its result, and the state of the sink after it. -/
def IoM (σ α : Type) : Type := σ → Res α × σ

namespace IoM

variable {σ α β : Type}

/-- A value, without touching the sink. -/
def pure (a : α) : IoM σ α := fun s => (.ok a, s)

/-- `?`: the rest is done only after a success. -/
def bind (m : IoM σ α) (f : α → IoM σ β) : IoM σ β := fun s =>
  match m s with
  | (.ok a, s) => f a s
  | (.err e, s) => (.err e, s)
  | (.panic, s) => (.panic, s)

instance : Monad (IoM σ) where
  pure := IoM.pure
  bind := IoM.bind

/-- A result computed without touching the sink. -/
def lift (r : Res α) : IoM σ α := fun s => (r, s)

end IoM

/-- `writer.write_all(bytes)?`, with the conversion of the error (`src/error.rs:97-101`). -/
def Sink.all {σ : Type} (sink : Sink σ) (bytes : List Byte) : IoM σ Unit := fun s =>
  match sink.writeAll s bytes with
  | (true, s) => (.ok (), s)
  | (false, s) => (.err .oos, s)

/-- `writer.flush()?` (`src/write/file.rs:39`). -/
def Sink.flushed {σ : Type} (sink : Sink σ) : IoM σ Unit := fun s =>
  match sink.flush s with
  | (true, s) => (.ok (), s)
  | (false, s) => (.err .oos, s)

/-- A sink, and how the thrift protocol cuts the bytes of a struct it writes to it. -/
structure Output (σ : Type) where
  sink : Sink σ
  cut : List Byte → List (List Byte)

/-- Some calls of `write_all`, as the (external) thrift protocol makes them. -/
def Sink.pieces {σ : Type} (sink : Sink σ) : List (List Byte) → IoM σ Unit
  | [] => pure ()
  | b :: bs => do
    sink.all b
    sink.pieces bs

/-- `write_to_out_protocol` (for example `src/write/page.rs:203`): the number of bytes written. -/
def Output.struct {σ : Type} (o : Output σ) (bytes : List Byte) : IoM σ Nat := do
  o.sink.pieces (o.cut bytes)
  pure bytes.length

variable {σ : Type} (o : Output σ)

/-- `src/write/page.rs:54-96` `write_page` (and 100-142, `write_page_async`). -/
def writePageTo (codec : Codec Thrift.PageHeader) (offset : Nat) (page : CompressedPage) :
    IoM σ PageWriteSpec := do
  let header ← .lift (assembleHeader page)
  let headerSize ← o.struct (codec.ser header)
  o.sink.all page.buffer
  let statistics ← .lift (pageStatistics page)
  let numRows ← .lift (lastSelected page.selectedRows)
  pure { header, headerSize, offset, bytesWritten := headerSize + page.buffer.length
         compression := page.compression, statistics, numRows, numValues := page.numValues }

/-- `src/write/column_chunk.rs:44-49`: the loop writing the pages. -/
def writePagesTo (codec : Codec Thrift.PageHeader) :
    Nat → List (Res CompressedPage) → IoM σ (List PageWriteSpec)
  | _, [] => pure []
  | offset, page :: pages => do
    let page ← .lift page
    let spec ← writePageTo o codec offset page
    let specs ← writePagesTo codec (offset + spec.bytesWritten) pages
    pure (spec :: specs)

/-- `src/write/column_chunk.rs:29-63` `write_column_chunk` (and 67-100,
`write_column_chunk_async`). -/
def writeColumnChunkTo (cs : ThriftCodecs) (ck : Bool) (offset : Nat) (descriptor : ColumnDescriptor)
    (pages : List (Res CompressedPage)) :
    IoM σ (Thrift.ColumnChunk × List PageWriteSpec × Nat) := do
  let specs ← writePagesTo o cs.page offset pages
  let bytesWritten := (specs.map (·.bytesWritten)).sum
  let chunk ← .lift (buildColumnChunk ck specs descriptor)
  let m ← .lift (Res.unwrap chunk.metaData)
  let n ← o.struct (cs.column.ser m)
  pure (chunk, specs, bytesWritten + n)

/-- `src/write/row_group.rs:94-104`: the loop over the columns. -/
def writeColumnsTo (cs : ThriftCodecs) (ck : Bool) :
    Nat → List ColumnDescriptor → List (Res (List (Res CompressedPage))) →
      IoM σ (List (Thrift.ColumnChunk × List PageWriteSpec) × Nat)
  | _, [], _ => pure ([], 0)
  | _, _, [] => pure ([], 0)
  | offset, d :: ds, pages :: columns => do
    let pages ← .lift pages
    let (chunk, specs, size) ← writeColumnChunkTo o cs ck offset d pages
    let (columns, n) ← writeColumnsTo cs ck (offset + size) ds columns
    pure ((chunk, specs) :: columns, size + n)

/-- `src/write/row_group.rs:78-141` `write_row_group` (and 145-211, `write_row_group_async`). -/
def writeRowGroupTo (cs : ThriftCodecs) (ck : Bool) (offset : Nat) (descriptors : List ColumnDescriptor)
    (columns : List (Res (List (Res CompressedPage)))) (ordinal : Nat) :
    IoM σ (Thrift.RowGroup × List (List PageWriteSpec) × Nat) := do
  let (columns, bytesWritten) ← writeColumnsTo o cs ck offset descriptors columns
  let group ← .lift (buildRowGroup ck columns ordinal)
  pure (group, columns.map (·.2), bytesWritten)

/-- `src/write/indexes/write.rs:17-21` `write_column_index`. -/
def writeColumnIndexTo (cs : ThriftCodecs) (pages : List PageWriteSpec) : IoM σ Nat := do
  let index ← .lift (serializeColumnIndex pages)
  o.struct (cs.columnIndex.ser index)

/-- `src/write/indexes/write.rs:34-38` `write_offset_index`. -/
def writeOffsetIndexTo (cs : ThriftCodecs) (ck : Bool) (pages : List PageWriteSpec) : IoM σ Nat := do
  let index ← .lift (serializeOffsetIndex ck pages)
  o.struct (cs.offsetIndex.ser index)

/-- `src/write/file.rs:19-22` `start_file`. -/
def startFileTo : IoM σ Nat := do
  o.sink.all magic
  pure 4

/-- `src/write/file.rs:24-41` `end_file` (and `src/write/stream.rs:24-45`). -/
def endFileTo (cs : ThriftCodecs) (ck : Bool) (metadata : Thrift.FileMetaData) : IoM σ Nat := do
  let n ← o.struct (cs.file.ser metadata)
  let metadataLen := asI32 n
  o.sink.all (footer metadataLen)
  o.sink.flushed
  .lift (if ck && decide (2 ^ 64 ≤ asUsize metadataLen + 8) then .panic
    else .ok ((asUsize metadataLen + 8) % 2 ^ 64))

/-- `src/write/file.rs:68-75` `write_metadata_sidecar`. -/
def writeMetadataSidecarTo (cs : ThriftCodecs) (ck : Bool) (metadata : Thrift.FileMetaData) :
    IoM σ Nat := do
  let len ← startFileTo o
  let n ← endFileTo o cs ck metadata
  pure (len + n)

/-- `FileWriter` (`src/write/file.rs:46-59`) or `FileStreamer` (`src/write/stream.rs:47-58`) on a sink.
`rest` has the other fields; its `out` is not used. -/
structure SinkWriter (σ : Type) where
  sink : σ
  rest : FileWriter

/-- `src/write/file.rs:100-117` `new`. -/
def SinkWriter.new (s : σ) (schema : SchemaDescriptor) (options : WriteOptions)
    (createdBy : Option String) : SinkWriter σ :=
  { sink := s, rest := FileWriter.new schema options createdBy }

/-- `src/write/file.rs:125-135` `start`. -/
def SinkWriter.start (w : SinkWriter σ) : Res Unit × SinkWriter σ :=
  if w.rest.offset = 0 then
    match startFileTo o w.sink with
    | (.ok n, s) => (.ok (), { sink := s, rest := { w.rest with offset := n, state := .started } })
    | (.err e, s) => (.err e, { w with sink := s })
    | (.panic, s) => (.panic, { w with sink := s })
  else (.err .invalidParameter, w)

/-- `src/write/file.rs:145-147` and 165-167: `if self.offset == 0 { self.start()? }`. -/
def SinkWriter.autoStart (w : SinkWriter σ) : Res Unit × SinkWriter σ :=
  if w.rest.offset = 0 then w.start o else (.ok (), w)

/-- `src/write/file.rs:148-159`: `write`, once started. -/
def SinkWriter.writeStarted (cs : ThriftCodecs) (ck : Bool) (w : SinkWriter σ)
    (rowGroup : List (Res (List (Res CompressedPage)))) : Res Unit × SinkWriter σ :=
  match writeRowGroupTo o cs ck w.rest.offset w.rest.schema.leaves rowGroup w.rest.rowGroups.length
    w.sink with
  | (.err e, s) => (.err e, { w with sink := s })
  | (.panic, s) => (.panic, { w with sink := s })
  | (.ok (group, specs, size), s) =>
    (.ok (), { sink := s, rest := { w.rest with
      offset := w.rest.offset + size
      rowGroups := w.rest.rowGroups ++ [group], pageSpecs := w.rest.pageSpecs ++ [specs] } })

/-- `src/write/file.rs:140-160` `write` (and `src/write/stream.rs:111-134`). -/
def SinkWriter.write (cs : ThriftCodecs) (ck : Bool) (w : SinkWriter σ)
    (rowGroup : List (Res (List (Res CompressedPage)))) : Res Unit × SinkWriter σ :=
  match w.autoStart o with
  | (.ok (), w) => w.writeStarted o cs ck rowGroup
  | (.err e, w) => (.err e, w)
  | (.panic, w) => (.panic, w)

/-- `src/write/file.rs:183-192` and 202-212: the loop over the columns of a row group, from an offset.
The offset and the columns after it, also on failure. -/
def indexColumnsTo (index : List PageWriteSpec → IoM σ Nat)
    (set : Thrift.ColumnChunk → I64 → Option I32 → Thrift.ColumnChunk) :
    Nat → List Thrift.ColumnChunk → List (List PageWriteSpec) → σ →
      (Res Unit × Nat × List Thrift.ColumnChunk) × σ
  | offset, [], _, s => ((.ok (), offset, []), s)
  | offset, columns, [], s => ((.ok (), offset, columns), s)
  | offset, c :: columns, pages :: specs, s =>
    match index pages s with
    | (.err e, s) => ((.err e, offset, set c (asI64 offset) none :: columns), s)
    | (.panic, s) => ((.panic, offset, set c (asI64 offset) none :: columns), s)
    | (.ok n, s) =>
      let ((r, offset', done), s) := indexColumnsTo index set (offset + n) columns specs s
      ((r, offset', set c (asI64 offset) (some (asI32 n)) :: done), s)

/-- `src/write/file.rs:179-194` and 198-214: the loop over the row groups. -/
def indexGroupsTo (index : List PageWriteSpec → IoM σ Nat)
    (set : Thrift.ColumnChunk → I64 → Option I32 → Thrift.ColumnChunk) :
    Nat → List Thrift.RowGroup → List (List (List PageWriteSpec)) → σ →
      (Res Unit × Nat × List Thrift.RowGroup) × σ
  | offset, [], _, s => ((.ok (), offset, []), s)
  | offset, groups, [], s => ((.ok (), offset, groups), s)
  | offset, g :: groups, pages :: specs, s =>
    match indexColumnsTo index set offset g.columns pages s with
    | ((.err e, offset, columns), s) => ((.err e, offset, { g with columns } :: groups), s)
    | ((.panic, offset, columns), s) => ((.panic, offset, { g with columns } :: groups), s)
    | ((.ok (), offset, columns), s) =>
      let ((r, offset, done), s) := indexGroupsTo index set offset groups specs s
      ((r, offset, { g with columns } :: done), s)

/-- The writer after a loop over the indexes. -/
def SinkWriter.after (w : SinkWriter σ) (offset : Nat) (rowGroups : List Thrift.RowGroup) (s : σ) :
    SinkWriter σ :=
  { sink := s, rest := { w.rest with offset, rowGroups } }

/-- `src/write/file.rs:177-195`: the column indexes, if asked for. -/
def SinkWriter.columnIndexes (cs : ThriftCodecs) (w : SinkWriter σ) : Res Unit × SinkWriter σ :=
  if w.rest.options.writeStatistics then
    let ((r, offset, groups), s) := indexGroupsTo (writeColumnIndexTo o cs) setColumnIndex w.rest.offset
      w.rest.rowGroups w.rest.pageSpecs w.sink
    (r, w.after offset groups s)
  else (.ok (), w)

/-- `src/write/file.rs:198-214`: the offset indexes. -/
def SinkWriter.offsetIndexes (cs : ThriftCodecs) (ck : Bool) (w : SinkWriter σ) :
    Res Unit × SinkWriter σ :=
  let ((r, offset, groups), s) := indexGroupsTo (writeOffsetIndexTo o cs ck) setOffsetIndex w.rest.offset
    w.rest.rowGroups w.rest.pageSpecs w.sink
  (r, w.after offset groups s)

/-- `src/write/file.rs:216-231`: the metadata and the footer; `finish` is what follows a successful
`end_file`. -/
def SinkWriter.endMetadata (finish : FileWriter → Thrift.FileMetaData → FileWriter) (cs : ThriftCodecs)
    (ck : Bool) (w : SinkWriter σ) (numRows : I64) (keyValueMetadata : Option (List Thrift.KeyValue)) :
    Res Nat × SinkWriter σ :=
  let metadata := w.rest.fileMetadata numRows keyValueMetadata
  match endFileTo o cs ck metadata w.sink with
  | (.err e, s) => (.err e, { w with sink := s })
  | (.panic, s) => (.panic, { w with sink := s })
  | (.ok len, s) => (.ok (w.rest.offset + len), { sink := s, rest := finish w.rest metadata })

/-- `src/write/file.rs:169-231`: `end`, once started. -/
def SinkWriter.endStarted (finish : FileWriter → Thrift.FileMetaData → FileWriter) (cs : ThriftCodecs)
    (ck : Bool) (w : SinkWriter σ) (keyValueMetadata : Option (List Thrift.KeyValue)) :
    Res Nat × SinkWriter σ :=
  if w.rest.state ≠ .started then (.err .invalidParameter, w)
  else
    match sumI64 ck 0 (w.rest.rowGroups.map (·.numRows)) with
    | .err e => (.err e, w)
    | .panic => (.panic, w)
    | .ok numRows =>
      match w.columnIndexes o cs with
      | (.err e, w) => (.err e, w)
      | (.panic, w) => (.panic, w)
      | (.ok (), w) =>
        match w.offsetIndexes o cs ck with
        | (.err e, w) => (.err e, w)
        | (.panic, w) => (.panic, w)
        | (.ok (), w) => w.endMetadata o finish cs ck numRows keyValueMetadata

/-- `src/write/file.rs:164-232` `end`, see `FileWriter.endWith`. -/
def SinkWriter.endWith (finish : FileWriter → Thrift.FileMetaData → FileWriter) (cs : ThriftCodecs)
    (ck : Bool) (w : SinkWriter σ) (keyValueMetadata : Option (List Thrift.KeyValue)) :
    Res Nat × SinkWriter σ :=
  match w.autoStart o with
  | (.ok (), w) => w.endStarted o finish cs ck keyValueMetadata
  | (.err e, w) => (.err e, w)
  | (.panic, w) => (.panic, w)

/-- `src/write/file.rs:164-232` `FileWriter::end`. -/
def SinkWriter.end_ (cs : ThriftCodecs) (ck : Bool) (w : SinkWriter σ)
    (keyValueMetadata : Option (List Thrift.KeyValue)) : Res Nat × SinkWriter σ :=
  w.endWith o (fun w metadata => { w with state := .finished, metadata := some metadata }) cs ck
    keyValueMetadata

/-- `src/write/stream.rs:138-188` `FileStreamer::end`. -/
def SinkWriter.endStream (cs : ThriftCodecs) (ck : Bool) (w : SinkWriter σ)
    (keyValueMetadata : Option (List Thrift.KeyValue)) : Res Nat × SinkWriter σ :=
  w.endWith o (fun w _ => w) cs ck keyValueMetadata

end Pq
