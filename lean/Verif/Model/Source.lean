import Verif.Model.FileMetadata
import Verif.Model.Sink
/-
Reading metadata and column chunks from a reader (`std::io::Read + Seek`, `futures::AsyncRead +
AsyncSeek`) that delivers as many bytes at a time as it likes, may be anywhere at the start, and may
fail at any call. `Model/FileMetadata.lean` has the same functions on the bytes of the file; both are
compared in `Lemmas/Source.lean`. Errors of the reader are errors out of spec (`src/error.rs:97-101`).

`read_column_async` is modelled as a task with a step per `await`, and `try_join_all` as the execution
of tasks under a schedule.
-/
namespace Pq

/-- `std::io::SeekFrom` (used in `src/read/metadata.rs:22`, `:23`, `:28`, `:55`). -/
inductive SeekFrom where
  | start (n : Nat)
  | end_ (k : Int)
  | current (k : Int)

/-- A reader: `seek` gives the new position, `read` some bytes, at most as many as the buffer has; either
may fail. A `read` is with its repetitions after an interruption. (`src/read/metadata.rs:35`: `R: Read +
Seek`.) -/
structure Source (σ : Type) where
  seek : σ → SeekFrom → Option Nat × σ
  read : σ → Nat → Option (List Byte) × σ

/-- `reader.seek(..)?`, with the conversion of the error (`src/error.rs:97-101`). -/
def Source.seekTo {σ : Type} (src : Source σ) (tgt : SeekFrom) : IoM σ Nat := fun s =>
  match src.seek s tgt with
  | (some n, s) => (.ok n, s)
  | (none, s) => (.err .oos, s)

/-- `reader.read(buffer)?`. -/
def Source.get {σ : Type} (src : Source σ) (n : Nat) : IoM σ (List Byte) := fun s =>
  match src.read s n with
  | (some b, s) => (.ok b, s)
  | (none, s) => (.err .oos, s)

/-- A reader, and the sizes of the buffers with which `read_to_end` reads (external), by the number of
bytes read before. -/
structure Input (σ : Type) where
  source : Source σ
  buffer : Nat → Nat

variable {σ : Type} (i : Input σ)

/-- `.take(limit).read_to_end(..)?` (`src/read/metadata.rs:57-61`): reads until there is nothing more, or
the limit is reached. The first argument bounds the number of reads (each takes at least a byte, so
there are at most `limit` of them). -/
def Input.readToEnd : Nat → Nat → List Byte → IoM σ (List Byte)
  | 0, _, acc => pure acc
  | fuel + 1, limit, acc =>
    if limit = 0 then pure acc
    else do
      let b ← i.source.get (min limit (i.buffer acc.length))
      if b = [] then pure acc
      else readToEnd fuel (limit - b.length) (acc ++ b)

/-- `.take(limit).read_to_end(..)?` (`src/read/metadata.rs:57-61`). -/
def Input.takeToEnd (limit : Nat) : IoM σ (List Byte) := i.readToEnd limit limit []

/-! ### `read/metadata.rs`, `read/stream.rs` -/

/-- `src/read/metadata.rs:21-32` `stream_len` (and `src/read/stream.rs:10-23`). -/
def streamLenFrom : IoM σ Nat := do
  let oldPos ← i.source.seekTo (.current 0)
  let len ← i.source.seekTo (.end_ 0)
  if oldPos ≠ len then
    let _ ← i.source.seekTo (.start oldPos)
    pure len
  else pure len

/-- `src/read/metadata.rs:54-61` and 81-85: `seek(SeekFrom::End(-k))`, then at most `k` bytes. -/
def lastBytesFrom (k : Nat) : IoM σ (List Byte) := do
  let _ ← i.source.seekTo (.end_ (-k))
  i.takeToEnd k

/-- `src/read/metadata.rs:46-92`: the bytes from which the metadata is parsed. -/
def footerBytesFrom (fileSize : Nat) : IoM σ (List Byte) :=
  if fileSize < 12 then .lift (.err .oos)
  else do
    let defaultEndLen := min (64 * 1024) fileSize
    let buffer ← lastBytesFrom i defaultEndLen
    let tail ← .lift (slice buffer (defaultEndLen - 4) buffer.length)
    if tail ≠ magic then .lift (.err .oos)
    else do
      let len ← .lift (metadataLen buffer defaultEndLen)
      let len ← .lift (toUsize len)
      let footerLen := 8 + len
      if fileSize < footerLen then .lift (.err .oos)
      else if footerLen < buffer.length then pure (buffer.drop (buffer.length - footerLen))
      else lastBytesFrom i footerLen

/-- `src/read/metadata.rs:42-97` `read_metadata_with_size`. -/
def readMetadataWithSizeFrom (codec : Codec Thrift.FileMetaData) (fileSize : Nat) :
    IoM σ FileMetaData := do
  let reader ← footerBytesFrom i fileSize
  .lift (deserializeMetadata codec reader (reader.length * 2 + 1024))

/-- `src/read/metadata.rs:35-39` `read_metadata`; `src/read/stream.rs:26-87` is the same with
`await`. -/
def readMetadataFrom (codec : Codec Thrift.FileMetaData) : IoM σ FileMetaData := do
  let fileSize ← streamLenFrom i
  readMetadataWithSizeFrom i codec fileSize

/-! ### `read/column/mod.rs` -/

/-- `src/read/column/mod.rs:190-201` `read_column`. -/
def readColumnFrom (column : ColumnChunkMetaData) : IoM σ (List Byte) := do
  let (start, length) ← .lift column.byteRange
  let _ ← i.source.seekTo (.start start)
  if 2 ^ 63 ≤ length then .lift (.err .oos)
  else i.takeToEnd length

/-- `src/read/column/mod.rs:178-186` `read_columns`. -/
def readColumnsFrom (fieldName : String) :
    List ColumnChunkMetaData → IoM σ (List (ColumnChunkMetaData × List Byte))
  | [] => pure []
  | c :: cs =>
    match c.columnDescr.pathInSchema with
    | [] => .lift .panic
    | root :: _ =>
      if root = fieldName then do
        let bytes ← readColumnFrom i c
        let rest ← readColumnsFrom fieldName cs
        pure ((c, bytes) :: rest)
      else readColumnsFrom fieldName cs

/-! ### `read/column/stream.rs` -/

/-- Where `read_column_async` (`src/read/column/stream.rs:9-25`) is suspended. -/
inductive ColumnState (σ : Type) where
  | opening
  | seeking (s : σ)
  | reading (s : σ) (limit : Nat) (acc : List Byte)
  | done (r : Res (List Byte))

/-- A call of `read_column_async`: the column, and what the factory gives (`none` if it fails). -/
structure ColumnTask (σ : Type) where
  column : ColumnChunkMetaData
  opened : Option σ
  state : ColumnState σ

/-- `src/read/column/stream.rs:9-25` `read_column_async`, from one `await` to the next. -/
def ColumnTask.next (t : ColumnTask σ) : ColumnState σ :=
  match t.state with
  | .opening =>
    match t.opened with
    | none => .done (.err .oos)
    | some s => .seeking s
  | .seeking s =>
    match t.column.byteRange with
    | .err e => .done (.err e)
    | .panic => .done .panic
    | .ok (start, length) =>
      match i.source.seek s (.start start) with
      | (none, _) => .done (.err .oos)
      | (some _, s) => if 2 ^ 63 ≤ length then .done (.err .oos) else .reading s length []
  | .reading s limit acc =>
    if limit = 0 then .done (.ok acc)
    else
      match i.source.read s (min limit (i.buffer acc.length)) with
      | (none, _) => .done (.err .oos)
      | (some b, s) => if b = [] then .done (.ok acc) else .reading s (limit - b.length) (acc ++ b)
  | .done r => .done r

/-- The task after a step. -/
def ColumnTask.step (t : ColumnTask σ) : ColumnTask σ := { t with state := t.next i }

/-- The failure of a task that has failed. -/
def ColumnTask.failure (t : ColumnTask σ) : Option (Res (List (List Byte))) :=
  match t.state with
  | .done (.err e) => some (.err e)
  | .done .panic => some .panic
  | _ => none

/-- The bytes of a task that is done. -/
def ColumnTask.bytes (t : ColumnTask σ) : Option (List Byte) :=
  match t.state with
  | .done (.ok b) => some b
  | _ => none

/-- What `try_join_all` returns when the tasks are like this: the failure of the first that has failed,
or the bytes of all if all are done. -/
def joined (tasks : List (ColumnTask σ)) : Option (Res (List (List Byte))) :=
  match tasks.findSome? (·.failure) with
  | some r => some r
  | none => (tasks.mapM ColumnTask.bytes).map .ok

/-- `try_join_all(futures).await` (`src/read/column/stream.rs:50`): the tasks are run in any order, a step
at a time, until one has failed or all are done. `none` if the schedule ends before. -/
def tryJoinAll : List Nat → List (ColumnTask σ) → Option (Res (List (List Byte)))
  | [], tasks => joined tasks
  | k :: schedule, tasks =>
    match joined tasks with
    | some r => some r
    | none => tryJoinAll schedule (tasks.modify k (·.step i))

/-- `src/read/column/stream.rs:34-52` `read_columns_async`, with what the factory gives for each column
and the order in which the tasks are run. -/
def readColumnsAsync (columns : List ColumnChunkMetaData) (fieldName : String)
    (factory : Nat → Option σ) (schedule : List Nat) :
    Option (Res (List (ColumnChunkMetaData × List Byte))) :=
  match getFieldColumns fieldName columns with
  | .err e => some (.err e)
  | .panic => some .panic
  | .ok fields =>
    (tryJoinAll i schedule
      (fields.mapIdx fun k c => { column := c, opened := factory k, state := .opening })).map
      fun r => r.map' fun bs => fields.zip bs

end Pq
