import Verif.Model.Sink
import Verif.Model.FileMetadata
/-
Model of the `serde_types` part of `src/metadata/column_chunk_metadata.rs`. The data format is external: a
serializer is the function behind `serialize_bytes`, a deserializer the result of
`Vec::<u8>::deserialize`. The derived implementations (of structures, vectors) are external as well.
-/
namespace Pq.Serde

/-- `Cursor<&mut [u8]>` as a writer (`src/metadata/column_chunk_metadata.rs:51`): the slice and the
position. The slice does not grow: bytes that do not fit are dropped, and `write_all` fails. -/
def sliceSink : Sink (List Byte × Nat) where
  writeAll := fun (buf, pos) bytes =>
    let fit := bytes.take (buf.length - pos)
    let buf' := buf.take pos ++ fit ++ buf.drop (pos + fit.length)
    (decide (fit.length = bytes.length), (buf', pos + fit.length))
  flush := fun s => (true, s)

/-- `src/metadata/column_chunk_metadata.rs:42-57` `serialize_column_chunk`; `cut` is how the thrift
protocol cuts the bytes, `serializeBytes` the serializer. The error of the protocol becomes one of the
serializer; its kind is kept here. -/
def serializeColumnChunk {S : Type} (codec : Codec Thrift.ColumnChunk) (cut : List Byte → List (List Byte))
    (serializeBytes : List Byte → Res S) (columnChunk : Thrift.ColumnChunk) : Res S :=
  let buf : List Byte := []
  match (Output.struct { sink := sliceSink, cut } (codec.ser columnChunk)) (buf, 0) with
  | (.ok _, (buf, _)) => serializeBytes buf
  | (.err e, _) => .err e
  | (.panic, _) => .panic

/-- `src/metadata/column_chunk_metadata.rs:59-68` `deserialize_column_chunk`; the argument is the result of
`Vec::<u8>::deserialize`, and `usize::MAX` is 2^64 - 1. -/
def deserializeColumnChunk (codec : Codec Thrift.ColumnChunk) (bytes : Res (List Byte)) :
    Res Thrift.ColumnChunk := do
  let buf ← bytes
  (codec.parse (2 ^ 64 - 1) buf).1

end Pq.Serde
