import Verif.Model.PageIO
/-
Model of what the compressor, the decompressor and the page reader give back (`src/write/compression.rs`,
`src/read/compression.rs`, `src/read/page/reader.rs`).
-/
namespace Pq

/-- `src/write/compression.rs:126-134` `Compressor::into_inner`: what is left of the iterator, and the buffer. The
capacity of the buffer is not modelled. -/
def Compressor.intoInner (c : Compressor) : List (Res Page) × List Byte :=
  let buffer := match c.current with
    | some page => page.buffer
    | none => c.buffer
  (c.iter, buffer.take 0) -- `clear()`

/-- `src/read/compression.rs:184-188` `Decompressor::into_buffers`. -/
def Decompressor.intoBuffers {σ : Type} (it : PageIter σ) (d : Decompressor σ) : List Byte × List Byte :=
  let (pageBuffer, _) := it.swap d.iter []
  (pageBuffer, d.buffer)

/-- `src/read/page/reader.rs:129-131` `PageReader::into_inner`: the bytes of the reader not yet taken, and the
buffer. -/
def PageReader.intoInner (r : PageReader) : List Byte × List Byte := (r.reader, r.scratch)

end Pq
