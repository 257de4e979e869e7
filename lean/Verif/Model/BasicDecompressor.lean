import Verif.Model.Compression
/-
Model of `BasicDecompressor`, which decompresses the pages of any iterator.
-/
namespace Pq

/-- `src/read/compression.rs:252-254` `BasicDecompressor`, with the state of the crate
`streaming-decompression` it wraps: the iterator and the current page. The buffer that this crate keeps and hands
to `decompress` is an argument of `advance`, since its source is not part of the repository. -/
structure BasicDecompressor (σ : Type) where
  iter : σ
  current : Option Page

/-- `src/read/compression.rs:261-265` `BasicDecompressor::new`. -/
def BasicDecompressor.new {σ : Type} (iter : σ) : BasicDecompressor σ := { iter, current := none }

/-- `src/read/compression.rs:280-282` `advance`: the next page, decompressed (`decompress`, lines 117-120) with a
buffer that has the capacity and the content `buffer`. After an error the current page is kept. -/
def BasicDecompressor.advance {σ : Type} (cs : Codecs) (ck : Bool) (next : σ → Option (Res CompressedPage) × σ)
    (buffer : Nat × List Byte) (d : BasicDecompressor σ) : Res Unit × BasicDecompressor σ :=
  match next d.iter with
  | (none, iter) => (.ok (), { iter, current := none })
  | (some item, iter) =>
    match item >>= fun page => decompressPage cs ck page buffer.1 buffer.2 with
    | .ok page => (.ok (), { iter, current := some page })
    | .err e => (.err e, { d with iter })
    | .panic => (.panic, { d with iter })

end Pq
