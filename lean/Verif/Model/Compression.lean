import Verif.Model.Page
/-
Model of `src/compression.rs`, `src/write/compression.rs` and `src/read/compression.rs`.

The codecs themselves are external crates and appear as the parameter `Codecs`. A function writing
into a `&mut [u8]` takes the old content and returns the new content next to its result, so that
what is left of old content in a recycled buffer stays visible.
-/
namespace Pq

/-- The external codecs, as used by `src/compression.rs`. -/
structure Codecs where
  /-- the cargo feature of the codec is on (`lz4`: any of the features `lz4`, `lz4_flex`) -/
  active : Compression → Bool
  /-- `src/compression.rs:35-49`, `56-62`, `106-116`: bytes appended by the streaming encoders
  (brotli, gzip, zstd) -/
  encStream : Compression → Option Level → List Byte → Res (List Byte)
  /-- `snap::raw::max_compress_len`, `lz4_flex::block::get_maximum_output_size`, ... -/
  maxLen : Compression → Nat → Res Nat
  /-- block encoders (snappy, lz4): bytes written at the start of an output of the given length -/
  encBlock : Compression → List Byte → Nat → Res (List Byte)
  /-- `read_exact(output)` of the streaming decoders: the output afterwards -/
  readExact : Compression → List Byte → List Byte → Res Unit × List Byte
  /-- `snap::raw::decompress_len` -/
  snappyLen : List Byte → Res Nat
  /-- block decoders: number of bytes written and the output afterwards -/
  decBlock : Compression → List Byte → List Byte → Res Nat × List Byte

/-- `src/compression.rs:8-22` `inner_compress`: the encoder writes into the resized tail, which is
then truncated. -/
def innerCompress (cs : Codecs) (c : Compression) (input output : List Byte) : Res (List Byte) := do
  let originalLength := output.length
  let maxRequired ← cs.maxLen c input.length
  let resized := output ++ List.replicate maxRequired 0#8
  let written ← cs.encBlock c input maxRequired
  let output := resized.take originalLength ++ written ++ resized.drop (originalLength + written.length)
  .ok (output.take (originalLength + written.length))

/-- `src/compression.rs:28-130` `compress`: appends to `output`. -/
def compressBytes (cs : Codecs) (options : CompressionOptions) (input output : List Byte) :
    Res (List Byte) :=
  match options with
  | .brotli level =>
    if cs.active .brotli then cs.encStream .brotli level input >>= fun b => .ok (output ++ b)
    else .err .featureNotActive
  | .gzip level =>
    if cs.active .gzip then cs.encStream .gzip level input >>= fun b => .ok (output ++ b)
    else .err .featureNotActive
  | .snappy =>
    if cs.active .snappy then innerCompress cs .snappy input output else .err .featureNotActive
  | .lz4Raw =>
    if cs.active .lz4 then innerCompress cs .lz4Raw input output else .err .featureNotActive
  | .zstd level =>
    if cs.active .zstd then cs.encStream .zstd level input >>= fun b => .ok (output ++ b)
    else .err .featureNotActive
  | .uncompressed => .err .invalidParameter
  | _ => .err .featureNotSupported

/-- Big-endian value (`u32::from_be_bytes`). -/
def beNat (bs : List Byte) : Nat := leNat bs.reverse

/-- `src/compression.rs:242-286`: the loop of `try_decompress_hadoop`; `done` is the output before
the current position. Each iteration consumes at least 8 bytes, so `fuel = input.len()` never runs
out. Returns the remaining input length and the output. -/
def hadoopLoop (cs : Codecs) : Nat → List Byte → Nat → List Byte → List Byte →
    Res Nat × List Byte
  | 0, _, inputLen, done, output => (.ok inputLen, done ++ output)
  | fuel + 1, input, inputLen, done, output =>
    if inputLen < 8 then (.ok inputLen, done ++ output)
    else
      let expectedDecompressed := beNat (input.take 4)
      let expectedCompressed := beNat ((input.drop 4).take 4)
      let input := input.drop 8
      let inputLen := inputLen - 8
      if inputLen < expectedCompressed then (.err .oos, done ++ output)
      else if output.length < expectedDecompressed then (.err .oos, done ++ output)
      else
        match cs.decBlock .lz4 (input.take expectedCompressed) output with
        | (.err e, output) => (.err e, done ++ output)
        | (.panic, output) => (.panic, done ++ output)
        | (.ok decompressedSize, output) =>
          if decompressedSize ≠ expectedDecompressed then (.err .oos, done ++ output)
          else
            let inputLen := inputLen - expectedCompressed
            if expectedCompressed < inputLen then
              hadoopLoop cs fuel (input.drop expectedCompressed) inputLen
                (done ++ output.take expectedDecompressed) (output.drop expectedDecompressed)
            else (.ok inputLen, done ++ output)

/-- `src/compression.rs:231-287` `try_decompress_hadoop`. -/
def tryDecompressHadoop (cs : Codecs) (input output : List Byte) : Res Unit × List Byte :=
  match hadoopLoop cs input.length input input.length [] output with
  | (.ok inputLen, output) => if inputLen = 0 then (.ok (), output) else (.err .oos, output)
  | (.err e, output) => (.err e, output)
  | (.panic, output) => (.panic, output)

/-- `src/compression.rs:134-225` `decompress`: result and output buffer afterwards. -/
def decompressBytes (cs : Codecs) (c : Compression) (input output : List Byte) :
    Res Unit × List Byte :=
  match c with
  | .brotli => if cs.active .brotli then cs.readExact .brotli input output
      else (.err .featureNotActive, output)
  | .gzip => if cs.active .gzip then cs.readExact .gzip input output
      else (.err .featureNotActive, output)
  | .snappy =>
    if cs.active .snappy then
      match cs.snappyLen input with
      | .ok len =>
        if output.length < len then (.err .oos, output)
        else
          let (r, output) := cs.decBlock .snappy input output
          (r.map' fun _ => (), output)
      | .err e => (.err e, output)
      | .panic => (.panic, output)
    else (.err .featureNotActive, output)
  | .lz4Raw =>
    if cs.active .lz4 then
      let (r, output) := cs.decBlock .lz4Raw input output
      (r.map' fun _ => (), output)
    else (.err .featureNotActive, output)
  | .lz4 =>
    if cs.active .lz4 then
      match tryDecompressHadoop cs input output with
      | (.err _, output) =>
        let (r, output) := cs.decBlock .lz4 input output
        (r.map' fun _ => (), output)
      | (r, output) => (r, output)
    else (.err .featureNotActive, output)
  | .zstd => if cs.active .zstd then cs.readExact .zstd input output
      else (.err .featureNotActive, output)
  | .uncompressed => (.err .invalidParameter, output)
  | .lzo => (.err .featureNotSupported, output)

/-- `i32` addition: panics on overflow with overflow checks (`ck`), wraps otherwise. -/
def addI32 (ck : Bool) (a b : I32) : Res I32 :=
  if ck ∧ ¬ (-(2 ^ 31) ≤ a.toInt + b.toInt ∧ a.toInt + b.toInt < 2 ^ 31) then .panic else .ok (a + b)

/-! ### `write/compression.rs` -/

/-- `src/write/compression.rs:11-51` `compress_data`. -/
def compressData (cs : Codecs) (ck : Bool) (page : DataPage) (compressedBuffer : List Byte)
    (options : CompressionOptions) : Res CompressedDataPage := do
  let uncompressedPageSize := page.buffer.length
  let compressedBuffer ←
    if options ≠ .uncompressed then
      match page.header with
      | .v1 _ => compressBytes cs options page.buffer compressedBuffer
      | .v2 header => do
        let sum ← addI32 ck header.repetitionLevelsByteLength header.definitionLevelsByteLength
        let levels := asUsize sum
        let head ← slice page.buffer 0 levels
        let tail ← slice page.buffer levels page.buffer.length
        compressBytes cs options tail (compressedBuffer ++ head)
    else .ok page.buffer
  .ok { header := page.header, buffer := compressedBuffer, compression := options.codec
        uncompressedPageSize, descriptor := page.descriptor, selectedRows := page.selectedRows }

/-- `src/write/compression.rs:53-76` `compress_dict`. -/
def compressDict (cs : Codecs) (page : DictPage) (compressedBuffer : List Byte)
    (options : CompressionOptions) : Res CompressedDictPage := do
  let uncompressedPageSize := page.buffer.length
  let compressedBuffer ←
    if options ≠ .uncompressed then compressBytes cs options page.buffer compressedBuffer
    else .ok page.buffer
  .ok { buffer := compressedBuffer, compression := options.codec, uncompressedPageSize
        numValues := page.numValues, isSorted := page.isSorted }

/-- `src/write/compression.rs:85-98` `compress`. -/
def compressPage (cs : Codecs) (ck : Bool) (page : Page) (compressedBuffer : List Byte)
    (options : CompressionOptions) : Res CompressedPage :=
  match page with
  | .data p => (compressData cs ck p compressedBuffer options).map' .data
  | .dict p => (compressDict cs p compressedBuffer options).map' .dict

/-- `src/write/compression.rs:102-107` `Compressor`; the wrapped iterator is the list of its items. -/
structure Compressor where
  iter : List (Res Page)
  compression : CompressionOptions
  buffer : List Byte
  current : Option CompressedPage

/-- `src/write/compression.rs:111-118` `Compressor::new`. -/
def Compressor.new (iter : List (Res Page)) (compression : CompressionOptions) (buffer : List Byte) :
    Compressor := { iter, compression, buffer, current := none }

/-- `src/write/compression.rs:141-156` `advance`. On an error `current` keeps the previous page, whose
buffer has been taken. -/
def Compressor.advance (cs : Codecs) (ck : Bool) (c : Compressor) : Res Unit × Compressor :=
  -- `std::mem::take` of the buffer of the current page, or of the scratch buffer
  let taken := match c.current with
    | some page => page.buffer
    | none => c.buffer
  let c := match c.current with
    | some page => { c with current := some (page.setBuffer []) }
    | none => { c with buffer := [] }
  let compressedBuffer := taken.take 0 -- `clear()`
  match c.iter with
  | [] => (.ok (), { c with current := none })
  | item :: iter =>
    let c := { c with iter }
    match item >>= fun page => compressPage cs ck page compressedBuffer c.compression with
    | .ok page => (.ok (), { c with current := some page })
    | .err e => (.err e, c)
    | .panic => (.panic, c)

/-! ### `read/compression.rs` -/

/-- `src/read/compression.rs:15-51` `decompress_v2`: result and buffer afterwards. -/
def decompressV2 (cs : Codecs) (ck : Bool) (compressed : List Byte) (header : Thrift.DataPageHeaderV2)
    (compression : Compression) (buffer : List Byte) : Res Unit × List Byte :=
  match addI32 ck header.definitionLevelsByteLength header.repetitionLevelsByteLength with
  | .err e => (.err e, buffer)
  | .panic => (.panic, buffer)
  | .ok sum =>
    let offset := asUsize sum
    let canDecompress := header.isCompressed.getD true
    if canDecompress then
      if buffer.length < offset ∨ compressed.length < offset then (.err .oos, buffer)
      else
        let (r, tail) := decompressBytes cs compression (compressed.drop offset) (buffer.drop offset)
        (r, compressed.take offset ++ tail)
    else if buffer.length ≠ compressed.length then (.err .oos, buffer)
    else (.ok (), compressed)

/-- `src/read/compression.rs:62-74`: preparing the buffer of capacity `cap`; old content survives
unless the buffer is reallocated. -/
def prepareBuffer (cap : Nat) (buffer : List Byte) (readSize : Nat) : List Byte :=
  if cap < readSize then List.replicate readSize 0#8
  else if buffer.length < readSize then buffer ++ List.replicate (readSize - buffer.length) 0#8
  else buffer.take readSize

/-- `src/read/compression.rs:75-88`: decompressing into the prepared buffer. -/
def decompressInto (cs : Codecs) (ck : Bool) (page : CompressedPage) (buffer : List Byte) :
    Res Unit × List Byte :=
  match page with
  | .data p => match p.header with
    | .v1 _ => decompressBytes cs p.compression p.buffer buffer
    | .v2 header => decompressV2 cs ck p.buffer header p.compression buffer
  | .dict p => decompressBytes cs p.compression p.buffer buffer

/-- `src/read/compression.rs:56-96` `decompress_buffer`: whether the page was decompressed, the page
(its buffer may be swapped) and the buffer afterwards. `cap` is the capacity of `buffer`. -/
def decompressBuffer (cs : Codecs) (ck : Bool) (page : CompressedPage) (cap : Nat)
    (buffer : List Byte) : Res Bool × CompressedPage × List Byte :=
  if page.compression ≠ .uncompressed then
    let buffer := prepareBuffer cap buffer page.uncompressedSize
    let (r, buffer) := decompressInto cs ck page buffer
    (r.map' fun _ => true, page, buffer)
  else (.ok false, page.setBuffer buffer, page.buffer)

/-- `src/read/compression.rs:98-112` `create_page`. -/
def createPage (page : CompressedPage) (buffer : List Byte) : Page :=
  match page with
  | .data p => .data { header := p.header, buffer, descriptor := p.descriptor
                       selectedRows := p.selectedRows }
  | .dict p => .dict { buffer, numValues := p.numValues, isSorted := p.isSorted }

/-- `src/read/compression.rs:117-120` `decompress`. -/
def decompressPage (cs : Codecs) (ck : Bool) (page : CompressedPage) (cap : Nat)
    (buffer : List Byte) : Res Page :=
  match decompressBuffer cs ck page cap buffer with
  | (.ok _, page, buffer) => .ok (createPage page buffer)
  | (.err e, _, _) => .err e
  | (.panic, _, _) => .panic

/-- `src/read/page/mod.rs:11-13` `PageIterator`: `next` and `swap_buffer`. -/
structure PageIter (σ : Type) where
  next : σ → Option (Res CompressedPage) × σ
  swap : σ → List Byte → List Byte × σ

/-- `src/read/compression.rs:164-169` `Decompressor`. -/
structure Decompressor (σ : Type) where
  iter : σ
  buffer : List Byte
  current : Option Page
  wasDecompressed : Bool

/-- `src/read/compression.rs:173-180` `Decompressor::new`. -/
def Decompressor.new {σ : Type} (iter : σ) (buffer : List Byte) : Decompressor σ :=
  { iter, buffer, current := none, wasDecompressed := false }

/-- `src/read/compression.rs:196-202`: the buffer of the last page goes back to where it came from. -/
def Decompressor.recycle {σ : Type} (it : PageIter σ) (d : Decompressor σ) : Decompressor σ :=
  match d.current with
  | none => d
  | some page =>
    if d.wasDecompressed then
      { d with buffer := page.buffer, current := some (page.setBuffer []) }
    else
      let (old, iter) := it.swap d.iter page.buffer
      { d with iter, current := some (page.setBuffer old) }

/-- `src/read/compression.rs:122-136` `decompress_reuse`: the page and whether it was decompressed,
the iterator and the buffer afterwards. -/
def decompressReuse {σ : Type} (cs : Codecs) (ck : Bool) (it : PageIter σ) (page : CompressedPage)
    (iter : σ) (cap : Nat) (buffer : List Byte) : Res (Page × Bool) × σ × List Byte :=
  match decompressBuffer cs ck page cap buffer with
  | (.ok was, page, buffer) =>
    let (page, iter) :=
      if was then
        let (old, iter) := it.swap iter page.buffer
        (page.setBuffer old, iter)
      else (page, iter)
    (.ok (createPage page buffer, was), iter, [])
  | (.err e, _, buffer) => (.err e, iter, buffer)
  | (.panic, _, buffer) => (.panic, iter, buffer)

/-- `src/read/compression.rs:195-218` `advance`. `cap` is the capacity of the buffer at this moment.
On an error `current` keeps the previous page, whose buffer has been recycled. -/
def Decompressor.advance {σ : Type} (cs : Codecs) (ck : Bool) (it : PageIter σ) (cap : Nat)
    (d : Decompressor σ) : Res Unit × Decompressor σ :=
  let d := d.recycle it
  match it.next d.iter with
  | (none, iter) => (.ok (), { d with iter, current := none })
  | (some (.err e), iter) => (.err e, { d with iter })
  | (some .panic, iter) => (.panic, { d with iter })
  | (some (.ok page), iter) =>
    match decompressReuse cs ck it page iter cap d.buffer with
    | (.ok (page, was), iter, buffer) =>
      (.ok (), { iter, buffer, current := some page, wasDecompressed := was })
    | (.err e, iter, buffer) => (.err e, { d with iter, buffer })
    | (.panic, iter, buffer) => (.panic, { d with iter, buffer })

end Pq
