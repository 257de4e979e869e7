import Verif.Model.Source
import Verif.Model.Indexes
import Verif.Model.Bloom
/-
Reading pages, indexes and bloom filters from a reader that delivers as many bytes at a time as it likes
and may fail at any call (see `Model/Source.lean`). `Model/PageIO.lean`, `Model/Indexes.lean` and
`Model/Bloom.lean` have the same functions on the bytes of the file; both are compared in
`Lemmas/PageSource.lean`.

Asynchronous functions run the same statements, with an `await` at every call of the reader.
-/
namespace Pq

variable {σ T : Type} (i : Input σ)

/-- `read_exact`, which the thrift protocol uses (external crate): `n` more bytes, or an error if the
reader ends before. The first argument bounds the number of reads (each takes at least a byte). -/
def Input.exact : Nat → Nat → List Byte → IoM σ (List Byte)
  | 0, n, acc => if n = 0 then pure acc else .lift (.err .oos)
  | fuel + 1, n, acc =>
    if n = 0 then pure acc
    else do
      let b ← i.source.get n
      if b = [] then .lift (.err .oos)
      else exact fuel (n - b.length) (acc ++ b)

/-- A thrift protocol that reads from a reader (external crate, `src/read/page/reader.rs:168`,
`src/read/page/stream.rs:136`, `src/bloom_filter/read.rs:31`): what it makes of the bytes, and how many
bytes it wants next, after the ones it has read (none if it is done). -/
structure Protocol (T : Type) where
  codec : Codec T
  asks : Nat → List Byte → Nat

/-- Running the protocol (`src/read/page/reader.rs:164-171` `read_page_header`,
`src/read/page/stream.rs:132-139`); the first argument bounds the number of its calls of the reader. -/
def Protocol.readFrom (p : Protocol T) (max : Nat) : Nat → List Byte → IoM σ T
  | 0, _ => .lift .panic
  | fuel + 1, acc =>
    if p.asks max acc = 0 then .lift (p.codec.parse max acc).1
    else do
      let b ← i.exact (p.asks max acc) (p.asks max acc) []
      readFrom p max fuel (acc ++ b)

/-! ### `read/page/reader.rs` -/

variable (p : Protocol Thrift.PageHeader) (ck : Bool) (calls : Nat)

/-- `src/read/page/reader.rs:185-223` `build_page`. The field `reader` of the page reader is not used;
`calls` bounds the calls of the protocol. -/
def buildPageFrom (r : PageReader) (s : σ) : Res CompressedPage × PageReader × σ :=
  match p.readFrom i r.maxPageSize calls [] s with
  | (.err e, s) => (.err e, r, s)
  | (.panic, s) => (.panic, r, s)
  | (.ok header, s) =>
    match getPageHeader header with
    | .err e => (.err e, r, s)
    | .panic => (.panic, r, s)
    | .ok dataHeader =>
      match addI64 ck r.seenNumValues (headerValues dataHeader) with
      | .err e => (.err e, r, s)
      | .panic => (.panic, r, s)
      | .ok seen =>
        let r := { r with seenNumValues := seen }
        match toUsize header.compressedPageSize with
        | .err e => (.err e, r, s)
        | .panic => (.panic, r, s)
        | .ok readSize =>
          if r.maxPageSize < readSize then (.err .wouldOverAllocate, r, s)
          else
            let r := { r with reserved := readSize :: r.reserved }
            match i.takeToEnd readSize s with
            | (.err e, s) => (.err e, r, s)
            | (.panic, s) => (.panic, r, s)
            | (.ok buffer, s) =>
              if buffer.length ≠ readSize then (.err .oos, r, s)
              else (finishPage header buffer r.compression r.descriptor none, r, s)

/-- `src/read/page/reader.rs:143-183` `next` and `next_page`; the recursion over filtered pages is bounded
by the first argument, as in `PageReader.nextFuel`. -/
def PageReader.nextFuelFrom : Nat → PageReader × σ → Option (Res CompressedPage) × PageReader × σ
  | 0, (r, s) => (some .panic, r, s)
  | fuel + 1, (r, s) =>
    if r.totalNumValues.toInt ≤ r.seenNumValues.toInt then (none, r, s)
    else
      match buildPageFrom i p ck calls { r with scratch := [] } s with
      | (page, r, s) =>
        if r.wants page then (some page, r, s)
        else PageReader.nextFuelFrom fuel ({ r with scratch := [] }, s)

/-- `src/read/mod.rs:48-66` `get_page_iterator`: seeks to the start of the column. -/
def getPageIteratorFrom (column : ColumnChunkMetaData) (pagesFilter : Option PageFilter)
    (scratch : List Byte) (maxPageSize : Nat) : IoM σ PageReader := do
  let pagesFilter := pagesFilter.getD fun _ _ => true
  let (start, _) ← .lift column.byteRange
  let _ ← i.source.seekTo (.start start)
  let meta' ← .lift column.pageMetaData
  pure (PageReader.new [] meta' pagesFilter scratch maxPageSize)

/-! ### `read/page/stream.rs` -/

/-- `src/read/page/stream.rs:86-127`: one item of the stream (the first argument bounds the `continue`s).
Pages that are skipped are copied to a sink, which reads them to the end. -/
def PageStream.nextFuelFrom : Nat → PageReader × σ → Option (Res CompressedPage) × PageStream × σ
  | 0, (r, s) => (some .panic, ⟨r, true⟩, s)
  | fuel + 1, (r, s) =>
    if r.totalNumValues.toInt ≤ r.seenNumValues.toInt then (none, ⟨r, false⟩, s)
    else
      match p.readFrom i r.maxPageSize calls [] s with
      | (.err e, s) => (some (.err e), ⟨r, true⟩, s)
      | (.panic, s) => (some .panic, ⟨r, true⟩, s)
      | (.ok header, s) =>
        match getPageHeader header with
        | .err e => (some (.err e), ⟨r, true⟩, s)
        | .panic => (some .panic, ⟨r, true⟩, s)
        | .ok dataHeader =>
          match addI64 ck r.seenNumValues (headerValues dataHeader) with
          | .err e => (some (.err e), ⟨r, true⟩, s)
          | .panic => (some .panic, ⟨r, true⟩, s)
          | .ok seen =>
            let r := { r with seenNumValues := seen }
            match toUsize header.compressedPageSize with
            | .err e => (some (.err e), ⟨r, true⟩, s)
            | .panic => (some .panic, ⟨r, true⟩, s)
            | .ok readSize =>
              let skip := match dataHeader with
                | some h => !r.pagesFilter r.descriptor h
                | none => false
              if skip then
                match i.takeToEnd readSize s with
                | (.err e, s) => (some (.err e), ⟨r, true⟩, s)
                | (.panic, s) => (some .panic, ⟨r, true⟩, s)
                | (.ok _, s) => PageStream.nextFuelFrom fuel (r, s)
              else if r.maxPageSize < readSize then (some (.err .wouldOverAllocate), ⟨r, true⟩, s)
              else
                let r := { r with reserved := readSize :: r.reserved }
                match i.takeToEnd readSize s with
                | (.err e, s) => (some (.err e), ⟨r, true⟩, s)
                | (.panic, s) => (some .panic, ⟨r, true⟩, s)
                | (.ok buffer, s) =>
                  if buffer.length ≠ readSize then (some (.err .oos), ⟨r, true⟩, s)
                  else
                    match finishPage header buffer r.compression r.descriptor none with
                    | .ok page => (some (.ok page), ⟨r, false⟩, s)
                    | .err e => (some (.err e), ⟨r, true⟩, s)
                    | .panic => (some .panic, ⟨r, true⟩, s)

/-- Polling the stream: nothing follows an error. -/
def PageStream.nextFrom (fuel : Nat) : PageStream × σ → Option (Res CompressedPage) × PageStream × σ
  | (st, s) => if st.failed then (none, st, s) else PageStream.nextFuelFrom i p ck calls fuel (st.inner, s)

/-- `src/read/page/stream.rs:55-73` `get_page_stream_with_page_meta`. -/
def getPageStreamFrom (column : PageMetaData) (scratch : List Byte) (pagesFilter : PageFilter)
    (maxPageSize : Nat) : IoM σ PageStream := do
  let _ ← i.source.seekTo (.start column.columnStart)
  pure ⟨PageReader.new [] column pagesFilter scratch maxPageSize, false⟩

/-! ### `read/page/indexed_reader.rs` -/

/-- `src/read/page/indexed_reader.rs:46-71` `read_page`. -/
def readPageAtFrom (codec : Codec Thrift.PageHeader) (start length : Nat) :
    IoM σ (Thrift.PageHeader × List Byte) := do
  let _ ← i.source.seekTo (.start start)
  if 2 ^ 63 ≤ length then .lift (.err .oos)
  else do
    let buffer ← i.takeToEnd length
    .lift (match codec.parse (1024 * 1024) buffer with
      | (.ok header, rest) => .ok (header, rest)
      | (.err e, _) => .err e
      | (.panic, _) => .panic)

/-- `src/read/page/indexed_reader.rs:73-92` `read_dict_page`. -/
def readDictPageFrom (codec : Codec Thrift.PageHeader) (start length : Nat) (compression : Compression)
    (descriptor : Descriptor) : IoM σ CompressedPage := do
  let (header, data) ← readPageAtFrom i codec start length
  let page ← .lift (finishPage header data compression descriptor none)
  match page with
  | .dict p => pure (.dict p)
  | .data _ => .lift (.err .oos)

/-- `src/read/page/indexed_reader.rs:132-150` `read_page`. The field `file` of the reader is not used. -/
def IndexedReader.readPageFrom (codec : Codec Thrift.PageHeader) (r : IndexedReader) (page : FilteredPage) :
    IoM σ CompressedPage := do
  let (header, data) ← readPageAtFrom i codec page.start page.length
  .lift (finishPage header data r.compression r.descriptor (some page.selectedRows))

/-- `src/read/page/indexed_reader.rs:152-180` `read_dict`. -/
def IndexedReader.readDictFrom (codec : Codec Thrift.PageHeader) (r : IndexedReader) (s : σ) :
    Option (Res CompressedPage) × σ :=
  match r.pages.head? with
  | none => (none, s)
  | some page =>
    match Deser.usub ck page.start r.columnStart with
    | .err e => (some (.err e), s)
    | .panic => (some .panic, s)
    | .ok length =>
      if 0 < length then
        match readDictPageFrom i codec r.columnStart length r.compression r.descriptor s with
        | (page, s) => (some page, s)
      else (none, s)

/-- `src/read/page/indexed_reader.rs:196-206`: the state `Data`, over the pages still to come. -/
def IndexedReader.nextDataFrom (codec : Codec Thrift.PageHeader) (r : IndexedReader) (s : σ) :
    List FilteredPage → Option (Res CompressedPage) × IndexedReader × σ
  | [] => (none, { r with pages := [] }, s)
  | page :: rest =>
    if page.selectedRows.isEmpty then r.nextDataFrom codec s rest
    else
      match r.readPageFrom i codec page s with
      | (x, s) => (some x, { r with pages := rest }, s)

/-- `src/read/page/indexed_reader.rs:186-208` `next`. -/
def IndexedReader.nextFrom (codec : Codec Thrift.PageHeader) :
    IndexedReader × σ → Option (Res CompressedPage) × IndexedReader × σ
  | (r, s) =>
    if r.maybeDict then
      let r := { r with maybeDict := false }
      match r.readDictFrom i ck codec s with
      | (some page, s) => (some page, r, s)
      | (none, s) => r.nextDataFrom i codec s r.pages
    else r.nextDataFrom i codec s r.pages

/-! ### `read/indexes/read.rs` -/

/-- `src/read/indexes/read.rs:82-97` `read_columns_indexes`. -/
def readColumnsIndexesFrom (codec : Codec Thrift.ColumnIndex) (chunks : List ColumnChunkMetaData) :
    IoM σ (List Index) := do
  let (offset, lengths) ← .lift (prepareColumnIndexRead chunks)
  let length ← .lift (sumUsize ck 0 lengths)
  let _ ← i.source.seekTo (.start offset)
  let data ← i.takeToEnd length
  .lift (deserializeColumnIndexes codec data 0 chunks lengths)

/-- `src/read/indexes/read.rs:117-132` `read_pages_locations`. -/
def readPagesLocationsFrom (codec : Codec Thrift.OffsetIndex) (chunks : List ColumnChunkMetaData) :
    IoM σ (List (List Thrift.PageLocation)) := do
  let (offset, lengths) ← .lift (prepareOffsetIndexRead chunks)
  let length ← .lift (sumUsize ck 0 lengths)
  let _ ← i.source.seekTo (.start offset)
  let data ← i.takeToEnd length
  .lift (deserializePageLocations codec data chunks.length)

/-! ### `bloom_filter/read.rs` -/

/-- `src/bloom_filter/read.rs:14-49` `read`: what `bitset` is set to. -/
def Bloom.readFilterFrom (p : Protocol Bloom.Header) (offset : Option I64) : IoM σ (List Byte) :=
  match offset with
  | none => pure []
  | some offset => do
    let _ ← i.source.seekTo (.start offset.toNat)
    let header ← p.readFrom i (2 ^ 64 - 1) calls []
    if !header.algorithmIsBlock then pure []
    else if !header.compressionIsUncompressed then pure []
    else do
      let length ← .lift (toUsize header.numBytes)
      i.takeToEnd length

end Pq
