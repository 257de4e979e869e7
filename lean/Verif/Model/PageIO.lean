import Verif.Model.Compression
import Verif.Model.Statistics
import Verif.Model.Intervals
/-
Model of `src/write/page.rs`, `src/read/page/reader.rs`, `src/read/page/stream.rs` and
`src/read/page/indexed_reader.rs`.

Readers are the bytes still to be read (or the whole file for seekable readers); I/O errors are not
modelled. The thrift compact protocol is an external crate and appears as the parameter `Codec`.
-/
namespace Pq

/-- Thrift (de)serialization of `T` by the external crate: `ser` is what
`write_to_out_protocol` appends, `parse max` is `read_from_in_protocol` with the allocation limit
`max`: its result, and what is left of the reader (also after an error). -/
structure Codec (T : Type) where
  ser : T → List Byte
  parse : Nat → List Byte → Res T × List Byte

/-! ### `write/page.rs` -/

/-- `src/write/page.rs:24-40` `maybe_bytes`. -/
def maybeBytes (uncompressed compressed : Nat) : Res (I32 × I32) := do
  let uncompressed ← tryI32 uncompressed
  let compressed ← tryI32 compressed
  .ok (uncompressed, compressed)

/-- `src/write/page.rs:43-52` `PageWriteSpec`. -/
structure PageWriteSpec where
  header : Thrift.PageHeader
  numValues : Nat
  numRows : Option Nat
  headerSize : Nat
  offset : Nat
  bytesWritten : Nat
  compression : Compression
  statistics : Option Statistics
  deriving DecidableEq, Repr

/-- `src/write/page.rs:20-22` `is_data_page`. -/
def isDataPage (page : PageWriteSpec) : Bool :=
  page.header.type == 0#32 || page.header.type == 3#32

/-- `src/write/page.rs:144-171` `assemble_data_page_header`. -/
def assembleDataPageHeader (page : CompressedDataPage) : Res Thrift.PageHeader := do
  let (uncompressedPageSize, compressedPageSize) ←
    maybeBytes page.uncompressedPageSize page.buffer.length
  let header : Thrift.PageHeader :=
    { type := match page.header with
        | .v1 _ => 0#32
        | .v2 _ => 3#32
      uncompressedPageSize, compressedPageSize }
  match page.header with
  | .v1 h => .ok { header with dataPageHeader := some h }
  | .v2 h => .ok { header with dataPageHeaderV2 := some h }

/-- `src/write/page.rs:173-198` `assemble_dict_page_header`. -/
def assembleDictPageHeader (page : CompressedDictPage) : Res Thrift.PageHeader := do
  let (uncompressedPageSize, compressedPageSize) ←
    maybeBytes page.uncompressedPageSize page.buffer.length
  let numValues ← tryI32 page.numValues
  .ok { type := 2#32, uncompressedPageSize, compressedPageSize
        dictionaryPageHeader := some { numValues, encoding := 0#32, isSorted := none } }

/-- `src/write/page.rs:62-65`: the header of a page. -/
def assembleHeader : CompressedPage → Res Thrift.PageHeader
  | .data p => assembleDataPageHeader p
  | .dict p => assembleDictPageHeader p

/-- `src/page/mod.rs:100-111` `CompressedDataPage::statistics`, then `transpose()?`
(`src/write/page.rs:81-84`). -/
def pageStatistics : CompressedPage → Res (Option Statistics)
  | .dict _ => .ok none
  | .data p =>
    let s := match p.header with
      | .v1 h => h.statistics
      | .v2 h => h.statistics
    match s with
    | none => .ok none
    | some s => (deserializeStatistics s p.descriptor.primitiveType).map' some

/-- `src/write/page.rs:93`: `selected_rows.map(|x| x.last().unwrap().length)`. -/
def lastSelected : Option (List Interval) → Res (Option Nat)
  | none => .ok none
  | some x => (Res.unwrap x.getLast?).map' fun i => some i.length

/-- `src/write/page.rs:54-96` `write_page`: the outcome and the bytes handed to the writer (also on
failure). -/
def writePage (codec : Codec Thrift.PageHeader) (offset : Nat) (page : CompressedPage) :
    Res PageWriteSpec × List Byte :=
  match assembleHeader page with
  | .err e => (.err e, [])
  | .panic => (.panic, [])
  | .ok header =>
    let headerBytes := codec.ser header
    let bytes := headerBytes ++ page.buffer
    (do
      let statistics ← pageStatistics page
      let numRows ← lastSelected page.selectedRows
      .ok { header, headerSize := headerBytes.length, offset, bytesWritten := bytes.length
            compression := page.compression, statistics, numRows, numValues := page.numValues },
     bytes)

/-! ### `read/page/reader.rs` -/

/-- `src/read/page/reader.rs:225-283` `finish_page`. -/
def finishPage (header : Thrift.PageHeader) (data : List Byte) (compression : Compression)
    (descriptor : Descriptor) (selectedRows : Option (List Interval)) : Res CompressedPage := do
  let type ← PageType.ofThrift header.type
  let uncompressedPageSize ← toUsize header.uncompressedPageSize
  match type with
  | .dictionaryPage => do
    let dictHeader ← Res.ofOption .oos header.dictionaryPageHeader
    let isSorted := dictHeader.isSorted.getD false
    let numValues ← toUsize dictHeader.numValues
    .ok (.dict { buffer := data, compression, uncompressedPageSize, numValues, isSorted })
  | .dataPage => do
    let h ← Res.ofOption .oos header.dataPageHeader
    .ok (.data { header := .v1 h, buffer := data, compression, uncompressedPageSize, descriptor
                 selectedRows })
  | .dataPageV2 => do
    let h ← Res.ofOption .oos header.dataPageHeaderV2
    .ok (.data { header := .v2 h, buffer := data, compression, uncompressedPageSize, descriptor
                 selectedRows })

/-- `src/read/page/reader.rs:285-307` `get_page_header`. -/
def getPageHeader (header : Thrift.PageHeader) : Res (Option DataPageHeader) := do
  let type ← PageType.ofThrift header.type
  match type with
  | .dataPage => do
    let h ← Res.ofOption .oos header.dataPageHeader
    let _ ← Encoding.ofThrift h.encoding
    let _ ← Encoding.ofThrift h.repetitionLevelEncoding
    let _ ← Encoding.ofThrift h.definitionLevelEncoding
    .ok (some (.v1 h))
  | .dataPageV2 => do
    let h ← Res.ofOption .oos header.dataPageHeaderV2
    let _ ← Encoding.ofThrift h.encoding
    .ok (some (.v2 h))
  | .dictionaryPage => .ok none

/-- `src/read/page/reader.rs:61` `PageFilter`. -/
abbrev PageFilter := Descriptor → DataPageHeader → Bool

/-- `src/read/page/reader.rs:68-89` `PageReader`. `reserved` is not in the code: it records the sizes
requested with `try_reserve`, most recent first, to state what is allocated. -/
structure PageReader where
  reader : List Byte
  compression : Compression
  seenNumValues : I64
  totalNumValues : I64
  pagesFilter : PageFilter
  descriptor : Descriptor
  scratch : List Byte
  maxPageSize : Nat
  reserved : List Nat

/-- `src/read/page/reader.rs:21-30` `PageMetaData`. -/
structure PageMetaData where
  columnStart : Nat
  numValues : I64
  compression : Compression
  descriptor : Descriptor

/-- `src/read/page/reader.rs:109-126` `new_with_page_meta`. -/
def PageReader.new (reader : List Byte) (meta' : PageMetaData) (pagesFilter : PageFilter)
    (scratch : List Byte) (maxPageSize : Nat) : PageReader :=
  { reader, totalNumValues := meta'.numValues, compression := meta'.compression, seenNumValues := 0
    descriptor := meta'.descriptor, pagesFilter, scratch, maxPageSize, reserved := [] }

/-- `src/read/page/reader.rs:191-193`: values announced by a header, `num_values() as i64`. -/
def headerValues (h : Option DataPageHeader) : I64 :=
  match h with
  | some h => asI64 h.numValues
  | none => 0

/-- `src/read/page/reader.rs:185-223` `build_page`; the buffer is cleared first, so its old content
does not matter. -/
def buildPage (codec : Codec Thrift.PageHeader) (ck : Bool) (r : PageReader) :
    Res CompressedPage × PageReader :=
  match codec.parse r.maxPageSize r.reader with
  | (.err e, rest) => (.err e, { r with reader := rest })
  | (.panic, rest) => (.panic, { r with reader := rest })
  | (.ok header, rest) =>
    let r := { r with reader := rest }
    match getPageHeader header with
    | .err e => (.err e, r)
    | .panic => (.panic, r)
    | .ok dataHeader =>
      match addI64 ck r.seenNumValues (headerValues dataHeader) with
      | .err e => (.err e, r)
      | .panic => (.panic, r)
      | .ok seen =>
        let r := { r with seenNumValues := seen }
        match toUsize header.compressedPageSize with
        | .err e => (.err e, r)
        | .panic => (.panic, r)
        | .ok readSize =>
          if r.maxPageSize < readSize then (.err .wouldOverAllocate, r)
          else
            let buffer := r.reader.take readSize
            let r := { r with reader := r.reader.drop readSize, reserved := readSize :: r.reserved }
            if buffer.length ≠ readSize then (.err .oos, r)
            else (finishPage header buffer r.compression r.descriptor none, r)

/-- `src/read/page/reader.rs:175-183` `next_page`. -/
def nextPage (codec : Codec Thrift.PageHeader) (ck : Bool) (r : PageReader) :
    Option (Res CompressedPage) × PageReader :=
  if r.totalNumValues.toInt ≤ r.seenNumValues.toInt then (none, r)
  else
    let (page, r) := buildPage codec ck r
    (some page, r)

/-- Whether `next` returns the page (`src/read/page/reader.rs:147-154`). -/
def PageReader.wants (r : PageReader) : Res CompressedPage → Bool
  | .ok (.data p) => r.pagesFilter r.descriptor p.header
  | _ => true

/-- `src/read/page/reader.rs:143-160` `next`. The scratch buffer is taken; it comes back when there
is no page. The recursion over filtered pages is bounded by `fuel` (running out of it is a stack
overflow: `panic`). -/
def PageReader.nextFuel (codec : Codec Thrift.PageHeader) (ck : Bool) :
    Nat → PageReader → Option (Res CompressedPage) × PageReader
  | 0, r => (some .panic, r)
  | fuel + 1, r =>
    let buffer := r.scratch
    match nextPage codec ck { r with scratch := [] } with
    | (none, r) => (none, { r with scratch := buffer })
    | (some page, r) =>
      if r.wants page then (some page, r)
      else PageReader.nextFuel codec ck fuel { r with scratch := [] }

/-- `next`: every page takes at least a byte of the reader (for a codec that does), so the fuel
suffices. -/
def PageReader.next (codec : Codec Thrift.PageHeader) (ck : Bool) (r : PageReader) :
    Option (Res CompressedPage) × PageReader :=
  PageReader.nextFuel codec ck (r.reader.length + 2) r

/-- `src/read/page/reader.rs:135-137` `swap_buffer`. -/
def PageReader.swap (r : PageReader) (scratch : List Byte) : List Byte × PageReader :=
  (r.scratch, { r with scratch })

/-- `impl PageIterator for PageReader` (`src/read/page/reader.rs:134-161`). -/
def PageReader.iter (codec : Codec Thrift.PageHeader) (ck : Bool) : PageIter PageReader :=
  { next := PageReader.next codec ck, swap := PageReader.swap }

/-! ### `read/page/stream.rs` -/

/-- State of the stream of `src/read/page/stream.rs:75-129`: the fields of `PageReader` and whether
the stream has ended because of an error (`try_stream!`). -/
structure PageStream where
  inner : PageReader
  failed : Bool

/-- `src/read/page/stream.rs:86-127`: one item of the stream (`fuel` bounds the `continue`s). -/
def PageStream.nextFuel (codec : Codec Thrift.PageHeader) (ck : Bool) :
    Nat → PageReader → Option (Res CompressedPage) × PageStream
  | 0, r => (some .panic, ⟨r, true⟩)
  | fuel + 1, r =>
    if r.totalNumValues.toInt ≤ r.seenNumValues.toInt then (none, ⟨r, false⟩)
    else
      match codec.parse r.maxPageSize r.reader with
      | (.err e, rest) => (some (.err e), ⟨{ r with reader := rest }, true⟩)
      | (.panic, rest) => (some .panic, ⟨{ r with reader := rest }, true⟩)
      | (.ok header, rest) =>
        let r := { r with reader := rest }
        match getPageHeader header with
        | .err e => (some (.err e), ⟨r, true⟩)
        | .panic => (some .panic, ⟨r, true⟩)
        | .ok dataHeader =>
          match addI64 ck r.seenNumValues (headerValues dataHeader) with
          | .err e => (some (.err e), ⟨r, true⟩)
          | .panic => (some .panic, ⟨r, true⟩)
          | .ok seen =>
            let r := { r with seenNumValues := seen }
            match toUsize header.compressedPageSize with
            | .err e => (some (.err e), ⟨r, true⟩)
            | .panic => (some .panic, ⟨r, true⟩)
            | .ok readSize =>
              let skip := match dataHeader with
                | some h => !r.pagesFilter r.descriptor h
                | none => false
              if skip then
                PageStream.nextFuel codec ck fuel { r with reader := r.reader.drop readSize }
              else if r.maxPageSize < readSize then (some (.err .wouldOverAllocate), ⟨r, true⟩)
              else
                let buffer := r.reader.take readSize
                let r := { r with reader := r.reader.drop readSize
                                  reserved := readSize :: r.reserved }
                if buffer.length ≠ readSize then (some (.err .oos), ⟨r, true⟩)
                else
                  match finishPage header buffer r.compression r.descriptor none with
                  | .ok page => (some (.ok page), ⟨r, false⟩)
                  | .err e => (some (.err e), ⟨r, true⟩)
                  | .panic => (some .panic, ⟨r, true⟩)

/-- Polling the stream: nothing follows an error. -/
def PageStream.next (codec : Codec Thrift.PageHeader) (ck : Bool) (s : PageStream) :
    Option (Res CompressedPage) × PageStream :=
  if s.failed then (none, s)
  else PageStream.nextFuel codec ck (s.inner.reader.length + 2) s.inner

/-! ### `read/page/indexed_reader.rs` -/

/-- `src/read/page/indexed_reader.rs:46-71` `read_page`: header and data. `file` is the whole content
of the reader; the allocation limit of the header is 1 MiB. `try_reserve` fails for more than `isize::MAX`
bytes (`src/error.rs:103-107`). -/
def readPageAt (codec : Codec Thrift.PageHeader) (file : List Byte) (start length : Nat) :
    Res (Thrift.PageHeader × List Byte) :=
  if 2 ^ 63 ≤ length then .err .oos
  else
    let buffer := (file.drop start).take length
    match codec.parse (1024 * 1024) buffer with
    | (.ok header, rest) => .ok (header, rest)
    | (.err e, _) => .err e
    | (.panic, _) => .panic

/-- `src/read/page/indexed_reader.rs:73-92` `read_dict_page`. -/
def readDictPage (codec : Codec Thrift.PageHeader) (file : List Byte) (start length : Nat)
    (compression : Compression) (descriptor : Descriptor) : Res CompressedPage := do
  let (header, data) ← readPageAt codec file start length
  let page ← finishPage header data compression descriptor none
  match page with
  | .dict p => .ok (.dict p)
  | .data _ => .err .oos

/-- `src/read/page/indexed_reader.rs:25-44` `IndexedPageReader`; `maybeDict` is `state`. The two
buffers are cleared before use and not modelled. -/
structure IndexedReader where
  file : List Byte
  columnStart : Nat
  compression : Compression
  descriptor : Descriptor
  pages : List FilteredPage
  maybeDict : Bool

/-- `src/read/page/indexed_reader.rs:107-125` `new_with_page_meta`. -/
def IndexedReader.new (file : List Byte) (column : PageMetaData) (pages : List FilteredPage) :
    IndexedReader :=
  { file, columnStart := column.columnStart, compression := column.compression
    descriptor := column.descriptor, pages, maybeDict := true }

/-- `src/read/page/indexed_reader.rs:152-180` `read_dict`; the subtraction of `u64`s panics below zero
with overflow checks. -/
def IndexedReader.readDict (codec : Codec Thrift.PageHeader) (ck : Bool) (r : IndexedReader) :
    Option (Res CompressedPage) :=
  match r.pages.head? with
  | none => none
  | some page =>
    match Deser.usub ck page.start r.columnStart with
    | .err e => some (.err e)
    | .panic => some .panic
    | .ok length =>
      if 0 < length then
        some (readDictPage codec r.file r.columnStart length r.compression r.descriptor)
      else none

/-- `src/read/page/indexed_reader.rs:132-150` `read_page`. -/
def IndexedReader.readPage (codec : Codec Thrift.PageHeader) (r : IndexedReader)
    (page : FilteredPage) : Res CompressedPage := do
  let (header, data) ← readPageAt codec r.file page.start page.length
  finishPage header data r.compression r.descriptor (some page.selectedRows)

/-- `src/read/page/indexed_reader.rs:196-206`: the state `Data`, over the pages still to come. -/
def IndexedReader.nextData (codec : Codec Thrift.PageHeader) (r : IndexedReader) :
    List FilteredPage → Option (Res CompressedPage) × IndexedReader
  | [] => (none, { r with pages := [] })
  | page :: rest =>
    if page.selectedRows.isEmpty then r.nextData codec rest
    else (some (r.readPage codec page), { r with pages := rest })

/-- `src/read/page/indexed_reader.rs:186-208` `next`. -/
def IndexedReader.next (codec : Codec Thrift.PageHeader) (ck : Bool) (r : IndexedReader) :
    Option (Res CompressedPage) × IndexedReader :=
  if r.maybeDict then
    let r := { r with maybeDict := false }
    match r.readDict codec ck with
    | some page => (some page, r)
    | none => r.nextData codec r.pages
  else r.nextData codec r.pages

end Pq
