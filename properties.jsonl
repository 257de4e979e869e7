{"id": "C01", "title": "ULEB128 round trip", "statement": "Encoding an unsigned 64-bit integer as ULEB128 and decoding the result, with arbitrary bytes following it, returns the same integer and reports exactly the number of bytes written; the encoding is never longer than 10 bytes.", "quantifier": "every u64 value and every byte string that follows it", "why_tests_cant": "There are 2^64 values and unboundedly many suffixes; tests sample a handful of lengths.", "anchors": ["src/encoding/uleb128.rs: encode, decode"]}
{"id": "C02", "title": "ULEB128 decoding of arbitrary bytes", "statement": "Decoding ULEB128 from an arbitrary (possibly corrupt) buffer never consumes more than the buffer or 10 bytes, and fails only when a tenth byte carries more than one payload bit; a truncated varint is reported as an error rather than decoded as a shorter number. (The last clause is violated by the code.)", "quantifier": "every byte string", "why_tests_cant": "Corrupt inputs form an infinite space; overflow of the shift amount depends on exact byte patterns.", "anchors": ["src/encoding/uleb128.rs: decode"]}
{"id": "C03", "title": "Zig-zag round trip", "statement": "Zig-zag LEB128 encoding followed by decoding is the identity on signed 64-bit integers, also at i64::MIN/MAX, and consumes exactly the bytes written.", "quantifier": "every i64 value and every byte string that follows it", "why_tests_cant": "2^64 values; the extremes exercise wrap-around of shifts.", "anchors": ["src/encoding/zigzag_leb128.rs: encode, decode"]}
{"id": "C04", "title": "Bit-packing one block round trip", "statement": "Packing a full block of integers with n bits each and unpacking it with the same n returns the same integers whenever every integer fits in n bits, for each of the four supported integer widths and every n up to the width.", "quantifier": "every integer type u8/u16/u32/u64, every bit width 0..=type width, every block of values that fit", "why_tests_cant": "The four macro-generated functions have 9+17+33+65 instances over astronomically many blocks.", "anchors": ["src/encoding/bitpacked/pack.rs: pack8..pack64", "src/encoding/bitpacked/unpack.rs: unpack8..unpack64"]}
{"id": "C05", "title": "Bit-packed slice round trip", "statement": "Bit-packing any slice of integers that fit in n bits (any length, not necessarily a multiple of the block) and decoding the produced bytes yields exactly the slice, in order.", "quantifier": "every list of integers, every bit width 1..=type width for u8/u16/u32/u64", "why_tests_cant": "Remainder handling depends on length modulo the block size and on the width; only a few combinations are unit tested.", "anchors": ["src/encoding/bitpacked/encode.rs: encode, encode_pack", "src/encoding/bitpacked/decode.rs: Decoder"]}
{"id": "C06", "title": "Bit-packed decoder reads the parquet bit layout", "statement": "For any packed buffer accepted by the decoder, the decoder yields exactly `length` values and the k-th value is the little-endian number formed by bits k*n .. (k+1)*n of the buffer; no input makes it panic once construction succeeded and n does not exceed the type width.", "quantifier": "every byte buffer, every bit width, every requested length the constructor accepts", "why_tests_cant": "Files come from foreign writers: the buffer contents are arbitrary.", "anchors": ["src/encoding/bitpacked/decode.rs: Decoder::try_new, Decoder::next, decode_pack"]}
{"id": "C07", "title": "Over-wide values do not corrupt neighbours when bit-packing", "statement": "The documentation of the bit-packer says values that do not fit are saturated/truncated; hence a value that does not fit in n bits must not change how its neighbours decode. (Violated by the code.)", "quantifier": "every list of integers, every width", "why_tests_cant": "Needs an exhaustive view of how bits of one value leak into the words of the next.", "anchors": ["src/encoding/bitpacked/pack.rs: pack_impl", "src/encoding/bitpacked/encode.rs: encode"]}
{"id": "C08", "title": "Hybrid RLE u32 round trip", "statement": "Encoding any list of u32 values that fit in n bits with the hybrid RLE encoder and decoding with the hybrid RLE decoder for that many values returns the list.", "quantifier": "every list of u32 (any length), every width 1..=32", "why_tests_cant": "The encoder processes blocks of 32 with a remainder; the decoder streams runs; tests cover a few sizes.", "anchors": ["src/encoding/hybrid_rle/encoder.rs: encode_u32, bitpacked_encode_u32", "src/encoding/hybrid_rle/mod.rs: HybridRleDecoder", "src/encoding/hybrid_rle/decoder.rs: Decoder"]}
{"id": "C09", "title": "Hybrid RLE boolean (definition level) round trip", "statement": "Encoding any list of booleans with the hybrid RLE encoder and decoding the result with width 1 returns the list, both through the value decoder and through the validity bitmap iterator.", "quantifier": "every list of booleans", "why_tests_cant": "Lengths are unbounded and the last byte is padded.", "anchors": ["src/encoding/hybrid_rle/encoder.rs: encode_bool", "src/encoding/hybrid_rle/bitmap.rs: encode_bool, BitmapIter", "src/deserialize/hybrid_rle.rs: HybridRleIter"]}
{"id": "C10", "title": "Hybrid RLE decoder produces the promised number of values", "statement": "A hybrid RLE decoder constructed for N values yields exactly N items for any bytes (or terminates with an explicit error/panic), never more and never fewer, and the reported remaining length is exact at every step.", "quantifier": "every byte string, every width 0..=32, every N, every number of calls", "why_tests_cant": "Termination and exact counts for corrupt data cannot be sampled.", "anchors": ["src/encoding/hybrid_rle/mod.rs: HybridRleDecoder::next, read_next"]}
{"id": "C11", "title": "Hybrid RLE decoder understands every legal run sequence", "statement": "For any sequence of RLE runs and bit-packed runs serialised as the parquet specification prescribes (by any writer), the decoder returns the concatenation of the run values, truncated to the requested number.", "quantifier": "every list of runs (any mix, any lengths), every width 1..=32, every requested count", "why_tests_cant": "The writer in this crate only ever produces one bit-packed run, so round-trip tests never exercise mixed run sequences.", "anchors": ["src/encoding/hybrid_rle/mod.rs: HybridRleDecoder", "src/encoding/hybrid_rle/decoder.rs: Decoder"]}
{"id": "C12", "title": "Bitmaps: write then iterate", "statement": "Writing booleans as an LSB-first bitmap and iterating any window [offset, offset+len) of it yields exactly those booleans of the original sequence; iterators report exact remaining length.", "quantifier": "every list of booleans, every window inside it", "why_tests_cant": "Windows not aligned to bytes with every offset/length combination.", "anchors": ["src/encoding/hybrid_rle/bitmap.rs: encode_bool, BitmapIter"]}
{"id": "C13", "title": "DELTA_BINARY_PACKED round trip", "statement": "Encoding any list of i64 with the delta encoder (release arithmetic) and decoding it returns the list, including lists whose deltas overflow i64.", "quantifier": "every list of i64 values of every length", "why_tests_cant": "Overflow of deltas, block boundaries at multiples of 128 and stale block buffers only show on particular data.", "anchors": ["src/encoding/delta_bitpacked/encoder.rs: encode", "src/encoding/delta_bitpacked/decoder.rs: Decoder, Block"]}
{"id": "C14", "title": "DELTA_BINARY_PACKED reports how many bytes it consumed", "statement": "After a delta decoder has been drained, the number of consumed bytes it reports equals the length of the encoded stream even when other data follows, so that the next section of the page can be located.", "quantifier": "every list of i64 and every suffix", "why_tests_cant": "Composite encodings (delta-length, delta-strings) rely on this for every input.", "anchors": ["src/encoding/delta_bitpacked/decoder.rs: Decoder::consumed_bytes"]}
{"id": "C15", "title": "DELTA_BINARY_PACKED encoding never aborts", "statement": "The delta encoder accepts every list of i64 in every build profile. (Violated: builds with overflow checks panic when a difference of neighbours, or of deltas, overflows i64.)", "quantifier": "every list of i64", "why_tests_cant": "Only extreme differences trigger it.", "anchors": ["src/encoding/delta_bitpacked/encoder.rs: encode"]}
{"id": "C16", "title": "DELTA_LENGTH_BYTE_ARRAY round trip", "statement": "Encoding any list of byte strings with the delta-length encoder and decoding lengths and values returns the same byte strings.", "quantifier": "every list of byte strings (lengths below 2^31, total below 2^32)", "why_tests_cant": "Any number of strings of any lengths, across block boundaries.", "anchors": ["src/encoding/delta_length_byte_array/encoder.rs: encode", "src/encoding/delta_length_byte_array/decoder.rs: Decoder"]}
{"id": "C17", "title": "DELTA_BYTE_ARRAY round trip", "statement": "Encoding any list of byte strings with the incremental (prefix) encoder and decoding prefix lengths, suffix lengths and values reconstructs the same strings. (Violated when a string is a proper prefix of its predecessor: the encoder panics.)", "quantifier": "every list of byte strings", "why_tests_cant": "Depends on relations between consecutive strings.", "anchors": ["src/encoding/delta_byte_array/encoder.rs: encode", "src/encoding/delta_byte_array/decoder.rs: Decoder"]}
{"id": "C18", "title": "Plain byte-array pages", "statement": "Iterating a PLAIN byte-array page built from any list of strings yields exactly those strings; for arbitrary bytes the iterator never reads past the buffer: every item is either a slice inside the buffer or an error, and iteration terminates.", "quantifier": "every list of byte strings; every byte string as page content", "why_tests_cant": "Corrupt length prefixes are adversarial.", "anchors": ["src/encoding/plain_byte_array.rs: BinaryIter"]}
{"id": "C19", "title": "Optional values are reassembled in order", "statement": "Reading an optional flat page yields exactly one item per definition level: the next value where the level says valid, null otherwise; values are consumed in order and each once.", "quantifier": "every definition-level stream, every value stream with enough values", "why_tests_cant": "Interleavings of validity runs and values are unbounded.", "anchors": ["src/deserialize/utils.rs: OptionalValues, DefLevelsDecoder", "src/deserialize/hybrid_rle.rs: HybridRleIter"]}
{"id": "C20", "title": "Validity iterator covers all runs", "statement": "Iterating the definition levels of a page as booleans yields one boolean per row for all rows of the page. (Violated: the boolean iterator stops after the first run.)", "quantifier": "every run sequence, every number of rows", "why_tests_cant": "The crate's own writer emits one run per page so its tests cannot see the second run.", "anchors": ["src/deserialize/hybrid_rle.rs: HybridRleBooleanIter"]}
{"id": "C21", "title": "Row selection over plain values", "statement": "Filtering any iterator by a list of sorted disjoint row intervals yields exactly the rows inside the intervals, in order. (Violated for empty intervals, which page pruning can produce.)", "quantifier": "every row sequence, every sorted disjoint list of intervals within range", "why_tests_cant": "Combinatorially many interval layouts.", "anchors": ["src/deserialize/utils.rs: SliceFilteredIter"]}
{"id": "C22", "title": "Row selection over validity runs", "statement": "Filtering validity runs by sorted disjoint row intervals yields, when expanded, exactly the validity of the selected rows, and the reported skip counts equal the number of valid values in the skipped rows (so that value decoders stay aligned).", "quantifier": "every run sequence, every sorted disjoint list of intervals", "why_tests_cant": "State machine over two interleaved streams; boundary coincidences are numerous.", "anchors": ["src/deserialize/filtered_rle.rs: FilteredHybridBitmapIter"]}
{"id": "C23", "title": "Fixed-width plain pages", "statement": "A PLAIN page of fixed-width values is rejected unless its size is a multiple of the width; otherwise decoding yields size/width values and the bytes of the values concatenate to the page. (Violated for FIXED_LEN_BYTE_ARRAY: a remainder is dropped silently, length zero panics.)", "quantifier": "every byte buffer, every native width / fixed length", "why_tests_cant": "All buffer lengths and contents.", "anchors": ["src/deserialize/native.rs: native_cast", "src/deserialize/fixed_len.rs: FixexBinaryIter", "src/types.rs: decode"]}
{"id": "C24", "title": "Dictionary indices", "statement": "Decoding the dictionary-index section of a page with bit width byte w ≤ 32 yields exactly num_values indices as prescribed by the hybrid encoding; widths above 32 are rejected; malformed sections never abort the process. (Last clause violated: empty section.)", "quantifier": "every page buffer and number of values", "why_tests_cant": "Corrupt pages are arbitrary bytes.", "anchors": ["src/deserialize/utils.rs: dict_indices_decoder"]}
{"id": "C25", "title": "Bloom filter has no false negatives", "statement": "After any sequence of insertions into a split-block bloom filter, membership of every inserted hash is reported as true.", "quantifier": "every bitset size (multiple of 32 bytes, non-empty), every sequence of 64-bit hashes, every initial content", "why_tests_cant": "Universally quantified over hashes and histories.", "anchors": ["src/bloom_filter/split_block.rs: insert, is_in_set"]}
{"id": "C26", "title": "Bloom filter insertions commute and only add bits", "statement": "The final content of the bloom filter depends only on the set of inserted hashes (order and repetition do not matter), insertion never changes the length nor clears a bit, and touches a single 32-byte block.", "quantifier": "every bitset, every pair/sequence of hashes", "why_tests_cant": "Order independence over all permutations.", "anchors": ["src/bloom_filter/split_block.rs: insert"]}
{"id": "C27", "title": "Page row intervals partition the row group", "statement": "The row intervals computed from an offset index are consecutive, disjoint, start at the first page's first row and cover exactly up to the number of rows; malformed indexes give an error, not a panic.", "quantifier": "every offset index (list of first-row indexes) and row count", "why_tests_cant": "Lists of arbitrary length.", "anchors": ["src/indexes/intervals.rs: compute_page_row_intervals"]}
{"id": "C28", "title": "Page pruning keeps exactly the requested rows", "statement": "Projecting the rows selected on one column onto the pages of another column selects exactly the same set of rows: a row is in some returned per-page interval iff it was selected; a page is listed with a non-empty selection only if it holds a selected row.", "quantifier": "every set of intervals, every page partition of the row group", "why_tests_cant": "Interval overlaps in all configurations.", "anchors": ["src/indexes/intervals.rs: select_pages, is_in, compute_rows"]}
{"id": "C29", "title": "Native values survive serialisation", "statement": "Converting every native parquet value (i32, i64, f32/f64 bit patterns, int96) to little-endian bytes and decoding them returns the same value.", "quantifier": "every bit pattern of each native type", "why_tests_cant": "2^96 patterns.", "anchors": ["src/types.rs: NativeType impls, decode"]}
{"id": "C30", "title": "Binary ordering is a total order", "statement": "The comparison used for byte-array values is a total order compatible with lexicographic unsigned byte order. (Violated: a string and its proper extension compare Equal.)", "quantifier": "every pair/triple of byte strings", "why_tests_cant": "Antisymmetry/transitivity are relational properties.", "anchors": ["src/types.rs: ord_binary"]}
{"id": "C31", "title": "Level bit width is minimal", "statement": "The bit width computed for a maximum level is the smallest width able to represent every level from 0 to the maximum.", "quantifier": "every non-negative i16", "why_tests_cant": "All level values.", "anchors": ["src/read/levels.rs: get_bit_width"]}
{"id": "C32", "title": "Splitting a data page into levels and values", "statement": "Splitting a data page buffer returns three slices that concatenate (up to the V1 length prefixes) to the page buffer; malformed V1 lengths produce an error; no page content aborts the process. (Last clause violated for V2 pages.)", "quantifier": "every page buffer, every header", "why_tests_cant": "Adversarial level lengths.", "anchors": ["src/page/mod.rs: split_buffer, split_buffer_v1, split_buffer_v2"]}
{"id": "C33", "title": "Page compression round trip", "statement": "Compressing a data or dictionary page and decompressing it yields the same page content and header for V1 and V2 pages under any correct codec.", "quantifier": "every page, every codec satisfying decompress(compress x)=x, every level split", "why_tests_cant": "Every page content.", "anchors": ["src/write/compression.rs: compress, compress_data", "src/read/compression.rs: decompress, decompress_v1, decompress_v2"]}
{"id": "C34", "title": "Buffer reuse is unobservable", "statement": "Streaming pages through the compressor or the decompressor, which recycle buffers between pages, yields exactly the pages obtained by processing every page with fresh buffers; content of the recycled buffer never leaks into a page.", "quantifier": "every sequence of pages and every initial buffer content", "why_tests_cant": "Leakage depends on the history of page sizes and kinds.", "anchors": ["src/write/compression.rs: Compressor", "src/read/compression.rs: Decompressor, BasicDecompressor"]}
{"id": "C35", "title": "Column chunk pages: write then read", "statement": "Reading back the bytes of a column chunk written by the page writer yields the same sequence of pages (kind, header fields, compressed bytes), and nothing beyond the chunk is consumed.", "quantifier": "every sequence of well-formed compressed pages and every data following the chunk, for any lawful header serialisation", "why_tests_cant": "Sequences of any length of dictionary/V1/V2 pages.", "anchors": ["src/write/page.rs: write_page", "src/read/page/reader.rs: PageReader"]}
{"id": "C36", "title": "Page reader honours the memory limit and the value budget", "statement": "The page reader never allocates a page buffer larger than the configured maximum, returns an error for negative or oversized page sizes and truncated pages, stops after having seen the announced number of values, and never yields a page skipped by the page filter.", "quantifier": "every byte stream, every header sequence, every limit", "why_tests_cant": "Adversarial headers.", "anchors": ["src/read/page/reader.rs: build_page, next_page, PageReader"]}
{"id": "C37", "title": "Indexed page reading", "statement": "Reading through page locations yields exactly the data pages whose row selection is non-empty, in order, preceded by the dictionary page iff there are bytes before the first data page.", "quantifier": "every list of page locations and selections", "why_tests_cant": "Subset selection over any number of pages.", "anchors": ["src/read/page/indexed_reader.rs: IndexedPageReader"]}
{"id": "C38", "title": "File framing round trip", "statement": "Every file produced by the writer starts and ends with the magic bytes, and reading its metadata returns the metadata that was written, for every metadata size (including larger than the default footer read).", "quantifier": "every body, every metadata encoding of length < 2^31", "why_tests_cant": "The footer re-read path depends on sizes around 64 KiB.", "anchors": ["src/write/file.rs: start_file, end_file", "src/read/metadata.rs: read_metadata"]}
{"id": "C39", "title": "Reading metadata of arbitrary bytes is safe", "statement": "Reading metadata from arbitrary bytes yields either an error or metadata parsed from inside the file: too small files, missing magic, negative or oversized metadata lengths are reported as errors, never as panics or out-of-range reads.", "quantifier": "every byte string", "why_tests_cant": "Adversarial input.", "anchors": ["src/read/metadata.rs: read_metadata"]}
{"id": "C40", "title": "Column chunk byte ranges describe the file", "statement": "In the metadata of a written file, the byte range of each column chunk is exactly where that chunk's pages were written; the ranges are consecutive and disjoint, begin after the magic and end before the page indexes/footer.", "quantifier": "every sequence of row groups, columns and pages", "why_tests_cant": "Offsets accumulate over the entire history of writes.", "anchors": ["src/write/file.rs: FileWriter::write", "src/write/row_group.rs: write_row_group", "src/write/column_chunk.rs: write_column_chunk, build_column_chunk", "src/metadata/column_chunk_metadata.rs: byte_range"]}
{"id": "C41", "title": "Writer life cycle", "statement": "Under any sequence of start/write/end calls the file writer writes the magic before any row group, refuses to start twice, refuses to end twice, and refuses row groups after the end. (The last clause is violated; the async writer also accepts a second end.)", "quantifier": "every finite sequence of API calls", "why_tests_cant": "Histories of calls.", "anchors": ["src/write/file.rs: FileWriter", "src/write/stream.rs: FileStreamer"]}
{"id": "C42", "title": "Row and size totals", "statement": "The totals recorded in written metadata (values, rows, compressed and uncompressed sizes, encodings set) equal the sums over the pages written.", "quantifier": "every sequence of pages/columns/row groups", "why_tests_cant": "Sums over arbitrary lists.", "anchors": ["src/write/column_chunk.rs: build_column_chunk", "src/write/row_group.rs: write_row_group, compute_num_rows", "src/write/file.rs: FileWriter::end"]}
{"id": "C43", "title": "Written offset index locates the pages", "statement": "Each entry of the written offset index gives the file offset and size of the corresponding data page and the number of rows before it; dictionary pages are not listed.", "quantifier": "every sequence of pages", "why_tests_cant": "Prefix sums over arbitrary lists.", "anchors": ["src/write/indexes/serialize.rs: serialize_offset_index"]}
{"id": "C44", "title": "Written column index describes the pages", "statement": "The written column index has one entry per data page with the page's min/max/null count, flags pages without bounds as null pages, and refuses pages lacking required statistics.", "quantifier": "every sequence of page statistics", "why_tests_cant": "Arbitrary lists of optional statistics.", "anchors": ["src/write/indexes/serialize.rs: serialize_column_index", "src/indexes/index.rs"]}
{"id": "C45", "title": "Column index reading fetches the right bytes", "statement": "Reading the page indexes of a row group returns for each column the index that was written for it.", "quantifier": "every number of columns, every index size", "why_tests_cant": "The reader fetches one contiguous range and slices it by lengths.", "anchors": ["src/read/indexes/read.rs", "src/write/file.rs: FileWriter::end"]}
{"id": "C46", "title": "Chunk statistics bound all pages (numeric)", "statement": "The column chunk's min (max) statistic produced by merging page statistics is a lower (upper) bound of the min (max) of every page, the null count is the sum of page null counts. (Violated when a page carries no statistics: it is ignored.)", "quantifier": "every non-empty list of page statistics", "why_tests_cant": "Merging is a fold over arbitrary lists.", "anchors": ["src/write/statistics.rs: reduce, reduce_primitive, reduce_boolean"]}
{"id": "C47", "title": "Chunk statistics bound all pages (binary)", "statement": "The merged min (max) of byte-array statistics is a lower (upper) bound, in lexicographic order, of every page's min (max). (Violated when one value is a proper prefix of the other.)", "quantifier": "every list of byte-array statistics", "why_tests_cant": "Relational property over pairs of strings.", "anchors": ["src/write/statistics.rs: reduce_binary, ord_binary"]}
{"id": "C48", "title": "Statistics serialisation round trip", "statement": "Statistics written to thrift and read back with the same primitive type are equal; values of the wrong width are rejected.", "quantifier": "every statistics value of every physical type", "why_tests_cant": "All values.", "anchors": ["src/statistics/*.rs: read, write", "src/statistics/mod.rs: serialize_statistics, deserialize_statistics"]}
{"id": "C49", "title": "Schema thrift round trip", "statement": "Converting a schema to its flat thrift representation and back returns the same schema. (Violated for groups without children, including an empty schema.)", "quantifier": "every schema tree of any depth and width", "why_tests_cant": "Trees of arbitrary shape.", "anchors": ["src/schema/io_thrift/to_thrift.rs", "src/schema/io_thrift/from_thrift.rs"]}
{"id": "C50", "title": "Leaf columns and levels of a schema", "statement": "The columns of a schema are its primitive leaves in depth-first order; each column's path is the list of names from the root and its max definition (repetition) level is the number of optional-or-repeated (repeated) nodes on that path.", "quantifier": "every schema tree", "why_tests_cant": "Trees of arbitrary shape.", "anchors": ["src/metadata/schema_descriptor.rs: SchemaDescriptor::new, build_tree"]}
{"id": "C51", "title": "Enumerations survive thrift conversion", "statement": "Converting compression codecs, encodings, page types, repetitions, boundary orders, logical, converted and physical types to thrift and back returns the same value, and unknown thrift codes are rejected.", "quantifier": "every value of each enumeration incl. parameters below 2^31; every i32 thrift code", "why_tests_cant": "Parameterised variants have unboundedly many values.", "anchors": ["src/parquet_bridge.rs", "src/schema/types/converted_type.rs", "src/schema/types/physical_type.rs"]}
{"id": "C52", "title": "Schema message parser reads what is written", "statement": "Rendering any schema in the message syntax and parsing it returns the schema; parsing terminates for every input string; an unterminated or truncated message is rejected. (Last clause violated.)", "quantifier": "every schema tree; every string", "why_tests_cant": "Infinite language of messages.", "anchors": ["src/schema/io_message/from_message.rs: from_message, Parser, Tokenizer"]}
{"id": "C53", "title": "Hadoop-LZ4 framing", "statement": "Decompressing any sequence of Hadoop LZ4 frames whose total decompressed size matches the output buffer yields the concatenation of the frames. (Violated when a later frame is not larger than its predecessor.)", "quantifier": "every list of frames, every block codec", "why_tests_cant": "Only multi-frame inputs with particular size relations fail.", "anchors": ["src/compression.rs: try_decompress_hadoop"]}
{"id": "C54", "title": "Column iteration order", "statement": "Iterating the columns of a field delivers the column chunks in schema order.", "quantifier": "every number of columns per field", "why_tests_cant": "Order over arbitrary lists.", "anchors": ["src/read/column/mod.rs: ColumnIterator, ReadColumnIterator, get_field_columns"]}
{"id": "C55", "title": "Annotation compatibility check", "statement": "A primitive type with a decimal/logical/converted annotation is accepted only if the annotation is legal for the physical type, and every type accepted is re-accepted when read from its thrift form. (Violated for FIXED_LEN_BYTE_ARRAY of more than 128 bytes: every decimal precision is accepted.)", "quantifier": "every physical type, every annotation", "why_tests_cant": "Parameter space of decimals is unbounded.", "anchors": ["src/schema/types/spec.rs: check_decimal_invariants, check_converted_invariants, check_logical_invariants"]}
{"id": "C56", "title": "Delta decoder reads every legal stream", "statement": "The DELTA_BINARY_PACKED decoder returns the encoded values of every stream that is legal by the format: any block size that is a multiple of 128, any number of miniblocks whose size is a multiple of 8, any bit widths, non-minimal varints, last block with only the needed miniblocks; and it reports exactly the stream's length as consumed.", "quantifier": "every legal stream of any writer, every suffix", "why_tests_cant": "Unbounded number of block shapes; other writers use other block sizes than this library.", "anchors": ["src/encoding/delta_bitpacked/decoder.rs: Decoder, Block"]}
{"id": "C57", "title": "Reading a column's bloom filter", "statement": "Reading the bloom filter of a column returns exactly the bytes after its header when the file has them, nothing when the column has no filter or one of an unsupported kind, and an error otherwise; querying the filter that was read never aborts. (Violated: a file that ends early gives a shortened filter, and querying an empty or short filter panics.)", "quantifier": "every file content, offset and header", "why_tests_cant": "All offsets, truncations and headers.", "anchors": ["src/bloom_filter/read.rs: read", "src/bloom_filter/split_block.rs: is_in_set"]}
{"id": "C58", "title": "Pages are decoded by their declared encoding", "statement": "A data page is decoded by its declared encoding: a dictionary-encoded page yields exactly the rows (index or null) that were written, over the given dictionary; a PLAIN page yields its values and validity, and announces its number of values when required; definition levels of nested columns are read with the width of their maximum; every other combination of encoding, dictionary and type is refused with an error. (Violated for encoding codes unknown to the library: the process aborts.)", "quantifier": "every page, every column of values or indices, every dictionary, every encoding", "why_tests_cant": "Columns and pages are unbounded; a wrong width or count only shows for particular sizes and levels.", "anchors": ["src/deserialize/native.rs: NativePageState::try_new", "src/deserialize/binary.rs: BinaryPageState::try_new", "src/deserialize/fixed_len.rs: FixedLenBinaryPageState::try_new", "src/deserialize/boolean.rs: BooleanPageState::try_new", "src/deserialize/utils.rs: DefLevelsDecoder::try_new, dict_indices_decoder"]}
{"id": "C59", "title": "Whole file: write then read", "statement": "Whatever row groups are written to a file, reading the file's metadata and then the pages of any column chunk through the page iterator delivers exactly the pages written to that chunk, in order, with the schema, the created-by string and the key-value metadata that were given to the writer.", "quantifier": "every schema without empty groups, every sequence of row groups, columns and pages, every metadata size", "why_tests_cant": "The composition of framing, offsets, sizes, schema and page headers over unbounded files.", "anchors": ["src/write/file.rs: FileWriter", "src/read/metadata.rs: read_metadata", "src/read/mod.rs: get_page_iterator", "src/read/page/reader.rs: PageReader"]}
{"id": "C60", "title": "Column orders", "statement": "For a file that records an order per column, the order reported for each column is the order of its logical, converted or physical type, in that preference; for a file without orders every column's order is undefined. (Violated when fewer orders than columns are recorded: asking for the order aborts.)", "quantifier": "every schema, every metadata, every column index", "why_tests_cant": "Schemas are unbounded and the preference only shows for types carrying several annotations.", "anchors": ["src/metadata/file_metadata.rs: column_order, parse_column_orders", "src/metadata/sort.rs: get_sort_order"]}
{"id": "C61", "title": "File metadata survives being written again", "statement": "Metadata that was read, converted back to thrift and read again is the same: version, rows, schema, row groups with all column chunks, key-value metadata and created-by. (Column orders, sorting columns and row group ordinals are dropped: violated.)", "quantifier": "every metadata that can be read", "why_tests_cant": "Metadata is unbounded; a field dropped on conversion shows only for files that use it.", "anchors": ["src/metadata/file_metadata.rs: try_from_thrift, into_thrift", "src/metadata/row_metadata.rs: try_from_thrift, into_thrift", "src/metadata/column_chunk_metadata.rs: try_from_thrift, into_thrift"]}
{"id": "C62", "title": "Selecting row groups", "statement": "Filtering the row groups of a file's metadata keeps exactly the groups for which the predicate holds of the group and its position in the file, in order, and changes nothing else.", "quantifier": "every metadata, every predicate", "why_tests_cant": "Arbitrary predicates and numbers of groups.", "anchors": ["src/read/mod.rs: filter_row_groups"]}
{"id": "C63", "title": "Selected rows are read through the page index", "statement": "For a file produced by the writer, reading a row group's page locations, selecting pages for any list of row intervals and reading them with the indexed reader delivers the column's dictionary page, if any, and exactly the data pages containing selected rows, each labelled with the selected rows inside it; taking those rows from each page gives exactly the selected rows of the column, in order.", "quantifier": "every schema, every sequence of row groups, columns and pages whose row counts are known, every list of intervals", "why_tests_cant": "The composition of offsets, row counts, interval arithmetic and page framing over unbounded files and selections; an off-by-one drops or repeats rows only for particular alignments.", "anchors": ["src/read/indexes/read.rs: read_pages_locations", "src/indexes/intervals.rs: select_pages", "src/read/page/indexed_reader.rs: IndexedPageReader"]}
{"id": "C64", "title": "Failures of the sink", "statement": "Whatever the sink refuses or fails at, in the middle of any call: the call in which the sink failed returns an error; everything written by the calls before is in the sink, followed by a prefix of what the failing call would have written; and if all calls report success, the sink holds a whole file and it is flushed. The same holds for a metadata-only file.", "quantifier": "every sink that may accept any part of what it is given and then fail, any number of times; every sequence of calls; the synchronous and the asynchronous writer", "why_tests_cant": "Failures can strike after any byte of any call; a swallowed error shows only for one of these positions.", "anchors": ["src/write/file.rs: FileWriter", "src/write/stream.rs: FileStreamer", "src/write/row_group.rs", "src/write/column_chunk.rs", "src/write/page.rs", "src/write/indexes/write.rs", "src/write/file.rs: write_metadata_sidecar"]}
{"id": "C65", "title": "A file cut short is refused", "statement": "Reading the metadata of a file of which only a proper prefix got to the disk returns an error, wherever it was cut, and never aborts. (Violated when the data of a page looks like the end of a file: the format has no means against it.)", "quantifier": "every written file, every proper prefix of it", "why_tests_cant": "Every file has as many prefixes as bytes; which of them end in magic bytes depends on its content.", "anchors": ["src/read/metadata.rs: read_metadata", "src/write/file.rs: FileWriter::end"]}
{"id": "C66", "title": "Calls that failed may be made again", "statement": "If a call of the writer fails with an I/O error, and is made again with success, then the file is as if it had not failed: offsets in the metadata point to the pages and indexes. (Violated unless nothing of the failed call got to the sink: the writer's offset does not follow the sink.)", "quantifier": "every writer, every row group, every position of the failure", "why_tests_cant": "Depends on the exact byte at which the sink failed.", "anchors": ["src/write/file.rs: FileWriter::write, FileWriter::end", "src/write/stream.rs: FileStreamer"]}
{"id": "C67", "title": "Reading does not depend on how the reader delivers the bytes", "statement": "Reading metadata or column chunks from a reader that delivers the file in pieces of any sizes, from wherever it stands at the start, gives exactly what the bytes of the file give; if the reader fails on the way the result is that error, never an abort and never different data. Reading the columns of a field concurrently gives the same as reading them one after the other, in whatever order the tasks are run, and ends. (Violated if the file is shortened by somebody else between finding its length and reading: the process aborts.)", "quantifier": "every file, every reader, every sequence of piece sizes and failures, every schedule of tasks", "why_tests_cant": "Tests use readers over memory, which deliver everything at once and never fail; schedules are unbounded.", "anchors": ["src/read/metadata.rs: read_metadata, read_metadata_with_size, stream_len", "src/read/column/mod.rs: read_columns", "src/read/column/stream.rs: read_columns_async"]}
{"id": "C68", "title": "Columns read into memory are the pages written", "statement": "For every file the writer finishes, reading the columns of a field of a row group into memory delivers, in the order of the schema, for each column exactly the bytes of its pages, and a page reader on them delivers these pages. A chunk that the file does not hold in full is an error. (Violated: a file that ends within the chunk gives fewer bytes and no error.)", "quantifier": "every schema, every sequence of row groups, every field name", "why_tests_cant": "All schemas and files.", "anchors": ["src/read/column/mod.rs: read_columns, to_deserializer", "src/write/file.rs: FileWriter"]}
{"id": "C69", "title": "The metadata of columns in a written file are true of their pages", "statement": "For every file the writer finishes, the accessors of the metadata that are read back tell the truth about the pages written: rows, byte sizes and compressed sizes of row groups; number of values, sizes, compression, encodings, position in the file of each column; its null count and bounds are those of its pages; a dictionary page is said to be where it is. (Violated: the offset of the dictionary page is never told and that of the data pages is the one of the dictionary page.)", "quantifier": "every schema, every sequence of row groups, all pages", "why_tests_cant": "All files; a wrong field shows only to a reader that uses it.", "anchors": ["src/metadata/column_chunk_metadata.rs: ColumnChunkMetaData", "src/metadata/row_metadata.rs: RowGroupMetaData", "src/write/column_chunk.rs: build_column_chunk", "src/write/statistics.rs: reduce"]}
{"id": "C70", "title": "Values written are values read", "statement": "Reading a page with the page states of the library, as the client code of the repository does, gives exactly the values and nulls the page holds, for every physical type, plain and dictionary encoded, optional or required, in either version of data pages, whatever runs the writer chose; a file of optional columns whose pages are made of arrays with the encoders of the library gives back exactly these arrays, through writer, compression, metadata, page iterator and decompressor. (Violated: an empty page at the end of a column is never read; int96 columns with statistics make the writer panic.)", "quantifier": "every array of every physical type, every legal stream of levels and indices, every file of such columns, all correct codecs", "why_tests_cant": "Values, nulls, run structures, page boundaries and codecs combine without bound; a round trip test fixes one combination.", "anchors": ["src/deserialize/native.rs: NativePageState", "src/deserialize/binary.rs: BinaryPageState", "src/deserialize/fixed_len.rs: FixedLenBinaryPageState", "src/deserialize/boolean.rs: BooleanPageState", "src/page/mod.rs: split_buffer", "src/write/file.rs: FileWriter", "tests/it/read/mod.rs: page_to_array", "tests/it/write/primitive.rs: array_to_page_v1"]}
{"id": "C71", "title": "Selected rows are the values of these rows", "statement": "Reading selected rows of a column through the page index (select the pages that hold them, read these by their locations, decompress, deserialize with the filtered page states) gives exactly the values and nulls of the selected rows, in order. (Violated: if the definition levels of a page have several runs, rows after the first run are lost; an empty page inside the selection panics in debug builds; pages of byte arrays ignore the selection.)", "quantifier": "every file of numeric optional columns, every sorted list of non-empty intervals within the column, all correct codecs, all contents of buffers", "why_tests_cant": "Intervals fall on page boundaries in unboundedly many ways; the repository tests one interval in one page.", "anchors": ["src/indexes/intervals.rs: select_pages", "src/read/page/indexed_reader.rs: IndexedPageReader", "src/read/compression.rs: BasicDecompressor", "src/deserialize/filtered_rle.rs", "src/deserialize/utils.rs: SliceFilteredIter", "tests/it/write/indexes.rs: read_indexed_page", "tests/it/read/primitive.rs: page_to_vec"]}
{"id": "C72", "title": "Cut delta streams are rejected", "statement": "A stream of one of the delta encodings that ends before its end is an error: it is never read as other values and never aborts; and what is decoded does not depend on the bytes that follow the stream. (Violated: a stream cut in its header is read as fewer or other values, or aborts; cut values of DELTA_LENGTH_BYTE_ARRAY abort.)", "quantifier": "every stream, every position of the cut, every build profile", "why_tests_cant": "Cut positions and streams are unbounded; a test tries a few positions of one stream.", "anchors": ["src/encoding/delta_bitpacked/decoder.rs: Decoder, Block", "src/encoding/delta_length_byte_array/decoder.rs: Decoder", "src/encoding/delta_byte_array/decoder.rs: Decoder"]}
{"id": "C73", "title": "Arbitrary bytes are accepted as delta stream only if they are one", "statement": "Decoding arbitrary bytes as DELTA_BINARY_PACKED returns values only if the bytes begin with a legal stream, and then exactly the values and the length of that stream, as many as announced; otherwise an error; it never aborts and does not depend on the build profile. (Violated: illegal headers, bit widths above 64 and overlong varints abort; sums that overflow abort with overflow checks; a number of miniblocks that does not divide the block size is accepted.)", "quantifier": "all byte strings", "why_tests_cant": "All byte strings; fuzzing samples them.", "anchors": ["src/encoding/delta_bitpacked/decoder.rs: Decoder, Block", "src/encoding/uleb128.rs: decode", "src/encoding/zigzag_leb128.rs: decode"]}
{"id": "C74", "title": "Skipping by statistics loses nothing", "statement": "In every file whose columns are made of arrays with statistics, what the statistics of a page, an entry of the column index or a column chunk say is true of its values: the number of nulls, and the least and the greatest value. So a range of numbers that they exclude has no value there, and searching a column through the page index (compute the rows of the pages that the index does not exclude, select the pages, read, decompress, deserialize) finds all values in the range, in order. (Violated: a NaN makes a wrong maximum, so that values are not found; strings one of which begins another get wrong bounds.)", "quantifier": "every file of flat optional columns, every array, every range, all correct codecs, all contents of buffers", "why_tests_cant": "A wrong bound shows only for the values it excludes; ranges, values and page boundaries are unbounded.", "anchors": ["src/write/statistics.rs: reduce", "src/write/indexes/serialize.rs: serialize_column_index", "src/indexes/index.rs: NativeIndex, ByteIndex", "src/indexes/intervals.rs: compute_rows, select_pages", "src/types.rs: ord, ord_binary", "tests/it/write/primitive.rs: array_to_page_v1", "tests/it/write/binary.rs: array_to_page_v1"]}
{"id": "C75", "title": "Fields of structures", "statement": "Reading a page of a field inside structures that are not repeated gives, row by row, the value if the field and all the structures around it are there and a null if not, for every physical type, plain and dictionary encoded, whatever runs the writer chose for the definition levels; and which of the outermost structures are there is what their levels say. (Violated: of a required field in an optional structure the definition levels are not looked at: nulls are lost, or read as values.)", "quantifier": "every depth of nesting, every page, every legal stream of levels and indices", "why_tests_cant": "Depths, rows and run structures are unbounded; the repository tests fields of structures on a few files.", "anchors": ["src/deserialize/utils.rs: DefLevelsDecoder", "src/deserialize/native.rs: NativePageState", "src/deserialize/binary.rs: BinaryPageState", "src/deserialize/fixed_len.rs: FixedLenBinaryPageState", "src/deserialize/boolean.rs: BooleanPageState", "src/read/levels.rs: get_bit_width", "tests/it/read/utils.rs: deserialize_levels", "tests/it/read/struct_.rs: extend_validity"]}
{"id": "C76", "title": "Lists are read as the lists written", "statement": "A page of optional lists of optional 64-bit integers, read with the level decoders of the library as the nested reader of the repository does, gives exactly its lists: null lists, empty lists, null items and values, in order, whatever runs the writer chose. (Violated by the nested reader: a page that ends with a null or empty list gives an empty list more; indices that are not one bit-packed run as long as the levels are misread or rejected.)", "quantifier": "every list of such lists, every legal stream of repetition and definition levels", "why_tests_cant": "Lists and run structures are unbounded; the repository reads a few pages.", "anchors": ["src/encoding/hybrid_rle/mod.rs: HybridRleDecoder", "src/page/mod.rs: split_buffer", "src/read/levels.rs: get_bit_width", "src/encoding/bitpacked/decode.rs: Decoder", "tests/it/read/primitive_nested.rs: compose_array, read_array_impl, read_dict_array"]}
{"id": "C77", "title": "Levels are read in the encoding that the page declares", "statement": "A data page is read according to the encodings of levels that its header declares, or refused. (Violated: the declared encodings of levels are never looked at; a page with the BIT_PACKED levels of old writers is read as other values without an error.)", "quantifier": "every page of either version, every declared encoding", "why_tests_cant": "Old files are rare in test suites; that something is ignored is a statement about all pages.", "anchors": ["src/page/mod.rs: split_buffer_v1, DataPage::definition_level_encoding", "src/deserialize/utils.rs: DefLevelsDecoder::try_new", "src/read/page/reader.rs: finish_page"]}
{"id": "C78", "title": "Bloom filter of a column's values", "statement": "A bloom filter built from the encoded values of a column never denies a value of the column, whether asked by its bytes or as a number of any native type, also when read from a file; different numbers of one width have different hashes; the filters that Spark wrote for given values are the filters of this library for these values; a float equal to an inserted one is found. (Violated: a filter of 0.0 denies -0.0, which equals it.)", "quantifier": "all columns of all values, all filters of 1 to 2^32 blocks, every position in a file", "why_tests_cant": "The hash is a function on all byte strings; tests hash a dozen.", "anchors": ["src/bloom_filter/hash.rs: hash_native, hash_byte", "src/bloom_filter/split_block.rs: is_in_set, insert", "src/bloom_filter/read.rs: read"]}
{"id": "C79", "title": "Iterators yield as many items as they announce", "statement": "The size hint of every iterator of the library is, at every point of the iteration, the number of items to come. (Violated: the iterator of booleans over hybrid RLE runs announces zero from the first item on; the iterator of strings announces the number in the page header, whatever follows.)", "quantifier": "all decoders, all states, all bytes, all selections of rows", "why_tests_cant": "Hints are relied on by collect and by unsafe callers; every state of every iterator would have to be tried.", "anchors": ["src/encoding/hybrid_rle/mod.rs: HybridRleDecoder", "src/encoding/hybrid_rle/bitmap.rs: BitmapIter", "src/encoding/bitpacked/decode.rs: Decoder", "src/encoding/delta_bitpacked/decoder.rs: Decoder", "src/encoding/plain_byte_array.rs: BinaryIter", "src/deserialize/hybrid_rle.rs: HybridRleIter, HybridRleBooleanIter", "src/deserialize/utils.rs: OptionalValues, SliceFilteredIter"]}
{"id": "C80", "title": "Arbitrary pages are decoded or refused", "statement": "Opening a data page, whatever its header and its bytes, for any physical type and with or without a dictionary, succeeds or returns an error; and so does iterating it. (Violated; the pages that abort the process are exactly: those of an unknown encoding code, with V2 levels longer than the page, with a malformed first run of nested levels or of dictionary indices, with indices without a width, and with fixed-length values of length 0. Iterating aborts only at a malformed run header.)", "quantifier": "all pages of both versions, all columns, all bytes", "why_tests_cant": "All byte strings and headers; fuzzing samples them and cannot show that the list of aborts is complete.", "anchors": ["src/deserialize/native.rs: NativePageState::try_new", "src/deserialize/binary.rs: BinaryPageState::try_new", "src/deserialize/fixed_len.rs: FixedLenBinaryPageState::try_new", "src/deserialize/boolean.rs: BooleanPageState::try_new", "src/deserialize/utils.rs: DefLevelsDecoder::try_new, dict_indices_decoder", "src/page/mod.rs: split_buffer", "src/encoding/hybrid_rle/decoder.rs: Decoder"]}
{"id": "C81", "title": "Metadata of column chunks survive serde", "statement": "With the serde feature, metadata of column chunks serialised in any data format that keeps byte strings and deserialised again are the same metadata. (Violated: serialising fails for every column chunk, since the thrift bytes are written to a cursor over a slice of length zero.)", "quantifier": "all metadata of column chunks, all data formats, all ways in which the protocol cuts its writes", "why_tests_cant": "That every value fails to serialise, in every format, is a statement about all of them; the repository has no test of it.", "anchors": ["src/metadata/column_chunk_metadata.rs: serde_types::serialize_column_chunk, serde_types::deserialize_column_chunk"]}
{"id": "C82", "title": "Pages do not depend on how the reader delivers bytes", "statement": "The pages of a column (by the page reader, by the asynchronous stream, and by the reader of indexed pages), the page indexes, the page locations and the bloom filter are functions of the bytes of the file alone: whatever pieces the reader delivers, wherever it stood before, and however the thrift protocol asks for bytes. If a call of the reader fails, what was delivered before is the same, and then comes an error.", "quantifier": "all readers that obey the contract of Read, BufRead and Seek, all files, all columns, all page filters, all limits, all ways in which the protocol asks for bytes", "why_tests_cant": "Sizes of pieces and points of failure are unbounded; tests read from cursors, which deliver everything at once and do not fail.", "anchors": ["src/read/page/reader.rs: PageReader, get_page_iterator, build_page", "src/read/page/stream.rs: _get_page_stream, get_page_stream_with_page_meta", "src/read/page/indexed_reader.rs: IndexedPageReader", "src/read/indexes/read.rs: read_columns_indexes, read_pages_locations", "src/bloom_filter/read.rs: read"]}
{"id": "C83", "title": "Files of any bytes are read or refused", "statement": "Whatever bytes a file has, nothing done with them up to its decompressed pages aborts the process: the metadata is read or refused; if it is read, every getter of every column returns, its statistics are read or refused, the columns of a field are found and a page reader can be made; in whatever state, the page reader, the stream and the decompressor deliver a page, an error or the end. (Violated in builds with overflow checks.)", "quantifier": "all byte strings, all columns, all page filters, limits and buffers, any number of calls, all decompressors that do not abort themselves", "why_tests_cant": "All byte strings and all sequences of calls; fuzzing samples both and finds no proof that nothing is left.", "anchors": ["src/read/metadata.rs: read_metadata", "src/metadata/column_chunk_metadata.rs: ColumnChunkMetaData", "src/metadata/row_metadata.rs: RowGroupMetaData::compressed_size", "src/read/mod.rs: get_page_iterator, get_field_columns", "src/read/column/mod.rs: get_column_iterator, read_columns", "src/read/page/reader.rs: PageReader", "src/read/page/stream.rs", "src/read/compression.rs: Decompressor, decompress"]}
{"id": "C84", "title": "Page indexes of any bytes are read or refused", "statement": "Whatever bytes a file has and wherever its metadata says the indexes are: the column indexes and the page locations are read or refused; the rows of the pages and the pages for selected rows are computed from whatever locations or refused; the reader of pages at locations delivers a page, an error or the end. (Violated: an index beyond the end of the file and a boolean index with an empty bound abort the reader; with overflow checks, also a first location before the column.)", "quantifier": "all byte strings, all columns, all locations, all selections of rows, any number of calls", "why_tests_cant": "All byte strings, offsets and lengths; tests read indexes written by the library or by one other writer.", "anchors": ["src/read/indexes/read.rs: read_columns_indexes, read_pages_locations", "src/read/indexes/deserialize.rs: deserialize", "src/indexes/index.rs: BooleanIndex::try_new", "src/indexes/intervals.rs: compute_page_row_intervals, compute_rows, select_pages", "src/read/page/indexed_reader.rs: IndexedPageReader"]}
{"id": "C85", "title": "Equality of statistics and of page indexes", "statement": "Comparing two statistics, or two page indexes, returns; it is true exactly when both are of the same kind and all their fields are the same, floats being compared as numbers. It is symmetric and transitive, and, as Eq promises for page indexes, reflexive; statistics written and read again are equal to those written. (Violated: a NaN bound makes statistics and indexes differ from themselves, and fixed-length statistics that carry the type of another physical type abort the comparison.)", "quantifier": "all statistics and page indexes of all physical types, all pairs and triples of them, all float patterns", "why_tests_cant": "All pairs of values of eight kinds with floats among them; that nothing but NaN breaks reflexivity is a statement about all bit patterns.", "anchors": ["src/statistics/mod.rs: impl PartialEq for &dyn Statistics", "src/indexes/index.rs: impl PartialEq for dyn Index, impl Eq for dyn Index, equal", "src/statistics/primitive.rs: PrimitiveStatistics", "src/indexes/index.rs: PageIndex, NativeIndex"]}
{"id": "C86", "title": "Reader of ranges of a remote object", "statement": "The reader of the S3 example reads the object: whatever range function delivers the right bytes (after any number of polls that are pending), any sequence of polls and seeks - reads that are given up included - delivers at each position exactly the bytes of the object; what is held is not requested again; the metadata and the column chunks read through it are those of the object's bytes; reads at the end deliver what is left. (Violated: a read that ends beyond the object recurs forever with ever more requests, a poll after a failure aborts, and seeks before the start are accepted.)", "quantifier": "all objects below 2^63 bytes, all minimal request sizes, all honest range functions, all sequences of polls, buffers and seeks", "why_tests_cant": "Interleavings of polls, seeks and abandoned reads with pending futures are unbounded; the example has no tests.", "anchors": ["examples/s3/src/stream.rs: RangedStreamer, range_includes, poll_read, poll_seek", "src/read/stream.rs: read_metadata"]}
{"id": "C87", "title": "Whether a schema is part of another", "statement": "`check_contains` of a schema answers whether another schema is part of it: every node of the other, named by the names on the way from the root, is there, as a group if it is a group and with the same name, repetition, id and physical type if it is a column; so the columns of the other are columns of this one with the same levels and types. A schema is part of itself, a part of a part is a part, and every choice of columns is a part.", "quantifier": "every two schemas, of any depth and width, with any names", "why_tests_cant": "Tests compare a few flat schemas; the answer depends on recursion through groups of any depth, on fields of the same name and on what is not compared.", "anchors": ["src/schema/types/parquet_type.rs:75-112"]}
{"id": "C88", "title": "Sidecar of several files", "statement": "The metadata of several files of the same schema, each column chunk with the path of its file, merged and written to a file of its own, are read back: the schema, the rows of all files, and the row groups of all files in order, each column chunk with the path of its file; reading its pages from that file with what the sidecar tells delivers the pages written.", "quantifier": "every number of files, with any row groups, columns, pages, options, key-values and paths", "why_tests_cant": "The example writes files without row groups and never reads the sidecar; what is lost depends on how many files and rows there are.", "anchors": ["examples/write_sidecar.rs:18-62", "src/write/file.rs:61-75", "src/read/metadata.rs:35-105", "src/read/mod.rs:48-66"]}
{"id": "C89", "title": "How writing ends", "statement": "Every call of a writer returns: `write` (of a page, a column chunk, a row group) and `end` are done or refused with an error, never abort the program, which of them can be told from the pages alone; a row group that is refused is not part of the file; and a file all of whose row groups were accepted can be ended.", "quantifier": "for all pages, columns, row groups, options, offsets and sequences of calls, some of them refused", "why_tests_cant": "The conditions are combinations over several pages, columns and row groups (mixed codecs, types of statistics, overflow of sums, a page without rows in some column); tests write well-formed files.", "anchors": ["src/write/page.rs:46-95", "src/write/column_chunk.rs:28-214", "src/write/row_group.rs:59-141", "src/write/indexes/serialize.rs:15-97", "src/write/statistics.rs:17-60", "src/write/file.rs:137-232", "src/write/stream.rs:95-188"]}
{"id": "C90", "title": "Limits, filters and buffers only leave pages out", "statement": "Whatever the bytes: a page reader (or stream) with a lower limit of allocations delivers the same pages as one with a higher limit, or the same up to an error; a page reader with a filter delivers what the one without delivers, in the same order, minus the pages that do not pass, and is left at the same place; the content of the buffer passed to it does not matter.", "quantifier": "all byte strings, columns, filters, limits and buffers, any number of calls", "why_tests_cant": "Relates two runs on arbitrary, also malformed, bytes; tests run one reader on well-formed files.", "anchors": ["src/read/page/reader.rs:140-223", "src/read/page/stream.rs:60-127"]}
{"id": "C91", "title": "A column is read from its own bytes", "statement": "What is read of a column depends only on the bytes of the column: what is read into memory on its range, the pages the indexed reader delivers on the ranges of the selected locations, and the pages the page reader delivers on the bytes before its end; a file with the same bytes there, and anything elsewhere, gives the same pages.", "quantifier": "all files, pairs of files that agree on the range, columns, locations, filters and limits", "why_tests_cant": "Quantifies over all the other bytes of a file; tests compare nothing of the kind.", "anchors": ["src/read/page/reader.rs:140-223", "src/read/page/indexed_reader.rs:46-208", "src/read/column/mod.rs:190-201", "src/read/mod.rs:48-66"]}
{"id": "C92", "title": "Sizes of encoded values", "statement": "How many bytes the encoders write is known from the values: varints and zig-zag varints are the shortest possible; booleans take a bit each, indices and levels of n bits n bits each, rounded up to bytes, after the shortest header; a delta stream takes, for every 128 deltas, as many bits each as the greatest distance to the smallest delta has, and no legal stream of the same blocks is shorter by more than nine bytes a block; strings take their bytes (with shared prefixes: what they do not share with the string before) and the delta streams of the lengths.", "quantifier": "all values, lists of any length and widths", "why_tests_cant": "Compares the output with every other legal encoding of the same values; tests compare with single expected byte strings.", "anchors": ["src/encoding/uleb128.rs", "src/encoding/zigzag_leb128.rs", "src/encoding/hybrid_rle/encoder.rs:9-93", "src/encoding/delta_bitpacked/encoder.rs:8-76", "src/encoding/delta_length_byte_array/encoder.rs", "src/encoding/delta_byte_array/encoder.rs"]}
{"id": "C93", "title": "What the kind of an error tells", "statement": "Every error is of the kind that its cause is documented with: what is not a valid file - the footer, thrift structures, schemas, statistics, page indexes, bloom filters, encoded values - is out of specification and nothing else; over-allocation is reported only by readers of pages, and only if a limit below 2^31 - 1 was set; a feature is reported as not active exactly if the codec needs it and it is not, as unsupported only for LZO (and the old LZ4 when compressing) and for encodings without support; and an invalid parameter only where one was passed when encoding: a writer started or ended twice. Writing reports the errors of the pages it was handed, or out of specification.", "quantifier": "all files, schemas, messages, pages, codecs whose own errors are out of specification, limits, and all sequences of pages handed to the writer", "why_tests_cant": "Which kinds can not be returned is a statement about all inputs of all functions; tests look at the error of one input.", "anchors": ["src/error.rs: Error", "src/read/metadata.rs: read_metadata", "src/read/page/reader.rs: build_page", "src/read/page/stream.rs: _get_page_stream", "src/read/page/indexed_reader.rs: IndexedPageReader", "src/compression.rs: compress, decompress", "src/deserialize: NativePageState, BinaryPageState, FixedLenBinaryPageState, BooleanPageState", "src/write/file.rs: FileWriter", "src/schema/io_message/from_message.rs: from_message"]}
{"id": "C94", "title": "A field is read by its name", "statement": "Of every file written from arrays, each field of each row group can be read by its name: its columns are found, in the order of the schema and no others, and their pages are read and decompressed into exactly the arrays written; for a structure also which items are there; with them come the statistics that the pages of the last column were written with. A name that the schema does not have is refused with an error. (Violated by the client of the repository: of a primitive field with several pages only the last page is returned.)", "quantifier": "all schemas of flat optional columns, all fields and row groups, any number of pages, all correct codecs, whatever the buffers hold", "why_tests_cant": "Tests read a few columns of a few files; that the columns of a field are found and that no state of one column leaks into the next is a statement about all schemas and any number of columns and pages.", "anchors": ["src/read/metadata.rs: read_metadata", "src/read/mod.rs: get_field_columns, get_page_iterator", "src/read/column/mod.rs: get_column_iterator, ColumnIterator", "src/read/compression.rs: BasicDecompressor", "src/metadata/column_chunk_metadata.rs: statistics", "tests/it/read/mod.rs: columns_to_array, read_column", "tests/it/read/struct_.rs: extend_validity"]}
{"id": "C95", "title": "Padding is zero", "statement": "Where the values that an encoder is handed do not end with a byte or a block, the bits written beyond the last value are zero, so that the bytes written depend only on the values and their number and do not repeat values: booleans and definition levels, indices and levels of any width (`hybrid_rle::encode`), the last block of a delta stream. (Violated: beyond more than 32 values of `encode_u32` and in the last of several blocks of a delta stream, earlier values are repeated.)", "quantifier": "all lists of booleans, of `u32` of any width and of `i64`, of any length", "why_tests_cant": "Every reader skips the padding, so that no round trip sees it; the tests compare with expected bytes only for fewer values than fill a block.", "anchors": ["src/encoding/hybrid_rle/encoder.rs:33-93", "src/encoding/hybrid_rle/bitmap.rs:70-102", "src/encoding/delta_bitpacked/encoder.rs:35-76"]}
{"id": "C96", "title": "Row groups and column chunks can be moved", "statement": "Where a row group or a column chunk is written does not matter: its pages, its metadata, its indexes and whether and how it is refused are the same at every offset and for every number of row groups before it, except for the offsets, which move along (and the bytes they take in the metadata that follows each chunk). A column chunk of a written file that is copied to any place of any file is read there with the same pages, given its metadata with the new offset.", "quantifier": "all schemas, pages, row groups, offsets, writers of the same schema, files and places, filters, limits and buffers", "why_tests_cant": "Compares runs at any two offsets; tests write every file once, from its start.", "anchors": ["src/write/page.rs:46-95", "src/write/column_chunk.rs:28-214", "src/write/row_group.rs:59-141", "src/write/indexes/serialize.rs:12-82", "src/write/file.rs:140-160", "src/read/mod.rs:48-66", "src/read/column/mod.rs:190-201", "src/metadata/column_chunk_metadata.rs:169-178"]}
{"id": "C97", "title": "Overflow checks only turn results into aborts", "statement": "A build with overflow checks (debug) and one without (release) compute the same wherever the former does not abort: the files written, byte for byte, and the results and errors of writing; the pages, errors and the place in the bytes of every reader of pages, of any bytes; compressed and decompressed pages; schemas, metadata, page indexes and selected pages; what the delta encoders write and what the delta and hybrid decoders read from any bytes; merged statistics and bloom filters. The same holds when the bytes go to a writer, or come from a reader, that delivers pieces and fails at any call, or from ranges of a remote object.", "quantifier": "all inputs of these functions, also malformed ones, any number of calls", "why_tests_cant": "Tests run in one of the two profiles; a statement about both, for all inputs, relates two programs.", "anchors": ["src/write/file.rs:140-232", "src/write/stream.rs:95-188", "src/write/statistics.rs:17-172", "src/read/page/reader.rs:143-223", "src/read/page/stream.rs:75-129", "src/read/page/indexed_reader.rs:152-208", "src/read/compression.rs:15-282", "src/write/compression.rs:11-156", "src/metadata/schema_descriptor.rs:85-144", "src/indexes/intervals.rs:98-138", "src/read/indexes/read.rs:82-132", "src/encoding/delta_bitpacked", "src/encoding/delta_length_byte_array", "src/encoding/delta_byte_array", "src/encoding/hybrid_rle/decoder.rs:30-64", "src/deserialize/filtered_rle.rs:82-273", "src/bloom_filter/split_block.rs:8-82", "examples/s3/src/stream.rs:49-117"]}
{"id": "C98", "title": "What was read can be written again", "statement": "Whatever bytes a decoder accepts, of whatever writer: the values it gives are accepted by the encoder of the same encoding, and read back from what it writes as the same - varints (in no more bytes than before) and zig-zag varints, delta streams of any blocks, strings with delta lengths, strings with shared prefixes, hybrid streams; PLAIN strings are written as the same bytes. (Violated: strings one of which begins the one before are read and the encoder aborts on them; repeated values wider than their bit width are read as they are and lost when written.)", "quantifier": "all byte strings that the decoders accept, all widths and numbers of values", "why_tests_cant": "Starts from every byte string that decodes, not from values: streams of other writers, padded varints, other sizes of blocks, trailing bytes; tests start from values.", "anchors": ["src/encoding/uleb128.rs", "src/encoding/zigzag_leb128.rs", "src/encoding/delta_bitpacked", "src/encoding/delta_length_byte_array", "src/encoding/delta_byte_array", "src/encoding/hybrid_rle", "src/encoding/plain_byte_array.rs"]}
{"id": "C99", "title": "A file copied page by page is the same file", "statement": "A program that reads the metadata of a file and all of its pages, compressed as they are, and hands them to a writer with the schema, version, creator and key-values that it read, writes the same file, byte for byte. (Violated for pages from the sequential reader and the stream: they do not tell their number of rows, and the writer refuses any row group of them; with the number given back, or with the indexed reader, the copy is the same file.)", "quantifier": "all schemas, row groups, columns and pages accepted by the writer, with and without dictionaries and page indexes, both writers", "why_tests_cant": "Composes readers and writer over all files; the tests read files or write files, and compare the bytes of no copy.", "anchors": ["src/read/metadata.rs: read_metadata", "src/read/indexes/read.rs: read_pages_locations", "src/indexes/intervals.rs: select_pages", "src/read/page/indexed_reader.rs: IndexedPageReader", "src/read/page/reader.rs: PageReader", "src/page/mod.rs: CompressedDataPage::select_rows", "src/write/page.rs: write_page", "src/write/row_group.rs: compute_num_rows", "src/write/file.rs: FileWriter"]}
