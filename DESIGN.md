# Formal model of parquet2 — design

`properties.jsonl` lists the properties (C01 …), `MANIFEST.json` the theorems that settle them, and
`lean/` is the Lean 4 project. This file says how the model is laid out, what is trusted, what each
property rests on, which parts of the code are modelled, and which defects of the code turned up.

## Layout

| directory | content |
|---|---|
| `lean/Verif/Model/` | the model: one definition per Rust function or type, with the file and lines it models |
| `lean/Verif/Spec/` | small specifications used in the statements, independent of the model's helpers |
| `lean/Verif/Lemmas/` | helper lemmas |
| `lean/Verif/Props/` | the property theorems `Cxx_…`, each with an `example` of a case that meets its hypotheses |
| `lean/Verif/Tests/` | the tests of the repository, run on the model in the kernel (conformance of the model, no properties) |
| `seeded/LOG.jsonl` | seeded bugs: the edit of the model, the claim it breaks, the theorems that failed, what was tightened |

A theorem whose name ends in `_partial` proves the part of its property that holds of the code or that
could be proved; its comment repeats the whole claim and says what is missing. A theorem
`Cxx_violated` (and a few with more telling names) proves with a concrete witness that the code does
not have the property in full.

## Seeded bugs

Every line of `seeded/LOG.jsonl` is one edit of one definition of the model, made in a copy of the
project outside `/verif` and built there. How to read it:

* `theorems_failed` is what the build reported. In the later batches the build was stopped a few seconds
  after the first theorem that failed, so the list is then a lower bound: more may fail.
* `property_theorems_resting_on_them` was not observed but computed, from the dependencies of the
  theorems as they are now: theorems that use one that failed. It may name theorems younger than the
  attempt.
* Most edits were written by a script (a bound made strict, a constant off by one, a branch swapped, …)
  and their `claim` is computed from these dependencies; the claim of an edit written by hand was written
  with it.
* Attempts noted as not compiling broke the model itself and say nothing of the theorems.
* An edit that survived has either theorems that were tightened because of it or a reason why it changes
  nothing that can be observed.
* Entries written before the last theorems were added were not run again against these.

## Conventions of the model

* Bytes are `BitVec 8`; `u32`, `u64`, `i32`, `i64` are `BitVec` wherever wrap-around, shifts, casts or
  signs matter. `usize` and file offsets are `Nat`, below `2^64` where the code could overflow them (the
  overflow is then modelled: `uadd`, `usub`, `umul`, `asUsize`, …).
* `ck : Bool` says whether the build has overflow checks (debug) or wraps (release). Theorems hold for
  both unless they say otherwise.
* A Rust `Result` is `Res.ok` or `Res.err`; **a panic is the explicit third outcome `Res.panic`**: slice
  out of range, `unwrap` of `None`, `assert!`, `unreachable!`, `todo!`, division by zero, checked
  overflow. Nothing is totalised silently. Error messages are dropped, error kinds are kept.
* `&mut` arguments are returned. Iterators are state structures with a `next` function, user iterators
  are lists of results. Writers and readers are byte lists; functions that write return the bytes
  written together with the result, also on failure.
* Loops are structural recursion. Where the Rust code recurses or loops without a visible measure the
  model takes a number of steps, and a theorem shows that it always suffices (`C52_terminates`,
  `PageReader.next`, the filtered decoders).
* Statements about the file format go through a thrift codec given as parameter (`Codec`), with the law
  that it reads back what it writes as explicit hypothesis (`LawfulCodec`). The compact
  protocol is implemented in `Model/ThriftCompact.lean` and proved lawful, so the hypothesis is met.

## Trusted base

* The kernel of Lean 4.33.0. No `sorry`, `admit`, `native_decide`, `bv_decide`, no axioms of our own. The
  axioms used are `propext`, `Classical.choice` and `Quot.sound`; the table at the end gives them per
  theorem (from `#print axioms`).
* That the definitions in `Model/` say what the Rust text says. The code was read, not run. As a check on the
  reading, `Tests/` evaluates the model in the kernel on the inputs of the repository's own tests and compares
  with what they assert: all unit tests of `src/encoding`, `read/levels.rs`, `schema/io_message`,
  `schema/io_thrift`, `schema/types/converted_type.rs`, `parquet_bridge.rs`, `indexes`, `write/page.rs`,
  `write/statistics.rs` and `tests/it/read/deserialize.rs` (`Tests/Encoding`, `Tests/Units`; those of the bloom
  filter are in `C78_other_writers`), and the file that Spark wrote of `tests/it/read/indexes.rs`
  (`Tests/SparkFile`), of which the model reads the metadata, the page indexes and the page locations that the test
  expects, the bloom filters, and through a decoder of snappy the very columns that Spark was told to write. Columns
  of the file `parquet-tools/data/sample.parquet`, which pyarrow wrote, are read to the values that an independent
  decoder finds (`Tests/SampleFile`). The files that `tests/it/write/{mod,indexes,sidecar}.rs` write have the sizes
  and page locations that these tests expect, one of them validated against pyarrow (`Tests/WriteFiles`). No
  disagreement of model and code was found. Tests that need files of the absent submodule
  `testing/parquet-testing` or the compression crates are not run.
* External code appears as parameters, never as axioms:

| external code | in the model | law assumed, as a hypothesis of the theorems that need it |
|---|---|---|
| compression crates | `Codecs`: functions on bytes | decompressing what was compressed gives it back (`Codecs.Lawful`, `Spec/Codec`) |
| thrift crate `parquet-format-safe` | `Codec` | reading back what was written; met by the model of the compact protocol (`Lemmas/ThriftCompact`) |
| crate `streaming-decompression` | the recycling of its buffers, after its documentation | – |
| xxHash64 (crate `xxhash-rust`) | defined after the published algorithm (`Model/Hash`), compared with filters written by Spark (`C78_other_writers`); the theorems on the filter itself range over all 64-bit hashes | – |
| Unicode case mapping of `str` | `CaseMaps` | acts letter by letter on ASCII text (`LawfulCase`) |
| IEEE comparison of floats | defined on bit patterns through the exact scaled integer value | – (proved to be a total order off NaN) |
| `f64::log10` in the decimal precision check | exact integer bound (`maxPrecision`), infinite above 128 bytes | – (simplification, said at the definition) |
| HashSet of encodings | its elements, sorted, as the code sorts them | – |

* The sink of a writer may fail anywhere (`Model/Sink`, law `LawfulSink`), and so may the reader of metadata and
  column chunks, which also delivers pieces of any size (`Model/Source`, law `LawfulSource`), and the readers of
  pages, indexes and bloom filters (`Model/PageSource`, laws `LawfulInput` and `LawfulProtocol`). Properties other than C82 state
  the latter on the bytes of the file, which C82 shows to be no restriction. Not modelled: allocation failure (`try_reserve`,
  except for lengths above `isize::MAX`), stack depth (recursion of schemas, messages and filtered pages),
  time and memory use, the scheduling of asynchronous code other than `read_columns_async`. Asynchronous twins run the statements of the synchronous functions with `await`;
  they are modelled separately where the text differs (`read/page/stream.rs`, `write/stream.rs`).

## Which code is modelled

| source | model |
|---|---|
| `encoding/uleb128.rs`, `encoding/zigzag_leb128.rs` | `Model/Leb128` |
| `encoding/bitpacked/*` | `Model/Bitpacked` |
| `encoding/hybrid_rle/*` | `Model/HybridRle`, `Model/Bitmap`; with overflow checks `Model/HybridRleChecked` |
| `size_hint` of all iterators | `Model/SizeHint` |
| `encoding/delta_bitpacked/*` | `Model/Delta` |
| `encoding/delta_length_byte_array/*`, `encoding/delta_byte_array/*`, `encoding/plain_byte_array.rs` | `Model/DeltaBytes` |
| `encoding/mod.rs` (`get_length`, `ceil8`) | `Model/Base` |
| `types.rs`, `read/levels.rs` | `Model/Types` |
| `parquet_bridge.rs`, `schema/types/{physical_type,converted_type}.rs` | `Model/Bridge` |
| `schema/types/{basic_type,parquet_type,spec}.rs`, `schema/io_thrift/*`, `metadata/{column_descriptor,schema_descriptor}.rs` | `Model/Schema`; levels with overflow checks `Model/SchemaChecked` |
| `schema/io_message/from_message.rs` | `Model/Message` |
| `statistics/*`, `write/statistics.rs` | `Model/Statistics`, `Model/Equality` (`PartialEq`) |
| `page/mod.rs` | `Model/Page` |
| `compression.rs`, `read/compression.rs`, `write/compression.rs` | `Model/Compression`, `Model/BasicDecompressor`, `Model/IntoInner` (the buffer handling of the crate `streaming-decompression` is left open: theorems hold for all buffers) |
| `deserialize/*` | `Model/Deserialize` |
| `bloom_filter/{split_block,read}.rs` | `Model/Bloom` |
| `bloom_filter/hash.rs` | `Model/Hash` |
| `indexes/intervals.rs` | `Model/Intervals` |
| `indexes/index.rs`, `read/indexes/*` | `Model/Indexes`, `Model/Equality` (`equal`) |
| `write/page.rs`, `read/page/*` | `Model/PageIO` |
| `write/{column_chunk,row_group,file,stream}.rs`, `write/indexes/*` | `Model/Writer` |
| the same functions, writing to a sink that may fail | `Model/Sink` |
| `metadata/{column_chunk_metadata,row_metadata,file_metadata,column_order,sort}.rs`, `read/{metadata,stream,mod}.rs`, `read/column/mod.rs` | `Model/FileMetadata` |
| `read/column/stream.rs`, and `read/{metadata,column/mod}.rs` on readers that deliver pieces and may fail | `Model/Source` |
| `read/page/*`, `read/indexes/read.rs`, `bloom_filter/read.rs` on such readers | `Model/PageSource` |
| `metadata/column_chunk_metadata.rs`, module `serde_types` (feature `serde_types`) | `Model/Serde` (derived serde implementations and data formats are external) |
| `tests/it/main.rs`, `tests/it/read/{mod,primitive,binary,fixed_binary,boolean,utils}.rs`, `tests/it/read/dictionary/*`, `tests/it/write/{primitive,binary,mod}.rs` (flat columns; the client code that C70 is stated with) | `Model/Client` |
| `tests/it/read/{struct_,primitive_nested}.rs` (nested columns) | `Model/ClientNested` |
| `tests/it/read/mod.rs`: `columns_to_array`, `read_column` (fields by name) | `Model/ClientRead` |
| `examples/s3/src/stream.rs` | `Model/RangedStreamer` |
| `examples/write_sidecar.rs` | `Model/Sidecar` |
| crate `parquet-format-safe` | `Model/Format` (structures), `Model/ThriftCompact` (compact protocol) |

Not modelled: `write/dyn_iter.rs` (boxing), the `From` conversions of errors in
`error.rs` beyond the kind they give, `Debug` implementations, the derived serde implementations,
other tests and examples.

## Properties

33 proved, 66 partial (almost all of them because the code violates part of the claim, which is then proved as well).

### C01 — ULEB128 round trip (proved)

Encoding an unsigned 64-bit integer as ULEB128 and decoding the result, with arbitrary bytes following it, returns the same integer and reports exactly the number of bytes written; the encoding is never longer than 10 bytes.

* Modelled: `Model/Leb128` (src/encoding/uleb128.rs: encode, decode).
* Proof: Induction on the 7-bit groups of the number, with the invariant that `result` holds the groups read and `shift` is seven times their number.
* Theorems: `C01_uleb128_roundtrip`, `C01_uleb128_container`.

### C02 — ULEB128 decoding of arbitrary bytes (partial)

Decoding ULEB128 from an arbitrary (possibly corrupt) buffer never consumes more than the buffer or 10 bytes, and fails only when a tenth byte carries more than one payload bit; a truncated varint is reported as an error rather than decoded as a shorter number. (The last clause is violated by the code.)

* Modelled: `Model/Leb128` (src/encoding/uleb128.rs: decode).
* Proof: Loop invariant over arbitrary bytes against the positional value of the groups (`Spec/Leb128`); witness for the truncated varint.
* What is missing: Everything but the clause on truncated varints, which the code violates (C02_truncated_accepted): a truncated varint is decoded as a shorter number.
* Theorems: `C02_uleb128_decode_partial`, `C02_truncated_accepted`.

### C03 — Zig-zag round trip (proved)

Zig-zag LEB128 encoding followed by decoding is the identity on signed 64-bit integers, also at i64::MIN/MAX, and consumes exactly the bytes written.

* Modelled: `Model/Leb128` (src/encoding/zigzag_leb128.rs: encode, decode).
* Proof: Bit-vector algebra of the zigzag map, then C01.
* Theorems: `C03_zigzag_roundtrip`.

### C04 — Bit-packing one block round trip (proved)

Packing a full block of integers with n bits each and unpacking it with the same n returns the same integers whenever every integer fits in n bits, for each of the four supported integer widths and every n up to the width.

* Modelled: `Model/Bitpacked`, generic in the width of the words (src/encoding/bitpacked/pack.rs: pack8..pack64, src/encoding/bitpacked/unpack.rs: unpack8..unpack64).
* Proof: Every bit of the packed block is computed from the loop (bit `j` of value `i` is bit `i*n+j` of the stream, `Spec/Bits`), and `unpack` reads the same bits.
* Theorems: `C04_block_roundtrip`, `C04_short_block`.

### C05 — Bit-packed slice round trip (proved)

Bit-packing any slice of integers that fit in n bits (any length, not necessarily a multiple of the block) and decoding the produced bytes yields exactly the slice, in order.

* Modelled: `Model/Bitpacked` (src/encoding/bitpacked/encode.rs: encode, encode_pack, src/encoding/bitpacked/decode.rs: Decoder).
* Proof: Induction over the chunks of the slice, C04 on each.
* Theorems: `C05_slice_roundtrip`.

### C06 — Bit-packed decoder reads the parquet bit layout (proved)

For any packed buffer accepted by the decoder, the decoder yields exactly `length` values and the k-th value is the little-endian number formed by bits k*n .. (k+1)*n of the buffer; no input makes it panic once construction succeeded and n does not exceed the type width.

* Modelled: `Model/Bitpacked` (src/encoding/bitpacked/decode.rs: Decoder::try_new, Decoder::next, decode_pack).
* Proof: Bit-level description of `unpack` on zero-padded chunks; counts by induction over chunks.
* Theorems: `C06_decode_layout`, `C06_exact_remaining`, `C06_width_too_large_panics`.

### C07 — Over-wide values do not corrupt neighbours when bit-packing (partial)

The documentation of the bit-packer says values that do not fit are saturated/truncated; hence a value that does not fit in n bits must not change how its neighbours decode. (Violated by the code.)

* Modelled: `Model/Bitpacked` (src/encoding/bitpacked/pack.rs: pack_impl, src/encoding/bitpacked/encode.rs: encode).
* Proof: Witness with a straddling field; the in-word case by the bit description of `pack`.
* What is missing: Violated by the code when the field of an over-wide value straddles a word (C07_violated); proved for fields inside one word.
* Theorems: `C07_violated`, `C07_truncation_partial`.

### C08 — Hybrid RLE u32 round trip (proved)

Encoding any list of u32 values that fit in n bits with the hybrid RLE encoder and decoding with the hybrid RLE decoder for that many values returns the list.

* Modelled: `Model/HybridRle`, `Model/Bitpacked` (src/encoding/hybrid_rle/encoder.rs: encode_u32, bitpacked_encode_u32, src/encoding/hybrid_rle/mod.rs: HybridRleDecoder, src/encoding/hybrid_rle/decoder.rs: Decoder).
* Proof: The encoder emits one bit-packed run; its bytes are decoded by C05/C06.
* Theorems: `C08_hybrid_u32_roundtrip`, `C08_width`.

### C09 — Hybrid RLE boolean (definition level) round trip (proved)

Encoding any list of booleans with the hybrid RLE encoder and decoding the result with width 1 returns the list, both through the value decoder and through the validity bitmap iterator.

* Modelled: `Model/HybridRle`, `Model/Bitmap`, `Model/Deserialize` (src/encoding/hybrid_rle/encoder.rs: encode_bool, src/encoding/hybrid_rle/bitmap.rs: encode_bool, BitmapIter, src/deserialize/hybrid_rle.rs: HybridRleIter).
* Proof: As C08 with width 1, through the bitmap lemmas of C12.
* Theorems: `C09_hybrid_bool_roundtrip`.

### C10 — Hybrid RLE decoder produces the promised number of values (proved)

A hybrid RLE decoder constructed for N values yields exactly N items for any bytes (or terminates with an explicit error/panic), never more and never fewer, and the reported remaining length is exact at every step.

* Modelled: `Model/HybridRle`, `Model/HybridRleChecked` (src/encoding/hybrid_rle/mod.rs: HybridRleDecoder::next, read_next).
* Proof: Invariant on `remaining` over arbitrary bytes and every step of the state. The decoder with overflow checks is compared step by step: the only checked operation that can overflow is the length of a bit-packed run. What any bytes are read as is a function of its own, `hybridValues` (`Spec/Rle`), proved equal along the runs in `Lemmas/HybridValues`.
* Theorems: `C10_exact_count`, `C10_values`, `C10_remaining_exact`, `C10_checked`.

### C11 — Hybrid RLE decoder understands every legal run sequence (proved)

For any sequence of RLE runs and bit-packed runs serialised as the parquet specification prescribes (by any writer), the decoder returns the concatenation of the run values, truncated to the requested number.

* Modelled: `Model/HybridRle` (src/encoding/hybrid_rle/mod.rs: HybridRleDecoder, src/encoding/hybrid_rle/decoder.rs: Decoder).
* Proof: Independent serialiser of runs (`Spec/Rle`); induction over the list of runs.
* Theorems: `C11_runs`, `C11_runs_enough`.

### C12 — Bitmaps: write then iterate (proved)

Writing booleans as an LSB-first bitmap and iterating any window [offset, offset+len) of it yields exactly those booleans of the original sequence; iterators report exact remaining length.

* Modelled: `Model/Bitmap` (src/encoding/hybrid_rle/bitmap.rs: encode_bool, BitmapIter).
* Proof: Bit by bit, induction over the output bytes.
* Theorems: `C12_bitmap_window`, `C12_bitmap_bytes`, `C12_bitmap_remaining`.

### C13 — DELTA_BINARY_PACKED round trip (proved)

Encoding any list of i64 with the delta encoder (release arithmetic) and decoding it returns the list, including lists whose deltas overflow i64.

* Modelled: `Model/Delta` (src/encoding/delta_bitpacked/encoder.rs: encode, src/encoding/delta_bitpacked/decoder.rs: Decoder, Block).
* Proof: Induction over blocks of 128; the encoder output is also shown to have the format of the specification (`Spec/Delta`). With overflow checks (`C13_checked`): the sums the decoder makes are traced (`Spec/DeltaParts`); they overflow exactly if the differences of the encoder do.
* Theorems: `C13_delta_roundtrip`, `C13_delta_format`, `C13_checked`.

### C14 — DELTA_BINARY_PACKED reports how many bytes it consumed (proved)

After a delta decoder has been drained, the number of consumed bytes it reports equals the length of the encoded stream even when other data follows, so that the next section of the page can be located.

* Modelled: `Model/Delta` (src/encoding/delta_bitpacked/decoder.rs: Decoder::consumed_bytes).
* Proof: Accounting of the bytes of every block, on top of C13.
* Theorems: `C14_consumed_bytes`, `C13_checked`.

### C15 — DELTA_BINARY_PACKED encoding never aborts (partial)

The delta encoder accepts every list of i64 in every build profile. (Violated: builds with overflow checks panic when a difference of neighbours, or of deltas, overflows i64.)

* Modelled: `Model/Delta` (src/encoding/delta_bitpacked/encoder.rs: encode).
* Proof: Witnesses for both overflows; an exact characterisation of the lists that abort, by an invariant on the smallest and greatest difference seen.
* What is missing: Violated in builds with overflow checks; proved for release builds. With overflow checks the lists that abort are characterised exactly (C15_exact).
* Theorems: `C15_violated`, `C15_violated_spread`, `C15_no_abort_partial`, `C15_exact`.

### C16 — DELTA_LENGTH_BYTE_ARRAY round trip (proved)

Encoding any list of byte strings with the delta-length encoder and decoding lengths and values returns the same byte strings.

* Modelled: `Model/DeltaBytes` (src/encoding/delta_length_byte_array/encoder.rs: encode, src/encoding/delta_length_byte_array/decoder.rs: Decoder).
* Proof: C13 for the lengths, slicing for the bodies; with and without overflow checks.
* Theorems: `C16_delta_length_roundtrip`, `C16_lengths_nonneg`.

### C17 — DELTA_BYTE_ARRAY round trip (partial)

Encoding any list of byte strings with the incremental (prefix) encoder and decoding prefix lengths, suffix lengths and values reconstructs the same strings. (Violated when a string is a proper prefix of its predecessor: the encoder panics.)

* Modelled: `Model/DeltaBytes` (src/encoding/delta_byte_array/encoder.rs: encode, src/encoding/delta_byte_array/decoder.rs: Decoder).
* Proof: C16 and prefix algebra, with and without overflow checks; the violation is proved for every list with a proper prefix of its predecessor.
* What is missing: The encoder panics whenever a string is a proper prefix of its predecessor (C17_violated, for every such list); the round trip is proved for all other lists.
* Theorems: `C17_violated`, `C17_delta_byte_array_partial`.

### C18 — Plain byte-array pages (proved)

Iterating a PLAIN byte-array page built from any list of strings yields exactly those strings; for arbitrary bytes the iterator never reads past the buffer: every item is either a slice inside the buffer or an error, and iteration terminates.

* Modelled: `Model/DeltaBytes` (src/encoding/plain_byte_array.rs: BinaryIter).
* Proof: List induction; the arbitrary-bytes theorem compares with a recursive specification.
* Theorems: `C18_plain_roundtrip`, `C18_plain_arbitrary`, `C18_size_hint`.

### C19 — Optional values are reassembled in order (proved)

Reading an optional flat page yields exactly one item per definition level: the next value where the level says valid, null otherwise; values are consumed in order and each once.

* Modelled: `Model/Deserialize` (src/deserialize/utils.rs: OptionalValues, DefLevelsDecoder, src/deserialize/hybrid_rle.rs: HybridRleIter).
* Proof: Refinement of the zipped iterators to the specification `Spec/Deserialize` (nulls where the level bit is unset, values in order elsewhere).
* Theorems: `C19_optional_values`, `C19_level_runs`, `C19_native_page`.

### C20 — Validity iterator covers all runs (partial)

Iterating the definition levels of a page as booleans yields one boolean per row for all rows of the page. (Violated: the boolean iterator stops after the first run.)

* Modelled: `Model/Deserialize` (src/deserialize/hybrid_rle.rs: HybridRleBooleanIter).
* Proof: Witness with two runs; the first run exactly.
* What is missing: The boolean iterator never fetches a second run (C20_violated). Proved: it yields exactly the first run, which covers all rows for levels written by encode_bool.
* Theorems: `C20_violated`, `C20_first_run_partial`, `C20_single_run_partial`.

### C21 — Row selection over plain values (partial)

Filtering any iterator by a list of sorted disjoint row intervals yields exactly the rows inside the intervals, in order. (Violated for empty intervals, which page pruning can produce.)

* Modelled: `Model/Deserialize` (src/deserialize/utils.rs: SliceFilteredIter).
* Proof: Invariant relating the skipped and remaining counts to the rows of the intervals.
* What is missing: Violated for empty intervals: panic with overflow checks, extra rows without (C21_violated). Proved for all non-empty intervals, in both build profiles.
* Theorems: `C21_violated`, `C21_slice_filtered_partial`.

### C22 — Row selection over validity runs (proved)

Filtering validity runs by sorted disjoint row intervals yields, when expanded, exactly the validity of the selected rows, and the reported skip counts equal the number of valid values in the skipped rows (so that value decoders stay aligned).

* Modelled: `Model/Deserialize` (src/deserialize/filtered_rle.rs: FilteredHybridBitmapIter).
* Proof: Refinement: the emitted pieces, laid side by side, are the selected rows of the expanded runs; the skip counts are the number of set rows skipped.
* Theorems: `C22_filtered_runs`, `C22_page`, `C22_len`, `C22_failures`, `C22_short_runs`.

### C23 — Fixed-width plain pages (partial)

A PLAIN page of fixed-width values is rejected unless its size is a multiple of the width; otherwise decoding yields size/width values and the bytes of the values concatenate to the page. (Violated for FIXED_LEN_BYTE_ARRAY: a remainder is dropped silently, length zero panics.)

* Modelled: `Model/Deserialize`, `Model/Types` (src/deserialize/native.rs: native_cast, src/deserialize/fixed_len.rs: FixexBinaryIter, src/types.rs: decode).
* Proof: Chunk lemmas.
* What is missing: Proved for all native types; for fixed-length byte arrays a remainder is dropped silently and length 0 panics (C23_violated), the rest of the claim is proved (C23_fixed_partial).
* Theorems: `C23_native`, `C23_int96`, `C23_violated`, `C23_fixed_partial`.

### C24 — Dictionary indices (partial)

Decoding the dictionary-index section of a page with bit width byte w ≤ 32 yields exactly num_values indices as prescribed by the hybrid encoding; widths above 32 are rejected; malformed sections never abort the process. (Last clause violated: empty section.)

* Modelled: `Model/Deserialize`, `Model/HybridRle` (src/deserialize/utils.rs: dict_indices_decoder).
* Proof: C10 and C11 on the section after the width byte.
* What is missing: All clauses but 'never aborts': an empty section panics (C24_violated), and so does a malformed run header.
* Theorems: `C24_indices`, `C24_legal`, `C24_roundtrip`, `C24_violated`.

### C25 — Bloom filter has no false negatives (proved)

After any sequence of insertions into a split-block bloom filter, membership of every inserted hash is reported as true.

* Modelled: `Model/Bloom` (src/bloom_filter/split_block.rs: insert, is_in_set).
* Proof: Bits set are never cleared; induction over the inserted hashes.
* Theorems: `C25_no_false_negatives`.

### C26 — Bloom filter insertions commute and only add bits (proved)

The final content of the bloom filter depends only on the set of inserted hashes (order and repetition do not matter), insertion never changes the length nor clears a bit, and touches a single 32-byte block.

* Modelled: `Model/Bloom` (src/bloom_filter/split_block.rs: insert).
* Proof: Algebra of bitwise or on the words of a block; other blocks untouched.
* Theorems: `C26_bits`, `C26_query`, `C26_order_irrelevant`, `C26_one_block`.

### C27 — Page row intervals partition the row group (proved)

The row intervals computed from an offset index are consecutive, disjoint, start at the first page's first row and cover exactly up to the number of rows; malformed indexes give an error, not a panic.

* Modelled: `Model/Intervals` (src/indexes/intervals.rs: compute_page_row_intervals).
* Proof: List induction against a partition of the rows.
* Theorems: `C27_partition`.

### C28 — Page pruning keeps exactly the requested rows (proved)

Projecting the rows selected on one column onto the pages of another column selects exactly the same set of rows: a row is in some returned per-page interval iff it was selected; a page is listed with a non-empty selection only if it holds a selected row.

* Modelled: `Model/Intervals` (src/indexes/intervals.rs: select_pages, is_in, compute_rows).
* Proof: Membership of every row in the selected part of its page.
* Note: C28_empty_interval shows that pruning hands empty intervals to the readers of C21.
* Theorems: `C28_page`, `C28_column`, `C28_bad_location`, `C28_compute_rows`, `C28_empty_interval`.

### C29 — Native values survive serialisation (proved)

Converting every native parquet value (i32, i64, f32/f64 bit patterns, int96) to little-endian bytes and decoding them returns the same value.

* Modelled: `Model/Types` (src/types.rs: NativeType impls, decode).
* Proof: Bit-vector algebra of little-endian bytes.
* Theorems: `C29_native`, `C29_int96`, `C29_wrong_size`, `C29_int96_ns`, `C29_int96_order`.

### C30 — Binary ordering is a total order (partial)

The comparison used for byte-array values is a total order compatible with lexicographic unsigned byte order. (Violated: a string and its proper extension compare Equal.)

* Modelled: `Model/Types` (src/types.rs: ord_binary).
* Proof: Induction over the zipped bytes against the lexicographic order of the specification.
* What is missing: Violated for a non-empty string and its proper extension (C30_violated). Proved: it is the lexicographic order on all other pairs, and a total order on strings of a common length.
* Theorems: `C30_violated`, `C30_lex_partial`, `C30_swap`, `C30_same_length_partial`.

### C31 — Level bit width is minimal (proved)

The bit width computed for a maximum level is the smallest width able to represent every level from 0 to the maximum.

* Modelled: `Model/Types` (src/read/levels.rs: get_bit_width).
* Proof: The width is the least number of bits that holds the level.
* Theorems: `C31_bit_width`.

### C32 — Splitting a data page into levels and values (partial)

Splitting a data page buffer returns three slices that concatenate (up to the V1 length prefixes) to the page buffer; malformed V1 lengths produce an error; no page content aborts the process. (Last clause violated for V2 pages.)

* Modelled: `Model/Page` (src/page/mod.rs: split_buffer, split_buffer_v1, split_buffer_v2).
* Proof: Slicing algebra; equivalence for V1, witness for V2.
* What is missing: Proved as an equivalence for V1 pages; for V2 pages except that level lengths larger than the buffer panic (C32_violated).
* Theorems: `C32_split_v1`, `C32_split_v2_partial`, `C32_violated`.

### C33 — Page compression round trip (partial)

Compressing a data or dictionary page and decompressing it yields the same page content and header for V1 and V2 pages under any correct codec.

* Modelled: `Model/Compression` (src/write/compression.rs: compress, compress_data, src/read/compression.rs: decompress, decompress_v1, decompress_v2).
* Proof: Case analysis on page kind and codec, with the codec laws as hypothesis.
* What is missing: Violated for V2 pages whose header says is_compressed = false (they are compressed all the same and then unreadable) and for a non-empty scratch buffer (C33_violated); proved for all other pages and every correct codec.
* Theorems: `C33_roundtrip_partial`, `C33_violated`, `C33_unsupported`.

### C34 — Buffer reuse is unobservable (partial)

Streaming pages through the compressor or the decompressor, which recycle buffers between pages, yields exactly the pages obtained by processing every page with fresh buffers; content of the recycled buffer never leaks into a page.

* Modelled: `Model/Compression`, `Model/IntoInner` (src/write/compression.rs: Compressor, src/read/compression.rs: Decompressor, BasicDecompressor).
* Proof: Induction over the pages with arbitrary buffers left by the earlier ones (state of the recycled buffers universally quantified).
* What is missing: Violated for block codecs when a page announces more bytes than its block holds (C34_violated). Proved for the compressor, for the compressor/decompressor pipeline, and for all pages announcing the exact size; C34_leftover says what the others are completed with.
* Theorems: `C34_compressor`, `C34_decompressor_partial`, `C34_pipeline`, `C34_swap`, `C34_into_inner`, `C34_into_buffers`, `C34_basic_partial`, `C34_basic_pipeline`, `C34_leftover`, `C34_violated`, `C34_basic_violated`.

### C35 — Column chunk pages: write then read (partial)

Reading back the bytes of a column chunk written by the page writer yields the same sequence of pages (kind, header fields, compressed bytes), and nothing beyond the chunk is consumed.

* Modelled: `Model/PageIO`, `Model/ThriftCompact` (src/write/page.rs: write_page, src/read/page/reader.rs: PageReader).
* Proof: Induction over the pages; `getPageHeader` and `finishPage` undo `writePage`.
* What is missing: Violated: the sortedness of a dictionary page is lost and a trailing page without values is not read (C35_violated). Proved otherwise, for every lawful thrift codec (an implementation of the compact protocol is proved lawful), including compression and decompression (C35_pipeline).
* Theorems: `C35_roundtrip_partial`, `C35_pipeline`, `C35_violated`.

### C36 — Page reader honours the memory limit and the value budget (partial)

The page reader never allocates a page buffer larger than the configured maximum, returns an error for negative or oversized page sizes and truncated pages, stops after having seen the announced number of values, and never yields a page skipped by the page filter.

* Modelled: `Model/PageIO` (src/read/page/reader.rs: build_page, next_page, PageReader).
* Proof: Invariant over every call of `next`: sizes reserved, bytes left, values seen.
* What is missing: Limits, errors and budget proved for all bytes. Violated: the uncompressed size is not limited, and the stream variant skips truncated/oversized pages (C36_violated).
* Theorems: `C36_limits`, `C36_errors`, `C36_no_panic`, `C36_stream`, `C36_stream_stops`, `C36_violated`.

### C37 — Indexed page reading (partial)

Reading through page locations yields exactly the data pages whose row selection is non-empty, in order, preceded by the dictionary page iff there are bytes before the first data page.

* Modelled: `Model/PageIO` (src/read/page/indexed_reader.rs: IndexedPageReader).
* Proof: Pages at given places of the file, one call of `next` after another.
* What is missing: Proved for locations that point at pages. Violated for other locations: panic on underflow with overflow checks, sizes not compared (C37_violated).
* Theorems: `C37_indexed`, `C37_dictionary`, `C37_violated`.

### C38 — File framing round trip (proved)

Every file produced by the writer starts and ends with the magic bytes, and reading its metadata returns the metadata that was written, for every metadata size (including larger than the default footer read).

* Modelled: `Model/Writer`, `Model/FileMetadata` (src/write/file.rs: start_file, end_file, src/read/metadata.rs: read_metadata).
* Proof: Slicing of the last bytes of the file.
* Note: For every body and metadata below 2^31 bytes, any lawful thrift codec; in full for the compact protocol.
* Theorems: `C38_end_bytes`, `C38_sidecar`, `C38_framing`, `C38_framing_compact`.

### C39 — Reading metadata of arbitrary bytes is safe (proved)

Reading metadata from arbitrary bytes yields either an error or metadata parsed from inside the file: too small files, missing magic, negative or oversized metadata lengths are reported as errors, never as panics or out-of-range reads.

* Modelled: `Model/FileMetadata` (src/read/metadata.rs: read_metadata).
* Proof: Every file: what is rejected, and where accepted metadata lies; the limit on allocations exactly (`C39_limit`).
* Theorems: `C39_reads`, `C39_no_panic`, `C39_size`, `C39_rejects`, `C39_limit`.

### C40 — Column chunk byte ranges describe the file (partial)

In the metadata of a written file, the byte range of each column chunk is exactly where that chunk's pages were written; the ranges are consecutive and disjoint, begin after the magic and end before the page indexes/footer.

* Modelled: `Model/Writer` (src/write/file.rs: FileWriter::write, src/write/row_group.rs: write_row_group, src/write/column_chunk.rs: write_column_chunk, build_column_chunk, src/metadata/column_chunk_metadata.rs: byte_range).
* Proof: Invariant over the history of calls: the output is the magic followed by the pieces of the row groups, at the offsets in the metadata.
* What is missing: Proved for every sequence of successful writes, both writers. A failed write leaves bytes that are not counted, so later ranges are wrong: C40_violated.
* Theorems: `C40_byte_ranges_partial`, `C40_byte_range`, `C40_chunk_metadata_partial`, `C40_violated`.

### C41 — Writer life cycle (partial)

Under any sequence of start/write/end calls the file writer writes the magic before any row group, refuses to start twice, refuses to end twice, and refuses row groups after the end. (The last clause is violated; the async writer also accepts a second end.)

* Modelled: `Model/Writer` (src/write/file.rs: FileWriter, src/write/stream.rs: FileStreamer).
* Proof: Induction over arbitrary sequences of calls.
* What is missing: Magic first, one start and one end for every sequence of calls. Row groups after the end are accepted, FileStreamer ends twice: C41_violated.
* Theorems: `C41_magic_first`, `C41_no_second_start`, `C41_no_second_end`, `C41_inner`, `C41_violated`.

### C42 — Row and size totals (partial)

The totals recorded in written metadata (values, rows, compressed and uncompressed sizes, encodings set) equal the sums over the pages written.

* Modelled: `Model/Writer` (src/write/column_chunk.rs: build_column_chunk, src/write/row_group.rs: write_row_group, compute_num_rows, src/write/file.rs: FileWriter::end).
* Proof: The metadata of each written row group compared with counts over its pages (`Spec/Writer`).
* What is missing: Proved for every sequence of writes with totals below 2^63 and pages with one row interval. Several selected intervals are counted wrongly: C42_violated.
* Theorems: `C42_totals_partial`, `C42_violated`, `C42_page_values`, `C42_rows_given`.

### C43 — Written offset index locates the pages (partial)

Each entry of the written offset index gives the file offset and size of the corresponding data page and the number of rows before it; dictionary pages are not listed.

* Modelled: `Model/Writer` (src/write/indexes/serialize.rs: serialize_offset_index).
* Proof: Induction over the data pages of a column; the bytes at each location are the page.
* What is missing: Proved for all files whose pages know their rows; several selected intervals are counted wrongly: C43_violated.
* Theorems: `C43_offset_index_partial`, `C43_locates`, `C43_violated`.

### C44 — Written column index describes the pages (proved)

The written column index has one entry per data page with the page's min/max/null count, flags pages without bounds as null pages, and refuses pages lacking required statistics.

* Modelled: `Model/Writer`, `Model/Indexes` (src/write/indexes/serialize.rs: serialize_column_index, src/indexes/index.rs).
* Proof: Induction over the data pages; reading back with C48.
* Note: The index flags pages without minimum as null pages even if they are not (C44_not_null_flagged).
* Theorems: `C44_column_index`, `C44_refuses`, `C44_not_null_flagged`.

### C45 — Column index reading fetches the right bytes (partial)

Reading the page indexes of a row group returns for each column the index that was written for it.

* Modelled: `Model/Indexes`, `Model/Writer` (src/read/indexes/read.rs, src/write/file.rs: FileWriter::end).
* Proof: The index sections of every written file are located by the invariant of C40 and parsed column by column.
* What is missing: Proved for the columns of every row group of every written file, indexes below 2^31 bytes. Non-adjacent selections of columns give wrong indexes (C45_violated); page locations without offset index are an error though documented as empty (C45_no_offset_index); truncated files panic.
* Theorems: `C45_indexes_partial`, `C45_compact_partial`, `C45_foreign`, `C45_no_column_index`, `C45_no_offset_index`, `C45_violated`, `C45_truncated_panics`.

### C46 — Chunk statistics bound all pages (numeric) (partial)

The column chunk's min (max) statistic produced by merging page statistics is a lower (upper) bound of the min (max) of every page, the null count is the sum of page null counts. (Violated when a page carries no statistics: it is ignored.)

* Modelled: `Model/Statistics` (src/write/statistics.rs: reduce, reduce_primitive, reduce_boolean).
* Proof: Fold invariants; floats through their exact scaled value.
* What is missing: Violated: pages without statistics (or null count) are ignored, a NaN bound hides the others, int96 panics (C46_violated). Proved for all pages that carry statistics without NaN bounds; IEEE values are compared through their exact integer-scaled value.
* Theorems: `C46_bounds_partial`, `C46_counts`, `C46_outcome`, `C46_violated`.

### C47 — Chunk statistics bound all pages (binary) (partial)

The merged min (max) of byte-array statistics is a lower (upper) bound, in lexicographic order, of every page's min (max). (Violated when one value is a proper prefix of the other.)

* Modelled: `Model/Statistics` (src/write/statistics.rs: reduce_binary, ord_binary).
* Proof: Fold invariant with the lexicographic order.
* What is missing: Violated when one bound is a proper prefix of another (C47_violated); proved otherwise, and in full for fixed-length byte arrays.
* Theorems: `C47_bounds_partial`, `C47_fixed_len`, `C47_violated`.

### C48 — Statistics serialisation round trip (proved)

Statistics written to thrift and read back with the same primitive type are equal; values of the wrong width are rejected.

* Modelled: `Model/Statistics` (src/statistics/*.rs: read, write, src/statistics/mod.rs: serialize_statistics, deserialize_statistics).
* Proof: Case analysis per physical type, C29.
* Theorems: `C48_write`, `C48_roundtrip`, `C48_read`, `C48_read_boolean`, `C48_type`.

### C49 — Schema thrift round trip (partial)

Converting a schema to its flat thrift representation and back returns the same schema. (Violated for groups without children, including an empty schema.)

* Modelled: `Model/Schema` (src/schema/io_thrift/to_thrift.rs, src/schema/io_thrift/from_thrift.rs).
* Proof: Structural induction on the tree with the index of the flattened list as invariant.
* What is missing: Violated for a group without children, which is written with num_children 0 and read back as a primitive or rejected (C49_violated); proved for all schemas whose groups are non-empty and whose fields fit their thrift types. Reading arbitrary thrift elements never panics (C49_from_thrift_total).
* Theorems: `C49_violated`, `C49_schema_roundtrip_partial`, `C49_descriptor_roundtrip_partial`, `C49_from_thrift_total`, `C49_reread`.

### C50 — Leaf columns and levels of a schema (partial)

The columns of a schema are its primitive leaves in depth-first order; each column's path is the list of names from the root and its max definition (repetition) level is the number of optional-or-repeated (repeated) nodes on that path.

* Modelled: `Model/Schema`, `Model/SchemaChecked` (src/metadata/schema_descriptor.rs: SchemaDescriptor::new, build_tree).
* Proof: Structural induction against paths and levels defined on the tree (`Spec/Schema`); with overflow checks by comparison with the unchecked model. The witness is a tree of 32768 levels; whether the recursion would exhaust the stack first is not modelled.
* What is missing: Violated by schemas of more than 32767 nested levels: the i16 levels wrap, or panic with overflow checks (C50_violated); proved for all others, and the panic characterised.
* Theorems: `C50_columns`, `C50_levels_partial`, `C50_checked`, `C50_checked_thrift`, `C50_violated`.

### C51 — Enumerations survive thrift conversion (proved)

Converting compression codecs, encodings, page types, repetitions, boundary orders, logical, converted and physical types to thrift and back returns the same value, and unknown thrift codes are rejected.

* Modelled: `Model/Bridge` (src/parquet_bridge.rs, src/schema/types/converted_type.rs, src/schema/types/physical_type.rs).
* Proof: Case analysis over all values and over all integers for the inverse direction.
* Theorems: `C51_repetition`, `C51_compression`, `C51_pageType`, `C51_encoding`, `C51_boundaryOrder`, `C51_groupConverted`, `C51_converted`, `C51_physical`, `C51_logical`, `C51_integer_fallback`, `C51_levels`.

### C52 — Schema message parser reads what is written (partial)

Rendering any schema in the message syntax and parsing it returns the schema; parsing terminates for every input string; an unterminated or truncated message is rejected. (Last clause violated.)

* Modelled: `Model/Message` (src/schema/io_message/from_message.rs: from_message, Parser, Tokenizer).
* Proof: Tokens: the tokenizer inverts every spacing of a token list. Parser: mutual induction with an independent grammar on token lists (`Spec/Message`), both directions; rendering of every expressible schema. Absence of panics by an invariant over all parser steps.
* What is missing: Round trip proved for every schema the syntax can express; parsing terminates on every string and agrees with an independent grammar on every text that is a message. Unterminated messages, and some truncated ones, are accepted (C52_violated, C52_unterminated); C52_sound_partial says exactly what may be missing. MAP or LIST on a primitive panics (C52_panics) and nothing else does (C52_no_panic_partial).
* Theorems: `C52_roundtrip`, `C52_expressible`, `C52_parses`, `C52_unambiguous`, `C52_tokens`, `C52_terminates`, `C52_sound_partial`, `C52_unterminated`, `C52_violated`, `C52_no_panic_partial`, `C52_panics`.

### C53 — Hadoop-LZ4 framing (partial)

Decompressing any sequence of Hadoop LZ4 frames whose total decompressed size matches the output buffer yields the concatenation of the frames. (Violated when a later frame is not larger than its predecessor.)

* Modelled: `Model/Compression` (src/compression.rs: try_decompress_hadoop).
* Proof: Induction over the frames; witness for the early break.
* What is missing: Violated when the bytes after a frame are not more than that frame's compressed size (C53_violated); otherwise proved; soundness proved for all inputs.
* Theorems: `C53_frames_partial`, `C53_sound`, `C53_violated`.

### C54 — Column iteration order (partial)

Iterating the columns of a field delivers the column chunks in schema order.

* Modelled: `Model/FileMetadata` (src/read/column/mod.rs: ColumnIterator, ReadColumnIterator, get_field_columns).
* Proof: Induction over the columns, with arbitrary use of the page readers in between.
* What is missing: Proved for ColumnIterator, whatever is done with the page readers in between; violated by ReadColumnIterator, which delivers the reverse order.
* Theorems: `C54_field_columns`, `C54_column_iterator`, `C54_read_iterator_reversed`, `C54_violated`.

### C55 — Annotation compatibility check (partial)

A primitive type with a decimal/logical/converted annotation is accepted only if the annotation is legal for the physical type, and every type accepted is re-accepted when read from its thrift form. (Violated for FIXED_LEN_BYTE_ARRAY of more than 128 bytes: every decimal precision is accepted.)

* Modelled: `Model/Schema` (src/schema/types/spec.rs: check_decimal_invariants, check_converted_invariants, check_logical_invariants).
* Proof: Decision table written from the format specification, compared case by case.
* What is missing: Violated for FIXED_LEN_BYTE_ARRAY longer than 128 bytes, where the f64 precision bound is infinite and every precision is accepted (C55_violated); the decision table is proved for all other types.
* Theorems: `C55_violated`, `C55_converted_partial`, `C55_logical_partial`, `C55_reaccepted`.

### C56 — Delta decoder reads every legal stream (proved)

The DELTA_BINARY_PACKED decoder returns the encoded values of every stream that is legal by the format: any block size that is a multiple of 128, any number of miniblocks whose size is a multiple of 8, any bit widths, non-minimal varints, last block with only the needed miniblocks; and it reports exactly the stream's length as consumed.

* Modelled: `Model/Delta` (src/encoding/delta_bitpacked/decoder.rs: Decoder, Block).
* Proof: Independent encoder with arbitrary block and mini-block sizes; induction over mini-blocks and blocks. With overflow checks the streams are split into the two summands of each delta, and the decoder is proved to abort exactly if a sum overflows (`C56_checked`).
* Theorems: `C56_delta_legal_streams`, `C56_checked`.

### C57 — Reading a column's bloom filter (partial)

Reading the bloom filter of a column returns exactly the bytes after its header when the file has them, nothing when the column has no filter or one of an unsupported kind, and an error otherwise; querying the filter that was read never aborts. (Violated: a file that ends early gives a shortened filter, and querying an empty or short filter panics.)

* Modelled: `Model/Bloom` (src/bloom_filter/read.rs: read, src/bloom_filter/split_block.rs: is_in_set).
* Proof: Case analysis on offset, header and length.
* What is missing: Short reads are accepted silently and queries of empty/short filters panic (C57_violated); the other clauses are proved for every lawful header codec.
* Theorems: `C57_read`, `C57_read_other`, `C57_violated`.

### C58 — Pages are decoded by their declared encoding (partial)

A data page is decoded by its declared encoding: a dictionary-encoded page yields exactly the rows (index or null) that were written, over the given dictionary; a PLAIN page yields its values and validity, and announces its number of values when required; definition levels of nested columns are read with the width of their maximum; every other combination of encoding, dictionary and type is refused with an error. (Violated for encoding codes unknown to the library: the process aborts.)

* Modelled: `Model/Deserialize` (src/deserialize/native.rs: NativePageState::try_new, src/deserialize/binary.rs: BinaryPageState::try_new, src/deserialize/fixed_len.rs: FixedLenBinaryPageState::try_new, src/deserialize/boolean.rs: BooleanPageState::try_new, src/deserialize/utils.rs: DefLevelsDecoder::try_new, dict_indices_decoder).
* Proof: Composition of C19, C23, C24 and C32 per page kind; refusals by exhaustive cases.
* What is missing: Proved for pages as this library writes their levels and indices; refusals proved in full. Violated: an unknown encoding code panics (C58_violated).
* Theorems: `C58_dictionary_optional`, `C58_dictionary_required`, `C58_levels`, `C58_plain_required`, `C58_plain_optional`, `C58_refused`, `C58_fixed_type`, `C58_violated`.

### C59 — Whole file: write then read (partial)

Whatever row groups are written to a file, reading the file's metadata and then the pages of any column chunk through the page iterator delivers exactly the pages written to that chunk, in order, with the schema, the created-by string and the key-value metadata that were given to the writer.

* Modelled: `Model/Writer`, `Model/FileMetadata`, `Model/PageIO` (src/write/file.rs: FileWriter, src/read/metadata.rs: read_metadata, src/read/mod.rs: get_page_iterator, src/read/page/reader.rs: PageReader).
* Proof: Composition of C35, C38, C40, C42 and C49 over the history of writes.
* What is missing: Proved for all schemas without empty groups and all row groups with a column per leaf. Row groups with fewer columns and the empty schema give unreadable files: C59_violated.
* Theorems: `C59_whole_file_partial`, `C59_compact_partial`, `C59_violated`.

### C60 — Column orders (partial)

For a file that records an order per column, the order reported for each column is the order of its logical, converted or physical type, in that preference; for a file without orders every column's order is undefined. (Violated when fewer orders than columns are recorded: asking for the order aborts.)

* Modelled: `Model/FileMetadata` (src/metadata/file_metadata.rs: column_order, parse_column_orders, src/metadata/sort.rs: get_sort_order).
* Proof: Table of the format specification against `getSortOrder`.
* What is missing: Violated with fewer orders than columns: panic (C60_violated).
* Theorems: `C60_column_orders`, `C60_sort_order`, `C60_violated`.

### C61 — File metadata survives being written again (partial)

Metadata that was read, converted back to thrift and read again is the same: version, rows, schema, row groups with all column chunks, key-value metadata and created-by. (Column orders, sorting columns and row group ordinals are dropped: violated.)

* Modelled: `Model/FileMetadata` (src/metadata/file_metadata.rs: try_from_thrift, into_thrift, src/metadata/row_metadata.rs: try_from_thrift, into_thrift, src/metadata/column_chunk_metadata.rs: try_from_thrift, into_thrift).
* Proof: Reading, writing and reading again, by structural induction; what is lost is proved to be lost.
* What is missing: Proved for all metadata that can be read and has no group with a negative number of children. Column orders, sorting columns and ordinals are dropped (C61_violated).
* Theorems: `C61_reread_partial`, `C61_file_partial`, `C61_no_empty_groups`, `C61_violated`, `C61_negative_children`, `C61_huge_panics`.

### C62 — Selecting row groups (proved)

Filtering the row groups of a file's metadata keeps exactly the groups for which the predicate holds of the group and its position in the file, in order, and changes nothing else.

* Modelled: `Model/FileMetadata` (src/read/mod.rs: filter_row_groups).
* Proof: Induction with the running index.
* Theorems: `C62_filter_row_groups`.

### C63 — Selected rows are read through the page index (partial)

For a file produced by the writer, reading a row group's page locations, selecting pages for any list of row intervals and reading them with the indexed reader delivers the column's dictionary page, if any, and exactly the data pages containing selected rows, each labelled with the selected rows inside it; taking those rows from each page gives exactly the selected rows of the column, in order.

* Modelled: `Model/Indexes`, `Model/Intervals`, `Model/PageIO` (src/read/indexes/read.rs: read_pages_locations, src/indexes/intervals.rs: select_pages, src/read/page/indexed_reader.rs: IndexedPageReader).
* Proof: Composition of C45, C27/C28 and C37 on written files.
* What is missing: Proved for every written file and every list of intervals; missing: indexes of 2^31 bytes or more, page headers above 1 MiB (refused, C63_header_limit), dictionary pages after data pages (not delivered, C63_violated).
* Theorems: `C63_selection_partial`, `C63_compact_partial`, `C63_header_limit`, `C63_violated`.

### C64 — Failures of the sink (proved)

Whatever the sink refuses or fails at, in the middle of any call: the call in which the sink failed returns an error; everything written by the calls before is in the sink, followed by a prefix of what the failing call would have written; and if all calls report success, the sink holds a whole file and it is flushed. The same holds for a metadata-only file.

* Modelled: `Model/Sink` (src/write/file.rs: FileWriter, src/write/stream.rs: FileStreamer, src/write/row_group.rs, src/write/column_chunk.rs, src/write/page.rs, src/write/indexes/write.rs, src/write/file.rs: write_metadata_sidecar).
* Proof: Simulation of the pure writer of `Model/Writer` by the writer over a failing sink, call by call.
* Note: For every sink satisfying LawfulSink (it accepts a prefix of what it is given; it fails exactly if it reports so), both writers, every sequence of calls.
* Theorems: `C64_faults`, `C64_success`, `C64_sidecar`.

### C65 — A file cut short is refused (partial)

Reading the metadata of a file of which only a proper prefix got to the disk returns an error, wherever it was cut, and never aborts. (Violated when the data of a page looks like the end of a file: the format has no means against it.)

* Modelled: `Model/Sink`, `Model/FileMetadata` (src/read/metadata.rs: read_metadata, src/write/file.rs: FileWriter::end).
* Proof: From C39; the witness has a whole file as the data of a page.
* What is missing: Proved for files with the magic bytes only at start and end. A page whose data ends like a file makes a cut file readable (C65_violated).
* Theorems: `C65_cut_partial`, `C65_no_panic`, `C65_violated`.

### C66 — Calls that failed may be made again (partial)

If a call of the writer fails with an I/O error, and is made again with success, then the file is as if it had not failed: offsets in the metadata point to the pages and indexes. (Violated unless nothing of the failed call got to the sink: the writer's offset does not follow the sink.)

* Modelled: `Model/Sink` (src/write/file.rs: FileWriter::write, FileWriter::end, src/write/stream.rs: FileStreamer).
* Proof: By cases on the failing call; witnesses computed on a disk that fails once.
* What is missing: Proved if nothing of the failed call got to the sink; violated otherwise, with witnesses for failures in the magic bytes, a row group and the footer.
* Theorems: `C66_retry_partial`, `C66_violated`, `C66_violated_group`, `C66_violated_end`.

### C67 — Reading does not depend on how the reader delivers the bytes (partial)

Reading metadata or column chunks from a reader that delivers the file in pieces of any sizes, from wherever it stands at the start, gives exactly what the bytes of the file give; if the reader fails on the way the result is that error, never an abort and never different data. Reading the columns of a field concurrently gives the same as reading them one after the other, in whatever order the tasks are run, and ends. (Violated if the file is shortened by somebody else between finding its length and reading: the process aborts.)

* Modelled: `Model/Source` (src/read/metadata.rs: read_metadata, read_metadata_with_size, stream_len, src/read/column/mod.rs: read_columns, src/read/column/stream.rs: read_columns_async).
* Proof: Loops over the reader against the pure functions of `Model/FileMetadata`; for the concurrent reading an invariant of every task, kept by each step of any task.
* What is missing: Proved for every reader of a file that does not change (LawfulInput). Violated if the file is cut between determining its length and reading (C67_violated).
* Theorems: `C67_metadata`, `C67_length`, `C67_columns`, `C67_async`, `C67_async_ends`, `C67_violated`.

### C68 — Columns read into memory are the pages written (partial)

For every file the writer finishes, reading the columns of a field of a row group into memory delivers, in the order of the schema, for each column exactly the bytes of its pages, and a page reader on them delivers these pages. A chunk that the file does not hold in full is an error. (Violated: a file that ends within the chunk gives fewer bytes and no error.)

* Modelled: `Model/FileMetadata`, `Model/Source` (src/read/column/mod.rs: read_columns, to_deserializer, src/write/file.rs: FileWriter).
* Proof: From C59 and the byte ranges of C40.
* What is missing: Proved for every written file with the restrictions of C59. A chunk cut short by the end of the file is returned without an error (C68_violated).
* Theorems: `C68_in_memory_partial`, `C68_range_partial`, `C68_violated`.

### C69 — The metadata of columns in a written file are true of their pages (partial)

For every file the writer finishes, the accessors of the metadata that are read back tell the truth about the pages written: rows, byte sizes and compressed sizes of row groups; number of values, sizes, compression, encodings, position in the file of each column; its null count and bounds are those of its pages; a dictionary page is said to be where it is. (Violated: the offset of the dictionary page is never told and that of the data pages is the one of the dictionary page.)

* Modelled: `Model/FileMetadata`, `Model/Writer`, `Model/Statistics` (src/metadata/column_chunk_metadata.rs: ColumnChunkMetaData, src/metadata/row_metadata.rs: RowGroupMetaData, src/write/column_chunk.rs: build_column_chunk, src/write/statistics.rs: reduce).
* Proof: From C59: the description of each chunk in `Spec/Writer` is carried through serialisation and the accessors; statistics by C46-C48.
* What is missing: Proved for every written file with the restrictions of C59. The dictionary page offset is never written (C69_violated); bounds with NaN or byte strings that are prefixes of each other are excluded (see C46, C47).
* Theorems: `C69_metadata_partial`, `C69_violated`.

### C70 — Values written are values read (partial)

Reading a page with the page states of the library, as the client code of the repository does, gives exactly the values and nulls the page holds, for every physical type, plain and dictionary encoded, optional or required, in either version of data pages, whatever runs the writer chose; a file of optional columns whose pages are made of arrays with the encoders of the library gives back exactly these arrays, through writer, compression, metadata, page iterator and decompressor. (Violated: an empty page at the end of a column is never read; int96 columns with statistics make the writer panic.)

* Modelled: `Model/Client`, `Model/Deserialize`, `Model/Writer`, `Model/PageIO`, `Model/Compression` (src/deserialize/native.rs: NativePageState, src/deserialize/binary.rs: BinaryPageState, src/deserialize/fixed_len.rs: FixedLenBinaryPageState, src/deserialize/boolean.rs: BooleanPageState, src/page/mod.rs: split_buffer, src/write/file.rs: FileWriter, tests/it/read/mod.rs: page_to_array, tests/it/write/primitive.rs: array_to_page_v1).
* Proof: Pages: the iterators of the page states yield the values (C14-C22), the client loop joins them with the levels. Files: C59 gives the pages, C31 the decompressed pages, then page by page.
* What is missing: Pages: every physical type, either version, any legal streams of any writer. Files: flat optional columns written by the client code, with the restrictions of C59. Violated by an empty last page and by int96 with statistics (C70_violated).
* Theorems: `C70_plain_page`, `C70_required_page`, `C70_dictionary_page`, `C70_written_page`, `C70_file_partial`, `C70_violated`, `C70_dictionary_type`, `C70_index_beyond`, `C70_truncated`, `C70_dictionary_refused`.

### C71 — Selected rows are the values of these rows (partial)

Reading selected rows of a column through the page index (select the pages that hold them, read these by their locations, decompress, deserialize with the filtered page states) gives exactly the values and nulls of the selected rows, in order. (Violated: if the definition levels of a page have several runs, rows after the first run are lost; an empty page inside the selection panics in debug builds; pages of byte arrays ignore the selection.)

* Modelled: `Model/Client`, `Model/Indexes`, `Model/BasicDecompressor`, `Model/Deserialize` (src/indexes/intervals.rs: select_pages, src/read/page/indexed_reader.rs: IndexedPageReader, src/read/compression.rs: BasicDecompressor, src/deserialize/filtered_rle.rs, src/deserialize/utils.rs: SliceFilteredIter, tests/it/write/indexes.rs: read_indexed_page, tests/it/read/primitive.rs: page_to_vec).
* Proof: C63 gives the pages with their intervals, C34 the decompressed pages, C20 and C21 the rows of each page; together they are the selected rows of the column (C28, C63).
* What is missing: Pages of numbers by any writer whose levels are one run, or required; files written by the client code, with the restrictions of C63, columns of numbers without empty pages. Violated by levels in several runs, empty pages, and byte arrays (C71_violated).
* Theorems: `C71_page_partial`, `C71_required_page_partial`, `C71_file_partial`, `C71_violated`, `C71_encodings`.

### C72 — Cut delta streams are rejected (partial)

A stream of one of the delta encodings that ends before its end is an error: it is never read as other values and never aborts; and what is decoded does not depend on the bytes that follow the stream. (Violated: a stream cut in its header is read as fewer or other values, or aborts; cut values of DELTA_LENGTH_BYTE_ARRAY abort.)

* Modelled: `Model/Delta`, `Model/DeltaBytes` (src/encoding/delta_bitpacked/decoder.rs: Decoder, Block, src/encoding/delta_length_byte_array/decoder.rs: Decoder, src/encoding/delta_byte_array/decoder.rs: Decoder).
* Proof: A simulation between the decoder on a stream and on the stream followed by more bytes (`Lemmas/DeltaTrunc`): each step fails on the shorter one or does the same on both, and never counts more bytes than there are.
* What is missing: Proved for cuts after the header, for every stream that decodes. Cuts in the header (C72_violated, C72_violated_aborts) and in the values of byte arrays violate the claim.
* Theorems: `C72_cut_partial`, `C72_legal_cut_partial`, `C72_more_partial`, `C72_delta_length_partial`, `C72_delta_byte_array_partial`, `C72_violated`, `C72_violated_aborts`.

### C73 — Arbitrary bytes are accepted as delta stream only if they are one (partial)

Decoding arbitrary bytes as DELTA_BINARY_PACKED returns values only if the bytes begin with a legal stream, and then exactly the values and the length of that stream, as many as announced; otherwise an error; it never aborts and does not depend on the build profile. (Violated: illegal headers, bit widths above 64 and overlong varints abort; sums that overflow abort with overflow checks; a number of miniblocks that does not divide the block size is accepted.)

* Modelled: `Model/Delta`, `Model/DeltaBytes`, `Model/Leb128` (src/encoding/delta_bitpacked/decoder.rs: Decoder, Block, src/encoding/uleb128.rs: decode, src/encoding/zigzag_leb128.rs: decode).
* Proof: Inversion of each step of the decoder (`Lemmas/DeltaSound`): a successful drain rebuilds the blocks of a legal stream; the other direction is C56. How decoding ends (C73_outcome): a walk over the bytes of the miniblocks that is preserved by every item (`Lemmas/DeltaOutcome`). Build profiles: a simulation in which the checked run may panic (`Lemmas/DeltaChecked`).
* What is missing: After a complete legal header: accepted exactly if legal. For every header of a block size below 2^56: exactly how decoding ends (C73_outcome); of strings, exactly what is read, in terms of their lengths (C73_strings). Other headers, wide bit widths and overflowing sums violate the claim.
* Theorems: `C73_accepts_partial`, `C73_outcome`, `C73_strings`, `C73_profiles_partial`, `C73_violated`, `C73_violated_overflow`, `C73_violated_accepts`.

### C74 — Skipping by statistics loses nothing (partial)

In every file whose columns are made of arrays with statistics, what the statistics of a page, an entry of the column index or a column chunk say is true of its values: the number of nulls, and the least and the greatest value. So a range of numbers that they exclude has no value there, and searching a column through the page index (compute the rows of the pages that the index does not exclude, select the pages, read, decompress, deserialize) finds all values in the range, in order. (Violated: a NaN makes a wrong maximum, so that values are not found; strings one of which begins another get wrong bounds.)

* Modelled: `Model/Client`, `Model/Statistics`, `Model/Indexes`, `Model/Intervals` (src/write/statistics.rs: reduce, src/write/indexes/serialize.rs: serialize_column_index, src/indexes/index.rs: NativeIndex, ByteIndex, src/indexes/intervals.rs: compute_rows, select_pages, src/types.rs: ord, ord_binary, tests/it/write/primitive.rs: array_to_page_v1, tests/it/write/binary.rs: array_to_page_v1).
* Proof: `max_by` and `min_by` give the extrema if no NaN and no prefix is there; merging keeps extrema (C46, C47); the bounds are carried through headers, metadata and column index (C48, C45, C69) by the injectivity of plain encodings; the rows of the pages kept contain all values in the range, and C71 reads them.
* What is missing: Flat optional columns written by the client code, with the restrictions of C59 and, for the search, of C71. NaN and strings that begin other strings violate the claim (C74_violated).
* Theorems: `C74_page`, `C74_items`, `C74_chunk_partial`, `C74_search_partial`, `C74_violated`.

### C75 — Fields of structures (partial)

Reading a page of a field inside structures that are not repeated gives, row by row, the value if the field and all the structures around it are there and a null if not, for every physical type, plain and dictionary encoded, whatever runs the writer chose for the definition levels; and which of the outermost structures are there is what their levels say. (Violated: of a required field in an optional structure the definition levels are not looked at: nulls are lost, or read as values.)

* Modelled: `Model/Deserialize`, `Model/Client`, `Model/ClientNested` (src/deserialize/utils.rs: DefLevelsDecoder, src/deserialize/native.rs: NativePageState, src/deserialize/binary.rs: BinaryPageState, src/deserialize/fixed_len.rs: FixedLenBinaryPageState, src/deserialize/boolean.rs: BooleanPageState, src/read/levels.rs: get_bit_width, tests/it/read/utils.rs: deserialize_levels, tests/it/read/struct_.rs: extend_validity).
* Proof: A specification of nested options with their levels; the level decoder yields the levels of any legal stream (C11, C31); the value is there exactly if the level is the greatest, so the items are those of C70.
* What is missing: Optional fields at any depth: proved in full. Required fields in optional structures: only if no structure is null; otherwise the claim is violated (C75_violated).
* Theorems: `C75_plain_page`, `C75_dictionary_page`, `C75_required_partial`, `C75_validity`, `C75_violated`.

### C76 — Lists are read as the lists written (partial)

A page of optional lists of optional 64-bit integers, read with the level decoders of the library as the nested reader of the repository does, gives exactly its lists: null lists, empty lists, null items and values, in order, whatever runs the writer chose. (Violated by the nested reader: a page that ends with a null or empty list gives an empty list more; indices that are not one bit-packed run as long as the levels are misread or rejected.)

* Modelled: `Model/ClientNested` (src/encoding/hybrid_rle/mod.rs: HybridRleDecoder, src/page/mod.rs: split_buffer, src/read/levels.rs: get_bit_width, src/encoding/bitpacked/decode.rs: Decoder, tests/it/read/primitive_nested.rs: compose_array, read_array_impl, read_dict_array).
* Proof: Invariant of the loop over the levels: the lists so far, followed by the one being read if the last definition level says so, are the rows so far; induction over items and rows.
* What is missing: Proved if the last row has items; what is read otherwise is stated exactly (C76_last_row). Index streams other than one bit-packed run violate the claim.
* Theorems: `C76_plain_partial`, `C76_last_row`, `C76_dictionary_partial`, `C76_violated`.

### C77 — Levels are read in the encoding that the page declares (partial)

A data page is read according to the encodings of levels that its header declares, or refused. (Violated: the declared encodings of levels are never looked at; a page with the BIT_PACKED levels of old writers is read as other values without an error.)

* Modelled: `Model/Page`, `Model/Deserialize`, `Model/Client` (src/page/mod.rs: split_buffer_v1, DataPage::definition_level_encoding, src/deserialize/utils.rs: DefLevelsDecoder::try_new, src/read/page/reader.rs: finish_page).
* Proof: By computation: no function of the reading path uses the declared encodings; the witness is a page in the BIT_PACKED encoding of the format.
* What is missing: Declared encodings of levels make no difference (C77_ignored); RLE levels are read right, BIT_PACKED levels are not (C77_violated).
* Theorems: `C77_declared`, `C77_ignored`, `C77_rle_partial`, `C77_violated`.

### C78 — Bloom filter of a column's values (partial)

A bloom filter built from the encoded values of a column never denies a value of the column, whether asked by its bytes or as a number of any native type, also when read from a file; different numbers of one width have different hashes; the filters that Spark wrote for given values are the filters of this library for these values; a float equal to an inserted one is found. (Violated: a filter of 0.0 denies -0.0, which equals it.)

* Modelled: `Model/Hash`, `Model/Bloom` (src/bloom_filter/hash.rs: hash_native, hash_byte, src/bloom_filter/split_block.rs: is_in_set, insert, src/bloom_filter/read.rs: read).
* Proof: xxHash64 is defined after its published algorithm; each of its steps on one word is a bijection (odd multipliers, rotations, xor-shifts), so hashes of one width are injective; no lost value by C34 for all hashes. The filters of Spark are compared by computation.
* What is missing: Everything but zeros of different sign, which are equal and have different hashes (C78_violated).
* Theorems: `C78_values_found`, `C78_column`, `C78_distinct`, `C78_other_writers`, `C78_published`, `C78_floats_partial`, `C78_violated`.

### C79 — Iterators yield as many items as they announce (partial)

The size hint of every iterator of the library is, at every point of the iteration, the number of items to come. (Violated: the iterator of booleans over hybrid RLE runs announces zero from the first item on; the iterator of strings announces the number in the page header, whatever follows.)

* Modelled: `Model/SizeHint` (src/encoding/hybrid_rle/mod.rs: HybridRleDecoder, src/encoding/hybrid_rle/bitmap.rs: BitmapIter, src/encoding/bitpacked/decode.rs: Decoder, src/encoding/delta_bitpacked/decoder.rs: Decoder, src/encoding/plain_byte_array.rs: BinaryIter, src/deserialize/hybrid_rle.rs: HybridRleIter, HybridRleBooleanIter, src/deserialize/utils.rs: OptionalValues, SliceFilteredIter).
* Proof: A counter that every step lowers by one and that is zero exactly at the end is the number of items (`Lemmas/SizeHint`).
* What is missing: Proved for all iterators but the one of booleans, whose hint is right only before the first item, and for strings if the page has as many as its header says (C79_violated).
* Theorems: `C79_decoders`, `C79_strings`, `C79_selected`, `C79_runs`, `C79_optional`, `C79_booleans_partial`, `C79_violated`.

### C80 — Arbitrary pages are decoded or refused (partial)

Opening a data page, whatever its header and its bytes, for any physical type and with or without a dictionary, succeeds or returns an error; and so does iterating it. (Violated; the pages that abort the process are exactly: those of an unknown encoding code, with V2 levels longer than the page, with a malformed first run of nested levels or of dictionary indices, with indices without a width, and with fixed-length values of length 0. Iterating aborts only at a malformed run header.)

* Modelled: `Model/Deserialize`, `Model/Page` (src/deserialize/native.rs: NativePageState::try_new, src/deserialize/binary.rs: BinaryPageState::try_new, src/deserialize/fixed_len.rs: FixedLenBinaryPageState::try_new, src/deserialize/boolean.rs: BooleanPageState::try_new, src/deserialize/utils.rs: DefLevelsDecoder::try_new, dict_indices_decoder, src/page/mod.rs: split_buffer, src/encoding/hybrid_rle/decoder.rs: Decoder).
* Proof: Splitting a page has three outcomes, characterised by the layout of the page; given the sections, levels and indices abort exactly on a malformed first run (`Lemmas/Arbitrary`).
* What is missing: The pages that abort are characterised exactly, each kind with a witness (C80_violated); all others are decoded or refused. Missing: the claim itself, which is false.
* Theorems: `C80_native`, `C80_binary`, `C80_fixed`, `C80_boolean`, `C80_iterating`, `C80_violated`.

### C81 — Metadata of column chunks survive serde (partial)

With the serde feature, metadata of column chunks serialised in any data format that keeps byte strings and deserialised again are the same metadata. (Violated: serialising fails for every column chunk, since the thrift bytes are written to a cursor over a slice of length zero.)

* Modelled: `Model/Serde` (src/metadata/column_chunk_metadata.rs: serde_types::serialize_column_chunk, serde_types::deserialize_column_chunk).
* Proof: Induction over the pieces in which the protocol writes: a cursor over an empty slice takes no byte, and the thrift bytes of a structure are not empty. Deserialising by the round trip of C24.
* What is missing: Serialising always fails (C81_violated); deserialising thrift bytes gives the column chunk back.
* Theorems: `C81_violated`, `C81_deserialize_partial`, `C81_arbitrary`.

### C82 — Pages do not depend on how the reader delivers bytes (proved)

The pages of a column (by the page reader, by the asynchronous stream, and by the reader of indexed pages), the page indexes, the page locations and the bloom filter are functions of the bytes of the file alone: whatever pieces the reader delivers, wherever it stood before, and however the thrift protocol asks for bytes. If a call of the reader fails, what was delivered before is the same, and then comes an error.

* Modelled: `Model/PageSource`, `Model/PageIO`, `Model/Indexes`, `Model/Bloom` (src/read/page/reader.rs: PageReader, get_page_iterator, build_page, src/read/page/stream.rs: _get_page_stream, get_page_stream_with_page_meta, src/read/page/indexed_reader.rs: IndexedPageReader, src/read/indexes/read.rs: read_columns_indexes, read_pages_locations, src/bloom_filter/read.rs: read).
* Proof: The functions on a reader simulate those on bytes: after each item the reader stands where the rest of the bytes begins, or it has failed (`Lemmas/PageSource`). That the compact protocol is lawful: its decoder reads bytes from the front and looks at no more than it consumes (`Lemmas/ThriftProtocol`).
* Note: For every lawful reader (Spec/Source) and every lawful thrift protocol (Spec/PageSource: what it makes of a prefix is an error, or what it makes of the whole); the compact protocol is one (Lemmas/ThriftProtocol).
* Theorems: `C82_open`, `C82_open_stream`, `C82_pages`, `C82_stream`, `C82_stream_stops`, `C82_indexed`, `C82_indexes`, `C82_filter`.

### C83 — Files of any bytes are read or refused (partial)

Whatever bytes a file has, nothing done with them up to its decompressed pages aborts the process: the metadata is read or refused; if it is read, every getter of every column returns, its statistics are read or refused, the columns of a field are found and a page reader can be made; in whatever state, the page reader, the stream and the decompressor deliver a page, an error or the end. (Violated in builds with overflow checks.)

* Modelled: `Model/FileMetadata`, `Model/PageIO`, `Model/Compression` (src/read/metadata.rs: read_metadata, src/metadata/column_chunk_metadata.rs: ColumnChunkMetaData, src/metadata/row_metadata.rs: RowGroupMetaData::compressed_size, src/read/mod.rs: get_page_iterator, get_field_columns, src/read/column/mod.rs: get_column_iterator, read_columns, src/read/page/reader.rs: PageReader, src/read/page/stream.rs, src/read/compression.rs: Decompressor, decompress).
* Proof: What `try_from_thrift` checks is what the getters need. The page reader: its counter of values is bounded by 2^31 times the bytes consumed (`Balance`, `Lemmas/ArbitraryFile`), kept by every call. Decompression case by case.
* What is missing: Proved for builds without overflow checks (C83_release); with them the two places that abort are characterised (V2 level lengths, the sum of the sizes of a row group) and witnessed (C83_violated), for files below 2^32 - 1 bytes. The schema with overflow checks: C50_violated. What follows the decompressed page: C80.
* Theorems: `C83_getters`, `C83_metadata`, `C83_row_group_size`, `C83_pages`, `C83_stream`, `C83_decompress`, `C83_levels_beyond`, `C83_decompressor`, `C83_release`, `C83_violated`.

### C84 — Page indexes of any bytes are read or refused (partial)

Whatever bytes a file has and wherever its metadata says the indexes are: the column indexes and the page locations are read or refused; the rows of the pages and the pages for selected rows are computed from whatever locations or refused; the reader of pages at locations delivers a page, an error or the end. (Violated: an index beyond the end of the file and a boolean index with an empty bound abort the reader; with overflow checks, also a first location before the column.)

* Modelled: `Model/Indexes`, `Model/Intervals`, `Model/PageIO` (src/read/indexes/read.rs: read_columns_indexes, read_pages_locations, src/read/indexes/deserialize.rs: deserialize, src/indexes/index.rs: BooleanIndex::try_new, src/indexes/intervals.rs: compute_page_row_intervals, compute_rows, select_pages, src/read/page/indexed_reader.rs: IndexedPageReader).
* Proof: Induction over the columns: the slices of `deserialize_column_indexes` against the bytes that were there to read; each `try_new` case by case (`Lemmas/ArbitraryIndex`).
* What is missing: What aborts is characterised exactly (C84_column_indexes, C84_pages) and witnessed (C84_violated); nothing else does. For fewer than 2^32 columns, selections whose intervals end before 2^64, and columns of metadata that was read.
* Theorems: `C84_column_indexes`, `C84_locations`, `C84_selection`, `C84_pages`, `C84_violated`.

### C85 — Equality of statistics and of page indexes (partial)

Comparing two statistics, or two page indexes, returns; it is true exactly when both are of the same kind and all their fields are the same, floats being compared as numbers. It is symmetric and transitive, and, as Eq promises for page indexes, reflexive; statistics written and read again are equal to those written. (Violated: a NaN bound makes statistics and indexes differ from themselves, and fixed-length statistics that carry the type of another physical type abort the comparison.)

* Modelled: `Model/Equality` (src/statistics/mod.rs: impl PartialEq for &dyn Statistics, src/indexes/index.rs: impl PartialEq for dyn Index, impl Eq for dyn Index, equal, src/statistics/primitive.rs: PrimitiveStatistics, src/indexes/index.rs: PageIndex, NativeIndex).
* Proof: Case by case on the two kinds; the keys by which floats are compared are the same exactly when the numbers are (`magnitude` is strictly monotone, `Lemmas/Statistics`).
* What is missing: Which comparisons return, and when they are true, is characterised exactly; what is read never aborts a comparison (C85_read). Reflexivity fails exactly for NaN bounds (C85_reflexive, C85_violated).
* Theorems: `C85_statistics`, `C85_indexes`, `C85_panics`, `C85_index_panics`, `C85_reflexive`, `C85_equivalence`, `C85_read`, `C85_roundtrip`, `C85_violated`.

### C86 — Reader of ranges of a remote object (partial)

The reader of the S3 example reads the object: whatever range function delivers the right bytes (after any number of polls that are pending), any sequence of polls and seeks - reads that are given up included - delivers at each position exactly the bytes of the object; what is held is not requested again; the metadata and the column chunks read through it are those of the object's bytes; reads at the end deliver what is left. (Violated: a read that ends beyond the object recurs forever with ever more requests, a poll after a failure aborts, and seeks before the start are accepted.)

* Modelled: `Model/RangedStreamer` (examples/s3/src/stream.rs: RangedStreamer, range_includes, poll_read, poll_seek, src/read/stream.rs: read_metadata).
* Proof: An invariant of the state (the chunk held, or waited for, is a piece of the object) kept by every poll and seek; waiting by induction over pending polls (`Lemmas/RangedStreamer`). The reader satisfies `LawfulSource`, so C67 applies; that the metadata reader never reads beyond the end: `Lemmas/RangedSource`.
* What is missing: Proved for reads that stay within the object (C86_within, C86_metadata); all that is ever delivered is right (C86_interleaved). Reads beyond the end never return (C86_violated).
* Theorems: `C86_poll`, `C86_interleaved`, `C86_within`, `C86_requests`, `C86_lawful`, `C86_metadata`, `C86_violated`, `C86_violated_failure`.

### C87 — Whether a schema is part of another (partial)

`check_contains` of a schema answers whether another schema is part of it: every node of the other, named by the names on the way from the root, is there, as a group if it is a group and with the same name, repetition, id and physical type if it is a column; so the columns of the other are columns of this one with the same levels and types. A schema is part of itself, a part of a part is a part, and every choice of columns is a part.

* Modelled: `Model/Schema` (src/schema/types/parquet_type.rs:75-112).
* Proof: Induction on the candidate. The specification names nodes by the list of field names on the way (`Spec.NodeAt`), `Spec.LastAt` resolving fields of the same name as the `HashMap` does. The columns are those of `Spec.leafPaths`.
* What is missing: The answer is characterised exactly (C87_contains). The repetition of groups and the logical types of columns are not compared, so the levels and types of the columns may differ, and a schema with two fields of the same name need not contain itself (C87_violated).
* Theorems: `C87_contains`, `C87_names`, `C87_reflexive`, `C87_transitive`, `C87_columns_partial`, `C87_complete`, `C87_violated`.

### C88 — Sidecar of several files (partial)

The metadata of several files of the same schema, each column chunk with the path of its file, merged and written to a file of its own, are read back: the schema, the rows of all files, and the row groups of all files in order, each column chunk with the path of its file; reading its pages from that file with what the sidecar tells delivers the pages written.

* Modelled: `Model/Sidecar` (examples/write_sidecar.rs:18-62, src/write/file.rs:61-75, src/read/metadata.rs:35-105, src/read/mod.rs:48-66).
* Proof: C88_metadata is about any metadata that are read with the same schema descriptor; C88_written_partial adds what C59 and C38 say about files and the sidecar. `Spec.GroupOf` says that a row group of the sidecar is that of its own file with the path set.
* What is missing: All row groups are told, each with the path of its file, and their pages are read from it. Missing: the number of rows is that of one file, the row groups of the last file come first and ordinals repeat (C88_violated). For files as in C59 and sidecars below 2^31 bytes.
* Theorems: `C88_metadata`, `C88_written_partial`, `C88_violated`.

### C89 — How writing ends (partial)

Every call of a writer returns: `write` (of a page, a column chunk, a row group) and `end` are done or refused with an error, never abort the program, which of them can be told from the pages alone; a row group that is refused is not part of the file; and a file all of whose row groups were accepted can be ended.

* Modelled: `Model/Writer` (src/write/page.rs:46-95, src/write/column_chunk.rs:28-214, src/write/row_group.rs:59-141, src/write/indexes/serialize.rs:15-97, src/write/statistics.rs:17-60, src/write/file.rs:137-232, src/write/stream.rs:95-188).
* Proof: The outcome of a sequence of steps is that of the first one that is not done (`Spec.inTurn`, `Outcome.andThen`); an `outcome` equation for every function of the writer, from the page up (`Lemmas/WriterOutcome*`). Histories with refused calls are `Spec.Tried`; their invariant is `Kept`.
* What is missing: How every call ends is characterised exactly from the pages alone (C89_page, C89_column_partial, C89_write_partial, C89_end_partial), for pages that fit in memory (less than 2^31 pages in a column, sizes below 2^63, at most 2^31 bytes written by `end`). Missing: some calls abort, and `end` may refuse what `write` accepted (C89_violated).
* Theorems: `C89_page`, `C89_column_partial`, `C89_write_partial`, `C89_end_partial`, `C89_violated`.

### C90 — Limits, filters and buffers only leave pages out (proved)

Whatever the bytes: a page reader (or stream) with a lower limit of allocations delivers the same pages as one with a higher limit, or the same up to an error; a page reader with a filter delivers what the one without delivers, in the same order, minus the pages that do not pass, and is left at the same place; the content of the buffer passed to it does not matter.

* Modelled: `Model/PageIO` (src/read/page/reader.rs:140-223, src/read/page/stream.rs:60-127).
* Proof: A step of the reader with a lower limit is an error or that of the other (`build_limit`); a step of the reader with a filter is one or more of the reader without (`next_filter`); `Lemmas/PageSequence*`.
* Note: The conditions on the codec of page headers (no abort, progress, monotone in the limit) are proved for the compact protocol.
* Theorems: `C90_limit`, `C90_limit_compact`, `C90_stream_limit`, `C90_filter`, `C90_scratch`.

### C91 — A column is read from its own bytes (partial)

What is read of a column depends only on the bytes of the column: what is read into memory on its range, the pages the indexed reader delivers on the ranges of the selected locations, and the pages the page reader delivers on the bytes before its end; a file with the same bytes there, and anything elsewhere, gives the same pages.

* Modelled: `Model/PageIO`, `Model/FileMetadata` (src/read/page/reader.rs:140-223, src/read/page/indexed_reader.rs:46-208, src/read/column/mod.rs:190-201, src/read/mod.rs:48-66).
* Proof: A page is built from a prefix of the bytes, whatever follows (`buildPage_local`, from the locality of the thrift reader `Compact.local_dec`); the rest by induction over the pages.
* What is missing: Proved for columns read into memory, for the indexed reader and for chunks of written files. Missing: if the metadata announce more values than are in the range, the page reader goes on beyond it (C91_violated); C91_local says on what bytes it depends.
* Theorems: `C91_local`, `C91_memory`, `C91_indexed`, `C91_written_partial`, `C91_violated`.

### C92 — Sizes of encoded values (partial)

How many bytes the encoders write is known from the values: varints and zig-zag varints are the shortest possible; booleans take a bit each, indices and levels of n bits n bits each, rounded up to bytes, after the shortest header; a delta stream takes, for every 128 deltas, as many bits each as the greatest distance to the smallest delta has, and no legal stream of the same blocks is shorter by more than nine bytes a block; strings take their bytes (with shared prefixes: what they do not share with the string before) and the delta streams of the lengths.

* Modelled: `Model/Leb128`, `Model/HybridRle`, `Model/Delta*` (src/encoding/uleb128.rs, src/encoding/zigzag_leb128.rs, src/encoding/hybrid_rle/encoder.rs:9-93, src/encoding/delta_bitpacked/encoder.rs:8-76, src/encoding/delta_length_byte_array/encoder.rs, src/encoding/delta_byte_array/encoder.rs).
* Proof: Sizes as sums in `Spec/EncodedSize`, proved along the loops of the encoders; the comparison by induction over the blocks of the other stream (`deltaBlocks_size`), whose width cannot be smaller (`Delta.width_minimal`).
* What is missing: The sizes are exact for all inputs on which the encoders return (C17 says where they do not). That no stream is shorter is proved for deltas closer to each other than 2^63. Missing: deltas further apart are written with 64 bits where one would do, and `encode_u32` may write less bytes than its header announces (C92_violated; C92_groups says when).
* Theorems: `C92_varint`, `C92_zigzag`, `C92_bool`, `C92_u32`, `C92_groups`, `C92_delta`, `C92_delta_bound`, `C92_delta_shortest`, `C92_delta_length`, `C92_delta_bytes`, `C92_violated`.

### C93 — What the kind of an error tells (partial)

Every error is of the kind that its cause is documented with: what is not a valid file - the footer, thrift structures, schemas, statistics, page indexes, bloom filters, encoded values - is out of specification and nothing else; over-allocation is reported only by readers of pages, and only if a limit below 2^31 - 1 was set; a feature is reported as not active exactly if the codec needs it and it is not, as unsupported only for LZO (and the old LZ4 when compressing) and for encodings without support; and an invalid parameter only where one was passed when encoding: a writer started or ended twice. Writing reports the errors of the pages it was handed, or out of specification.

* Modelled: all of `Model` (src/error.rs: Error, src/read/metadata.rs: read_metadata, src/read/page/reader.rs: build_page, src/read/page/stream.rs: _get_page_stream, src/read/page/indexed_reader.rs: IndexedPageReader, src/compression.rs: compress, decompress, src/deserialize: NativePageState, BinaryPageState, FixedLenBinaryPageState, BooleanPageState, src/write/file.rs: FileWriter, src/schema/io_message/from_message.rs: from_message).
* Proof: A predicate on results, `Fails` (`Spec/ErrorKinds`), closed under the constructs of the model; a tactic goes through each function (`Lemmas/ErrorKinds*`).
* What is missing: Proved for all functions that are modelled, assuming that errors of the external codecs are out of specification, as the conversions of src/error.rs make them. Missing: decoding boolean and fixed-length pages reports an invalid parameter for what is in the file, and a page header beyond the limit is out of specification (C93_violated); encodings that are refused are in C58_refused.
* Theorems: `C93_thrift`, `C93_metadata`, `C93_schema`, `C93_indexes`, `C93_decoders`, `C93_pages`, `C93_pages_unlimited`, `C93_stream`, `C93_indexed`, `C93_compress`, `C93_inactive`, `C93_decompress`, `C93_decode`, `C93_write`, `C93_end`, `C93_violated`.

### C94 — A field is read by its name (partial)

Of every file written from arrays, each field of each row group can be read by its name: its columns are found, in the order of the schema and no others, and their pages are read and decompressed into exactly the arrays written; for a structure also which items are there; with them come the statistics that the pages of the last column were written with. A name that the schema does not have is refused with an error. (Violated by the client of the repository: of a primitive field with several pages only the last page is returned.)

* Modelled: `Model/ClientRead` (src/read/metadata.rs: read_metadata, src/read/mod.rs: get_field_columns, get_page_iterator, src/read/column/mod.rs: get_column_iterator, ColumnIterator, src/read/compression.rs: BasicDecompressor, src/metadata/column_chunk_metadata.rs: statistics, tests/it/read/mod.rs: columns_to_array, read_column, tests/it/read/struct_.rs: extend_validity).
* Proof: The columns of the field are those whose path starts with its name, on both sides of C59; the iterator over columns advances along them whatever is done with the page readers (C54); each column is the observation of the decompressor (C34) folded over its pages (`columnOf_read`), the loop by induction over the columns (`readColumns_ok`). With dictionaries: `reads_delivers` turns C59 and C34 into the pages that a chunk delivers, and `C94_columns` says what the loops make of them.
* What is missing: Proved for primitive fields and structures of flat optional columns from arrays (C94_field_partial); for any fields of files by the writer, with dictionaries and nested columns, in terms of their pages (C94_written_partial); and for the columns of any file that deliver their pages (C94_columns). Of a primitive field the theorem gives the last page, which is all of the field if it has one page; the client drops the others (C94_violated). A row group that is not there aborts (C94_missing). Missing besides: what is missing in C70 and C59.
* Theorems: `C94_field_partial`, `C94_written_partial`, `C94_columns`, `C94_missing`, `C94_statistics`, `C94_violated`.

### C95 — Padding is zero (partial)

Where the values that an encoder is handed do not end with a byte or a block, the bits written beyond the last value are zero, so that the bytes written depend only on the values and their number and do not repeat values: booleans and definition levels, indices and levels of any width (`hybrid_rle::encode`), the last block of a delta stream. (Violated: beyond more than 32 values of `encode_u32` and in the last of several blocks of a delta stream, earlier values are repeated.)

* Modelled: `Model/HybridRle`, `Model/Delta`, `Model/Bitmap` (src/encoding/hybrid_rle/encoder.rs:33-93, src/encoding/hybrid_rle/bitmap.rs:70-102, src/encoding/delta_bitpacked/encoder.rs:35-76).
* Proof: What the loop over full chunks leaves in the buffer (`encodeBlocks_buffer`), and which bits of the last chunk come from it; for delta streams, a buffer of zeros packed with the deltas in front.
* What is missing: Proved for booleans; for `u32` every bit written is known (C95_u32), and the padding is zero for at most 32 values; for delta streams it is zero in one block. Missing: beyond more values the padding repeats earlier ones (C95_violated).
* Theorems: `C95_bool`, `C95_u32`, `C95_u32_partial`, `C95_delta_partial`, `C95_violated`.

### C96 — Row groups and column chunks can be moved (partial)

Where a row group or a column chunk is written does not matter: its pages, its metadata, its indexes and whether and how it is refused are the same at every offset and for every number of row groups before it, except for the offsets, which move along (and the bytes they take in the metadata that follows each chunk). A column chunk of a written file that is copied to any place of any file is read there with the same pages, given its metadata with the new offset.

* Modelled: `Model/Writer`, `Model/FileMetadata` (src/write/page.rs:46-95, src/write/column_chunk.rs:28-214, src/write/row_group.rs:59-141, src/write/indexes/serialize.rs:12-82, src/write/file.rs:140-160, src/read/mod.rs:48-66, src/read/column/mod.rs:190-201, src/metadata/column_chunk_metadata.rs:169-178).
* Proof: `Spec/Moved`: what is written at offset 0, and the same moved. Each function of the writer commutes with moving the pages (`writePages_moved`, `build_moved`, `columnIndexEntry_moved`, …); the row group is the `layout` of its parts by induction. Copies: C91 for a file with the copied bytes at the old place, which the page reader cannot tell apart (C96_read).
* What is missing: Writing: proved for the build without overflow checks, at every offset (a chunk without pages is said to be at 0 anywhere). Reading: from the start of the chunk on for arbitrary bytes (C96_read), from the range of the chunk for column chunks of written files (C96_copied_partial). With overflow checks, writing aborts or does the same (C97_write). Missing: with them it aborts where the offset and the size of a chunk are beyond 2^63; foreign files whose pages go beyond the range of the chunk (C91_violated).
* Theorems: `C96_column`, `C96_row_group`, `C96_write`, `C96_indexes`, `C96_read`, `C96_memory`, `C96_copied_partial`.

### C97 — Overflow checks only turn results into aborts (proved)

A build with overflow checks (debug) and one without (release) compute the same wherever the former does not abort: the files written, byte for byte, and the results and errors of writing; the pages, errors and the place in the bytes of every reader of pages, of any bytes; compressed and decompressed pages; schemas, metadata, page indexes and selected pages; what the delta encoders write and what the delta and hybrid decoders read from any bytes; merged statistics and bloom filters. The same holds when the bytes go to a writer, or come from a reader, that delivers pieces and fails at any call, or from ranges of a remote object.

* Modelled: all of `Model` with `ck` (src/write/file.rs:140-232, src/write/stream.rs:95-188, src/write/statistics.rs:17-172, src/read/page/reader.rs:143-223, src/read/page/stream.rs:75-129, src/read/page/indexed_reader.rs:152-208, src/read/compression.rs:15-282, src/write/compression.rs:11-156, src/metadata/schema_descriptor.rs:85-144, src/indexes/intervals.rs:98-138, src/read/indexes/read.rs:82-132, src/encoding/delta_bitpacked, src/encoding/delta_length_byte_array, src/encoding/delta_byte_array, src/encoding/hybrid_rle/decoder.rs:30-64, src/deserialize/filtered_rle.rs:82-273, src/bloom_filter/split_block.rs:8-82, examples/s3/src/stream.rs:49-117).
* Proof: A relation on results (`Spec/Profiles`): the first is an abort, or they are equal; it is closed under the constructs of the model, so that it goes through each function from the additions up (`Lemmas/Profiles`, `Lemmas/ProfilesRead`); `Lemmas/ProfilesIo` does the same for `Model/Sink`, `Model/PageSource` and `Model/RangedStreamer`.
* Note: Proved for the synchronous and asynchronous writers (into memory and to any sink), the page reader, the stream and the indexed reader (over bytes in memory and over any reader), and the functions listed. That the profiles differ where they do is in the examples. Not in the statement: the clients of the tests.
* Theorems: `C97_write`, `C97_file`, `C97_pages`, `C97_compression`, `C97_metadata`, `C97_encodings`, `C97_bloom`, `C97_sink`, `C97_sink_sidecar`, `C97_sources`, `C97_ranges`.

### C98 — What was read can be written again (partial)

Whatever bytes a decoder accepts, of whatever writer: the values it gives are accepted by the encoder of the same encoding, and read back from what it writes as the same - varints (in no more bytes than before) and zig-zag varints, delta streams of any blocks, strings with delta lengths, strings with shared prefixes, hybrid streams; PLAIN strings are written as the same bytes. (Violated: strings one of which begins the one before are read and the encoder aborts on them; repeated values wider than their bit width are read as they are and lost when written.)

* Modelled: `Model/Leb128`, `Model/HybridRle`, `Model/Delta*`, `Model/DeltaBytes` (src/encoding/uleb128.rs, src/encoding/zigzag_leb128.rs, src/encoding/delta_bitpacked, src/encoding/delta_length_byte_array, src/encoding/delta_byte_array, src/encoding/hybrid_rle, src/encoding/plain_byte_array.rs).
* Proof: What the decoders give for any bytes is within the bounds of the round trips C11-C17 and C08 (`Lemmas/Rewrite`): less than 2^64 values, by the number that is left at each step; less than 2^32 bytes of strings, by the sum of 32 bits.
* What is missing: Proved for all bytes for varints, delta streams (without overflow checks; C13_checked says when the checks abort), strings with delta lengths and PLAIN strings. Missing: strings one of which begins the one before, and values of a hybrid stream that do not fit the width (C98_violated); strings with shared prefixes of 2^32 bytes or more in total, and hybrid streams of width 0.
* Theorems: `C98_varint`, `C98_zigzag`, `C98_delta`, `C98_delta_length`, `C98_delta_byte_array_partial`, `C98_plain`, `C98_hybrid_partial`, `C98_violated`.

### C99 — A file copied page by page is the same file (partial)

A program that reads the metadata of a file and all of its pages, compressed as they are, and hands them to a writer with the schema, version, creator and key-values that it read, writes the same file, byte for byte. (Violated for pages from the sequential reader and the stream: they do not tell their number of rows, and the writer refuses any row group of them; with the number given back, or with the indexed reader, the copy is the same file.)

* Modelled: `Model/Writer`, `Model/PageIO`, `Model/Intervals` (src/read/metadata.rs: read_metadata, src/read/indexes/read.rs: read_pages_locations, src/indexes/intervals.rs: select_pages, src/read/page/indexed_reader.rs: IndexedPageReader, src/read/page/reader.rs: PageReader, src/page/mod.rs: CompressedDataPage::select_rows, src/write/page.rs: write_page, src/write/row_group.rs: compute_num_rows, src/write/file.rs: FileWriter).
* Proof: `writePage` of a copy is the same (`writePage_copy`), hence everything above it; C63 with all rows selected leaves one interval per page, which is all of it (`readsAll`); C59 for the schema and the rest. For the violation: all specs have no number of rows, so that `computeNumRows` fails (`writeRowGroup_rowless`).
* What is missing: From the bytes of the file to the bytes of the copy with the indexed reader, all rows selected (C99_copied_partial); any pages that differ from those written only in where their rows begin and in the sortedness of dictionaries are written alike (C99_write, C99_file). Missing: pages of the sequential readers are refused as they are (C99_violated; C99_read says what is to be given back); data pages of no rows, which the indexed reader leaves out; what is missing in C59 and C63.
* Theorems: `C99_write`, `C99_read`, `C99_select`, `C99_file`, `C99_copied_partial`, `C99_violated`.

## Defects and surprises found in the code

Each is a theorem with a concrete witness (named in brackets) or follows from one.

Encodings
* A varint cut off in the middle is decoded as a shorter number instead of being refused [`C02_truncated_accepted`].
* Bit-packing a value wider than the field corrupts the neighbouring value when the field straddles a word [`C07_violated`].
* The hybrid decoder takes all bits of the bytes of a repeated value, also those beyond the bit width, where the format has values of that width; such a value is not preserved when it is written again [`C98_violated`, `C10_values`].
* The delta encoder overflows in debug builds for values far apart [`C15_violated`, `C15_violated_spread`].
* The delta-byte-array encoder panics whenever a string is a proper prefix of its predecessor [`C17_violated`].
* A hybrid-RLE stream that is too short yields zeros up to the announced count; a truncated last group is zero-filled.
* `BitmapIter` reads its last byte again when asked for more bits than the bytes hold.
* A bit width above that of the type panics [`C06_width_too_large_panics`].
* The delta decoder panics on illegal headers, bit widths above 64 and overlong varints [`C73_violated`], with overflow checks on overflowing sums [`C73_violated_overflow`]; it accepts numbers of miniblocks that do not divide the block size [`C73_violated_accepts`]. Cut in its header, a stream is read as fewer or other values or panics [`C72_violated`, `C72_violated_aborts`]; cut values of delta-length byte arrays panic [`C72_delta_length_partial`].

Decoding of pages
* `HybridRleBooleanIter` stops after the first run [`C20_violated`].
* Empty intervals in the selected rows: panic with overflow checks, wrong rows without [`C21_violated`]; `select_pages` produces such intervals [`C28_empty_interval`].
* `FixexBinaryIter` drops an incomplete last value and panics for length 0 [`C23_violated`].
* A dictionary-encoded page with an empty value section panics [`C24_violated`].
* V2 headers whose level lengths exceed the page panic [`C32_violated`].
* `page.encoding()` panics for unknown encodings [`C58_violated`].
* `ord_binary` finds a string equal to its extensions [`C30_violated`].

Compression
* V2 pages with `is_compressed = false` are compressed by the writer and left alone by the reader; a non-empty scratch buffer ends up in the page [`C33_violated`].
* With the block codecs (snappy, lz4), a page that announces more bytes than its block holds shows bytes of an earlier page [`C34_violated`].
* After an error `Decompressor::get` still gives the page before.
* The Hadoop-LZ4 loop stops when what is left is not longer than the frame just read, and then reports an error for well-formed input [`C53_violated`].

Pages and files
* The sortedness of dictionary pages is not written; a last page without values is not read back [`C35_violated`].
* The uncompressed size in a page header is not limited by `max_page_size`; the stream variant skips truncated and oversized filtered pages silently [`C36_violated`].
* `IndexedPageReader` underflows when the first page lies before the column, and does not compare sizes [`C37_violated`].
* After a failed `write` the offsets of the next row groups are wrong [`C40_violated`].
* A call that failed in the middle (disk full, interrupted connection) and is made again with success leaves wrong offsets in the file: the writer counts the bytes it meant to write, not those that got to the sink [`C66_violated`, `C66_violated_group`, `C66_violated_end`].
* A file cut after page data that looks like a file is read as that file; a weakness of the format rather than of the code [`C65_violated`].
* Row groups are accepted after `end`; `FileStreamer::end` can be called twice [`C41_violated`].
* Pages with several selected intervals count the rows of the last one only [`C42_violated`, `C43_violated`].
* A page with values but without minimum is flagged as null page [`C44_not_null_flagged`].
* `read_columns_indexes` reads adjacent bytes for columns that are not adjacent, and truncated files panic; `read_pages_locations` fails without offset index although documented to return nothing [`C45_violated`, `C45_no_offset_index`].
* A boolean column index with an empty bound aborts the reader (`min[0]`), also in release builds [`C84_violated`].
* Chunk statistics: pages without statistics are ignored, a NaN hides the other bounds, int96 is `todo!()` [`C46_violated`]; byte strings that are prefixes of each other are compared as equal [`C47_violated`].
* Row groups with fewer columns than the schema has leaves are written and cannot be read [`C59_violated`].
* Bloom filters: a short read is accepted, querying an empty filter panics [`C57_violated`].

* The page states ask whether the field itself is optional, not whether it has definition levels: nulls of a required field in an optional structure are lost or read as values [`C75_violated`].
* The encodings of levels that a page declares are ignored: BIT_PACKED levels are read as RLE [`C77_violated`].
* Statistics made with `max_by`/`min_by` over floats with NaN, and of strings one of which begins another, exclude values that are there [`C74_violated`].
* A bloom filter of a float column that holds 0.0 denies -0.0 [`C78_violated`].
* `HybridRleBooleanIter::size_hint` is zero from the first item on; `BinaryIter::size_hint` repeats the page header [`C79_violated`].
* Pages that abort the process when opened: unknown encoding, V2 levels longer than the page, dictionary indices of zero bytes or with a cut first run, malformed nested levels, fixed length 0 [`C80_violated`].
* (Client code) The nested reader appends an empty list after a last null or empty list, and takes any index stream for one bit-packed run [`C76_violated`].
* (Client code) `columns_to_array` returns only the last page of a primitive field [`C94_violated`].

Schema and metadata
* A group without children is read back as a primitive or refused [`C49_violated`]; a negative number of children is read as such a group.
* A decimal in a FIXED_LEN_BYTE_ARRAY longer than 128 bytes may have any precision [`C55_violated`].
* INTEGER types of a width other than 8, 16, 32, 64 are read as Int32 [`C51_integer_fallback`].
* Message parser: unterminated and some truncated messages are accepted [`C52_violated`, `C52_unterminated`], MAP or LIST on a primitive panics [`C52_panics`], an id that is no number is ignored, text after the message is ignored, the depth of recursion is not limited.
* `ReadColumnIterator` delivers the columns of a field in reverse order [`C54_violated`].
* Schemas of more than 32767 nested levels have negative levels, or abort builds with overflow checks [`C50_violated`].
* In builds with overflow checks a V2 page whose level lengths do not add up to an `i32`, and a row group whose column sizes do not add up to a `usize`, abort the process [`C83_violated`].
* `column_order` panics when there are fewer orders than columns [`C60_violated`].
* Column orders, sorting columns and row-group ordinals are lost when metadata is written again [`C61_violated`].
* `serde_types::serialize_column_chunk` writes to a cursor over an empty slice: serialising the metadata of a column chunk always fails (`C81_violated`).
* Reading the metadata panics if the file is shortened after its length was determined [`C67_violated`].
* `read_column` returns fewer bytes without an error if the file ends within the chunk [`C68_violated`].
* The dictionary page offset is never written, `data_page_offset` is that of the dictionary page; a column without pages is said to be at offset 0 [`C69_violated`].
* `dyn Index` implements `Eq`, but an index with a NaN bound is not equal to itself; `==` of fixed-length statistics whose (public) primitive type has another physical type aborts [`C85_violated`].
* The reader of ranges in `examples/s3` recurs forever on a read that ends beyond the object, and aborts when polled after a failed request [`C86_violated`, `C86_violated_failure`].
* `ParquetType::check_contains` (`src/schema/types/parquet_type.rs:75-112`) compares field infos of primitives only: a group of another repetition is accepted, although the levels of the columns below differ; logical and converted types are not compared; of two fields of the same name only the last is found, so such a schema may not contain itself (`C87_violated`).
* The example `examples/write_sidecar.rs` (the only documentation of how to merge metadata) leaves `num_rows` at the rows of the last file and puts its row groups first [`C88_violated`].
* `write_page` (`src/write/page.rs:93`) aborts on a page whose `selected_rows` is `Some` of an empty list; `reduce` (`src/write/statistics.rs`) aborts on statistics of INT96 (`todo!()`) and on null counts whose sum overflows; `end` fails, after everything was written, for a page without statistics or a page of a later column without selected rows, which `write` accepted [`C89_violated`].
* The indexed reader never delivers a dictionary page that is not the first page of its column, which the writer accepts; and it refuses page headers with more than 1 MiB of statistics, whatever the limit of the caller [`C63_violated`, `C63_header_limit`].
* The writer takes the number of rows of a page from `selected_rows`, a field about reading that is documented as "When `None`, all rows are to be considered" and is `None` in all pages of the sequential reader and the stream: a page that was read cannot be written, although nothing is missing from it [`C99_violated`].
* `get_page_iterator` does not end at the end of the column chunk: with more values announced than there are, pages of the next column are delivered as pages of this one [`C91_violated`].
* `hybrid_rle::encode_u32` (`src/encoding/hybrid_rle/encoder.rs:9-72`) announces whole groups of eight values and writes only the bytes that the values need: with eight bits or more missing, the run is shorter than its header says (the decoder of the crate accepts it) [`C92_violated`, `C92_groups`]. The delta encoder takes the smallest delta as signed number: two deltas 1 apart modulo 2^64 may take 64 bits each where one would do [`C92_violated`].
* `Error::InvalidParameter` is documented as "When encoding, the user passed an invalid parameter", but is what decoding a boolean page that is not PLAIN, or a fixed-length state over another physical type, reports (`src/deserialize/boolean.rs`, `src/deserialize/fixed_len.rs`); a page header beyond the limit of allocations is reported as out of specification, not as `WouldOverAllocate` [`C93_violated`].
* `hybrid_rle::encode_u32` reuses its buffer of 32 values, and the delta encoder its 128 deltas, without clearing them: the padding of the last byte or block repeats earlier values, where the format says that "the values of the padding bits should be zero" [`C95_violated`, `C95_u32`].

## Places where the model once differed from the code

* `readPageAt` read a page of any length; the code reserves the length first, which fails above `isize::MAX` (a dictionary length that wraps around in a release build). Found while modelling the same function on a reader; the model now returns an error there.

## Axioms per theorem

P = `propext`, Q = `Quot.sound`, C = `Classical.choice`; from `#print axioms`.

* **P**: C19_optional_values, C21_violated, C28_empty_interval, C29_wrong_size, C30_swap, C30_violated, C33_unsupported, C33_violated, C34_basic_violated, C34_compressor, C34_into_inner, C34_violated, C35_violated, C36_stream_stops, C36_violated, C37_violated, C43_violated, C44_not_null_flagged, C45_no_column_index, C46_violated, C47_violated, C49_violated, C51_integer_fallback, C51_levels, C53_violated, C54_read_iterator_reversed, C55_violated, C60_violated, C61_huge_panics, C61_negative_children, C61_violated, C62_filter_row_groups, C64_faults, C64_sidecar, C64_success, C66_retry_partial, C68_violated, C79_optional, C82_open, C84_violated, C85_violated, C86_violated_failure, C87_violated, C91_memory, C91_violated, C93_compress, C93_decompress, C93_inactive, C97_file, C97_metadata, C97_ranges, C97_sink, C97_sink_sidecar, C97_write, C99_read, C99_select.
* **PQ**: C02_truncated_accepted, C06_width_too_large_panics, C07_violated, C10_remaining_exact, C12_bitmap_remaining, C15_violated, C15_violated_spread, C16_lengths_nonneg, C20_violated, C22_failures, C22_len, C22_short_runs, C23_violated, C24_violated, C29_int96_ns, C30_lex_partial, C30_same_length_partial, C32_split_v2_partial, C33_roundtrip_partial, C34_basic_partial, C34_basic_pipeline, C34_decompressor_partial, C34_leftover, C34_pipeline, C34_swap, C36_stream, C37_dictionary, C37_indexed, C41_magic_first, C41_no_second_end, C41_no_second_start, C42_rows_given, C45_no_offset_index, C46_outcome, C48_read_boolean, C49_descriptor_roundtrip_partial, C49_schema_roundtrip_partial, C50_columns, C50_levels_partial, C51_boundaryOrder, C51_compression, C51_converted, C51_encoding, C51_groupConverted, C51_logical, C51_pageType, C51_physical, C51_repetition, C55_reaccepted, C57_read_other, C58_fixed_type, C58_refused, C58_violated, C67_length, C68_range_partial, C70_dictionary_type, C71_encodings, C72_violated, C72_violated_aborts, C73_profiles_partial, C73_strings, C73_violated, C73_violated_accepts, C73_violated_overflow, C75_violated, C77_declared, C77_ignored, C77_violated, C78_other_writers, C78_published, C78_violated, C79_decoders, C79_violated, C80_violated, C82_stream_stops, C86_violated, C87_columns_partial, C87_complete, C87_contains, C87_names, C87_reflexive, C87_transitive, C88_metadata, C90_scratch, C91_indexed, C93_decode, C93_decoders, C93_end, C93_indexes, C93_metadata, C93_violated, C93_write, C94_missing, C94_statistics, C96_column, C96_indexes, C96_row_group, C96_write, C97_bloom, C97_compression, C97_pages, C97_sources, C98_plain, C99_file, C99_write.
* **PQC**: C01_uleb128_container, C01_uleb128_roundtrip, C02_uleb128_decode_partial, C03_zigzag_roundtrip, C04_block_roundtrip, C04_short_block, C05_slice_roundtrip, C06_decode_layout, C06_exact_remaining, C07_truncation_partial, C08_hybrid_u32_roundtrip, C08_width, C09_hybrid_bool_roundtrip, C10_checked, C10_exact_count, C10_values, C11_runs, C11_runs_enough, C12_bitmap_bytes, C12_bitmap_window, C13_checked, C13_checked, C13_delta_format, C13_delta_roundtrip, C14_consumed_bytes, C15_exact, C15_no_abort_partial, C16_delta_length_roundtrip, C17_delta_byte_array_partial, C17_violated, C18_plain_arbitrary, C18_plain_roundtrip, C18_size_hint, C19_level_runs, C19_native_page, C20_first_run_partial, C20_single_run_partial, C21_slice_filtered_partial, C22_filtered_runs, C22_page, C23_fixed_partial, C23_int96, C23_native, C24_indices, C24_legal, C24_roundtrip, C25_no_false_negatives, C26_bits, C26_one_block, C26_order_irrelevant, C26_query, C27_partition, C28_bad_location, C28_column, C28_compute_rows, C28_page, C29_int96, C29_int96_order, C29_native, C31_bit_width, C32_split_v1, C34_into_buffers, C35_pipeline, C35_roundtrip_partial, C36_errors, C36_limits, C36_no_panic, C38_end_bytes, C38_framing, C38_framing_compact, C38_sidecar, C39_limit, C39_no_panic, C39_reads, C39_rejects, C39_size, C40_byte_range, C40_byte_ranges_partial, C40_chunk_metadata_partial, C40_violated, C41_inner, C41_violated, C42_page_values, C42_totals_partial, C42_violated, C43_locates, C43_offset_index_partial, C44_column_index, C44_refuses, C45_compact_partial, C45_foreign, C45_indexes_partial, C45_truncated_panics, C45_violated, C46_bounds_partial, C46_counts, C47_bounds_partial, C47_fixed_len, C48_read, C48_roundtrip, C48_type, C48_write, C49_from_thrift_total, C49_reread, C50_checked, C50_checked_thrift, C50_violated, C52_expressible, C52_no_panic_partial, C52_panics, C52_parses, C52_roundtrip, C52_sound_partial, C52_terminates, C52_tokens, C52_unambiguous, C52_unterminated, C52_violated, C53_frames_partial, C53_sound, C54_column_iterator, C54_field_columns, C55_converted_partial, C55_logical_partial, C56_checked, C56_delta_legal_streams, C57_read, C57_violated, C58_dictionary_optional, C58_dictionary_required, C58_levels, C58_plain_optional, C58_plain_required, C59_compact_partial, C59_violated, C59_whole_file_partial, C60_column_orders, C60_sort_order, C61_file_partial, C61_no_empty_groups, C61_reread_partial, C63_compact_partial, C63_header_limit, C63_selection_partial, C63_violated, C65_cut_partial, C65_no_panic, C65_violated, C66_violated, C66_violated_end, C66_violated_group, C67_async, C67_async_ends, C67_columns, C67_metadata, C67_violated, C68_in_memory_partial, C69_metadata_partial, C69_violated, C70_dictionary_page, C70_dictionary_refused, C70_file_partial, C70_index_beyond, C70_plain_page, C70_required_page, C70_truncated, C70_violated, C70_written_page, C71_file_partial, C71_page_partial, C71_required_page_partial, C71_violated, C72_cut_partial, C72_delta_byte_array_partial, C72_delta_length_partial, C72_legal_cut_partial, C72_more_partial, C73_accepts_partial, C73_outcome, C74_chunk_partial, C74_items, C74_page, C74_search_partial, C74_violated, C75_dictionary_page, C75_plain_page, C75_required_partial, C75_validity, C76_dictionary_partial, C76_last_row, C76_plain_partial, C76_violated, C77_rle_partial, C78_column, C78_distinct, C78_floats_partial, C78_values_found, C79_booleans_partial, C79_runs, C79_selected, C79_strings, C80_binary, C80_boolean, C80_fixed, C80_iterating, C80_native, C81_arbitrary, C81_deserialize_partial, C81_violated, C82_filter, C82_indexed, C82_indexes, C82_pages, C82_stream, C83_decompress, C83_decompressor, C83_getters, C83_levels_beyond, C83_metadata, C83_pages, C83_release, C83_row_group_size, C83_stream, C83_violated, C84_column_indexes, C84_locations, C84_pages, C84_selection, C85_equivalence, C85_index_panics, C85_indexes, C85_panics, C85_read, C85_reflexive, C85_roundtrip, C85_statistics, C86_interleaved, C86_lawful, C86_metadata, C86_poll, C86_requests, C86_within, C88_violated, C88_written_partial, C89_column_partial, C89_end_partial, C89_page, C89_violated, C89_write_partial, C90_filter, C90_limit, C90_limit_compact, C90_stream_limit, C91_local, C91_written_partial, C92_bool, C92_delta, C92_delta_bound, C92_delta_bytes, C92_delta_length, C92_delta_shortest, C92_groups, C92_u32, C92_varint, C92_violated, C92_zigzag, C93_pages, C93_pages_unlimited, C93_schema, C93_stream, C93_thrift, C94_columns, C94_field_partial, C94_violated, C94_written_partial, C95_bool, C95_delta_partial, C95_u32, C95_u32_partial, C95_violated, C96_copied_partial, C96_memory, C96_read, C97_encodings, C98_delta, C98_delta_byte_array_partial, C98_delta_length, C98_hybrid_partial, C98_varint, C98_violated, C98_zigzag, C99_copied_partial, C99_violated.
* **none**: C32_violated, C54_violated, C82_open_stream, C93_indexed.
