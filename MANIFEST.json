{
 "claims": [
  {
   "property": "C01",
   "status": "proved",
   "theorems": [
    "Pq.Props.C01_uleb128_roundtrip",
    "Pq.Props.C01_uleb128_container"
   ],
   "note": ""
  },
  {
   "property": "C02",
   "status": "partial",
   "theorems": [
    "Pq.Props.C02_uleb128_decode_partial",
    "Pq.Props.C02_truncated_accepted"
   ],
   "note": "Everything but the clause on truncated varints, which the code violates (C02_truncated_accepted): a truncated varint is decoded as a shorter number."
  },
  {
   "property": "C03",
   "status": "proved",
   "theorems": [
    "Pq.Props.C03_zigzag_roundtrip"
   ],
   "note": ""
  },
  {
   "property": "C04",
   "status": "proved",
   "theorems": [
    "Pq.Props.C04_block_roundtrip",
    "Pq.Props.C04_short_block"
   ],
   "note": ""
  },
  {
   "property": "C05",
   "status": "proved",
   "theorems": [
    "Pq.Props.C05_slice_roundtrip"
   ],
   "note": ""
  },
  {
   "property": "C06",
   "status": "proved",
   "theorems": [
    "Pq.Props.C06_decode_layout",
    "Pq.Props.C06_exact_remaining",
    "Pq.Props.C06_width_too_large_panics"
   ],
   "note": ""
  },
  {
   "property": "C07",
   "status": "partial",
   "theorems": [
    "Pq.Props.C07_violated",
    "Pq.Props.C07_truncation_partial"
   ],
   "note": "Violated by the code when the field of an over-wide value straddles a word (C07_violated); proved for fields inside one word."
  },
  {
   "property": "C08",
   "status": "proved",
   "theorems": [
    "Pq.Props.C08_hybrid_u32_roundtrip",
    "Pq.Props.C08_width"
   ],
   "note": ""
  },
  {
   "property": "C09",
   "status": "proved",
   "theorems": [
    "Pq.Props.C09_hybrid_bool_roundtrip"
   ],
   "note": ""
  },
  {
   "property": "C10",
   "status": "proved",
   "theorems": [
    "Pq.Props.C10_exact_count",
    "Pq.Props.C10_values",
    "Pq.Props.C10_remaining_exact",
    "Pq.Props.C10_checked"
   ],
   "note": ""
  },
  {
   "property": "C11",
   "status": "proved",
   "theorems": [
    "Pq.Props.C11_runs",
    "Pq.Props.C11_runs_enough"
   ],
   "note": ""
  },
  {
   "property": "C12",
   "status": "proved",
   "theorems": [
    "Pq.Props.C12_bitmap_window",
    "Pq.Props.C12_bitmap_bytes",
    "Pq.Props.C12_bitmap_remaining"
   ],
   "note": ""
  },
  {
   "property": "C13",
   "status": "proved",
   "theorems": [
    "Pq.Props.C13_delta_roundtrip",
    "Pq.Props.C13_delta_format",
    "Pq.Props.C13_checked"
   ],
   "note": ""
  },
  {
   "property": "C14",
   "status": "proved",
   "theorems": [
    "Pq.Props.C14_consumed_bytes",
    "Pq.Props.C13_checked"
   ],
   "note": ""
  },
  {
   "property": "C15",
   "status": "partial",
   "theorems": [
    "Pq.Props.C15_violated",
    "Pq.Props.C15_violated_spread",
    "Pq.Props.C15_no_abort_partial",
    "Pq.Props.C15_exact"
   ],
   "note": "Violated in builds with overflow checks; proved for release builds. With overflow checks the lists that abort are characterised exactly (C15_exact)."
  },
  {
   "property": "C16",
   "status": "proved",
   "theorems": [
    "Pq.Props.C16_delta_length_roundtrip",
    "Pq.Props.C16_lengths_nonneg"
   ],
   "note": ""
  },
  {
   "property": "C17",
   "status": "partial",
   "theorems": [
    "Pq.Props.C17_violated",
    "Pq.Props.C17_delta_byte_array_partial"
   ],
   "note": "The encoder panics whenever a string is a proper prefix of its predecessor (C17_violated, for every such list); the round trip is proved for all other lists."
  },
  {
   "property": "C18",
   "status": "proved",
   "theorems": [
    "Pq.Props.C18_plain_roundtrip",
    "Pq.Props.C18_plain_arbitrary",
    "Pq.Props.C18_size_hint"
   ],
   "note": ""
  },
  {
   "property": "C56",
   "status": "proved",
   "theorems": [
    "Pq.Props.C56_delta_legal_streams",
    "Pq.Props.C56_checked"
   ],
   "note": ""
  },
  {
   "property": "C49",
   "status": "partial",
   "theorems": [
    "Pq.Props.C49_violated",
    "Pq.Props.C49_schema_roundtrip_partial",
    "Pq.Props.C49_descriptor_roundtrip_partial",
    "Pq.Props.C49_from_thrift_total",
    "Pq.Props.C49_reread"
   ],
   "note": "Violated for a group without children, which is written with num_children 0 and read back as a primitive or rejected (C49_violated); proved for all schemas whose groups are non-empty and whose fields fit their thrift types. Reading arbitrary thrift elements never panics (C49_from_thrift_total)."
  },
  {
   "property": "C50",
   "status": "partial",
   "theorems": [
    "Pq.Props.C50_columns",
    "Pq.Props.C50_levels_partial",
    "Pq.Props.C50_checked",
    "Pq.Props.C50_checked_thrift",
    "Pq.Props.C50_violated"
   ],
   "note": "Violated by schemas of more than 32767 nested levels: the i16 levels wrap, or panic with overflow checks (C50_violated); proved for all others, and the panic characterised."
  },
  {
   "property": "C51",
   "status": "proved",
   "theorems": [
    "Pq.Props.C51_repetition",
    "Pq.Props.C51_compression",
    "Pq.Props.C51_pageType",
    "Pq.Props.C51_encoding",
    "Pq.Props.C51_boundaryOrder",
    "Pq.Props.C51_groupConverted",
    "Pq.Props.C51_converted",
    "Pq.Props.C51_physical",
    "Pq.Props.C51_logical",
    "Pq.Props.C51_integer_fallback",
    "Pq.Props.C51_levels"
   ],
   "note": ""
  },
  {
   "property": "C55",
   "status": "partial",
   "theorems": [
    "Pq.Props.C55_violated",
    "Pq.Props.C55_converted_partial",
    "Pq.Props.C55_logical_partial",
    "Pq.Props.C55_reaccepted"
   ],
   "note": "Violated for FIXED_LEN_BYTE_ARRAY longer than 128 bytes, where the f64 precision bound is infinite and every precision is accepted (C55_violated); the decision table is proved for all other types."
  },
  {
   "property": "C19",
   "status": "proved",
   "theorems": [
    "Pq.Props.C19_optional_values",
    "Pq.Props.C19_level_runs",
    "Pq.Props.C19_native_page"
   ],
   "note": ""
  },
  {
   "property": "C20",
   "status": "partial",
   "theorems": [
    "Pq.Props.C20_violated",
    "Pq.Props.C20_first_run_partial",
    "Pq.Props.C20_single_run_partial"
   ],
   "note": "The boolean iterator never fetches a second run (C20_violated). Proved: it yields exactly the first run, which covers all rows for levels written by encode_bool."
  },
  {
   "property": "C21",
   "status": "partial",
   "theorems": [
    "Pq.Props.C21_violated",
    "Pq.Props.C21_slice_filtered_partial"
   ],
   "note": "Violated for empty intervals: panic with overflow checks, extra rows without (C21_violated). Proved for all non-empty intervals, in both build profiles."
  },
  {
   "property": "C22",
   "status": "proved",
   "theorems": [
    "Pq.Props.C22_filtered_runs",
    "Pq.Props.C22_page",
    "Pq.Props.C22_len",
    "Pq.Props.C22_failures",
    "Pq.Props.C22_short_runs"
   ],
   "note": ""
  },
  {
   "property": "C23",
   "status": "partial",
   "theorems": [
    "Pq.Props.C23_native",
    "Pq.Props.C23_int96",
    "Pq.Props.C23_violated",
    "Pq.Props.C23_fixed_partial"
   ],
   "note": "Proved for all native types; for fixed-length byte arrays a remainder is dropped silently and length 0 panics (C23_violated), the rest of the claim is proved (C23_fixed_partial)."
  },
  {
   "property": "C24",
   "status": "partial",
   "theorems": [
    "Pq.Props.C24_indices",
    "Pq.Props.C24_legal",
    "Pq.Props.C24_roundtrip",
    "Pq.Props.C24_violated"
   ],
   "note": "All clauses but 'never aborts': an empty section panics (C24_violated), and so does a malformed run header."
  },
  {
   "property": "C29",
   "status": "proved",
   "theorems": [
    "Pq.Props.C29_native",
    "Pq.Props.C29_int96",
    "Pq.Props.C29_wrong_size",
    "Pq.Props.C29_int96_ns",
    "Pq.Props.C29_int96_order"
   ],
   "note": ""
  },
  {
   "property": "C30",
   "status": "partial",
   "theorems": [
    "Pq.Props.C30_violated",
    "Pq.Props.C30_lex_partial",
    "Pq.Props.C30_swap",
    "Pq.Props.C30_same_length_partial"
   ],
   "note": "Violated for a non-empty string and its proper extension (C30_violated). Proved: it is the lexicographic order on all other pairs, and a total order on strings of a common length."
  },
  {
   "property": "C31",
   "status": "proved",
   "theorems": [
    "Pq.Props.C31_bit_width"
   ],
   "note": ""
  },
  {
   "property": "C32",
   "status": "partial",
   "theorems": [
    "Pq.Props.C32_split_v1",
    "Pq.Props.C32_split_v2_partial",
    "Pq.Props.C32_violated"
   ],
   "note": "Proved as an equivalence for V1 pages; for V2 pages except that level lengths larger than the buffer panic (C32_violated)."
  },
  {
   "property": "C25",
   "status": "proved",
   "theorems": [
    "Pq.Props.C25_no_false_negatives"
   ],
   "note": ""
  },
  {
   "property": "C26",
   "status": "proved",
   "theorems": [
    "Pq.Props.C26_bits",
    "Pq.Props.C26_query",
    "Pq.Props.C26_order_irrelevant",
    "Pq.Props.C26_one_block"
   ],
   "note": ""
  },
  {
   "property": "C27",
   "status": "proved",
   "theorems": [
    "Pq.Props.C27_partition"
   ],
   "note": ""
  },
  {
   "property": "C28",
   "status": "proved",
   "theorems": [
    "Pq.Props.C28_page",
    "Pq.Props.C28_column",
    "Pq.Props.C28_bad_location",
    "Pq.Props.C28_compute_rows",
    "Pq.Props.C28_empty_interval"
   ],
   "note": "C28_empty_interval shows that pruning hands empty intervals to the readers of C21."
  },
  {
   "property": "C57",
   "status": "partial",
   "theorems": [
    "Pq.Props.C57_read",
    "Pq.Props.C57_read_other",
    "Pq.Props.C57_violated"
   ],
   "note": "Short reads are accepted silently and queries of empty/short filters panic (C57_violated); the other clauses are proved for every lawful header codec."
  },
  {
   "property": "C33",
   "status": "partial",
   "theorems": [
    "Pq.Props.C33_roundtrip_partial",
    "Pq.Props.C33_violated",
    "Pq.Props.C33_unsupported"
   ],
   "note": "Violated for V2 pages whose header says is_compressed = false (they are compressed all the same and then unreadable) and for a non-empty scratch buffer (C33_violated); proved for all other pages and every correct codec."
  },
  {
   "property": "C34",
   "status": "partial",
   "theorems": [
    "Pq.Props.C34_compressor",
    "Pq.Props.C34_decompressor_partial",
    "Pq.Props.C34_pipeline",
    "Pq.Props.C34_swap",
    "Pq.Props.C34_into_inner",
    "Pq.Props.C34_into_buffers",
    "Pq.Props.C34_basic_partial",
    "Pq.Props.C34_basic_pipeline",
    "Pq.Props.C34_leftover",
    "Pq.Props.C34_violated",
    "Pq.Props.C34_basic_violated"
   ],
   "note": "Violated for block codecs when a page announces more bytes than its block holds (C34_violated). Proved for the compressor, for the compressor/decompressor pipeline, and for all pages announcing the exact size; C34_leftover says what the others are completed with."
  },
  {
   "property": "C53",
   "status": "partial",
   "theorems": [
    "Pq.Props.C53_frames_partial",
    "Pq.Props.C53_sound",
    "Pq.Props.C53_violated"
   ],
   "note": "Violated when the bytes after a frame are not more than that frame's compressed size (C53_violated); otherwise proved; soundness proved for all inputs."
  },
  {
   "property": "C46",
   "status": "partial",
   "theorems": [
    "Pq.Props.C46_bounds_partial",
    "Pq.Props.C46_counts",
    "Pq.Props.C46_outcome",
    "Pq.Props.C46_violated"
   ],
   "note": "Violated: pages without statistics (or null count) are ignored, a NaN bound hides the others, int96 panics (C46_violated). Proved for all pages that carry statistics without NaN bounds; IEEE values are compared through their exact integer-scaled value."
  },
  {
   "property": "C47",
   "status": "partial",
   "theorems": [
    "Pq.Props.C47_bounds_partial",
    "Pq.Props.C47_fixed_len",
    "Pq.Props.C47_violated"
   ],
   "note": "Violated when one bound is a proper prefix of another (C47_violated); proved otherwise, and in full for fixed-length byte arrays."
  },
  {
   "property": "C48",
   "status": "proved",
   "theorems": [
    "Pq.Props.C48_write",
    "Pq.Props.C48_roundtrip",
    "Pq.Props.C48_read",
    "Pq.Props.C48_read_boolean",
    "Pq.Props.C48_type"
   ],
   "note": ""
  },
  {
   "property": "C35",
   "status": "partial",
   "theorems": [
    "Pq.Props.C35_roundtrip_partial",
    "Pq.Props.C35_pipeline",
    "Pq.Props.C35_violated"
   ],
   "note": "Violated: the sortedness of a dictionary page is lost and a trailing page without values is not read (C35_violated). Proved otherwise, for every lawful thrift codec (an implementation of the compact protocol is proved lawful), including compression and decompression (C35_pipeline)."
  },
  {
   "property": "C36",
   "status": "partial",
   "theorems": [
    "Pq.Props.C36_limits",
    "Pq.Props.C36_errors",
    "Pq.Props.C36_no_panic",
    "Pq.Props.C36_stream",
    "Pq.Props.C36_stream_stops",
    "Pq.Props.C36_violated"
   ],
   "note": "Limits, errors and budget proved for all bytes. Violated: the uncompressed size is not limited, and the stream variant skips truncated/oversized pages (C36_violated)."
  },
  {
   "property": "C37",
   "status": "partial",
   "theorems": [
    "Pq.Props.C37_indexed",
    "Pq.Props.C37_dictionary",
    "Pq.Props.C37_violated"
   ],
   "note": "Proved for locations that point at pages. Violated for other locations: panic on underflow with overflow checks, sizes not compared (C37_violated)."
  },
  {
   "property": "C58",
   "status": "partial",
   "theorems": [
    "Pq.Props.C58_dictionary_optional",
    "Pq.Props.C58_dictionary_required",
    "Pq.Props.C58_levels",
    "Pq.Props.C58_plain_required",
    "Pq.Props.C58_plain_optional",
    "Pq.Props.C58_refused",
    "Pq.Props.C58_fixed_type",
    "Pq.Props.C58_violated"
   ],
   "note": "Proved for pages as this library writes their levels and indices; refusals proved in full. Violated: an unknown encoding code panics (C58_violated)."
  },
  {
   "property": "C38",
   "status": "proved",
   "theorems": [
    "Pq.Props.C38_end_bytes",
    "Pq.Props.C38_sidecar",
    "Pq.Props.C38_framing",
    "Pq.Props.C38_framing_compact"
   ],
   "note": "For every body and metadata below 2^31 bytes, any lawful thrift codec; in full for the compact protocol."
  },
  {
   "property": "C39",
   "status": "proved",
   "theorems": [
    "Pq.Props.C39_reads",
    "Pq.Props.C39_no_panic",
    "Pq.Props.C39_size",
    "Pq.Props.C39_rejects",
    "Pq.Props.C39_limit"
   ],
   "note": ""
  },
  {
   "property": "C54",
   "status": "partial",
   "theorems": [
    "Pq.Props.C54_field_columns",
    "Pq.Props.C54_column_iterator",
    "Pq.Props.C54_read_iterator_reversed",
    "Pq.Props.C54_violated"
   ],
   "note": "Proved for ColumnIterator, whatever is done with the page readers in between; violated by ReadColumnIterator, which delivers the reverse order."
  },
  {
   "property": "C60",
   "status": "partial",
   "theorems": [
    "Pq.Props.C60_column_orders",
    "Pq.Props.C60_sort_order",
    "Pq.Props.C60_violated"
   ],
   "note": "Violated with fewer orders than columns: panic (C60_violated)."
  },
  {
   "property": "C62",
   "status": "proved",
   "theorems": [
    "Pq.Props.C62_filter_row_groups"
   ],
   "note": ""
  },
  {
   "property": "C40",
   "status": "partial",
   "theorems": [
    "Pq.Props.C40_byte_ranges_partial",
    "Pq.Props.C40_byte_range",
    "Pq.Props.C40_chunk_metadata_partial",
    "Pq.Props.C40_violated"
   ],
   "note": "Proved for every sequence of successful writes, both writers. A failed write leaves bytes that are not counted, so later ranges are wrong: C40_violated."
  },
  {
   "property": "C41",
   "status": "partial",
   "theorems": [
    "Pq.Props.C41_magic_first",
    "Pq.Props.C41_no_second_start",
    "Pq.Props.C41_no_second_end",
    "Pq.Props.C41_inner",
    "Pq.Props.C41_violated"
   ],
   "note": "Magic first, one start and one end for every sequence of calls. Row groups after the end are accepted, FileStreamer ends twice: C41_violated."
  },
  {
   "property": "C42",
   "status": "partial",
   "theorems": [
    "Pq.Props.C42_totals_partial",
    "Pq.Props.C42_violated",
    "Pq.Props.C42_page_values",
    "Pq.Props.C42_rows_given"
   ],
   "note": "Proved for every sequence of writes with totals below 2^63 and pages with one row interval. Several selected intervals are counted wrongly: C42_violated."
  },
  {
   "property": "C43",
   "status": "partial",
   "theorems": [
    "Pq.Props.C43_offset_index_partial",
    "Pq.Props.C43_locates",
    "Pq.Props.C43_violated"
   ],
   "note": "Proved for all files whose pages know their rows; several selected intervals are counted wrongly: C43_violated."
  },
  {
   "property": "C44",
   "status": "proved",
   "theorems": [
    "Pq.Props.C44_column_index",
    "Pq.Props.C44_refuses",
    "Pq.Props.C44_not_null_flagged"
   ],
   "note": "The index flags pages without minimum as null pages even if they are not (C44_not_null_flagged)."
  },
  {
   "property": "C59",
   "status": "partial",
   "theorems": [
    "Pq.Props.C59_whole_file_partial",
    "Pq.Props.C59_compact_partial",
    "Pq.Props.C59_violated"
   ],
   "note": "Proved for all schemas without empty groups and all row groups with a column per leaf. Row groups with fewer columns and the empty schema give unreadable files: C59_violated."
  },
  {
   "property": "C45",
   "status": "partial",
   "theorems": [
    "Pq.Props.C45_indexes_partial",
    "Pq.Props.C45_compact_partial",
    "Pq.Props.C45_foreign",
    "Pq.Props.C45_no_column_index",
    "Pq.Props.C45_no_offset_index",
    "Pq.Props.C45_violated",
    "Pq.Props.C45_truncated_panics"
   ],
   "note": "Proved for the columns of every row group of every written file, indexes below 2^31 bytes. Non-adjacent selections of columns give wrong indexes (C45_violated); page locations without offset index are an error though documented as empty (C45_no_offset_index); truncated files panic."
  },
  {
   "property": "C63",
   "status": "partial",
   "theorems": [
    "Pq.Props.C63_selection_partial",
    "Pq.Props.C63_compact_partial",
    "Pq.Props.C63_header_limit",
    "Pq.Props.C63_violated"
   ],
   "note": "Proved for every written file and every list of intervals; missing: indexes of 2^31 bytes or more, page headers above 1 MiB (refused, C63_header_limit), dictionary pages after data pages (not delivered, C63_violated)."
  },
  {
   "property": "C61",
   "status": "partial",
   "theorems": [
    "Pq.Props.C61_reread_partial",
    "Pq.Props.C61_file_partial",
    "Pq.Props.C61_no_empty_groups",
    "Pq.Props.C61_violated",
    "Pq.Props.C61_negative_children",
    "Pq.Props.C61_huge_panics"
   ],
   "note": "Proved for all metadata that can be read and has no group with a negative number of children. Column orders, sorting columns and ordinals are dropped (C61_violated)."
  },
  {
   "property": "C52",
   "status": "partial",
   "theorems": [
    "Pq.Props.C52_roundtrip",
    "Pq.Props.C52_expressible",
    "Pq.Props.C52_parses",
    "Pq.Props.C52_unambiguous",
    "Pq.Props.C52_tokens",
    "Pq.Props.C52_terminates",
    "Pq.Props.C52_sound_partial",
    "Pq.Props.C52_unterminated",
    "Pq.Props.C52_violated",
    "Pq.Props.C52_no_panic_partial",
    "Pq.Props.C52_panics"
   ],
   "note": "Round trip proved for every schema the syntax can express; parsing terminates on every string and agrees with an independent grammar on every text that is a message. Unterminated messages, and some truncated ones, are accepted (C52_violated, C52_unterminated); C52_sound_partial says exactly what may be missing. MAP or LIST on a primitive panics (C52_panics) and nothing else does (C52_no_panic_partial)."
  },
  {
   "property": "C64",
   "status": "proved",
   "theorems": [
    "Pq.Props.C64_faults",
    "Pq.Props.C64_success",
    "Pq.Props.C64_sidecar"
   ],
   "note": "For every sink satisfying LawfulSink (it accepts a prefix of what it is given; it fails exactly if it reports so), both writers, every sequence of calls."
  },
  {
   "property": "C65",
   "status": "partial",
   "theorems": [
    "Pq.Props.C65_cut_partial",
    "Pq.Props.C65_no_panic",
    "Pq.Props.C65_violated"
   ],
   "note": "Proved for files with the magic bytes only at start and end. A page whose data ends like a file makes a cut file readable (C65_violated)."
  },
  {
   "property": "C66",
   "status": "partial",
   "theorems": [
    "Pq.Props.C66_retry_partial",
    "Pq.Props.C66_violated",
    "Pq.Props.C66_violated_group",
    "Pq.Props.C66_violated_end"
   ],
   "note": "Proved if nothing of the failed call got to the sink; violated otherwise, with witnesses for failures in the magic bytes, a row group and the footer."
  },
  {
   "property": "C67",
   "status": "partial",
   "theorems": [
    "Pq.Props.C67_metadata",
    "Pq.Props.C67_length",
    "Pq.Props.C67_columns",
    "Pq.Props.C67_async",
    "Pq.Props.C67_async_ends",
    "Pq.Props.C67_violated"
   ],
   "note": "Proved for every reader of a file that does not change (LawfulInput). Violated if the file is cut between determining its length and reading (C67_violated)."
  },
  {
   "property": "C68",
   "status": "partial",
   "theorems": [
    "Pq.Props.C68_in_memory_partial",
    "Pq.Props.C68_range_partial",
    "Pq.Props.C68_violated"
   ],
   "note": "Proved for every written file with the restrictions of C59. A chunk cut short by the end of the file is returned without an error (C68_violated)."
  },
  {
   "property": "C69",
   "status": "partial",
   "theorems": [
    "Pq.Props.C69_metadata_partial",
    "Pq.Props.C69_violated"
   ],
   "note": "Proved for every written file with the restrictions of C59. The dictionary page offset is never written (C69_violated); bounds with NaN or byte strings that are prefixes of each other are excluded (see C46, C47)."
  },
  {
   "property": "C70",
   "status": "partial",
   "theorems": [
    "Pq.Props.C70_plain_page",
    "Pq.Props.C70_required_page",
    "Pq.Props.C70_dictionary_page",
    "Pq.Props.C70_written_page",
    "Pq.Props.C70_file_partial",
    "Pq.Props.C70_violated",
    "Pq.Props.C70_dictionary_type",
    "Pq.Props.C70_index_beyond",
    "Pq.Props.C70_truncated",
    "Pq.Props.C70_dictionary_refused"
   ],
   "note": "Pages: every physical type, either version, any legal streams of any writer. Files: flat optional columns written by the client code, with the restrictions of C59. Violated by an empty last page and by int96 with statistics (C70_violated)."
  },
  {
   "property": "C71",
   "status": "partial",
   "theorems": [
    "Pq.Props.C71_page_partial",
    "Pq.Props.C71_required_page_partial",
    "Pq.Props.C71_file_partial",
    "Pq.Props.C71_violated",
    "Pq.Props.C71_encodings"
   ],
   "note": "Pages of numbers by any writer whose levels are one run, or required; files written by the client code, with the restrictions of C63, columns of numbers without empty pages. Violated by levels in several runs, empty pages, and byte arrays (C71_violated)."
  },
  {
   "property": "C72",
   "status": "partial",
   "theorems": [
    "Pq.Props.C72_cut_partial",
    "Pq.Props.C72_legal_cut_partial",
    "Pq.Props.C72_more_partial",
    "Pq.Props.C72_delta_length_partial",
    "Pq.Props.C72_delta_byte_array_partial",
    "Pq.Props.C72_violated",
    "Pq.Props.C72_violated_aborts"
   ],
   "note": "Proved for cuts after the header, for every stream that decodes. Cuts in the header (C72_violated, C72_violated_aborts) and in the values of byte arrays violate the claim."
  },
  {
   "property": "C73",
   "status": "partial",
   "theorems": [
    "Pq.Props.C73_accepts_partial",
    "Pq.Props.C73_outcome",
    "Pq.Props.C73_strings",
    "Pq.Props.C73_profiles_partial",
    "Pq.Props.C73_violated",
    "Pq.Props.C73_violated_overflow",
    "Pq.Props.C73_violated_accepts"
   ],
   "note": "After a complete legal header: accepted exactly if legal. For every header of a block size below 2^56: exactly how decoding ends (C73_outcome); of strings, exactly what is read, in terms of their lengths (C73_strings). Other headers, wide bit widths and overflowing sums violate the claim."
  },
  {
   "property": "C74",
   "status": "partial",
   "theorems": [
    "Pq.Props.C74_page",
    "Pq.Props.C74_items",
    "Pq.Props.C74_chunk_partial",
    "Pq.Props.C74_search_partial",
    "Pq.Props.C74_violated"
   ],
   "note": "Flat optional columns written by the client code, with the restrictions of C59 and, for the search, of C71. NaN and strings that begin other strings violate the claim (C74_violated)."
  },
  {
   "property": "C75",
   "status": "partial",
   "theorems": [
    "Pq.Props.C75_plain_page",
    "Pq.Props.C75_dictionary_page",
    "Pq.Props.C75_required_partial",
    "Pq.Props.C75_validity",
    "Pq.Props.C75_violated"
   ],
   "note": "Optional fields at any depth: proved in full. Required fields in optional structures: only if no structure is null; otherwise the claim is violated (C75_violated)."
  },
  {
   "property": "C76",
   "status": "partial",
   "theorems": [
    "Pq.Props.C76_plain_partial",
    "Pq.Props.C76_last_row",
    "Pq.Props.C76_dictionary_partial",
    "Pq.Props.C76_violated"
   ],
   "note": "Proved if the last row has items; what is read otherwise is stated exactly (C76_last_row). Index streams other than one bit-packed run violate the claim."
  },
  {
   "property": "C77",
   "status": "partial",
   "theorems": [
    "Pq.Props.C77_declared",
    "Pq.Props.C77_ignored",
    "Pq.Props.C77_rle_partial",
    "Pq.Props.C77_violated"
   ],
   "note": "Declared encodings of levels make no difference (C77_ignored); RLE levels are read right, BIT_PACKED levels are not (C77_violated)."
  },
  {
   "property": "C78",
   "status": "partial",
   "theorems": [
    "Pq.Props.C78_values_found",
    "Pq.Props.C78_column",
    "Pq.Props.C78_distinct",
    "Pq.Props.C78_other_writers",
    "Pq.Props.C78_published",
    "Pq.Props.C78_floats_partial",
    "Pq.Props.C78_violated"
   ],
   "note": "Everything but zeros of different sign, which are equal and have different hashes (C78_violated)."
  },
  {
   "property": "C79",
   "status": "partial",
   "theorems": [
    "Pq.Props.C79_decoders",
    "Pq.Props.C79_strings",
    "Pq.Props.C79_selected",
    "Pq.Props.C79_runs",
    "Pq.Props.C79_optional",
    "Pq.Props.C79_booleans_partial",
    "Pq.Props.C79_violated"
   ],
   "note": "Proved for all iterators but the one of booleans, whose hint is right only before the first item, and for strings if the page has as many as its header says (C79_violated)."
  },
  {
   "property": "C80",
   "status": "partial",
   "theorems": [
    "Pq.Props.C80_native",
    "Pq.Props.C80_binary",
    "Pq.Props.C80_fixed",
    "Pq.Props.C80_boolean",
    "Pq.Props.C80_iterating",
    "Pq.Props.C80_violated"
   ],
   "note": "The pages that abort are characterised exactly, each kind with a witness (C80_violated); all others are decoded or refused. Missing: the claim itself, which is false."
  },
  {
   "property": "C81",
   "status": "partial",
   "theorems": [
    "Pq.Props.C81_violated",
    "Pq.Props.C81_deserialize_partial",
    "Pq.Props.C81_arbitrary"
   ],
   "note": "Serialising always fails (C81_violated); deserialising thrift bytes gives the column chunk back."
  },
  {
   "property": "C82",
   "status": "proved",
   "theorems": [
    "Pq.Props.C82_open",
    "Pq.Props.C82_open_stream",
    "Pq.Props.C82_pages",
    "Pq.Props.C82_stream",
    "Pq.Props.C82_stream_stops",
    "Pq.Props.C82_indexed",
    "Pq.Props.C82_indexes",
    "Pq.Props.C82_filter"
   ],
   "note": "For every lawful reader (Spec/Source) and every lawful thrift protocol (Spec/PageSource: what it makes of a prefix is an error, or what it makes of the whole); the compact protocol is one (Lemmas/ThriftProtocol)."
  },
  {
   "property": "C83",
   "status": "partial",
   "theorems": [
    "Pq.Props.C83_getters",
    "Pq.Props.C83_metadata",
    "Pq.Props.C83_row_group_size",
    "Pq.Props.C83_pages",
    "Pq.Props.C83_stream",
    "Pq.Props.C83_decompress",
    "Pq.Props.C83_levels_beyond",
    "Pq.Props.C83_decompressor",
    "Pq.Props.C83_release",
    "Pq.Props.C83_violated"
   ],
   "note": "Proved for builds without overflow checks (C83_release); with them the two places that abort are characterised (V2 level lengths, the sum of the sizes of a row group) and witnessed (C83_violated), for files below 2^32 - 1 bytes. The schema with overflow checks: C50_violated. What follows the decompressed page: C80."
  },
  {
   "property": "C84",
   "status": "partial",
   "theorems": [
    "Pq.Props.C84_column_indexes",
    "Pq.Props.C84_locations",
    "Pq.Props.C84_selection",
    "Pq.Props.C84_pages",
    "Pq.Props.C84_violated"
   ],
   "note": "What aborts is characterised exactly (C84_column_indexes, C84_pages) and witnessed (C84_violated); nothing else does. For fewer than 2^32 columns, selections whose intervals end before 2^64, and columns of metadata that was read."
  },
  {
   "property": "C85",
   "status": "partial",
   "theorems": [
    "Pq.Props.C85_statistics",
    "Pq.Props.C85_indexes",
    "Pq.Props.C85_panics",
    "Pq.Props.C85_index_panics",
    "Pq.Props.C85_reflexive",
    "Pq.Props.C85_equivalence",
    "Pq.Props.C85_read",
    "Pq.Props.C85_roundtrip",
    "Pq.Props.C85_violated"
   ],
   "note": "Which comparisons return, and when they are true, is characterised exactly; what is read never aborts a comparison (C85_read). Reflexivity fails exactly for NaN bounds (C85_reflexive, C85_violated)."
  },
  {
   "property": "C86",
   "status": "partial",
   "theorems": [
    "Pq.Props.C86_poll",
    "Pq.Props.C86_interleaved",
    "Pq.Props.C86_within",
    "Pq.Props.C86_requests",
    "Pq.Props.C86_lawful",
    "Pq.Props.C86_metadata",
    "Pq.Props.C86_violated",
    "Pq.Props.C86_violated_failure"
   ],
   "note": "Proved for reads that stay within the object (C86_within, C86_metadata); all that is ever delivered is right (C86_interleaved). Reads beyond the end never return (C86_violated)."
  },
  {
   "property": "C87",
   "status": "partial",
   "theorems": [
    "Pq.Props.C87_contains",
    "Pq.Props.C87_names",
    "Pq.Props.C87_reflexive",
    "Pq.Props.C87_transitive",
    "Pq.Props.C87_columns_partial",
    "Pq.Props.C87_complete",
    "Pq.Props.C87_violated"
   ],
   "note": "The answer is characterised exactly (C87_contains). The repetition of groups and the logical types of columns are not compared, so the levels and types of the columns may differ, and a schema with two fields of the same name need not contain itself (C87_violated)."
  },
  {
   "property": "C88",
   "status": "partial",
   "theorems": [
    "Pq.Props.C88_metadata",
    "Pq.Props.C88_written_partial",
    "Pq.Props.C88_violated"
   ],
   "note": "All row groups are told, each with the path of its file, and their pages are read from it. Missing: the number of rows is that of one file, the row groups of the last file come first and ordinals repeat (C88_violated). For files as in C59 and sidecars below 2^31 bytes."
  },
  {
   "property": "C89",
   "status": "partial",
   "theorems": [
    "Pq.Props.C89_page",
    "Pq.Props.C89_column_partial",
    "Pq.Props.C89_write_partial",
    "Pq.Props.C89_end_partial",
    "Pq.Props.C89_violated"
   ],
   "note": "How every call ends is characterised exactly from the pages alone (C89_page, C89_column_partial, C89_write_partial, C89_end_partial), for pages that fit in memory (less than 2^31 pages in a column, sizes below 2^63, at most 2^31 bytes written by `end`). Missing: some calls abort, and `end` may refuse what `write` accepted (C89_violated)."
  },
  {
   "property": "C90",
   "status": "proved",
   "theorems": [
    "Pq.Props.C90_limit",
    "Pq.Props.C90_limit_compact",
    "Pq.Props.C90_stream_limit",
    "Pq.Props.C90_filter",
    "Pq.Props.C90_scratch"
   ],
   "note": "The conditions on the codec of page headers (no abort, progress, monotone in the limit) are proved for the compact protocol."
  },
  {
   "property": "C91",
   "status": "partial",
   "theorems": [
    "Pq.Props.C91_local",
    "Pq.Props.C91_memory",
    "Pq.Props.C91_indexed",
    "Pq.Props.C91_written_partial",
    "Pq.Props.C91_violated"
   ],
   "note": "Proved for columns read into memory, for the indexed reader and for chunks of written files. Missing: if the metadata announce more values than are in the range, the page reader goes on beyond it (C91_violated); C91_local says on what bytes it depends."
  },
  {
   "property": "C92",
   "status": "partial",
   "theorems": [
    "Pq.Props.C92_varint",
    "Pq.Props.C92_zigzag",
    "Pq.Props.C92_bool",
    "Pq.Props.C92_u32",
    "Pq.Props.C92_groups",
    "Pq.Props.C92_delta",
    "Pq.Props.C92_delta_bound",
    "Pq.Props.C92_delta_shortest",
    "Pq.Props.C92_delta_length",
    "Pq.Props.C92_delta_bytes",
    "Pq.Props.C92_violated"
   ],
   "note": "The sizes are exact for all inputs on which the encoders return (C17 says where they do not). That no stream is shorter is proved for deltas closer to each other than 2^63. Missing: deltas further apart are written with 64 bits where one would do, and `encode_u32` may write less bytes than its header announces (C92_violated; C92_groups says when)."
  },
  {
   "property": "C93",
   "status": "partial",
   "theorems": [
    "Pq.Props.C93_thrift",
    "Pq.Props.C93_metadata",
    "Pq.Props.C93_schema",
    "Pq.Props.C93_indexes",
    "Pq.Props.C93_decoders",
    "Pq.Props.C93_pages",
    "Pq.Props.C93_pages_unlimited",
    "Pq.Props.C93_stream",
    "Pq.Props.C93_indexed",
    "Pq.Props.C93_compress",
    "Pq.Props.C93_inactive",
    "Pq.Props.C93_decompress",
    "Pq.Props.C93_decode",
    "Pq.Props.C93_write",
    "Pq.Props.C93_end",
    "Pq.Props.C93_violated"
   ],
   "note": "Proved for all functions that are modelled, assuming that errors of the external codecs are out of specification, as the conversions of src/error.rs make them. Missing: decoding boolean and fixed-length pages reports an invalid parameter for what is in the file, and a page header beyond the limit is out of specification (C93_violated); encodings that are refused are in C58_refused."
  },
  {
   "property": "C94",
   "status": "partial",
   "theorems": [
    "Pq.Props.C94_field_partial",
    "Pq.Props.C94_written_partial",
    "Pq.Props.C94_columns",
    "Pq.Props.C94_missing",
    "Pq.Props.C94_statistics",
    "Pq.Props.C94_violated"
   ],
   "note": "Proved for primitive fields and structures of flat optional columns from arrays (C94_field_partial); for any fields of files by the writer, with dictionaries and nested columns, in terms of their pages (C94_written_partial); and for the columns of any file that deliver their pages (C94_columns). Of a primitive field the theorem gives the last page, which is all of the field if it has one page; the client drops the others (C94_violated). A row group that is not there aborts (C94_missing). Missing besides: what is missing in C70 and C59."
  },
  {
   "property": "C95",
   "status": "partial",
   "theorems": [
    "Pq.Props.C95_bool",
    "Pq.Props.C95_u32",
    "Pq.Props.C95_u32_partial",
    "Pq.Props.C95_delta_partial",
    "Pq.Props.C95_violated"
   ],
   "note": "Proved for booleans; for `u32` every bit written is known (C95_u32), and the padding is zero for at most 32 values; for delta streams it is zero in one block. Missing: beyond more values the padding repeats earlier ones (C95_violated)."
  },
  {
   "property": "C96",
   "status": "partial",
   "theorems": [
    "Pq.Props.C96_column",
    "Pq.Props.C96_row_group",
    "Pq.Props.C96_write",
    "Pq.Props.C96_indexes",
    "Pq.Props.C96_read",
    "Pq.Props.C96_memory",
    "Pq.Props.C96_copied_partial"
   ],
   "note": "Writing: proved for the build without overflow checks, at every offset (a chunk without pages is said to be at 0 anywhere). Reading: from the start of the chunk on for arbitrary bytes (C96_read), from the range of the chunk for column chunks of written files (C96_copied_partial). With overflow checks, writing aborts or does the same (C97_write). Missing: with them it aborts where the offset and the size of a chunk are beyond 2^63; foreign files whose pages go beyond the range of the chunk (C91_violated)."
  },
  {
   "property": "C97",
   "status": "proved",
   "theorems": [
    "Pq.Props.C97_write",
    "Pq.Props.C97_file",
    "Pq.Props.C97_pages",
    "Pq.Props.C97_compression",
    "Pq.Props.C97_metadata",
    "Pq.Props.C97_encodings",
    "Pq.Props.C97_bloom",
    "Pq.Props.C97_sink",
    "Pq.Props.C97_sink_sidecar",
    "Pq.Props.C97_sources",
    "Pq.Props.C97_ranges"
   ],
   "note": "Proved for the synchronous and asynchronous writers (into memory and to any sink), the page reader, the stream and the indexed reader (over bytes in memory and over any reader), and the functions listed. That the profiles differ where they do is in the examples. Not in the statement: the clients of the tests."
  },
  {
   "property": "C98",
   "status": "partial",
   "theorems": [
    "Pq.Props.C98_varint",
    "Pq.Props.C98_zigzag",
    "Pq.Props.C98_delta",
    "Pq.Props.C98_delta_length",
    "Pq.Props.C98_delta_byte_array_partial",
    "Pq.Props.C98_plain",
    "Pq.Props.C98_hybrid_partial",
    "Pq.Props.C98_violated"
   ],
   "note": "Proved for all bytes for varints, delta streams (without overflow checks; C13_checked says when the checks abort), strings with delta lengths and PLAIN strings. Missing: strings one of which begins the one before, and values of a hybrid stream that do not fit the width (C98_violated); strings with shared prefixes of 2^32 bytes or more in total, and hybrid streams of width 0."
  },
  {
   "property": "C99",
   "status": "partial",
   "theorems": [
    "Pq.Props.C99_write",
    "Pq.Props.C99_read",
    "Pq.Props.C99_select",
    "Pq.Props.C99_file",
    "Pq.Props.C99_copied_partial",
    "Pq.Props.C99_violated"
   ],
   "note": "From the bytes of the file to the bytes of the copy with the indexed reader, all rows selected (C99_copied_partial); any pages that differ from those written only in where their rows begin and in the sortedness of dictionaries are written alike (C99_write, C99_file). Missing: pages of the sequential readers are refused as they are (C99_violated; C99_read says what is to be given back); data pages of no rows, which the indexed reader leaves out; what is missing in C59 and C63."
  }
 ]
}