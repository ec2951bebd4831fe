{
 "claims": [
  {
   "property": "C01",
   "status": "proved",
   "theorems": [
    "Rothko.C01_chunk_round_trip",
    "Rothko.C01_chunk_round_trip_fields"
   ],
   "note": ""
  },
  {
   "property": "C02",
   "status": "proved",
   "theorems": [
    "Rothko.C02_parse_only_marshalled",
    "Rothko.C02_rejects"
   ],
   "note": ""
  },
  {
   "property": "C03",
   "status": "partial",
   "theorems": [
    "Rothko.C03_burst_detected_partial",
    "Rothko.C03_byte_detected_partial",
    "Rothko.C03_size_byte_refuted"
   ],
   "note": "Bursts of at most 32 bits outside the size field are always detected; corruption of the size field is refuted by a witness."
  },
  {
   "property": "C04",
   "status": "proved",
   "theorems": [
    "Rothko.C04_split",
    "Rothko.C04_size_range",
    "Rothko.C04_injective"
   ],
   "note": ""
  },
  {
   "property": "C05",
   "status": "proved",
   "theorems": [
    "Rothko.C05_metadata_round_trip",
    "Rothko.C05_metadata_too_large",
    "Rothko.meta_payload_round_trip"
   ],
   "note": ""
  },
  {
   "property": "C06",
   "status": "proved",
   "theorems": [
    "Rothko.C06_record_round_trip"
   ],
   "note": ""
  },
  {
   "property": "C07",
   "status": "partial",
   "theorems": [
    "Rothko.C07_terminates",
    "Rothko.C07_no_panic_partial",
    "Rothko.C07_panic_refuted"
   ],
   "note": "Termination proved; absence of panics is false (witness) and proved for inputs under the stated bound."
  },
  {
   "property": "C08",
   "status": "proved",
   "theorems": [
    "Rothko.C08_dir_round_trip",
    "Rothko.C08_dir_injective",
    "Rothko.C08_any_database"
   ],
   "note": "For all byte strings; file system name length limits are not modelled."
  },
  {
   "property": "C09",
   "status": "proved",
   "theorems": [
    "Rothko.C09_path_safe",
    "Rothko.C09_empty"
   ],
   "note": ""
  },
  {
   "property": "C10",
   "status": "proved",
   "theorems": [
    "Rothko.C10_paths_distinct",
    "Rothko.C10_scan",
    "Rothko.C10_names",
    "Rothko.C10_metricToPath"
   ],
   "note": ""
  },
  {
   "property": "C11",
   "status": "proved",
   "theorems": [
    "Rothko.C11_head_from_any_hint",
    "Rothko.C11_terminates",
    "Rothko.C11_full_hint",
    "Rothko.C11_hint_outside_diverges"
   ],
   "note": ""
  },
  {
   "property": "C12",
   "status": "proved",
   "theorems": [
    "Rothko.C12_store_slot",
    "Rothko.C12_store_refused"
   ],
   "note": ""
  },
  {
   "property": "C13",
   "status": "proved",
   "theorems": [
    "Rothko.C13_acknowledged_stored"
   ],
   "note": "For every history of writes, queries and restarts of one metric and every behaviour of the handle cache; values that fit an empty file."
  },
  {
   "property": "C14",
   "status": "proved",
   "theorems": [
    "Rothko.C14_only_forward"
   ],
   "note": ""
  },
  {
   "property": "C15",
   "status": "proved",
   "theorems": [
    "Rothko.C15_query_sound"
   ],
   "note": ""
  },
  {
   "property": "C16",
   "status": "partial",
   "theorems": [
    "Rothko.C16_complete_partial",
    "Rothko.C16_exact_partial",
    "Rothko.C16_complete_refuted"
   ],
   "note": "C16_exact_partial characterises the result exactly (values ending before the bound in the files up to the first without such a value), and says when that is everything. Complete for bounds above some end in the newest file; the full claim is false of the code (witness): a query stops at the first file whose smallest end is not before the bound."
  },
  {
   "property": "C17",
   "status": "proved",
   "theorems": [
    "Rothko.C17_latest",
    "Rothko.C17_latest_refuted"
   ],
   "note": "True unless the value ends at MaxInt64, where the full claim is false (witness)."
  },
  {
   "property": "C18",
   "status": "proved",
   "theorems": [
    "Rothko.C18_retention",
    "Rothko.C18_only_oldest_dropped"
   ],
   "note": ""
  },
  {
   "property": "C19",
   "status": "partial",
   "theorems": [
    "Rothko.C19_oversized_partial",
    "Rothko.C19_later_write_lost_refuted",
    "Rothko.C19_drops_data_refuted"
   ],
   "note": "What a failed oversized write does is characterised exactly; both halves of the claim are false of the code (witnesses)."
  },
  {
   "property": "C20",
   "status": "partial",
   "theorems": [
    "Rothko.C20_fits_partial",
    "Rothko.C20_one_config_partial",
    "Rothko.C20_fits_refuted"
   ],
   "note": "True unless exactly one value is stored; false in that case (witness). C20_one_config_partial: under one configuration the exception is only a value that fills a whole file when exactly one value has been acknowledged."
  },
  {
   "property": "C21",
   "status": "proved",
   "theorems": [
    "Rothko.C21_damage",
    "Rothko.C21_every"
   ],
   "note": ""
  },
  {
   "property": "C22",
   "status": "proved",
   "theorems": [
    "Rothko.C22_between_chunks",
    "Rothko.C22_crash_atomic",
    "Rothko.C22_inside_chunk_refuted"
   ],
   "note": "C22_between_chunks is the property as stated, without assumptions. C22_crash_atomic goes further, to death at any byte inside a chunk, if the half written chunk does not pass its checksum by accident; C22_inside_chunk_refuted shows that this accident can happen. Process kill, no loss of data already handed to the kernel."
  },
  {
   "property": "C23",
   "status": "partial",
   "theorems": [
    "Rothko.C23_acknowledged_partial",
    "Rothko.C23_lost_after_crash_refuted",
    "Rothko.C23_unlinked_after_crash_refuted"
   ],
   "note": "False of the code as stated (two witnesses). C23_acknowledged_partial: what holds when values fit an empty file and the writes that died were single-chunk writes with at least one byte stored."
  },
  {
   "property": "C24",
   "status": "partial",
   "theorems": [
    "Rothko.C24_metadata_crash_refuted",
    "Rothko.C24_forever_refuted"
   ],
   "note": "False of the code: a witness, and for every history (C24_forever_refuted)."
  },
  {
   "property": "C25",
   "status": "partial",
   "theorems": [
    "Rothko.C25_read_only_partial",
    "Rothko.C25_query_creates_refuted"
   ],
   "note": "False for a directory that exists only because of a longer metric name (witness)."
  },
  {
   "property": "C26",
   "status": "proved",
   "theorems": [
    "Rothko.C26_conservation",
    "Rothko.C26_take"
   ],
   "note": ""
  },
  {
   "property": "C27",
   "status": "proved",
   "theorems": [
    "Rothko.C27_accounting",
    "Rothko.C27_acquire",
    "Rothko.C27_evict_close"
   ],
   "note": "Each call is one atomic step (its work is one critical section of the cache's mutex)."
  },
  {
   "property": "C28",
   "status": "proved",
   "theorems": [
    "Rothko.C28_in_range",
    "Rothko.C28_onto"
   ],
   "note": "Onto for capacities up to 2^32 (a 32 bit output cannot reach more indices)."
  },
  {
   "property": "C29",
   "status": "proved",
   "theorems": [
    "Rothko.C29_zero_value",
    "Rothko.C29_seeding",
    "Rothko.C29_period",
    "Rothko.C29_all_states",
    "Rothko.C29_new_odd"
   ],
   "note": ""
  },
  {
   "property": "C30",
   "status": "proved",
   "theorems": [
    "Rothko.C30_exclusive",
    "Rothko.C30_no_panic",
    "Rothko.C30_dropped",
    "Rothko.C30_progress"
   ],
   "note": "Any number of goroutines, any interleaving of the critical sections and mutex operations."
  },
  {
   "property": "C31",
   "status": "proved",
   "theorems": [
    "Rothko.C31_at_most_once",
    "Rothko.C31_answered",
    "Rothko.C31_rejected",
    "Rothko.C31_written"
   ],
   "note": "Any number of Queue and Run calls, any interleaving; C31_example exhibits a non-trivial run."
  },
  {
   "property": "C32",
   "status": "proved",
   "theorems": [
    "Rothko.C32_exclusive",
    "Rothko.C32_data"
   ],
   "note": ""
  },
  {
   "property": "C33",
   "status": "proved",
   "theorems": [
    "Rothko.C33_single",
    "Rothko.C33_refused",
    "Rothko.C33_again",
    "Rothko.C33_never_stuck"
   ],
   "note": ""
  },
  {
   "property": "C34",
   "status": "proved",
   "theorems": [
    "Rothko.C34_sets",
    "Rothko.C34_nodup",
    "Rothko.C34_order_unique",
    "Rothko.C34_iter"
   ],
   "note": ""
  },
  {
   "property": "C35",
   "status": "partial",
   "theorems": [
    "Rothko.C35_listed_partial",
    "Rothko.C35_overlap_refuted",
    "Rothko.C35_populate_refuted"
   ],
   "note": "True when calls of Metrics and PopulateMetrics do not overlap, also of the names a completed PopulateMetrics has found (they are in the list owed, a0, as are those of acknowledged writes); false otherwise (witnesses)."
  },
  {
   "property": "C36",
   "status": "proved",
   "theorems": [
    "Rothko.C36_scan",
    "Rothko.C36_missing",
    "Rothko.C36_writes"
   ],
   "note": "System call errors and cancellation abort the scan and publish nothing; not part of this theorem."
  },
  {
   "property": "C37",
   "status": "proved",
   "theorems": [
    "Rothko.C37_names",
    "Rothko.C37_step",
    "Rothko.C37_any"
   ],
   "note": "linux layout; C37_any says what happens for bytes that are not directory entries (no progress for record length 0, panic for 18)."
  },
  {
   "property": "C38",
   "status": "proved",
   "theorems": [
    "Rothko.C38_glob",
    "Rothko.C38_terminates"
   ],
   "note": ""
  },
  {
   "property": "C39",
   "status": "proved",
   "theorems": [
    "Rothko.C39_match",
    "Rothko.C39_plain"
   ],
   "note": ""
  },
  {
   "property": "C40",
   "status": "proved",
   "theorems": [
    "Rothko.C40_result",
    "Rothko.C40_stops",
    "Rothko.C40_terms"
   ],
   "note": "For limits that are not negative (a negative limit panics)."
  },
  {
   "property": "C41",
   "status": "proved",
   "theorems": [
    "Rothko.C41_serial",
    "Rothko.C43_iterate"
   ],
   "note": "The distribution is the list of values it was given (dist/tdigest itself is not modelled); params.New succeeds (otherwise see C42_new_fails_blocks); fewer than 2^63 calls."
  },
  {
   "property": "C42",
   "status": "partial",
   "theorems": [
    "Rothko.C42_count",
    "Rothko.C42_progress",
    "Rothko.C42_attained",
    "Rothko.C42_after_first_partial",
    "Rothko.C42_late_partial",
    "Rothko.C42_refuted",
    "Rothko.C42_new_fails_blocks"
   ],
   "note": "Count and distribution are exact for every interleaving; minimum and maximum are observed values and account for every call that began after the first call returned; false for calls that overlap the first one (witness)."
  },
  {
   "property": "C43",
   "status": "proved",
   "theorems": [
    "Rothko.C41_serial",
    "Rothko.C43_iterate",
    "Rothko.C43_partition",
    "Rothko.C43_abut"
   ],
   "note": ""
  },
  {
   "property": "C44",
   "status": "partial",
   "theorems": [
    "Rothko.C44_once",
    "Rothko.C44_exclusive_partial",
    "Rothko.C44_crash_refuted"
   ],
   "note": "At most once holds for every interleaving; a capture can crash on an agg that has not observed yet (witness); no crash and no loss if adds do not overlap captures."
  },
  {
   "property": "C45",
   "status": "partial",
   "theorems": [
    "Rothko.C45_fields",
    "Rothko.C45_error",
    "Rothko.C45_ids_partial",
    "Rothko.C45_ids_refuted"
   ],
   "note": "All fields are as stated except MinId and MaxId, which are lost when the first record has the extreme (witness). The t-digest merge and the resampler are a parameter."
  },
  {
   "property": "C46",
   "status": "proved",
   "theorems": [
    "Rothko.C46_columns",
    "Rothko.C46_succeeds",
    "Rothko.C46_one_column",
    "Rothko.C46_now_refuted"
   ],
   "note": "For times before now and no int64 overflow; a record ending exactly at now is drawn one pixel past the right edge (C46_now_refuted). What is drawn of the merged records is a parameter."
  },
  {
   "property": "C47",
   "status": "proved",
   "theorems": [
    "Rothko.C47_monotone",
    "Rothko.C47_range",
    "Rothko.C47_interval",
    "Rothko.C47_panics"
   ],
   "note": "When the int64 arithmetic does not overflow (PixOk). Pixel 0 also takes everything before the window."
  },
  {
   "property": "C48",
   "status": "partial",
   "theorems": [
    "Rothko.C48_below",
    "Rothko.C48_above_partial",
    "Rothko.C48_above_refuted",
    "Rothko.C48_range",
    "Rothko.C48_monotone",
    "Rothko.C48_accuracy",
    "Rothko.C48_rank"
   ],
   "note": "As stated except at the maximum of observations that are all equal, where the result is 0 (witness). The t-digest's Quantile is a parameter."
  },
  {
   "property": "C49",
   "status": "partial",
   "theorems": [
    "Rothko.C49_current_partial",
    "Rothko.C49_refuted",
    "Rothko.C49_stale"
   ],
   "note": "True when all observations precede the first CDF call; false otherwise (witness): cached quantiles are never dropped."
  },
  {
   "property": "C50",
   "status": "partial",
   "theorems": [
    "Rothko.C50_refused",
    "Rothko.C50_accepted",
    "Rothko.C50_password_only_refuted"
   ],
   "note": "For a configured username, up to collisions of sha256; with only a password configured nothing is checked (witness). C122 has the header."
  },
  {
   "property": "C51",
   "status": "partial",
   "theorems": [
    "Rothko.C51_method",
    "Rothko.C51_no_metric",
    "Rothko.C51_not_found",
    "Rothko.C51_static",
    "Rothko.C51_status",
    "Rothko.C51_failure",
    "Rothko.C51_no_overwrite",
    "Rothko.C51_logged_partial",
    "Rothko.C51_logged_refuted"
   ],
   "note": "All as stated except the log: when the server itself sends an error's status, 0 is logged (witness)."
  },
  {
   "property": "C52",
   "status": "proved",
   "theorems": [
    "Rothko.C52_exact",
    "Rothko.C52_err_iff",
    "Rothko.C52_sticky",
    "Rothko.C52_no_panic",
    "Rothko.C52_negative"
   ],
   "note": "For calls that do not use a negative index (which panics on an array). An index past the end of an array is an error, not absence."
  },
  {
   "property": "C53",
   "status": "proved",
   "theorems": [
    "Rothko.C53_last"
   ],
   "note": ""
  },
  {
   "property": "C54",
   "status": "proved",
   "theorems": [
    "Rothko.C54_waits",
    "Rothko.C54_result",
    "Rothko.C54_cancelled",
    "Rothko.C54_progress",
    "Rothko.C54_steps_bounded"
   ],
   "note": ""
  },
  {
   "property": "C55",
   "status": "proved",
   "theorems": [
    "Rothko.C55_view",
    "Rothko.C55_set",
    "Rothko.C55_readback",
    "Rothko.C55_image",
    "Rothko.C55_nested"
   ],
   "note": "C55_nested: the origin of a view of a view counts from the canvas, not from the view."
  },
  {
   "property": "C56",
   "status": "proved",
   "theorems": [
    "Rothko.C56_line",
    "Rothko.C56_truncated",
    "Rothko.C56_lines_exist",
    "Rothko.C56_conn",
    "Rothko.C56_long",
    "Rothko.C56_long_refuted"
   ],
   "note": "For lines shorter than 65536 bytes; a longer line stops the connection and everything after it is lost (C56_long_refuted). strconv.ParseFloat and ParseInt's float parsing are a parameter."
  },
  {
   "property": "C57",
   "status": "proved",
   "theorems": [
    "Rothko.C57_once",
    "Rothko.C57_waits",
    "Rothko.C57_counts",
    "Rothko.C57_buffers",
    "Rothko.C57_again",
    "Rothko.C57_progress",
    "Rothko.C57_steps",
    "Rothko.C57_answered_refuted"
   ],
   "note": "As stated; beyond the statement: a value queued after the database's Run returned is never answered, so a dump can wait for ever (C57_answered_refuted)."
  },
  {
   "property": "C58",
   "status": "partial",
   "theorems": [
    "Rothko.C58_stored",
    "Rothko.C58_root",
    "Rothko.C58_default",
    "Rothko.C58_missing",
    "Rothko.C58_directory",
    "Rothko.C58_directory_refuted",
    "Rothko.C58_index_refuted",
    "Rothko.C58_listing",
    "Rothko.C58_readdir_partial",
    "Rothko.C58_readdir_refuted",
    "Rothko.C58_readdir_negative",
    "Rothko.C58_rooted"
   ],
   "note": "Files and misses are as stated; directory entries without their own header have no info, and repeated Readdir calls repeat or miss entries (witnesses). gzip and tar decoding are not modelled."
  },
  {
   "property": "C59",
   "status": "partial",
   "theorems": [
    "Rothko.C59_serial",
    "Rothko.C59_order",
    "Rothko.C59_alone",
    "Rothko.C59_history",
    "Rothko.C59_completes",
    "Rothko.C59_isolated_refuted"
   ],
   "note": "C59_serial, C59_order and C59_alone hold for any cutting of the calls into steps; C59_history instantiates them with the calls of the database, so that C13 to C21 hold of concurrent executions. False in one respect: a call on a metric with a longer name can create this metric's directory, which turns a failing query into a succeeding one (C59_isolated_refuted)."
  },
  {
   "property": "C60",
   "status": "proved",
   "theorems": [
    "Rothko.C60_accepted",
    "Rothko.C60_entities",
    "Rothko.C60_redacted"
   ],
   "note": "toml decoding is not modelled: the input is the decoded document."
  },
  {
   "property": "C61",
   "status": "partial",
   "theorems": [
    "Rothko.C61_creation_crash_refuted",
    "Rothko.C61_forever_refuted"
   ],
   "note": "False of the code: a witness, and for every history (C61_forever_refuted)."
  },
  {
   "property": "C62",
   "status": "partial",
   "theorems": [
    "Rothko.C62_forever_partial",
    "Rothko.C62_forever_example",
    "Rothko.C62_published_partial",
    "Rothko.C62_published_refuted"
   ],
   "note": "C62_forever_partial: for every overlap of writes, listings and rescans, and also for sets that were replaced since; it needs that no empty set is published: an empty published set is modified in place (witness)."
  },
  {
   "property": "C63",
   "status": "proved",
   "theorems": [
    "Rothko.C63_key",
    "Rothko.C63_obs",
    "Rothko.C63_heatmap",
    "Rothko.C63_generic",
    "Rothko.C63_generic_example",
    "Rothko.C63_clip_refuted",
    "Rothko.C63_generic_refuted"
   ],
   "note": "C63_generic: on other canvases a column is cut off at the view's edge and drawn from the top. As stated for columns inside the view; a column wider than the view paints outside it (C63_clip_refuted), and on a canvas that is not an RGB the heatmap is drawn upside down (C63_generic_refuted)."
  },
  {
   "property": "C64",
   "status": "proved",
   "theorems": [
    "Rothko.C64_next",
    "Rothko.C64_durable",
    "Rothko.C64_example"
   ],
   "note": "Crashes between chunks need no assumption; for a crash inside a chunk the half written chunk must not pass for a record by accident of the checksum (TornOk), see C22_inside_chunk_refuted."
  },
  {
   "property": "C65",
   "status": "partial",
   "theorems": [
    "Rothko.C65_stuck_refuted",
    "Rothko.C65_example"
   ],
   "note": "False of the code: a single-chunk write that dies after its first byte leaves the metric refusing writes forever."
  },
  {
   "property": "C66",
   "status": "proved",
   "theorems": [
    "Rothko.C66_record",
    "Rothko.C66_meta",
    "Rothko.C66_unknown",
    "Rothko.C66_example"
   ],
   "note": "Messages below 2^62 bytes."
  },
  {
   "property": "C67",
   "status": "proved",
   "theorems": [
    "Rothko.C67_after_services",
    "Rothko.C67_before_database",
    "Rothko.C67_flushed",
    "Rothko.C67_failed",
    "Rothko.C67_failed_refuted",
    "Rothko.C67_example"
   ],
   "note": "When run returns without an error; when a service fails no last dump is made and the observations are lost (C67_failed_refuted)."
  },
  {
   "property": "C68",
   "status": "proved",
   "theorems": [
    "Rothko.C68_closed",
    "Rothko.C68_quiet",
    "Rothko.C68_result",
    "Rothko.C68_progress",
    "Rothko.C68_example"
   ],
   "note": "That a closed socket ends Accept and a closed connection ends its scanner is how the steps of the model are defined (net package)."
  },
  {
   "property": "C69",
   "status": "proved",
   "theorems": [
    "Rothko.C69_window",
    "Rothko.C69_graph",
    "Rothko.C69_pixels",
    "Rothko.C69_empty",
    "Rothko.C69_undecodable",
    "Rothko.C69_leftmost_refuted",
    "Rothko.C69_example"
   ],
   "note": "C69_pixels says for every pixel which records it shows; the leftmost one can also show a record that ended before the graph's time (C69_leftmost_refuted). Loading, measuring the layout and sampling are parameters."
  },
  {
   "property": "C70",
   "status": "proved",
   "theorems": [
    "Rothko.C70_stored",
    "Rothko.C70_conserved",
    "Rothko.C70_fits",
    "Rothko.C70_example_hyps",
    "Rothko.C70_example"
   ],
   "note": "Serial composition of writer, dumper, record codec and store; the interleavings inside the components are C41-C43, C57, C31-C33 and C59. Records must fit a file (Fits, shown to follow from a bound on the ids and on the distribution's encoding by C70_fits)."
  },
  {
   "property": "C71",
   "status": "proved",
   "theorems": [
    "Rothko.C71_space",
    "Rothko.C71_documented_refuted",
    "Rothko.C72_example"
   ],
   "note": "The bound with the metadata slot holds and is exact; the documented bound leaves that slot out and is exceeded (witness)."
  },
  {
   "property": "C72",
   "status": "proved",
   "theorems": [
    "Rothko.C72_history",
    "Rothko.C72_count",
    "Rothko.C72_example"
   ],
   "note": ""
  },
  {
   "property": "C73",
   "status": "partial",
   "theorems": [
    "Rothko.C73_inside",
    "Rothko.C73_ticks",
    "Rothko.C73_no_bleed",
    "Rothko.C73_spaced_partial",
    "Rothko.C73_overlap_refuted"
   ],
   "note": "The texts of a horizontal axis are spaced except among the first ten pixels, where they can be drawn over each other (C73_overlap_refuted: a graph of a year)."
  },
  {
   "property": "C74",
   "status": "proved",
   "theorems": [
    "Rothko.C74_unit",
    "Rothko.C74_times"
   ],
   "note": "Zone offsets and the formatting of a time are not modelled."
  },
  {
   "property": "C75",
   "status": "proved",
   "theorems": [
    "Rothko.C75_layout",
    "Rothko.C75_crash",
    "Rothko.C75_example"
   ],
   "note": "Under Style.Ok: the font reports one height for all time labels, nonnegative sizes. A width below 100 pixels crashes (C75_crash), as the property's statement does not exclude."
  },
  {
   "property": "C76",
   "status": "proved",
   "theorems": [
    "Rothko.C76_picture",
    "Rothko.C76_example_hyps",
    "Rothko.C76_example",
    "Rothko.C76_one_row",
    "Rothko.C76_crash_refuted"
   ],
   "note": "For graphs whose colours can be computed: a heatmap of a single row (height 51 with the built-in font) divides by zero and crashes (C76_crash_refuted). The quantile of a column and the colour table are parameters; glyphs are a parameter that stays inside the font's bounds (InkOk), which C95_inside proves of the built-in font."
  },
  {
   "property": "C77",
   "status": "proved",
   "theorems": [
    "Rothko.C77_store",
    "Rothko.C77_shown",
    "Rothko.C77_example"
   ],
   "note": "The composition of C70, C69, C75 and C76. Not for a heatmap of a single row (C76_crash_refuted); the leftmost column can also show an interval that ended before the graph's time (C69_leftmost_refuted). Loading, merging and sampling distributions and the colour of a sample are parameters here; C87 fills them in."
  },
  {
   "property": "C78",
   "status": "proved",
   "theorems": [
    "Rothko.C78_files",
    "Rothko.C78_tdigest",
    "Rothko.C78_graphite",
    "Rothko.C78_example"
   ],
   "note": "The toml decoder itself is not modelled; configuration values are trees of the kinds it produces."
  },
  {
   "property": "C79",
   "status": "partial",
   "theorems": [
    "Rothko.C79_tuning",
    "Rothko.C79_initial",
    "Rothko.C79_cap_refuted"
   ],
   "note": "Not for every configuration: one without a cap is accepted and the first write divides by zero and crashes (C79_cap_refuted); a negative buffer or number of workers panics on start. The documented default of handles (limit - 1024) differs from the code's (limit - 512), which is what is proved. Sizes too large for memory are left out."
  },
  {
   "property": "C80",
   "status": "proved",
   "theorems": [
    "Rothko.C80_parse",
    "Rothko.C80_default",
    "Rothko.C80_render",
    "Rothko.C80_example"
   ],
   "note": "strconv.ParseInt is transcribed from the library. The duration and compression parameters (time.ParseDuration, strconv.ParseFloat) are not modelled."
  },
  {
   "property": "C81",
   "status": "partial",
   "theorems": [
    "Rothko.C81_answer",
    "Rothko.C81_query_partial",
    "Rothko.C81_example"
   ],
   "note": "For databases whose Metrics and PopulateMetrics calls do not overlap (else names get lost: C35_overlap_refuted, C35_populate_refuted) and results parameters that are not negative (a negative one panics). The JSON encoding of the names is C93."
  },
  {
   "property": "C82",
   "status": "proved",
   "theorems": [
    "Rothko.C82_complete",
    "Rothko.C82_returns",
    "Rothko.C82_progress",
    "Rothko.C82_period_refuted",
    "Rothko.C82_example"
   ],
   "note": "For positive periods: a configuration without a duration is accepted and makes Run panic (C82_period_refuted)."
  },
  {
   "property": "C83",
   "status": "partial",
   "theorems": [
    "Rothko.C83_records",
    "Rothko.C83_six",
    "Rothko.C83_done",
    "Rothko.C83_progress",
    "Rothko.C83_drop_refuted",
    "Rothko.C83_example"
   ],
   "note": "For databases that do not drop: the first dropped value (or a cancellation while queueing) blocks the demo for ever, as Queue invokes the callback in the goroutine that would have to receive (C83_drop_refuted). Whether a record was written, or refused as old, is ignored by the demo."
  },
  {
   "property": "C84",
   "status": "partial",
   "theorems": [
    "Rothko.C84_rounds",
    "Rothko.C84_range",
    "Rothko.C84_row",
    "Rothko.C84_monotone",
    "Rothko.C84_bottom",
    "Rothko.C84_shade",
    "Rothko.C84_column",
    "Rothko.C84_key",
    "Rothko.C84_samples",
    "Rothko.C84_top_refuted",
    "Rothko.C84_top_example",
    "Rothko.C84_one_row_refuted",
    "Rothko.C84_key_top_refuted",
    "Rothko.C84_example"
   ],
   "note": "All but the top: rounding makes the highest row miss the greatest value for some heights (C84_top_refuted: 31 values, 299 rows) and the highest row of the key the last colour (C84_key_top_refuted: 320 rows). A heatmap of one row crashes (C84_one_row_refuted). The number of values times rows is below 2^50. The quantile function of the t-digest is a parameter."
  },
  {
   "property": "C85",
   "status": "proved",
   "theorems": [
    "Rothko.C85_rate",
    "Rothko.C85_bar",
    "Rothko.C85_peak",
    "Rothko.C85_merged_refuted",
    "Rothko.C85_infinite_refuted",
    "Rothko.C85_example"
   ],
   "note": "For records that count the records merged into them (at least 1). One from before that field existed has 0 there: its rate is infinite (C85_merged_refuted), and the bars of all other columns turn white (C85_infinite_refuted)."
  },
  {
   "property": "C86",
   "status": "proved",
   "theorems": [
    "Rothko.C86_positions",
    "Rothko.C86_times",
    "Rothko.C86_ranks",
    "Rothko.C86_example"
   ],
   "note": "For graphs of less than 2^31 columns and 2^25 rows; the tick is within two pixels of the column that shows its time if a pixel lasts at least as many nanoseconds as there are pixels. The texts (fmt, time.Format), quantiles and float16 are parameters."
  },
  {
   "property": "C87",
   "status": "proved",
   "theorems": [
    "Rothko.C87_rows",
    "Rothko.C87_column",
    "Rothko.C87_shown",
    "Rothko.C87_white",
    "Rothko.C87_distinct",
    "Rothko.C87_example"
   ],
   "note": "For heatmaps of two rows or more, a positive number of samples, and (bars) intervals that lasted. The t-digest and float16 libraries are parameters: a digest that is written must be read back, and merging must not fail. The leftmost column also shows an interval from before the graph's time (C69_leftmost_refuted)."
  },
  {
   "property": "C88",
   "status": "proved",
   "theorems": [
    "Rothko.C88_menu",
    "Rothko.C88_requests",
    "Rothko.C88_comes",
    "Rothko.C88_example",
    "Rothko.C88_reopens_refuted",
    "Rothko.C88_early_refuted"
   ],
   "note": "Two things one might expect besides do not hold: an answer that comes after the input was left opens the menu again (C88_reopens_refuted); a text that is typed again is requested 250 milliseconds after it was typed first (C88_early_refuted)."
  },
  {
   "property": "C89",
   "status": "partial",
   "theorems": [
    "Rothko.C89_selected",
    "Rothko.C89_enter",
    "Rothko.C89_arrows",
    "Rothko.C89_example",
    "Rothko.C89_enter_refuted"
   ],
   "note": "All but the last clause: when the server's answer has no completions nothing is seen of a menu, and yet Enter does nothing (C89_enter_refuted)."
  },
  {
   "property": "C90",
   "status": "proved",
   "theorems": [
    "Rothko.C90_size",
    "Rothko.C90_steady",
    "Rothko.C90_burst",
    "Rothko.C90_example",
    "Rothko.C90_burst_refuted"
   ],
   "note": "That the address stays is needed for the burst: a timer of an earlier address can be taken for one of the new graph's (C90_burst_refuted)."
  },
  {
   "property": "C91",
   "status": "proved",
   "theorems": [
    "Rothko.C91_address",
    "Rothko.C91_settles",
    "Rothko.C91_select",
    "Rothko.C91_example",
    "Rothko.C91_path_refuted",
    "Rothko.C91_again_refuted"
   ],
   "note": "At other paths than the top, where the server serves the page too, a selected name can end with no graph (C91_path_refuted); selecting the metric that is shown does not ask the server again (C91_again_refuted). JavaScript's running each event to completion and Elm's runtime are assumed, but no order of commands."
  },
  {
   "property": "C92",
   "status": "proved",
   "theorems": [
    "Rothko.C92_address",
    "Rothko.C92_image",
    "Rothko.C92_completions",
    "Rothko.C92_example",
    "Rothko.C92_by_hand"
   ],
   "note": "Elm's Url library, encodeURIComponent, the browser's escaping and Go's net/url are transcribed."
  },
  {
   "property": "C93",
   "status": "proved",
   "theorems": [
    "Rothko.C93_answer",
    "Rothko.C93_names",
    "Rothko.C93_completions",
    "Rothko.C93_example",
    "Rothko.C93_broken_refuted"
   ],
   "note": "encoding/json is transcribed for lists of strings. A name that is not UTF-8 is listed as another one, which cannot be drawn (C93_broken_refuted)."
  },
  {
   "property": "C94",
   "status": "partial",
   "theorems": [
    "Rothko.C94_stored",
    "Rothko.C94_missing",
    "Rothko.C94_preview",
    "Rothko.C94_example",
    "Rothko.C94_raw_refuted",
    "Rothko.C94_preview_example"
   ],
   "note": "All but missing files whose names do not end in .html: these are answered with the page's template as it stands (C94_raw_refuted). html/template and http.FileServer are parameters."
  },
  {
   "property": "C95",
   "status": "partial",
   "theorems": [
    "Rothko.C95_inside",
    "Rothko.C95_seen",
    "Rothko.C95_read",
    "Rothko.C95_same",
    "Rothko.C95_graph",
    "Rothko.C95_times",
    "Rothko.C95_scene",
    "Rothko.C95_example",
    "Rothko.C95_shape",
    "Rothko.C95_underscore_refuted",
    "Rothko.C95_left_out"
   ],
   "note": "Texts under the graph are seen but for their first row of pixels, into which the long ticks reach; those on the sides down to the baseline, so that an underscore there looks like a space (C95_underscore_refuted). The times are side by side if a unit of time is 12 pixels or longer (else those that begin in the first ten pixels overlap: C73_overlap_refuted). Graphs too narrow for the rate (102 pixels) cut it at the left edge of the picture. fmt and time.Format are parameters. font.Drawer, basicfont and image/draw are transcribed."
  },
  {
   "property": "C96",
   "status": "proved",
   "theorems": [
    "Rothko.C96_run",
    "Rothko.C96_careful",
    "Rothko.C96_never_stuck",
    "Rothko.C96_mapped",
    "Rothko.C96_not_shared",
    "Rothko.C96_closed_once",
    "Rothko.C96_bound",
    "Rothko.C96_rest",
    "Rothko.C96_lost",
    "Rothko.C96_none_lost",
    "Rothko.C96_serial",
    "Rothko.C96_history",
    "Rothko.C96_bounded_refuted",
    "Rothko.C96_example"
   ],
   "note": "Errors of the operating system are in C99 (for one metric), files with any content are here. The bound on mappings without those lost by failed calls is false of the code: openFile and createFile leave the file mapped when they fail after mmap, so queries of a metric with a broken file use up a mapping each (C96_bounded_refuted); in a process whose files were never left half written none is lost (C96_none_lost)."
  },
  {
   "property": "C97",
   "status": "proved",
   "theorems": [
    "Rothko.C97_call",
    "Rothko.C97_query",
    "Rothko.C97_latest",
    "Rothko.C97_stored",
    "Rothko.C97_written",
    "Rothko.C97_ends",
    "Rothko.C97_example",
    "Rothko.C70_conserved"
   ],
   "note": "Under C70's conditions on sizes and times; the calls of the database are those of C96, step by step. Adding an observation and capturing a page are single steps here (C41 to C43 are about their interleavings), and the process ends only when its calls have returned (C64 is about crashes)."
  },
  {
   "property": "C98",
   "status": "proved",
   "theorems": [
    "Rothko.C98_shown",
    "Rothko.C98_example",
    "Rothko.C98_late_refuted",
    "Rothko.C97_call",
    "Rothko.C87_shown"
   ],
   "note": "What is outside (digest library, texts) is C87's `Outside` and `Library`; sizes and times as for C87. The condition that the records end before the time asked for is needed: a request that reads the clock before a dump whose record begins a new file, and is carried out after it, gets an error (C98_late_refuted, after C16)."
  },
  {
   "property": "C99",
   "status": "partial",
   "theorems": [
    "Rothko.C99_none",
    "Rothko.C99_kept_partial",
    "Rothko.C99_write_partial",
    "Rothko.C99_query_partial",
    "Rothko.C99_files_partial",
    "Rothko.C99_oldest_partial",
    "Rothko.C99_full_refuted",
    "Rothko.C99_dropped_refuted",
    "Rothko.C99_example",
    "Rothko.C99_full_example"
   ],
   "note": "The full claim is false of the code: if fallocate or the first mmap of a new file fails (a full disk), createFile leaves a useless file behind and from then on every query and write of the metric fails, in every state (C99_full_refuted); and a write that fails because the new file cannot be made has already removed the oldest file (C99_dropped_refuted). Proved for all other failures. One metric at a time; a failing munmap or msync, and faults while mapped memory is used, are not modelled."
  },
  {
   "property": "C100",
   "status": "proved",
   "theorems": [
    "Rothko.C100_one",
    "Rothko.C100_stops",
    "Rothko.C100_undisturbed",
    "Rothko.C100_flushed",
    "Rothko.C100_second_refuted",
    "Rothko.C100_deaf_refuted",
    "Rothko.C100_lost_refuted",
    "Rothko.C100_example",
    "Rothko.C100_deaf_example",
    "Rothko.C67_flushed"
   ],
   "note": "The refuted forms are stronger claims: a second SIGINT ends the process also during the last dump, with what is not yet dumped (C100_lost_refuted); once the goroutine has seen the end of the context instead of a signal, signals are swallowed until the program returns (C100_deaf_refuted)."
  },
  {
   "property": "C101",
   "status": "partial",
   "theorems": [
    "Rothko.C101_no_error",
    "Rothko.C101_freed",
    "Rothko.C101_stays",
    "Rothko.C101_stops",
    "Rothko.C101_waits_partial",
    "Rothko.C101_requests_refuted",
    "Rothko.C101_example"
   ],
   "note": "The last part is false of the code: runServer returns while Shutdown still waits for requests in another goroutine, so the end of the process can cut them off (C101_requests_refuted); the rest is proved. net/http's Server is modelled after its documentation, in both versions of Serve."
  },
  {
   "property": "C102",
   "status": "partial",
   "theorems": [
    "Rothko.C102_init_partial",
    "Rothko.C102_status",
    "Rothko.C102_flushed",
    "Rothko.C102_overwrites_refuted",
    "Rothko.C102_example"
   ],
   "note": "False of the code where other processes change the path between the look and the write: a configuration made then is overwritten; and a failed write leaves a part that init refuses to replace (C102_overwrites_refuted). The command line library and TOML decoding are parameters."
  },
  {
   "property": "C103",
   "status": "proved",
   "theorems": [
    "Rothko.C103_seen",
    "Rothko.C103_example",
    "Rothko.C103_narrow_refuted",
    "Rothko.C91_address",
    "Rothko.C92_image",
    "Rothko.C98_shown"
   ],
   "note": "What is outside (digests, texts, png) is C87's `Outside` and `Library` and `Backend`; an empty text is neither a duration nor a number for Go's parsers, and the texts of the axes have at most 4 and 10 characters. Narrow windows are excluded by the claim: below 138 pixels the handler panics (C103_narrow_refuted). Late intervals as for C98."
  },
  {
   "property": "C104",
   "status": "proved",
   "theorems": [
    "Rothko.C104_json",
    "Rothko.columns_records",
    "Rothko.C104_example"
   ],
   "note": "The text of the JSON is any function of what is encoded; where it fails (a rate that is not finite has no JSON) the answer is an error. At least one sample; the duration in nanoseconds is at least the width; the room for the heatmap as for C98."
  },
  {
   "property": "C105",
   "status": "proved",
   "theorems": [
    "Rothko.C105_conserved",
    "Rothko.C105_order",
    "Rothko.C105_sent",
    "Rothko.C105_stored",
    "Rothko.C105_never",
    "Rothko.C105_example",
    "Rothko.C56_conn",
    "Rothko.C97_stored"
   ],
   "note": "strconv.ParseFloat is a parameter. Longer lines end their connection (C56_long_refuted). Conditions on sizes and times as for C97. The time in a line is not used by the program: a value belongs to the interval in which it is handled."
  },
  {
   "property": "C106",
   "status": "partial",
   "theorems": [
    "Rothko.C106_acknowledged_partial",
    "Rothko.C106_durable_partial",
    "Rothko.C106_next",
    "Rothko.C106_example",
    "Rothko.C106_full_refuted"
   ],
   "note": "False of the code when the process is killed between the two halves of the metadata or while a data file is made: the metric is then lost, with all that was acknowledged (C106_full_refuted; C24, C61). Proved with these places excluded and without accidental checksums of a half written chunk. What is acknowledged after a first crash may be lost by a later one or at once (C23). Loss of power is not modelled."
  },
  {
   "property": "C107",
   "status": "partial",
   "theorems": [
    "Rothko.C107_killed_partial",
    "Rothko.C107_lives_partial",
    "Rothko.C107_order_partial",
    "Rothko.C107_sent_partial",
    "Rothko.C107_example",
    "Rothko.C107_sent_example",
    "Rothko.C107_full_refuted"
   ],
   "note": "False of the code at the places excluded in C106 (C107_full_refuted). Proved with these places excluded. For the first kill of a program started on an empty directory all intervals are accounted for; for later lives it is proved that only true records are shown, in the order of the intervals and none twice if the clock goes forward (C107_order_partial), and that what was shown stays, but not that what the later lives acknowledged is there (C65: after a torn chunk all further writes of the metric fail). A metric of which nothing had been acknowledged may give an error (no directory)."
  },
  {
   "property": "C108",
   "status": "proved",
   "theorems": [
    "Rothko.C108_query",
    "Rothko.C108_latest",
    "Rothko.C108_stored",
    "Rothko.C108_call",
    "Rothko.C108_written",
    "Rothko.C108_which",
    "Rothko.C108_example"
   ],
   "note": "C97 without its condition on the clock. A restart here is an orderly one; for kills see C107 (lives), which has no condition on the clock either. After the clock was set back the next interval can begin before the end of the last one stored (C108_example)."
  },
  {
   "property": "C109",
   "status": "proved",
   "theorems": [
    "Rothko.C109_again",
    "Rothko.C109_true",
    "Rothko.C109_example"
   ],
   "note": "What remains of C35 when calls have overlapped before. Steps are atomic as described in Model/Names; that a set in use may be written to by another goroutine is C62. A completed PopulateMetrics counts as acknowledging what it found."
  },
  {
   "property": "C110",
   "status": "proved",
   "theorems": [
    "Rothko.C110_listed",
    "Rothko.C110_exact",
    "Rothko.C110_search",
    "Rothko.C110_opens",
    "Rothko.C110_observed",
    "Rothko.C110_typed",
    "Rothko.C110_typed_refuted",
    "Rothko.C110_example"
   ],
   "note": "Model/Process and Model/Names in one system (Model/Whole). Without the condition on overlaps the listing can miss names (C35_overlap_refuted, C35_populate_refuted, and C109 for when they come back). C110_typed_refuted: a name with two dots in a row is not found by typing it."
  },
  {
   "property": "C111",
   "status": "proved",
   "theorems": [
    "Rothko.C111_read",
    "Rothko.C111_exact",
    "Rothko.C111_zero",
    "Rothko.C111_only",
    "Rothko.C111_written",
    "Rothko.C111_request",
    "Rothko.C111_finer_refuted",
    "Rothko.C111_example"
   ],
   "note": "time.ParseDuration and Duration.String as they were in the Go of the code's time (int64; later versions also read the least duration). C111_finer_refuted: 0.00000000000750h says exactly 27 ns and is read as 26, so the condition on the last digit cannot be dropped."
  },
  {
   "property": "C112",
   "status": "proved",
   "theorems": [
    "Rothko.C112_never_stuck",
    "Rothko.C112_mapped",
    "Rothko.C112_not_shared",
    "Rothko.C112_closed_once",
    "Rothko.C112_bound",
    "Rothko.C112_rest",
    "Rothko.C112_lost",
    "Rothko.C112_run",
    "Rothko.C112_serial",
    "Rothko.C112_spared",
    "Rothko.C112_history",
    "Rothko.C112_kept",
    "Rothko.C112_example"
   ],
   "note": "C96 and C99 together. Whether opening or creating a file fails is chosen at each step of the schedule; whether opening the directory and removing files fails is given with the call. The condition of the last part cannot be dropped: a file left half made by a full disk makes the metric useless (C99_full_refuted)."
  },
  {
   "property": "C113",
   "status": "proved",
   "theorems": [
    "Rothko.C113_ends",
    "Rothko.C113_goes_on",
    "Rothko.C113_returns",
    "Rothko.C113_example"
   ],
   "note": "Over the system of C112. A run is a function from times to states, each time a step or nothing. Each step of a goroutine lowers, in a well-founded order, what it has left to do; no bound on it is given."
  },
  {
   "property": "C114",
   "status": "proved",
   "theorems": [
    "Rothko.C114_true",
    "Rothko.C114_fails",
    "Rothko.C114_closed",
    "Rothko.C114_found",
    "Rothko.C114_rotated",
    "Rothko.C114_names",
    "Rothko.C114_ends",
    "Rothko.C114_example",
    "Rothko.C114_replaced_refuted"
   ],
   "note": "What getdents promises (POSIX: an entry that is there from open to the end is returned, what is returned was there since open, nothing twice) is the specification Spec/Scan. C114_names discharges what Model/Names takes a scan to be. C114_replaced_refuted: without the last condition a metric that always has a data file can be missed."
  },
  {
   "property": "C115",
   "status": "proved",
   "theorems": [
    "Rothko.C115_scene",
    "Rothko.C115_value",
    "Rothko.C115_special",
    "Rothko.C115_order",
    "Rothko.C115_rate",
    "Rothko.C115_rank",
    "Rothko.C115_ends",
    "Rothko.C115_time",
    "Rothko.C115_epoch",
    "Rothko.C115_distinct",
    "Rothko.C115_twice_refuted",
    "Rothko.C115_texts",
    "Rothko.C115_example",
    "Rothko.Says.unique",
    "Rothko.SaysTime.unique",
    "Rothko.goDay_eq",
    "Rothko.fLt_val"
   ],
   "note": "fmt, strconv and time are modelled from their source, for both ways the flag # has counted digits (before and since Go 1.15). Over C95 (what is drawn can be read, for the rounding of t-digest values to float16 see C84) and C86. C115_twice_refuted: labels repeat when clocks are set back, and after 365 days. The condition that the graph is at least 86 pixels wide and not too long for its unit is C95's."
  },
  {
   "property": "C116",
   "status": "proved",
   "theorems": [
    "Rothko.C116_number",
    "Rothko.C116_exact",
    "Rothko.C116_only",
    "Rothko.C116_word",
    "Rothko.C116_line",
    "Rothko.C116_refused",
    "Rothko.C116_conn",
    "Rothko.C116_sent",
    "Rothko.C116_stored",
    "Rothko.C116_long_refuted",
    "Rothko.C116_texts",
    "Rothko.C116_example",
    "Rothko.Reads.unique"
   ],
   "note": "strconv.ParseFloat is modelled from its source until Go 1.12 (later versions also read hexadecimal numbers and underscores are refused as here). C116_long_refuted: without the condition on digits and exponent the claim is false, 0.(50000 zeros)1e100000 is read as 0, because digits of the exponent from 10000 on are ignored."
  },
  {
   "property": "C117",
   "status": "proved",
   "theorems": [
    "Rothko.C117_file",
    "Rothko.C117_missing",
    "Rothko.C117_dir",
    "Rothko.C117_root",
    "Rothko.C117_index",
    "Rothko.C117_noslash",
    "Rothko.C117_slash",
    "Rothko.C117_follow_noslash",
    "Rothko.C117_follow_slash",
    "Rothko.C117_follow_index",
    "Rothko.C117_browse",
    "Rothko.C117_browse_index",
    "Rothko.C117_total",
    "Rothko.C117_warning",
    "Rothko.C117_fails_refuted",
    "Rothko.C117_noindex_refuted",
    "Rothko.C117_nodirs_refuted",
    "Rothko.C117_example"
   ],
   "note": "http.FileServer is modelled from its source (Go 1.10), for GET requests without Range or If-Modified-Since; templates are any functions. A browser's step is RFC 3986, 5.2, for names without #, %, ?, : and backslash, which Go does not escape in these redirects. The refutations: with an index that cannot be filled in, without an index.html, or without entries for directories, requests panic (net/http then closes the connection)."
  },
  {
   "property": "C118",
   "status": "proved",
   "theorems": [
    "Rothko.C118_stored",
    "Rothko.C118_lost",
    "Rothko.C118_spared",
    "Rothko.C118_never",
    "Rothko.C118_query",
    "Rothko.C118_latest",
    "Rothko.C118_goes_on",
    "Rothko.C118_whole_refuted",
    "Rothko.C118_example"
   ],
   "note": "C97 and C112 together (Model/ProcFault): C97's process over the file system of C112, where any call may fail. The condition that no new data file is left half made is in the property and cannot be dropped: with such a file every later call on the metric fails, also when nothing fails any more (C118_whole_refuted; its hypotheses are met by C99_full_example). Values of a metric without data: a query gives the error that there is no directory or no file."
  },
  {
   "property": "C119",
   "status": "proved",
   "theorems": [
    "Rothko.C119_rest",
    "Rothko.C119_dump",
    "Rothko.C119_answered",
    "Rothko.C119_example"
   ],
   "note": "C97_ends and C113 together, over the process of C118. A run is a function from times to states, each time a step or nothing; each step of the program lowers, in a well-founded order, what it has left to do. With infinitely many requests the locks of the model could be given to requests for ever (Go's mutexes are fairer), hence the condition in the first part."
  },
  {
   "property": "C120",
   "status": "proved",
   "theorems": [
    "Rothko.C120_shown",
    "Rothko.C120_example"
   ],
   "note": "C98 over the process of C118. An error is allowed only if the query itself reported one and system calls can fail for the metric. The condition that no new data file is left half made is in the property (C118_whole_refuted)."
  },
  {
   "property": "C121",
   "status": "proved",
   "theorems": [
    "Rothko.C121_any_time",
    "Rothko.C121_no_panic",
    "Rothko.C121_page",
    "Rothko.C121_example"
   ],
   "note": "Over the process of C118. That the picture shows all stored intervals is C120, for graphs up to a time after all of them; before that a query may stop early (C16, C98_late_refuted), so here the intervals shown are some of those that ended before. Times are from 1970 to 2262; room for the heatmap is a condition on the size (C75_crash, C76_crash_refuted and C103_narrow_refuted show that smaller pictures panic), met by the page (C121_page)."
  },
  {
   "property": "C122",
   "status": "proved",
   "theorems": [
    "Rothko.C122_base64",
    "Rothko.C122_round_trip",
    "Rothko.C122_read",
    "Rothko.C122_let_in",
    "Rothko.C122_refused",
    "Rothko.C122_colon_refuted",
    "Rothko.C122_example",
    "Rothko.C122_served"
   ],
   "note": "net/http's BasicAuth and encoding/base64's decoder are transcribed, in the form up to Go 1.11 and the later one that takes the word Basic in any case. sha256 is any function; a request is refused unless what it sends collides with what is configured. Bits left over in the last group of base64 are ignored, so that a header has a few spellings."
  },
  {
   "property": "C123",
   "status": "proved",
   "theorems": [
    "Rothko.C123_form",
    "Rothko.C123_every",
    "Rothko.C123_unique",
    "Rothko.C123_request",
    "Rothko.C123_search",
    "Rothko.C123_served",
    "Rothko.C123_example"
   ],
   "note": "net/url's ParseQuery is transcribed, in the form up to Go 1.16, in which ; separates like & (later versions leave out a parameter with one). Numbers are read by the transcribed strconv.ParseInt, time.ParseDuration and strconv.ParseFloat. Finer durations and longer numbers are left to C111 and C116; inf and nan are accepted as a compression (C116_word)."
  },
  {
   "property": "C124",
   "status": "proved",
   "theorems": [
    "Rothko.C124_by_hand",
    "Rothko.any_room",
    "Rothko.C124_example",
    "Rothko.C124_minus_one",
    "Rothko.C124_samples_refuted"
   ],
   "note": "A number of samples below 1 is not covered: with -1 a request panics whenever there is something to show (C124_minus_one, C124_samples_refuted); below -1 it panics in make, which is not modelled; with 0 the rank asked for is not a number. With C123 for what the address asks for and C121 for what the picture shows. The t-digest library, the half precision and the text formats are as in C98 (Library, Outside.Ok, Outside.Short; C115 shows that the texts of the formats are so short); memory is left out. The intervals start and end after 1970."
  },
  {
   "property": "C125",
   "status": "proved",
   "theorems": [
    "Rothko.C125_columns",
    "Rothko.C125_json",
    "Rothko.C125_example"
   ],
   "note": "As C124 for sizes and for what is outside; the text of the JSON is any function of what is encoded, which may fail (a rate that is not finite has no JSON). That all stored intervals are shown when the graph's time is after them is C104."
  },
  {
   "property": "C126",
   "status": "proved",
   "theorems": [
    "Rothko.C126_read",
    "Rothko.C126_asked",
    "Rothko.peak_shows",
    "Rothko.C126_example"
   ],
   "note": "The formats of the texts are modelled (C115) and so are the glyphs (C95); the t-digest library and the half precision are as in C98. The intervals have a length, start after 1970, and have fewer than 2^53 observations. With C124 for when there is a picture."
  },
  {
   "property": "C127",
   "status": "proved",
   "theorems": [
    "Rothko.C127_picture",
    "Rothko.C127_forward",
    "Rothko.C127_again",
    "Rothko.query_any",
    "Rothko.killed_records",
    "Rothko.C127_example",
    "Rothko.C127_again_example",
    "Rothko.C127_forward_example"
   ],
   "note": "The excluded places are in the property: there the metric is lost (C24, C61, C107_full_refuted). What is outside is as in C98. C127_picture: the first kill of a program started on an empty directory and with a clock that goes forward (ProcOk), with all finished intervals. C127_forward: any number of lives, each ended by a kill, on an empty directory and with dumps in the order of time; what is shown is a part of the intervals of those lives, in their order (that the dumps that ended are all shown is C127_picture, for the first life). C127_again: with any times; what is shown are intervals of those lives, and the picture is theirs if their times descend."
  },
  {
   "property": "C128",
   "status": "proved",
   "theorems": [
    "Rothko.C128_read",
    "Rothko.C128_forward",
    "Rothko.columns_same",
    "Rothko.killed_shown",
    "Rothko.C128_example"
   ],
   "note": "As C127 (the first kill of a program started on an empty directory with a clock that goes forward; C128_forward: any number of lives, as C127_forward) and C126 (texts of Go's libraries; intervals with a length, after 1970, of fewer than 2^53 observations)."
  },
  {
   "property": "C129",
   "status": "proved",
   "theorems": [
    "Rothko.C129_error",
    "Rothko.C129_stays",
    "Rothko.C129_rows",
    "Rothko.C129_error_example",
    "Rothko.C129_rows_example"
   ],
   "note": "The library's tabwriter is any writer: how it aligns the cells is not modelled, nor is the text errs.Wrap adds to an error."
  },
  {
   "property": "C130",
   "status": "proved",
   "theorems": [
    "Rothko.C130_delivered",
    "Rothko.C130_all",
    "Rothko.C130_example"
   ],
   "note": "One goroutine: replacing a resource while another calls it is a data race of the code (no lock) and is left out. An interface that holds a nil pointer counts as a resource."
  },
  {
   "property": "C131",
   "status": "proved",
   "theorems": [
    "Rothko.C131_report",
    "Rothko.C131_during",
    "Rothko.C131_every",
    "Rothko.C131_example"
   ],
   "note": "The database keeps the contract of C57 (the callback is invoked at most once, and never if Queue gives an error; the files database does so: C31). Of lines the facts are modelled, not the texts; where they go is C130. Marshalling does not fail (C06)."
  },
  {
   "property": "C132",
   "status": "proved",
   "theorems": [
    "Rothko.C132_conn",
    "Rothko.C132_long",
    "Rothko.C132_adds",
    "Rothko.C132_example"
   ],
   "note": "The connection ends by an end of file; one that breaks hands out what came as a last line and logs an error as a long line does. The number parser is any function (C116 is about Go's). The peer's address and the error's text in a line are left out; where the lines go is C130."
  }
 ]
}