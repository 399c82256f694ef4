{
 "claims": [
  {
   "property": "C01",
   "status": "proved",
   "theorems": [
    "Verif.C01_bytes_refine_cursors",
    "Verif.C01_no_panic"
   ],
   "note": "refinement of every history of FromBytes/FromString families to independent cursors; for the empty slice the two deviations of the empty Body (WriteTo, negative ReadAt) are excluded and covered by C08/C04"
  },
  {
   "property": "C02",
   "status": "proved",
   "theorems": [
    "Verif.C02_read_exact",
    "Verif.C02_read_concat"
   ],
   "note": ""
  },
  {
   "property": "C03",
   "status": "proved",
   "theorems": [
    "Verif.C03_seek_mem",
    "Verif.C03_seek_readerAt",
    "Verif.C03_seek_seeker",
    "Verif.C03_failed_seek_changes_nothing",
    "Verif.C03_seek_any_readerAt",
    "Verif.C03_seek_any_seeker"
   ],
   "note": "in memory; over well-behaved readers including the bytes read afterwards; over arbitrary readers the arithmetic"
  },
  {
   "property": "C04",
   "status": "proved",
   "theorems": [
    "Verif.C04_readAt_bytes",
    "Verif.C04_empty_negative_offset",
    "Verif.C04_readAt_readerAt"
   ],
   "note": "the exception for the empty body is part of the statement and proved"
  },
  {
   "property": "C05",
   "status": "proved",
   "theorems": [
    "Verif.C05_closed_inert_mem",
    "Verif.C05_alreadyClosed",
    "Verif.C05_closed_inert_stream",
    "Verif.C05_closed_inert_readerAt",
    "Verif.C05_closed_inert_seeker"
   ],
   "note": "all kinds, all readers; over a plain Reader its Close must not panic (see C49)"
  },
  {
   "property": "C06",
   "status": "partial",
   "theorems": [
    "Verif.C06_remaining_exact_partial",
    "Verif.C06_false_after_partial_write",
    "Verif.C06_iff",
    "Verif.C06_empty"
   ],
   "note": "false of the code after a WriteTo whose writer fails part-way (negation proved); exact for all other histories; C06_iff says exactly after which histories it is exact"
  },
  {
   "property": "C07",
   "status": "proved",
   "theorems": [
    "Verif.C07_writeTo_drains"
   ],
   "note": ""
  },
  {
   "property": "C08",
   "status": "partial",
   "theorems": [
    "Verif.C08_copy_empty_partial",
    "Verif.C08_copy_empty_fails",
    "Verif.C08_serve_empty_fails",
    "Verif.C08_empty_writeTo_reports_eof"
   ],
   "note": "false of the code: io.Copy from an open empty Body returns io.EOF for every writer (negation proved); partial: nothing is written and the count is 0"
  },
  {
   "property": "C09",
   "status": "proved",
   "theorems": [
    "Verif.C09_stream_refines_cursors",
    "Verif.C09_stream_content",
    "Verif.C09_calls_return",
    "Verif.C09_log_is_transparent"
   ],
   "note": "for every Reader, well-behaved or not; the declared length is an upper bound on the content"
  },
  {
   "property": "C10",
   "status": "proved",
   "theorems": [
    "Verif.C10_panics_blame_reader",
    "Verif.C10_no_panic",
    "Verif.C10_calm_until_close_panics"
   ],
   "note": "for every reader, until its Close panics; after that see C49"
  },
  {
   "property": "C11",
   "status": "proved",
   "theorems": [
    "Verif.C11_window",
    "Verif.C11_nothing_after_close"
   ],
   "note": ""
  },
  {
   "property": "C12",
   "status": "proved",
   "theorems": [
    "Verif.C12_requests",
    "Verif.C12_quiet_after_end"
   ],
   "note": ""
  },
  {
   "property": "C13",
   "status": "proved",
   "theorems": [
    "Verif.C13_full_or_error"
   ],
   "note": ""
  },
  {
   "property": "C14",
   "status": "proved",
   "theorems": [
    "Verif.C14_remaining",
    "Verif.C14_exact_once_known",
    "Verif.C14_exact_with_correct_length"
   ],
   "note": ""
  },
  {
   "property": "C15",
   "status": "proved",
   "theorems": [
    "Verif.C15_closed_exactly_once_stream",
    "Verif.C15_close_answers_stream",
    "Verif.C15_only_close_closes_stream",
    "Verif.C15_closed_exactly_once_readerAt",
    "Verif.C15_close_answers_readerAt",
    "Verif.C15_closed_exactly_once_seeker",
    "Verif.C15_close_answers_seeker",
    "Verif.C15_only_close_closes_positional"
   ],
   "note": ""
  },
  {
   "property": "C16",
   "status": "proved",
   "theorems": [
    "Verif.C16_readerAt_refines_cursors",
    "Verif.C16_calls_return",
    "Verif.C16_iff"
   ],
   "note": "C16_iff: the weakest condition on the Reader"
  },
  {
   "property": "C17",
   "status": "partial",
   "theorems": [
    "Verif.C17_false_readerAt",
    "Verif.C17_right_bytes_readerAt_partial",
    "Verif.C17_cut",
    "Verif.C17_iff"
   ],
   "note": "false of the code: negation proved; the bytes delivered are always right; C17_cut: the other copy gets the content cut off where the failing Read stopped; C17_iff: all of it if and only if the failing Read delivered all of it"
  },
  {
   "property": "C18",
   "status": "partial",
   "theorems": [
    "Verif.C18_seeker_refines_cursors_partial",
    "Verif.C18_calls_return",
    "Verif.C18_false",
    "Verif.C18_right_bytes_seeker_partial",
    "Verif.C18_iff"
   ],
   "note": "false of the code for seekers with short reads: negation proved; C18_iff: the weakest condition on the Reader; proved for seekers that fill the buffer, and the bytes delivered are right for all"
  },
  {
   "property": "C19",
   "status": "partial",
   "theorems": [
    "Verif.C19_readAt_seeker_partial",
    "Verif.C19_false",
    "Verif.C19_iff"
   ],
   "note": "false of the code for seekers with short reads: negation proved; C19_iff: the weakest condition on the Reader"
  },
  {
   "property": "C20",
   "status": "partial",
   "theorems": [
    "Verif.C20_remaining_stream",
    "Verif.C20_remaining_readerAt",
    "Verif.C20_exact_readerAt",
    "Verif.C20_remaining_seeker_partial",
    "Verif.C20_false_seeker",
    "Verif.C06_remaining_exact_partial",
    "Verif.C20_iff"
   ],
   "note": "false of the code for Seeker-backed bodies: every negative value occurs (negation proved); C20_iff: exactly for which Readers it is true"
  },
  {
   "property": "C21",
   "status": "proved",
   "theorems": [
    "Verif.C21_sticky_readerAt",
    "Verif.C21_sticky_seeker"
   ],
   "note": ""
  },
  {
   "property": "C22",
   "status": "proved",
   "theorems": [
    "Verif.C22_positional",
    "Verif.C22_streaming",
    "Verif.C22_body_unchanged",
    "Verif.C22_fromReader",
    "Verif.C22_nil"
   ],
   "note": ""
  },
  {
   "property": "C23",
   "status": "proved",
   "theorems": [
    "Verif.C23_declared",
    "Verif.C23_stat",
    "Verif.C23_seek",
    "Verif.C23_unknown",
    "Verif.C23_content_readerAt",
    "Verif.C23_content_seeker_partial",
    "Verif.C23_content_stream"
   ],
   "note": "which calls are made on the reader, the outcome, the advertised length, and the content served from the first byte; the content part for seekers is subject to C18 (seekers that fill the buffer)"
  },
  {
   "property": "C24",
   "status": "partial",
   "theorems": [
    "Verif.C24_false",
    "Verif.C24_encoder_error_partial"
   ],
   "note": "false of the code: for every value the Body is empty (proved)"
  },
  {
   "property": "C25",
   "status": "proved",
   "theorems": [
    "Verif.C25_pretty",
    "Verif.C25_lossless",
    "Verif.C25_every_lf_has_cr",
    "Verif.C25_length",
    "Verif.C25_encoder_error",
    "Verif.C25_proto",
    "Verif.C25_protoText"
   ],
   "note": ""
  },
  {
   "property": "C26",
   "status": "proved",
   "theorems": [
    "Verif.C26_last_set",
    "Verif.C26_built",
    "Verif.C26_range",
    "Verif.C26_rejected"
   ],
   "note": "PageGenerators that return an existing map are excluded"
  },
  {
   "property": "C27",
   "status": "proved",
   "theorems": [
    "Verif.C27_headers"
   ],
   "note": ""
  },
  {
   "property": "C28",
   "status": "proved",
   "theorems": [
    "Verif.C28_reset",
    "Verif.C28_no_body"
   ],
   "note": ""
  },
  {
   "property": "C29",
   "status": "proved",
   "theorems": [
    "Verif.C29_as_values",
    "Verif.C29_unaffected",
    "Verif.C29_withHeaders",
    "Verif.C29_copy",
    "Verif.C29_others_unchanged"
   ],
   "note": "PageGenerators that return an existing map are excluded; C30_shared_generator shows why"
  },
  {
   "property": "C30",
   "status": "proved",
   "theorems": [
    "Verif.C30_isolated",
    "Verif.C30_handed_over",
    "Verif.C30_copy_shares",
    "Verif.C30_kept_map_changes_response",
    "Verif.C30_shared_generator"
   ],
   "note": "PageGenerators that return an existing map are excluded; C30_shared_generator shows why"
  },
  {
   "property": "C31",
   "status": "proved",
   "theorems": [
    "Verif.C31_set",
    "Verif.C31_append",
    "Verif.C31_remove",
    "Verif.C31_nothing_else",
    "Verif.C31_empty_name",
    "Verif.C31_names",
    "Verif.C31_content_type",
    "Verif.C31_content_x"
   ],
   "note": ""
  },
  {
   "property": "C32",
   "status": "proved",
   "theorems": [
    "Verif.C32_etag",
    "Verif.C32_etag_unambiguous",
    "Verif.C32_digest",
    "Verif.C32_digest_unambiguous",
    "Verif.C32_rejected"
   ],
   "note": ""
  },
  {
   "property": "C33",
   "status": "proved",
   "theorems": [
    "Verif.C33_redirect",
    "Verif.C33_escaped",
    "Verif.C33_blank",
    "Verif.C33_error"
   ],
   "note": ""
  },
  {
   "property": "C34",
   "status": "proved",
   "theorems": [
    "Verif.C34_order",
    "Verif.C34_bytes",
    "Verif.C34_nil_iff",
    "Verif.C34_content",
    "Verif.C34_content_bytes",
    "Verif.C34_content_readerAt",
    "Verif.C34_content_seeker",
    "Verif.C34_content_stream",
    "Verif.C34_short_write_unnoticed",
    "Verif.serve_is_transparent",
    "Verif.C34_copy_count"
   ],
   "note": "for writers that keep to the io.Writer contract; C34_short_write_unnoticed shows that this is needed"
  },
  {
   "property": "C35",
   "status": "partial",
   "theorems": [
    "Verif.C35_closed_once_partial",
    "Verif.C35_at_most_once",
    "Verif.C35_not_closed_after_push_failure",
    "Verif.C35_false",
    "Verif.C35_iff"
   ],
   "note": "false of the code: not closed when a push fails; C35_iff: closed once if and only if no push failed"
  },
  {
   "property": "C36",
   "status": "proved",
   "theorems": [
    "Verif.C36_all_pushed",
    "Verif.C36_stops_at_failure",
    "Verif.C36_no_pusher",
    "Verif.C36_push_not_sent"
   ],
   "note": ""
  },
  {
   "property": "C37",
   "status": "proved",
   "theorems": [
    "Verif.C37_status_once_and_first",
    "Verif.C37_before",
    "Verif.C37_repeated",
    "Verif.C37_first",
    "Verif.C37_out_of_range"
   ],
   "note": "for every wrapped ResponseWriter and every history of calls"
  },
  {
   "property": "C38",
   "status": "proved",
   "theorems": [
    "Verif.C38_bytes_written",
    "Verif.C38_no_body",
    "Verif.C38_write_succeeds",
    "Verif.C38_write_forwards"
   ],
   "note": ""
  },
  {
   "property": "C39",
   "status": "partial",
   "theorems": [
    "Verif.C39_saw_error_partial",
    "Verif.C39_no_readFrom",
    "Verif.C39_false",
    "Verif.C39_iff"
   ],
   "note": "false of the code: an error from ReadFrom is not recorded (negation proved); exact for Write and repeated WriteHeader; C39_iff: wrong exactly if a failure of ReadFrom stands alone"
  },
  {
   "property": "C40",
   "status": "proved",
   "theorems": [
    "Verif.C40_same",
    "Verif.C40_wrapped",
    "Verif.C40_capabilities",
    "Verif.C40_not_invented",
    "Verif.C40_no_missing_interface",
    "Verif.C40_readFrom_present"
   ],
   "note": ""
  },
  {
   "property": "C41",
   "status": "proved",
   "theorems": [
    "Verif.C41_returns",
    "Verif.C41_one_status",
    "Verif.C41_counted_once",
    "Verif.C41_nested"
   ],
   "note": ""
  },
  {
   "property": "C42",
   "status": "proved",
   "theorems": [
    "Verif.C42_handler_panics",
    "Verif.C42_response",
    "Verif.C42_panic_nil",
    "Verif.C42_empty_body_counts_as_panic"
   ],
   "note": "which panic values are errors: Spec.IsErrorValue; what the assert package panics with is a parameter"
  },
  {
   "property": "C43",
   "status": "partial",
   "theorems": [
    "Verif.C43_label_partial",
    "Verif.C43_label_or_zero",
    "Verif.C43_panic_counted_under_zero",
    "Verif.C43_iff"
   ],
   "note": "false of the code: after a panic the label is 0 while the client received 500; C43_iff: right if and only if the handler returned a Response with a legal code and no push failed"
  },
  {
   "property": "C44",
   "status": "partial",
   "theorems": [
    "Verif.C44_linearizable_sequential",
    "Verif.C44_real_time",
    "Verif.C44_bytes",
    "Verif.C44_empty",
    "Verif.C44_readerAt",
    "Verif.C44_seeker",
    "Verif.C44_buffered",
    "Verif.C44_readerAt_cursors",
    "Verif.C44_seeker_cursors",
    "Verif.C44_bytes_cursors",
    "Verif.C44_empty_cursors",
    "Verif.C44_buffered_cursors",
    "Verif.C44_readerAt_no_race",
    "Verif.C44_buffered_no_race",
    "Verif.C44_bytes_no_race",
    "Verif.C44_empty_no_race",
    "Verif.C44_seeker_no_race_partial",
    "Verif.C44_seeker_races_for_length",
    "Verif.C44_seeker_race"
   ],
   "note": "linearizability proved for all five kinds of bodies; the locking discipline is false of Seeker-backed BytesRemaining (C44_seeker_race), proved for everything else; accesses to single fields are atomic and sequentially consistent"
  },
  {
   "property": "C45",
   "status": "proved",
   "theorems": [
    "Verif.C45_readerAt",
    "Verif.C45_seeker",
    "Verif.C45_bytes",
    "Verif.C45_empty",
    "Verif.C45_buffered_order",
    "Verif.C45_buffered"
   ],
   "note": "calls of the reader are single steps (they return)"
  },
  {
   "property": "C46",
   "status": "proved",
   "theorems": [
    "Verif.C46_iteration_order_stream",
    "Verif.C46_iteration_order_serve",
    "Verif.C46_copyHeaders"
   ],
   "note": "the set of copies, the header map served, and the header map copied"
  },
  {
   "property": "C47",
   "status": "proved",
   "theorems": [
    "Verif.C47_panics_blame_readerAt",
    "Verif.C47_panics_blame_seeker"
   ],
   "note": ""
  },
  {
   "property": "C48",
   "status": "partial",
   "theorems": [
    "Verif.C48_content_length_partial",
    "Verif.C48_stale_content_length",
    "Verif.C48_iff"
   ],
   "note": "false of the code: negation proved; exact when the Builder has no Content-Length header at Build; C48_iff: right if and only if the Builder had none or a right one"
  },
  {
   "property": "C49",
   "status": "partial",
   "theorems": [
    "Verif.C49_closed_positional",
    "Verif.C49_zombie",
    "Verif.C49_false"
   ],
   "note": "proved for ReaderAt- and Seeker-backed bodies; false of stream-backed bodies: what happens instead is proved for every reader and history, with a concrete witness"
  },
  {
   "property": "C50",
   "status": "proved",
   "theorems": [
    "Verif.C50_transparent",
    "Verif.C50_content",
    "Verif.C50_suppressed",
    "Verif.C50_negative_count"
   ],
   "note": "the ResponseWriter returns no negative counts (needed: C50_negative_count)"
  },
  {
   "property": "C51",
   "status": "proved",
   "theorems": [
    "Verif.C51_response",
    "Verif.C51_three_digits",
    "Verif.C51_errors",
    "Verif.C51_goString",
    "Verif.C51_read_goString",
    "Verif.C51_has_goString",
    "Verif.C51_read_error",
    "Verif.C51_wrapped",
    "Verif.C51_panic_parts",
    "Verif.C51_panic"
   ],
   "note": "the text of a PanicError is unambiguous for nil, booleans, integers and strings; for slices it is not (C51_panic_ambiguous), and that is not part of the property"
  },
  {
   "property": "C52",
   "status": "proved",
   "theorems": [
    "Verif.C52_counts",
    "Verif.C52_script",
    "Verif.C52_accepts",
    "Verif.C52_report",
    "Verif.C52_nil",
    "Verif.C52_isDir"
   ],
   "note": ""
  },
  {
   "property": "C53",
   "status": "proved",
   "theorems": [
    "Verif.C53_stand_in",
    "Verif.C53_record",
    "Verif.C53_scriptable"
   ],
   "note": ""
  },
  {
   "property": "C54",
   "status": "proved",
   "theorems": [
    "Verif.C54_buffered",
    "Verif.C54_keeps_nothing",
    "Verif.C54_readerAt",
    "Verif.C54_seeker",
    "Verif.C54_bytes",
    "Verif.C54_shares",
    "Verif.C54_lends",
    "Verif.C54_as_lists"
   ],
   "note": ""
  },
  {
   "property": "C55",
   "status": "proved",
   "theorems": [
    "Verif.C55_serve",
    "Verif.C55_request",
    "Verif.C55_bytes",
    "Verif.C55_readerAt",
    "Verif.C55_seeker",
    "Verif.C55_stream",
    "Verif.C55_built",
    "Verif.C55_error_page",
    "Verif.C55_redirect_page"
   ],
   "note": ""
  },
  {
   "property": "C56",
   "status": "proved",
   "theorems": [
    "Verif.C56_bytes",
    "Verif.C56_readerAt",
    "Verif.C56_seeker",
    "Verif.C56_stream",
    "Verif.C56_response",
    "Verif.C56_builder",
    "Verif.C56_response_closed",
    "Verif.C56_builder_closed"
   ],
   "note": ""
  },
  {
   "property": "C57",
   "status": "proved",
   "theorems": [
    "Verif.C57_shared_reader",
    "Verif.C57_shared_reader_stays",
    "Verif.C57_make"
   ],
   "note": ""
  },
  {
   "property": "C58",
   "status": "proved",
   "theorems": [
    "Verif.C58_seekable",
    "Verif.C58_stream",
    "Verif.C58_close",
    "Verif.C58_bytes",
    "Verif.C58_readerAt",
    "Verif.C58_seeker",
    "Verif.C58_buffered",
    "Verif.C58_over_seekable",
    "Verif.C58_over_stream"
   ],
   "note": ""
  },
  {
   "property": "C59",
   "status": "proved",
   "theorems": [
    "Verif.C59_line",
    "Verif.C59_line_go",
    "Verif.C59_call",
    "Verif.C59_call_go",
    "Verif.C59_nothing",
    "Verif.C59_report",
    "Verif.C59_differ",
    "Verif.C59_ops"
   ],
   "note": ""
  },
  {
   "property": "C60",
   "status": "proved",
   "theorems": [
    "Verif.C60_serve",
    "Verif.C60_writer",
    "Verif.C60_body",
    "Verif.C60_memory",
    "Verif.C60_end",
    "Verif.C60_end_memory",
    "Verif.C60_adaptor",
    "Verif.C60_request",
    "Verif.C60_blocked",
    "Verif.C60_overrun"
   ],
   "note": ""
  },
  {
   "property": "C61",
   "status": "proved",
   "theorems": [
    "Verif.C61_calls",
    "Verif.C61_content",
    "Verif.C61_panics",
    "Verif.C61_own",
    "Verif.C61_exclusive",
    "Verif.C61_put",
    "Verif.C61_pool",
    "Verif.C61_ends",
    "Verif.C61_as_lists",
    "Verif.C61_body"
   ],
   "note": ""
  },
  {
   "property": "C62",
   "status": "proved",
   "theorems": [
    "Verif.C62_readerAt",
    "Verif.C62_seeker",
    "Verif.C62_no_further_readerAt",
    "Verif.C62_no_further_seeker",
    "Verif.C62_smooth_readerAt",
    "Verif.C62_smooth_seeker",
    "Verif.C62_filled_readerAt",
    "Verif.C62_filled_seeker"
   ],
   "note": ""
  },
  {
   "property": "C63",
   "status": "proved",
   "theorems": [
    "Verif.C63_adds_up",
    "Verif.C63_quiet",
    "Verif.C63_by_status",
    "Verif.C63_by_status_500",
    "Verif.C63_recv",
    "Verif.C63_scrape",
    "Verif.C63_labels",
    "Verif.C63_never_less"
   ],
   "note": ""
  },
  {
   "property": "C64",
   "status": "proved",
   "theorems": [
    "Verif.C64_request",
    "Verif.C64_iff",
    "Verif.C64_304",
    "Verif.C64_too_short",
    "Verif.C64_too_long",
    "Verif.C64_bytes",
    "Verif.C64_readerAt",
    "Verif.C64_seeker",
    "Verif.C64_stream",
    "Verif.C64_built",
    "Verif.C64_declared"
   ],
   "note": "net/http is modelled from knowledge of Go 1.17"
  },
  {
   "property": "C65",
   "status": "proved",
   "theorems": [
    "Verif.C65_serve",
    "Verif.C65_through",
    "Verif.C65_copies",
    "Verif.C65_bytes",
    "Verif.C65_readerAt",
    "Verif.C65_seeker",
    "Verif.C65_stream",
    "Verif.C65_alone",
    "Verif.serve_leads"
   ],
   "note": ""
  },
  {
   "property": "C66",
   "status": "partial",
   "theorems": [
    "Verif.C66_request",
    "Verif.C66_reported",
    "Verif.C66_whole_iff",
    "Verif.C66_declared_partial",
    "Verif.C66_undeclared",
    "Verif.C66_stream",
    "Verif.C66_readerAt",
    "Verif.C66_seeker",
    "Verif.C66_built",
    "Verif.C66_fails",
    "Verif.C66_same"
   ],
   "note": "what happens is proved for all cases; true if a Content-Length promises more than there was, false if none is declared (C66_undeclared, C66_fails): the default OnPanic does nothing, so that the response looks whole"
  },
  {
   "property": "C67",
   "status": "proved",
   "theorems": [
    "Verif.C67_turns",
    "Verif.C67_script",
    "Verif.C67_settled",
    "Verif.C67_each_once",
    "Verif.C67_no_race",
    "Verif.C67_no_deadlock",
    "Verif.C67_bounded",
    "Verif.C67_ordered",
    "Verif.C67_only",
    "Verif.C67_trails"
   ],
   "note": ""
  },
  {
   "property": "C68",
   "status": "partial",
   "theorems": [
    "Verif.C68_separate_partial",
    "Verif.C68_iff",
    "Verif.C68_built",
    "Verif.C68_copied",
    "Verif.C68_leaks",
    "Verif.C68_in_place"
   ],
   "note": "true exactly if the slices of the Responses have no spare capacity (C68_iff), which is so for Builders that never append to a header; false otherwise (C68_leaks)"
  },
  {
   "property": "C69",
   "status": "proved",
   "theorems": [
    "Verif.C69_any_time",
    "Verif.C69_quiet",
    "Verif.C69_never_less",
    "Verif.C69_inexact",
    "Verif.C69_lost",
    "Verif.f64_nearest",
    "Verif.roundEven_tie",
    "Verif.f64_near",
    "Verif.seconds_le_iff",
    "Verif.bytes_le_iff"
   ],
   "note": ""
  },
  {
   "property": "C70",
   "status": "proved",
   "theorems": [
    "Verif.C70_init",
    "Verif.C70_starts",
    "Verif.C70_distinct",
    "Verif.C70_buckets",
    "Verif.C70_register",
    "Verif.C70_increasing",
    "Verif.C70_exponential",
    "Verif.C70_labels"
   ],
   "note": ""
  },
  {
   "property": "C71",
   "status": "proved",
   "theorems": [
    "Verif.C71_bytes",
    "Verif.C71_readerAt",
    "Verif.C71_seeker",
    "Verif.C71_stream",
    "Verif.C71_stream64",
    "Verif.C71_too_many",
    "Verif.C71_no_room",
    "Verif.C71_writer",
    "Verif.C71_writer_exact",
    "Verif.C71_adaptor",
    "Verif.C71_boaster"
   ],
   "note": ""
  },
  {
   "property": "C72",
   "status": "proved",
   "theorems": [
    "Verif.C72_readAll",
    "Verif.C72_readAtLeast",
    "Verif.C72_readFull",
    "Verif.C72_limit",
    "Verif.C72_limit_beyond",
    "Verif.C72_multi",
    "Verif.C72_section",
    "Verif.C72_copyN",
    "Verif.C72_serveContent",
    "Verif.C72_closed_served",
    "Verif.C72_stuck_served",
    "Verif.C72_closed_read",
    "Verif.C72_bytes",
    "Verif.C72_readerAt",
    "Verif.C72_seeker",
    "Verif.C72_stream",
    "Verif.C72_usable",
    "Verif.C72_short_seeker"
   ],
   "note": "the functions of the standard library are modelled from knowledge of Go 1.17"
  },
  {
   "property": "C73",
   "status": "proved",
   "theorems": [
    "Verif.C73_exit",
    "Verif.C73_handler",
    "Verif.C73_only",
    "Verif.C73_net"
   ],
   "note": ""
  },
  {
   "property": "C74",
   "status": "partial",
   "theorems": [
    "Verif.C74_abort_partial",
    "Verif.C74_iff",
    "Verif.C74_whole"
   ],
   "note": "false of the code if OnPanic returns, as the default one does (C74_whole); C74_iff: ServeHTTP panics if and only if OnPanic does"
  },
  {
   "property": "C75",
   "status": "proved",
   "theorems": [
    "Verif.C75_accepts",
    "Verif.C75_formats",
    "Verif.C75_formattable",
    "Verif.C75_type",
    "Verif.C75_safe",
    "Verif.C75_kept",
    "Verif.C75_written",
    "Verif.C75_fixed",
    "Verif.C75_same",
    "Verif.C75_meaning",
    "Verif.C75_header"
   ],
   "note": "mime.ParseMediaType and FormatMediaType (Go 1.17) are modelled; the grammar and its meaning are in Spec/Media.lean"
  },
  {
   "property": "C76",
   "status": "proved",
   "theorems": [
    "Verif.C76_message",
    "Verif.C76_connection",
    "Verif.C76_broken",
    "Verif.C76_length_iff",
    "Verif.C76_request",
    "Verif.C76_built",
    "Verif.C76_spelling",
    "Verif.C76_encoding",
    "Verif.C76_chunked",
    "Verif.C76_fate",
    "Verif.C76_identity_length"
   ],
   "note": "what the net/http server writes is modelled from knowledge of Go 1.17, what it may choose is quantified over; the client is an RFC 7230 reader in Spec/Wire.lean"
  },
  {
   "property": "C77",
   "status": "proved",
   "theorems": [
    "Verif.C77_answers",
    "Verif.C77_whole",
    "Verif.C77_all",
    "Verif.C77_goes_on",
    "Verif.C77_built",
    "Verif.C77_seems",
    "Verif.C77_short"
   ],
   "note": "what the net/http server does between requests is modelled from knowledge of Go 1.17 (Model/Conn.lean)"
  },
  {
   "property": "C78",
   "status": "partial",
   "theorems": [
    "Verif.C78_readerAt",
    "Verif.C78_buffered",
    "Verif.C78_bytes",
    "Verif.C78_empty",
    "Verif.C78_seeker_partial",
    "Verif.C78_seeker_quiet_partial",
    "Verif.C78_readerAt_sequential",
    "Verif.C78_buffered_sequential",
    "Verif.C78_bytes_sequential",
    "Verif.C78_empty_sequential",
    "Verif.C78_seeker_sequential_partial",
    "Verif.C78_buffered_linearizable",
    "Verif.C78_seeker_race",
    "Verif.C78_seeker_stale"
   ],
   "note": "proved for byte slices, ReaderAt-backed, stream-backed and empty Bodies; false of BytesRemaining of Seeker-backed Bodies, which reads the shared length without the lock (C78_seeker_race, C78_seeker_stale), and proved for those but for that"
  },
  {
   "property": "C79",
   "status": "proved",
   "theorems": [
    "Verif.C79_means",
    "Verif.C79_unique",
    "Verif.C79_layout",
    "Verif.C79_panics",
    "Verif.C79_order",
    "Verif.C79_client",
    "Verif.C79_plain",
    "Verif.C79_deep",
    "Verif.C79_checked",
    "Verif.C79_served",
    "Verif.C79_takes",
    "Verif.C79_refuses",
    "Verif.C79_plain_takes",
    "Verif.C79_own",
    "Verif.C79_own_inside",
    "Verif.C79_blanks",
    "Verif.C79_again",
    "Verif.C79_fixpoint",
    "Verif.C79_not_utf8"
   ],
   "note": "encoding/json (Encoder, Indent and its scanner, of Go 1.17) is modelled; the choice of an encoder by type and tags are not, the text of floating-point numbers is in C82; of a value that encodes itself (json.Marshaler, json.RawMessage) the text is given; where the meaning is concerned (WellNamed) it is assumed to be JSON in UTF-8, in the theorems from C79_checked on it is any bytes; the meaning of JSON texts is in Spec/Json.lean"
  },
  {
   "property": "C80",
   "status": "proved",
   "theorems": [
    "Verif.C80_client",
    "Verif.C80_woven",
    "Verif.C80_connection",
    "Verif.C80_readerAt",
    "Verif.C80_seeker",
    "Verif.C80_stream",
    "Verif.C80_copied",
    "Verif.C80_copied_closed",
    "Verif.C80_forked",
    "Verif.C80_mem_copies",
    "Verif.C80_empty_copies",
    "Verif.C80_readerAt_copies",
    "Verif.C80_seeker_copies",
    "Verif.C80_stream_copies"
   ],
   "note": "chains of the calls in Say (Spec/Told.lean); Bodies of any implementation that delivers its content (Kinds.Ready), which those over byte slices, ReaderAts, ReadSeekers and Readers are, originals and copies, at any position, if their reader honours its contract and closes without an error; Sendable (not 304, Content-Length right if given, no Transfer-Encoding) is needed because of C64 and C76; an empty body arrives, but its EOF is reported as a panic (C08); a map passed to WithHeaders has no empty lists and canonical keys (Named); a PageGenerator of the program makes the pages it says and leaves existing Bodies alone (Kinds.Makes), its headers in a fresh map"
  },
  {
   "property": "C81",
   "status": "proved",
   "theorems": [
    "Verif.C81_message",
    "Verif.C81_untilEnd_iff",
    "Verif.C81_broken",
    "Verif.C81_cut",
    "Verif.C81_connection",
    "Verif.C81_request",
    "Verif.C81_length_iff",
    "Verif.C81_number",
    "Verif.C81_keepAlive",
    "Verif.C81_short",
    "Verif.C81_noticed",
    "Verif.C81_failing"
   ],
   "note": "what the net/http server writes to HTTP/1.0 clients is modelled from knowledge of Go 1.17 (Model/Wire10.lean); the client is an RFC 1945 reader in Spec/Wire10.lean; what the server chooses is quantified over"
  },
  {
   "property": "C82",
   "status": "proved",
   "theorems": [
    "Verif.C82_exact",
    "Verif.C82_read",
    "Verif.C82_served",
    "Verif.C82_distinct",
    "Verif.C82_form",
    "Verif.C82_special",
    "Verif.C82_all",
    "Verif.C82_shortest"
   ],
   "note": "floatEncoder of encoding/json and the formats f and e of strconv are modelled (Model/JsonFloat.lean); the search for the shortest digits is not: it is assumed that it finds digits that round to the number (Reads), which exist for every float64 (C82_all: rounding without a limit to the exponent, f64)"
  },
  {
   "property": "C83",
   "status": "proved",
   "theorems": [
    "Verif.C83_stream",
    "Verif.C83_readerAt",
    "Verif.C83_seeker",
    "Verif.C83_stream_apart",
    "Verif.C83_readerAt_apart",
    "Verif.C83_seeker_apart",
    "Verif.C83_stream_later",
    "Verif.C83_readerAt_later",
    "Verif.C83_seeker_later",
    "Verif.C83_quiet"
   ],
   "note": "Model/CallBack.lean: a method of the Reader makes calls on Bodies, each of which may depend on what those before have returned, and then answers; for Writers see C84"
  },
  {
   "property": "C84",
   "status": "proved",
   "theorems": [
    "Verif.C84_returns",
    "Verif.C84_caught",
    "Verif.C84_deadlock",
    "Verif.C84_crossed",
    "Verif.C84_ordered",
    "Verif.C84_alone",
    "Verif.C84_same",
    "Verif.C84_sequence",
    "Verif.C84_noRace",
    "Verif.C84_quiet"
   ],
   "note": "Model/WriteBack.lean: Write makes calls, each of which may depend on what those before have returned, and then answers; it remembers nothing of earlier Writes"
  },
  {
   "property": "C85",
   "status": "proved",
   "theorems": [
    "Verif.C85_sent",
    "Verif.C85_refused",
    "Verif.C85_iff",
    "Verif.C85_targets",
    "Verif.C85_relative",
    "Verif.C85_recursive"
   ],
   "note": "Push of the net/http server for HTTP/2 and url.Parse are modelled from knowledge of Go 1.17 (Model/Push.lean); which authorities url.Parse accepts and what the connection answers is quantified over"
  },
  {
   "property": "C86",
   "status": "proved",
   "theorems": [
    "Verif.C86_in_time",
    "Verif.C86_iff",
    "Verif.C86_unnoticed",
    "Verif.C86_late",
    "Verif.C86_told",
    "Verif.C86_too_late",
    "Verif.C86_any",
    "Verif.C86_panics",
    "Verif.C86_failing",
    "Verif.C86_failing_undeclared",
    "Verif.C86_bytes",
    "Verif.C86_readerAt",
    "Verif.C86_seeker",
    "Verif.C86_stream"
   ],
   "note": "http.TimeoutHandler is modelled from knowledge of Go 1.17 (Model/TimeoutHandler.lean); the moment at which the time is up is quantified over"
  },
  {
   "property": "C87",
   "status": "proved",
   "theorems": [
    "Verif.C87_recorded",
    "Verif.C87_iff",
    "Verif.C87_same",
    "Verif.C87_failing",
    "Verif.C87_panics",
    "Verif.C87_direct"
   ],
   "note": "httptest.ResponseRecorder is modelled from knowledge of Go 1.17 (Model/Recorder.lean); http.DetectContentType is a parameter"
  }
 ]
}