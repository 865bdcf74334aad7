{
 "claims": [
  {
   "property": "C01",
   "status": "proved",
   "theorems": [
    "Pillow.Props.C01_getFieldValue",
    "Pillow.Props.C01_getFieldValueTok",
    "Pillow.Props.IsFirstValue_unique"
   ],
   "note": ""
  },
  {
   "property": "C02",
   "status": "proved",
   "theorems": [
    "Pillow.Props.C02_getFieldValues",
    "Pillow.Props.C02_testFieldValue"
   ],
   "note": ""
  },
  {
   "property": "C03",
   "status": "proved",
   "theorems": [
    "Pillow.Props.C03_equals_iff",
    "Pillow.Props.C03_only_letters",
    "Pillow.Props.C03_refl",
    "Pillow.Props.C03_symm",
    "Pillow.Props.C03_trans",
    "Pillow.Props.C03_length"
   ],
   "note": ""
  },
  {
   "property": "C04",
   "status": "proved",
   "theorems": [
    "Pillow.Props.C04_decode_encoded",
    "Pillow.Props.C04_truncated",
    "Pillow.Props.C04_no_percent",
    "Pillow.Props.C04_in_bounds",
    "Pillow.Props.C04_size",
    "Pillow.Props.C04_exactly"
   ],
   "note": ""
  },
  {
   "property": "C05",
   "status": "partial",
   "theorems": [
    "Pillow.Props.C05_exactly",
    "Pillow.Props.C05_appendNumber_partial",
    "Pillow.Props.C05_lowercase",
    "Pillow.Props.C05_most_negative"
   ],
   "note": "the most negative value of the type is undefined behaviour in the code (n = -n), shown by C05_most_negative"
  },
  {
   "property": "C06",
   "status": "proved",
   "theorems": [
    "Pillow.Props.C06_split",
    "Pillow.Props.C06_no_colon"
   ],
   "note": ""
  },
  {
   "property": "C07",
   "status": "partial",
   "theorems": [
    "Pillow.Props.C07_append_partial",
    "Pillow.Props.C07_self_append"
   ],
   "note": "false of the code for a += a (out-of-bounds copy), shown by C07_self_append"
  },
  {
   "property": "C09",
   "status": "proved",
   "theorems": [
    "Pillow.Props.C09_accept_iff",
    "Pillow.Props.C09_fields",
    "Pillow.Props.C09_unique",
    "Pillow.Props.C13_exactly",
    "Pillow.Props.C11_refused"
   ],
   "note": "the parser against the grammar; the connection hands out exactly the accepted heads (C13_exactly, C11_refused); the one accessor that does not show its slice is C14_violation"
  },
  {
   "property": "C08",
   "status": "proved",
   "theorems": [
    "Pillow.Props.C08_prefix",
    "Pillow.Props.C08_same_requests",
    "Pillow.Props.C08_same_error",
    "Pillow.Props.C08_responses",
    "Pillow.Props.C08_same_responses"
   ],
   "note": "requests and errors for every environment; responses for every handler whose answers are a function of the request"
  },
  {
   "property": "C10",
   "status": "proved",
   "theorems": [
    "Pillow.Props.C10_agree"
   ],
   "note": "the request head must fit the 32767 bytes the server accepts, content 128 MiB (C11, C12)"
  },
  {
   "property": "C11",
   "status": "proved",
   "theorems": [
    "Pillow.Props.C11_error_justified",
    "Pillow.Props.C11_refused",
    "Pillow.Props.C11_reply_bytes",
    "Pillow.Props.C11_once",
    "Pillow.Props.C11_not_in_response"
   ],
   "note": ""
  },
  {
   "property": "C12",
   "status": "proved",
   "theorems": [
    "Pillow.Props.C12_reasons",
    "Pillow.Props.C12_number",
    "Pillow.Props.C12_no_length",
    "Pillow.Props.C12_content"
   ],
   "note": ""
  },
  {
   "property": "C13",
   "status": "proved",
   "theorems": [
    "Pillow.Props.C13_exact_requests",
    "Pillow.Props.C13_nothing_held_back",
    "Pillow.Props.C13_exactly"
   ],
   "note": ""
  },
  {
   "property": "C14",
   "status": "partial",
   "theorems": [
    "Pillow.Props.C14_exactly",
    "Pillow.Props.C14_accessors_partial",
    "Pillow.Props.C14_stable",
    "Pillow.Props.C14_violation"
   ],
   "note": "false of the code for a request-uri ending in '?': requestUri() ends in NUL (C14_violation)"
  },
  {
   "property": "C15",
   "status": "partial",
   "theorems": [
    "Pillow.Props.C15_between",
    "Pillow.Props.C15_completed",
    "Pillow.Props.C15_after_closed",
    "Pillow.Props.C15_closed_once_partial",
    "Pillow.Props.C15_inevitable",
    "Pillow.Props.C15_violation"
   ],
   "note": "closed at most once is false of the code when close() is called while requestCompleted is being handled (C15_violation), and exactly then: otherwise it is emitted once (C15_closed_once_partial), and then the null device is used (C16_inevitable) or closed has been emitted twice, or is with the next close(), as soon as control is back in the event loop (C15_inevitable)"
  },
  {
   "property": "C16",
   "status": "partial",
   "theorems": [
    "Pillow.Props.C16_no_null_device_partial",
    "Pillow.Props.C16_only_kept_alive",
    "Pillow.Props.C16_inevitable",
    "Pillow.Props.C16_violation"
   ],
   "note": "false of the code when close() is called (or the peer disconnects) while requestCompleted is being handled and the response announced keep-alive (C16_violation); exactly then: otherwise no crash (C16_only_kept_alive), and then the crash is inevitable (C16_inevitable)"
  },
  {
   "property": "C17",
   "status": "proved",
   "theorems": [
    "Pillow.Props.C17_inert"
   ],
   "note": ""
  },
  {
   "property": "C18",
   "status": "proved",
   "theorems": [
    "Pillow.Props.C18_never_exceeds",
    "Pillow.Props.C18_complete_exact",
    "Pillow.Props.C18_completes_at_once",
    "Pillow.Props.C18_writeContent",
    "Pillow.Props.C18_writeResponse",
    "Pillow.Props.C18_endContent"
   ],
   "note": ""
  },
  {
   "property": "C19",
   "status": "proved",
   "theorems": [
    "Pillow.Props.C19_decodes",
    "Pillow.Props.C19_unambiguous",
    "Pillow.Props.C19_calls"
   ],
   "note": ""
  },
  {
   "property": "C20",
   "status": "proved",
   "theorems": [
    "Pillow.Props.C20_decision",
    "Pillow.Props.C20_kept",
    "Pillow.Props.C20_not_kept"
   ],
   "note": ""
  },
  {
   "property": "C21",
   "status": "partial",
   "theorems": [
    "Pillow.Props.C21_no_body_partial",
    "Pillow.Props.C21_violation"
   ],
   "note": "false of the code when writeResponse answers HEAD with content and the next request is already in the buffer (C21_violation)"
  },
  {
   "property": "C22",
   "status": "partial",
   "theorems": [
    "Pillow.Props.C22_exactly",
    "Pillow.Props.C22_status_line_partial",
    "Pillow.Props.C22_violation"
   ],
   "note": "false of the code for unknown status codes (C22_violation)"
  },
  {
   "property": "C23",
   "status": "partial",
   "theorems": [
    "Pillow.Props.C23_declared",
    "Pillow.Props.C23_writeHeaders_exactly",
    "Pillow.Props.C23_writeHeaders_partial",
    "Pillow.Props.C23_layout_partial"
   ],
   "note": "for known status codes and lengths in the range of int, see C22, C50"
  },
  {
   "property": "C24",
   "status": "proved",
   "theorems": [
    "Pillow.Props.C24_nothing_unsent",
    "Pillow.Props.C24_closes"
   ],
   "note": ""
  },
  {
   "property": "C25",
   "status": "proved",
   "theorems": [
    "Pillow.Props.C25_iff",
    "Pillow.Props.C25_once",
    "Pillow.Props.C25_in_time"
   ],
   "note": ""
  },
  {
   "property": "C26",
   "status": "proved",
   "theorems": [
    "Pillow.Props.C26_lookup",
    "Pillow.Props.paramsOf_iff",
    "Pillow.Props.C28_params_partial"
   ],
   "note": ""
  },
  {
   "property": "C27",
   "status": "proved",
   "theorems": [
    "Pillow.Props.C27_shape",
    "Pillow.Props.C27_lookup",
    "Pillow.Props.C27_connection"
   ],
   "note": ""
  },
  {
   "property": "C28",
   "status": "partial",
   "theorems": [
    "Pillow.Props.C28_decoded",
    "Pillow.Props.C28_params_partial",
    "Pillow.Props.C28_violation"
   ],
   "note": "false of the code when the parameters are read after the request was completed (C28_violation)"
  },
  {
   "property": "C29",
   "status": "proved",
   "theorems": [
    "Pillow.Props.C29_stack",
    "Pillow.Props.C29_returns",
    "Pillow.Props.C29_order",
    "Pillow.Props.C29_nested",
    "Pillow.Props.C29_function"
   ],
   "note": ""
  },
  {
   "property": "C30",
   "status": "proved",
   "theorems": [
    "Pillow.Props.C30_dispatch",
    "Pillow.Props.C30_plain_paths",
    "Pillow.Props.C30_answers",
    "Pillow.Props.C30_special_characters"
   ],
   "note": "a route path matches if its regular expression does; for paths without special characters that is the documented matching, others are taken as regular expressions (C30_special_characters)"
  },
  {
   "property": "C31",
   "status": "partial",
   "theorems": [
    "Pillow.Props.C31_exactly",
    "Pillow.Props.C31_bind_partial",
    "Pillow.Props.C31_violation"
   ],
   "note": "false of the code when a *splat comes before a :param (C31_violation); proved when all :params come first, names are distinct and other characters are not special"
  },
  {
   "property": "C32",
   "status": "partial",
   "theorems": [
    "Pillow.Props.C32_exactly",
    "Pillow.Props.C32_served",
    "Pillow.Props.C32_inside_partial",
    "Pillow.Props.C32_violation"
   ],
   "note": "false of the code when a sibling directory's name starts with the public directory's name (C32_violation)"
  },
  {
   "property": "C33",
   "status": "partial",
   "theorems": [
    "Pillow.Props.C33_start",
    "Pillow.Props.C33_exact_partial",
    "Pillow.Props.C33_buffer",
    "Pillow.Props.C33_progress",
    "Pillow.Props.C33_no_stall",
    "Pillow.Props.C33_can_finish",
    "Pillow.Props.C33_violation"
   ],
   "note": "false of the code for HEAD requests followed by a pipelined request (C33_violation); proved for the others and files below 2 GiB (see C50), if nobody else writes to the connection and the file does not change"
  },
  {
   "property": "C34",
   "status": "partial",
   "theorems": [
    "Pillow.Props.C34_pool",
    "Pillow.Props.C34_exclusive",
    "Pillow.Props.C34_no_delete_running_partial",
    "Pillow.Props.C34_violation",
    "Pillow.Props.C34_violation_shared"
   ],
   "note": "the pool invariants are proved for every history of connections and clients in which the application is gentle (does not call close() while requestCompleted is being handled; otherwise two clients can get the same object, C34_violation_shared) and the event loop accepts only while no connection code runs; that no executing object is deleted is false of the code (C34_violation: a handler of closed that closes another connection while the pool is full) and proved when no such handler exists"
  },
  {
   "property": "C35",
   "status": "proved",
   "theorems": [
    "Pillow.Props.C35_segmentation",
    "Pillow.Props.C35_bytewise",
    "Pillow.Props.C35_progress",
    "Pillow.Props.C35_limits"
   ],
   "note": "an empty inject() is the end of the input, and the accessors after an error depend on the division (C35_limits)"
  },
  {
   "property": "C42",
   "status": "proved",
   "theorems": [
    "Pillow.Props.C42_httpDate",
    "Pillow.Props.C42_readable"
   ],
   "note": ""
  },
  {
   "property": "C43",
   "status": "proved",
   "theorems": [
    "Pillow.Props.C43_table",
    "Pillow.Props.C43_null_together"
   ],
   "note": ""
  },
  {
   "property": "C48",
   "status": "proved",
   "theorems": [
    "Pillow.Props.C48_lines",
    "Pillow.Props.C48_count"
   ],
   "note": ""
  },
  {
   "property": "C49",
   "status": "proved",
   "theorems": [
    "Pillow.Props.C49_framing",
    "Pillow.Props.C49_unique"
   ],
   "note": ""
  },
  {
   "property": "C50",
   "status": "partial",
   "theorems": [
    "Pillow.Props.C50_exactly",
    "Pillow.Props.C50_length_partial",
    "Pillow.Props.C50_violation",
    "Pillow.Props.C50_overflow"
   ],
   "note": "false of the code from 2 GiB on (C50_violation, C50_overflow)"
  },
  {
   "property": "C51",
   "status": "proved",
   "theorems": [
    "Pillow.Props.C51_appends"
   ],
   "note": ""
  },
  {
   "property": "C52",
   "status": "proved",
   "theorems": [
    "Pillow.Props.C52_fixed",
    "Pillow.Props.C52_notFound",
    "Pillow.Props.C52_at_once"
   ],
   "note": ""
  },
  {
   "property": "C53",
   "status": "proved",
   "theorems": [
    "Pillow.Props.C53_small",
    "Pillow.Props.C53_revalidate",
    "Pillow.Props.C53_unreadable"
   ],
   "note": ""
  },
  {
   "property": "C54",
   "status": "proved",
   "theorems": [
    "Pillow.Props.C54_no_assertion"
   ],
   "note": ""
  },
  {
   "property": "C36",
   "status": "partial",
   "theorems": [
    "Pillow.Props.C36_isolated_partial",
    "Pillow.Props.C36_any_history",
    "Pillow.Props.C36_any_next",
    "Pillow.Props.C36_exactly",
    "Pillow.Props.C36_cut",
    "Pillow.Props.C36_cut_again",
    "Pillow.Props.C36_clean_cut",
    "Pillow.Props.C36_heals",
    "Pillow.Props.C36_trailers",
    "Pillow.Props.C36_violation"
   ],
   "note": "false of the code when the earlier response had trailers or was given up inside its headers (C36_violation). C36_any_history: whatever came before, at most one header is put before the first header of the next response, and nothing else shows; C36_exactly: given up at any point of a well-formed response, this happens exactly between the first byte of a header and the end of the head; C36_trailers: the last trailer is the one left"
  },
  {
   "property": "C41",
   "status": "proved",
   "theorems": [
    "Pillow.Props.C41_known_length",
    "Pillow.Props.C41_chunked",
    "Pillow.Props.C41_until_closed",
    "Pillow.Props.C41_encoding_needed"
   ],
   "note": "for known status codes (C22), lengths in the range of int (C50), headers without a framing meaning of their own (C41_encoding_needed) and heads below the client's 80 KiB limit"
  },
  {
   "property": "C55",
   "status": "proved",
   "theorems": [
    "Pillow.Props.C55_response",
    "Pillow.Props.C55_consumed",
    "Pillow.Props.C55_sequence",
    "Pillow.Props.C55_until_eof"
   ],
   "note": ""
  },
  {
   "property": "C37",
   "status": "partial",
   "theorems": [
    "Pillow.Props.C37_finished_once_partial",
    "Pillow.Props.C37_exactly",
    "Pillow.Props.C37_ends_at_once",
    "Pillow.Props.C37_invalid_ends",
    "Pillow.Props.C37_violation"
   ],
   "note": "false of the code exactly in the runs in which a HEAD request is aborted between headersCompleted() and finished() (C37_exactly, C37_violation); proved for all others"
  },
  {
   "property": "C38",
   "status": "partial",
   "theorems": [
    "Pillow.Props.C38_refused",
    "Pillow.Props.C38_accepted",
    "Pillow.Props.C38_deferred_partial",
    "Pillow.Props.C38_violation"
   ],
   "note": "false of the code when two requests are made in one callback (the first is lost) and for null methods (C38_violation); proved for the last request made"
  },
  {
   "property": "C40",
   "status": "proved",
   "theorems": [
    "Pillow.Props.C40_routing",
    "Pillow.Props.C40_reuse",
    "Pillow.Props.C40_timer"
   ],
   "note": ""
  },
  {
   "property": "C57",
   "status": "proved",
   "theorems": [
    "Pillow.Props.C57_no_assertion"
   ],
   "note": ""
  },
  {
   "property": "C39",
   "status": "partial",
   "theorems": [
    "Pillow.Props.C39_interims_invisible_partial",
    "Pillow.Props.C39_one_interim",
    "Pillow.Props.C39_dropped",
    "Pillow.Props.C39_violation"
   ],
   "note": "false of the code when one segment holds the end of an interim response, a second one and more (C39_violation): C39_dropped says that whatever follows the second one in that segment is dropped, and the client then stands where it stood before; proved for every other segmentation, for clients that were sent complete answers before"
  },
  {
   "property": "C56",
   "status": "proved",
   "theorems": [
    "Pillow.Props.C56_reports_the_response",
    "Pillow.Props.C56_and_again",
    "Pillow.Props.C56_content"
   ],
   "note": "compressed content is shown as zlib (a parameter of the model) decodes it, block by block"
  },
  {
   "property": "C46",
   "status": "proved",
   "theorems": [
    "Pillow.Props.C46_once_in_order",
    "Pillow.Props.C46_amount",
    "Pillow.Props.C46_whole_response"
   ],
   "note": "QIODevice is modelled by its contract (peek puts back what it has read)"
  },
  {
   "property": "C47",
   "status": "partial",
   "theorems": [
    "Pillow.Props.C47_exclusive_partial",
    "Pillow.Props.C47_authority",
    "Pillow.Props.C47_new_request",
    "Pillow.Props.C47_violation"
   ],
   "note": "false of the code when a client finishes twice (C37_violation): it is then pooled twice and given to two replies (C47_violation); a reply whose error() is being handled still holds its client, and its abort() ends the request of another reply; proved when clients finish once per request"
  },
  {
   "property": "C44",
   "status": "partial",
   "theorems": [
    "Pillow.Props.C44_relays",
    "Pillow.Props.C44_failure_partial",
    "Pillow.Props.C44_silent",
    "Pillow.Props.C44_forwards",
    "Pillow.Props.C44_violation"
   ],
   "note": "false of the code as to 503 iff the transfer failed: an upstream status from 400 on without content is replaced by 503 (C44_violation); everything else proved. Upstream is a QNetworkReply of which only status, headers, arriving bytes, readyRead, finished and error are modelled"
  },
  {
   "property": "C45",
   "status": "partial",
   "theorems": [
    "Pillow.Props.C45_delimited_partial",
    "Pillow.Props.C45_reached",
    "Pillow.Props.C45_chunks_cut_off",
    "Pillow.Props.C45_violation",
    "Pillow.Props.C45_hang",
    "Pillow.Props.C45_failed_never_ended"
   ],
   "note": "false of the code for every reply relayed in chunks (C45_chunks_cut_off: closed without the final chunk) and when upstream fails after the headers (C45_hang); proved for the rest"
  },
  {
   "property": "C58",
   "status": "proved",
   "theorems": [
    "Pillow.Props.C58_written",
    "Pillow.Props.C58_requests",
    "Pillow.Props.C58_answer",
    "Pillow.Props.C58_round_trip"
   ],
   "note": "for known status codes, headers and sizes as in C10 and C41; content that is compressed is covered by C56"
  },
  {
   "property": "C59",
   "status": "proved",
   "theorems": [
    "Pillow.Props.C59_reports",
    "Pillow.Props.C59_drained",
    "Pillow.Props.C59_bounded",
    "Pillow.Props.C59_compressed_violation"
   ],
   "note": "with at most one interim response before the final one (several: see C39); compressed content is limited before it is decoded (C59_compressed_violation)"
  },
  {
   "property": "C60",
   "status": "proved",
   "theorems": [
    "Pillow.Props.C60_head"
   ],
   "note": "for an application that does not abort while it handles headersCompleted() (see C37)"
  },
  {
   "property": "C61",
   "status": "proved",
   "theorems": [
    "Pillow.Props.C61_accessors",
    "Pillow.Props.C61_origin",
    "Pillow.Props.C61_followed",
    "Pillow.Props.C61_follow",
    "Pillow.Props.C61_pending"
   ],
   "note": "what QUrl makes of the Location value is a parameter; the code does not resolve it against the request's url, and repeats POST as POST after 303"
  },
  {
   "property": "C62",
   "status": "proved",
   "theorems": [
    "Pillow.Props.C62_content",
    "Pillow.Props.C62_drained",
    "Pillow.Props.C62_closed",
    "Pillow.Props.C62_unread_lost"
   ],
   "note": "the code never reports such a response without an error, so that it cannot be told from one that broke off; later requests are unaffected if the content is not compressed (else C36_violation); what a limited read buffer has left in the socket is lost when the connection is closed (C62_unread_lost)"
  },
  {
   "property": "C63",
   "status": "proved",
   "theorems": [
    "Pillow.Props.C63_pending",
    "Pillow.Props.C63_error",
    "Pillow.Props.C63_not_finished"
   ],
   "note": "for responses whose end does not depend on the connection; with at most one interim response before"
  },
  {
   "property": "C64",
   "status": "partial",
   "theorems": [
    "Pillow.Props.C64_accepts",
    "Pillow.Props.C64_forwards",
    "Pillow.Props.C64_same_partial",
    "Pillow.Props.C64_body",
    "Pillow.Props.C64_duplicates_lost",
    "Pillow.Props.C64_absolute_lost"
   ],
   "note": "false of the code for repeated headers (only the last of each name is forwarded, C64_duplicates_lost) and absolute targets (path and query are lost, C64_absolute_lost); C64_forwards says exactly what is forwarded, C64_same_partial when that is the request itself. What Qt adds to the request is not modelled"
  },
  {
   "property": "C65",
   "status": "proved",
   "theorems": [
    "Pillow.Props.C65_six",
    "Pillow.Props.C65_each_once",
    "Pillow.Props.C65_managers"
   ],
   "note": "the children of a manager are its replies"
  },
  {
   "property": "C66",
   "status": "partial",
   "theorems": [
    "Pillow.Props.C66_returns",
    "Pillow.Props.C66_failed_partial",
    "Pillow.Props.C66_begun_partial",
    "Pillow.Props.C66_violation"
   ],
   "note": "false of the code when the script ends its response before it fails and the next request is handed out meanwhile: that one gets the 500 (C66_violation); proved when the response is not ended while the script runs"
  },
  {
   "property": "C67",
   "status": "partial",
   "theorems": [
    "Pillow.Props.C67_current_partial",
    "Pillow.Props.C67_retries",
    "Pillow.Props.C67_kept",
    "Pillow.Props.C67_missing",
    "Pillow.Props.C67_settings",
    "Pillow.Props.C67_race",
    "Pillow.Props.C67_setFileName"
   ],
   "note": "false of the code when the file is written while it is being loaded (C67_race) and after setFileName() (C67_setFileName); proved for files whose times of modification increase and that are not written while being loaded"
  },
  {
   "property": "C68",
   "status": "partial",
   "theorems": [
    "Pillow.Props.C68_asks",
    "Pillow.Props.C68_schemes",
    "Pillow.Props.C68_server",
    "Pillow.Props.C68_two_cookies"
   ],
   "note": "false of the code when the application sets a Cookie header itself and the jar has a cookie too: there are two Cookie headers then (C68_two_cookies); everything else proved. What QUrl and the cookie jar return are parameters"
  },
  {
   "property": "C69",
   "status": "partial",
   "theorems": [
    "Pillow.Props.C69_headers",
    "Pillow.Props.C69_outcome",
    "Pillow.Props.C69_response",
    "Pillow.Props.C69_error_violation",
    "Pillow.Props.C69_redirection_violation",
    "Pillow.Props.C69_headers_lost"
   ],
   "note": "proved as stated for the signals, status and cookies; false of the code in that the accessor error() stays NoError after error() was emitted (C69_error_violation), that any response with a Location is said to redirect (C69_redirection_violation) and that headers with empty values are not shown (C69_headers_lost)"
  },
  {
   "property": "C70",
   "status": "partial",
   "theorems": [
    "Pillow.Props.C70_entry_partial",
    "Pillow.Props.C70_layout_partial",
    "Pillow.Props.C70_values",
    "Pillow.Props.C70_one_line",
    "Pillow.Props.C70_marker_violation",
    "Pillow.Props.C70_stale_close"
   ],
   "note": "false of the code for targets in which % stands before a number up to 8, such as %2F: QString::arg takes it for a place marker (C70_marker_violation); for an empty query the question mark is left out; entries about closed connections are read out of freed memory (C70_stale_close); everything else proved"
  },
  {
   "property": "C71",
   "status": "partial",
   "theorems": [
    "Pillow.Props.C71_failure_told",
    "Pillow.Props.C71_next_partial",
    "Pillow.Props.C71_again",
    "Pillow.Props.C71_answer_partial",
    "Pillow.Props.C71_header_violation",
    "Pillow.Props.C71_gzip_violation"
   ],
   "note": "false of the code when the request fails while its headers are being read (the begun header stays and is put before those of the next response, C71_header_violation) or while compressed content is (the decoder stays, C71_gzip_violation); proved for failures at every other byte: in the status line, at the end of the headers or anywhere in the content, also of HEAD requests, and in or after one interim response"
  },
  {
   "property": "C72",
   "status": "partial",
   "theorems": [
    "Pillow.Props.C72_shown",
    "Pillow.Props.C72_as_sent_partial",
    "Pillow.Props.C72_headers_given",
    "Pillow.Props.C72_content_violation",
    "Pillow.Props.C72_value_violation",
    "Pillow.Props.C72_repeated_violation",
    "Pillow.Props.C72_case_violation"
   ],
   "note": "C72_shown says exactly what is shown; false of the code in that content and header values are percent-decoded too (C72_content_violation, C72_value_violation), that of repeated headers only the last is shown (C72_repeated_violation) and that names are found only in the case they were sent in (C72_case_violation). What QUrl takes for the query items is a parameter"
  },
  {
   "property": "C73",
   "status": "partial",
   "theorems": [
    "Pillow.Props.C73_as_new_partial",
    "Pillow.Props.C73_server_partial",
    "Pillow.Props.C73_status",
    "Pillow.Props.C73_connections",
    "Pillow.Props.C73_violation"
   ],
   "note": "proved when the application asks a connection for its request only after one of the present client was handed out; false otherwise (C73_violation: requestParams() before the first request of the new client answers with, and keeps, the parameters of the previous one). C73_status adds responseStatusCode(), which before the first response still shows the previous client's"
  },
  {
   "property": "C74",
   "status": "proved",
   "theorems": [
    "Pillow.Props.C74_type",
    "Pillow.Props.C74_declared",
    "Pillow.Props.C74_sent"
   ],
   "note": "letters outside ASCII that Qt folds to ASCII ones (Kelvin sign, long s) are not modelled"
  },
  {
   "property": "C75",
   "status": "partial",
   "theorems": [
    "Pillow.Props.C75_on_its_way_partial",
    "Pillow.Props.C75_connected",
    "Pillow.Props.C75_violation",
    "Pillow.Props.C75_hang",
    "Pillow.Props.C75_exactly"
   ],
   "note": "false of the code when a response ends the connection, or the next request goes to another server, before the previous request has been sent (an upload that is refused early): the socket is then still closing, connectToHost() is refused, and the request waits forever (C75_violation, C75_hang); proved for runs in which requests have left the socket before their responses end; for every run, C75_exactly: an awaited request is on its way, or the socket was closing (or has become unconnected), and then nothing happens until something is received or an error is reported"
  },
  {
   "property": "C76",
   "status": "partial",
   "theorems": [
    "Pillow.Props.C76_in_order_partial",
    "Pillow.Props.C76_violation",
    "Pillow.Props.C76_abort_deferred"
   ],
   "note": "for every run, but the specification allows for finished() coming twice if a HEAD request is aborted after headersCompleted() (C37_violation); content of an interim (100) response is reported before headersCompleted() (C76_violation, the specification allows for it); abort() does not withdraw a request put off in a slot (C76_abort_deferred)"
  },
  {
   "property": "C77",
   "status": "partial",
   "theorems": [
    "Pillow.Props.C77_any_division",
    "Pillow.Props.C77_beginning",
    "Pillow.Props.C77_at_once_partial",
    "Pillow.Props.C77_decompressed",
    "Pillow.Props.C77_decompressed_paced",
    "Pillow.Props.C77_reported",
    "Pillow.Props.C77_closed",
    "Pillow.Props.C77_broken",
    "Pillow.Props.C77_errors",
    "Pillow.Props.C77_not_compressed",
    "Pillow.Props.C77_division_violation",
    "Pillow.Props.C77_parts_violation",
    "Pillow.Props.C77_late"
   ],
   "note": "zlib is assumed to decode as Spec/Gunzip.lean (Decodes) says, which a small decoder is shown to meet (demoZlib_decodes); proved for every complete stream, division and size. False of the code: content that is not compressed although declared so may lose its first bytes, depending on how it is divided (C77_division_violation); only the first part of a gzip file of several parts is shown (C77_parts_violation); a piece that fills the 32 KiB buffer may be shown in part until the next one (C77_late). After a compressed response that was cut off, the next response is damaged (C71_gzip_violation): such clients are excluded (WellServed)"
  },
  {
   "property": "C78",
   "status": "proved",
   "theorems": [
    "Pillow.Props.C78_shown",
    "Pillow.Props.C78_answer",
    "Pillow.Props.C78_file",
    "Pillow.Props.C78_not_modified",
    "Pillow.Props.C78_large",
    "Pillow.Props.C78_large_head"
   ],
   "note": "for requests without a question mark in the path, files under 2 GiB that are not changed meanwhile, and connections on which only the handler writes"
  },
  {
   "property": "C79",
   "status": "proved",
   "theorems": [
    "Pillow.Props.C79_values",
    "Pillow.Props.C79_route",
    "Pillow.Props.C79_no_route",
    "Pillow.Props.C79_asked"
   ],
   "note": "for applications that use the parameters only while a request is being handled (otherwise C28_violation), and routes with plain paths, distinct names and the :names before the *names (otherwise C30_special_characters, C31_violation); C79_asked for paths without a question mark"
  },
  {
   "property": "C80",
   "status": "partial",
   "theorems": [
    "Pillow.Props.C80_at_most_one",
    "Pillow.Props.C80_exactly",
    "Pillow.Props.C80_answered_partial",
    "Pillow.Props.C80_unchanged",
    "Pillow.Props.C80_told",
    "Pillow.Props.C80_violation"
   ],
   "note": "never more than one; false of the code in that a router reports a request handled although what the route leads to has refused it (a file that does not exist, an object or handler that was destroyed, a nested router without a match): nobody answers (C80_violation). C80_exactly says that this is the only exception"
  },
  {
   "property": "C81",
   "status": "partial",
   "theorems": [
    "Pillow.Props.C81_method_partial",
    "Pillow.Props.C81_missing",
    "Pillow.Props.C81_violation"
   ],
   "note": "false of the code for the signature of a Q_INVOKABLE method: the result of its lookup is discarded and nothing is ever called (C81_violation). Qt's lookup is modelled; types of arguments are compared only by it"
  },
  {
   "property": "C82",
   "status": "proved",
   "theorems": [
    "Pillow.Props.C82_composed",
    "Pillow.Props.C82_progress"
   ],
   "note": "for responses whose end does not depend on the connection, with final statuses, plain headers and heads within the limits of the parsers (else C36, C38, C62); compressed content only to clients without a decoder (see C77); while a response is awaited the connection may break and the application may abort when nothing of the answer has been read yet or when all its headers have (at other points the next response can be misreported: C71), but not from within the signals headersCompleted and contentReadyRead, and connecting does not fail; requests leave the socket in time (else C75_violation)"
  },
  {
   "property": "C83",
   "status": "proved",
   "theorems": [
    "Pillow.Props.C83_held",
    "Pillow.Props.C83_bounded",
    "Pillow.Props.C83_unique",
    "Pillow.Props.C83_paused"
   ],
   "note": "of the connection's own buffer; what the device holds meanwhile is limited only by the device (Pillow sets no read buffer size), and one call of processInput() takes all of it"
  },
  {
   "property": "C84",
   "status": "partial",
   "theorems": [
    "Pillow.Props.C84_alive",
    "Pillow.Props.C84_reads",
    "Pillow.Props.C84_careful_partial",
    "Pillow.Props.C84_violation"
   ],
   "note": "false of the code when writeResponse() is given content for a HEAD request (or together with Content-Length: 0) and a part of the next request is already there: the response is completed while its headers are written, the buffer is replaced, and then the method is compared (C84_violation); C84_reads says that this is the only such read, C84_careful_partial that nothing else happens otherwise. The model takes every growth of the buffer and every completion to move it, and every raw field to be a view"
  },
  {
   "property": "C85",
   "status": "partial",
   "theorems": [
    "Pillow.Props.C85_returns",
    "Pillow.Props.C85_arrives",
    "Pillow.Props.C85_home",
    "Pillow.Props.C85_calls",
    "Pillow.Props.C85_depth_partial",
    "Pillow.Props.C85_violation"
   ],
   "note": "false of the code: pipelined requests that are answered from the slot of requestReady() nest, one level of the call stack each, and nothing bounds their number (C85_violation, for every n, with a server that answers every request at once with an empty response). Proved: control always comes back (C85_returns, C85_arrives, C85_home); the depth is at most the number of calls made since the event loop was in control (C85_calls), and at most two more than the number of requests handed out since then if slots only answer requests (C85_depth_partial). A step is one of the pieces into which HttpConnection.cpp is cut at calls and signals; that each piece ends is part of its being a Lean function"
  },
  {
   "property": "C86",
   "status": "partial",
   "theorems": [
    "Pillow.Props.C86_returns",
    "Pillow.Props.C86_violation"
   ],
   "note": "false of the code in its second part: when connectToHost() reports an error before it returns, finished() is emitted from within request(), so that an application that tries again nests without bound (C86_violation, for every n). The first part is proved for every application, event and byte stream: the result does not depend on how deep signals may nest once that is the number of reactions (C86_returns); this also says that the parameter fuel of the model does not matter"
  },
  {
   "property": "C87",
   "status": "partial",
   "theorems": [
    "Pillow.Props.C87_sockets_partial",
    "Pillow.Props.C87_when_partial",
    "Pillow.Props.C87_violation"
   ],
   "note": "proved for every history of clients, refused descriptors and calls in which the application does not call close() while requestCompleted is being handled (rule Polite, see C15); without that rule it is false of the code: closed() is then emitted a second time, after the connection has dropped its device, and connection_closed calls deleteLater through a null pointer (C87_violation)"
  },
  {
   "property": "C88",
   "status": "partial",
   "theorems": [
    "Pillow.Props.C88_amount",
    "Pillow.Props.C88_bytes_partial",
    "Pillow.Props.C88_violation",
    "Pillow.Props.C88_violation_stuck"
   ],
   "note": "the amounts are proved for every sequence of changes; that every byte was at its position in the file is proved as long as the file does not become longer than announced, and false of the code for a file that is appended to (C88_violation: a piece read past the announced end is refused whole, and later bytes are sent in its place); the transfer of a file that has grown or become shorter can stop for ever with the connection open (C88_violation_stuck)"
  },
  {
   "property": "C89",
   "status": "partial",
   "theorems": [
    "Pillow.Props.C89_content_partial",
    "Pillow.Props.C89_progress_partial",
    "Pillow.Props.C89_violation",
    "Pillow.Props.C89_violation_freed"
   ],
   "note": "proved for every execution in which the upstream reply does not read any more once the pipe is torn down (C89_content_partial: the right bytes from valid memory; C89_progress_partial: all of them, as often as it reads); false of the code until the event loop has deleted the reply: the buffer lies directly over the content member of the connection, so the end of the next pipelined request is sent upstream as part of the first (C89_violation), or memory of the next client is read (C89_violation_freed)"
  },
  {
   "property": "C90",
   "status": "partial",
   "theorems": [
    "Pillow.Props.C90_same_partial",
    "Pillow.Props.C90_chunked_violation",
    "Pillow.Props.C90_smuggling_violation",
    "Pillow.Props.C90_lengths_violation",
    "Pillow.Props.C90_violation"
   ],
   "note": "proved for every stream of requests without Transfer-Encoding; false of the code for every request sent in chunks (C90_chunked_violation: handed out without its content, which is then answered with 400) and for requests with both a Content-Length and a Transfer-Encoding (C90_smuggling_violation: any request can be put into the content of another and is handed out as its own; C90_violation a concrete one); contradicting lengths are not refused, the last counts (C90_lengths_violation)"
  },
  {
   "property": "C91",
   "status": "partial",
   "theorems": [
    "Pillow.Props.C91_requests_partial",
    "Pillow.Props.C91_responses_partial",
    "Pillow.Props.C91_requests_violation",
    "Pillow.Props.C91_responses_violation",
    "Pillow.Props.C91_requests_example",
    "Pillow.Props.C91_responses_example"
   ],
   "note": "proved for requests whose values contain no carriage return (at most as many requests are handed out as were written, well-formed or not; exactly these if well-formed: C10) and for responses with plain headers (exactly the one response); false of the code for other values, which are written as they are: any request (C91_requests_violation) and any response (C91_responses_violation) can be injected through the value of a header"
  },
  {
   "property": "C92",
   "status": "proved",
   "theorems": [
    "Pillow.Props.C92_writeResponse",
    "Pillow.Props.C92_writeHeaders",
    "Pillow.Props.C92_file"
   ],
   "note": "for contents below 2 GiB and declared lengths for which the behaviour is defined (C50); that no content follows for HEAD is C21"
  },
  {
   "property": "C93",
   "status": "partial",
   "theorems": [
    "Pillow.Props.C93_as_new_partial",
    "Pillow.Props.C93_waiting",
    "Pillow.Props.C93_violation",
    "Pillow.Props.C93_in_completed",
    "Pillow.Props.C93_in_closed",
    "Pillow.Props.C93_example",
    "Pillow.Props.C93_slots_example"
   ],
   "note": "proved for every object whose state is not that of receiving headers, with control in the event loop (the application asking for requests only once they are handed out, see C73); false of the code for a connection waiting for a request head, as every idle kept-alive one does (the parser is zeroed but its initialization is skipped, so that whatever the new device sends first is read without effect: C93_waiting, C93_violation), and in slots of requestCompleted (the new device is closed, C93_in_completed) and closed (it is forgotten, C93_in_closed). That the signals of the old device stay connected is not modelled"
  },
  {
   "property": "C94",
   "status": "partial",
   "theorems": [
    "Pillow.Props.C94_known_partial",
    "Pillow.Props.C94_no_content",
    "Pillow.Props.C94_unavailable",
    "Pillow.Props.C94_short",
    "Pillow.Props.C94_until_closed_violation",
    "Pillow.Props.C94_chunked_violation"
   ],
   "note": "proved for replies of declared length (C94_known_partial; C94_short if upstream delivers less), for 204 and 304 without a length, and when upstream fails before anything was sent; false of the code for every other reply: what is relayed without a length, or in chunks, ends for the client of the library with an error, although all of it has arrived (C94_until_closed_violation, C94_chunked_violation)"
  },
  {
   "property": "C95",
   "status": "proved",
   "theorems": [
    "Pillow.Props.C95_within",
    "Pillow.Props.C95_size",
    "Pillow.Props.C95_effect",
    "Pillow.Props.C95_assertions",
    "Pillow.Props.C95_index",
    "Pillow.Props.C95_demo",
    "Pillow.Props.C95_demo_assertions"
   ],
   "note": "every history is allowed, with initialize() at any depth; C95_effect ties the list of uses to what the model of the connection does to its buffer, for all states. What accessors read later through the fields is C14 and C84; sizes are taken to fit in int"
  },
  {
   "property": "C96",
   "status": "partial",
   "theorems": [
    "Pillow.Props.C96_shown",
    "Pillow.Props.C96_wire_partial",
    "Pillow.Props.C96_length_violation",
    "Pillow.Props.C96_status_violation",
    "Pillow.Props.C96_example"
   ],
   "note": "that both are those of the last head is proved for every history (C96_shown); that these are the numbers in the bytes sent, for the codes of the standard and lengths in the range of int (C96_wire_partial); false of the code for lengths from 2 GiB on (see C50) and codes that are not in the table (see C22)"
  },
  {
   "property": "C97",
   "status": "partial",
   "theorems": [
    "Pillow.Props.C97_same_partial",
    "Pillow.Props.C97_until_closed_partial",
    "Pillow.Props.C97_waits_violation",
    "Pillow.Props.C97_takes_more_violation",
    "Pillow.Props.C97_codings_violation",
    "Pillow.Props.C97_lengths_violation",
    "Pillow.Props.C97_example_304",
    "Pillow.Props.C97_example_codings",
    "Pillow.Props.C97_example_lengths"
   ],
   "note": "proved for responses that announce no content they do not have and use no coding but chunked, at every pace and with every limit of the read buffer; false of the code for a 204, 304 or 1xx with a length (the client waits for the content), for `Transfer-Encoding: gzip, chunked` (it shows the chunks and waits for the connection to be closed) and for contradicting lengths (the last one counts)"
  },
  {
   "property": "C98",
   "status": "partial",
   "theorems": [
    "Pillow.Props.C98_follows_partial",
    "Pillow.Props.C98_head",
    "Pillow.Props.C98_violation",
    "Pillow.Props.C98_demo",
    "Pillow.Props.C98_codings_violation",
    "Pillow.Props.C98_demo_codings"
   ],
   "note": "proved for handlers that give no content to a 204, 304 or 1xx and ask for no coding but chunked, with lengths in the range of int; false of the code for content with a 204, 304 or 1xx, which is written after the head on a connection that is kept (C98_violation; C98_demo hides a response in it), and for a handler that asks for another coding, where the head says that the response ends with the connection and the connection is kept (C98_codings_violation, C98_demo_codings)"
  },
  {
   "property": "C99",
   "status": "partial",
   "theorems": [
    "Pillow.Props.C99_wire_partial",
    "Pillow.Props.C99_calls_partial",
    "Pillow.Props.C99_handler_partial",
    "Pillow.Props.C99_fixed",
    "Pillow.Props.C99_version_violation",
    "Pillow.Props.C99_one_reading",
    "Pillow.Props.C99_whole_or_last",
    "Pillow.Props.C99_determined",
    "Pillow.Props.C99_waiting_partial"
   ],
   "note": "proved for every reachable history in which the handler makes its calls with proper arguments, at any time and in any order, and the requests have ordinary versions (C99_calls_partial; C99_handler_partial for a handler function, C99_fixed for HttpHandlerFixed), and a client that knows its requests can take the bytes apart in one way only (C99_one_reading, C99_determined), where every request has been answered in full if the connection waits for the next (C99_waiting_partial), and more generally whenever each head written is proper (C99_wire_partial): a status of RFC 9110, a length in the range of int, plain headers, no coding but chunked, a head of at most 80 KB, and no content with a 204, 304 or 1xx; without this it is false of the code (C99_version_violation for a request with version HTTP/1000.1, which is copied into the status line; C98_violation, C98_codings_violation, and C17 for header values with line breaks)"
  }
 ]
}