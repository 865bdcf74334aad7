#!/usr/bin/env python3
"""Writes /verif/MANIFEST.json."""
import json, os
P = "Pillow.Props."
claims = []
def c(prop, status, theorems, note=""):
    claims.append({"property": prop, "status": status, "theorems": [P + t for t in theorems], "note": note})

c("C01", "proved", ["C01_getFieldValue", "C01_getFieldValueTok", "IsFirstValue_unique"])
c("C02", "proved", ["C02_getFieldValues", "C02_testFieldValue"])
c("C03", "proved", ["C03_equals_iff", "C03_only_letters", "C03_refl", "C03_symm", "C03_trans", "C03_length"])
c("C04", "proved", ["C04_decode_encoded", "C04_truncated", "C04_no_percent", "C04_in_bounds", "C04_size", "C04_exactly"])
c("C05", "partial", ["C05_exactly", "C05_appendNumber_partial", "C05_lowercase", "C05_most_negative"],
  "the most negative value of the type is undefined behaviour in the code (n = -n), shown by C05_most_negative")
c("C06", "proved", ["C06_split", "C06_no_colon"])
c("C07", "partial", ["C07_append_partial", "C07_self_append"], "false of the code for a += a (out-of-bounds copy), shown by C07_self_append")
c("C09", "proved", ["C09_accept_iff", "C09_fields", "C09_unique", "C13_exactly", "C11_refused"], "the parser against the grammar; the connection hands out exactly the accepted heads (C13_exactly, C11_refused); the one accessor that does not show its slice is C14_violation")
c("C08", "proved", ["C08_prefix", "C08_same_requests", "C08_same_error", "C08_responses", "C08_same_responses"], "requests and errors for every environment; responses for every handler whose answers are a function of the request")
c("C10", "proved", ["C10_agree"], "the request head must fit the 32767 bytes the server accepts, content 128 MiB (C11, C12)")
c("C11", "proved", ["C11_error_justified", "C11_refused", "C11_reply_bytes", "C11_once", "C11_not_in_response"])
c("C12", "proved", ["C12_reasons", "C12_number", "C12_no_length", "C12_content"])
c("C13", "proved", ["C13_exact_requests", "C13_nothing_held_back", "C13_exactly"])
c("C14", "partial", ["C14_exactly", "C14_accessors_partial", "C14_stable", "C14_violation"], "false of the code for a request-uri ending in '?': requestUri() ends in NUL (C14_violation)")
c("C15", "partial", ["C15_between", "C15_completed", "C15_after_closed", "C15_closed_once_partial", "C15_inevitable", "C15_violation"], "closed at most once is false of the code when close() is called while requestCompleted is being handled (C15_violation), and exactly then: otherwise it is emitted once (C15_closed_once_partial), and then the null device is used (C16_inevitable) or closed has been emitted twice, or is with the next close(), as soon as control is back in the event loop (C15_inevitable)")
c("C16", "partial", ["C16_no_null_device_partial", "C16_only_kept_alive", "C16_inevitable", "C16_violation"], "false of the code when close() is called (or the peer disconnects) while requestCompleted is being handled and the response announced keep-alive (C16_violation); exactly then: otherwise no crash (C16_only_kept_alive), and then the crash is inevitable (C16_inevitable)")
c("C17", "proved", ["C17_inert"])
c("C18", "proved", ["C18_never_exceeds", "C18_complete_exact", "C18_completes_at_once", "C18_writeContent", "C18_writeResponse", "C18_endContent"])
c("C19", "proved", ["C19_decodes", "C19_unambiguous", "C19_calls"])
c("C20", "proved", ["C20_decision", "C20_kept", "C20_not_kept"])
c("C21", "partial", ["C21_no_body_partial", "C21_violation"], "false of the code when writeResponse answers HEAD with content and the next request is already in the buffer (C21_violation)")
c("C22", "partial", ["C22_exactly", "C22_status_line_partial", "C22_violation"], "false of the code for unknown status codes (C22_violation)")
c("C23", "partial", ["C23_declared", "C23_writeHeaders_exactly", "C23_writeHeaders_partial", "C23_layout_partial"], "for known status codes and lengths in the range of int, see C22, C50")
c("C24", "proved", ["C24_nothing_unsent", "C24_closes"])
c("C25", "proved", ["C25_iff", "C25_once", "C25_in_time"])
c("C26", "proved", ["C26_lookup", "paramsOf_iff", "C28_params_partial"])
c("C27", "proved", ["C27_shape", "C27_lookup", "C27_connection"])
c("C28", "partial", ["C28_decoded", "C28_params_partial", "C28_violation"], "false of the code when the parameters are read after the request was completed (C28_violation)")
c("C29", "proved", ["C29_stack", "C29_returns", "C29_order", "C29_nested", "C29_function"])
c("C30", "proved", ["C30_dispatch", "C30_plain_paths", "C30_answers", "C30_special_characters"], "a route path matches if its regular expression does; for paths without special characters that is the documented matching, others are taken as regular expressions (C30_special_characters)")
c("C31", "partial", ["C31_exactly", "C31_bind_partial", "C31_violation"], "false of the code when a *splat comes before a :param (C31_violation); proved when all :params come first, names are distinct and other characters are not special")
c("C32", "partial", ["C32_exactly", "C32_served", "C32_inside_partial", "C32_violation"], "false of the code when a sibling directory's name starts with the public directory's name (C32_violation)")
c("C33", "partial", ["C33_start", "C33_exact_partial", "C33_buffer", "C33_progress", "C33_no_stall", "C33_can_finish", "C33_violation"], "false of the code for HEAD requests followed by a pipelined request (C33_violation); proved for the others and files below 2 GiB (see C50), if nobody else writes to the connection and the file does not change")
c("C34", "partial", ["C34_pool", "C34_exclusive", "C34_no_delete_running_partial", "C34_violation", "C34_violation_shared"], "the pool invariants are proved for every history of connections and clients in which the application is gentle (does not call close() while requestCompleted is being handled; otherwise two clients can get the same object, C34_violation_shared) and the event loop accepts only while no connection code runs; that no executing object is deleted is false of the code (C34_violation: a handler of closed that closes another connection while the pool is full) and proved when no such handler exists")
c("C35", "proved", ["C35_segmentation", "C35_bytewise", "C35_progress", "C35_limits"], "an empty inject() is the end of the input, and the accessors after an error depend on the division (C35_limits)")
c("C42", "proved", ["C42_httpDate", "C42_readable"])
c("C43", "proved", ["C43_table", "C43_null_together"])
c("C48", "proved", ["C48_lines", "C48_count"])
c("C49", "proved", ["C49_framing", "C49_unique"])
c("C50", "partial", ["C50_exactly", "C50_length_partial", "C50_violation", "C50_overflow"], "false of the code from 2 GiB on (C50_violation, C50_overflow)")
c("C51", "proved", ["C51_appends"])
c("C52", "proved", ["C52_fixed", "C52_notFound", "C52_at_once"])
c("C53", "proved", ["C53_small", "C53_revalidate", "C53_unreadable"])
c("C54", "proved", ["C54_no_assertion"])
c("C36", "partial", ["C36_isolated_partial", "C36_any_history", "C36_any_next", "C36_exactly", "C36_cut", "C36_cut_again", "C36_clean_cut", "C36_heals", "C36_trailers", "C36_violation"], "false of the code when the earlier response had trailers or was given up inside its headers (C36_violation). C36_any_history: whatever came before, at most one header is put before the first header of the next response, and nothing else shows; C36_exactly: given up at any point of a well-formed response, this happens exactly between the first byte of a header and the end of the head; C36_trailers: the last trailer is the one left")
c("C41", "proved", ["C41_known_length", "C41_chunked", "C41_until_closed", "C41_encoding_needed"], "for known status codes (C22), lengths in the range of int (C50), headers without a framing meaning of their own (C41_encoding_needed) and heads below the client's 80 KiB limit")
c("C55", "proved", ["C55_response", "C55_consumed", "C55_sequence", "C55_until_eof"])
c("C37", "partial", ["C37_finished_once_partial", "C37_exactly", "C37_ends_at_once", "C37_invalid_ends", "C37_violation"], "false of the code exactly in the runs in which a HEAD request is aborted between headersCompleted() and finished() (C37_exactly, C37_violation); proved for all others")
c("C38", "partial", ["C38_refused", "C38_accepted", "C38_deferred_partial", "C38_violation"], "false of the code when two requests are made in one callback (the first is lost) and for null methods (C38_violation); proved for the last request made")
c("C40", "proved", ["C40_routing", "C40_reuse", "C40_timer"])
c("C57", "proved", ["C57_no_assertion"])
c("C39", "partial", ["C39_interims_invisible_partial", "C39_one_interim", "C39_dropped", "C39_violation"], "false of the code when one segment holds the end of an interim response, a second one and more (C39_violation): C39_dropped says that whatever follows the second one in that segment is dropped, and the client then stands where it stood before; proved for every other segmentation, for clients that were sent complete answers before")
c("C56", "proved", ["C56_reports_the_response", "C56_and_again", "C56_content"], "compressed content is shown as zlib (a parameter of the model) decodes it, block by block")
c("C46", "proved", ["C46_once_in_order", "C46_amount", "C46_whole_response"], "QIODevice is modelled by its contract (peek puts back what it has read)")
c("C47", "partial", ["C47_exclusive_partial", "C47_authority", "C47_new_request", "C47_violation"], "false of the code when a client finishes twice (C37_violation): it is then pooled twice and given to two replies (C47_violation); a reply whose error() is being handled still holds its client, and its abort() ends the request of another reply; proved when clients finish once per request")
c("C44", "partial", ["C44_relays", "C44_failure_partial", "C44_silent", "C44_forwards", "C44_violation"], "false of the code as to 503 iff the transfer failed: an upstream status from 400 on without content is replaced by 503 (C44_violation); everything else proved. Upstream is a QNetworkReply of which only status, headers, arriving bytes, readyRead, finished and error are modelled")
c("C45", "partial", ["C45_delimited_partial", "C45_reached", "C45_chunks_cut_off", "C45_violation", "C45_hang", "C45_failed_never_ended"], "false of the code for every reply relayed in chunks (C45_chunks_cut_off: closed without the final chunk) and when upstream fails after the headers (C45_hang); proved for the rest")
c("C58", "proved", ["C58_written", "C58_requests", "C58_answer", "C58_round_trip"], "for known status codes, headers and sizes as in C10 and C41; content that is compressed is covered by C56")
c("C59", "proved", ["C59_reports", "C59_drained", "C59_bounded", "C59_compressed_violation"], "with at most one interim response before the final one (several: see C39); compressed content is limited before it is decoded (C59_compressed_violation)")
c("C60", "proved", ["C60_head"], "for an application that does not abort while it handles headersCompleted() (see C37)")
c("C61", "proved", ["C61_accessors", "C61_origin", "C61_followed", "C61_follow", "C61_pending"], "what QUrl makes of the Location value is a parameter; the code does not resolve it against the request's url, and repeats POST as POST after 303")
c("C62", "proved", ["C62_content", "C62_drained", "C62_closed", "C62_unread_lost"], "the code never reports such a response without an error, so that it cannot be told from one that broke off; later requests are unaffected if the content is not compressed (else C36_violation); what a limited read buffer has left in the socket is lost when the connection is closed (C62_unread_lost)")
c("C63", "proved", ["C63_pending", "C63_error", "C63_not_finished"], "for responses whose end does not depend on the connection; with at most one interim response before")
c("C64", "partial", ["C64_accepts", "C64_forwards", "C64_same_partial", "C64_body", "C64_duplicates_lost", "C64_absolute_lost"], "false of the code for repeated headers (only the last of each name is forwarded, C64_duplicates_lost) and absolute targets (path and query are lost, C64_absolute_lost); C64_forwards says exactly what is forwarded, C64_same_partial when that is the request itself. What Qt adds to the request is not modelled")
c("C65", "proved", ["C65_six", "C65_each_once", "C65_managers"], "the children of a manager are its replies")
c("C66", "partial", ["C66_returns", "C66_failed_partial", "C66_begun_partial", "C66_violation"], "false of the code when the script ends its response before it fails and the next request is handed out meanwhile: that one gets the 500 (C66_violation); proved when the response is not ended while the script runs")
c("C67", "partial", ["C67_current_partial", "C67_retries", "C67_kept", "C67_missing", "C67_settings", "C67_race", "C67_setFileName"], "false of the code when the file is written while it is being loaded (C67_race) and after setFileName() (C67_setFileName); proved for files whose times of modification increase and that are not written while being loaded")
c("C68", "partial", ["C68_asks", "C68_schemes", "C68_server", "C68_two_cookies"], "false of the code when the application sets a Cookie header itself and the jar has a cookie too: there are two Cookie headers then (C68_two_cookies); everything else proved. What QUrl and the cookie jar return are parameters")
c("C69", "partial", ["C69_headers", "C69_outcome", "C69_response", "C69_error_violation", "C69_redirection_violation", "C69_headers_lost"], "proved as stated for the signals, status and cookies; false of the code in that the accessor error() stays NoError after error() was emitted (C69_error_violation), that any response with a Location is said to redirect (C69_redirection_violation) and that headers with empty values are not shown (C69_headers_lost)")
c("C70", "partial", ["C70_entry_partial", "C70_layout_partial", "C70_values", "C70_one_line", "C70_marker_violation", "C70_stale_close"], "false of the code for targets in which % stands before a number up to 8, such as %2F: QString::arg takes it for a place marker (C70_marker_violation); for an empty query the question mark is left out; entries about closed connections are read out of freed memory (C70_stale_close); everything else proved")
c("C71", "partial", ["C71_failure_told", "C71_next_partial", "C71_again", "C71_answer_partial", "C71_header_violation", "C71_gzip_violation"], "false of the code when the request fails while its headers are being read (the begun header stays and is put before those of the next response, C71_header_violation) or while compressed content is (the decoder stays, C71_gzip_violation); proved for failures at every other byte: in the status line, at the end of the headers or anywhere in the content, also of HEAD requests, and in or after one interim response")
c("C72", "partial", ["C72_shown", "C72_as_sent_partial", "C72_headers_given", "C72_content_violation", "C72_value_violation", "C72_repeated_violation", "C72_case_violation"], "C72_shown says exactly what is shown; false of the code in that content and header values are percent-decoded too (C72_content_violation, C72_value_violation), that of repeated headers only the last is shown (C72_repeated_violation) and that names are found only in the case they were sent in (C72_case_violation). What QUrl takes for the query items is a parameter")
c("C73", "partial", ["C73_as_new_partial", "C73_server_partial", "C73_status", "C73_connections", "C73_violation"], "proved when the application asks a connection for its request only after one of the present client was handed out; false otherwise (C73_violation: requestParams() before the first request of the new client answers with, and keeps, the parameters of the previous one). C73_status adds responseStatusCode(), which before the first response still shows the previous client's")
c("C74", "proved", ["C74_type", "C74_declared", "C74_sent"], "letters outside ASCII that Qt folds to ASCII ones (Kelvin sign, long s) are not modelled")
c("C75", "partial", ["C75_on_its_way_partial", "C75_connected", "C75_violation", "C75_hang", "C75_exactly"], "false of the code when a response ends the connection, or the next request goes to another server, before the previous request has been sent (an upload that is refused early): the socket is then still closing, connectToHost() is refused, and the request waits forever (C75_violation, C75_hang); proved for runs in which requests have left the socket before their responses end; for every run, C75_exactly: an awaited request is on its way, or the socket was closing (or has become unconnected), and then nothing happens until something is received or an error is reported")
c("C76", "partial", ["C76_in_order_partial", "C76_violation", "C76_abort_deferred"], "for every run, but the specification allows for finished() coming twice if a HEAD request is aborted after headersCompleted() (C37_violation); content of an interim (100) response is reported before headersCompleted() (C76_violation, the specification allows for it); abort() does not withdraw a request put off in a slot (C76_abort_deferred)")
c("C77", "partial", ["C77_any_division", "C77_beginning", "C77_at_once_partial", "C77_decompressed", "C77_decompressed_paced", "C77_reported", "C77_closed", "C77_broken", "C77_errors", "C77_not_compressed", "C77_division_violation", "C77_parts_violation", "C77_late"], "zlib is assumed to decode as Spec/Gunzip.lean (Decodes) says, which a small decoder is shown to meet (demoZlib_decodes); proved for every complete stream, division and size. False of the code: content that is not compressed although declared so may lose its first bytes, depending on how it is divided (C77_division_violation); only the first part of a gzip file of several parts is shown (C77_parts_violation); a piece that fills the 32 KiB buffer may be shown in part until the next one (C77_late). After a compressed response that was cut off, the next response is damaged (C71_gzip_violation): such clients are excluded (WellServed)")
c("C78", "proved", ["C78_shown", "C78_answer", "C78_file", "C78_not_modified", "C78_large", "C78_large_head"], "for requests without a question mark in the path, files under 2 GiB that are not changed meanwhile, and connections on which only the handler writes")
c("C79", "proved", ["C79_values", "C79_route", "C79_no_route", "C79_asked"], "for applications that use the parameters only while a request is being handled (otherwise C28_violation), and routes with plain paths, distinct names and the :names before the *names (otherwise C30_special_characters, C31_violation); C79_asked for paths without a question mark")
c("C80", "partial", ["C80_at_most_one", "C80_exactly", "C80_answered_partial", "C80_unchanged", "C80_told", "C80_violation"], "never more than one; false of the code in that a router reports a request handled although what the route leads to has refused it (a file that does not exist, an object or handler that was destroyed, a nested router without a match): nobody answers (C80_violation). C80_exactly says that this is the only exception")
c("C81", "partial", ["C81_method_partial", "C81_missing", "C81_violation"], "false of the code for the signature of a Q_INVOKABLE method: the result of its lookup is discarded and nothing is ever called (C81_violation). Qt's lookup is modelled; types of arguments are compared only by it")
c("C82", "proved", ["C82_composed", "C82_progress"], "for responses whose end does not depend on the connection, with final statuses, plain headers and heads within the limits of the parsers (else C36, C38, C62); compressed content only to clients without a decoder (see C77); while a response is awaited the connection may break and the application may abort when nothing of the answer has been read yet or when all its headers have (at other points the next response can be misreported: C71), but not from within the signals headersCompleted and contentReadyRead, and connecting does not fail; requests leave the socket in time (else C75_violation)")
c("C83", "proved", ["C83_held", "C83_bounded", "C83_unique", "C83_paused"], "of the connection's own buffer; what the device holds meanwhile is limited only by the device (Pillow sets no read buffer size), and one call of processInput() takes all of it")
c("C84", "partial", ["C84_alive", "C84_reads", "C84_careful_partial", "C84_violation"], "false of the code when writeResponse() is given content for a HEAD request (or together with Content-Length: 0) and a part of the next request is already there: the response is completed while its headers are written, the buffer is replaced, and then the method is compared (C84_violation); C84_reads says that this is the only such read, C84_careful_partial that nothing else happens otherwise. The model takes every growth of the buffer and every completion to move it, and every raw field to be a view")
c("C85", "partial", ["C85_returns", "C85_arrives", "C85_home", "C85_calls", "C85_depth_partial", "C85_violation"], "false of the code: pipelined requests that are answered from the slot of requestReady() nest, one level of the call stack each, and nothing bounds their number (C85_violation, for every n, with a server that answers every request at once with an empty response). Proved: control always comes back (C85_returns, C85_arrives, C85_home); the depth is at most the number of calls made since the event loop was in control (C85_calls), and at most two more than the number of requests handed out since then if slots only answer requests (C85_depth_partial). A step is one of the pieces into which HttpConnection.cpp is cut at calls and signals; that each piece ends is part of its being a Lean function")
c("C86", "partial", ["C86_returns", "C86_violation"], "false of the code in its second part: when connectToHost() reports an error before it returns, finished() is emitted from within request(), so that an application that tries again nests without bound (C86_violation, for every n). The first part is proved for every application, event and byte stream: the result does not depend on how deep signals may nest once that is the number of reactions (C86_returns); this also says that the parameter fuel of the model does not matter")
c("C87", "partial", ["C87_sockets_partial", "C87_when_partial", "C87_violation"], "proved for every history of clients, refused descriptors and calls in which the application does not call close() while requestCompleted is being handled (rule Polite, see C15); without that rule it is false of the code: closed() is then emitted a second time, after the connection has dropped its device, and connection_closed calls deleteLater through a null pointer (C87_violation)")
c("C88", "partial", ["C88_amount", "C88_bytes_partial", "C88_violation", "C88_violation_stuck"], "the amounts are proved for every sequence of changes; that every byte was at its position in the file is proved as long as the file does not become longer than announced, and false of the code for a file that is appended to (C88_violation: a piece read past the announced end is refused whole, and later bytes are sent in its place); the transfer of a file that has grown or become shorter can stop for ever with the connection open (C88_violation_stuck)")
c("C89", "partial", ["C89_content_partial", "C89_progress_partial", "C89_violation", "C89_violation_freed"], "proved for every execution in which the upstream reply does not read any more once the pipe is torn down (C89_content_partial: the right bytes from valid memory; C89_progress_partial: all of them, as often as it reads); false of the code until the event loop has deleted the reply: the buffer lies directly over the content member of the connection, so the end of the next pipelined request is sent upstream as part of the first (C89_violation), or memory of the next client is read (C89_violation_freed)")
c("C90", "partial", ["C90_same_partial", "C90_chunked_violation", "C90_smuggling_violation", "C90_lengths_violation", "C90_violation"], "proved for every stream of requests without Transfer-Encoding; false of the code for every request sent in chunks (C90_chunked_violation: handed out without its content, which is then answered with 400) and for requests with both a Content-Length and a Transfer-Encoding (C90_smuggling_violation: any request can be put into the content of another and is handed out as its own; C90_violation a concrete one); contradicting lengths are not refused, the last counts (C90_lengths_violation)")
c("C91", "partial", ["C91_requests_partial", "C91_responses_partial", "C91_requests_violation", "C91_responses_violation", "C91_requests_example", "C91_responses_example"], "proved for requests whose values contain no carriage return (at most as many requests are handed out as were written, well-formed or not; exactly these if well-formed: C10) and for responses with plain headers (exactly the one response); false of the code for other values, which are written as they are: any request (C91_requests_violation) and any response (C91_responses_violation) can be injected through the value of a header")
c("C92", "proved", ["C92_writeResponse", "C92_writeHeaders", "C92_file"], "for contents below 2 GiB and declared lengths for which the behaviour is defined (C50); that no content follows for HEAD is C21")
c("C93", "partial", ["C93_as_new_partial", "C93_waiting", "C93_violation", "C93_in_completed", "C93_in_closed", "C93_example", "C93_slots_example"], "proved for every object whose state is not that of receiving headers, with control in the event loop (the application asking for requests only once they are handed out, see C73); false of the code for a connection waiting for a request head, as every idle kept-alive one does (the parser is zeroed but its initialization is skipped, so that whatever the new device sends first is read without effect: C93_waiting, C93_violation), and in slots of requestCompleted (the new device is closed, C93_in_completed) and closed (it is forgotten, C93_in_closed). That the signals of the old device stay connected is not modelled")
c("C94", "partial", ["C94_known_partial", "C94_no_content", "C94_unavailable", "C94_short", "C94_until_closed_violation", "C94_chunked_violation"], "proved for replies of declared length (C94_known_partial; C94_short if upstream delivers less), for 204 and 304 without a length, and when upstream fails before anything was sent; false of the code for every other reply: what is relayed without a length, or in chunks, ends for the client of the library with an error, although all of it has arrived (C94_until_closed_violation, C94_chunked_violation)")
c("C95", "proved", ["C95_within", "C95_size", "C95_effect", "C95_assertions", "C95_index", "C95_demo", "C95_demo_assertions"], "every history is allowed, with initialize() at any depth; C95_effect ties the list of uses to what the model of the connection does to its buffer, for all states. What accessors read later through the fields is C14 and C84; sizes are taken to fit in int")
c("C96", "partial", ["C96_shown", "C96_wire_partial", "C96_length_violation", "C96_status_violation", "C96_example"], "that both are those of the last head is proved for every history (C96_shown); that these are the numbers in the bytes sent, for the codes of the standard and lengths in the range of int (C96_wire_partial); false of the code for lengths from 2 GiB on (see C50) and codes that are not in the table (see C22)")
c("C97", "partial", ["C97_same_partial", "C97_until_closed_partial", "C97_waits_violation", "C97_takes_more_violation", "C97_codings_violation", "C97_lengths_violation", "C97_example_304", "C97_example_codings", "C97_example_lengths"], "proved for responses that announce no content they do not have and use no coding but chunked, at every pace and with every limit of the read buffer; false of the code for a 204, 304 or 1xx with a length (the client waits for the content), for `Transfer-Encoding: gzip, chunked` (it shows the chunks and waits for the connection to be closed) and for contradicting lengths (the last one counts)")
c("C98", "partial", ["C98_follows_partial", "C98_head", "C98_violation", "C98_demo", "C98_codings_violation", "C98_demo_codings"], "proved for handlers that give no content to a 204, 304 or 1xx and ask for no coding but chunked, with lengths in the range of int; false of the code for content with a 204, 304 or 1xx, which is written after the head on a connection that is kept (C98_violation; C98_demo hides a response in it), and for a handler that asks for another coding, where the head says that the response ends with the connection and the connection is kept (C98_codings_violation, C98_demo_codings)")
c("C99", "partial", ["C99_wire_partial", "C99_calls_partial", "C99_handler_partial", "C99_fixed", "C99_version_violation", "C99_one_reading", "C99_whole_or_last", "C99_determined", "C99_waiting_partial"], "proved for every reachable history in which the handler makes its calls with proper arguments, at any time and in any order, and the requests have ordinary versions (C99_calls_partial; C99_handler_partial for a handler function, C99_fixed for HttpHandlerFixed), and a client that knows its requests can take the bytes apart in one way only (C99_one_reading, C99_determined), where every request has been answered in full if the connection waits for the next (C99_waiting_partial), and more generally whenever each head written is proper (C99_wire_partial): a status of RFC 9110, a length in the range of int, plain headers, no coding but chunked, a head of at most 80 KB, and no content with a 204, 304 or 1xx; without this it is false of the code (C99_version_violation for a request with version HTTP/1000.1, which is copied into the status line; C98_violation, C98_codings_violation, and C17 for header values with line breaks)")
here = os.path.dirname(os.path.abspath(__file__))
json.dump({"claims": claims}, open(os.path.join(here, "..", "MANIFEST.json"), "w"), indent=1)
