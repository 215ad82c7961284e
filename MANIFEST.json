{
 "claims": [
  {
   "property": "C01",
   "status": "partial",
   "theorems": [
    "Multipart.C01_false",
    "Multipart.C01_field_bytes_cleanSplit_partial",
    "Multipart.C01_field_bytes_partial",
    "Multipart.C01_leaks",
    "Multipart.C01_leaks_somehow",
    "Multipart.C01_reaches_eof",
    "Multipart.C01_short_data_partial",
    "Multipart.C01_short_partial",
    "Multipart.C01_small_bodies_partial"
   ],
   "note": "False of the code: a CR at the end of one read of the body, followed by LF and the delimiter in the next, is handed out as data (C01_false). Proved: the data come out exactly, or with that CRLF, the latter only for such a split more than the minimum buffer behind the previous delimiter; and EOF is always reached. Exact however the body arrives: short parts with any calls (C01_short_partial), fields of at most 1022 bytes for callers who do not begin with set_min_buf_size (C01_short_data_partial), small bodies (C01_small_bodies_partial). Not a rare case: if the data of a field of at least 1023 bytes arrive in reads that fill the minimum buffer and the last ends with that CR, every caller whose reads have room for all that is buffered gets the CRLF (C01_leaks); every body with such a field can arrive so, in reads of less than twice the minimum buffer (C01_leaks_somehow)."
  },
  {
   "property": "C02",
   "status": "proved",
   "theorems": [
    "Multipart.C02_never_past_delimiter"
   ],
   "note": ""
  },
  {
   "property": "C03",
   "status": "proved",
   "theorems": [
    "Multipart.C03_conservation"
   ],
   "note": ""
  },
  {
   "property": "C04",
   "status": "proved",
   "theorems": [
    "Multipart.C04_error_consumes_nothing",
    "Multipart.C04_error_surfaces"
   ],
   "note": ""
  },
  {
   "property": "C05",
   "status": "proved",
   "theorems": [
    "Multipart.C05_no_panic"
   ],
   "note": ""
  },
  {
   "property": "C06",
   "status": "proved",
   "theorems": [
    "Multipart.C06_terminates"
   ],
   "note": ""
  },
  {
   "property": "C07",
   "status": "partial",
   "theorems": [
    "Multipart.C07_any_partial",
    "Multipart.C07_fails",
    "Multipart.C07_fails_somehow",
    "Multipart.C07_false",
    "Multipart.C07_short_partial",
    "Multipart.C07_skip_partial",
    "Multipart.C07_small_partial",
    "Multipart.C07_stuck"
   ],
   "note": "False of the code: read_entry on an undrained field can fail with UnexpectedEof when a read ends right behind the delimiter (C07_false). Proved: same result and rest of the body, or that error, the latter only for such a split. What follows must be a well-formed part, a part with refused headers, the end or damage: headers larger than the buffer may be refused or not depending on the reads. C07_any_partial: or the body is any in which no header block is too large for the buffer, for tokenizers with Deps.Incremental and Deps.Blocks. C07_stuck: after such an error, calling again fails for ever, but nothing is lost and reading the field to its end helps. C07_small_partial: bodies not longer than the minimum buffer are not affected. C07_short_partial: nor is skipping what fits into it together with the delimiter line. C07_fails, C07_fails_somehow: every longer field can arrive (in reads of its length) so that it cannot be skipped."
  },
  {
   "property": "C08",
   "status": "proved",
   "theorems": [
    "Multipart.C08_end_final"
   ],
   "note": ""
  },
  {
   "property": "C09",
   "status": "proved",
   "theorems": [
    "Multipart.C09_end_is_real",
    "Multipart.C09_truncated_errors"
   ],
   "note": ""
  },
  {
   "property": "C10",
   "status": "proved",
   "theorems": [
    "Multipart.C10_entries_are_parts",
    "Multipart.C10_entry_introduced",
    "Multipart.C10_reads_total"
   ],
   "note": ""
  },
  {
   "property": "C11",
   "status": "partial",
   "theorems": [
    "Multipart.C11_damaged_kind_partial",
    "Multipart.C11_damaged_sticky",
    "Multipart.C11_fails_somehow",
    "Multipart.C11_false",
    "Multipart.C11_small_partial"
   ],
   "note": "The error kind is not always InvalidData: with a split inside the two bytes it can be UnexpectedEof first (C11_false). That error needs more than the minimum buffer up to the end of the delimiter line. Persistence is proved in full. C11_small_partial: bodies not longer than the minimum buffer are not affected. C11_fails_somehow: every body with a damaged delimiter behind a long field can arrive so that it happens."
  },
  {
   "property": "C12",
   "status": "proved",
   "theorems": [
    "Multipart.C12_preamble",
    "Multipart.C12_preamble_epilogue"
   ],
   "note": ""
  },
  {
   "property": "C13",
   "status": "proved",
   "theorems": [
    "Multipart.C13_fill_buf_stable"
   ],
   "note": ""
  },
  {
   "property": "C14",
   "status": "proved",
   "theorems": [
    "Multipart.C14_headers_parse"
   ],
   "note": ""
  },
  {
   "property": "C15",
   "status": "proved",
   "theorems": [
    "Multipart.C15_bad_headers_rejected"
   ],
   "note": ""
  },
  {
   "property": "C16",
   "status": "partial",
   "theorems": [
    "Multipart.C16_continues_partial",
    "Multipart.C16_fails_somehow",
    "Multipart.C16_false",
    "Multipart.C16_small_partial"
   ],
   "note": "False of the code: the defect of C07, here behind a field whose headers were refused (C16_false). Proved: it goes on with the next delimiter (a part, a part which is refused as well, the end or damage), or that error, the latter only for such a split with more than the minimum buffer up to the end of the delimiter line. C16_small_partial: bodies not longer than the minimum buffer are not affected. C16_fails_somehow: every body with a long part with bad headers can arrive so that it happens."
  },
  {
   "property": "C17",
   "status": "proved",
   "theorems": [
    "Multipart.C17_header_lookup",
    "Multipart.C17_required"
   ],
   "note": ""
  },
  {
   "property": "C18",
   "status": "partial",
   "theorems": [
    "Multipart.C18_exact",
    "Multipart.C18_false_order",
    "Multipart.C18_false_semicolon",
    "Multipart.C18_params_partial",
    "Multipart.C18_when"
   ],
   "note": "False of the code: `;` inside a quoted value and the order filename-before-name break the extraction (C18_false_*). Proved for values as the client writes them (C18_params_partial). C18_exact says for every list of headers what is reported instead, C18_when for which quoted names the claim holds."
  },
  {
   "property": "C19",
   "status": "proved",
   "theorems": [
    "Multipart.C19_is_text"
   ],
   "note": ""
  },
  {
   "property": "C20",
   "status": "proved",
   "theorems": [
    "Multipart.C20_foreach_entry",
    "Multipart.C20_sees_parts"
   ],
   "note": ""
  },
  {
   "property": "C21",
   "status": "proved",
   "theorems": [
    "Multipart.C21_from_request"
   ],
   "note": ""
  },
  {
   "property": "C22",
   "status": "proved",
   "theorems": [
    "Multipart.C22_min_buf_size"
   ],
   "note": ""
  },
  {
   "property": "C23",
   "status": "proved",
   "theorems": [
    "Multipart.C23_body",
    "Multipart.C23_no_fields",
    "Multipart.C23_unique"
   ],
   "note": "Success implies the body is the encoding, in call order; C23_no_fields for the empty case."
  },
  {
   "property": "C24",
   "status": "partial",
   "theorems": [
    "Multipart.C24_clean_split_partial",
    "Multipart.C24_false",
    "Multipart.C24_round_trip_partial"
   ],
   "note": "False of the code: names are not escaped by the client, e.g. `a;b` is read back as `a` (C24_false); and the CRLF defect of C01 remains. Proved for representable names, bounded headers and delimiter-free contents, assuming only that the tokenizer reads well-formed header lines (Deps.Tokenizes; shown for refDeps)."
  },
  {
   "property": "C25",
   "status": "proved",
   "theorems": [
    "Multipart.C25_failure",
    "Multipart.C25_outcome",
    "Multipart.C25_short_writes",
    "Multipart.C25_success"
   ],
   "note": ""
  },
  {
   "property": "C26",
   "status": "proved",
   "theorems": [
    "Multipart.C26_content_type"
   ],
   "note": ""
  },
  {
   "property": "C27",
   "status": "proved",
   "theorems": [
    "Multipart.C27_length",
    "Multipart.C27_outcome",
    "Multipart.C27_refused",
    "Multipart.C27_same_body",
    "Multipart.C27_succeeds"
   ],
   "note": ""
  },
  {
   "property": "C28",
   "status": "partial",
   "theorems": [
    "Multipart.C28_chained_partial",
    "Multipart.C28_false",
    "Multipart.C28_goes_on"
   ],
   "note": "False of the code: a failed call leaves no trace, later calls write and send() succeeds (C28_false). Proved: chained by `?`, the first error ends everything and is returned. In general: C28_goes_on."
  },
  {
   "property": "C29",
   "status": "proved",
   "theorems": [
    "Multipart.C29_all_occur",
    "Multipart.C29_boundary",
    "Multipart.C29_safe"
   ],
   "note": ""
  },
  {
   "property": "C30",
   "status": "proved",
   "theorems": [
    "Multipart.C30_read_sizes"
   ],
   "note": ""
  },
  {
   "property": "C31",
   "status": "partial",
   "theorems": [
    "Multipart.C31_exact_partial",
    "Multipart.C31_false",
    "Multipart.C31_when",
    "Multipart.C31_without_texts_partial"
   ],
   "note": "False of the code: text fields are not counted (C31_false). Proved: what the length is; exact without text fields. Otherwise it is too small: exact if and only if no text field was added (C31_when)."
  },
  {
   "property": "C32",
   "status": "proved",
   "theorems": [
    "Multipart.C32_all_fields",
    "Multipart.C32_permutation"
   ],
   "note": ""
  },
  {
   "property": "C33",
   "status": "partial",
   "theorems": [
    "Multipart.C33_boundary_partial",
    "Multipart.C33_false",
    "Multipart.C33_send_again_panics"
   ],
   "note": "False of the code: panics if there are no fields (C33_false); a request sent again has no fields and panics. Proved for at least one field, at any time."
  },
  {
   "property": "C34",
   "status": "partial",
   "theorems": [
    "Multipart.C34_clean_split_partial",
    "Multipart.C34_false",
    "Multipart.C34_no_fields",
    "Multipart.C34_round_trip_partial"
   ],
   "note": "False of the code for empty requests (and names as in C24). Proved for at least one field under the restrictions of C24."
  },
  {
   "property": "C35",
   "status": "partial",
   "theorems": [
    "Multipart.C35_false",
    "Multipart.C35_loses",
    "Multipart.C35_pieces_partial",
    "Multipart.C35_send_false",
    "Multipart.C35_single_bytes_partial"
   ],
   "note": "False of the code: bytes copied before the failure in the same call are lost, and send() then sends a damaged body and succeeds. Proved: what exactly is lost; nothing with one-byte buffers. In general: if the last file or stream that was added fails once, a first read with room for the bytes before the failure loses all of them, the whole beginning of the body (C35_loses)."
  },
  {
   "property": "C36",
   "status": "proved",
   "theorems": [
    "Multipart.C36_named"
   ],
   "note": ""
  },
  {
   "property": "C37",
   "status": "proved",
   "theorems": [
    "Multipart.C37_full_complete",
    "Multipart.C37_full_data"
   ],
   "note": ""
  },
  {
   "property": "C38",
   "status": "partial",
   "theorems": [
    "Multipart.C38_exceeds",
    "Multipart.C38_false",
    "Multipart.C38_requests_exceed",
    "Multipart.C38_size_limit_partial"
   ],
   "note": "False of the code: the file phase counts from zero, so up to size_limit + min(size_limit, memory_threshold) bytes are saved (C38_false). In general: C38_exceeds. Whole requests with such fields are saved fully, too (C38_requests_exceed)."
  },
  {
   "property": "C39",
   "status": "proved",
   "theorems": [
    "Multipart.C39_memory_bound"
   ],
   "note": ""
  },
  {
   "property": "C40",
   "status": "partial",
   "theorems": [
    "Multipart.C40_empty",
    "Multipart.C40_false",
    "Multipart.C40_threshold_zero_partial"
   ],
   "note": "False of the code for empty fields (C40_false); proved for all others. Empty fields are never saved in a file (C40_empty)."
  },
  {
   "property": "C41",
   "status": "partial",
   "theorems": [
    "Multipart.C41_creates",
    "Multipart.C41_false",
    "Multipart.C41_no_disk_partial",
    "Multipart.C41_otherwise"
   ],
   "note": "False of the code: a field longer than size_limit still creates a file (C41_false); proved for fields within the limit. In general: C41_creates, C41_otherwise."
  },
  {
   "property": "C42",
   "status": "proved",
   "theorems": [
    "Multipart.C42_text_exact"
   ],
   "note": ""
  },
  {
   "property": "C43",
   "status": "partial",
   "theorems": [
    "Multipart.C43_false",
    "Multipart.C43_force_text_partial",
    "Multipart.C43_rejects_partial",
    "Multipart.C43_saved_instead"
   ],
   "note": "False of the code: invalid bytes are counted repeatedly until the limit is hit and the field is then saved as bytes (C43_false). Proved: no text result is invalid; a UTF-8 stop is final. Proved also where the line is: if four bytes or more follow the longest valid start of the data, the field is saved fully although text is forced (C43_saved_instead); if one to three bytes follow it, memory leaves room for one byte per 169 and three more, and no read ends inside the CRLF before a delimiter (or the field has at most 1022 bytes), the field is rejected (C43_rejects_partial). Missing for the full claim: data with four or more bytes from the first invalid one on."
  },
  {
   "property": "C44",
   "status": "partial",
   "theorems": [
    "Multipart.C44_diverges",
    "Multipart.C44_false",
    "Multipart.C44_terminates_partial"
   ],
   "note": "False of the code: with both limits u64::MAX and data that are not UTF-8 the loop never ends (C44_diverges, C44_false). Proved in all other cases; never panics."
  },
  {
   "property": "C45",
   "status": "proved",
   "theorems": [
    "Multipart.C45_file_size"
   ],
   "note": ""
  },
  {
   "property": "C46",
   "status": "proved",
   "theorems": [
    "Multipart.C46_no_overwrite"
   ],
   "note": ""
  },
  {
   "property": "C47",
   "status": "proved",
   "theorems": [
    "Multipart.C47_write_to"
   ],
   "note": ""
  },
  {
   "property": "C48",
   "status": "partial",
   "theorems": [
    "Multipart.C48_false",
    "Multipart.C48_false_partial_result",
    "Multipart.C48_loses",
    "Multipart.C48_no_loss_partial"
   ],
   "note": "False of the code: bytes already in memory are lost when the file cannot be created or the first writes fail (C48_false, C48_false_partial_result). Proved in all other cases. C48_loses: whenever the file cannot be opened, what was in memory is lost, at least memory_threshold less the buffer and one read."
  },
  {
   "property": "C49",
   "status": "proved",
   "theorems": [
    "Multipart.C49_count_limit"
   ],
   "note": ""
  },
  {
   "property": "C50",
   "status": "partial",
   "theorems": [
    "Multipart.C50_below_limit_partial",
    "Multipart.C50_false",
    "Multipart.C50_never_full",
    "Multipart.C50_stopped"
   ],
   "note": "False of the code: the limit is checked after reading the next entry, so a request with exactly count_limit fields ends in Partial(CountLimit) (C50_false). Proved: with fewer fields the limit is never reported; and the exact bound of a full save (C50_never_full); and that a request with at least count_limit parts, otherwise within the limits, is stopped with exactly its first count_limit parts saved (C50_stopped)."
  },
  {
   "property": "C51",
   "status": "partial",
   "theorems": [
    "Multipart.C51_at_end_partial",
    "Multipart.C51_false",
    "Multipart.C51_resume_partial"
   ],
   "note": "False of the code: the entry read before the limit was noticed is dropped (C51_false). Proved: all other fields are saved in order, only that one is missing; and nothing is missing if the request has exactly count_limit fields."
  },
  {
   "property": "C52",
   "status": "proved",
   "theorems": [
    "Multipart.C52_grouped",
    "Multipart.C52_recount"
   ],
   "note": ""
  },
  {
   "property": "C53",
   "status": "proved",
   "theorems": [
    "Multipart.C53_all_read",
    "Multipart.C53_full_has_every_field"
   ],
   "note": "The data of a part may have the CRLF of C01 appended, but only if they have at least 1023 bytes (SavedOk)."
  },
  {
   "property": "C54",
   "status": "proved",
   "theorems": [
    "Multipart.C54_readable"
   ],
   "note": ""
  },
  {
   "property": "C55",
   "status": "partial",
   "theorems": [
    "Multipart.C55_conversions",
    "Multipart.C55_entries",
    "Multipart.C55_false",
    "Multipart.C55_strict_partial"
   ],
   "note": "False of the code for into_result_strict: Ok for partial results by SizeLimit, CountLimit or Utf8Error (C55_false). Proved for the other conversions in full."
  },
  {
   "property": "C56",
   "status": "proved",
   "theorems": [
    "Multipart.C56_keeps_unfinished"
   ],
   "note": ""
  },
  {
   "property": "C57",
   "status": "proved",
   "theorems": [
    "Multipart.C57_is_temporary",
    "Multipart.C57_lifecycle"
   ],
   "note": ""
  },
  {
   "property": "C58",
   "status": "partial",
   "theorems": [
    "Multipart.C58_false",
    "Multipart.C58_filename_partial",
    "Multipart.C58_never"
   ],
   "note": "False of the code: set_file_name replaces the last component of the temporary directory (C58_false). Proved: name and parent as they are. No file is ever saved as documented (C58_never)."
  },
  {
   "property": "C59",
   "status": "partial",
   "theorems": [
    "Multipart.C59_limits",
    "Multipart.C59_only_full",
    "Multipart.C59_oversize_false",
    "Multipart.C59_oversize_partial",
    "Multipart.C59_passes",
    "Multipart.C59_returns",
    "Multipart.C59_too_large"
   ],
   "note": "The statement is proved (returns, never panics, entries only for a fully saved request, what the two limit errors mean). The title is false of the code for sizes: a field can be larger than file_size_limit and pass (C59_oversize_false, as in C38); C59_oversize_partial bounds by how much. C59_too_large: a field longer than the limit and 10 KiB together is always rejected, with the error that names it. With more than 10 KiB as file_size_limit, every request whose fields are too long by less than 10 KiB minus the minimum buffer and the largest read is accepted (C59_passes)."
  },
  {
   "property": "C60",
   "status": "partial",
   "theorems": [
    "Multipart.C60_entries",
    "Multipart.C60_false",
    "Multipart.C60_never_returns",
    "Multipart.C60_no_panic",
    "Multipart.C60_returns_partial",
    "Multipart.C60_returns_parts_partial"
   ],
   "note": "False of the code: once file_count_limit fields are saved, read_request_lenient saves again and again and never returns; this happens with every request that has so many parts, if nothing else stops it (C60_never_returns). Proved: it returns for requests with fewer parts; it never panics; what the returned entries are."
  },
  {
   "property": "C61",
   "status": "proved",
   "theorems": [
    "Multipart.C61_hyper",
    "Multipart.C61_iron"
   ],
   "note": "Under the contract of the mime 0.2 parser (HMime.Parsed)."
  },
  {
   "property": "C62",
   "status": "partial",
   "theorems": [
    "Multipart.C62_nickel_false",
    "Multipart.C62_nickel_partial",
    "Multipart.C62_tiny_false",
    "Multipart.C62_tiny_partial",
    "Multipart.C62_tiny_quotes_false"
   ],
   "note": "False of the code: Nickel and tiny_http check less than claimed (see the three _false theorems). Proved: what they do check, and which value they return."
  },
  {
   "property": "C63",
   "status": "proved",
   "theorems": [
    "Multipart.C63_all_read",
    "Multipart.C63_connection",
    "Multipart.C63_is_sink",
    "Multipart.C63_read",
    "Multipart.C63_reads",
    "Multipart.C63_write",
    "Multipart.C63_write_all"
   ],
   "note": ""
  },
  {
   "property": "C64",
   "status": "partial",
   "theorems": [
    "Multipart.C64_arrives_partial",
    "Multipart.C64_false",
    "Multipart.C64_returns",
    "Multipart.C64_when",
    "Multipart.C64_whole_partial"
   ],
   "note": "False of the code: a short write to stdout makes the rest arrive twice in the inner writer. Proved: stdout gets everything once; what the inner writer gets; the claim if stdout takes every buffer whole. For one buffer the claim holds exactly if the first write to stdout takes all of it (C64_when)."
  },
  {
   "property": "C65",
   "status": "proved",
   "theorems": [
    "Multipart.C65_handle_usable",
    "Multipart.C65_inplace_result"
   ],
   "note": ""
  },
  {
   "property": "C66",
   "status": "partial",
   "theorems": [
    "Multipart.C66_always",
    "Multipart.C66_false",
    "Multipart.C66_truncated_reported_partial"
   ],
   "note": "False of the code: the end of the body ends the field like a delimiter (C66_false). Proved: the next read_entry always reports an error. In general: C66_always."
  },
  {
   "property": "C67",
   "status": "partial",
   "theorems": [
    "Multipart.C67_false",
    "Multipart.C67_loses",
    "Multipart.C67_pieces_partial",
    "Multipart.C67_returns",
    "Multipart.C67_sent_partial",
    "Multipart.C67_succeeds"
   ],
   "note": "False of the code: if a read of a stream is interrupted, send() can return Ok after sending only pieces of the body (C67_false, the defect of C35). Proved: it always returns; it succeeds if nothing fails; on success without interruptions exactly the body was sent, and with them the body without some pieces shorter than the copy buffer (C67_pieces_partial). In general: one interrupted read of the last file or stream, within the first copy buffer, and send() succeeds with the beginning of the request missing (C67_loses)."
  },
  {
   "property": "C68",
   "status": "partial",
   "theorems": [
    "Multipart.C68_false",
    "Multipart.C68_message",
    "Multipart.C68_named_partial"
   ],
   "note": "False of the code: a failing stream field gives an error without its name. Proved: named errors are right; the causes of unnamed ones. C68_message: the texts of the errors."
  },
  {
   "property": "C69",
   "status": "proved",
   "theorems": [
    "Multipart.C69_hyper_client"
   ],
   "note": "Under the contract SentAs for printing and parsing a Content-Type with mime 0.2."
  },
  {
   "property": "C70",
   "status": "proved",
   "theorems": [
    "Multipart.C70_nickel",
    "Multipart.C70_switch",
    "Multipart.C70_tiny"
   ],
   "note": ""
  },
  {
   "property": "C71",
   "status": "proved",
   "theorems": [
    "Multipart.C71_open_stream",
    "Multipart.C71_received",
    "Multipart.C71_round_trip",
    "Multipart.C71_sent"
   ],
   "note": "The last step is under the restrictions of C24."
  },
  {
   "property": "C72",
   "status": "proved",
   "theorems": [
    "Multipart.C72_returns"
   ],
   "note": ""
  },
  {
   "property": "C73",
   "status": "proved",
   "theorems": [
    "Multipart.C73_no_leftovers"
   ],
   "note": "Creating and deleting the temporary directory are parameters (tempfile crate)."
  },
  {
   "property": "C74",
   "status": "proved",
   "theorems": [
    "Multipart.C74_extension",
    "Multipart.C74_passes"
   ],
   "note": "Under the contract of the mime 0.2 parser (HMime.Parsed)."
  },
  {
   "property": "C75",
   "status": "proved",
   "theorems": [
    "Multipart.C75_forced_text",
    "Multipart.C75_save_succeeds"
   ],
   "note": "If text is forced, the field has to be valid UTF-8 (C75_forced_text; C43 says what happens otherwise). Unlimited text reads are excluded (C44)."
  },
  {
   "property": "C76",
   "status": "partial",
   "theorems": [
    "Multipart.C76_false",
    "Multipart.C76_otherwise",
    "Multipart.C76_somehow",
    "Multipart.C76_text_saved_partial"
   ],
   "note": "False of the code: an incomplete character at the end of what is buffered is counted twice, so a text of exactly memory_threshold bytes may be saved as bytes (C76_false). Proved if the limits leave room for one more byte per 169 bytes. In general: if what fill_buf shows first ends inside a character and the limits have no room for that piece, the text is saved as bytes (C76_otherwise), and every body with a character that is not ASCII behind the first 1024 bytes of a text can arrive so (C76_somehow)."
  },
  {
   "property": "C77",
   "status": "proved",
   "theorems": [
    "Multipart.C77_leaks",
    "Multipart.C77_request_succeeds"
   ],
   "note": "If text is forced, the text parts have to be valid UTF-8 (C43). Unlimited text reads are excluded (C44). The data of a part may have the CRLF of C01 appended, but only if they have at least 1023 bytes; for every body with a part of at least 1023 bytes there is a way to arrive with which they do (C77_leaks)."
  },
  {
   "property": "C78",
   "status": "proved",
   "theorems": [
    "Multipart.C78_lazy_upload",
    "Multipart.C78_leaks",
    "Multipart.C78_upload"
   ],
   "note": "Restricted to fields that can be represented (Sendable; see C24 for the others), to sends that succeed, and for the lazy client to requests with at least one field (see C34). The contents may have the CRLF of C01 appended; for every upload with a field of at least 1023 bytes there is a way to arrive with which they do (C78_leaks)."
  },
  {
   "property": "C79",
   "status": "proved",
   "theorems": [
    "Multipart.C79_consume_beyond",
    "Multipart.C79_lost",
    "Multipart.C79_readable",
    "Multipart.C79_reads_back"
   ],
   "note": "BufReader is modelled with its 8 KiB buffer; opening a file and the pieces in which it delivers are parameters."
  },
  {
   "property": "C80",
   "status": "proved",
   "theorems": [
    "Multipart.C80_output"
   ],
   "note": "The Debug formats of names, filenames and content types are parameters (std); print_debug (stdout) is write_debug with a locked stdout."
  },
  {
   "property": "C81",
   "status": "proved",
   "theorems": [
    "Multipart.C81_field_data",
    "Multipart.C81_read_to_end",
    "Multipart.C81_read_to_string",
    "Multipart.C81_succeeds"
   ],
   "note": "read_to_end and read_to_string of std are modelled from their documentation; the data of a field of at least 1023 bytes may have the CRLF of C01 appended."
  },
  {
   "property": "C82",
   "status": "proved",
   "theorems": [
    "Multipart.C82_conversions",
    "Multipart.C82_next_entry",
    "Multipart.C82_sees_parts",
    "Multipart.C82_total"
   ],
   "note": "The data may have the CRLF of C01 appended."
  },
  {
   "property": "C83",
   "status": "proved",
   "theorems": [
    "Multipart.C83_header_errors",
    "Multipart.C83_rejected"
   ],
   "note": "The tokenizer (httparse) and the MIME parser are parameters; the largest header block that is surely read is bounded as in C14."
  },
  {
   "property": "C84",
   "status": "proved",
   "theorems": [
    "Multipart.C84_accepts",
    "Multipart.C84_upload"
   ],
   "note": "Under the contract of the mime 0.2 parser (HMime.Parsed, SentAs). The data of a field of at least 1023 bytes may have the CRLF of C01 appended. Creating the temporary directory is a parameter (tempfile crate)."
  },
  {
   "property": "C85",
   "status": "partial",
   "theorems": [
    "Multipart.C85_closed",
    "Multipart.C85_error",
    "Multipart.C85_false",
    "Multipart.C85_loses",
    "Multipart.C85_retry_partial",
    "Multipart.C85_small_partial",
    "Multipart.C85_total"
   ],
   "note": "False of the code: read_headers turns every error of the stream into \"invalid data\", after the delimiter line has been consumed, so that a single interrupted read loses a part (C85_false). Proved: an error that is reported as such loses nothing; a retrying caller gets all parts and the right end, or \"invalid data\" behind a correct proper prefix of the parts, the latter only if the stream has failed; and never retries for ever. Assumes that the stream itself does not fail with one of read_entry's own two kinds of error. C85_small_partial: for bodies shorter than the minimum buffer retrying always works. C85_loses: every body of more than the minimum buffer can arrive, with one interrupted read, so that its first part is lost."
  },
  {
   "property": "C86",
   "status": "proved",
   "theorems": [
    "Multipart.C86_any_client",
    "Multipart.C86_any_lazy",
    "Multipart.C86_any_sized",
    "Multipart.C86_client",
    "Multipart.C86_cut",
    "Multipart.C86_failed_client",
    "Multipart.C86_lazy_client",
    "Multipart.C86_never_full"
   ],
   "note": "Assumes of the tokenizer also that a complete header block stays complete whatever follows it (Deps.Incremental; shown for refDeps). The data of complete parts may have the CRLF of C01 appended. That the piece of the next part is read as if it were a whole field is the finding C66; its end is not marked, but the next read_entry fails. C86_any_client: for every outcome of a plain request, also with files that cannot be opened and streams that fail, and any part of it that arrives. C86_any_sized: the same for sized requests. C86_any_lazy: the same for lazy requests whose reads are not interrupted."
  },
  {
   "property": "C87",
   "status": "partial",
   "theorems": [
    "Multipart.C87_arrives_partial",
    "Multipart.C87_empty_panics",
    "Multipart.C87_failed",
    "Multipart.C87_false",
    "Multipart.C87_handed",
    "Multipart.C87_plain",
    "Multipart.C87_texts_cut_off"
   ],
   "note": "False of the code: the announced length does not count text fields (C31), so that a request with text fields and without a stream is always cut off (C87_texts_cut_off, C87_false); and without fields client_request panics (C87_empty_panics, as C33). Proved for all other requests, with the restrictions of C24 on names. Hyper's send is outside the model; OnWire is the rule of HTTP that a server reads as many bytes as were announced."
  },
  {
   "property": "C88",
   "status": "partial",
   "theorems": [
    "Multipart.C88_created_partial",
    "Multipart.C88_false",
    "Multipart.C88_no_directory",
    "Multipart.C88_temp",
    "Multipart.C88_temp_dropped",
    "Multipart.C88_with_dir"
   ],
   "note": "False of the code in one point: with_dir only creates the directory above the given one; the given one is created only when a field is written to a file, so that after a request that fits in memory it does not exist (C88_false, C88_created_partial). The rest is proved: C88_with_dir, C88_temp, C88_temp_dropped, C88_no_directory."
  },
  {
   "property": "C89",
   "status": "partial",
   "theorems": [
    "Multipart.C89_false",
    "Multipart.C89_leaves_memory",
    "Multipart.C89_max",
    "Multipart.C89_memory_partial",
    "Multipart.C89_no_size_limit",
    "Multipart.C89_request",
    "Multipart.C89_saves_all"
   ],
   "note": "False of the code in one point: with memory_threshold(u64::MAX) a field longer than size_limit is still written to a file (C89_false); proved if the size limit is cleared or the field fits (C89_memory_partial). The rest is proved. Bodies are assumed to be shorter than 2^32-1 bytes where fields are counted, and no longer than u64::MAX otherwise. C89_leaves_memory: so are nearly all fields longer than size_limit."
  },
  {
   "property": "C90",
   "status": "proved",
   "theorems": [
    "Multipart.C90_builder",
    "Multipart.C90_intercept",
    "Multipart.C90_intercept_saves",
    "Multipart.C90_open_options",
    "Multipart.C90_write"
   ],
   "note": "Opening a file only for reading is not modelled; it cannot happen, because the write flag is always set."
  },
  {
   "property": "C91",
   "status": "partial",
   "theorems": [
    "Multipart.C91_accepts_partial",
    "Multipart.C91_false",
    "Multipart.C91_intercept",
    "Multipart.C91_missing_dir",
    "Multipart.C91_temp",
    "Multipart.C91_temp_with_prefix"
   ],
   "note": "False of the code in one point: temp_dir_path is not created; if it does not exist, every multipart request is refused with NotFound (C91_missing_dir, C91_false). tempfile is outside the crate; TempEnv is what its documentation promises. The rest is proved, acceptance for directories that exist (C91_accepts_partial)."
  },
  {
   "property": "C92",
   "status": "proved",
   "theorems": [
    "Multipart.C92_lazy",
    "Multipart.C92_plain",
    "Multipart.C92_sized"
   ],
   "note": "Under the restrictions of C24 on names and data. Lazy requests with text fields and no stream announce too short a length (C87)."
  },
  {
   "property": "C93",
   "status": "partial",
   "theorems": [
    "Multipart.C93_differs",
    "Multipart.C93_exact_partial",
    "Multipart.C93_false",
    "Multipart.C93_lazy_round_trip_partial",
    "Multipart.C93_reads_partial",
    "Multipart.C93_round_trip_partial",
    "Multipart.C93_same_partial",
    "Multipart.C93_saved_partial",
    "Multipart.C93_session_partial"
   ],
   "note": "False of the code for bodies larger than the minimum buffer (C93_false: the CRLF of C01). Proved for all bodies up to that size, where the exceptions of C01, C07, C10, C11 and C24 therefore disappear. Every body with a field as long as the minimum buffer can arrive in two ways of which different data come out (C93_differs)."
  },
  {
   "property": "C94",
   "status": "proved",
   "theorems": [
    "Multipart.C94_reasons",
    "Multipart.C94_small"
   ],
   "note": "The bounds count the delimiter lines: b.length + 4 bytes each."
  },
  {
   "property": "C95",
   "status": "partial",
   "theorems": [
    "Multipart.C95_crash",
    "Multipart.C95_false",
    "Multipart.C95_hyper",
    "Multipart.C95_iron_partial",
    "Multipart.C95_nickel",
    "Multipart.C95_rocket",
    "Multipart.C95_tiny_partial",
    "Multipart.C95_uploads"
   ],
   "note": "False of the code: the examples of tiny_http and Iron call `unwrap_err` on the reason of a partial result, with the comment that they set no limits; but the default limits (8 MiB, 256 fields) apply, and `unwrap_err` panics for them. Every complete request with at least 256 ordinary parts makes both panic (C95_crash, C95_false); for tiny_http this ends the server. Proved: Nickel, Hyper and Rocket answer every request; tiny_http and Iron every request with a small body; and all five answer every upload within the limits with the contents of its fields (C95_uploads)."
  },
  {
   "property": "C96",
   "status": "proved",
   "theorems": [
    "Multipart.C96_fuzz"
   ],
   "note": "The target was written for an earlier version of the crate, in which only non-text fields were read; which fields are read is left open in the model. Holds because errors of the mock request do not occur."
  },
  {
   "property": "C97",
   "status": "partial",
   "theorems": [
    "Multipart.C97_fails_somehow",
    "Multipart.C97_false",
    "Multipart.C97_names_partial",
    "Multipart.C97_returns",
    "Multipart.C97_short_partial",
    "Multipart.C97_small_partial"
   ],
   "note": "False of the code: `read_entry` on a field that was not read can fail with UnexpectedEof (C07), which read_file unwraps (C97_false). Proved: otherwise all names are printed, and when that happens a read ended directly behind the delimiter of a delimiter line or one byte later, and the last field whose name was printed does not fit into the minimum buffer together with its delimiter line (C97_names_partial); never if there is no such field (C97_short_partial). Every file with such a field may be read in pieces with which it happens (C97_fails_somehow)."
  },
  {
   "property": "C98",
   "status": "proved",
   "theorems": [
    "Multipart.C98_body",
    "Multipart.C98_files",
    "Multipart.C98_memory"
   ],
   "note": "The documentation says that count_limit * memory_threshold tunes the memory of a request \"roughly\"; for the contents of fields the bound is exact (names, headers and the reader's buffer come on top). The bound of the file sizes is that of C38."
  },
  {
   "property": "C99",
   "status": "proved",
   "theorems": [
    "Multipart.C99_do_test",
    "Multipart.C99_pass_means",
    "Multipart.C99_small_bodies",
    "Multipart.C99_tests_pass"
   ],
   "note": "The three types the tests use are assumed to parse as themselves. The tests send no body longer than 994 bytes, so they can not show the defects behind C01, C07, C93 and C31."
  },
  {
   "property": "C100",
   "status": "proved",
   "theorems": [
    "Multipart.C100_entries",
    "Multipart.C100_field",
    "Multipart.C100_lazy_round_trip",
    "Multipart.C100_round_trip",
    "Multipart.C100_sharp",
    "Multipart.C100_total"
   ],
   "note": "A positive counterpart of C01: the CR of a delimiter line is handed out only by a read that takes the whole buffer, which has at least entryBuf bytes then. C100_sharp: with reads of 1024 bytes it is false."
  },
  {
   "property": "C101",
   "status": "proved",
   "theorems": [
    "Multipart.C101_builder",
    "Multipart.C101_client",
    "Multipart.C101_no_file"
   ],
   "note": "hyper_client and hyper_reqbuilder against all server integrations and the example servers, for every generated boundary that does not occur in the file; C101_no_file: both panic without the file."
  },
  {
   "property": "C102",
   "status": "proved",
   "theorems": [
    "Multipart.C102_form_test"
   ],
   "note": "bin/form_test, for every request."
  },
  {
   "property": "C103",
   "status": "proved",
   "theorems": [
    "Multipart.C103_arrives",
    "Multipart.C103_count",
    "Multipart.C103_few",
    "Multipart.C103_uniform"
   ],
   "note": "C103_count, C103_uniform: number and equal likelihood of boundaries; C103_few, C103_arrives: all but at most as many as the request has bytes are fine."
  },
  {
   "property": "C104",
   "status": "partial",
   "theorems": [
    "Multipart.C104_cut_off",
    "Multipart.C104_false",
    "Multipart.C104_no_directory",
    "Multipart.C104_not_multipart",
    "Multipart.C104_refused_partial"
   ],
   "note": "C104_false: Nickel answers half of a field with 200. C104_refused_partial: tiny_http and Iron refuse all uploads that are cut off. C104_not_multipart, C104_no_directory, C104_cut_off: exact answers of all five."
  },
  {
   "property": "C105",
   "status": "proved",
   "theorems": [
    "Multipart.C105_cut",
    "Multipart.C105_saved_as_read"
   ],
   "note": "C105_saved_as_read for every body; C105_cut what is saved of one that is cut off."
  },
  {
   "property": "C106",
   "status": "partial",
   "theorems": [
    "Multipart.C106_answers",
    "Multipart.C106_clean",
    "Multipart.C106_false",
    "Multipart.C106_others",
    "Multipart.C106_shown_partial",
    "Multipart.C106_size_text",
    "Multipart.C106_status",
    "Multipart.C106_too_large"
   ],
   "note": "C106_false: the smallest upload is answered with 404; C106_status: so is everything. C106_shown_partial, C106_others, C106_size_text: the exact texts. C106_answers, C106_clean: always an answer, and nothing is left. C106_too_large: the answer to a field that is too long."
  },
  {
   "property": "C107",
   "status": "partial",
   "theorems": [
    "Multipart.C107_false",
    "Multipart.C107_min_buffer_partial",
    "Multipart.C107_no_read",
    "Multipart.C107_sharp"
   ],
   "note": "C107_false: fewer bytes when a read ends in what may be a delimiter. C107_min_buffer_partial: at most b.length + 3 bytes fewer; C107_sharp: sharp. C107_no_read: no read while enough is buffered."
  },
  {
   "property": "C108",
   "status": "proved",
   "theorems": [
    "Multipart.C108_examples",
    "Multipart.C108_too_large"
   ],
   "note": "C108_too_large: result, reason, what is saved, and the partial field; C108_examples: what the example servers make of it."
  },
  {
   "property": "C109",
   "status": "proved",
   "theorems": [
    "Multipart.C109_disconnected",
    "Multipart.C109_not_shown"
   ],
   "note": "C109_not_shown: a saved upload that cannot be shown, for each of the five examples; C109_disconnected: other panics of the Hyper example."
  },
  {
   "property": "C110",
   "status": "partial",
   "theorems": [
    "Multipart.C110_accepts_partial",
    "Multipart.C110_fails_somehow",
    "Multipart.C110_false",
    "Multipart.C110_passes_partial"
   ],
   "note": "False of the code: the rest of a truncated field must be skipped, which fails if a read of the body ends in the delimiter line (C07), and the request is rejected (C110_false). C110_accepts_partial, C110_passes_partial: it holds for all other ways to divide the body into reads. And for all ways to divide it if all fields, with their delimiter lines, fit into the minimum buffer. C110_fails_somehow: every request with a long field over the limit can arrive so that it is rejected."
  },
  {
   "property": "C111",
   "status": "proved",
   "theorems": [
    "Multipart.C111_always",
    "Multipart.C111_complaints",
    "Multipart.C111_exact",
    "Multipart.C111_message",
    "Multipart.C111_unfinished"
   ],
   "note": "C111_complaints: the text for every list of headers, in both directions. C111_message: the message is true, in every state and for every stream. C111_exact, C111_unfinished: it is exactly the expected one. C111_always: there is a message for every such error. The text of the tokenizer's error is a parameter."
  },
  {
   "property": "C112",
   "status": "partial",
   "theorems": [
    "Multipart.C112_false",
    "Multipart.C112_false_contents",
    "Multipart.C112_false_filename",
    "Multipart.C112_false_type",
    "Multipart.C112_lazy_no_more_parts",
    "Multipart.C112_lazy_one_line_partial",
    "Multipart.C112_no_more_parts",
    "Multipart.C112_no_semicolon_partial",
    "Multipart.C112_one_line_partial"
   ],
   "note": "False of the code, which writes names as they are: a name gives a text field a filename (C112_false_filename), other contents (C112_false_contents) or a content type (C112_false_type). C112_one_line_partial, C112_lazy_one_line_partial: for text on one line contents and content type are untouched, and the names are what stands in the line. C112_no_semicolon_partial: without `;` the names are as given up to quotes at their ends. C112_no_more_parts, C112_lazy_no_more_parts: for any names no entry is added and none contains data of another field."
  },
  {
   "property": "C113",
   "status": "partial",
   "theorems": [
    "Multipart.C113_exact",
    "Multipart.C113_false",
    "Multipart.C113_holds_partial",
    "Multipart.C113_others",
    "Multipart.C113_refused"
   ],
   "note": "False of the code: with options that open an existing file without truncating it, its old contents stay behind the data (or in front of it, with append), and the size reported is that of the data only (C113_false). C113_exact: what the file holds, for all options. C113_holds_partial: the claim holds with create_new, with truncate, or for a new file. C113_others, C113_refused: other files, and options that do not allow to open the file."
  },
  {
   "property": "C114",
   "status": "proved",
   "theorems": [
    "Multipart.C114_buffer",
    "Multipart.C114_read_ahead",
    "Multipart.C114_saving",
    "Multipart.C114_sharp"
   ],
   "note": "entryBuf is max(1024, 2 * delimiter). C114_saving also covers the states in the middle of a save: with less fuel it ends there. The buffer's bytes are meant, not its capacity (see the contract of buf_redux)."
  },
  {
   "property": "C115",
   "status": "proved",
   "theorems": [
    "Multipart.C115_few",
    "Multipart.C115_names",
    "Multipart.C115_saved",
    "Multipart.C115_taken",
    "Multipart.C115_uniform"
   ],
   "note": "The generator is a sequence of 32-bit random numbers (see DESIGN.md); C115_uniform is a bijection between the sequences that give one list of names and those that give another, so all are equally likely. C115_few counts the lists of names that clash, C115_saved is the save with any other list. C115_taken: no second name is tried."
  },
  {
   "property": "C116",
   "status": "partial",
   "theorems": [
    "Multipart.C116_false",
    "Multipart.C116_read_partial",
    "Multipart.C116_saved_partial"
   ],
   "note": "False of the code: of the filename `a;b.txt` it reads `a` (C116_false). C116_read_partial, C116_saved_partial: what holds, with up to four header lines of bounded size per part (the limit of the tokenizer) and without the delimiter inside of lines; the disposition may have any form that the server understands (Says), among them the usual one (formValue_says). The CRLF defect of C01 remains."
  },
  {
   "property": "C117",
   "status": "proved",
   "theorems": [
    "Multipart.C117_bodies",
    "Multipart.C117_headers",
    "Multipart.C117_order"
   ],
   "note": "C117_headers is about the parser; C117_order says that permutations are a special case; C117_bodies is about whole bodies."
  },
  {
   "property": "C118",
   "status": "partial",
   "theorems": [
    "Multipart.C118_determines_partial",
    "Multipart.C118_false",
    "Multipart.C118_lazy_partial"
   ],
   "note": "False of the code: the client writes names as they are, and a name with the end of a header block in it gives the same bytes as another name with other data (C118_false). C118_determines_partial, C118_lazy_partial: it holds if names contain no `;` and names, filenames and types no CR."
  },
  {
   "property": "C119",
   "status": "proved",
   "theorems": [
    "Multipart.C119_all_saved",
    "Multipart.C119_files_kept",
    "Multipart.C119_kept"
   ],
   "note": "C119_files_kept and C119_kept: files and saved data stay as they are through any later steps of the server. C119_all_saved: all of any number of requests are saved and are there at the end. Assumes new random names (C115 says how likely that is) and create_new, the default."
  },
  {
   "property": "C120",
   "status": "proved",
   "theorems": [
    "Multipart.C120_never_full",
    "Multipart.C120_reads",
    "Multipart.C120_saves",
    "Multipart.C120_which"
   ],
   "note": "Proved. `Parts` has an ending for a part whose headers are refused (`NoFieldHeaders`: whatever is seen of the part in front of the next delimiter does not parse as the headers of a field). Parts without a body are among them (C126). C120_which says which parts these are without the parser of the model."
  },
  {
   "property": "C121",
   "status": "proved",
   "theorems": [
    "Multipart.C121_refused",
    "Multipart.C121_saves"
   ],
   "note": "Proved, under the assumption `Deps.OnlyFour` about httparse (an error if there are more headers than the array has room for), which the reference tokenizer meets."
  },
  {
   "property": "C122",
   "status": "partial",
   "theorems": [
    "Multipart.C122_ends_partial",
    "Multipart.C122_false",
    "Multipart.C122_reads_partial"
   ],
   "note": "False of the code: the defect of C07, behind a long part with bad headers (C122_false). Proved in full, for reading and for getting to the end, if no read of the body ends in a delimiter line, or if every part with bad headers fits in the minimum buffer up to the end of the next delimiter line. A damaged delimiter line is not covered: there InvalidData is reported for ever (C11)."
  },
  {
   "property": "C123",
   "status": "proved",
   "theorems": [
    "Multipart.C123_forward",
    "Multipart.C123_lazy",
    "Multipart.C123_names",
    "Multipart.C123_proxy"
   ],
   "note": "C123_names: what the names and types that are read cannot contain. C123_forward: what is read on the other side, up to the CRLF of C01 in an unfortunate split. C123_lazy: the same with the lazy client, for at least one entry, in its order. C123_proxy: exactly the fields of the request, if no read on either side ends between CR and LF in front of a delimiter. Assumed of httparse and mime (Deps.Clean): no control characters in header values, and a type is printed as what it was read from. Names, type and boundary together must not be longer than 949 bytes (otherwise the headers may not fit in the buffer)."
  },
  {
   "property": "C124",
   "status": "partial",
   "theorems": [
    "Multipart.C124_ends",
    "Multipart.C124_false",
    "Multipart.C124_full",
    "Multipart.C124_resume_partial",
    "Multipart.C124_small_partial"
   ],
   "note": "False of the code: read_headers turns an error of the stream into \"invalid data\" behind the delimiter line, so the part is lost (C124_false, as C85_false). Proved: the caller ends with all parts and the right result, or with \"invalid data\" and a proper prefix of the parts, the latter only if the stream has failed (C124_resume_partial); Full means that nothing is missing or doubled (C124_full); resuming comes to an end if the only errors are interruptions, the limits are kept and the disk works (C124_ends); for bodies shorter than the minimum buffer it always works, exactly (C124_small_partial). Assumes that the stream itself does not fail with one of the two kinds of error of read_entry."
  },
  {
   "property": "C125",
   "status": "proved",
   "theorems": [
    "Multipart.C125_only_itself",
    "Multipart.C125_reaches_full"
   ],
   "note": "For streams that do not fail. Which bytes of the data may differ is as in C01 (SavedAs). The second half leaves out the case of C07."
  },
  {
   "property": "C126",
   "status": "partial",
   "theorems": [
    "Multipart.C126_empty_partial",
    "Multipart.C126_false",
    "Multipart.C126_goes_on",
    "Multipart.C126_reads",
    "Multipart.C126_refused"
   ],
   "note": "False of the code: the CRLF of the blank line is taken for that of the delimiter, so the block is shown to the parser without its end, and read_entry reports InvalidData (C126_false, and C126_refused for every such part whose block fits in the buffer). C126_reads: the parts in front of it are read, then comes the error. C126_goes_on: a caller who goes on reads what is behind it. Proved of the claim: the empty body with its CRLF (C126_empty_partial)."
  },
  {
   "property": "C127",
   "status": "partial",
   "theorems": [
    "Multipart.C127_any_body",
    "Multipart.C127_decided_partial",
    "Multipart.C127_false",
    "Multipart.C127_full_partial",
    "Multipart.C127_same_partial"
   ],
   "note": "False of the code: header blocks larger than the buffer are accepted or refused depending on the split (C127_false; the bound of C14 and C15). Proved if all header blocks that parse, with the delimiter and one byte, fit in the buffer (SmallHeaders; for example any body not larger than the buffer): C127_decided_partial, C127_same_partial, C127_full_partial. C127_any_body: every byte string is a sequence of parts with one of the four ends, or ends within a part, or has a header block too large. The data of entries without end is not compared (C02 and C08 say what it is)."
  },
  {
   "property": "C128",
   "status": "proved",
   "theorems": [
    "Multipart.C128_held_back",
    "Multipart.C128_how_much"
   ],
   "note": "C128_held_back says what the bytes are that are held back, C128_how_much how many. In state AtEnd nothing is shown (C09)."
  },
  {
   "property": "C129",
   "status": "proved",
   "theorems": [
    "Multipart.C129_not_again",
    "Multipart.C129_parses_once",
    "Multipart.C129_rounds"
   ],
   "note": "C129_parses_once: results with another tokenizer that agrees on one piece P are the same, so nothing else was asked. C129_not_again: with other bytes x' in place of the shown bytes x, the result is the same but for x'. C129_rounds: the loop of consume_boundary ends within n + 1 rounds (fuel) for fewer than n * (buffer - delimiter - 1) bytes. What twoway, httparse and buf_redux do with one piece is not counted."
  },
  {
   "property": "C130",
   "status": "proved",
   "theorems": [
    "Multipart.C130_early",
    "Multipart.C130_only_arrived"
   ],
   "note": "C130_only_arrived: if `after` has not been touched, all answers are those for any after'. C130_early: with C114, this is so if at least the minimum buffer of bytes in front of `after` has not been taken."
  },
  {
   "property": "C131",
   "status": "partial",
   "theorems": [
    "Multipart.C131_data_partial",
    "Multipart.C131_entry_waits",
    "Multipart.C131_false",
    "Multipart.C131_more_partial",
    "Multipart.C131_waits"
   ],
   "note": "False of the code: read_to_boundary and consume_boundary fill the buffer up to the minimum (1024 bytes) before they look at it, so the closing delimiter of a short body is not recognized before a further read returned, and if that fails read_entry fails (C131_false). C131_waits, C131_entry_waits: whenever fewer bytes than the minimum have arrived, a further read is made, also if the delimiter is among them. (Nothing is lost: C04, C85.) Proved: if as many more bytes as the minimum buffer have arrived, what follows does not matter (C131_more_partial); and whatever data follows, the answers up to the end of the body are the same, if no read fails (C131_data_partial). Missing: reads that fail or wait behind a complete body, for which it is false."
  },
  {
   "property": "C132",
   "status": "partial",
   "theorems": [
    "Multipart.C132_count",
    "Multipart.C132_false",
    "Multipart.C132_false_size",
    "Multipart.C132_request_size_partial",
    "Multipart.C132_size_partial"
   ],
   "note": "False of the code: the bytes kept in memory are not counted when the rest goes to the file (C38), but memory that is filled up to size_limit exactly ends the save. So a field that was saved in full is cut with a larger memory_threshold (C132_false) or a larger size_limit (C132_false_size). Proved: raising size_limit changes no result that is not cut by it if memory_threshold <= size_limit, as by default, for a field (C132_size_partial) and for a request (C132_request_size_partial), on every disk and stream; raising count_limit changes no result that is not cut by it (C132_count). Fields of at most size_limit bytes are saved in full with any larger limits by C75. Missing: fields longer than size_limit if memory_threshold is raised or above size_limit (false there)."
  },
  {
   "property": "C133",
   "status": "proved",
   "theorems": [
    "Multipart.C133_field",
    "Multipart.C133_field_early",
    "Multipart.C133_refused",
    "Multipart.C133_request",
    "Multipart.C133_request_early"
   ],
   "note": "C133_field and C133_request: as long as the last reads of the stream have not been made when the save returns, the result, the disk and the reads made are the same whatever these reads are. C133_field_early and C133_request_early: this is so if a minimum buffer of bytes is left in front of them (C114). C133_refused: a field of which more than size_limit and (if smaller) memory_threshold together have arrived, and a minimum buffer more, is stopped by the size limit, with one result and one state of the disk for all continuations of the stream; the disk works, files are created new, text is not forced, and the bytes that have arrived came without errors other than interruptions. Continuations may be errors, stalls, or nothing."
  },
  {
   "property": "C134",
   "status": "proved",
   "theorems": [
    "Multipart.C134_longer_boundary",
    "Multipart.C134_nested",
    "Multipart.C134_served",
    "Multipart.C134_total"
   ],
   "note": "Contents are meant up to the CRLF of C01, of the inner reader; that of the outer reader does not matter. That the delimiter of the outer body does not occur in the inner one is part of FieldData; C134_longer_boundary says what happens otherwise. Since C134_served says what the stream of the inner reader is, all other theorems apply to the inner reader, too."
  },
  {
   "property": "C135",
   "status": "partial",
   "theorems": [
    "Multipart.C135_false",
    "Multipart.C135_field",
    "Multipart.C135_no_delimiter",
    "Multipart.C135_request_partial"
   ],
   "note": "Partial because false of the code: what stands before the first delimiter is skipped without any limit (C135_no_delimiter: a body without a delimiter is read to its end; C135_false: no number bounds what is read, whatever the limits). Proved: the bound for one field (C135_field), and for a request with the offset of the first delimiter added to it (C135_request_partial), for every result of the save."
  },
  {
   "property": "C136",
   "status": "partial",
   "theorems": [
    "Multipart.C136_case",
    "Multipart.C136_false",
    "Multipart.C136_quoted",
    "Multipart.C136_value",
    "Multipart.C136_when_partial"
   ],
   "note": "False of the code: a boundary in quotes is taken with its quotes (C136_false), and then no history of calls ever returns an entry or the end (C136_quoted, unless the body contains the boundary in quotes); a name in other letters, e.g. Boundary, makes the request not multipart (C136_case). Proved: what the boundary is taken to be (C136_value), and that it is right if and only if the value is bare and no white space is before the next semicolon (C136_when_partial). Missing there: decoys, i.e. earlier parameters that contain boundary=."
  },
  {
   "property": "C137",
   "status": "partial",
   "theorems": [
    "Multipart.C137_false",
    "Multipart.C137_field",
    "Multipart.C137_request_partial"
   ],
   "note": "Partial because false of the code: a field that outgrows memory has what was in memory written to its file in front of a full size_limit of further bytes (C38), so that the disk bound has min(size_limit, memory_threshold) added per field (C137_false). Proved with this summand, for every request and every result of the save (C137_request_partial), and for one call (C137_field). The bounds on the number of changed files and on memory hold as stated. size_limit must be below u64::MAX, which means no limit. Generalises C98 to entries that have fields already, any open options, saves that have not returned yet, and the sum over all files; no assumption on the tokenizer or the length of the body."
  },
  {
   "property": "C138",
   "status": "proved",
   "theorems": [
    "Multipart.C138_bounded"
   ],
   "note": "For every amount of fuel, so also for every state in which an endless lenient loop (C60) can be observed between its rounds. file_size_limit must be below u64::MAX, which means no limit. The summand of 10 KiB per field is that of C137."
  },
  {
   "property": "C139",
   "status": "proved",
   "theorems": [
    "Multipart.C139_all_saved",
    "Multipart.C139_alone",
    "Multipart.C139_own_files",
    "Multipart.C139_own_parts"
   ],
   "note": "C139_own_parts: what each thread holds, at any time. C139_own_files: the files of all threads, also those being written, are different and exist. C139_all_saved: all requests are saved, for every schedule that gives each thread enough turns. C139_alone: a thread that runs alone does what with_entries does. The threads take turns after each of: choosing the name and reading the field as far as it goes to memory, create_dir_all, opening the file, writing it. The writes to one file are one step, as they concern only this file. Assumes create_new, the default, and that nothing else changes the files that the threads hold."
  },
  {
   "property": "C140",
   "status": "proved",
   "theorems": [
    "Multipart.C140_forever",
    "Multipart.C140_request"
   ],
   "note": "C140_request: one request, also when deleting fails. C140_forever: any sequence of requests, with new temporary directories that can be deleted; the disk is looked at after any number of rounds of saving. The requests are handled one after the other. The rounds are bounded by a number that depends on the requests only."
  },
  {
   "property": "C141",
   "status": "proved",
   "theorems": [
    "Multipart.C141_alone",
    "Multipart.C141_files",
    "Multipart.C141_own"
   ],
   "note": "C141_files: the files, at any time and at the end. C141_own: what each thread has saved. C141_alone: a thread that runs alone leaves the disk as C140 says. Assumes that the temporary directories are new and different (tempfile creates them with names that do not exist) and that they can be deleted. Threads take turns after the creation of the temporary directory, the steps of C139, and the deletion of the directory."
  },
  {
   "property": "C142",
   "status": "partial",
   "theorems": [
    "Multipart.C142_false",
    "Multipart.C142_read_partial",
    "Multipart.C142_saves_partial"
   ],
   "note": "False of the code: the two bytes behind a delimiter must be CRLF or two dashes, so the first padded delimiter is reported as InvalidData (C142_false). Proved: all parts in front of the first padded delimiter are read (C142_read_partial) or, within the limits, saved (C142_saves_partial), nothing of the padding becomes data, and InvalidData is reported. Padding behind the closing delimiter is part of the epilogue and has no effect (C116_read_partial)."
  },
  {
   "property": "C143",
   "status": "partial",
   "theorems": [
    "Multipart.C143_false",
    "Multipart.C143_lost",
    "Multipart.C143_read_partial",
    "Multipart.C143_refused",
    "Multipart.C143_saved",
    "Multipart.C143_smuggled"
   ],
   "note": "False of the code (C143_false): the search for the delimiter does not ask what stands in front of it. Proved is what the code does instead (C143_read_partial): the field ends there, and what follows is read as if this were a delimiter line: as a part that the client did not write (C143_smuggled), as InvalidData (C143_refused), or as the end of the request, so that the rest of the field and all later parts are lost without an error (C143_lost) and a save reports Full (C143_saved). What was to be proved holds if the bytes of the delimiter stand nowhere in a part (C116_read_partial); a random boundary hardly ever does (C103)."
  },
  {
   "property": "C144",
   "status": "proved",
   "theorems": [
    "Multipart.C144_alone",
    "Multipart.C144_files",
    "Multipart.C144_own"
   ],
   "note": "C144_files: the files, at any time and at the end. C144_own: the entries of each request. C144_alone: a thread that runs alone does what the model of the middleware (Intercept.before) says. Assumes that the temporary directories are new and different (tempfile creates them with names that do not exist) and that they can be deleted. Only LimitBehavior::ThrowError; with LimitBehavior::Continue a request may never be answered (C60), and C145 covers both."
  },
  {
   "property": "C145",
   "status": "proved",
   "theorems": [
    "Multipart.C145_examples",
    "Multipart.C145_iron",
    "Multipart.C145_lenient",
    "Multipart.C145_saves"
   ],
   "note": "C145_saves: saving with any settings. C145_examples: the example servers. C145_iron: Iron's middleware, in both modes. C145_lenient: a thread that runs alone does what the model of the lenient middleware says, if this returns (C144_alone for the strict one). What the request would meet alone is a subsequence chosen by the interleaving; it is described by MeetsOnly (Spec/Solo.lean). Assumes that the directories are apart (for temporary ones tempfile sees to that)."
  },
  {
   "property": "C146",
   "status": "proved",
   "theorems": [
    "Multipart.C146_answered",
    "Multipart.C146_fewer",
    "Multipart.C146_files",
    "Multipart.C146_own"
   ],
   "note": "C146_files: files, disk and memory, in both modes. C146_answered and C146_fewer: the lenient middleware answers; a request with file_count_limit parts or more may make it loop for ever (C60_false), so this cannot be dropped. C146_own: what a handler gets (C144_own for the strict one). The bounds on the space are for file_size_limit < u64::MAX. Assumes that the directories are apart and new (for temporary ones tempfile sees to that)."
  },
  {
   "property": "C147",
   "status": "proved",
   "theorems": [
    "Multipart.C147_examples",
    "Multipart.C147_lenient",
    "Multipart.C147_saved",
    "Multipart.C147_strict"
   ],
   "note": "The number is Settings.readBound (Spec/Decided.lean). C147_saved: saving, with any settings. C147_strict: Iron's strict middleware (result, entries and disk). C147_examples: the answer and the disk of each of the five example servers. C147_lenient: the counterexample for the lenient middleware, for each number of bytes below 2^63, with reads of at most 49 bytes and the first delimiter at the beginning. That the place of the first delimiter counts cannot be avoided (C135_false)."
  },
  {
   "property": "C148",
   "status": "proved",
   "theorems": [
    "Multipart.C148_alone",
    "Multipart.C148_growing",
    "Multipart.C148_own_files",
    "Multipart.C148_own_parts",
    "Multipart.C148_result",
    "Multipart.C148_same"
   ],
   "note": "Model/WriteSteps.lean has the steps, Spec/WriteSteps.lean the interleavings. C148_same: where the threads are if each file is written in one step (the model of C139), and the files. C148_own_parts and C148_own_files: entries and files, as in C139. C148_growing: the file that is being written. C148_alone: a thread that runs alone. C148_result: any settings, directories apart."
  },
  {
   "property": "C149",
   "status": "proved",
   "theorems": [
    "Multipart.C149_beginnings",
    "Multipart.C149_others",
    "Multipart.C149_use"
   ],
   "note": "C149_others: files that were there, and where new ones are and how long. C149_use: all files together, at any moment (Job.Bounded is in Spec/WriteSteps.lean). C149_beginnings: what is in new files, for requests that are multipart bodies."
  },
  {
   "property": "C150",
   "status": "proved",
   "theorems": [
    "Multipart.C150_field",
    "Multipart.C150_kinds"
   ],
   "note": "C150_field: one field, for any way to save it. C150_kinds: all fields of a request, also if saving it stops early. KeptWhere and TextType (Props/Kinds.lean) are the specification. The exact claim without the margins is C76, which is false of the code."
  },
  {
   "property": "C151",
   "status": "proved",
   "theorems": [
    "Multipart.C151_all_saved"
   ],
   "note": "C151_all_saved: the conclusion of C139_all_saved for the model with single writes (Model/WriteSteps.lean), with a bound for the own steps of each thread that does not depend on the others, apart from the writes that the shared disk cuts short."
  },
  {
   "property": "C152",
   "status": "proved",
   "theorems": [
    "Multipart.C152_join",
    "Multipart.C152_rearrange",
    "Multipart.C152_remove_part",
    "Multipart.C152_replace_contents",
    "Multipart.C152_saved"
   ],
   "note": "C152_rearrange, C152_replace_contents, C152_remove_part and C152_join for readers (with any calls), C152_saved for save. Replacing is for fields that end with CRLF, as all clients write them. Uses the assumption Deps.Lines on the tokenizer (a header block ends with LF), proved for the reference tokenizer."
  },
  {
   "property": "C153",
   "status": "partial",
   "theorems": [
    "Multipart.C153_false",
    "Multipart.C153_lazy_succeeds",
    "Multipart.C153_plain_succeeds",
    "Multipart.C153_same_bytes_partial"
   ],
   "note": "False of the code (C153_false): the lazy body begins with a CRLF and has none at its end, and text fields come first, the others backwards. C153_same_bytes_partial: with the calls in this order, lazy body ++ CRLF = CRLF ++ plain body; C153_plain_succeeds and C153_lazy_succeeds: each of the two succeeds if the other does (streams without interruptions, see C35; the sizes of files can be found out)."
  },
  {
   "property": "C154",
   "status": "proved",
   "theorems": [
    "Multipart.C154_store_and_forward"
   ],
   "note": "C154_store_and_forward; what a call sends for a saved field is Forwards of C123 with the contents that readable() gives (Resends). Uses Deps.Tokenizes and Deps.Clean as C123 does."
  },
  {
   "property": "C155",
   "status": "proved",
   "theorems": [
    "Multipart.C155_also_saved",
    "Multipart.C155_same_saved",
    "Multipart.C155_under_a_name"
   ],
   "note": "C155_under_a_name: the group of each name; C155_same_saved: two full saves; C155_also_saved: the second save succeeds within its limits."
  },
  {
   "property": "C156",
   "status": "partial",
   "theorems": [
    "Multipart.C156_empty",
    "Multipart.C156_false",
    "Multipart.C156_legal_partial",
    "Multipart.C156_utf8_false"
   ],
   "note": "False of the code: boundaries of more than 70 characters are accepted, by tiny_http even an empty one (C156_false), and Hyper refuses the legal boundary utf-8 (C156_utf8_false). Proved: all others are accepted (C156_legal_partial; tiny_http: C136); with an empty boundary no field that can be read contains two dashes, whatever was sent (C156_empty)."
  },
  {
   "property": "C157",
   "status": "proved",
   "theorems": [
    "Multipart.C157_memory",
    "Multipart.C157_no_read_ahead",
    "Multipart.C157_one_at_a_time"
   ],
   "note": "C157_no_read_ahead, C157_one_at_a_time, C157_memory. Drew and Pulled (Spec/LazyPull.lean) say how far streams have been read."
  },
  {
   "property": "C158",
   "status": "proved",
   "theorems": [
    "Multipart.C158_full_means_all",
    "Multipart.C158_sized"
   ],
   "note": "C158_full_means_all (plain requests, any outcome) and C158_sized. What has arrived is any prefix of what was written; the hypothesis about sendable fields is that of C24."
  },
  {
   "property": "C159",
   "status": "partial",
   "theorems": [
    "Multipart.C159_end_partial",
    "Multipart.C159_false",
    "Multipart.C159_lazy_partial"
   ],
   "note": "C159_lazy_partial: as C158, if no read of a stream is interrupted. C159_false: after one interrupted read a request of one field is sent with success and saved in full without any field. C159_end_partial: the same for any caller that is told that there are no more entries, whatever it did before."
  },
  {
   "property": "C160",
   "status": "proved",
   "theorems": [
    "Multipart.C160_end_means_all",
    "Multipart.C160_iron",
    "Multipart.C160_iron_entries",
    "Multipart.C160_iron_sized",
    "Multipart.C160_sized"
   ],
   "note": "C160_end_means_all (plain requests, any outcome, any reachable state of the server, including after errors of earlier reads), C160_sized, C160_iron and C160_iron_sized (both modes of the middleware). C160_iron_entries: the entries behind the middleware are those of all calls (plain requests; with C01's CRLF, and in Continue mode the beginning of contents over the limit). Only the last needs an assumption about header blocks. For lazy requests see C159_end_partial."
  },
  {
   "property": "C161",
   "status": "proved",
   "theorems": [
    "Multipart.C161_confirmed",
    "Multipart.C161_rocket",
    "Multipart.C161_sized"
   ],
   "note": "C161_confirmed (plain requests, any outcome; tiny_http and Iron), C161_sized, and C161_rocket (status 200 and a text that does not begin with \"Request partially processed: \"). Unlike C104_refused_partial it needs no assumption about header blocks, stalls or errors of the connection."
  },
  {
   "property": "C162",
   "status": "proved",
   "theorems": [
    "Multipart.C162_any_lazy",
    "Multipart.C162_any_saved",
    "Multipart.C162_any_sized"
   ],
   "note": "C162_any_saved (plain requests), C162_any_sized and C162_any_lazy (lazy requests whose reads are not interrupted, see C35 and C159). Settings that force text are excluded (a field that is not text ends the save then, see C43)."
  }
 ]
}