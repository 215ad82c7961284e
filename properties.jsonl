{"id": "C01", "title": "Field bytes are exact", "statement": "Reading a field's data to EOF yields exactly the bytes that stand between the blank line ending the field's headers and the CRLF that precedes the next delimiter (`--` + boundary); if no CRLF precedes the delimiter, all bytes up to it.", "quantifier": "every body, boundary, split of the body into reads of the underlying stream, and every sequence of read/fill_buf/consume/set_min_buf_size calls on the field", "why_tests_cant": "the result may depend on where the network splits the body; tests fix a few splits of small bodies that never exceed the minimum buffer", "anchors": ["src/server/boundary.rs:BoundaryReader::read_to_boundary", "src/server/boundary.rs:find_boundary", "src/server/field.rs:MultipartData"]}
{"id": "C02", "title": "Field data never runs past the delimiter", "statement": "Whatever calls are made on a field, the bytes handed out for it never include any byte of the next delimiter line or of anything behind it.", "quantifier": "every body, split, failing read and call history on a field", "why_tests_cant": "an off-by-one shows up only for particular alignments of delimiter prefix, buffer end and cursor", "anchors": ["src/server/boundary.rs:read_to_boundary", "src/server/boundary.rs:consume"]}
{"id": "C03", "title": "No byte is lost or duplicated", "statement": "At every moment the bytes already handed out or discarded, followed by the bytes still buffered or still to arrive, are exactly the original body; no call, failing or not, changes this.", "quantifier": "every body, split, error injection and call history", "why_tests_cant": "needs an invariant over unbounded histories", "anchors": ["src/server/boundary.rs:BoundaryReader", "src/server/mod.rs:Multipart::read_entry"]}
{"id": "C04", "title": "I/O errors surface and consume nothing", "statement": "An error of the underlying stream is returned as such by read/fill_buf on a field, and does not advance the field: repeating the call continues with the next unread byte.", "quantifier": "every point at which the stream can fail", "why_tests_cant": "failure points are unbounded in number and interact with buffering", "anchors": ["src/server/boundary.rs:read_to_boundary", "src/server/boundary.rs:Read for BoundaryReader"]}
{"id": "C05", "title": "The server never panics", "statement": "No sequence of read_entry, read, fill_buf, consume and set_min_buf_size calls panics: no slice index is out of range and no debug assertion fails.", "quantifier": "every body (including hostile ones), boundary, split, failing read and call history", "why_tests_cant": "fuzzing samples hostile bodies; the claim is for all of them", "anchors": ["src/server/boundary.rs:read_to_boundary", "src/server/boundary.rs:consume_boundary", "src/server/field.rs:MultipartData::inner_mut"]}
{"id": "C06", "title": "read_entry terminates", "statement": "Every read_entry call on a finite body returns: searching for the delimiter and reading the header block cannot loop forever.", "quantifier": "every finite body, split and reader state", "why_tests_cant": "non-termination cannot be tested for", "anchors": ["src/server/boundary.rs:consume_boundary", "src/server/field.rs:with_headers"]}
{"id": "C07", "title": "Skipping a field is the same as draining it", "statement": "Calling read_entry while the current field is unread or partly read gives the same result as first reading that field to EOF.", "quantifier": "every body, split, and amount of the field already read", "why_tests_cant": "depends on where the buffer happens to end relative to the delimiter", "anchors": ["src/server/boundary.rs:consume_boundary", "src/server/mod.rs:Multipart::read_entry"]}
{"id": "C08", "title": "End of body is final", "statement": "Once read_entry has reported the end (closing delimiter seen), every later read_entry reports the end again without touching the stream, and the last field's handle yields no more bytes.", "quantifier": "every history after the closing delimiter", "why_tests_cant": "unbounded histories", "anchors": ["src/server/boundary.rs:consume_boundary", "src/server/boundary.rs:read_to_boundary"]}
{"id": "C09", "title": "Truncated bodies never look complete", "statement": "read_entry reports a clean end only if the body really contains a delimiter directly followed by `--`; a body without one always ends in an error.", "quantifier": "every body, split and call history", "why_tests_cant": "truncation points are unbounded", "anchors": ["src/server/boundary.rs:consume_boundary"]}
{"id": "C10", "title": "Every entry is introduced by a delimiter", "statement": "read_entry returns an entry only if the unread body contains a delimiter followed by CRLF, and it skips exactly up to the first delimiter in the unread body; so the entries found are the parts of the body in order, none skipped. Contents of fields are meant up to the CRLF of C01.", "quantifier": "every body, split and reader state", "why_tests_cant": "quantifies over all bodies and states", "anchors": ["src/server/boundary.rs:consume_boundary", "src/server/field.rs:ReadEntry::read_entry"]}
{"id": "C11", "title": "A damaged delimiter is an error, persistently", "statement": "If the first delimiter in the unread body is followed by two bytes that are neither CRLF nor `--`, read_entry fails with InvalidData, and keeps failing on every later call.", "quantifier": "every body, split, state", "why_tests_cant": "retry histories are unbounded", "anchors": ["src/server/boundary.rs:consume_boundary"]}
{"id": "C12", "title": "Preamble and epilogue do not matter", "statement": "Bytes before the first delimiter (that do not contain it) and bytes after the closing delimiter have no influence on the entries reported. Contents of fields are meant up to the CRLF of C01.", "quantifier": "every preamble, epilogue, body and split", "why_tests_cant": "all preambles/epilogues of any length", "anchors": ["src/server/boundary.rs:consume_boundary"]}
{"id": "C13", "title": "fill_buf is stable", "statement": "Two fill_buf calls in a row on a field with no read of the underlying stream in between return the same bytes and leave the field unchanged.", "quantifier": "every reachable reader state", "why_tests_cant": "the regression of issue 93; depends on CRLF/delimiter/cursor alignment", "anchors": ["src/server/boundary.rs:read_to_boundary"]}
{"id": "C14", "title": "Header blocks of bounded size parse under every split", "statement": "If a field's header block is well formed and short enough (block length + delimiter length + 1 <= max(1024, 2 * delimiter length)), it is parsed and exactly its bytes are consumed, however the stream is split. (A block directly followed by a delimiter, without the CRLF in front of it, is not meant: its blank line would be that CRLF; see C126.)", "quantifier": "every header block within the bound, body and split", "why_tests_cant": "splits inside the header block are unbounded", "anchors": ["src/server/field.rs:with_headers", "src/server/field.rs:FieldHeaders::read_from"]}
{"id": "C15", "title": "Oversized or unterminated header blocks are rejected", "statement": "If the tokenizer never finds the end of the header block in the bytes available up to the delimiter, read_entry returns an InvalidData error instead of an entry or of looping.", "quantifier": "every body, split, tokenizer answer", "why_tests_cant": "all bodies", "anchors": ["src/server/field.rs:with_headers"]}
{"id": "C16", "title": "Reading continues behind a field with bad headers", "statement": "After read_entry failed because of a field's headers, the next read_entry continues with the next delimiter in the body.", "quantifier": "every body, kind of header error and split", "why_tests_cant": "all bodies and errors", "anchors": ["src/server/field.rs:with_headers", "src/server/field.rs:PrivReadEntry::read_headers", "src/server/boundary.rs:consume_boundary"]}
{"id": "C17", "title": "Header names are matched case-insensitively, first match wins", "statement": "A header is found iff some header has that name up to ASCII case, and the first such header is used.", "quantifier": "every header list and spelling", "why_tests_cant": "all spellings", "anchors": ["src/server/field.rs:find_header"]}
{"id": "C18", "title": "Content-Disposition parameters are extracted exactly", "statement": "From a Content-Disposition value with type form-data the field name and the filename are the values of the parameters name and filename.", "quantifier": "every header value", "why_tests_cant": "all header values; quoting and ordering cases", "anchors": ["src/server/field.rs:ContentDisp::parse_required", "src/server/field.rs:get_str_after", "src/server/field.rs:trim_quotes"]}
{"id": "C19", "title": "Text detection", "statement": "is_text() is true exactly when the field declares no Content-Type or one whose top-level type is text.", "quantifier": "every header block", "why_tests_cant": "all header blocks", "anchors": ["src/server/field.rs:MultipartField::is_text", "src/server/field.rs:parse_content_type"]}
{"id": "C20", "title": "foreach_entry visits what read_entry returns", "statement": "foreach_entry calls the closure once per entry, in body order, and returns the first error or Ok at the end - the same sequence as calling read_entry by hand.", "quantifier": "every body, split and closure behaviour (how much of each entry it reads)", "why_tests_cant": "all bodies and closures", "anchors": ["src/server/mod.rs:Multipart::foreach_entry"]}
{"id": "C21", "title": "from_request keeps or wraps the request", "statement": "from_request returns the request unchanged when it carries no multipart boundary, and otherwise a reader over its body whose delimiter is `--` followed by the boundary.", "quantifier": "every request", "why_tests_cant": "all requests", "anchors": ["src/server/mod.rs:Multipart::from_request", "src/server/mod.rs:Multipart::with_body", "src/server/boundary.rs:BoundaryReader::from_reader"]}
{"id": "C22", "title": "Minimum buffer size has a floor and is reset", "statement": "set_min_buf_size never sets less than twice the delimiter length, and every read_entry resets it to max(1024, 2 * delimiter length).", "quantifier": "every requested size and history", "why_tests_cant": "all histories", "anchors": ["src/server/boundary.rs:set_min_buf_size", "src/server/field.rs:ReadEntry::read_entry"]}
{"id": "C23", "title": "Client body grammar", "statement": "The body written by the client is, for every sequence of write_text/write_stream calls followed by send, the multipart encoding of these fields in call order, closed by `--boundary--` CRLF; with no fields it is just the closing line.", "quantifier": "every field sequence, name, filename, content type and data", "why_tests_cant": "all field sequences", "anchors": ["src/client/mod.rs:MultipartWriter"]}
{"id": "C24", "title": "Client to server round trip", "statement": "A body written by the client is read back by the server as the same fields in the same order: names, filenames, content types and data.", "quantifier": "every list of fields whose names/filenames are representable and that do not contain the delimiter, and every split of the body", "why_tests_cant": "the existing tests sample tiny alphanumeric strings", "anchors": ["src/client/mod.rs:MultipartWriter", "src/server/boundary.rs:BoundaryReader", "src/server/field.rs:FieldHeaders"]}
{"id": "C25", "title": "Client output under short writes and failures", "statement": "Short writes and interruptions of the HTTP stream do not change the body; when a write fails, what was sent is a prefix of the complete body and the call returns that error.", "quantifier": "every write schedule of the stream", "why_tests_cant": "write schedules are unbounded", "anchors": ["src/client/mod.rs:MultipartWriter::write_field_headers", "src/client/mod.rs:write_stream", "src/client/mod.rs:finish"]}
{"id": "C26", "title": "write_stream always labels the field as a file", "statement": "A field written by write_stream carries a Content-Type header: the given one or application/octet-stream; a text field carries none.", "quantifier": "all calls", "why_tests_cant": "all arguments", "anchors": ["src/client/mod.rs:MultipartWriter::write_stream", "src/client/mod.rs:MultipartWriter::write_text"]}
{"id": "C27", "title": "Sized requests declare their exact length", "statement": "A sized request hands the wrapped request Content-Length equal to the number of body bytes it then writes, and those bytes equal the unsized body; if the wrapped request refuses the headers an error is returned and nothing is written.", "quantifier": "every field sequence", "why_tests_cant": "all bodies", "anchors": ["src/client/sized.rs:SizedRequest"]}
{"id": "C28", "title": "After the first client error nothing more is written", "statement": "Upon the first error all subsequent client calls are no-ops and send() reports the error.", "quantifier": "every call sequence and failure point", "why_tests_cant": "all failure points", "anchors": ["src/client/mod.rs:Multipart"]}
{"id": "C29", "title": "Generated boundaries are safe", "statement": "A generated boundary consists of exactly 16 ASCII alphanumerics, so it never contains CR, LF, quote, semicolon, space or dash.", "quantifier": "every random stream", "why_tests_cant": "all random outcomes", "anchors": ["src/lib.rs:random_alphanumeric", "src/client/mod.rs:gen_boundary"]}
{"id": "C30", "title": "Lazy body does not depend on read sizes", "statement": "Reading a prepared lazy request yields the same body for every sequence of output buffer sizes: text fields, then stream fields, then the closing delimiter.", "quantifier": "every field list, stream chunking and read-size sequence", "why_tests_cant": "all read schedules", "anchors": ["src/client/lazy.rs:PreparedFields as Read", "src/client/lazy.rs:PreparedField as Read"]}
{"id": "C31", "title": "Lazy content length is exact", "statement": "When a prepared lazy request reports a content length, the body it produces has exactly that many bytes.", "quantifier": "every list of text and file fields", "why_tests_cant": "all field lists (the tests only use streams)", "anchors": ["src/client/lazy.rs:PreparedFields::from_fields", "src/client/lazy.rs:content_len"]}
{"id": "C32", "title": "Lazy requests keep all fields", "statement": "A prepared lazy request contains every added field exactly once: text fields in order of addition, then file/stream fields in reverse order.", "quantifier": "every field list", "why_tests_cant": "all field lists", "anchors": ["src/client/lazy.rs:PreparedFields::from_fields"]}
{"id": "C33", "title": "Lazy boundary accessor matches the body", "statement": "boundary() on a prepared request returns, without panicking and at any time during reading, the boundary used in the body.", "quantifier": "every field list, including the empty one", "why_tests_cant": "all field lists and read positions", "anchors": ["src/client/lazy.rs:PreparedFields::boundary", "src/client/lazy.rs:Multipart::send"]}
{"id": "C34", "title": "Lazy client to server round trip", "statement": "A lazily prepared body is read back by the server as the same fields (text first, then streams in reverse).", "quantifier": "every representable field list and every split", "why_tests_cant": "all field lists and splits", "anchors": ["src/client/lazy.rs:PreparedFields", "src/server/boundary.rs:BoundaryReader"]}
{"id": "C35", "title": "A failing stream does not corrupt the lazy body", "statement": "If a stream field fails (e.g. Interrupted) during a read of the prepared request and the caller retries, no bytes are lost: the bytes returned by all successful reads still form the body.", "quantifier": "every failure point and read-size sequence", "why_tests_cant": "failure points unbounded", "anchors": ["src/client/lazy.rs:PreparedFields as Read"]}
{"id": "C36", "title": "Lazy preparation errors name the field", "statement": "If a file added by path cannot be opened or measured, prepare() fails with an error carrying that field's name, for the first such field.", "quantifier": "every field list and set of failing files", "why_tests_cant": "all field lists", "anchors": ["src/client/lazy.rs:PreparedField::from_path", "src/client/lazy.rs:LazyError"]}
{"id": "C37", "title": "A full save is complete", "statement": "When saving a field reports Full, the saved data (text, bytes or file) is exactly the field's bytes, up to its EOF.", "quantifier": "every field content, split, limit, threshold, text policy and write schedule", "why_tests_cant": "all combinations", "anchors": ["src/server/save.rs:SaveBuilder::with_path", "src/server/save.rs:try_read_buf"]}
{"id": "C38", "title": "Size limit is respected", "statement": "A saved field never holds more than size_limit bytes, in memory or on disk.", "quantifier": "every content, split and limit setting", "why_tests_cant": "alignment of buffer sizes with limits", "anchors": ["src/server/save.rs:SaveBuilder::size_limit", "src/server/save.rs:with_path", "src/server/save.rs:try_copy_limited"]}
{"id": "C39", "title": "Memory threshold bounds memory", "statement": "Data kept in memory for a field (Text or Bytes result) never exceeds memory_threshold nor size_limit.", "quantifier": "every content, split and setting", "why_tests_cant": "all alignments", "anchors": ["src/server/save.rs:read_mem", "src/server/save.rs:save_mem", "src/server/save.rs:save_text"]}
{"id": "C40", "title": "Threshold zero forces files", "statement": "With memory_threshold 0 a field is saved to the filesystem.", "quantifier": "every content", "why_tests_cant": "boundary case of emptiness", "anchors": ["src/server/save.rs:memory_threshold", "src/server/save.rs:with_path"]}
{"id": "C41", "title": "Small size limits never touch the disk", "statement": "If size_limit <= memory_threshold, saving a field creates no file or directory.", "quantifier": "every content, split and setting with size_limit <= memory_threshold", "why_tests_cant": "depends on buffer alignment", "anchors": ["src/server/save.rs:with_path"]}
{"id": "C42", "title": "Text results are valid UTF-8 of the field", "statement": "A Text result holds valid UTF-8 that is exactly the bytes taken from the field, even if characters are split over reads.", "quantifier": "every content and split", "why_tests_cant": "all splits inside characters", "anchors": ["src/server/save.rs:save_text"]}
{"id": "C43", "title": "force_text rejects invalid UTF-8", "statement": "With force_text, saving a field whose data is not valid UTF-8 and is below the memory threshold does not report Full.", "quantifier": "every content and split", "why_tests_cant": "depends on how much data is buffered behind the invalid byte", "anchors": ["src/server/save.rs:force_text", "src/server/save.rs:save_text", "src/server/save.rs:with_path"]}
{"id": "C44", "title": "Saving a field terminates", "statement": "Saving a field of a finite body returns, for all limit and policy settings.", "quantifier": "every content, split and setting", "why_tests_cant": "non-termination cannot be tested for", "anchors": ["src/server/save.rs:try_copy_limited", "src/server/save.rs:try_read_buf", "src/server/save.rs:save_text"]}
{"id": "C45", "title": "Reported file size is the file's size", "statement": "When a save result (Full or Partial) is a file, the file exists at that path, its contents are a prefix of the field's bytes, and the reported size is its length.", "quantifier": "every content, split, write schedule and limit", "why_tests_cant": "all schedules", "anchors": ["src/server/save.rs:with_path", "src/server/save.rs:SavedData::add_size", "src/server/save.rs:try_write_all"]}
{"id": "C46", "title": "Existing files are never overwritten", "statement": "With default open options, no existing file's contents change: if the chosen path exists the save fails and the file keeps its contents.", "quantifier": "every filesystem state, path and write schedule", "why_tests_cant": "all filesystem states", "anchors": ["src/server/save.rs:SaveBuilder::new", "src/server/save.rs:with_path"]}
{"id": "C47", "title": "write_to copies exactly, up to the limit", "statement": "write_to reports Full iff the field fits the limit, and then the destination received exactly the field's bytes; otherwise Partial with at most limit bytes; interrupted reads/writes are retried without loss or duplication; if the writer fails, exactly the bytes written were taken from the field.", "quantifier": "every content, split, write schedule and limit", "why_tests_cant": "all schedules", "anchors": ["src/server/save.rs:write_to", "src/server/save.rs:try_write_all", "src/server/save.rs:try_copy_limited"]}
{"id": "C48", "title": "An unfinished save loses no data", "statement": "If saving a field stops early, what was saved followed by what can still be read from the field is the field's whole data, so the caller can resume.", "quantifier": "every content, split, failure point and limit", "why_tests_cant": "all failure points", "anchors": ["src/server/save.rs:with_path", "src/server/save.rs:PartialSavedField"]}
{"id": "C49", "title": "Count limit bounds the number of fields", "statement": "Saving a request never leaves more than count_limit fields in the result (starting from an empty result).", "quantifier": "every request and limit", "why_tests_cant": "all requests", "anchors": ["src/server/save.rs:with_entries", "src/server/save.rs:count_limit"]}
{"id": "C50", "title": "A request with exactly count_limit fields saves fully", "statement": "If the request has no more than count_limit fields (and nothing else fails), saving it reports Full.", "quantifier": "every request and limit", "why_tests_cant": "boundary case", "anchors": ["src/server/save.rs:with_entries"]}
{"id": "C51", "title": "Resuming after the count limit loses no field", "statement": "After Partial(CountLimit), resuming with with_entries and a higher limit saves every remaining field.", "quantifier": "every request and limit", "why_tests_cant": "history property", "anchors": ["src/server/save.rs:with_entries"]}
{"id": "C52", "title": "Entries are grouped by name in order", "statement": "The entries map groups saved fields by name, each group non-empty and in body order, every field is under its own name, and fields_count is the total number of fields (saturating at u32::MAX); recount_fields restores this after external changes.", "quantifier": "every sequence of fields", "why_tests_cant": "all sequences", "anchors": ["src/server/save.rs:Entries::push_field", "src/server/save.rs:recount_fields"]}
{"id": "C53", "title": "A full request save has every field", "statement": "When saving a whole request reports Full, the request ended with its closing delimiter and the entries are exactly the fields read, each completely saved, in order. Contents of fields are meant up to the CRLF of C01.", "quantifier": "every request, split, setting", "why_tests_cant": "all requests", "anchors": ["src/server/save.rs:with_entries"]}
{"id": "C54", "title": "Saved data can be read back", "statement": "readable() on a saved text/bytes result yields exactly its bytes, and on a file result the file's bytes; size() is their length.", "quantifier": "every saved result", "why_tests_cant": "all data", "anchors": ["src/server/save.rs:SavedData::readable", "src/server/save.rs:SavedData::size"]}
{"id": "C55", "title": "Save result conversions keep their promises", "statement": "into_result keeps partial values and drops reasons, into_opt_both keeps the I/O error, into_result_strict returns an error in the Partial case. into_entries gives the fields saved before the end; PartialReason::unwrap_err gives the I/O error and panics exactly for the other reasons.", "quantifier": "every result", "why_tests_cant": "all values", "anchors": ["src/server/save.rs:SaveResult"]}
{"id": "C56", "title": "keep_partial adds at most the partial field", "statement": "keep_partial returns the saved entries plus the partially saved field when it has data, and the plain conversion into Entries discards it.", "quantifier": "every partial result", "why_tests_cant": "all values", "anchors": ["src/server/save.rs:PartialEntries::keep_partial"]}
{"id": "C57", "title": "Temporary directories are deleted exactly when promised", "statement": "A temporary save directory is removed with its contents when dropped, kept after keep()/into_path(), and delete() removes temporary and permanent ones alike.", "quantifier": "every sequence of SaveDir operations", "why_tests_cant": "all histories", "anchors": ["src/server/save.rs:SaveDir"]}
{"id": "C58", "title": "with_filename saves inside the temporary directory", "statement": "with_filename(name) uses the file `name` in the OS temporary directory.", "quantifier": "every temp dir path and plain file name", "why_tests_cant": "all paths", "anchors": ["src/server/save.rs:with_filename"]}
{"id": "C59", "title": "Strict Iron interception never panics and rejects over-limit requests", "statement": "Intercept in ThrowError mode never hits its unreachable!/expect, returns entries only for a fully saved request, and maps count/size limits to their errors.", "quantifier": "every request and limit", "why_tests_cant": "all requests", "anchors": ["src/server/iron.rs:Intercept::read_request_strict"]}
{"id": "C60", "title": "Lenient Iron interception completes", "statement": "Intercept in Continue mode terminates and returns the entries, truncating over-size fields.", "quantifier": "every request and limit", "why_tests_cant": "termination", "anchors": ["src/server/iron.rs:Intercept::read_request_lenient"]}
{"id": "C61", "title": "Hyper and Iron accept only multipart/form-data", "statement": "The Hyper adapter yields a boundary only for POST requests with Content-Type multipart/form-data and its boundary parameter; the Iron adapter only for multipart/form-data.", "quantifier": "every request", "why_tests_cant": "all requests", "anchors": ["src/server/hyper.rs:multipart_boundary", "src/server/iron.rs:multipart_boundary"]}
{"id": "C62", "title": "tiny_http and Nickel accept only POST multipart/form-data", "statement": "The adapters yield a boundary only for POST requests with Content-Type multipart/form-data, and it is the value of the boundary parameter.", "quantifier": "every request", "why_tests_cant": "all requests", "anchors": ["src/server/tiny_http.rs:multipart_boundary", "src/server/nickel.rs:multipart_boundary"]}
{"id": "C63", "title": "Mock streams deliver the same bytes", "statement": "The mock server request yields exactly its data over any sequence of random short reads, and the mock client buffer records exactly what was written over any random short writes; the boundary and content length that were applied last reach the server.", "quantifier": "every random stream", "why_tests_cant": "all random outcomes", "anchors": ["src/mock.rs:ServerRequest", "src/mock.rs:HttpBuffer"]}
{"id": "C64", "title": "StdoutTee duplicates output faithfully", "statement": "Everything written through StdoutTee arrives exactly once in the inner writer and on stdout.", "quantifier": "every write schedule", "why_tests_cant": "all schedules", "anchors": ["src/mock.rs:StdoutTee"]}
{"id": "C65", "title": "next_entry_inplace keeps the handle usable", "statement": "After next_entry_inplace the field handle always owns its reader again, whether an entry, the end or an error was found, so later calls never panic.", "quantifier": "every history of next_entry_inplace/read calls", "why_tests_cant": "all histories", "anchors": ["src/server/field.rs:next_entry_inplace", "src/server/field.rs:MultipartData"]}
{"id": "C66", "title": "A truncated field is not reported as complete", "statement": "If the body ends inside a field (no further delimiter), reading or saving that field does not report success.", "quantifier": "every truncated body and split", "why_tests_cant": "truncation points unbounded", "anchors": ["src/server/boundary.rs:read_to_boundary", "src/server/save.rs:with_path"]}
{"id": "C67", "title": "Lazy send delivers the body", "statement": "send() of a lazy request with at least one field always returns; it succeeds if nothing fails; and on success the stream has got exactly the body, with the headers for it applied once.", "quantifier": "every non-empty field list, stream and write schedule, copy buffer size", "why_tests_cant": "all schedules of short and failing reads and writes", "anchors": ["src/client/lazy.rs:Multipart::send"]}
{"id": "C68", "title": "Lazy errors tell what failed", "statement": "An error of send() that carries a field name was caused by that field; one without a field name was caused by opening, writing or finishing the stream.", "quantifier": "every field list, stream and write schedule", "why_tests_cant": "all failure points", "anchors": ["src/client/lazy.rs:LazyError", "src/client/lazy.rs:Multipart::send"]}
{"id": "C69", "title": "The Hyper client announces the boundary the servers read", "statement": "The Hyper client refuses requests that are not POST and leaves them unchanged; on POST it sets a Content-Type from which the server adapters read back exactly the boundary it was given, and the Content-Length if there is one.", "quantifier": "every request, boundary and length", "why_tests_cant": "all requests and boundaries", "anchors": ["src/client/hyper.rs:apply_headers", "src/client/hyper.rs:multipart_mime"]}
{"id": "C70", "title": "Dispatch of multipart requests", "statement": "Switch hands exactly the POST multipart/form-data requests with a boundary (other than the word utf-8, which the mime library represents differently) to the multipart handler, and every other request unchanged to the normal handler; Nickel's multipart_body gives a reader with this boundary exactly for requests with a boundary parameter. from_request for tiny_http gives a reader exactly if the first Content-Type header contains boundary=, and gives the request back otherwise.", "quantifier": "every request", "why_tests_cant": "all requests", "anchors": ["src/server/hyper.rs:Switch::handle", "src/server/nickel.rs:multipart_body", "src/server/tiny_http.rs:multipart_boundary"]}
{"id": "C71", "title": "Mock client to mock server", "statement": "A request to the mock client whose streams can be read succeeds; the buffer has exactly the body, the boundary and no length; and the server's reader made from the mock request on it reads this body with this boundary, without errors or empty reads before the end. So the fields are read back as in C24. The stream that the mock request opens is empty and has the boundary and length applied last; opened before, it panics.", "quantifier": "every field list, every random stream, every sequence of buffer sizes", "why_tests_cant": "all random outcomes", "anchors": ["src/mock.rs:ClientRequest", "src/mock.rs:HttpBuffer::for_server", "src/mock.rs:ServerRequest"]}
{"id": "C72", "title": "Saving a whole request returns", "statement": "with_entries always returns and never panics, if the size limit or the memory threshold is below u64::MAX (as by default) or text is not tried.", "quantifier": "every stream, every file system behaviour, every setting of this kind", "why_tests_cant": "termination", "anchors": ["src/server/save.rs:SaveBuilder::with_entries"]}
{"id": "C73", "title": "Iron interception leaves nothing behind after an error", "statement": "Intercept changes no file outside of the temporary directory it created for the request; when it returns an error and the directory can be deleted, no file and no directory at or below it is left.", "quantifier": "every request, limit, mode and file system behaviour", "why_tests_cant": "all failures", "anchors": ["src/server/iron.rs:Intercept::read_request"]}
{"id": "C74", "title": "What Iron's middleware adds to a request", "statement": "before() lets a request that is not multipart/form-data with a boundary pass unchanged. If a multipart request passes, its extensions hold the entries: all parts of the body in order (in Continue mode over-long ones may be cut), fewer than the count limit, in the temporary directory that was made; if it is rejected, the extensions are unchanged. Contents of fields are meant up to the CRLF of C01.", "quantifier": "every request and limit", "why_tests_cant": "all requests", "anchors": ["src/server/iron.rs:Intercept::before", "src/server/iron.rs:Intercept::read_request"]}
{"id": "C75", "title": "A field within the limits is saved fully", "statement": "If the field has no more than size_limit bytes, the body has no errors except interruptions, directories, files and writes work (with any short and interrupted writes), the file may be opened with the chosen options, one of the limits is less than u64::MAX or text is ignored, and text is not forced or the field is valid UTF-8 (with room for a CRLF in the limit where a read may end inside the CRLF before a delimiter), then saving returns Full, for every destination.", "quantifier": "every body, split, limit, write schedule and destination", "why_tests_cant": "liveness over all schedules", "anchors": ["src/server/save.rs:SaveBuilder::with_path", "src/server/save.rs:try_read_buf", "src/server/save.rs:try_write_all"]}
{"id": "C76", "title": "Text within the memory limits is saved as text", "statement": "A field whose data is valid UTF-8 and not longer than size_limit and memory_threshold is saved as SavedData::Text with this text (unless text is ignored), however its bytes arrive, and nothing is written to disk.", "quantifier": "every text, boundary, split and limit", "why_tests_cant": "characters split at every position of the buffer", "anchors": ["src/server/save.rs:SaveBuilder::save_text", "src/server/save.rs:try_copy_limited"]}
{"id": "C77", "title": "A request within the limits is saved fully", "statement": "If the body consists of parts and the closing delimiter, has fewer parts than count_limit, each of at most size_limit bytes (with room for a CRLF where a read may end inside the CRLF before a delimiter), reads do not fail or stall, directories, files and writes work (with any short and interrupted writes), the random names are new and different, text is not forced or the parts that are text by their headers are valid UTF-8, and one of the memory limits is less than u64::MAX or text is ignored, then with_entries returns Full with exactly the parts of the body, grouped by name, with their headers and data. Contents of fields are meant up to the CRLF of C01.", "quantifier": "every body, number of parts, split, limit and write schedule", "why_tests_cant": "liveness over all bodies and schedules", "anchors": ["src/server/save.rs:SaveBuilder::with_entries", "src/server/save.rs:SaveBuilder::with_dir"]}
{"id": "C78", "title": "What the client sends is what the server saves", "statement": "A request of representable fields that the client (or the lazy client, if there are fields and no read of a stream is interrupted: see C35) sent with success, received by the server in any pieces and saved with limits that allow it, is saved fully: the saved fields are the sent fields in order (for the lazy client: texts, then the others backwards) with their names, filenames, content types and contents, which can be read back. Contents of fields are meant up to the CRLF of C01.", "quantifier": "every list of fields, every schedule of writes and reads on both sides", "why_tests_cant": "composition of both sides over all schedules", "anchors": ["src/client/mod.rs:Multipart::send", "src/client/lazy.rs:Multipart::prepare", "src/server/save.rs:SaveBuilder::with_entries"]}
{"id": "C79", "title": "Saved data reads back exactly, however it is read", "statement": "The reader that SavedData::readable returns delivers, for every sequence of read calls with any buffer sizes and fill_buf/consume calls, a beginning of the saved contents and nothing else; a call asking for at least one byte that returns no bytes and no error means everything was delivered, and repeating such a call reaches the end; an error is one that reading the file returned. There is no reader exactly if the data is in a file that cannot be opened. Consuming more bytes than data in memory has panics, for a file it does nothing worse than emptying the buffer.", "quantifier": "every saved data, every way a file delivers its bytes and errors, every sequence of calls", "why_tests_cant": "all mixes of buffered and unbuffered reads and file behaviours", "anchors": ["src/server/save.rs:SavedData::readable", "src/server/save.rs:DataReader"]}
{"id": "C80", "title": "write_debug prints every field with its contents or fails for a reason", "statement": "Whatever the order of the map, write_debug returns Ok and has written the header line of each name and for each of its fields the line with index, filename and content type followed by the contents; or it returns an error and has written a beginning of this text. An error has a cause: a failing write, or a file that cannot be opened or read. Ok is not returned if a file is missing. It never panics or hangs.", "quantifier": "every map of saved fields, every writer with short, failing and interrupted writes, every file behaviour", "why_tests_cant": "all writer and file behaviours", "anchors": ["src/server/save.rs:Entries::write_debug"]}
{"id": "C81", "title": "read_to_end and read_to_string deliver the field", "statement": "read_to_end on the data of a field, with any buffer sizes, returns Ok with exactly the field's data (up to the CRLF of C01), retrying interrupted reads; or an error of the stream other than Interrupted, after which what was read and what is still unread are together what was unread before. With interruptions only it returns Ok. read_to_string returns the same bytes exactly if they are UTF-8, InvalidData if not, and the same errors. None panics or hangs.", "quantifier": "every body, split, field, error position and choice of buffer sizes", "why_tests_cant": "all read schedules", "anchors": ["src/server/field.rs:MultipartData", "src/server/field.rs:PrivReadEntry::read_to_string"]}
{"id": "C82", "title": "The owned API reads the same entries", "statement": "into_entry and next_entry, after any calls on the current field, return Entry, End or Error exactly as read_entry would, with a reader that can be used further (End stays End), and never panic. into_result, unwrap and unwrap_opt return the entry if there is one; unwrap panics exactly without an entry, unwrap_opt exactly for an error. Reading a body to its end by next_entry and read_to_end gives exactly the parts of the body and their ending. Contents of fields are meant up to the CRLF of C01.", "quantifier": "every body, split and history of calls", "why_tests_cant": "all histories and splits", "anchors": ["src/server/mod.rs:Multipart::into_entry", "src/server/field.rs:MultipartField::next_entry", "src/server/field.rs:ReadEntryResult"]}
{"id": "C83", "title": "Header errors are exact", "statement": "The headers of a part are accepted exactly if the first Content-Disposition is form-data (with any white space around it), a semicolon and something with name= in it, and there is no Content-Type or the first one can be parsed. Otherwise the error says which of these is missing: no Content-Disposition, an invalid one, or the MIME type. read_entry then fails with InvalidData, having consumed exactly the header block.", "quantifier": "every list of headers; every body and split", "why_tests_cant": "all header texts, in all splits of the body", "anchors": ["src/server/field.rs:FieldHeaders::parse", "src/server/field.rs:ContentDisp::parse_required", "src/server/field.rs:parse_content_type", "src/server/field.rs:PrivReadEntry::read_headers"]}
{"id": "C84", "title": "Iron accepts uploads within the limits", "statement": "A multipart/form-data request whose body is well-formed, has fewer parts than file_count_limit and no part longer than file_size_limit (with room for a CRLF where a read may end inside the CRLF before a delimiter) passes Intercept in both modes if the disk works, and its extensions hold all parts, in order, with headers and data. So fields sent with success by the client with the headers of its Hyper backend arrive there with names, filenames, content types and contents. Contents of fields are meant up to the CRLF of C01.", "quantifier": "every request, split, limits and disk behaviour within the assumptions", "why_tests_cant": "all bodies and all splits in pieces, all short writes of the disk", "anchors": ["src/server/iron.rs:Intercept::before", "src/server/iron.rs:Intercept::read_request", "src/client/hyper.rs:HttpRequest::apply_headers"]}
{"id": "C85", "title": "I/O errors in read_entry can be retried", "statement": "If the underlying stream fails (Interrupted, WouldBlock, ...) while read_entry looks for the next part, read_entry reports that error, and calling it again goes on as if nothing had happened: a caller that repeats the call after each such error gets all parts of the body, in order, with their headers and data, and the same end, and does not have to repeat it for ever.", "quantifier": "every body, every split in pieces, errors of the stream at any places, every way of reading the fields to their end", "why_tests_cant": "errors can hit between any two reads, in any of the reader's states", "anchors": ["src/server/boundary.rs:BoundaryReader::consume_boundary", "src/server/field.rs:read_headers", "src/server/mod.rs:Multipart::read_entry"]}
{"id": "C86", "title": "Cut-off uploads are noticed and lose only what is missing", "statement": "If a body is cut off anywhere before the end of its closing delimiter line (lost connection, client that fails on the way), a server that reads all entries gets exactly those parts whose data and following delimiter arrived, in order, then at most one entry with the headers of the next part and a piece of its data, and then always an error, never a clean end; saving the request never reports Full. Contents of fields are meant up to the CRLF of C01.", "quantifier": "every well-formed body, every place of the cut, every split of what was received, every way of reading the fields to their end; in particular everything the plain and the lazy client send (the latter if no read of a stream is interrupted, see C35)", "why_tests_cant": "a cut can be at any byte of any body, inside a delimiter, a header or data, and interacts with how the bytes arrive", "anchors": ["src/server/boundary.rs:BoundaryReader::read_to_boundary", "src/server/boundary.rs:BoundaryReader::consume_boundary", "src/server/field.rs:read_headers", "src/server/mod.rs:Multipart::read_entry"]}
{"id": "C87", "title": "Lazy Hyper requests arrive", "statement": "client_request and client_request_mut hand Hyper a request whose content type carries the boundary of its body as the servers read it, whose other properties are those the closure chose, and whose body reads out all fields; a length is announced exactly when there are no streams. A server that receives the request by the rules of HTTP reads all fields and the end. If a file cannot be opened, its error is returned and nothing is handed to Hyper.", "quantifier": "all requests, files, streams, closures, buffer sizes and splits of what is received", "why_tests_cant": "the announced length and the body are computed separately and must agree for every mix of texts, files and streams", "anchors": ["src/client/lazy.rs:hyper::client_request", "src/client/lazy.rs:hyper::client_request_mut", "src/client/lazy.rs:hyper::to_body", "src/client/hyper.rs:content_type"]}
{"id": "C88", "title": "Whole-request saves stay in their directory", "statement": "Saving a whole request with temp, temp_with_prefix, with_temp_dir or with_dir creates and changes only files directly in the save directory, under random names that nothing the client sends can influence; every file in the result, whether full or partial, is one of them; no directories but the save directory and those above it are created. with_dir creates any nonexistent directories of the given path. If the directory cannot be created, that error is returned and nothing is read or touched. Dropping the result of temp removes the directory and all that is in it and leaves everything else as it was.", "quantifier": "all requests, read scripts, settings, disks and disk failures", "why_tests_cant": "file names and field names come from the client, and each of many failures may stop the saving at another place", "anchors": ["src/server/save.rs:SaveBuilder::temp", "src/server/save.rs:SaveBuilder::temp_with_prefix", "src/server/save.rs:SaveBuilder::with_temp_dir", "src/server/save.rs:SaveBuilder::with_dir", "src/server/save.rs:create_dir_all", "src/server/save.rs:SaveDir"]}
{"id": "C89", "title": "Cleared limits are no limits", "statement": "size_limit(None), or u64::MAX, clears the limit: saving a field or a request never stops with SizeLimit. count_limit(None), or u32::MAX, likewise with CountLimit. With both cleared, every well-formed request is saved fully on a working disk (if text is forced: one whose text parts are valid UTF-8). memory_threshold(u64::MAX) forces fields to always save to memory.", "quantifier": "all fields, requests (of less than 4 GiB), settings, read scripts and disks", "why_tests_cant": "the limits are compared at several places, with saturating arithmetic and in two phases; that none of them stops any request is a claim about all sizes", "anchors": ["src/server/save.rs:SaveBuilder::size_limit", "src/server/save.rs:SaveBuilder::count_limit", "src/server/save.rs:SaveBuilder::memory_threshold", "src/server/save.rs:SaveBuilder::with_path"]}
{"id": "C90", "title": "The last setting counts", "statement": "After any calls of setters on save(), each setting is what the last call for it said or else the documented default (8 MiB per field, 256 fields, 10 KiB in memory, text if valid), and no setter changes another setting; modifications of the open options add up, starting from options that only create new files, and the write flag is set again after each of them. The same holds for Iron's Intercept (2 MiB per file, 16 files, temporary directory of the system, errors above the limits), which saves with these limits.", "quantifier": "all sequences of setter calls with all arguments", "why_tests_cant": "the number of sequences of calls is unbounded", "anchors": ["src/server/save.rs:SaveBuilder::new", "src/server/save.rs:SaveBuilder::size_limit", "src/server/save.rs:SaveBuilder::mod_open_opts", "src/server/save.rs:SaveBuilder::memory_threshold", "src/server/save.rs:SaveBuilder::try_text", "src/server/save.rs:SaveBuilder::force_text", "src/server/save.rs:SaveBuilder::ignore_text", "src/server/save.rs:SaveBuilder::count_limit", "src/server/iron.rs:Intercept"]}
{"id": "C91", "title": "Temporary directories are where they should be", "statement": "The entries that Iron's middleware adds to a request own a temporary directory directly in temp_dir_path, or in the directory of the system if it is not set, and all their files are in it; temp and temp_with_prefix make theirs in the directory of the system with the promised prefix. temp_dir_path is created if it does not exist.", "quantifier": "all requests, settings, limits, modes and disks", "why_tests_cant": "requests that hit limits are resumed and saved piecewise into the same directory any number of times", "anchors": ["src/server/iron.rs:Intercept::read_request", "src/server/iron.rs:Intercept::read_request_lenient", "src/server/iron.rs:Intercept::temp_dir_path", "src/server/save.rs:SaveBuilder::temp", "src/server/save.rs:SaveBuilder::temp_with_prefix"]}
{"id": "C92", "title": "Hyper clients reach every server integration", "statement": "Fields that can be represented, sent with success by the client or the sized client with the headers that its Hyper backend applies, or by the lazy client (with a stream, or without text fields; no read of a stream interrupted, see C35), and received in any pieces, arrive at every integration: Hyper's Switch, from_request for Iron and tiny_http, and Nickel's multipart_body all make the same reader of the request, which gives all fields, in order, and the end, and saves them all if limits and disk allow. Contents of fields are meant up to the CRLF of C01.", "quantifier": "all fields, write schedules, splits of what is received, ways of reading, settings and disks", "why_tests_cant": "the pieces are written by different people for different libraries (header built as a mime value, parsed as such or searched as text) and must agree for every boundary, body and split", "anchors": ["src/client/hyper.rs:HttpRequest::apply_headers", "src/client/hyper.rs:multipart_mime", "src/client/sized.rs:SizedRequest::finish", "src/client/lazy.rs:hyper::client_request_mut", "src/server/hyper.rs:Switch::handle", "src/server/iron.rs:multipart_boundary", "src/server/nickel.rs:multipart_body", "src/server/tiny_http.rs:multipart_boundary", "src/server/mod.rs:Multipart::from_request"]}
{"id": "C93", "title": "The split into reads does not matter", "statement": "What read_entry, the calls on fields and saving give depends only on the bytes of the body, not on how they are split into reads. (Holds for bodies not longer than the minimum buffer, 1024 bytes or twice the delimiter; not for larger ones, see C01.) So of such a request, sent by the client or the lazy client, exactly the fields that were sent come out.", "quantifier": "all bodies, all splits of them, all sequences of calls, settings and disks", "why_tests_cant": "the splits of a body of n bytes are 2^(n-1) many", "anchors": ["src/server/boundary.rs:BoundaryReader::read_to_boundary", "src/server/boundary.rs:BoundaryReader::consume_boundary", "src/server/boundary.rs:BoundaryReader::set_min_buf_size", "src/server/mod.rs:Multipart::read_entry"]}
{"id": "C94", "title": "Small requests never hit a limit", "statement": "Saving a whole request reports SizeLimit only if the body has more bytes than size_limit and a delimiter line, CountLimit only if the body is long enough for count_limit delimiter lines, and Utf8Error only if text is forced. So a body of at most size_limit bytes that is too short for count_limit delimiter lines is saved in full, or stopped by an I/O error (or, if text is forced, by text that is not UTF-8), never by a limit.", "quantifier": "all bodies, well-formed or not, all splits of them into reads, all failures of the stream and the disk, all settings", "why_tests_cant": "a limit reported too early shows only for particular combinations of body, splits, failures and settings", "anchors": ["src/server/save.rs:SaveBuilder::with_entries", "src/server/save.rs:SaveBuilder<&mut MultipartData>::save_mem", "src/server/save.rs:PartialReason"]}
{"id": "C95", "title": "The example servers answer every request", "statement": "Each of the example servers (tiny_http, Iron, Nickel, Hyper, Rocket) answers every request, whatever its body, and answers a complete upload with status 200 and the contents of all its fields. (Holds for Nickel, Hyper and Rocket, and for small bodies; not for tiny_http and Iron: every complete request with 256 or more parts makes them panic.)", "quantifier": "all requests, bodies, splits of them into reads, failures of the stream and the disk", "why_tests_cant": "the examples say that they set no limits and are tried with a few fields; the defaults are limits, and an upload of 256 fields is not what one tries by hand", "anchors": ["examples/tiny_http.rs:process_request", "examples/iron.rs:process_request", "examples/nickel.rs:handle_multipart", "examples/hyper_server.rs:handle_multipart", "examples/rocket.rs:process_upload", "src/server/save.rs:PartialReason::unwrap_err"]}
{"id": "C96", "title": "The fuzz target never fails", "statement": "The fuzz target of the server returns for all data: from_request accepts the mock request, no read of a field fails, and the loops over fields and data end. The random sizes of the mock request's reads and the choice of the fields that are read do not matter.", "quantifier": "all data and all random choices", "why_tests_cant": "the fuzzer tries samples, this is about all data", "anchors": ["fuzz/fuzzers/server_basic.rs:do_fuzz", "src/mock.rs:ServerRequest", "src/server/mod.rs:Multipart::read_entry", "src/server/boundary.rs:BoundaryReader::read_to_boundary"]}
{"id": "C97", "title": "read_file prints the names of all fields", "statement": "For a file with a well-formed body, read in whatever random pieces, read_file prints the names of all its fields and then 'All entries read!'; if the body breaks off or is damaged behind some fields, it prints their names and then panics. (Holds unless a read ends directly behind the delimiter of a delimiter line or one byte later, and the field before it does not fit into the minimum buffer together with the delimiter line.) It ends for every file.", "quantifier": "all files and all splits of them into reads", "why_tests_cant": "the pieces are random; the failure needs a piece that ends at one of a few places", "anchors": ["src/bin/read_file.rs:main", "src/bin/read_file.rs:RandomReader::read", "src/server/mod.rs:Multipart::read_entry", "src/server/boundary.rs:BoundaryReader::consume_boundary"]}
{"id": "C98", "title": "A request takes bounded memory and disk", "statement": "Whatever the result of saving a whole request is, and also if the interrupted field is kept: the fields kept in memory take at most count_limit * memory_threshold bytes, and at most count_limit * size_limit; at most count_limit files are changed, none of which gets more than size_limit bytes and what was kept in memory before; and all fields together, with their delimiter lines, are not longer than the body.", "quantifier": "all bodies, splits of them into reads, failures of the stream and the disk, settings", "why_tests_cant": "a bound on resources under attack is about the worst request, not about samples", "anchors": ["src/server/save.rs:SaveBuilder (documentation)", "src/server/save.rs:SaveBuilder::with_entries", "src/server/save.rs:SaveBuilder<&mut MultipartData>::save_mem", "src/server/save.rs:SaveBuilder<&mut MultipartData>::with_path", "src/server/save.rs:PartialEntries::keep_partial"]}
{"id": "C99", "title": "The crate's own random tests pass, and what their passing means", "statement": "The four tests of src/local_test.rs (regular and lazy client against the borrowing and the owning server API) pass for every choice of random fields, boundary, split of writes and reads, sizes of read_to_end's buffers and iteration order of maps. If one of their servers ends with no check failed and no field left over, then, whatever the body was, the server read exactly the fields to be sent, as often as they were to be sent, and then the end. The same holds of a whole passed test: the client gave a buffer that announces no length or its own, and the server got exactly the fields from it. Every body they can send is at most 994 bytes, so it fits into the server's buffer, and has no length: what is wrong with larger bodies (C01, C07, C93) or lengths (C31) does not show in them.", "quantifier": "all random choices of the tests; for the second part all bodies and readers", "why_tests_cant": "this is about the tests: a flaky test fails rarely, and which faults a test can never show is not seen by running it", "anchors": ["src/local_test.rs:TestFields::check_field", "src/local_test.rs:test_client", "src/local_test.rs:test_client_lazy", "src/local_test.rs:test_server", "src/local_test.rs:test_server_entry_api", "src/local_test.rs:gen_string"]}
{"id": "C100", "title": "Reads smaller than the minimum buffer are exact", "statement": "A caller who reads every field to its end with read calls for fewer than 1024 bytes (or twice the length of the delimiter, if that is more) gets exactly the data of every field and every part of the body, in whatever pieces the body arrives; the bound is sharp.", "quantifier": "every body, boundary, split of the body into reads, history of calls and sequence of read sizes below the bound", "why_tests_cant": "all splits and all read sizes; the defect of C01 shows only for one split of a long field", "anchors": ["src/server/boundary.rs:BoundaryReader::read_to_boundary", "src/server/boundary.rs:Read::read", "src/server/field.rs:MultipartData::read", "src/server/mod.rs:Multipart::read_entry"]}
{"id": "C101", "title": "The example clients are understood by the example servers", "statement": "If lorem_ipsum.txt is there, of a size the example servers accept, and does not contain the boundary, then hyper_client succeeds with every request that can be written, and hyper_reqbuilder hands over a POST request without a length. Every server integration reads exactly the three fields from them (text, file, binary; or text, binary, file), and the examples for Hyper, Iron and Nickel answer with status 200 and show them. Without the file both clients panic, the first after at most the text field, the second before anything is sent. Contents of fields are meant up to the CRLF of C01.", "quantifier": "all generated boundaries, files, splits of writes and reads, behaviours of the disk with room", "why_tests_cant": "the examples need a server on port 80 and are never run; all files, boundaries and splits", "anchors": ["examples/hyper_client.rs:write_body", "examples/hyper_reqbuilder.rs:main", "examples/hyper_server.rs", "examples/iron.rs", "examples/nickel.rs"]}
{"id": "C102", "title": "form_test always answers", "statement": "bin/form_test answers every request, whatever its headers and body are, with the page, if the page can be read and the response can be written; otherwise it panics.", "quantifier": "all requests, bodies, splits and failures of the stream", "why_tests_cant": "all requests; termination of the loop over entries", "anchors": ["src/bin/form_test.rs:read_multipart", "src/server/mod.rs:Multipart::foreach_entry"]}
{"id": "C103", "title": "A random boundary hardly ever occurs in the request", "statement": "There are 62^16 boundaries, and all are equally likely: the sequences of random numbers that give one correspond one to one to those of the same length that give another. At most as many of them occur in a request as it has bytes, and with every other one all fields arrive. Contents of fields are meant up to the CRLF of C01.", "quantifier": "all requests, all pairs of boundaries, all sequences of random numbers", "why_tests_cant": "a chance below 10^-15 cannot be measured; a biased or too short boundary is not noticed by any test", "anchors": ["src/client/mod.rs:gen_boundary", "src/lib.rs:random_alphanumeric", "src/client/mod.rs:Multipart::send"]}
{"id": "C104", "title": "The example servers do not confirm broken uploads", "statement": "The five example servers refuse a request that is not multipart with status 400 (Hyper: 418), report a temporary directory that cannot be made, and never answer an upload that is cut off with status 200. (False of the code for Nickel, Hyper and Rocket.)", "quantifier": "all requests, all bodies, all points at which a body is cut off, all splits into reads", "why_tests_cant": "a body can be cut off at any byte and after any split; the examples have no tests", "anchors": ["examples/tiny_http.rs", "examples/iron.rs", "examples/nickel.rs", "examples/hyper_server.rs", "examples/rocket.rs", "src/server/save.rs:SaveBuilder::temp"]}
{"id": "C105", "title": "Saving a request is reading it", "statement": "If the disk works, the request is within the limits and the stream does not fail, saving a whole request gives exactly the fields, with exactly the bytes, that reading entry after entry to the end gives, and its result is full exactly if read_entry reported the end. For a body that is cut off: the fields received completely, and at most one truncated one that is not marked as such. Contents of fields are meant up to the CRLF of C01.", "quantifier": "all bodies, well-formed or not, all splits into reads, all settings without force_text", "why_tests_cant": "equality of two loops over all bodies, among them all malformed ones", "anchors": ["src/server/save.rs:SaveBuilder::with_entries", "src/server/mod.rs:Multipart::read_entry", "src/server/save.rs:SaveBuilder::with_dir"]}
{"id": "C106", "title": "The Iron middleware example confirms uploads", "statement": "The example server with the Intercept middleware answers every request and never panics: an upload within the limits is confirmed with status 200 and a text that shows all its entries; other requests get a text that says what is wrong with them. After the answer nothing is left of the temporary directory. (False of the code for the status: neither the example nor the middleware sets one, so Iron sends 404 for every request. The rest is proved.)", "quantifier": "all requests, bodies, splits into reads, all states and failures of the disk", "why_tests_cant": "all bodies and all failures; the tests of the crate do not run the example", "anchors": ["examples/iron_intercept.rs:main", "src/server/iron.rs:Intercept::before", "src/server/iron.rs:FileCountLimitError", "src/server/iron.rs:FileSizeLimitError"]}
{"id": "C107", "title": "fill_buf keeps the minimum buffer size", "statement": "After set_min_buf_size(n), fill_buf returns at least n bytes, unless it returns all that is left of the field or the end of the stream was reached; and the stream is not read again while at least the minimum is left in the buffer. (False of the code: bytes that may be the beginning of a delimiter, with the line break before it, are held back. Proved with the length of the delimiter and one less, which is sharp.)", "quantifier": "every body, boundary, split into reads, history of calls and size", "why_tests_cant": "all histories of calls and all splits; the exception needs a read that ends in something that looks like a delimiter", "anchors": ["src/server/field.rs:MultipartData::set_min_buf_size", "src/server/boundary.rs:BoundaryReader::read_to_boundary", "src/server/boundary.rs:find_boundary"]}
{"id": "C108", "title": "A field beyond the size limit stops the upload there, and only there", "statement": "If the first k parts of a body are within the limits and the next one is longer than size_limit and memory_threshold together, saving ends as partial with the size limit as the reason; the first k parts are saved in full, the partial field has the headers of the next one, and its data are the beginning of that part. The example servers make different things of this: those for tiny_http and Iron panic, Nickel's shows the beginning of the field as if it was all, Hyper's leaves it out, Rocket's says where it stopped. Contents of fields are meant up to the CRLF of C01.", "quantifier": "all bodies, boundaries, splits into reads, settings (with create_new files; if text is forced, these parts are UTF-8 where they are text), k, and whatever follows in the body", "why_tests_cant": "all sizes and positions of the large field; the tests of the crate stay below the limits", "anchors": ["src/server/save.rs:SaveBuilder::with_entries", "src/server/save.rs:SaveBuilder::with_path", "src/server/save.rs:try_copy_limited", "src/server/save.rs:PartialReason::unwrap_err", "examples/tiny_http.rs:process_request", "examples/iron.rs:process_request", "examples/nickel.rs:handle_multipart", "examples/hyper_server.rs:handle_multipart", "examples/rocket.rs:process_upload"]}
{"id": "C109", "title": "The example servers when an answer cannot be written", "statement": "If the fields of a complete upload within the limits were saved but cannot be shown (write_debug fails), the examples for tiny_http, Iron and Rocket answer with status 500 and nothing of what was written so far; Nickel's has answered with status 200 and adds the error, or panics if the connection is lost; Hyper's panics, and without a connection it also panics where it would have refused the request.", "quantifier": "all uploads within the limits, all splits into reads, all errors and all texts written before them", "why_tests_cant": "needs files that vanish between saving and printing, or a connection lost at that moment", "anchors": ["examples/tiny_http.rs:process_entries", "examples/iron.rs:process_entries", "examples/nickel.rs:process_entries", "examples/hyper_server.rs:process_entries", "examples/rocket.rs:process_upload"]}
{"id": "C110", "title": "Lenient interception accepts fields of any length", "statement": "Intercept in Continue mode accepts a request with a complete body and fewer parts than file_count_limit, however long these are: all parts are among the entries, in order, those longer than file_size_limit truncated. Contents of fields are meant up to the CRLF of C01.", "quantifier": "all bodies, boundaries, splits into reads, limits, and sizes of the fields (with a disk that works)", "why_tests_cant": "all splits of the body into reads, and all sizes on both sides of the limit", "anchors": ["src/server/iron.rs:Intercept::read_request_lenient", "src/server/iron.rs:LimitBehavior::Continue", "src/server/boundary.rs:BoundaryReader::consume_boundary"]}
{"id": "C111", "title": "The message of a header error says what is wrong", "statement": "When read_entry fails because of the headers of a part, the error is InvalidData and its text is true of this part: it says that Content-Disposition is missing (with the headers that are there), or that it has no data behind its type, another type than form-data, or no name (with the text where this is so), or that Content-Type is no media type (with its value); that the headers are not text or cannot be tokenized; that they are too long or not complete at the next delimiter or the end of the body; or that the stream failed. For a header block of at most the size of the buffer it is exactly the complaint about its headers, for every split of the body.", "quantifier": "all bodies, boundaries, splits into reads, stream errors, histories of calls, and header lists", "why_tests_cant": "all header blocks, all splits of them into reads, and all states the reader can be in", "anchors": ["src/server/field.rs:ParseHeaderError", "src/server/field.rs:ContentDisp::parse_required", "src/server/field.rs:parse_content_type", "src/server/field.rs:with_headers", "src/server/field.rs:ReadEntry::read_entry"]}
{"id": "C112", "title": "Names and filenames change nothing but the names that are read", "statement": "Whatever strings the clients are given as names and filenames (as long as the delimiter does not occur in what they write), the server reads one entry for each field, with the contents and the content type that were given, and with a filename exactly if one was given; an attacker who chooses a name cannot choose anything else.", "quantifier": "every sequence of client calls with any names, both clients, every boundary of letters and digits, every write schedule, every delivery of the body and every sequence of read calls", "why_tests_cant": "the space of names; each test names its fields harmlessly", "anchors": ["src/client/mod.rs:MultipartWriter::write_field_headers", "src/client/lazy.rs:PreparedFields::from_fields", "src/server/field.rs:ContentDisp::parse_required", "src/server/field.rs:with_headers", "src/server/mod.rs:Multipart::read_entry"]}
{"id": "C113", "title": "Saved files with other open options", "statement": "Whatever options are set with mod_open_opts, a file that a save reports holds the bytes taken from the field and nothing else, and its size is the one reported; no other file is touched. If the options do not allow to open the file (it exists but must be new, it is missing and must not be created, or the options contradict each other), a field that does not fit in memory is refused with that error and no file changes.", "quantifier": "every open options and other settings, every file system, body, delivery, schedule of writes and target", "why_tests_cant": "the combinations of options and old contents; tests save into empty directories with the default options", "anchors": ["src/server/save.rs:SaveBuilder::mod_open_opts", "src/server/save.rs:SaveBuilder::with_path", "src/server/save.rs:create_dir_all"]}
{"id": "C114", "title": "The reader reads no further ahead than its minimum buffer", "statement": "Whatever is called on a request and its fields, the stream is read only while fewer than the minimum buffer (1024 bytes, twice the delimiter, or the most that set_min_buf_size was called with) of what was read before are left; so if the stream delivers at most n bytes at once, the buffer always holds fewer than the minimum buffer and n bytes. This bound is reached. It also holds while whole requests are saved, for every body, size of fields and result.", "quantifier": "all bodies, boundaries, splits into reads, failures of the stream, histories of calls, settings", "why_tests_cant": "a bound on memory for all bodies, however long their fields, headers and preambles are", "anchors": ["src/server/boundary.rs:BoundaryReader::read_to_boundary", "src/server/boundary.rs:BoundaryReader::set_min_buf_size", "src/server/save.rs:SaveBuilder::with_entries"]}
{"id": "C115", "title": "Random file names hardly ever collide", "statement": "There are 62^12 random file names, and all sequences of n of them are equally likely. Of the sequences for a request with n parts, at most the share (n*k + n(n-1)/2)/62^12 has two equal names or one of the k names of files in the directory; with every other sequence a request within the limits is saved fully. With a name that is taken, a field that does not fit in memory is refused with AlreadyExists (no other name is tried), and the existing file stays as it is.", "quantifier": "all requests, directories and sequences of random numbers", "why_tests_cant": "chances below 10^-15 cannot be measured, and no test can choose the random numbers", "anchors": ["src/server/save.rs:rand_filename", "src/lib.rs:random_alphanumeric", "src/server/save.rs:SaveBuilder::with_dir"]}
{"id": "C116", "title": "Uploads of other clients are read as RFC 7578 says", "statement": "Every multipart/form-data body as browsers write it - any boundary without line breaks, any preamble and epilogue, header lines in any order with any names besides, quoted names and filenames without quotes inside, no line of a part beginning with the delimiter - is read as exactly its parts, in order, with their names, filenames, content types and data, and within the limits it is saved fully.", "quantifier": "all boundaries, preambles, epilogues, lists of parts, headers, data, splits into reads and read calls", "why_tests_cant": "all forms any client may send; the tests only read what the crate's own client has written", "anchors": ["src/server/mod.rs:Multipart::read_entry", "src/server/field.rs:FieldHeaders::parse", "src/server/boundary.rs:BoundaryReader::read_to_boundary"]}
{"id": "C117", "title": "Order and case of headers and other headers do not matter", "statement": "Two lists of headers that agree on Content-Disposition and Content-Type (each at most once, names compared without regard to case) are both accepted, with the same name, filename and content type, or are both refused for the same reason, whatever the order of their headers and whatever other headers they contain; in particular every permutation of the headers is read alike. If a body is read as certain entries, so is every body whose parts differ from its parts only in this way, whatever its boundary, preamble, epilogue and split into reads.", "quantifier": "all lists of headers, all bodies with up to four header lines of bounded size per part, all splits", "why_tests_cant": "all permutations and all additional headers of all header lists", "anchors": ["src/server/field.rs:FieldHeaders::parse", "src/server/field.rs:find_header", "src/server/field.rs:ContentDisp::parse_required"]}
{"id": "C118", "title": "Different requests are different on the wire", "statement": "What a client has sent with success determines the boundary and the fields (names, filenames, content types and data, in order), provided that the delimiter does not occur in a field; for lazy requests it determines them up to the order in which they are sent.", "quantifier": "all pairs of requests, boundaries, fields, files, streams and write schedules", "why_tests_cant": "a statement about all pairs of requests", "anchors": ["src/client/mod.rs:MultipartWriter::write_field_headers", "src/client/mod.rs:Multipart::send", "src/client/lazy.rs:PreparedFields::from_fields"]}
{"id": "C119", "title": "A server saves one request after another", "statement": "What was saved stays readable as it was, whatever requests are saved afterwards (to any directory, with any result) and whatever other temporary directories are removed. Any number of complete requests within the limits, saved one after the other to the same directory of a disk that works, are all saved fully, and after the last one every part of every one of them is there with its headers and data.", "quantifier": "all sequences of requests, directories, settings (with create_new), streams, disk scripts and removals", "why_tests_cant": "sequences of requests of any length in any order", "anchors": ["src/server/save.rs:SaveBuilder::with_entries", "src/server/save.rs:SaveBuilder::with_dir", "src/server/save.rs:SaveDir::drop", "src/server/save.rs:create_dir_all"]}
{"id": "C120", "title": "A bad part costs only what follows it", "statement": "If the headers of some part of a body are refused, for whatever reason (not valid, not complete before the next delimiter, not UTF-8, no or a wrong Content-Disposition, no name, a bad Content-Type), a caller who reads all entries gets every part in front of it, with its headers and data, and then InvalidData. A whole-request save of a body that cannot be read to its end, be it for such a part, a damaged delimiter line or a missing end, is never reported as full; if it is otherwise within the limits, it reports exactly that error, and every part in front of the bad one is saved with its headers and data.", "quantifier": "all tokenizers of headers that meet the assumptions, boundaries, bodies, numbers of good parts, bad parts, splits into reads, save settings, directories and disks", "why_tests_cant": "There is no bound on the number of good parts in front, and infinitely many ways for headers to be bad; a test picks one body in one split.", "anchors": ["src/server/field.rs:with_headers", "src/server/field.rs:FieldHeaders::parse", "src/server/field.rs:read_entry", "src/server/boundary.rs:BoundaryReader::consume_boundary", "src/server/save.rs:SaveBuilder::with_entries"]}
{"id": "C121", "title": "At most four header lines per part", "statement": "A part with more than four header lines is refused with InvalidData, even if all of them are well-formed and the first ones describe a field; every part in front of it is read or saved as if it were not there. (A part with up to four header lines is accepted: C116, C117.)", "quantifier": "all tokenizers that meet the assumptions (among them that they report an error if there are more headers than they have room for), boundaries, preambles, epilogues, good parts, header lines beyond the fourth, splits into reads, save settings and disks", "why_tests_cant": "The number, names and values of the header lines and the parts around them are unbounded.", "anchors": ["src/server/field.rs:with_headers"]}
{"id": "C122", "title": "A caller can go on after a part with bad headers", "statement": "A caller who reads every field to its end and simply calls read_entry again whenever it reports InvalidData gets every part with good headers, in order, with its headers and data, InvalidData exactly once for each part whose headers are refused, wherever such parts stand and however many there are, and then the end of the body (or UnexpectedEof if it is cut off); it always gets to that end.", "quantifier": "all tokenizers and MIME parsers that meet the assumptions, boundaries, bodies with any sequence of good and refused parts, splits into reads, and ways to read the fields", "why_tests_cant": "The sequences of good and bad parts and the ways the body can be split into reads are unbounded.", "anchors": ["src/server/mod.rs:read_entry", "src/server/field.rs:read_from", "src/server/boundary.rs:consume_boundary"]}
{"id": "C123", "title": "What was read can be sent on", "statement": "The names, filenames and content types that read_entry reports, for whatever body, never contain a semicolon (names), a control character or a double quote at either end (names), so the client can send them as they are. If the entries read from any body are sent by the client with a boundary that does not occur in them, and the result is read again, the same names, filenames, content types and data come out, in the same order; only fields without a content type that have a filename or are not text get the type application/octet-stream. With the lazy client the same holds for at least one entry, with the untyped entries first and the others backwards. A proxy built from this server and this client thus passes requests through unchanged.", "quantifier": "all tokenizers and MIME parsers that meet the assumptions, bodies, boundaries on both sides, splits into reads on both sides, ways to read the fields, write schedules and pieces in which the data is sent", "why_tests_cant": "Bodies, names, data and the splits on both sides are unbounded, and the claim is about two runs of different halves of the crate.", "anchors": ["src/server/field.rs:parse_required", "src/server/field.rs:trim_quotes", "src/server/field.rs:get_str_after", "src/client/mod.rs:write_field_headers", "src/server/mod.rs:read_entry", "src/client/lazy.rs:prepare"]}
{"id": "C124", "title": "A save can be resumed after an error of the stream", "statement": "A caller who saves a request with with_entries, and calls it again with the entries of the partial result whenever this reports an I/O error that can only come from the underlying stream and no field was begun (as the documentation of with_entries suggests), ends with all parts of the body saved, each once, in order, with its headers and data, and with the right result; files saved by earlier calls stay as they are; and resuming comes to an end.", "quantifier": "all tokenizers and MIME parsers that meet the assumptions, boundaries, bodies, splits into reads, numbers and positions of errors, settings with create_new, directories, and disks", "why_tests_cant": "The positions of errors in the stream, and so the number of resumed calls and where each stops, are unbounded; the claim is about the entries and files after all of them.", "anchors": ["src/server/save.rs:with_entries", "src/server/mod.rs:read_entry", "src/server/field.rs:read_from", "src/server/boundary.rs:consume_boundary"]}
{"id": "C125", "title": "A field that cannot be saved costs only itself", "statement": "If a caller saves a request with with_entries, and whenever the result is Partial and names an unfinished field (it was larger than size_limit, the disk failed, it was not text although text was forced) calls with_entries again with the entries saved so far, with whatever settings, and in the end gets Full, then the body ended with the closing delimiter and all its parts are saved, each once, in order, with headers and data, except exactly the fields the partial results named. Going on in this way does reach Full for every well-formed body with fewer parts than count_limit, whatever the size limit and whatever the disk does, provided no read of the body ends in a delimiter line or all fields are shorter than the buffer.", "quantifier": "all tokenizers and MIME parsers that meet the assumptions, boundaries, bodies, splits into reads, sequences of settings with create_new, directories, and disk failures", "why_tests_cant": "Which fields fail, at which byte, and how the rest of the body is split behind them is unbounded, as is the number of calls.", "anchors": ["src/server/save.rs:with_entries", "src/server/save.rs:write_to", "src/server/mod.rs:read_entry", "src/server/boundary.rs:consume_boundary"]}
{"id": "C126", "title": "A part without a body is an empty field", "statement": "A part that consists of its header block only, so that the next delimiter comes directly behind the blank line (RFC 2046 allows a body part without a body), is returned by read_entry as a field with these headers and without data; as is one whose body is empty, so that CRLF stands between the blank line and the delimiter line.", "quantifier": "all tokenizers and MIME parsers that meet the assumptions, boundaries, bodies and splits into reads", "why_tests_cant": "The CRLF of the blank line and that of the delimiter meet at any position of the body and of a read; tests show single cases only.", "anchors": ["src/server/boundary.rs:read_to_boundary", "src/server/field.rs:read_from", "src/server/field.rs:with_headers"]}
{"id": "C127", "title": "What is read is decided by the bytes", "statement": "For every body whatever, well-formed or not, two callers who read all its entries get entries with the same headers and the same end (end of the body, or the same error), however the body is split into reads and however each of them reads its fields. And with_entries reports Full only for bodies which are a sequence of parts up to a closing delimiter, all of which are then saved.", "quantifier": "all bodies (any byte string), all pairs of splits into reads and of ways of reading, boundaries, tokenizers and MIME parsers that meet the assumptions", "why_tests_cant": "It is about every byte string as a body, and every pair of splits of it.", "anchors": ["src/server/mod.rs:read_entry", "src/server/field.rs:read_from", "src/server/boundary.rs:consume_boundary", "src/server/boundary.rs:read_to_boundary", "src/server/save.rs:with_entries"]}
{"id": "C128", "title": "Nothing is held back without need", "statement": "Of the bytes that have been read from the stream, fill_buf of a field shows all that are in front of the delimiter, except bytes at their end that may be the beginning of the delimiter, or of CRLF and the delimiter. So at most as many bytes as the delimiter has, and one, are held back, unless the delimiter itself has arrived.", "quantifier": "all streams and splits into reads, boundaries, reachable states and histories of calls", "why_tests_cant": "A prefix of the delimiter can end at any position of any read, and the cursor may stand anywhere from earlier calls.", "anchors": ["src/server/boundary.rs:read_to_boundary", "src/server/boundary.rs:find_boundary", "src/server/boundary.rs:fill_buf"]}
{"id": "C129", "title": "Bytes are looked at once", "statement": "Reading takes work in proportion to the body. read_entry gives the header parser at most one piece of the body, which is shorter than the minimum buffer and one read; bytes that fill_buf has shown are not searched again by the next call, except the last two of them; and to find the delimiter behind data that was not read takes at most one round for as many bytes as the minimum buffer holds less the delimiter and one byte, and one round.", "quantifier": "all streams without a stalled read, splits into reads, boundaries, reachable states, tokenizers and MIME parsers", "why_tests_cant": "That no bytes are looked at is not visible in a result; the claim compares the results for all contents of these bytes, and counts the rounds for every length.", "anchors": ["src/server/boundary.rs:read_to_boundary", "src/server/boundary.rs:consume_boundary", "src/server/field.rs:with_headers"]}
{"id": "C130", "title": "Answers depend only on what has arrived", "statement": "As long as the last reads of a stream have not been made, all answers of read_entry, fill_buf and read, and the reads that were made, are the same whatever the last reads bring: other bytes, the end, or an error. So a caller who has taken some bytes of a body got answers that depend on these bytes and at most the minimum buffer of bytes behind them only; a server can act on a field before the rest of the request has arrived.", "quantifier": "all streams, continuations of a stream, boundaries, histories of calls, tokenizers and MIME parsers", "why_tests_cant": "It compares all continuations of a stream for every history of calls.", "anchors": ["src/server/boundary.rs:read_to_boundary", "src/server/boundary.rs:consume_boundary", "src/server/field.rs:read_entry", "src/server/field.rs:with_headers"]}
{"id": "C131", "title": "What has arrived can be read without waiting for more", "statement": "A body that has arrived up to its closing delimiter can be read to its end whatever the stream does afterwards: the same calls give the same answers if more data follows, or an error (a timeout, a reset), as if the stream ended there; no call reads, or waits for, bytes behind the closing delimiter.", "quantifier": "all streams that bring a complete body, continuations, boundaries, histories of calls, tokenizers and MIME parsers", "why_tests_cant": "Tests read from slices and files, which end at once; what happens when the stream stays open or fails shows only in a connection.", "anchors": ["src/server/boundary.rs:read_to_boundary", "src/server/boundary.rs:consume_boundary", "src/server/field.rs:read_entry"]}
{"id": "C132", "title": "Raising a limit never hurts", "statement": "What is saved in full is saved in full with a larger size_limit, memory_threshold or count_limit: raising a limit of SaveBuilder changes no result except one that was cut by that limit.", "quantifier": "all settings, larger limits, targets of a save, disks, streams, states of the reader, tokenizers and MIME parsers", "why_tests_cant": "A test compares a few settings on a few fields; whether a larger limit can turn a full save into a partial one depends on how the limits meet the pieces in which the field arrives.", "anchors": ["src/server/save.rs:size_limit", "src/server/save.rs:memory_threshold", "src/server/save.rs:count_limit", "src/server/save.rs:with_path", "src/server/save.rs:with_entries", "src/server/save.rs:write_to", "src/server/save.rs:cmp_size_limit"]}
{"id": "C133", "title": "What is saved depends only on what has arrived", "statement": "The result of saving a field or a request, and what it leaves on the disk, depend only on the bytes that were taken from the stream and on one minimum buffer more. In particular, as soon as more bytes of a field have arrived than the limits allow, and one minimum buffer more, saving it stops at the size limit with the same result whatever follows: more data, the end of the field, an error of the stream or nothing.", "quantifier": "all streams, continuations of a stream, boundaries, histories of calls before the save, settings, targets of a save, disks, tokenizers and MIME parsers", "why_tests_cant": "A test sees one continuation of a stream; that no continuation makes a difference, also on the disk, is about all of them.", "anchors": ["src/server/save.rs:try_read_buf", "src/server/save.rs:try_copy_limited", "src/server/save.rs:with_path", "src/server/save.rs:with_entries", "src/server/boundary.rs:read_to_boundary"]}
{"id": "C134", "title": "Multipart bodies inside of a field can be read", "statement": "If the data of a field are a multipart body with another boundary, Multipart::with_body(field.data, inner boundary) reads exactly the parts of the inner body and its end, whatever stands before and behind them in the field, and the outer body can be read on behind it. If the inner boundary begins with the outer one, the field ends at the first delimiter of the inner body and nothing behind it is read from either body.", "quantifier": "every outer body, boundary and split into reads, every field and position, every inner body and boundary, every sequence of sizes of the reads made by the inner reader", "why_tests_cant": "Two readers are stacked, each with its own buffer and search for its own delimiter; what the inner one sees depends on how the outer body arrived, on the sizes of its own reads, and on how the outer one holds back bytes.", "anchors": ["src/server/field.rs:MultipartData::read", "src/server/mod.rs:with_body", "src/server/boundary.rs:read"]}
{"id": "C135", "title": "The limits bound how much of a body is read", "statement": "However long a body is, saving the request reads no more of it than is allowed by the limits: at most so many bytes for each of count_limit + 1 parts as may be kept in memory and written to a file, its delimiter line, and one buffer for its headers; and one buffer more.", "quantifier": "all bodies, splits into reads, boundaries, settings with a size limit, disks, results of the save, tokenizers and MIME parsers", "why_tests_cant": "The bound is about bodies of any length, and holds only if no loop of the code goes on reading behind a limit, in whatever state the limit was met.", "anchors": ["src/server/save.rs:with_entries", "src/server/save.rs:try_copy_limited", "src/server/boundary.rs:consume_boundary", "src/server/field.rs:with_headers"]}
{"id": "C136", "title": "tiny_http requests may write the boundary in any legal way", "statement": "A POST request whose first Content-Type header says multipart/form-data and has a parameter boundary, written in any way that RFC 7231 allows (name in any case, value bare or in quotes, white space around the semicolons, other parameters before and behind), is accepted by Multipart::from_request for tiny_http, and its body is read with this boundary.", "quantifier": "all requests, media types, parameter lists and bodies", "why_tests_cant": "the header has unboundedly many legal forms, and for the ones that are misread every body must be shown to be unreadable", "anchors": ["src/server/tiny_http.rs:multipart_boundary", "src/server/mod.rs:from_request"]}
{"id": "C137", "title": "The limits bound what a request occupies on the disk and in memory", "statement": "A save into fresh entries, whatever the request contains and however the save ends (complete, partial or with an error), makes all files of the file system together grow by at most count_limit times size_limit bytes and changes at most count_limit of them; the fields which it leaves in memory, including the one that was being saved, take at most count_limit times the smaller of size_limit and memory_threshold. Saving into entries that have fields already is bounded in the same way by what is left of count_limit.", "quantifier": "all streams, bodies, boundaries, limits, entries and file systems, and all sets of files", "why_tests_cant": "the bound is on the sum over all files after any request, including the ones that fail at any point of any field", "anchors": ["src/server/save.rs:with_entries", "src/server/save.rs:with_dir", "src/server/save.rs:write_to", "src/server/save.rs:push_field", "src/server/save.rs:recount_fields"]}
{"id": "C138", "title": "Iron interception takes bounded space, even when it never returns", "statement": "While Intercept handles a request, with either limit behaviour, whatever the request contains and whatever the outcome (accepted, rejected, an I/O error, or an endless lenient loop), all files of the system together have at most file_count_limit times (file_size_limit + min(file_size_limit, 10 KiB)) more bytes than before, at most file_count_limit files are new or changed, and the entries it hands on take at most file_count_limit times min(file_size_limit, 10 KiB) of memory.", "quantifier": "all requests, limits, limit behaviours, file systems, failures of the disk, sets of files, and times at which one looks", "why_tests_cant": "the lenient loop may run for ever, and the bound must hold after every number of its rounds, for every request", "anchors": ["src/server/iron.rs:read_request_strict", "src/server/iron.rs:read_request_lenient", "src/server/iron.rs:before", "src/server/save.rs:keep_partial", "src/server/save.rs:recount_fields"]}
{"id": "C139", "title": "Requests that are saved at the same time do not disturb each other", "statement": "When any number of threads save requests at the same time to the same disk, also to the same directory, then at any time the entries of each thread are the first parts of its own request, with their headers, and what it has saved can be read back and is their data; a save that reports Full has all parts. No two fields, of one request or of several, are saved to the same file. If the disk works, the random names are new and the requests are within their limits, all of them are saved fully, in whatever order the threads run.", "quantifier": "all numbers of threads, requests, settings, directories, streams and disks, all interleavings of the threads, and anything else that happens on the disk in between", "why_tests_cant": "the interleavings are unbounded and not under the control of a test", "anchors": ["src/server/save.rs:with_entries", "src/server/save.rs:with_dir", "src/server/save.rs:new", "src/server/save.rs:rand_filename"]}
{"id": "C140", "title": "The example servers leave nothing behind and never fill the disk", "statement": "When one of the example servers (tiny_http, iron, nickel, hyper_server, rocket) has answered a request, also if it panics while doing so, whatever the request contains and however saving it ends, no file outside of the temporary directory of the request was changed, and if the directory could be deleted nothing is left in it. After any number of requests all files are as they were at the start, and meanwhile all files together never have more than 256 times (8 MiB + 10 KiB) more bytes than at the start.", "quantifier": "all requests to the five servers, all sequences of them, streams, file systems, failures of the disk while saving, sets of files, and times at which one looks", "why_tests_cant": "it concerns every request, malformed, cut off or too large, and sequences without bound; a file that is left over for one kind of failure fills the disk only in the long run", "anchors": ["examples/tiny_http.rs:process_request", "examples/iron.rs:process_request", "examples/nickel.rs:handle_multipart", "examples/hyper_server.rs:handle_multipart", "examples/rocket.rs:process_upload", "src/server/save.rs:temp", "src/server/save.rs:keep_partial"]}
{"id": "C141", "title": "The example servers can handle requests at the same time", "statement": "The example servers may handle any requests at the same time, in any number of threads that take turns in any order. At any time only files in the temporary directories of the requests that are being saved then are different from the start, and all files together have at most 256 times (8 MiB + 10 KiB) more bytes for each of these requests. What a thread has saved are the first parts of its own request, with their headers and data, and all parts if its save is Full. After a bounded number of steps of each thread all requests are handled, and all files are as they were at the start.", "quantifier": "all requests to the example servers, numbers of threads, interleavings, streams, file systems, failures of the disk while saving, sets of files, and times at which one looks", "why_tests_cant": "the interleavings and the requests are unbounded, and a test does not control the order in which threads run", "anchors": ["examples/iron.rs:process_request", "examples/nickel.rs:handle_multipart", "examples/hyper_server.rs:handle_multipart", "examples/rocket.rs:process_upload", "src/server/save.rs:temp", "src/server/save.rs:with_entries"]}
{"id": "C142", "title": "Spaces behind a delimiter do not matter", "statement": "RFC 2046 allows spaces and tabs between a delimiter and the end of its line (\"transport padding\"), which a receiver has to ignore. A body with such padding behind any of its delimiters is read as the parts that were written, with their headers and data.", "quantifier": "all boundaries without line breaks, preambles, epilogues, parts with up to four header lines, paddings, splits into reads, ways to read the fields, save settings and disks", "why_tests_cant": "The bodies, the paddings and the ways they can be split into reads are unbounded.", "anchors": ["src/server/boundary.rs:consume_boundary", "src/server/mod.rs:read_entry", "src/server/save.rs:with_entries"]}
{"id": "C143", "title": "A delimiter counts only at the beginning of a line", "statement": "RFC 2046 defines a delimiter as being at the beginning of a line. A body of which no part has a line that begins with the delimiter is read as the parts that were written, with their headers and data, even if the bytes of the delimiter stand inside of a line of the data.", "quantifier": "all boundaries without line breaks, preambles, epilogues, parts with up to four header lines, data with the bytes of the delimiter anywhere but at the beginning of a line, splits into reads, ways to read the fields, save settings and disks", "why_tests_cant": "The bodies, the places of the delimiter in them and the ways they can be split into reads are unbounded.", "anchors": ["src/server/boundary.rs:find_boundary", "src/server/boundary.rs:read_to_boundary", "src/server/boundary.rs:consume_boundary", "src/server/save.rs:with_entries"]}
{"id": "C144", "title": "Iron can intercept requests at the same time", "statement": "Iron may handle any requests at the same time, in any number of threads that take turns in any order and share one Intercept with LimitBehavior::ThrowError. At any time only files in the temporary directories of the requests that are being saved or handled then are different from the start, and all files together have at most file_count_limit times (file_size_limit + 10 KiB) more bytes for each of these requests. The entries of a request are the first parts of its own body, with their headers and data, while they are being saved, and all of its parts as long as the handler has them. After a bounded number of steps of each thread all requests are handled, and all files are as they were at the start.", "quantifier": "all requests to Iron, limits (file_size_limit below u64::MAX), numbers of threads, interleavings, streams, file systems, failures of the disk while saving, sets of files, and times at which one looks", "why_tests_cant": "the interleavings and the requests are unbounded, and a test does not control the order in which threads run", "anchors": ["src/server/iron.rs:before", "src/server/iron.rs:read_request", "src/server/iron.rs:read_request_strict", "src/server/save.rs:with_temp_dir", "src/server/save.rs:with_entries"]}
{"id": "C145", "title": "To a request it makes no difference what else is handled at the same time", "statement": "Requests may be saved or handled at the same time, in any number of threads that take turns in any order: saved with any settings into directories none of which is within another, or handled by the example servers, or intercepted by Iron's middleware in either mode. Then to each request happens exactly what would happen if it were the only one, from the same files on, with some sequence of the failures of the disk and random names that occurred: its thread gets into the same states after as many steps (in particular it has the same entries, errors and results), and the files in its directory are the same.", "quantifier": "all requests, settings and limits, numbers of threads, interleavings, streams, file systems, failures of the disk, and times at which one looks", "why_tests_cant": "the interleavings and the requests are unbounded, and a test does not control the order in which threads run; that the effects of two requests never meet is a statement about pairs of executions", "anchors": ["src/server/save.rs:with_entries", "src/server/save.rs:with_dir", "src/server/save.rs:with_temp_dir", "src/server/iron.rs:before", "src/server/iron.rs:read_request_strict", "src/server/iron.rs:read_request_lenient"]}
{"id": "C146", "title": "Iron's middleware takes bounded space while it intercepts requests at the same time, and a lenient one hands on and answers all requests with few enough parts", "statement": "Let Iron's middleware intercept any number of requests at the same time, in threads that take turns in any order, each with a fresh temporary directory. In both modes, at any time: the files outside of the directories of the requests that are being handled are as they were before; the disk holds at most file_count_limit * (file_size_limit + min(file_size_limit, 10 KiB)) bytes more for each request that is being handled; and each request has at most file_count_limit entries, which hold at most file_count_limit * min(file_size_limit, 10 KiB) bytes in memory. In the lenient mode: after 5 * file_count_limit + 4 steps of its thread a request is finished, or it holds file_count_limit entries; one with fewer parts than file_count_limit is finished. And a handler gets, whatever else is going on, the entries of its own request only: the request was complete, has fewer parts than file_count_limit, and the entries are all its parts in order, each with its contents, or with the beginning of them if these are longer than file_size_limit.", "quantifier": "all requests, limits, numbers of threads, interleavings, streams, file systems, failures of the disk, and times at which one looks", "why_tests_cant": "the interleavings and the requests are unbounded, and a test does not control the order in which threads run; the bounds are for all times and for all failures of the disk", "anchors": ["src/server/iron.rs:before", "src/server/iron.rs:read_request_lenient", "src/server/iron.rs:read_request_strict", "src/server/save.rs:keep_partial", "src/server/save.rs:with_entries"]}
{"id": "C147", "title": "A bounded number of bytes decides about a request", "statement": "If size_limit is not u64::MAX, there is a number of bytes, given by the limits, the length of the boundary, the longest read of the stream and the place of the first delimiter, after which a save has ended: when so many bytes of a body have arrived, the result of saving the request, and what is on the disk then, are the same whatever follows (more data, the end, an error), and nothing of it is read. So Iron's strict middleware answers a request, or hands its entries on, and the example servers answer one, in a way that depends only on so many bytes of it. For a lenient middleware there is no such number: however many bytes have arrived, it may depend on what follows whether the request is handed on or answered with an error.", "quantifier": "all bodies, boundaries, limits, sizes of reads, file systems, failures of the disk, and everything that can follow the bytes that have arrived", "why_tests_cant": "it is a statement about all continuations of all long requests; with the default limits the number is more than two billions", "anchors": ["src/server/save.rs:with_entries", "src/server/iron.rs:before", "src/server/iron.rs:read_request_strict", "src/server/iron.rs:read_request_lenient", "src/server/boundary.rs:read_to_boundary", "examples/tiny_http.rs:process_request", "examples/iron.rs:process_request", "examples/nickel.rs:handle_multipart", "examples/hyper_server.rs:handle_multipart", "examples/rocket.rs:multipart_upload"]}
{"id": "C148", "title": "Files grow write by write while other threads run", "statement": "Requests are saved in threads on one disk, files are opened with create_new (as by default), and every single call of write is a step between which other threads run and the disk changes elsewhere. At any time the threads are where they could be if each file were written in one step, and every file that is not being written has the same bytes as then; so the entries a thread holds are its own parts in order, each with the data of its part, its file is not held by any other thread and exists, and a thread that has returned everything has saved every part. The file that is being written holds a beginning of the data that is saved for the next part of this thread's request, and nothing else. A thread that runs alone ends with the result, the disk and the reader of with_entries. With any settings, if every request has a directory of its own, a save that has returned has the result of a save of this request alone, on a disk with the same files and with nothing happening that does not happen on this disk, and the files in its directory are the same.", "quantifier": "all interleavings of single writes of any number of threads, all requests, settings, short and failed and interrupted writes, and changes of other files in between", "why_tests_cant": "the number of interleavings of single writes is unbounded, and a test has no hold on where a write is cut short or another thread runs", "anchors": ["src/server/save.rs:with_path", "src/server/save.rs:write_to", "src/server/save.rs:try_copy_limited", "src/server/save.rs:try_write_all", "src/server/save.rs:with_entries"]}
{"id": "C149", "title": "A process that is stopped in the middle of a save leaves only beginnings", "statement": "Requests are saved at the same time, also in the same directory, files are opened with create_new (as by default), and every single call of write is a step. If everything stops at any moment (a crash), then all files that were on the disk before have the bytes they had; every new file is in the directory of one of the requests, with one more component in its path, and holds a beginning of what is saved for one part of such a request, and nothing else; it has no more bytes than size_limit and the limit for memory together; and all files together have at most count_limit times that much more bytes for each request.", "quantifier": "all moments in all interleavings of single writes of any number of threads, all requests, settings with a size limit, and failures of the disk", "why_tests_cant": "a test cannot stop a process at every moment of every interleaving, and a crash leaves no chance to look at what the code holds", "anchors": ["src/server/save.rs:with_path", "src/server/save.rs:write_to", "src/server/save.rs:try_copy_limited", "src/server/save.rs:try_write_all", "src/server/save.rs:with_entries", "src/server/save.rs:create_dir_all"]}
{"id": "C150", "title": "Where a field of a request is kept follows from its type, its length and the settings", "statement": "When a request is saved, with any result, each field that was saved in full is kept in one of three ways. As text only if it has no content type or one of the type text, the text policy is not Ignore, and it is valid UTF-8 not longer than size_limit and memory_threshold. In a file only if its data are longer than the smaller of size_limit and memory_threshold (by two bytes less if the CRLF behind them may be taken for data, see C01). As bytes in memory only if it is not longer than both limits, and it is not text by its type, or text is ignored, or it is not UTF-8, or it needs with one more byte per 169 more room than the limits leave (see C76).", "quantifier": "all multipart bodies, splits, settings with create_new, disks and results of the save", "why_tests_cant": "the borders depend on the content type, two limits, the policy, and how the reads split the body at the same time", "anchors": ["src/server/save.rs:with_entries", "src/server/save.rs:with_path", "src/server/save.rs:save_text", "src/server/field.rs:is_text"]}
{"id": "C151", "title": "Requests saved at the same time are all saved, write by write", "statement": "Let several threads each save a request to new files, all within their limits, where every single call of write is a step of its own and other threads may run between any two of them. If the disk works (it may take as few bytes at once as it likes, and writes may be interrupted), and the random names are new and different, then in whatever order the threads run every request is saved fully as soon as its thread had a number of steps that follows from its body: (4 * parts + 1) * (3 * (bytes + reads) + 4) and one for each write that the disk cuts short or interrupts. All parts are there then, with their headers and data.", "quantifier": "all numbers of threads, bodies, splits, orders of the steps, short and interrupted writes", "why_tests_cant": "the orders of single writes of several threads are unbounded in number, and a test waits only a limited time for a thread that never ends", "anchors": ["src/server/save.rs:with_entries", "src/server/save.rs:with_path", "src/server/save.rs:write_to", "src/server/save.rs:try_read_buf", "src/server/save.rs:try_write_all"]}
{"id": "C152", "title": "The parts of a body are independent of each other", "statement": "What a reader gets for one part of a body depends on this part alone. If the contents of one field are replaced by any others without a delimiter, a reader gets the same entries and the same end as before, with only the contents of this entry changed; so does save, which keeps all fields if the new contents are within the limits. If a part is cut out of the body, from its delimiter to the next one, a reader gets all the other entries as they were. If a second body, from its first delimiter on, is put in the place of the closing delimiter of a first one, a reader gets the entries of the first and then those of the second. In general, a body consists of a preamble, one piece for each entry and an end; the pieces in any order, some left out, some repeated, are a body with exactly the entries of these pieces in this order.", "quantifier": "all bodies, boundaries without CR and LF, positions of the part, old and new contents, and splits of the new body into reads (not inside the CRLF before a far delimiter, see C01)", "why_tests_cant": "pairs of bodies and all possible contents are unbounded; a test changes a few fields to a few values", "anchors": ["src/server/boundary.rs:read_to_boundary", "src/server/boundary.rs:consume_boundary", "src/server/field.rs:read_field_headers", "src/server/mod.rs:read_entry", "src/server/save.rs:with_entries"]}
{"id": "C153", "title": "The lazy client sends what the plain client sends", "statement": "With the same calls and the same boundary, the lazy client puts the same bytes on the wire as the plain client; and if the destination works and no stream fails, one succeeds if and only if the other does.", "quantifier": "all sequences of calls with at least one field, contents, files and streams in any split, boundaries, sizes of the copy buffer, write schedules of the destination", "why_tests_cant": "all field lists, contents, splits and write schedules are unbounded; a test compares a few requests", "anchors": ["src/client/lazy.rs:send", "src/client/lazy.rs:from_fields", "src/client/lazy.rs:read", "src/client/mod.rs:write_text", "src/client/mod.rs:write_stream", "src/client/mod.rs:send"]}
{"id": "C154", "title": "Saved requests can be sent on", "statement": "A request that one server has saved fully can be sent on later: go through the saved fields in any order, send the contents of each with its name, filename and type, with a boundary that does not occur in them. Another server then saves all of it, if it is within its limits and its disk works: the same fields with the same contents; only fields without a type get the type application/octet-stream, if they have a filename or are not sent as text.", "quantifier": "all bodies of the first request from any client, settings of both servers, orders of the map of fields, boundaries, streams that deliver the saved contents, write schedules, splits of both bodies into reads (not inside the CRLF before a far delimiter, see C01)", "why_tests_cant": "a test sends a few uploads through two servers; names, contents, orders of the map and splits are unbounded", "anchors": ["src/server/save.rs:with_entries", "src/server/save.rs:readable", "src/server/save.rs:Entries", "src/client/mod.rs:write_stream", "src/client/mod.rs:write_text", "src/server/field.rs:FieldHeaders"]}
{"id": "C155", "title": "What is saved does not depend on how it is sent and saved", "statement": "After a full save, what is found in the map under a name are exactly the fields of the body with this name, in their order in the body, with their headers and contents. So of two requests with the same fields for each name, sent in any order of the names, with any boundaries and splits, and saved with any settings (to memory or to files, with other limits), a caller finds the same; and if one was saved and is within the limits of another server, the other one saves it as well.", "quantifier": "all pairs of bodies with the same fields for each name, boundaries, settings of both servers, directories, schedules of the disks, splits of both bodies into reads (not inside the CRLF before a far delimiter, see C01)", "why_tests_cant": "a test compares two chosen bodies under two chosen settings; the orders, boundaries, splits and settings are unbounded", "anchors": ["src/server/save.rs:with_entries", "src/server/save.rs:push_field", "src/server/save.rs:readable", "src/server/save.rs:memory_threshold"]}
{"id": "C156", "title": "Exactly the legal boundaries are accepted", "statement": "The server integrations accept a multipart/form-data request exactly if its boundary is one that RFC 2046 allows: 1 to 70 characters of the set given there, the last of which is no space.", "quantifier": "all requests of the four integrations, all boundaries, all bodies and histories of calls (for the consequences of an empty boundary)", "why_tests_cant": "a test tries some boundaries; the set of boundaries and bodies is unbounded", "anchors": ["src/server/hyper.rs:multipart_boundary", "src/server/iron.rs:multipart_boundary", "src/server/nickel.rs:multipart_boundary", "src/server/tiny_http.rs:multipart_boundary", "src/server/mod.rs:from_request"]}
{"id": "C157", "title": "A lazy request reads its streams only when it is read itself", "statement": "Preparing a lazy request opens its files, but reads nothing of its streams and files. However the prepared request is read, no more bytes have been read from them in all than the buffers given to it had room for, and if no read failed, no more than were handed out. They are read one after the other, in the order of the body: one whose turn has not come has not been touched, and each is closed before the next is read. What the request keeps in memory is bounded by its names, texts, filenames and types, whatever the lengths of the streams and files.", "quantifier": "all requests, contents and read schedules of streams and files (with errors), sizes of the buffers that the prepared request is read with", "why_tests_cant": "a test sees one schedule of reads; fields, schedules and buffer sizes are unbounded", "anchors": ["src/client/lazy.rs:prepare", "src/client/lazy.rs:from_fields", "src/client/lazy.rs:from_stream", "src/client/lazy.rs:from_path", "src/client/lazy.rs:read"]}
{"id": "C158", "title": "A full save means that the client has sent all it had", "statement": "Whatever becomes of a plain or sized request on the side of the client or on the way (a file that cannot be opened, a stream or a write that fails, a connection that ends early, or success): if the server reports a full save of what has arrived of it, every file could be opened, every stream was read to its end without an error, and the saved fields are exactly those of all calls, with their headers and whole contents. At most the line break after the closing delimiter has been lost.", "quantifier": "all calls with fields that can be sent, schedules of reads and writes with any errors, points at which the connection ends, splits on the way in which C01 does not keep the CRLF, save settings and states of the disk", "why_tests_cant": "a test makes one error at one place; the errors, the places and the lengths are unbounded", "anchors": ["src/client/mod.rs:send", "src/client/mod.rs:write_file", "src/client/mod.rs:write_stream", "src/client/sized.rs:finish", "src/server/save.rs:with_entries", "src/server/boundary.rs:consume_boundary"]}
{"id": "C159", "title": "A full save means that a lazy client has sent all it had", "statement": "Whatever becomes of a lazy request: if the server reports a full save of what has arrived of it, this was the whole body, every stream was read to its end without an error, and the saved fields are exactly those of all calls, with their headers and whole contents. (Shown false of the code if a read of a stream is interrupted; it holds otherwise.)", "quantifier": "all lazy requests with fields that can be sent, schedules of reads and writes with any errors, sizes of copy buffers, points at which the connection ends, save settings and states of the disk", "why_tests_cant": "a test makes one error at one place; the errors, the places and the lengths are unbounded", "anchors": ["src/client/lazy.rs:send", "src/client/lazy.rs:read", "src/server/save.rs:with_entries", "src/server/boundary.rs:consume_boundary"]}
{"id": "C160", "title": "No caller sees the end of a request that its client did not finish", "statement": "Whatever becomes of a plain or sized request on the side of the client or on the way, and whatever operations the server has made on its entries before: if the server is told that there are no more entries, every file could be opened, every stream was read to its end without an error, and all of the body has arrived but at most the line break after the closing delimiter. So behind the Iron middleware, strict or lenient, there are entries of a request only if its client has sent all it had, and they are those of all its calls.", "quantifier": "all calls whose headers and contents do not contain the delimiter, schedules of reads and writes with any errors on both sides, splits of what arrives, points at which the connection ends, and sequences of operations on the entries", "why_tests_cant": "a test makes one error at one place and reads the entries in one way; the errors, the places and the sequences of operations are unbounded", "anchors": ["src/client/mod.rs:send", "src/client/sized.rs:finish", "src/server/mod.rs:read_entry", "src/server/boundary.rs:consume_boundary", "src/server/iron.rs:read_request"]}
{"id": "C161", "title": "An upload confirmed by the tiny_http, Iron or Rocket example was sent in full", "statement": "Whatever becomes of a plain or sized request on the side of the client or on the way: if the example server for tiny_http or the one for Iron answers it with status 200, every file could be opened, every stream was read to its end without an error, and all of the body has arrived but at most the line break after the closing delimiter. The same holds for plain requests and Rocket's example if its text does not begin with the words for a request processed in part. (For the examples of Nickel and Hyper this does not hold, see C104.)", "quantifier": "all calls whose headers and contents do not contain the delimiter, schedules of reads and writes with any errors on both sides, splits of what arrives, points at which the connection ends, states of the disk and outputs of the server", "why_tests_cant": "a test makes one error at one place; the errors, the places and the lengths are unbounded", "anchors": ["src/client/mod.rs:send", "src/client/sized.rs:finish", "examples/tiny_http.rs:process_request", "examples/iron.rs:process_request", "examples/rocket.rs:process_upload", "src/server/save.rs:temp"]}
{"id": "C162", "title": "What has arrived of an upload is saved, and the result tells whether it is all", "statement": "Whatever becomes of a plain or sized request (or of a lazy one whose reads are not interrupted, see C35) on the side of the client (a file that cannot be opened, a stream or a write that fails, success), and however much of it arrives: if its fields are within the limits and the disk works, saving it returns. Either the result is Full, the client has sent all it had, and the saved fields are those of all calls; or the result is Partial because of an error of the stream, and the saved fields are those whose data and following delimiter arrived, of the calls before the first file that cannot be opened, possibly with the next field and a piece of its data. What is saved can be read back. Contents of fields are meant up to the CRLF of C01.", "quantifier": "all calls with fields that can be sent, schedules of reads and writes with any errors, points at which the connection ends, splits of what arrives, save settings and states of the disk", "why_tests_cant": "a test makes one error at one place; the errors, the places, the splits and the lengths are unbounded", "anchors": ["src/client/mod.rs:send", "src/client/mod.rs:write_file", "src/client/mod.rs:write_stream", "src/client/lazy.rs:send", "src/server/save.rs:with_entries", "src/server/boundary.rs:consume_boundary"]}
