# Formal model of abonander/multipart (v0.18.0) in Lean 4

## What is modelled and how

Everything lives in `lean/Verif/`:

* `Verif/Model/*` – the model: small total computable functions, one per Rust function, each citing the file
  and lines it models.
* `Verif/Spec/*` – independent vocabulary for the statements (first occurrence of a delimiter, multipart
  encoding of a field list, histories of API calls, ...). No model function is used there unless the statement is
  about that function.
* `Verif/Lemmas/*` – helper lemmas and invariants.
* `Verif/Props/*` – the property theorems, one file per area, each with an `example` showing that its hypotheses
  are met by a concrete non-trivial case.

Modelling conventions

* Bytes are `UInt8`, byte strings `List UInt8`. Rust `&str`/`String` are their UTF-8 bytes.
* `&mut self` methods return the new state. `io::Result` is `Res`: `ok | err e | panic | hang`. A Rust panic (slice
  out of range, `expect`, debug assertion) is the explicit outcome `panic`; `hang` is what a loop yields when its
  fuel is used up. Loops that always terminate get fuel computed from the state, and a theorem shows `hang` is never
  the result; loops of the code that may really diverge take fuel as a parameter and divergence is "hang for every fuel".
  `Lemmas/Fuel.lean` shows that a result other than `hang` does not depend on the fuel.
* The outside world is a *script*, over which every theorem quantifies: the underlying reader is a list of results
  of successive `read` calls (`data bytes` – `data []` is `Ok(0)` –, or `err e`); after the list it returns `Ok(0)` for ever.
  A writer is a list of results of successive `write` calls (accept up to n bytes, or fail). So "for every
  script" is "for every split into chunks, every short write, every failure point". Random names are lists as well.
* `u64`/`u32` limits are `Nat` with the saturating operations of the code written out; buffer lengths are `Nat`.

What is modelled, by file (the comment of each definition has the lines):

| Source | Model | Left out |
|----|----|----|
| server/boundary.rs | `Model/Boundary` | the buffer is a byte list; its capacity is left out (see the contract of `buf_redux` below) |
| server/field.rs | `Model/Field`, `Model/Server`, `Model/Owned`, `Model/Nested` | `Debug` texts; the text of an error of the tokenizer (a parameter) |
| server/mod.rs | `Model/Server` | the `Borrow` impl |
| server/save.rs | `Model/Save`, `Model/Entries`, `Model/DataReader`, `Model/TempDir`, `Model/FileNames`, `Model/Threads`, `Model/WriteSteps` | `print_debug` (locks stdout, calls `write_debug`), `fields_count` (a getter) |
| server/{hyper,iron,nickel,tiny_http}.rs | `Model/Adapters`, `Model/Iron`, `Model/IronWorkers`, `Model/TempDir` | bodies as read scripts; the traits that only convert references |
| client/mod.rs, client/sized.rs | `Model/Client` | the generic `HttpRequest`/`HttpStream` is a record of what the implementation answers (`Env`) |
| client/lazy.rs | `Model/Lazy`, `Model/LazyHyper` | Hyper's `RequestBuilder` is a record of what was set; its `send` is outside; `Debug` of fields |
| client/hyper.rs | `Model/Adapters` (`apply_headers`) | `open_stream`, `finish` (they call Hyper) |
| mock.rs | `Model/Mock` | `Debug` |
| examples/{tiny_http,iron,nickel,hyper_server,rocket}.rs | `Model/Examples`, `Model/ExampleDisk`, `Model/Workers` | what the server libraries do around the handlers; texts of errors |
| examples/iron_intercept.rs | `Model/InterceptExample` | the log of Iron |
| bin/read_file.rs, fuzz/fuzzers/server_basic.rs | `Model/Tools` | opening the file, logging |
| examples/hyper_client.rs, examples/hyper_reqbuilder.rs, bin/form_test.rs | `Model/ExampleClients` | creating the request, the response of the server, the header of the page |
| local_test.rs | `Model/LocalTest` | the log; `extended` (the same tests in a loop) |
| lib.rs | `random_alphanumeric` (names and boundaries are lists of choices) | macros |

## Trusted base

* Lean's kernel, and of its axioms at most `propext`, `Classical.choice`, `Quot.sound` (for each property theorem
  `lean/Verif/Audit.lean` states which; this is checked whenever the file is compiled). No `sorry`, no own axioms, no `native_decide`/`bv_decide`.
* The reading of the Rust code into the model (no code was run; there is no differential test). As a check, the crate's unit tests are
  repeated on the model in `lean/Verif/UnitTests.lean` (these are tests, no property rests on them); its random tests are C99.
* Contracts of the dependencies (not in /repo, so taken from their documentation):
  * `buf_redux::BufReader` with `MinBuffered(n)`: `fill_buf` reads until at least `n` bytes are buffered, or `read` returns
    `Ok(0)`, or fails; consumed bytes are dropped from the front; buffered bytes survive a failing read.
    The real buffer has room for some kilobytes, and no read returns more than this; in the model a read may return any number of bytes. Theorems about all scripts cover
    the real reads. Theorems that say that there is a script on which something goes wrong bound the length of its reads (`ReadsUpTo`); they speak of the real reader as far as its buffer holds such a read and the minimum.
    (A refill that stops early for lack of room is the script event `data []`. As the buffer makes room as long as the minimum fits
    twice, this takes boundaries of some kilobytes; theorems that assume `NoStall` do not speak of it.)
  * `buf_redux::BufReader` with its default policy (used to read saved files) reads like that of std, with a buffer of 8 KiB.
  * `twoway::find_bytes` returns the first occurrence; `safemem::prepend` prepends.
  * `httparse::parse_headers`, `mime` parsing and `mime_guess`: parameters of the model (`Deps`). Where a theorem needs more
    than "some function", the assumption is a named predicate, and a concrete model that satisfies it is given.
    The predicates: `Deps.Sane` (the tokenizer returns at most the four headers it has room for, and
    does not claim to have consumed more than it was given), `Deps.Tokenizes` (it reads well-formed header lines as name and
    value; only for the round trips), `Deps.Incremental` (a complete header block stays complete whatever follows it; only for
    C86, C121, C126, C127, C158, `C159_lazy_partial`, C162 and `C07_any_partial`), `Deps.OnlyFour` (more header lines than it has room for are an error; only for C121),
    `Deps.Clean` (no control characters in header values; a MIME type is printed as text from which the same type is read; only for C123 and C154),
    `Deps.Blocks` (what it says it used is some bytes, and it finds the same headers in these alone; only for C127 and `C07_any_partial`), and `Deps.Lines` (a complete header block ends with LF; only for `C152_replace_contents` and `C152_saved`). `refDeps` is a reference tokenizer for which all seven are proved.
  * `tempfile` (only for C91): a directory is made directly in the given one, its name is the prefix and random characters, and if the given one does not
    exist the error is `NotFound` (`TempEnv`).
  * Iron (only for C106): a `Response` without status is sent with status 404 (`Response::write_back`), and of a failing middleware the response of its `IronError` is sent.
  * Hyper's client (only for C87): a later `header`/`body` call on a `RequestBuilder` replaces an earlier one; of a `SizedBody` at most the announced
    number of bytes reach the server's handler, of a `ChunkedBody` all (`OnWire`).
  * `mime` 0.2 (used by Hyper 0.10): a parsed value uses the named variants where there is one (`HMime.Parsed`); printing and
    parsing preserves the texts of type, subtype and parameters (`HMime.SentAs`), and it is printed as `type/subtype; name=value` (`HMime.text`, only for
    `tiny_http` in C92). `hyper::header` gives the parsed `Content-Type`.
  * `tempfile`: creating a directory succeeds with a path or fails (a parameter); dropping or closing it removes it like `remove_dir_all`.
  * `rand`: choices are lists over which the theorems quantify.
  * `std`: `str::from_utf8`/`valid_up_to`, `str::trim`, `Write::write_all`, `write!`, `io::copy`, `PathBuf::set_file_name`, `OpenOptions`
    with `create_new`, `HashMap` as documented.

Not modelled: memory safety, performance (but for C129), allocation failure, logging, `Debug`/`Display` texts, real network/OS
behaviour beyond the scripts, for the example servers and Iron's middleware, threads between the writes to one file (`Model/Threads` interleaves the choice of a name, the creation of the directories, that of the file, and its writing; `Model/WriteSteps` also the single calls of `write`, for `with_entries`), TLS/HTTP of hyper/iron/nickel/tiny_http/rocket, what the example clients do with the response.

## Findings: claims that are false of the code

For each, the full claim is a definition in the `Props` file, its negation is proved with a concrete witness (`*_false`), and what does hold is
proved in general (`*_partial`).

* **C01 Field bytes are exact.** False of the code: a CR at the end of one read of the body, followed by LF and the delimiter in the next, is handed out as data (C01_false). Proved: the data come out exactly, or with that CRLF, the latter only for such a split that is not within the minimum buffer (1024 bytes, more for boundaries of more than 510 bytes) behind another delimiter; and EOF is always reached. Exact, however the body arrives: fields whose delimiter begins at most that far behind the previous delimiter line, for any calls (C01_short_partial); fields of at most 1022 bytes, for all callers who do not call `set_min_buf_size` before the first read (C01_short_data_partial) and for saving (C37_full_data); all fields of bodies of up to that size (C01_small_bodies_partial). Callers who read with buffers below 1024 bytes are not affected (C100). Not a rare case: if the data of a field of at least 1023 bytes (more for boundaries of more than 510 bytes) arrive in reads that fill the minimum buffer and the last ends with that CR, then every caller whose reads have room for all that is buffered gets the CRLF (C01_leaks); and every body with such a field can arrive so, in reads of less than twice the minimum buffer (C01_leaks_somehow). Saving reads with such buffers: every such upload can arrive so that it is saved fully with the two bytes too many (C77_leaks, C78_leaks).
* **C07 Skipping a field is the same as draining it.** False of the code: read_entry on an undrained field can fail with UnexpectedEof when a read ends right behind the delimiter (C07_false). Proved: same result and rest of the body, or that error, the latter only for such a split. Calling `read_entry` again then fails for ever, but nothing is lost: reading the field to its end helps (C07_stuck). Bodies not longer than the minimum buffer (1024 bytes, or twice the delimiter) are not affected (C07_small_partial); nor are C11 and C16 for them. Nor are fields of which, with the delimiter line, not more is left than the minimum buffer (C07_short_partial). But every longer field can arrive so that it cannot be skipped: if one read of the body returns the end of its headers, its data and the delimiter, and ends there or one byte later (C07_fails, C07_fails_somehow; reads of this length need a buffer with room for them, so this does not concern fields longer than the buffer).
* **C11 A damaged delimiter is an error, persistently.** The error kind is not always InvalidData: with a split inside the two bytes it can be UnexpectedEof first (C11_false). Every body with a damaged delimiter behind a long field can arrive so that this happens (C11_fails_somehow). Persistence is proved in full.
* **C16 Reading continues behind a field with bad headers.** False of the code: the defect of C07, here behind a field whose headers were refused (C16_false). Proved: `read_entry` goes on with the next delimiter, or has that error, the latter only for such a split. Every long part with bad headers can arrive so that it happens (C16_fails_somehow).
* **C18 Content-Disposition parameters are extracted exactly.** False of the code: `;` inside a quoted value and the order filename-before-name break the extraction (C18_false_*). Proved for values as the client writes them, with any white space and further parameters. `C18_exact` says for every list of headers what is reported instead, `C18_when` for which quoted names the claim holds (no `;`, no quote at either end).
* **C24 Client to server round trip.** False of the code: names are not escaped by the client, e.g. `a;b` is read back as `a` (C24_false); and the CRLF defect of C01 remains. Proved for representable names, bounded headers and delimiter-free contents, assuming only that the tokenizer reads well-formed header lines (Deps.Tokenizes; shown for refDeps).
* **C28 After the first client error nothing more is written.** False of the code: a failed call leaves no trace, later calls write and send() succeeds (C28_false). Proved: chained by `?`, the first error ends everything and is returned. This is so for all calls and errors: if the sink takes what is written later, later calls and `send()` succeed (C28_goes_on).
* **C31 Lazy content length is exact.** False of the code: text fields are not counted (C31_false). Proved: what the length is; exact without text fields. Otherwise it is too small: exact if and only if no text field was added (C31_when).
* **C33 Lazy boundary accessor matches the body.** False of the code: panics if there are no fields (C33_false); a request sent again has no fields and panics. Proved for at least one field, at any time.
* **C34 Lazy client to server round trip.** False of the code for empty requests (and names as in C24). Proved for at least one field under the restrictions of C24.
* **C35 A failing stream does not corrupt the lazy body.** False of the code: bytes copied before the failure in the same call are lost, and send() then sends a damaged body and succeeds. Proved: what exactly is lost; nothing with one-byte buffers. In general: if the last file or stream that was added fails once, a first read with room for the bytes before the failure loses all of them, the whole beginning of the body (C35_loses).
* **C38 Size limit is respected.** False of the code: the file phase counts from zero, so up to size_limit + min(size_limit, memory_threshold) bytes are saved (C38_false). Every field longer than the limit, but not by more than the memory threshold less what the reader may read ahead, is saved in full in a file (C38_exceeds). Whole requests with such fields are saved fully, too (C38_requests_exceed).
* **C40 Threshold zero forces files.** False of the code for empty fields (C40_false); proved for all others. Empty fields are never saved in a file, whatever the settings (C40_empty).
* **C41 Small size limits never touch the disk.** False of the code: a field longer than size_limit still creates a file (C41_false); proved for fields within the limit. With limits below 510 bytes, every longer field leaves an empty file (C41_creates); with larger ones either exactly the limit is kept in memory or a file is created (C41_otherwise).
* **C43 force_text rejects invalid UTF-8.** False of the code: invalid bytes are counted repeatedly until the limit is hit and the field is then saved as bytes (C43_false). Proved: no text result is invalid; a UTF-8 stop is final. Proved also where the line is: if four bytes or more follow the longest valid start of the data, the field is saved fully although text is forced (C43_saved_instead); if one to three bytes follow it, memory leaves room for one byte per 169 and three more, and no read ends inside the CRLF before a delimiter (or the field has at most 1022 bytes), the field is rejected (C43_rejects_partial). Missing for the full claim: data with four or more bytes from the first invalid one on.
* **C44 Saving a field terminates.** False of the code: with both limits u64::MAX and data that are not UTF-8 the loop never ends (C44_diverges, C44_false). Proved in all other cases; never panics.
* **C48 An unfinished save loses no data.** False of the code: bytes already in memory are lost when the file cannot be created or the first writes fail (C48_false, C48_false_partial_result). If the file cannot be opened, this happens for every field that does not fit into memory, and at least memory_threshold less the buffer and one read is lost (C48_loses). Proved in all other cases.
* **C50 A request with exactly count_limit fields saves fully.** False of the code: the limit is checked after reading the next entry, so a request with exactly count_limit fields ends in Partial(CountLimit) (C50_false). Proved: with fewer fields the limit is never reported; and the exact bound of a full save (C50_never_full).
* **C51 Resuming after the count limit loses no field.** False of the code: the entry read before the limit was noticed is dropped (C51_false). Proved: all other fields are saved in order, only that one is missing; and nothing is missing if the request has exactly count_limit fields.
* **C55 Save result conversions keep their promises.** False of the code for into_result_strict: Ok for partial results by SizeLimit, CountLimit or Utf8Error (C55_false). Proved for the other conversions in full.
* **C58 with_filename saves inside the temporary directory.** False of the code: set_file_name replaces the last component of the temporary directory (C58_false). Proved: name and parent as they are. No file is ever saved where it is documented (C58_never).
* **C59 Strict Iron interception never panics and rejects over-limit requests.** The statement is proved (returns, never panics, entries only for a fully saved request, what the two limit errors mean). The title is false of the code for sizes: a field can be larger than file_size_limit and pass (C59_oversize_false, as in C38); C59_oversize_partial bounds by how much. With more than 10 KiB as file_size_limit, every request whose fields are too long by less than 10 KiB minus the minimum buffer and the largest read is accepted (C59_passes).
* **C60 Lenient Iron interception completes.** False of the code: once file_count_limit fields are saved, read_request_lenient saves again and again and never returns; this happens with every request that has so many parts, if nothing else stops it (C60_never_returns). Proved: it returns for requests with fewer parts; it never panics; what the returned entries are.
* **C62 tiny_http and Nickel accept only POST multipart/form-data.** False of the code: Nickel and tiny_http check less than claimed (see the three _false theorems). Proved: what they do check, and which value they return.
* **C64 StdoutTee duplicates output faithfully.** False of the code: a short write to stdout makes the rest arrive twice in the inner writer. Proved: stdout gets everything once; what the inner writer gets; the claim if stdout takes every buffer whole. For one buffer the claim holds exactly if the first write to stdout takes all of it (C64_when).
* **C66 A truncated field is not reported as complete.** False of the code: the end of the body ends the field like a delimiter (C66_false). Proved: the next read_entry always reports an error. Every field that is cut off can be read to a regular end without an error (C66_always).
* **C67 Lazy send delivers the body.** False of the code: if a read of a stream is interrupted, `send()` can return Ok after sending only pieces of the body (C67_false, the defect of C35). Proved: it always returns; it succeeds if nothing fails; on success without interruptions exactly the body was sent, and with them the body without some pieces shorter than the copy buffer (C67_pieces_partial). In general: one interrupted read of the last file or stream, within the first copy buffer, and send() succeeds with the beginning of the request missing (C67_loses).
* **C68 Lazy errors tell what failed.** False of the code: a failing stream field gives an error without its name. Proved: named errors are right; the causes of unnamed ones.
* **C76 Text within the memory limits is saved as text.** False of the code: an incomplete character at the end of what is buffered is counted twice, so a text of exactly memory_threshold bytes may be saved as bytes (C76_false). Proved if the limits leave room for one more byte per 169 bytes. In general: if what fill_buf shows first ends inside a character and the limits have no room for that piece, the text is saved as bytes (C76_otherwise), and every body with a character that is not ASCII behind the first 1024 bytes of a text can arrive so (C76_somehow).
* **C85 I/O errors in read_entry can be retried.** False of the code: `read_headers` turns every error of the stream into "invalid data", after the delimiter line has been consumed; one interrupted read loses a part although its headers are all buffered (C85_false). Proved: errors reported as such lose nothing, and a retrying caller gets all parts, or "invalid data" behind a proper prefix of them. Bodies shorter than the minimum buffer are not affected (C85_small_partial). Every longer body (from its first delimiter on) can arrive, with one interrupted read, so that its first part is lost (C85_loses).
* **C87 Lazy Hyper requests arrive.** False of the code: the announced length does not count text fields (C31). A request with text fields and without a stream is announced too short, so that a server reading the announced bytes never gets all fields and the end, but always an error (C87_texts_cut_off, C87_false). Requests with a stream (sent chunked) or without text fields arrive.
* **C88 Whole-request saves stay in their directory.** False of the code in one point: the documentation of `with_dir` says that any nonexistent directories in the path are created, but `create_dir_all` (save.rs:962) creates the parent of its argument, so that after a request whose fields all fit in memory the given directory does not exist (C88_false).
* **C89 Cleared limits are no limits.** False of the code in one point: the documentation of `memory_threshold` says that `u64::MAX` effectively forces fields to always save to memory, but a field longer than `size_limit` then still goes to a file (C89_false), nearly always (C89_leaves_memory). It is true if the size limit is cleared or the field fits.
* **C91 Temporary directories are where they should be.** False of the code in one point: the documentation of `Intercept::temp_dir_path` says that it will be created if it doesn't exist, but `tempdir_in` does not create its parent: every multipart request is refused with `NotFound` (C91_missing_dir, C91_false).
* **C93 The split into reads does not matter.** False of the code for bodies larger than the minimum buffer (C93_false: the CRLF of C01). Proved for all bodies up to that size, where the exceptions of C01, C07, C10, C11 and C24 therefore disappear. Every body with a field as long as the minimum buffer can arrive in two ways of which different data come out (C93_differs).
* **C95 The example servers answer every request.** False of the code: the examples of tiny_http and Iron call `unwrap_err` on the reason of a partial result, with the comment that they set no limits; but the default limits (8 MiB, 256 fields) apply, and `unwrap_err` panics for them. Every complete request with at least 256 ordinary parts makes both panic (C95_crash, C95_false); for tiny_http this ends the server. Proved: Nickel, Hyper and Rocket answer every request; tiny_http and Iron every request with a small body; and all five answer every upload within the limits with the contents of its fields (C95_uploads).
* **C97 read_file prints the names of all fields.** False of the code: `read_entry` on a field that was not read can fail with UnexpectedEof (C07), which read_file unwraps (C97_false). Proved: otherwise all names are printed, and when that happens a read ended directly behind the delimiter of a delimiter line or one byte later, and the last field whose name was printed is long: with its delimiter line it does not fit into the minimum buffer. Every file with a long field may be read in pieces with which it happens (C97_fails_somehow).
* **C104 The example servers do not confirm broken uploads.** False of the code: the examples for Nickel, Hyper and Rocket answer an upload that is cut off with status 200 and show what was received, the last field possibly truncated, and only Rocket's says that the request was processed partially (C104_cut_off, C104_false). Hyper's also answers with 200 if no temporary directory can be made (C104_no_directory). Proved: the examples for tiny_http and Iron refuse every such upload; and what all five answer to requests that are not multipart.
* **C106 The Iron middleware example confirms uploads.** False of the code: neither the handler nor the errors of the middleware set a status, and Iron then sends 404 for every request, also for a complete upload (C106_false, C106_status). Proved: the texts of the answers to complete uploads, to requests that are not multipart, with too many parts or cut off, and that nothing is left of the temporary directory.
* **C107 fill_buf keeps the minimum buffer size.** False of the code: documented is "the minimum buffer size that fill_buf will return until the end of the stream is reached", but bytes that may be the beginning of a delimiter, and the line break before it, are held back (C107_false). Proved: not more than the length of the delimiter and one (C107_min_buffer_partial), which is sharp (C107_sharp).
* **C110 Lenient interception accepts fields of any length.** False of the code: what is not saved of a field that is too long must be skipped, and this fails if a read of the body ends in the next delimiter line (C07): the request is rejected with "Error midway through request". Every request with a long field over the limit can arrive so that this happens (C110_fails_somehow). Proved: every other request with fewer parts than the limit is accepted, with all its parts, and so is every request whose fields, with the delimiter line, fit into the minimum buffer.
* **C112 Names and filenames change nothing but the names that are read.** False of the code: the clients write names as they are. A text field named `x"; filename="y.exe` is read with a filename; a name with CRLFs gives the field other contents or a content type. Proved: a name of text on one line cannot change contents or content type; without `;` it cannot add a filename either; and no name without the delimiter can add an entry or get data of another field.
* **C113 Saved files with other open options.** False of the code: if `mod_open_opts` allows to open a file that exists and does not truncate it, the old end of a longer file stays behind the data (with `append`: the old contents in front of it). The save is `Full` and reports the size of the data; reading the saved data back gives the whole file. Proved: exactly what the file holds then, for all options; the claim for `create_new`, `truncate` and new files; that no other file changes; and the errors.
* **C116 Uploads of other clients are read as RFC 7578 says.** False of the code: browsers send the file name `a;b.txt` in quotes, and the server reads `a` (C116_false, the defect of C18). Proved for parts with up to four header lines of bounded size, in any order, with a disposition in any form that the server understands, any boundary without line breaks, preamble and epilogue, if the delimiter does not occur inside of lines either.
* **C118 Different requests are different on the wire.** False of the code: names are not escaped, so a text field with the name `a"`CRLF CRLF`evil` is sent as the same bytes as a field `a` with other data (C118_false). Proved for names without `;` and CR, and filenames and types without CR.
* **C122 A caller can go on after a part with bad headers.** False of the code: the defect of C07 again. Behind a part with bad headers that does not fit in the buffer, an unexpected end is reported if a read ends in the next delimiter line. `C122_false`: a part with a malformed header line and 1100 more bytes, read up to just behind the delimiter.
* **C124 A save can be resumed after an error of the stream.** False of the code: the defect of C85. `C124_false`: one interrupted read behind the first 1024 bytes of the body, and `with_entries` says "invalid data" and has lost the first part. What holds: resuming ends with everything, or with "invalid data" and a proper prefix; `Full` always means everything (`C124_full`); bodies shorter than the minimum buffer are always saved exactly (`C124_small_partial`).
* **C126 A part without a body is an empty field.** False of the code: `read_to_boundary` takes two bytes back if CRLF is in front of the delimiter, and for a part without a body these are the blank line of its headers. The parser never sees the blank line, and `read_entry` says "invalid data". `C126_false`; `C126_refused` for all such parts. What holds: with an empty body (its own CRLF) the part is read (`C126_empty_partial`); what is behind such a part can be read by a caller who goes on (`C126_goes_on`).
* **C127 What is read is decided by the bytes.** False of the code: a header block larger than the buffer is parsed if one read brings it, and refused if several do (`C127_false`; the same bound as in C14 and C15). For all other bodies, well-formed or not, it holds (`C127_same_partial`), and `Full` is reported for nothing but sequences of parts with a closing delimiter (`C127_full_partial`).
* **C131 What has arrived can be read without waiting for more.** False of the code: `read_to_boundary` and `consume_boundary` fill the buffer up to the minimum before they look at it. The end of a body shorter than 1024 bytes is not seen before another read has returned; if this read fails, `read_entry` fails although the whole body is there, and if the connection stays open without more bytes, it waits (`C131_false`, `C131_waits`, `C131_entry_waits`). It holds if as many bytes as the minimum buffer have arrived behind what was taken (`C131_more_partial`), and if the reads that follow bring data, any data, but no error (`C131_data_partial`).
* **C132 Raising a limit never hurts.** False of the code: bytes kept in memory are not counted against `size_limit` when the rest goes to the file (C38), but memory filled up to exactly `size_limit` ends the save. With `size_limit` 2200, a field of 3300 bytes is saved in full if `memory_threshold` is 1500, and cut at 2200 if it is 2200 (`C132_false`); a field of 3100 bytes is saved in full with `size_limit` 2000 and cut with 2600 (`C132_false_size`). What holds: if `memory_threshold` is at most `size_limit`, as by default, raising `size_limit` changes only results that it cut (`C132_size_partial`, `C132_request_size_partial`); raising `count_limit` changes only results that it cut (`C132_count`).
* **C135 The limits bound how much of a body is read.** False of the code: `consume_boundary` skips what stands before the first delimiter without any limit, so a client that never sends the delimiter is read for as long as it sends, whatever `size_limit` and `count_limit` are (`C135_false`). With the offset of the first delimiter added, the bound holds for every result (`C135_request_partial`).
* **C136 tiny_http requests may write the boundary in any legal way.** False of the code: quotes are not removed (C136_false), so that such a request is accepted and then no call ever returns an entry (C136_quoted); a parameter name in other letters is not seen (C136_case). Proved: what is taken as the boundary, and that it is the announced one exactly if the value is bare and followed directly by `;` or the end, for headers in which no earlier parameter contains `boundary=`.
* **C137 The limits bound what a request occupies.** False of the code for the disk: per field, what was kept in memory before the threshold was passed does not count towards the size limit of the file (C38), so a file can have `size_limit + min(size_limit, memory_threshold)` bytes (C137_false). Proved: the bound with this summand, at most `count_limit` changed files, and the bound on memory, for every request and every way in which the save ends.
* **C142 Spaces behind a delimiter do not matter.** False of the code: `consume_boundary` accepts only CRLF or `--` directly behind a delimiter, and RFC 2046 (5.1.1) allows spaces and tabs there, so a request with such padding fails with `InvalidData` (C142_false). Proved: the parts in front of the first padded delimiter are read and saved as they are.
* **C143 A delimiter counts only at the beginning of a line.** False of the code: `find_boundary` takes the bytes of the delimiter wherever they stand (C143_false). Data like `see --b--.` ends the request: the rest of the field and all later parts are lost without an error and a save reports `Full` (C143_lost, C143_saved); data like `see --b` with CRLF and headers behind it becomes a part of its own (C143_smuggled). Whoever chooses data but not the boundary can do this only by guessing the boundary (C103).
* **C153 The lazy client sends what the plain client sends.** False of the code: the lazy body begins with a CRLF (an empty preamble) and ends without one, text fields are sent first and the others backwards (C153_false, for one field of text). Apart from this the bytes are the same (C153_same_bytes_partial).
* **C156 Exactly the legal boundaries are accepted.** False of the code: no integration looks at the boundary, so one of more than 70 characters is accepted, and by `tiny_http` an empty one (`boundary=`), with which
  every field ends at the first two dashes in it. The Hyper integration only takes `Value::Ext`, and the value `utf-8` is parsed as `Value::Utf8`, so a request with the boundary `utf-8` is not recognized.
* **C159 A full save means that a lazy client has sent all it had.** False of the code (a consequence of C35): if a read of a stream is interrupted once, at the beginning, what was read of the request before is lost with the first
  delimiter; `send()` succeeds, the server skips the rest as a preamble up to the closing delimiter and reports a full save without any field: `C159_false`. Without interruptions it holds: `C159_lazy_partial`.

Further observations, not claimed anywhere in the code: a field whose first chunk is longer than `size_limit` is saved as an *empty* file (the example of C60);
`Intercept::temp_dir_path` documents that the directory is created, but `tempdir_in` does not create its parent;
`HttpRequest::apply_headers` for Hyper documents a panic for methods other than POST, but returns `false`; the Hyper example answers a request whose saving failed with status 200.

## How each property is proved

| Id | Model and proof |
|----|------|
| C01 | `BoundaryReader` state machine; invariant "cursor <= first delimiter occurrence in unread stream" proved for every call; history theorem: data at EOF is `D` or `D ++ CRLF`, exactly `D` unless a chunk ends between that CR and LF. The full claim is false of the code (CR at a chunk end is handed out): negation proved, exact theorem `_partial`. For the general failure: later reads are not made while enough is buffered (`BR.Late`, preserved by every call; `BR.Leaking`, preserved by callers who take all that is handed out). For short fields: until the first byte is taken the search can go too far only while the LF is missing (`BR.Whole`), and the first `fill_buf` sees all of the field (`BR.Fits`). |
| C02, C03, C04 | invariants over op lists of the same state machine (conservation equation). |
| C05 | panic is an outcome; invariant implies it is unreachable, for all op lists from `with_body`. |
| C06 | fuel never used up. |
| C07 | full functional spec of `consume_boundary`; false in general (spurious "not enough bytes"): negation by witness, partial: same result or that spurious error; exact when drained, and for short rests. C07_fails: the last reads of a script are not made early, so what is buffered behind the headers ends with the delimiter. |
| C08, C09, C10, C11, C12 | corollaries of the functional spec of `consume_boundary`. |
| C13 | idempotence lemma of `read_to_boundary`. |
| C14, C15, C16 | header loop over the abstract tokenizer `Deps.parseHeaders`. |
| C17, C18, C19 | pure functions of field.rs on bytes; C18 false in general (`;` inside quotes, `filename` before `name`): negations, partial for the client's format, and an exact description of what is reported (Props/Disposition). |
| C20, C21, C22 | state machine of `Multipart`. |
| C23, C25, C26, C28, C67 | writer model with write scripts; C28 and C67 false of the code: negation and what holds. |
| C24, C34 | composition of the client encoders with the session theorem of the server. |
| C27 | sized request as a writer. |
| C29 | random source = list of alphanumerics chosen. |
| C30-C33, C35, C36, C68 | `PreparedFields` state machine, streams as read scripts; C31, C33, C35 false in general: negations and partial theorems. |
| C37-C48 | `SaveBuilder` generic over a `BufRead` interface, with file system and write scripts; histories link it to the field reader. C38, C40, C41, C43, C44, C48 are false in general: negations and partial theorems. C38_exceeds: what was shown last before the file is created is still in the buffer, which C114 bounds. |
| C49-C53, C56 | `Entries` map and `with_entries` loop; C50, C51 false: negations. |
| C54, C55 | pure functions; `into_result_strict` part of C55 false: negation. |
| C57, C58 | small directory/path model; C58 false: negation. |
| C59, C60, C73, C74 | Iron middleware on top of the save model; C60 false: divergence for every fuel; else invariants of the lenient loop (parts still to come, files kept, entries grouped). |
| C61, C62, C69, C70 | adapters as functions of an abstract request; C62 false: negations. |
| C63, C64, C71 | mock streams with random choices as lists; C64 false: negation, partial when stdout accepts everything. |
| C65 | handle = option of the reader, state machine. |
| C66 | false of the code: negation (reading a truncated field succeeds); partial: the *next* read_entry always reports it. |
| C72 | measure: bytes left in buffer and stream, events left in the script; each round of `with_entries` and of the loops below it uses some up. |
| C75 | case analysis of all outcomes of the save functions: each failure names its cause, and all causes are excluded. With forced text: invariant of the loop of `save_text` (`Lemmas/ForcedText`), by which it cannot stop for invalid UTF-8 unless at most three bytes of the field are left; this also gives both sides of C43. |
| C76 | invariant of the `save_text` loop: 169 x counted <= 170 x taken, because `fill_buf` shows at least 510 bytes while the delimiter has not been found; negation by witness; in general, the loop counts at least what it copies, and the piece of a character at the end of the first buffer once more. |
| C77 | the loop ends (measure of C60), and each way to end other than `Full` is excluded; invariant of the world: unused random names stay unused. That the exception is needed: `tryReadBuf` never enlarges the buffer, so the state with only the CR buffered is met by whichever way of saving (`BR.Leaking`, preserved by every step). |
| C78 | composition of C23/C30, C24/C34 and C77; likewise for the exception. |
| C79 | invariant of the reader: bytes delivered ++ buffered ++ still in the file = contents; the rest of the script decreases. |
| C80 | induction over the map with `Wrote` (what was written is a prefix, an error has a cause), the copy loop by C79. |
| C81 | induction over the calls: bytes taken so far (`Took`: calls of `fill_buf`, each followed by a `consume` of at most what it showed, or none); measure: unread bytes and events; then C01, and `Took.savedOk`: whoever keeps to such calls gets the CRLF of C01 only with fields that do not fit in the buffer (so also everything that is saved: C37, C53, C77, C78, C84). |
| C82 | case analysis of `read_entry`; the loop of the user is a reading (`Reads`), then C10. |
| C83 | `trim` strips exactly the encodings of White_Space characters (a prefix code in both directions); case analysis of the parser. |
| C84 | C77 resp. C78 with the settings of `Intercept`, and C61, C69 for the boundary. |
| C85 | the outcome relation of `consume_boundary` (C06) without assuming that the stream never fails: the verdict on the unread bytes is kept; induction on the reading; termination by bytes plus events left; negation by witness. |
| C86 | cutting `PartsTo` (parts, each with its delimiter): the cut body has a prefix of the parts, then no complete delimiter line or a part without delimiter; induction on the reading as for C10; composition with C23, C25, C30. `C86_any_client` with what C158 shows about unfinished requests (Props/AnyClient.lean). |
| C87 | composition of C31, C33, C36, C69, C34 and, for the announced length, C86. |
| C88 | `MadeIn` (what saving one field in a directory does to the disk) composes; induction on the saved sequence of `withEntries_spec`. |
| C89 | the outcome of `with_path` (`PathOut`) with greatest limits; parts are no longer than the body; C77. |
| C90 | induction on the list of calls from its end. |
| C91 | `MadeIn` through the loop of `read_request_lenient`, C88, C84. |
| C92 | C69 for the header, `FirstAt` for its text, then C10 and C77 on the parts of what was sent (C23, C27, C31). |
| C93 | the first `fill` buffers the whole body, so the first `read_entry` gives equal states; false beyond: negation. |
| C94 | Every delimiter line that was consumed is gone from the unread bytes (`Reachable.line`, `SavedSeq.lines`); a size limit needs more data than the limit behind them. |
| C95 | Composition of C77 (now also: what a request over the count limit gives, C50_stopped), C91, C80 and C94 with the handlers; false for two of them: negation. |
| C96 | The loops shrink the unread bytes or the script (C05, C06); an error of the reader is one of the stream (C04), of which the mock request has none. |
| C97 | Induction over the parts, with C07 for each call of `read_entry`; false for long fields: negation, for each of them. |
| C98 | Sums over the saved fields: each is bounded by C39/C38, their number by C49, and each was taken from the unread bytes behind its delimiter line. |
| C99 | The generated fields are sendable and their bodies small, so C93 and C82 give what the servers read; the checks remove each field from the map once (permutations); conversely each passed check removed a field that was there. |
| C100 | Invariant `Held`: a CR in front of a delimiter is at the end of the buffer only while the rest of the buffer is handed out; a read below the size the buffer had when the entry was found cannot take it, and the next refill reads the LF. With C03 and C26 this gives the parts. Sharp: a witness with reads of 1024 bytes. |
| C101 | Composition: the fields are `Sendable`, then C25, C92, C95, C69 and for the builder C87, C32. |
| C102 | C20: the loop ends with success or an error. |
| C103 | Explicit bijection on sequences of random numbers; the boundaries that can collide are the 16-byte windows of the data; then C92. |
| C104 | Unfolding of the handlers with C105_cut and C86 (a body that is cut off is never saved fully); false for three of them: negation. |
| C105 | The loop of `with_entries` (`withEntries_spec`) with C48/C77 for each field: on a working disk within the limits nothing but `read_entry` ends it; then C86 for bodies that are cut off. |
| C106 | C59 (the middleware returns) and unfolding of the chain with C77 (uploads within the limits), C50 (too many parts), C105 (cut off); false for the status: negation. |
| C107 | The cursor after a search (`search_spec`, `backUp_spec`) and the contract of the refill (`fill_spec`); false as documented: negation. |
| C108 | `Target.save_big`: a field that is longer than C38 allows cannot be saved in full, and the other ways to end are excluded; then the invariant of the loop (`Took`, `SavedSeq`) up to that field. The examples as for C104. |
| C109 | C77 for the saved fields; the examples by unfolding. |
| C110 | induction over the rounds of the lenient loop: no call of `read_entry` and no save can fail (C07_skip_partial, C77); C60 for the entries. |
| C111 | case analysis of the parser of headers in both directions; induction over the loop of `with_headers` (why it fails, `withHeadersLoop_err`), with the cursor after a search for how much it has seen. |
| C112 | the round trip (C24, C34) with what the tokenizer and the parser of the line make of any text (C83, C18); for any names, induction over the entries with the position of the next delimiter. |
| C113 | the summary of `with_path` (`PathOut`), with what `open` finds in the file and what writing leaves of it. |
| C114 | `BR.Late`: the last reads of a stream have not been made, or fewer than the minimum buffer precede them; preserved by every call, and so by saving (`KeptByFields`). |
| C115 | Sampling n names is sampling 12n letters (C103: explicit bijection); the lists of names that clash are counted by induction on n, one name at a time; then C77/C48 for the save. |
| C116 | Every part written in this way is a `WellFormedPart` (contract of the tokenizer, C18_exact); then C10 and C77. Negation: witness. |
| C117 | The first header with a name is the only one, so both lists have the same value for it; then C18_exact and C83, and C116 for bodies. |
| C118 | Unique decoding: the boundary ends at the first byte that is no letter or digit, a part at the next delimiter, the names at `;` and CR. Negation: witness. |
| C119 | Induction over the steps of the server; a file that exists is not written by saves with create_new, and a removal touches only what is below its directory. C77 for each request, with the names that the earlier ones have left. |
| C120 | `Parts` ends at a part that does not begin with the headers of a field; `read_entry` on it gives InvalidData, as any headers it could report would parse. Then C10 for reading, and the induction of C77 with that end for saving. C83 says which parts these are. |
| C121 | Under `OnlyFour` and `Incremental`, no prefix of such a part parses; then C120. |
| C122 | One step: the verdict of `read_entry_any` (no false end if the buffer is not full or no read ends in a delimiter line), and where a refused part leaves the stream; then induction over the calls, and over the parts. |
| C123 | C18_exact says what the names are a part of; text that is cut at ASCII characters is text. Then the entries that were read can be sent (`Sendable`), and C24 (C34 for the lazy client) for the second half. |
| C124 | What a resumed save has saved was read by a caller that tries again (`RetryReads`), by induction over the calls; then C85. For the end: each call that is resumed consumes an error of the stream. |
| C125 | Induction over the calls: each saves a stretch of the parts (`SavedSeq`) and gives up the next one, which leaves the stream in that part (`AtParts`); files of earlier calls stay. For the end: induction over the parts, with C07's verdict on skipping. |
| C126 | No prefix of the block that `read_to_boundary` shows parses, under `Incremental`; so the part is `NoFieldHeaders`, and C10 and C122 speak about it. |
| C127 | Strong induction over the body: the next delimiter, then whether a block parses, then where its data ends (`C127_any_body`); then C10 for the parts, and for a part without end what the parser is shown of the rest. |
| C128 | What `find_boundary` leaves unsearched is a prefix of the delimiter, and backing up adds CRLF in front of it. |
| C129 | A second `read_to_boundary` on a full buffer shows the same bytes, so the loop of `with_headers` ends before it asks again; every function of the reader commutes with a change of the bytes two in front of the cursor; each search round on a full buffer discards all but a prefix of CRLF and the delimiter. |
| C130, C131 | Every function of the reader commutes with a change of the reads that it does not make (`Agree`); fuel that depends on these reads is enough for both. C114 says when they are not made. More data behind a delimiter line (`Grown`) changes neither what is found nor where; a session that reaches the end has such a line ahead at each call before. |
| C132 | Induction over the loops, as for fuel: a limit that is not reported was not met, so the comparison with a larger one comes out the same. |
| C133 | `Agree` (C130) through the functions of `save.rs`, loop by loop; a field that is too large is saved on the stream that is interrupted at this point, where C44, C38 and C48 say what comes out, and the result is carried to all other continuations. |
| C134 | Reads of sizes `ns` of a field are a script for the inner reader (`BR.serve`); it is a run of the outer one, so C01 says what its bytes are, and C12 that the CRLF does not matter; existence by the measure of C01_reaches_eof |
| C135 | Bytes used up, call by call: the copy loops by the counter of `try_copy_limited`, headers by the buffer they were in (C114), delimiters because a field saved in full is at its end; then induction over `count_limit` |
| C136 | header values as lists of legal parameters (Spec/ContentType.lean); `boundary=` cannot straddle parameters because it contains neither `;` nor white space (Props/ContentType.lean) |
| C137 | every call of a save changes one file at most, by a bounded number of bytes (Lemmas/Grow.lean); induction over the entries with the list of files that were written, and a sum over it (Props/DiskUse.lean) |
| C138 | the list of written files of C137 grows with the number of stored fields, which `keep_partial` keeps and `with_entries` counts again; induction over the rounds of the lenient loop (Props/IronUse.lean) |
| C139 | invariant over all interleavings of steps: each thread is at its own parts (as for C53), its files exist, also the one it has open, and no file is held twice, as a new file did not exist before (C46). The write of a thread does what saving its field at once would do on the disk as it is then, without the file (`writeFile_as_save`). For liveness the number of steps left, with the random names that were chosen or are left different and new (Props/Threads.lean) |
| C140 | each request either is not saved or is a `with_body`; its entries own the temporary directory (Props/Whole), which is deleted when they are dropped (C57); nothing else changes (Props/Iron), and C137 for the bound; induction over the requests (Props/ExampleDisk.lean) |
| C141 | invariant over all interleavings: that of C139 for each thread, with the list of the files in its temporary directory (at most one per field, each as long as C137 allows); what a thread does changes nothing in the directories of the others. The steps left are bounded by the count limit (Props/Workers.lean) |
| C142 | the parts in front of a padded delimiter as for C116; a space or tab behind the delimiter makes it a damaged one, so the theorems on the parts of a body (C10, C120) apply. Padding is defined by its bytes, `writePadded` writes it behind each delimiter |
| C143 | the parts of such a body by the first occurrence of the delimiter (as for C116, with a part that ends without CRLF); then C10 for reading and C77 for saving |
| C144 | as C141, with the settings of the middleware and a thread that stays in its handler as long as it likes (Props/IronWorkers.lean) |
| C145 | each step of a thread reads and changes only the files in its own directory and takes its failures and names from the front of the scripts (`Local`, Lemmas/Solo.lean); so leaving the steps of the others out of an execution, and what they met, changes nothing for the one that is left (Props/Solo.lean) |
| C146 | the entries of a thread are in its directory, counted and bounded (`Thread.Fit`), in both modes; the steps that a lenient thread still has to do get fewer, unless it is stuck at the count limit (`Thread.togo`, `Thread.Stuck`); together with C145 this brings C60 to requests that are handled at the same time (Props/IronRoom.lean) |
| C147 | the bound on what a save reads (C135) leaves the last event of the stream unread, and what is saved does not depend on unread events (C133); the middleware and the example servers look only at the result and the disk (Props/Decided.lean, Spec/Decided.lean) |
| C148 | simulation: the steps up to a write in the middle of a file are those of C139 on the disk without the files being written (as they were when they were opened), and when the last write is done, the entries of the script used up so far reproduce it in one step (`Copying.From`); so C139 carries over. A thread alone: every write uses up an entry of the script or is the last of its chunk. Directories apart: each step is local to its directory, as for C145 (Model/WriteSteps.lean, Spec/WriteSteps.lean, Lemmas/WriteSteps.lean, Props/WriteSteps.lean) |
| C149 | invariant over single writes: each thread has created at most as many files as it has fields, which were not there, and what is written and about to be written is within the limits; the contents by induction over the steps, as the file a thread writes is a beginning (C148) and the step in which it is done with it writes nothing (Props/Crash.lean) |
| C150 | cases of what saving one field can do; a file is only opened if more was shown than fits, and no more than the data (and the CRLF of C01) is ever shown; bytes instead of text only outside C76, as more fuel changes no result; then induction over the fields of the request (Props/Kinds.lean) |
| C151 | the simulation of C148, which also keeps that all is well with the threads that write files at once (C139) and that no write met failed; each own step lowers a measure (steps left, with those within the open file) plus the length of the shared script of writes, which no step makes longer (Props/FineLive.lean) |
| C152 | induction on the parts before the change: what is behind a delimiter decides nothing about what is before it; the rest of the body is again a body, from any delimiter on (Props/Splice.lean) |
| C153 | the two grammars differ by a CRLF that moves from the end to the beginning (induction on the fields); the rest are C23, C25 and C67 (Props/SameBytes.lean) |
| C154 | C53 for the first server, C123 for the headers, C77 for the second; the groups of the map are a permutation of the fields (Props/Store.lean) |
| C155 | C53 and the groups of C52: under each name is the filtered list of the fields; C77 for the second server (Props/SameSave.lean) |
| C156 | C61, C62 for what is accepted, witnesses for the negations; C02 for an empty boundary (Props/LegalBoundary.lean) |
| C157 | induction over the loop of `read` with the number of bytes drawn so far, and over the loop of `from_fields` (Props/LazyPull.lean) |
| C158 | what is written is a prefix of a whole body, or ends before the last delimiter; C86 for what is lost, C53 for what is saved (Props/FullMeansAll.lean) |
| C159 | the same with C67's loop of `io::copy`; C35 and C77 for the witness of the negation (Props/FullMeansAll.lean) |
| C160 | C09 (a reported end was read), and the delimiter followed by `--` is found only at the end of a body, by induction on the fields; for Iron, an induction on the rounds of the lenient loop (Props/EndMeansAll.lean) |
| C161 | Unfolding of the three handlers as for C104; status 200 needs a full save, and this an end that was read; C160 (Props/Confirmed.lean) |
| C162 | `C86_any_client` and `C86_any_lazy` for what can be read, C105 (saving is reading), with the lengths of all that can be read bounded by those of the fields (Props/AnySaved.lean) |

## Tests of the theorems against wrong programs

`seeded/LOG.jsonl` has one line per wrong program: the definition edited, the edit, the claim it breaks, the theorems that no longer prove, and the theorems that were
tightened because they still did. The edits are made in a copy; failing lemmas count as failing for every theorem that uses them, so a theorem listed as
failed may fail because of a helper lemma that describes the edited definition.
