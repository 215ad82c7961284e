import Verif.Model.Boundary
import Verif.Model.Utf8
/-!
# Model of `src/server/field.rs`: header parsing
-/
namespace Multipart

/-- `mime::Mime`. Simplification: the text it was parsed from (what `Display` gives back) and its top-level type;
parameters other than via the text are not represented. -/
structure Mime where
  src : Bytes
  type_ : Bytes
  deriving DecidableEq, Repr

/-- A header as tokenized: name and value. Also `StrHeader` (field.rs:34-39), whose value is known to be UTF-8. -/
structure Header where
  name : Bytes
  val : Bytes
  deriving DecidableEq, Repr

/-- Result of `httparse::parse_headers`: `Err`, `Ok(Partial)`, `Ok(Complete((consumed, headers)))`. -/
inductive HParse where
  | error
  | partialHdrs
  | complete (consumed : Nat) (headers : List Header)
  deriving DecidableEq, Repr

/-- The dependencies the server code calls, as parameters of the model: `httparse::parse_headers` with room for
`HEADER_LEN = 4` headers, and `str::parse::<Mime>`. -/
structure Deps where
  parseHeaders : Bytes → HParse
  parseMime : Bytes → Option Mime

/-- What is always assumed about the tokenizer: it returns a sub-slice of the four headers it was given, and does not claim
to have consumed more bytes than there are. -/
structure Deps.Sane (D : Deps) : Prop where
  four : ∀ bs n hs, D.parseHeaders bs = .complete n hs → hs.length ≤ 4
  len : ∀ bs n hs, D.parseHeaders bs = .complete n hs → n ≤ bs.length

/-- field.rs:536-570 `ParseHeaderError`. Simplification: the error of the tokenizer is not represented. -/
inductive HdrErr where
  | missingContentDisposition (headers : Bytes)
  | invalidContDisp (reason cause : Bytes)
  | tokenize
  | mime (contType : Bytes)
  | tooLarge
  | io (e : IoErr)
  deriving DecidableEq, Repr

/-- Outcome of the header functions. -/
inductive HRes (α : Type) where
  | ok (a : α)
  | err (e : HdrErr)
  | panic
  | hang
  deriving DecidableEq, Repr

/-- field.rs:94-104 `copy_headers`: all values must be UTF-8 (the error is an `io::Error`, kind `InvalidData`); more than
`HEADER_LEN` headers would make the slice in line 103 panic. -/
def copyHeaders (raw : List Header) : HRes (List Header) :=
  if raw.all (fun h => utf8Valid h.val) then
    if raw.length ≤ 4 then .ok raw else .panic
  else .err (.io .invalidData)

/-- field.rs:65-88: the loop of `with_headers`; arguments: fuel, `last_len`, reader. On success the headers and the
number of bytes to consume. -/
def withHeadersLoop (D : Deps) : Nat → Nat → BR → HRes (Nat × List Header) × BR
  | 0, _, s => (.hang, s)
  | n + 1, lastLen, s =>
    match s.readToBoundary with
    | (.err e, s) => (.err (.io e), s)
    | (.panic, s) => (.panic, s)
    | (.hang, s) => (.hang, s)
    | (.ok buf, s) =>
      if buf.length = lastLen then (.err .tooLarge, s)
      else
        match D.parseHeaders buf with
        | .error => (.err .tokenize, s)
        | .partialHdrs => withHeadersLoop D n buf.length s
        | .complete consume raw =>
          match copyHeaders raw with
          | .ok hs => (.ok (consume, hs), s)
          | .err e => (.err e, s)
          | .panic => (.panic, s)
          | .hang => (.hang, s)

/-- field.rs:53-92 `with_headers`. The closure is applied by the caller: it has no access to the reader, so whether it
runs before or after line 90 makes no difference. The fuel is one more than the number of loop iterations possible. -/
def withHeaders (D : Deps) (s : BR) : HRes (List Header) × BR :=
  match withHeadersLoop D (s.evs.length + 2) 0 s with
  | (.ok (consume, hs), s) => (.ok hs, s.consume consume)
  | (.err e, s) => (.err e, s)
  | (.panic, s) => (.panic, s)
  | (.hang, s) => (.hang, s)

/-- ASCII lower case of a byte (`u8::to_ascii_lowercase`). -/
def lowerByte (b : Byte) : Byte := if 0x41 ≤ b && b ≤ 0x5A then b + 0x20 else b

/-- `str::eq_ignore_ascii_case` -/
def eqIgnoreCase (a b : Bytes) : Bool := a.map lowerByte == b.map lowerByte

/-- field.rs:375-381 `find_header` -/
def findHeader (hs : List Header) (name : Bytes) : Option Header :=
  hs.find? (fun h => eqIgnoreCase h.name name)

/-- `str::find(char)` for an ASCII character: index of the first such byte. -/
def findByte (c : Byte) : Bytes → Option Nat
  | [] => none
  | x :: xs => if x = c then some 0 else (findByte c xs).map (· + 1)

/-- field.rs:347-349 `split_once`: the delimiter stays at the head of the second part. -/
def splitOnce (s : Bytes) (delim : Byte) : Option (Bytes × Bytes) :=
  (findByte delim s).map fun i => (s.take i, s.drop i)

/-- field.rs:351-353 `trim_quotes` -/
def trimQuotes (s : Bytes) : Bytes :=
  (((s.dropWhile (· = 0x22)).reverse).dropWhile (· = 0x22)).reverse

/-- field.rs:356-369 `get_str_after` -/
def getStrAfter (needle : Bytes) (endDelim : Byte) (hay : Bytes) : Option (Bytes × Bytes) :=
  match findSub needle hay with
  | none => none
  | some i =>
    let start := i + needle.length
    let stop := match findByte endDelim (hay.drop start) with
      | none => hay.length
      | some j => j + start
    some ((hay.drop start).take (stop - start), hay.drop stop)

/-- One-byte white space (`char::is_whitespace` for ASCII). -/
def isWs1 (b : Byte) : Bool := b = 0x20 || (0x09 ≤ b && b ≤ 0x0D)

/-- UTF-8 encodings of the non-ASCII characters with property White_Space. -/
def wsEncodings : List Bytes :=
  [[0xC2, 0x85], [0xC2, 0xA0], [0xE1, 0x9A, 0x80], [0xE2, 0x80, 0x80], [0xE2, 0x80, 0x81], [0xE2, 0x80, 0x82],
   [0xE2, 0x80, 0x83], [0xE2, 0x80, 0x84], [0xE2, 0x80, 0x85], [0xE2, 0x80, 0x86], [0xE2, 0x80, 0x87], [0xE2, 0x80, 0x88],
   [0xE2, 0x80, 0x89], [0xE2, 0x80, 0x8A], [0xE2, 0x80, 0xA8], [0xE2, 0x80, 0xA9], [0xE2, 0x80, 0xAF], [0xE2, 0x81, 0x9F],
   [0xE3, 0x80, 0x80]]

/-- Length of the white-space character at the start, given the multi-byte encodings. -/
def wsLen (encs : List Bytes) : Bytes → Nat
  | [] => 0
  | x :: xs => if isWs1 x then 1 else match encs.find? (fun e => e.isPrefixOf (x :: xs)) with
    | some e => e.length
    | none => 0

/-- Strip white space at the start, with fuel. -/
def trimStartAux (encs : List Bytes) : Nat → Bytes → Bytes
  | 0, bs => bs
  | n + 1, bs => if wsLen encs bs = 0 then bs else trimStartAux encs n (bs.drop (wsLen encs bs))

/-- `str::trim` (field.rs:169) -/
def trimWs (s : Bytes) : Bytes :=
  let s := trimStartAux wsEncodings s.length s
  (trimStartAux (wsEncodings.map List.reverse) s.length s.reverse).reverse

/-- field.rs:146-152 `ContentDisp` -/
structure ContentDisp where
  fieldName : Bytes
  filename : Option Bytes
  deriving DecidableEq, Repr

/-- field.rs:41-51 `DisplayHeaders` -/
def displayHeaders (hs : List Header) : Bytes := hs.flatMap fun h => h.name ++ b!": " ++ h.val ++ b!"\n"

/-- field.rs:155-199 `ContentDisp::parse_required`, and 25-32 `invalid_cont_disp!` -/
def ContentDisp.parseRequired (hs : List Header) : Except HdrErr ContentDisp :=
  match findHeader hs b!"Content-Disposition" with
  | none => .error (.missingContentDisposition (displayHeaders hs))
  | some h =>
    match splitOnce h.val 0x3B with
    | none => .error (.invalidContDisp b!"expected additional data after Content-Disposition type" h.val)
    | some (dispType, afterDispType) =>
      if trimWs dispType ≠ b!"form-data" then .error (.invalidContDisp b!"unexpected Content-Disposition value" dispType)
      else
        match getStrAfter b!"name=" 0x3B afterDispType with
        | none => .error (.invalidContDisp b!"expected field name and maybe filename, got" afterDispType)
        | some (fieldName, afterFieldName) =>
          .ok { fieldName := trimQuotes fieldName,
                filename := (getStrAfter b!"filename=" 0x3B afterFieldName).map (fun p => trimQuotes p.1) }

/-- field.rs:202-212 `parse_content_type` -/
def parseContentType (D : Deps) (hs : List Header) : Except HdrErr (Option Mime) :=
  match findHeader hs b!"Content-Type" with
  | some h =>
    match D.parseMime h.val with
    | some m => .ok (some m)
    | none => .error (.mime h.val)
  | none => .ok none

/-- field.rs:112-127 `FieldHeaders` -/
structure FieldHeaders where
  name : Bytes
  filename : Option Bytes
  contentType : Option Mime
  deriving DecidableEq, Repr

/-- field.rs:135-143 `FieldHeaders::parse` -/
def FieldHeaders.parse (D : Deps) (hs : List Header) : Except HdrErr FieldHeaders :=
  match ContentDisp.parseRequired hs with
  | .error e => .error e
  | .ok cd =>
    match parseContentType D hs with
    | .error e => .error e
    | .ok ct => .ok { name := cd.fieldName, filename := cd.filename, contentType := ct }

/-- field.rs:131-133 `FieldHeaders::read_from` -/
def FieldHeaders.readFrom (D : Deps) (s : BR) : HRes FieldHeaders × BR :=
  match withHeaders D s with
  | (.ok hs, s) =>
    match FieldHeaders.parse D hs with
    | .ok h => (.ok h, s)
    | .error e => (.err e, s)
  | (.err e, s) => (.err e, s)
  | (.panic, s) => (.panic, s)
  | (.hang, s) => (.hang, s)

/-- field.rs:533-570: the text of the error (`Display`, as written by `quick_error!`); `tok` is the text of the error of the tokenizer, `io` those of I/O errors. -/
def HdrErr.text (tok : Bytes) (io : IoErr → Bytes) : HdrErr → Bytes
  | .missingContentDisposition headers => b!"\"Content-Disposition\" header not found in field headers" ++ b!":\n" ++ headers
  | .invalidContDisp reason cause => b!"invalid \"Content-Disposition\" header" ++ b!": " ++ reason ++ b!": " ++ cause
  | .tokenize => b!"an error occurred while parsing field headers" ++ b!": " ++ tok
  | .mime contType => b!"Failed to parse Content-Type" ++ b!": " ++ contType
  | .tooLarge => b!"field headers section ridiculously long or missing trailing CRLF-CRLF"
  | .io e => b!"an io error occurred while parsing the headers" ++ b!": " ++ io e

/-- field.rs:238-243 `MultipartField::is_text` -/
def FieldHeaders.isText (h : FieldHeaders) : Bool :=
  match h.contentType with
  | none => true
  | some m => m.type_ = b!"text"

/-- field.rs:437-440 `PrivReadEntry::read_headers`: every error becomes kind `InvalidData`. -/
def BR.readHeaders (D : Deps) (s : BR) : Res FieldHeaders × BR :=
  match FieldHeaders.readFrom D s with
  | (.ok h, s) => (.ok h, s)
  | (.err _, s) => (.err .invalidData, s)
  | (.panic, s) => (.panic, s)
  | (.hang, s) => (.hang, s)

/-- field.rs:386-415 `ReadEntry::read_entry` (also server/mod.rs:124-132, 164-181, which only delegate). `Multipart<R>` is
its reader (mod.rs:79-81). `ok (some h)` is `Entry` with headers `h` (its data is read from the returned state), `ok none` is `End`,
`err e` is `Error`. -/
def BR.readEntry (D : Deps) (s : BR) : Res (Option FieldHeaders) × BR :=
  match (s.setMin minBufSize).consumeBoundary with
  | (.ok false, s) => (.ok none, s)
  | (.ok true, s) =>
    match s.readHeaders D with
    | (.ok h, s) => (.ok (some h), s)
    | (.err e, s) => (.err e, s)
    | (.panic, s) => (.panic, s)
    | (.hang, s) => (.hang, s)
  | (.err e, s) => (.err e, s)
  | (.panic, s) => (.panic, s)
  | (.hang, s) => (.hang, s)

/-- What the error of `read_entry` wraps if it comes from the headers (field.rs:386-415, 437-440): with `ReadEntryResult::Error`, the `io::Error` has this as its payload, and its text. -/
def BR.entryError (D : Deps) (s : BR) : Option HdrErr :=
  match (s.setMin minBufSize).consumeBoundary with
  | (.ok true, s) =>
    match FieldHeaders.readFrom D s with
    | (.err e, _) => some e
    | _ => none
  | _ => none

end Multipart
