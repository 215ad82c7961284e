import Verif.Model.Client
/-!
# Model of the HTTP library adapters: `src/server/{hyper,iron,tiny_http,nickel}.rs`, `src/client/hyper.rs`

The types of the `mime` 0.2 crate that Hyper and Iron use (not the `mime` of `Model/Field`). Simplification: of the enumerations only the
variants the code names are represented, all others are `ext` with their text.
-/
namespace Multipart

/-- `mime::TopLevel` -/
inductive TopLevel where
  | multipart
  | ext (s : Bytes)
  deriving DecidableEq, Repr

/-- `mime::SubLevel` -/
inductive SubLevel where
  | formData
  | ext (s : Bytes)
  deriving DecidableEq, Repr

/-- `mime::Attr` -/
inductive Attr where
  | boundary
  | ext (s : Bytes)
  deriving DecidableEq, Repr

/-- `mime::Value` -/
inductive Value where
  | utf8
  | ext (s : Bytes)
  deriving DecidableEq, Repr

/-- `mime::Mime(TopLevel, SubLevel, Vec<(Attr, Value)>)` -/
structure HMime where
  top : TopLevel
  sub : SubLevel
  params : List (Attr × Value)
  deriving DecidableEq, Repr

/-- `as_str` of `TopLevel`, `SubLevel`, `Attr` and `Value` -/
def TopLevel.asStr : TopLevel → Bytes
  | .multipart => b!"multipart"
  | .ext s => s
@[inherit_doc TopLevel.asStr] def SubLevel.asStr : SubLevel → Bytes
  | .formData => b!"form-data"
  | .ext s => s
@[inherit_doc TopLevel.asStr] def Attr.asStr : Attr → Bytes
  | .boundary => b!"boundary"
  | .ext s => s
@[inherit_doc TopLevel.asStr] def Value.asStr : Value → Bytes
  | .utf8 => b!"utf-8"
  | .ext s => s

/-- `Mime::get_param` with a string: the first parameter whose name has this text. -/
def HMime.getParam (m : HMime) (name : Bytes) : Option Value := (m.params.find? (fun p => p.1.asStr = name)).map Prod.snd

/-- `hyper::method::Method` -/
inductive Method where
  | post
  | ext (s : Bytes)
  deriving DecidableEq, Repr

/-- A request of Hyper, Iron or Nickel (whose request wraps one of Hyper): method, parsed `Content-Type` header if present, body. -/
structure HyperReq where
  method : Method
  contentType : Option HMime
  body : List Ev
  deriving DecidableEq, Repr

/-- server/hyper.rs:88-91: `match *name { Attr::Boundary => true, _ => false }` -/
def Attr.isBoundary : Attr → Bool
  | .boundary => true
  | .ext _ => false

/-- server/hyper.rs:82-97: the closure in `multipart_boundary` -/
def hyperMimeBoundary (m : HMime) : Option Bytes :=
  match m with
  | ⟨.multipart, .formData, params⟩ =>
    match params.find? (fun p => p.1.isBoundary) with
    | some (_, .ext v) => some v
    | some (_, _) => none
    | none => none
  | _ => none

/-- server/hyper.rs:75-99 `multipart_boundary`; lines 109-133 are the same for `&mut Request`. -/
def hyperBoundary (r : HyperReq) : Option Bytes :=
  if r.method ≠ .post then none else r.contentType.bind hyperMimeBoundary

/-- server/iron.rs:23-30 `multipart_boundary` -/
def ironBoundary (r : HyperReq) : Option Bytes :=
  match r.contentType with
  | none => none
  | some m =>
    match m with
    | ⟨.multipart, .formData, _⟩ => (m.getParam b!"boundary").map Value.asStr
    | _ => none

/-- server/nickel.rs:21-25 `multipart_boundary` -/
def nickelBoundary (r : HyperReq) : Option Bytes :=
  match r.contentType with
  | none => none
  | some m => (m.getParam b!"boundary").map Value.asStr

/-- A `tiny_http` request: method, headers, body. -/
structure TinyReq where
  method : Method
  headers : List Header
  body : List Ev
  deriving DecidableEq, Repr

/-- server/tiny_http.rs:25-30: from the `Content-Type` value to the result -/
def tinyValueBoundary (v : Bytes) : Option Bytes :=
  match findSub b!"boundary=" v with
  | none => none
  | some i =>
    let start := i + b!"boundary=".length
    let stop := match findByte 0x3B (v.drop start) with
      | none => v.length
      | some j => start + j
    some ((v.drop start).take (stop - start))

/-- server/tiny_http.rs:16-31 `multipart_boundary`; `HeaderField::equiv` ignores ASCII case. -/
def tinyBoundary (r : TinyReq) : Option Bytes :=
  match r.headers.find? (fun h => eqIgnoreCase h.name b!"Content-Type") with
  | none => none
  | some h => tinyValueBoundary h.val

/-- server/hyper.rs:72-104, 106-138 -/
def hyperHttp : HttpRequest HyperReq := { multipartBoundary := hyperBoundary, body := HyperReq.body }
/-- server/iron.rs:20-35 -/
def ironHttp : HttpRequest HyperReq := { multipartBoundary := ironBoundary, body := HyperReq.body }
/-- server/nickel.rs:18-30 -/
def nickelHttp : HttpRequest HyperReq := { multipartBoundary := nickelBoundary, body := HyperReq.body }
/-- server/tiny_http.rs:13-36 -/
def tinyHttp : HttpRequest TinyReq := { multipartBoundary := tinyBoundary, body := TinyReq.body }

/-- server/nickel.rs:41-43 `multipart_body` -/
def multipartBody (r : HyperReq) : Option BR :=
  match fromRequest nickelHttp r with
  | .ok m => some m
  | .error _ => none

/-- server/hyper.rs:43-50 `Switch::handle`; the two handlers are functions to a common result. -/
def switchHandle {α : Type} (normal : HyperReq → α) (multipart : BR → α) (r : HyperReq) : α :=
  match fromRequest hyperHttp r with
  | .ok m => multipart m
  | .error req => normal req

/-- A `hyper::client::request::Request<Fresh>`: its method and the two headers that are set. -/
structure HyperClientReq where
  method : Method
  contentType : Option HMime
  contentLength : Option Nat
  deriving DecidableEq, Repr

/-- client/hyper.rs:78-83 `multipart_mime`, also 74-76 `content_type` -/
def multipartMime (bound : Bytes) : HMime := { top := .multipart, sub := .ext b!"form-data", params := [(.ext b!"boundary", .ext bound)] }

/-- client/hyper.rs:34-55 `apply_headers` -/
def HyperClientReq.applyHeaders (r : HyperClientReq) (boundary : Bytes) (len : Option Nat) : Bool × HyperClientReq :=
  if r.method ≠ .post then (false, r)
  else
    let r := { r with contentType := some (multipartMime boundary) }
    (true, match len with | some n => { r with contentLength := some n } | none => r)

end Multipart
