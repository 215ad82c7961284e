import Verif.Model.Lazy
import Verif.Model.Adapters
/-!
# Model of the lazy client's Hyper requests: `src/client/lazy.rs`, `mod hyper`

Hyper itself (`RequestBuilder::send`, the connection) is not part of /repo: the model ends where the request is handed to Hyper.
-/
namespace Multipart

/-- `hyper::client::Body`, the variants that are used. -/
inductive HyperBody where
  | sized (fields : Prepared) (len : Nat)
  | chunked (fields : Prepared)
  deriving DecidableEq, Repr

/-- lazy.rs:535-544 `to_body` -/
def Prepared.toBody (p : Prepared) : HyperBody :=
  match p.contentLen with
  | some len => .sized p len
  | none => .chunked p

/-- A `hyper::client::RequestBuilder`. Of the headers, `Content-Type` is represented, the others are opaque. -/
structure HyperBuilder where
  method : Method
  url : Bytes
  contentType : Option HMime
  others : List Header
  body : Option HyperBody
  deriving DecidableEq, Repr

/-- `Client::post` -/
def HyperBuilder.post (url : Bytes) : HyperBuilder := { method := .post, url := url, contentType := none, others := [], body := none }

/-- How `client_request` ends as far as this crate is concerned: a request is handed to Hyper's `send`, an error is returned, or it panics. -/
inductive HyperRes where
  | handed (r : HyperBuilder)
  | failed (e : IoErr)
  | panic
  deriving DecidableEq, Repr

/-- lazy.rs:510-528 `client_request_mut`; `b` is the generated boundary, `f` the closure (which is assumed to return). `RequestBuilder::header` replaces a header of the same type,
`RequestBuilder::body` replaces the body. The second component is the request as it is left. -/
def LazyMp.clientRequestMut (env : LazyEnv) (b : Bytes) (m : LazyMp) (url : Bytes) (f : HyperBuilder → HyperBuilder) : HyperRes × LazyMp :=
  match m.prepare env b with
  | (.error e, m) => (.failed e.error, m)
  | (.ok p, m) =>
    match p.boundary with
    | .ok bound => (.handed { f (.post url) with contentType := some (multipartMime bound), body := some p.toBody }, m)
    | _ => (.panic, m)

/-- lazy.rs:496-502 `client_request` -/
def LazyMp.clientRequest (env : LazyEnv) (b : Bytes) (m : LazyMp) (url : Bytes) : HyperRes × LazyMp := m.clientRequestMut env b url id

end Multipart
