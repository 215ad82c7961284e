import Verif.Model.LazyHyper
import Verif.Model.Examples
/-!
# Model of the example clients and of `form_test`

`examples/hyper_client.rs`, `examples/hyper_reqbuilder.rs` and `src/bin/form_test.rs`. What they do with the response of the server is left out.
-/
namespace Multipart

/-- hyper_client.rs:36-44 `write_body`: the calls. A slice is read in one piece; it delivers nothing behind its end. -/
def hyperClientCalls : List ClientOp :=
  [.text b!"text" b!"Hello, world!", .file b!"file" [b!"lorem_ipsum.txt"], .stream b!"binary" [.data b!"Hello world from binary!"] none none]

/-- hyper_client.rs:12-25 `main`, for the boundary `b`: `expect` panics for an error. -/
def hyperClientMain (env : FileEnv) (req : ClientReq) (b : Bytes) : Res Unit × Option ClientStream :=
  match plainRequest env req b hyperClientCalls with
  | (.err _, s) => (.panic, s)
  | (r, s) => (r, s)

/-- hyper_reqbuilder.rs:9-15: the calls. -/
def reqBuilderCalls : List ClientOp :=
  [.text b!"text" b!"Hello, world!", .file b!"file" [b!"lorem_ipsum.txt"], .stream b!"binary" [.data b!"Hello world in binary!"] none none]

/-- hyper_reqbuilder.rs:8-19 `main`, up to what is handed to Hyper; `expect` panics for an error. -/
def reqBuilderMain (env : LazyEnv) (b : Bytes) : Res HyperBuilder :=
  match ((LazyMp.build reqBuilderCalls).clientRequest env b b!"http://localhost:80").1 with
  | .handed q => .ok q
  | .failed _ => .panic
  | .panic => .panic

/-- form_test.rs:20-24: the entries of a request are skipped one after the other; an error is printed only. -/
def formTestRead (D : Deps) (req : HyperReq) : Res Unit :=
  match fromRequest hyperHttp req with
  | .ok m =>
    match (foreachEntry D (fun st _ _ => ([], st)) () m).1 with
    | .err _ => .ok ()
    | r => r
  | .error _ => .ok ()

/-- form_test.rs:19-33 `read_multipart`: then the page is sent. `page`: the contents of `test_form.html`, if it can be opened and read. `connected`: whether the response can be written. -/
def formTest (D : Deps) (page : Except IoErr Bytes) (connected : Bool) (req : HyperReq) : Res Answer :=
  match formTestRead D req with
  | .ok () =>
    match page, connected with
    | .ok p, true => .ok ⟨200, p⟩
    | _, _ => .panic
  | .err e => .err e
  | .panic => .panic
  | .hang => .hang

end Multipart
