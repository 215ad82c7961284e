import Verif.Model.Server
/-!
# Model of a `Multipart` over the data of a field
-/
namespace Multipart

/-- The reads which a `Multipart::with_body(field.data, boundary)` (server/mod.rs:108-116, with `Read` for `MultipartData`, field.rs:328-332) makes of its stream: their results, and the reader of the outer body behind them.
`ns` are the sizes of the buffers, which depend on what the inner reader has buffered; the theorems hold for all. (Panics and hangs, which do not happen by C05 and C06, end the list.) -/
def BR.serve : List Nat → BR → List Ev × BR
  | [], s => ([], s)
  | n :: ns, s =>
    match s.read n with
    | (.ok x, s) => (.data x :: (BR.serve ns s).1, (BR.serve ns s).2)
    | (.err e, s) => (.err e :: (BR.serve ns s).1, (BR.serve ns s).2)
    | (.panic, s) => ([], s)
    | (.hang, s) => ([], s)

end Multipart
