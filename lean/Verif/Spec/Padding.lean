import Verif.Spec.OtherClients
/-!
# Spaces behind a delimiter
-/
namespace Multipart

/-- RFC 2046, 5.1.1: the spaces and tabs ("transport padding") that may stand between a delimiter and the end of its line. -/
def Padding (w : Bytes) : Prop := ∀ c ∈ w, c = 0x20 ∨ c = 0x09

/-- `writeBody`, with the given bytes between the delimiter in front of each part and the end of this line. -/
def writePadded (b epilogue : Bytes) : List (Bytes × RawPart) → Bytes
  | [] => dashes ++ b ++ dashes ++ epilogue
  | (w, p) :: ps => dashes ++ b ++ w ++ crlf ++ renderHeaders p.headers ++ p.data ++ crlf ++ writePadded b epilogue ps

end Multipart
