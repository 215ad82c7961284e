import Verif.Model.Basic
/-!
# UTF-8 text
-/
namespace Multipart

/-- The UTF-8 encoding of a list of characters (Unicode scalar values), by Lean's own encoder. -/
def encodeChars (cs : List Char) : Bytes := cs.flatMap String.utf8EncodeChar

/-- The bytes are the UTF-8 encoding of some text. -/
def IsUtf8 (bs : Bytes) : Prop := ∃ cs, bs = encodeChars cs

end Multipart
