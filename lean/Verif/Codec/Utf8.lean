import Verif.Codec.Base64
/-
UTF-8: Lean's own encoder and validating decoder, used for `str.encode('utf-8')` and
`bytes.decode('utf-8')`.
-/
namespace Verif.Codec

/-- `s.encode('utf-8')`. -/
def utf8 (s : List Char) : List Byte := s.flatMap String.utf8EncodeChar

/-- `b.decode('utf-8')`; `none` is `UnicodeDecodeError`. -/
def unutf8 (b : List Byte) : Option (List Char) := b.toByteArray.utf8Decode?.map Array.toList

theorem unutf8_utf8 (s : List Char) : unutf8 (utf8 s) = some s := by
  unfold unutf8
  have : (utf8 s).toByteArray = s.utf8Encode := rfl
  rw [this, List.utf8Decode?_utf8Encode]
  rfl

end Verif.Codec
