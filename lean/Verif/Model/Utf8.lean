import Verif.Model.Str
/-!
# UTF-8

`str` and `String` are lists of characters in this model; these are the conversions from and to bytes.
-/
namespace Bkgm.Stdin

/-- `std::str::from_utf8`: Lean's own UTF-8 decoder. (src/codecs/xgid.rs 209, 239.) -/
def fromUtf8 (l : List UInt8) : Option Str := l.toByteArray.utf8Decode?.map Array.toList

/-- The bytes of a `String`. (src/ubgi/runtime.rs 85-100.) -/
def utf8 (s : Str) : List UInt8 := s.flatMap String.utf8EncodeChar

end Bkgm.Stdin
