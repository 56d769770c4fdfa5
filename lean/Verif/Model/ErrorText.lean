import Verif.Model.Game
import Verif.Model.GnuId
import Verif.Model.Xgid
import Verif.Model.Fibs
import Verif.Model.MoveText
import Verif.Model.EngineSpec
/-!
# Model of the `Display` texts of the error types (`#[error(..)]` of the crate `thiserror`)
-/
namespace Bkgm

/-- `Display for XgidError` (src/codecs/xgid.rs 5-13). -/
def Xgid.Error.text : Xgid.Error → Str
  | .invalidPayload => "invalid XGID payload".toList
  | .invalidField name => "invalid XGID field '".toList ++ name.toList ++ "'".toList
  | .invalidPosition => "invalid XGID position".toList

/-- `Display for FibsError` (src/codecs/fibs.rs 6-14). -/
def Fibs.Error.text : Fibs.Error → Str
  | .invalidPayload => "invalid FIBS payload".toList
  | .invalidField name => "invalid FIBS field '".toList ++ name.toList ++ "'".toList
  | .invalidPosition => "invalid FIBS position".toList

/-- `Display for GnuidError` (src/codecs/gnuid.rs 8-14). The only field name in use is `key_length` (line 71). -/
def GnuId.Error.text : GnuId.Error → Str
  | .invalidPayload => "invalid GNUID payload".toList
  | .keyLength => "invalid GNUID field 'key_length'".toList

/-- `Display for MoveTextError` (src/codecs/move_text.rs 6-12). -/
def MoveText.Error.text : MoveText.Error → Str
  | .variantMismatch => "variant mismatch while encoding move".toList
  | .encodeTargetNotReachable => "failed to derive move text from legal child".toList

/-- `Display for GameError` (src/game.rs 7-15). -/
def GameError.text : GameError → Str
  | .variantMismatch => "position variant does not match game variant".toList
  | .legalMoveIndexOutOfBounds => "legal move index out of bounds".toList
  | .policyIndexOutOfBounds => "policy returned out-of-bounds legal move index".toList

/-- `Display for EngineSpecError` (src/engine_spec.rs 3-9). -/
def EngineSpec.Error.text : EngineSpec.Error → Str
  | .invalidSpec spec => "invalid engine spec '".toList ++ spec ++ "'".toList
  | .invalidOverride part spec => "invalid engine override '".toList ++ part ++ "' in '".toList ++ spec ++ "'".toList

end Bkgm
