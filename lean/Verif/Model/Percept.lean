import Verif.Model.Basic
/-! # Limiting attention: AeraishPerceptionComp.rs -/
namespace Nar

/-- `PerceptItem`, AeraishPerceptionComp.rs 4-9 -/
structure PerceptItem (T : Type) where
  dat : T
  salience : Rat
  novelity : Rat
  deriving DecidableEq

/-- `limit`, AeraishPerceptionComp.rs 12-19 -/
def limitPercepts {T : Type} (arr : List (PerceptItem T)) (maxLen : Nat) : List (PerceptItem T) :=
  if arr.length > maxLen then arr.take maxLen else arr

end Nar
