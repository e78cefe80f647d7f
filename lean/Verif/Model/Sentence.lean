import Verif.Model.Basic
import Verif.Model.Term
import Verif.Model.Tv
import Verif.Model.Stamp
/-! # Sentences  (models /repo/src/NarSentence.rs) -/
namespace Nar

/-- `EnumPunctation`, NarSentence.rs 10-15. -/
inductive Punct
  | JUGEMENT
  | QUESTION
  | GOAL
  deriving DecidableEq, Repr

/-- `Evidence`, NarSentence.rs 19-23. -/
inductive Evidence
  | CNT (pos cnt : Int)
  | TV (tv : Tv)
  deriving DecidableEq, Repr

/-- `Usage`, NarSentence.rs 65-69, together with the identity of the shared cell `Arc<RwLock<Usage>>` (NarSentence.rs 36) it
is in: sentences with equal `cell` share their counters.  Each place which makes a cell gives it a name of its own; the empty
name is used where the counters are never updated. -/
structure Usage where
  lastUsed : Int
  useCount : Int
  cell : List Int
  deriving DecidableEq, Repr

/-- `Sentence`, NarSentence.rs 25-37; the shared cell `Arc<RwLock<Usage>>` is its current value and its
identity. -/
structure Sentence where
  term : Term
  t : Option Int
  punct : Punct
  stamp : Stamp
  expDt : Option Int
  evi : Option Evidence
  usage : Usage
  deriving Repr

/-- `shallowCopySentence`, NarSentence.rs 39-49. -/
def shallowCopySentence (s : Sentence) : Sentence :=
  { term := s.term, t := s.t, punct := s.punct, stamp := s.stamp, expDt := s.expDt, evi := s.evi,
    usage := s.usage }

/-- `usageUpdate`, NarSentence.rs 71-74. -/
def usageUpdate (usage : Usage) (currentTime : Int) : Usage :=
  { usage with lastUsed := currentTime, useCount := usage.useCount + 1 }

/-- `calcUsageUsefulness`, NarSentence.rs 77-83. -/
def calcUsageUsefulness (usage : Usage) (currentTime : Int) : Rat :=
  let recency : Rat := (max (currentTime - usage.lastUsed) 0 : Int)
  let usefulnessToNormalize : Rat := (usage.useCount : Rat) / (recency + 1)
  usefulnessToNormalize / (usefulnessToNormalize + 1)

/-- `newEternalSentenceByTv`, NarSentence.rs 86-96; the new cell of the counters is named after the evidence trail (input is
given a new trail each time, Nar.rs 67-69). -/
def newEternalSentenceByTv (term : Term) (punct : Punct) (tv : Tv) (stamp : Stamp) : Sentence :=
  { term := term, t := none, punct := punct, stamp := stamp
    evi := if punct ≠ .QUESTION then some (.TV tv) else none
    expDt := none, usage := ⟨0, 0, stamp.ids⟩ }

/-- `retFreq`, NarSentence.rs 110-115 (`cnt = 0` is NaN or infinite in IEEE arithmetic). -/
def retFreq : Evidence → R Rat
  | .CNT pos cnt => if cnt = 0 then .error .nan else .ok ((pos : Rat) / (cnt : Rat))
  | .TV _ => .error .explicit

/-- `retConf`, NarSentence.rs 117-122 (`cnt = -1` divides by zero). -/
def retConf : Evidence → R Rat
  | .CNT _ cnt => if cnt = -1 then .error .nan else .ok ((cnt : Rat) / ((cnt : Rat) + 1))
  | .TV _ => .error .explicit

/-- `retTv`, NarSentence.rs 98-107. -/
def retTv (s : Sentence) : R (Option Tv) :=
  match s.evi with
  | none => .ok none
  | some (.TV tv) => .ok (some tv)
  | some (.CNT pos cnt) => do
      let f ← retFreq (.CNT pos cnt)
      let c ← retConf (.CNT pos cnt)
      .ok (some ⟨f, c⟩)

end Nar
