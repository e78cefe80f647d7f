import Verif.Model.Mem
/-! # Specification vocabulary for concept memory -/
namespace Nar

/-- two sentences about the same statement -/
def SameStatement (a b : Sentence) : Prop := a.term = b.term

/-- two sentences rest on a common piece of evidence -/
def SharesEvidence (a b : Sentence) : Prop := ∃ id, id ∈ a.stamp.ids ∧ id ∈ b.stamp.ids

/-- What can happen to a concept memory. -/
inductive MemOp
  /-- low level: file a sentence under given terms (used by the procedural memory) -/
  | store (s : Sentence) (under : List Term) (now : Int)
  /-- add a sentence to declarative memory (revise or file) -/
  | add (s : Sentence) (now : Int)
  /-- forget concepts down to a limit -/
  | forget (limit : Nat)
  /-- arbitrary change of all usage statistics (they are shared cells, updated when a belief is used);
  `g name table idx belief` is the new usage of the belief at `idx` -/
  | touch (g : Term → Bool → Nat → Sentence → Usage)

/-- effect of `MemOp.touch` -/
def touchMem (g : Term → Bool → Nat → Sentence → Usage) (m : Mem) : Mem :=
  m.map (fun c => { c with
    beliefsByExp := c.beliefsByExp.mapIdx (fun i b => { b with usage := g c.name true i b })
    beliefsByUsage := c.beliefsByUsage.mapIdx (fun i b => { b with usage := g c.name false i b }) })

/-- perform one operation, with belief tables configured to `n` entries -/
def MemOp.run (n : Nat) (m : Mem) : MemOp → R Mem
  | .store s under now => storeInConcepts2 m s under n now
  | .add s now => (addBelief m s n now).map (·.1)
  | .forget limit => limitMemory m limit
  | .touch g => .ok (touchMem g m)

/-- perform a history of operations, starting with an empty memory -/
def runMem (n : Nat) (ops : List MemOp) : R Mem := ops.foldlM (MemOp.run n) []

/-- the operation adds only sentences with an evidence trail, and never files beliefs directly -/
def MemOp.Declarative : MemOp → Prop
  | .store _ _ _ => False
  | .add s _ => s.stamp.ids ≠ []
  | .forget _ => True
  | .touch _ => True

end Nar

namespace Nar

/-- the sentence has the truth value `tv` -/
def HasTruth (s : Sentence) (tv : Tv) : Prop := retTv s = .ok (some tv)

/-- `new` is `old` with the one independent belief about the statement of `s` replaced by the belief
which pools its evidence with that of `s` -/
def Pooled (s : Sentence) (old new : List Sentence) : Prop :=
  ∃ pre b post r tb ts tv, old = pre ++ b :: post ∧ new = pre ++ post ++ [r] ∧
    SameStatement b s ∧ ¬ SharesEvidence b s ∧ SameStatement r s ∧ r.stamp = Stamp.merge b.stamp s.stamp ∧
    HasTruth b tb ∧ HasTruth s ts ∧ Tv.rev tb ts = some tv ∧ HasTruth r tv

/-- expectation of the belief (how much it is believed), `(f - 1/2) * c + 1/2` -/
def Expectation (s : Sentence) (e : Rat) : Prop := ∃ tv, HasTruth s tv ∧ e = (tv.f - 1/2) * tv.c + 1/2

/-- `r` is the best expectation in the concept, at least 0 -/
def BestExpectation (c : Concept) (r : Rat) : Prop :=
  0 ≤ r ∧ (r = 0 ∨ ∃ b ∈ c.beliefsByExp, Expectation b r) ∧
    ∀ b ∈ c.beliefsByExp, ∀ e, Expectation b e → e ≤ r

/-- from best to worst expectation -/
def RankedByExp (table : List Sentence) : Prop :=
  table.Pairwise (fun a b => ∀ ea eb, Expectation a ea → Expectation b eb → eb ≤ ea)

/-- from most to least useful at time `now` -/
def RankedByUse (now : Int) (table : List Sentence) : Prop :=
  table.Pairwise (fun a b => calcUsageUsefulness b.usage now ≤ calcUsageUsefulness a.usage now)

/-- the sentence has a truth value in range with confidence below 1 -/
def SaneBelief (s : Sentence) : Prop := ∃ tv, HasTruth s tv ∧ 0 ≤ tv.f ∧ tv.f ≤ 1 ∧ 0 ≤ tv.c ∧ tv.c < 1

/-- every judgement the operation brings in is sane -/
def MemOp.Sane : MemOp → Prop
  | .store s _ _ => s.punct = .JUGEMENT → SaneBelief s
  | .add s _ => s.punct = .JUGEMENT → SaneBelief s
  | .forget _ => True
  | .touch _ => True

/-- the judgement `s` is filed in the memory under the term `t`: the concept of `t` exists, and in both of its
tables the judgement is listed, or the table holds dependent evidence about the same statement, or the table
is full with beliefs ranked at least as high -/
def FiledUnder (m : Mem) (s : Sentence) (n : Nat) (now : Int) (t : Term) : Prop :=
  ∃ c ∈ m, c.name = t ∧
    (s ∈ c.beliefsByExp ∨ (∃ b ∈ c.beliefsByExp, SameStatement b s ∧ SharesEvidence b s) ∨
      (c.beliefsByExp.length = n ∧ ∀ b ∈ c.beliefsByExp, ∃ eb es, Expectation b eb ∧ Expectation s es ∧ es ≤ eb)) ∧
    (s ∈ c.beliefsByUsage ∨ (∃ b ∈ c.beliefsByUsage, SameStatement b s ∧ SharesEvidence b s) ∨
      (c.beliefsByUsage.length = n ∧ ∀ b ∈ c.beliefsByUsage,
        calcUsageUsefulness s.usage now ≤ calcUsageUsefulness b.usage now))

end Nar
