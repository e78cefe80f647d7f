import Verif.Spec.Proc
import Verif.Spec.Tv
/-! # Specification vocabulary for acting on what was learned -/
namespace Nar
open Term

/-- A way which the reasoner can look up: the rules `rs`, each of them found in memory under the state reached so far, lead
from `state` to `goal`, and no state in between is itself wanted.  If the goal has the truth `T`, wanting `state` has the
truth `tv`. -/
inductive Way (p : Proc) (goal : Term) (T : Tv) : Term → List Nat → Tv → Prop
  | direct {state acts r b tb} : RuleUnder p.mem state r → p.mem.heap[r]? = some b → b.term = rule state acts goal →
      HasTruth b tb → Way p goal T state [r] (Tv.dedGoal T tb)
  | more {state acts effect rs tv tb r b} : RuleUnder p.mem state r → p.mem.heap[r]? = some b →
      b.term = rule state acts effect → HasTruth b tb → (∀ e, Stored p.goals e → e.sentence.term ≠ effect) →
      Way p goal T effect rs tv → Way p goal T state (r :: rs) (Tv.dedGoal tv tb)

/-- what a step considers doing: the sequence `seq`, promising `x`, because of the rule `ev`.  Either a stored goal wants a
sequence whose beginning matches a recent event, or a way of at most two rules leads from the last event to a stored goal. -/
def Considered (p : Proc) (seq : Term) (x : Rat) (ev : Option Nat) : Prop :=
  (∃ e event first rest a, Stored p.goals e ∧ Recent p.perceptWindow p.trace event ∧
    e.sentence.term = .Seq (first :: rest) ∧ unify (retSubSeqAsSeqOrTerm (first :: rest).dropLast) event.name = some a ∧
    seq = unifySubst a e.sentence.term ∧ Expectation e.sentence x ∧ ev = e.evidence) ∨
  (∃ e last T tv r rs b acts effect, Stored p.goals e ∧ p.trace.getLast? = some last ∧ HasTruth e.sentence T ∧
    Way p e.sentence.term T last.name (r :: rs) tv ∧ rs.length ≤ 1 ∧ p.mem.heap[r]? = some b ∧
    b.term = rule last.name acts effect ∧ seq = .Seq (last.name :: acts) ∧ x = (tv.f - 1/2) * tv.c + 1/2 ∧
    ev = some r)

/-- acting on the sequence `seq` because of the rule `ev` is sound: the rule itself promises more than the threshold, and the
sequence ends with the call of a registered operator -/
def SoundChoice (p : Proc) (seq : Term) (ev : Option Nat) : Prop :=
  ∃ r b x acts op, ev = some r ∧ p.mem.heap[r]? = some b ∧ Expectation b x ∧ p.threshold < x ∧
    seq = .Seq (acts ++ [op]) ∧ RegisteredCall p.ops op

/-- `op` ends the condition of the rule `r`, which is found in memory under the state -/
def RuleEndsIn (p : Proc) (state : Term) (r : Nat) (op : Term) : Prop :=
  ∃ b acts effect, RuleUnder p.mem state r ∧ p.mem.heap[r]? = some b ∧ b.term = rule state (acts ++ [op]) effect

/-- what is wanted, is wanted for itself: every stored goal is rather wanted than not, and none of them is a sequence -/
def PlainGoals (g : GoalSystem) : Prop :=
  ∀ e, Stored g e → (∃ T, HasTruth e.sentence T ∧ Tv.Sane T ∧ 1/2 ≤ T.f) ∧ ∀ ts, e.sentence.term ≠ .Seq ts

/-- everything known to follow from the state is wanted: every rule in memory which starts there ends with the call of a
registered operator, and leads to a stored goal, with more than the threshold -/
def EveryRuleHelps (p : Proc) (state : Term) : Prop :=
  ∀ r b acts effect, RuleUnder p.mem state r → p.mem.heap[r]? = some b → b.term = rule state acts effect →
    (∃ ini op, acts = ini ++ [op] ∧ RegisteredCall p.ops op) ∧ (∃ e, Stored p.goals e ∧ e.sentence.term = effect) ∧
    ∀ e T tb, Stored p.goals e → e.sentence.term = effect → HasTruth e.sentence T → HasTruth b tb →
      p.threshold < ((Tv.dedGoal T tb).f - 1/2) * (Tv.dedGoal T tb).c + 1/2

end Nar
