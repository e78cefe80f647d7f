import Verif.Spec.Thinks
import Verif.Spec.Rules
/-! # Specification vocabulary: nothing is overlooked, and thinking to the end -/
namespace Nar
open Term

/-- how many cycles there are in a history -/
def cyclesIn : List SysOp → Nat
  | [] => 0
  | .cycle _ _ :: ops => cyclesIn ops + 1
  | _ :: ops => cyclesIn ops

/-- the task is a known one, was selected, and the worker has dealt with it -/
def TurnOver (s : Sys) (r : Nat) : Prop :=
  r < s.sh.heap.length ∧ r ∉ s.sh.judgementTasks ∧ ∀ m ∈ s.queue, m.primary ≠ r

/-- nothing is pending and the worker has nothing to do -/
def AtRest (s : Sys) : Prop := s.sh.judgementTasks = [] ∧ s.queue = []

/-- the conclusion is among the tasks, if it is a judgement and simple enough -/
def Concluded (cfg : Cfg) (s : Sys) (c : Sentence) : Prop :=
  c.punct = .JUGEMENT → (calcComplexity c.term : Int) ≤ cfg.maxComplexity → HasTask s.sh c

/-- What can be derived, with the evidence it rests on: what was told; what follows by a rule from something derived; and what follows by a
rule from two derived statements which have a term in common and rest on different evidence.  Everything on the way must be simple enough. -/
inductive Deducible (cfg : Cfg) (told : Sentence → Prop) : Term → List Int → Prop
  | told (s : Sentence) : told s → s.punct = .JUGEMENT → (calcComplexity s.term : Int) ≤ cfg.maxComplexity →
      Deducible cfg told s.term s.stamp.ids
  | alone (a c : Term) (E : List Int) : Deducible cfg told a E → (∃ ta tc, Rule1 a ta c tc) →
      (calcComplexity c : Int) ≤ cfg.maxComplexity → Deducible cfg told c E
  | both (a b c : Term) (E F : List Int) : Deducible cfg told a E → Deducible cfg told b F → (∀ e ∈ E, e ∉ F) →
      (∃ x, IsSubterm x a ∧ IsSubterm x b) → (∃ ta tb tc, Rule2 a ta b tb c tc) →
      (calcComplexity c : Int) ≤ cfg.maxComplexity → Deducible cfg told c (E ++ F)

/-- the statement was put in in the course of the history -/
def PutIn (ops : List SysOp) (s : Sentence) : Prop := ∃ calcCredit mulCredit now, SysOp.input s calcCredit mulCredit now ∈ ops

/-- what is put in rests on different pieces of evidence out of the given ones -/
def EvidenceFrom (U : List Int) (ops : List SysOp) : Prop := ∀ s, PutIn ops s → s.stamp.ids.Nodup ∧ ∀ e ∈ s.stamp.ids, e ∈ U

/-- the action is only thinking: a cycle, or work of the worker -/
def SysOp.Thinking (op : SysOp) : Prop := op = .work ∨ ∃ v now, op = .cycle v now

/-- the same for the reasoner as a whole -/
def NarOp.Thinking (op : NarOp) : Prop := op = .declWork ∨ ∃ v, op = .cycle v

/-- how many cycles of the reasoner there are -/
def thinkingCycles : List NarOp → Nat
  | [] => 0
  | .cycle _ :: ops => thinkingCycles ops + 1
  | _ :: ops => thinkingCycles ops

/-- The three ways to say that `x` and `y` are in relation `rel`: `(x * y) --> rel`, `x --> (rel /1 y)` and `y --> (rel /2 x)`. -/
def relational (x y rel : Term) : List Term :=
  [.Stmt .INH (.Prod [x, y]) rel, .Stmt .INH x (.Img rel 0 [y]), .Stmt .INH y (.Img rel 1 [x])]

end Nar
