import Verif.Model.Unify
import Verif.Model.Tv
/-! # The documented inference rules

Written from the rule comments in NarWorkingCycle.rs and the rule tables, not from the code. -/
namespace Nar
open Term

/-- a conjunction of the given parts, a single part stands for itself -/
def conjOf : List Term → Term
  | [x] => x
  | xs => .Conj xs

/-- `Rule2 a ta b tb c tc`: from the judgement `a` with truth `ta` and the judgement `b` with truth
`tb` the rule tables draw the judgement `c` with truth `tc`. -/
inductive Rule2 : Term → Tv → Term → Tv → Term → Tv → Prop
  /-- `x --> [A].  x --> [B].  |- x --> [A B].` -/
  | setUnion (x A B ta tb) :
      Rule2 (.Stmt .INH x (.SetInt A)) ta (.Stmt .INH x (.SetInt B)) tb
        (.Stmt .INH x (.SetInt (A ++ B))) (Tv.int ta tb)
  /-- `x --> a.  x --> b.  |- x --> (a & b).` -/
  | intersection (x p q ta tb) : p ≠ q →
      Rule2 (.Stmt .INH x p) ta (.Stmt .INH x q) tb (.Stmt .INH x (.ExtInt [p, q])) (Tv.int ta tb)
  /-- `x --> p.  x --> q.  |- p <-> q.` (either premise may be a similarity) -/
  | comparePred (ca cb x p q ta tb) : ca = .INH ∨ ca = .SIM → cb = .INH ∨ cb = .SIM → p ≠ q →
      Rule2 (.Stmt ca x p) ta (.Stmt cb x q) tb (.Stmt .SIM p q) (Tv.comp ta tb)
  /-- `p --> x.  q --> x.  |- p <-> q.` (either premise may be a similarity) -/
  | compareSubj (ca cb x p q ta tb) : ca = .INH ∨ ca = .SIM → cb = .INH ∨ cb = .SIM → p ≠ q →
      Rule2 (.Stmt ca p x) ta (.Stmt cb q x) tb (.Stmt .SIM p q) (Tv.comp ta tb)
  /-- `S → M.  M → P.  |- S → P.` for inheritance, implication and predictive implication -/
  | deduction (cop S M P ta tb) : cop = .INH ∨ cop = .IMPL ∨ cop = .PREDIMPL → S ≠ P →
      Rule2 (.Stmt cop S M) ta (.Stmt cop M P) tb (.Stmt cop S P) (Tv.ded ta tb)
  /-- `S --> M.  P --> M.  |- S --> P.` -/
  | abduction (S M P ta tb) : S ≠ P →
      Rule2 (.Stmt .INH S M) ta (.Stmt .INH P M) tb (.Stmt .INH S P) (Tv.abd ta tb)
  /-- `M --> S.  M --> P.  |- S --> P.` -/
  | induction (S M P ta tb) : S ≠ P →
      Rule2 (.Stmt .INH M S) ta (.Stmt .INH M P) tb (.Stmt .INH S P) (Tv.ind ta tb)
  /-- `p ==> q.  p'.  |- q'.` where `p'` is an instance of `p` -/
  | detach (p q b σ ta tb) : unify p b = some σ →
      Rule2 (.Stmt .IMPL p q) ta b tb (unifySubst σ q) (Tv.ded ta tb)
  /-- `(… && c && …) ==> q.  c'.  |- (… && …)' ==> q'.` for one of the first four parts `c` -/
  | conjDetach (pre c post q b σ ta tb) : pre.length < 4 → unify c b = some σ →
      Rule2 (.Stmt .IMPL (.Conj (pre ++ c :: post)) q) ta b tb
        (.Stmt .IMPL (conjOf ((pre ++ post).map (unifySubst σ))) (unifySubst σ q)) (Tv.ded ta tb)

/-- `Rule1 a ta c tc`: structural and negation rules with one judgement premise. -/
inductive Rule1 : Term → Tv → Term → Tv → Prop
  /-- `(! a).  |- a.` -/
  | negation (a ta) : Rule1 (.Neg a) ta a (Tv.neg ta)
  /-- `(X | Y …) --> p.  |- X --> p.` for the first three parts -/
  | decomposeSubj (pre x post p ta) : pre.length < 3 →
      Rule1 (.Stmt .INH (.IntInt (pre ++ x :: post)) p) ta (.Stmt .INH x p) ta
  /-- `s --> (X | Y …).  |- s --> X.` for the first three parts -/
  | decomposePred (pre x post s ta) : pre.length < 3 →
      Rule1 (.Stmt .INH s (.IntInt (pre ++ x :: post))) ta (.Stmt .INH s x) ta
  /-- `(X * Y …) --> rel.  |- X --> (rel /1 Y).` -/
  | productLeft (x y rest rel ta) :
      Rule1 (.Stmt .INH (.Prod (x :: y :: rest)) rel) ta (.Stmt .INH x (.Img rel 0 [y])) ta
  /-- `(X * Y) --> rel.  |- Y --> (rel /2 X).` -/
  | productRight (x y rel ta) :
      Rule1 (.Stmt .INH (.Prod [x, y]) rel) ta (.Stmt .INH y (.Img rel 1 [x])) ta
  /-- `X --> (rel /1 Y).  |- (X * Y) --> rel.` -/
  | imageLeft (x y rel ta) :
      Rule1 (.Stmt .INH x (.Img rel 0 [y])) ta (.Stmt .INH (.Prod [x, y]) rel) ta
  /-- `Y --> (rel /2 X).  |- (X * Y) --> rel.` -/
  | imageRight (x y rel ta) :
      Rule1 (.Stmt .INH y (.Img rel 1 [x])) ta (.Stmt .INH (.Prod [x, y]) rel) ta
  /-- `[a] <-> [b].  |- a <-> b.` -/
  | setInt (a b ta) : Rule1 (.Stmt .SIM (.SetInt [a]) (.SetInt [b])) ta (.Stmt .SIM a b) ta
  /-- `{a} <-> {b}.  |- a <-> b.` -/
  | setExt (a b ta) : Rule1 (.Stmt .SIM (.SetExt [a]) (.SetExt [b])) ta (.Stmt .SIM a b) ta
  /-- `X =/> (A ; B …).  |- X =/> A.` for every part -/
  | decomposePar (s parts x ta) : x ∈ parts →
      Rule1 (.Stmt .PREDIMPL s (.Par parts)) ta (.Stmt .PREDIMPL s x) ta

end Nar
