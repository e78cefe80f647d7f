import Verif.Model.Term
/-! # Unifier  (models /repo/src/NarUnify.rs) -/
namespace Nar
open Term

/-- `Asgnment`, NarUnify.rs 8-11. -/
structure Asgnment where
  var : Term
  val : Term
  deriving Repr

/-- `checkAssigned`, NarUnify.rs 221-223. -/
def checkAssigned (var : Term) (as : List Asgnment) : Bool :=
  as.any (fun a => checkEqTerm a.var var)

/-- `checkSameVal`, NarUnify.rs 225-232. -/
def checkSameVal (var val : Term) : List Asgnment → Bool
  | [] => false
  | a :: as => if checkEqTerm a.var var then checkEqTerm a.val val else checkSameVal var val as

/-- The three identical variable arms of `unify2`, NarUnify.rs 16-63. -/
def unifyVar (a b : Term) (as : List Asgnment) : Option (List Asgnment) :=
  match b with
  | QVar _ => none
  | DepVar _ => none
  | IndepVar _ => none
  | _ =>
    if checkAssigned a as then
      if checkSameVal a b as then some as else none
    else some (as ++ [⟨a, b⟩])

mutual
/-- `unify2`, NarUnify.rs 14-218.  `none` is the result `false` (the partially extended vector is
dropped by the only caller `unify`), `some as` is `true` with the mutated vector. -/
def unify2 : Term → Term → List Asgnment → Option (List Asgnment)
  | QVar n, b, as => unifyVar (QVar n) b as
  | DepVar n, b, as => unifyVar (DepVar n) b as
  | IndepVar n, b, as => unifyVar (IndepVar n) b as
  | Stmt ca sa pa, Stmt cb sb pb, as =>
      if ca == cb then do
        let as1 ← unify2 sa sb as
        unify2 pa pb as1
      else none
  | Name a, Name b, as => if a == b then some as else none
  | .Seq a, .Seq b, as => if a.length == b.length then unify2L a b as else none
  | SetInt a, SetInt b, as => if a.length == b.length then unify2L a b as else none
  | SetExt a, SetExt b, as => if a.length == b.length then unify2L a b as else none
  | Conj a, Conj b, as => if a.length == b.length then unify2L a b as else none
  | .Prod a, .Prod b, as => if a.length == b.length then unify2L a b as else none
  | Img ra ia a, Img rb ib b, as =>
      if ia == ib then do
        let as1 ← unify2 ra rb as
        if a.length == b.length then unify2L a b as1 else none
      else none
  | IntInt a, IntInt b, as => if a.length == b.length then unify2L a b as else none
  | ExtInt a, ExtInt b, as => if a.length == b.length then unify2L a b as else none
  | Par a, Par b, as => if a.length == b.length then unify2L a b as else none
  | .Neg a, .Neg b, as => unify2 a b as
  | _, _, _ => none
/-- the index loops of NarUnify.rs 83-203 (run after the length test). -/
def unify2L : List Term → List Term → List Asgnment → Option (List Asgnment)
  | a :: as, b :: bs, σ => do
      let σ1 ← unify2 a b σ
      unify2L as bs σ1
  | _, _, σ => some σ
end

/-- `unify`, NarUnify.rs 236-242. -/
def unify (a b : Term) : Option (List Asgnment) := unify2 a b []

/-- The search loop of the variable arms of `unifySubst`, NarUnify.rs 248-275: first assignment
whose variable is `t`, otherwise `t` itself. -/
def substVar (t : Term) : List Asgnment → Term
  | [] => t
  | a :: as => if checkEqTerm t a.var then a.val else substVar t as

mutual
/-- `unifySubst`, NarUnify.rs 246-347. -/
def unifySubst (subst : List Asgnment) : Term → Term
  | QVar n => substVar (QVar n) subst
  | DepVar n => substVar (DepVar n) subst
  | IndepVar n => substVar (IndepVar n) subst
  | Stmt c s p => Stmt c (unifySubst subst s) (unifySubst subst p)
  | Name n => Name n
  | .Seq ts => .Seq (unifySubstL subst ts)
  | SetInt ts => SetInt (unifySubstL subst ts)
  | SetExt ts => SetExt (unifySubstL subst ts)
  | Conj ts => Conj (unifySubstL subst ts)
  | .Prod ts => .Prod (unifySubstL subst ts)
  | Img r i ts => Img (unifySubst subst r) i (unifySubstL subst ts)
  | IntInt ts => IntInt (unifySubstL subst ts)
  | ExtInt ts => ExtInt (unifySubstL subst ts)
  | Par ts => Par (unifySubstL subst ts)
  | .Neg t => .Neg (unifySubst subst t)
/-- the collecting loops of NarUnify.rs 280-344. -/
def unifySubstL (subst : List Asgnment) : List Term → List Term
  | [] => []
  | t :: ts => unifySubst subst t :: unifySubstL subst ts
end

end Nar
