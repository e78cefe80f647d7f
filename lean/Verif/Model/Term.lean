/-!
# Terms  (models /repo/src/Term.rs)

Names are `String`s.  Printed text is modelled as `List Char`.
-/
namespace Nar

/-- `Copula`, Term.rs 1-8. -/
inductive Copula where
  | SIM | INH | PREDIMPL | IMPL | EQUIV
  deriving DecidableEq, Repr

/-- `Term`, Term.rs 10-27.  `Box` is dropped. -/
inductive Term where
  | Stmt (cop : Copula) (subj pred : Term)
  | Name (name : String)
  | Seq (elems : List Term)
  | SetInt (elems : List Term)
  | SetExt (elems : List Term)
  | QVar (name : String)
  | DepVar (name : String)
  | IndepVar (name : String)
  | Conj (elems : List Term)
  | Prod (elems : List Term)
  | Img (rel : Term) (idx : Nat) (elems : List Term)
  | IntInt (elems : List Term)
  | ExtInt (elems : List Term)
  | Par (elems : List Term)
  | Neg (term : Term)
  deriving Repr

namespace Term

mutual
/-- `retSubterms2`/`retSubterms`, Term.rs 115-181: pre-order list of all sub-terms
(the accumulator parameter of `retSubterms2` is replaced by concatenation). -/
def retSubterms : Term → List Term
  | Stmt c s p => Stmt c s p :: (retSubterms s ++ retSubterms p)
  | Seq ts => Seq ts :: retSubtermsL ts
  | SetInt ts => SetInt ts :: retSubtermsL ts
  | SetExt ts => SetExt ts :: retSubtermsL ts
  | Conj ts => Conj ts :: retSubtermsL ts
  | Prod ts => Prod ts :: retSubtermsL ts
  | Img r i ts => Img r i ts :: (retSubtermsL ts ++ retSubterms r)
  | IntInt ts => IntInt ts :: retSubtermsL ts
  | ExtInt ts => ExtInt ts :: retSubtermsL ts
  | Par ts => Par ts :: retSubtermsL ts
  | Neg t => Neg t :: retSubterms t
  | Name n => [Name n]
  | QVar n => [QVar n]
  | DepVar n => [DepVar n]
  | IndepVar n => [IndepVar n]
/-- the `for i in elements { retSubterms2(&i, res) }` loops of Term.rs 123-166. -/
def retSubtermsL : List Term → List Term
  | [] => []
  | t :: ts => retSubterms t ++ retSubtermsL ts
end

mutual
/-- `checkEqTerm`, Term.rs 376-543. -/
def checkEqTerm : Term → Term → Bool
  | Stmt ca sa pa, Stmt cb sb pb => ca == cb && checkEqTerm sa sb && checkEqTerm pa pb
  | Name a, Name b => a == b
  | Seq a, Seq b => if a.length == b.length then checkEqTermL a b else false
  | SetInt a, SetInt b => if a.length == b.length then checkEqTermL a b else false
  | SetExt a, SetExt b => if a.length == b.length then checkEqTermL a b else false
  | QVar a, QVar b => a == b
  | DepVar a, DepVar b => a == b
  | IndepVar a, IndepVar b => a == b
  | Conj a, Conj b => if a.length == b.length then checkEqTermL a b else false
  | Prod a, Prod b => if a.length == b.length then checkEqTermL a b else false
  | Img ra ia a, Img rb ib b =>
      if ia == ib then
        if !checkEqTerm ra rb then false
        else if a.length == b.length then checkEqTermL a b else false
      else false
  | IntInt a, IntInt b => if a.length == b.length then checkEqTermL a b else false
  | ExtInt a, ExtInt b => if a.length == b.length then checkEqTermL a b else false
  | Par a, Par b => if a.length == b.length then checkEqTermL a b else false
  | Neg a, Neg b => checkEqTerm a b
  | _, _ => false
/-- the index loops `for idx in 0..a.len()` of Term.rs 394-529 (they run after the length test,
so the two lists have the same length; the catch-all case is the end of the loop). -/
def checkEqTermL : List Term → List Term → Bool
  | a :: as, b :: bs => if !checkEqTerm a b then false else checkEqTermL as bs
  | _, _ => true
end

/-- `retUniqueSubterms`, Term.rs 183-199: keep the first occurrence of every sub-term. -/
def retUniqueSubterms (t : Term) : List Term :=
  (retSubterms t).foldl
    (fun res iTerm => if res.any (fun iTerm2 => checkEqTerm iTerm iTerm2) then res
                      else res ++ [iTerm]) []

mutual
/-- `calcComplexity`, Term.rs 202-285. -/
def calcComplexity : Term → Nat
  | Stmt _ s p => 1 + calcComplexity s + calcComplexity p
  | Name _ => 1
  | Seq ts => calcComplexityL ts
  | SetInt ts => calcComplexityL ts
  | SetExt ts => calcComplexityL ts
  | QVar _ => 1
  | DepVar _ => 1
  | IndepVar _ => 1
  | Conj ts => calcComplexityL ts
  | Prod ts => calcComplexityL ts
  | Img r _ ts => calcComplexityL ts + calcComplexity r
  | IntInt ts => calcComplexityL ts
  | ExtInt ts => calcComplexityL ts
  | Par ts => calcComplexityL ts
  | Neg t => 1 + calcComplexity t
/-- the summing loops of Term.rs 208-281. -/
def calcComplexityL : List Term → Nat
  | [] => 0
  | t :: ts => calcComplexity t + calcComplexityL ts
end

mutual
/-- `count_occurence_subterms`, Term.rs 547-635.  A match is not descended into; the relation
of an image is not visited (lines 604-610). -/
def countOccurence (t searched : Term) : Nat :=
  if checkEqTerm t searched then 1 else
    match t with
    | Stmt _ s p => countOccurence s searched + countOccurence p searched
    | Seq ts => countOccurenceL ts searched
    | SetInt ts => countOccurenceL ts searched
    | SetExt ts => countOccurenceL ts searched
    | Conj ts => countOccurenceL ts searched
    | Prod ts => countOccurenceL ts searched
    | Img _ _ ts => countOccurenceL ts searched
    | IntInt ts => countOccurenceL ts searched
    | ExtInt ts => countOccurenceL ts searched
    | Par ts => countOccurenceL ts searched
    | Neg t => countOccurence t searched
    | Name _ => 0
    | QVar _ => 0
    | DepVar _ => 0
    | IndepVar _ => 0
/-- the summing loops of Term.rs 559-629. -/
def countOccurenceL (ts : List Term) (searched : Term) : Nat :=
  match ts with
  | [] => 0
  | t :: ts => countOccurence t searched + countOccurenceL ts searched
end

end Term

/-- copula text, Term.rs 292. -/
def Copula.str : Copula → List Char
  | .SIM => ['<','-','>']
  | .INH => ['-','-','>']
  | .PREDIMPL => ['=','/','>']
  | .IMPL => ['=','=','>']
  | .EQUIV => ['<','=','>']

/-- decimal rendering of an index (`format!("{}", n)` for `usize`). -/
def natStr (n : Nat) : List Char := (toString n).toList

namespace Term

mutual
/-- `convTermToStr`, Term.rs 287-373.  `none` is the index panic `elements[0]` on an empty
compound. -/
def convTermToStr : Term → Option (List Char)
  | Stmt c s p => do
      let a ← convTermToStr s
      let b ← convTermToStr p
      some ('<' :: a ++ ' ' :: c.str ++ ' ' :: b ++ ['>'])
  | Name n => some n.toList
  | Seq ts => do let i ← joinStr [' ', ',', ' '] ts; some ('(' :: ' ' :: i ++ [' ', ')'])
  | SetInt ts => do let i ← joinStr [' '] ts; some ('[' :: i ++ [']'])
  | SetExt ts => do let i ← joinStr [' '] ts; some ('{' :: i ++ ['}'])
  | QVar n => some ('?' :: n.toList)
  | DepVar n => some ('#' :: n.toList)
  | IndepVar n => some ('$' :: n.toList)
  | Conj ts => do let i ← joinStr [' ', '&', '&', ' '] ts; some ('(' :: ' ' :: i ++ [' ', ')'])
  | Prod ts => do let i ← joinStr [' ', '*', ' '] ts; some ('(' :: ' ' :: i ++ [' ', ')'])
  | Img r idx ts => do
      let i ← joinStr [' '] ts
      let rs ← convTermToStr r
      some ('(' :: ' ' :: rs ++ [' ', '/'] ++ natStr (idx + 1) ++ ' ' :: i ++ [' ', ')'])
  | IntInt ts => do let i ← joinStr [' ', '|', ' '] ts; some ('(' :: ' ' :: i ++ [' ', ')'])
  | ExtInt ts => do let i ← joinStr [' ', '&', ' '] ts; some ('(' :: ' ' :: i ++ [' ', ')'])
  | Par ts => do let i ← joinStr [' ', ';', ' '] ts; some ('(' :: ' ' :: i ++ [' ', ')'])
  | Neg t => do let i ← convTermToStr t; some ('(' :: '!' :: ' ' :: i ++ [' ', ')'])
/-- the `inner` loops of Term.rs 296-369: elements separated by `sep`; panics on empty. -/
def joinStr (sep : List Char) : List Term → Option (List Char)
  | [] => none
  | [t] => convTermToStr t
  | t :: t2 :: ts => do
      let a ← convTermToStr t
      let b ← joinStr sep (t2 :: ts)
      some (a ++ sep ++ b)
end

end Term
end Nar
