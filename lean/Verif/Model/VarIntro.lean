import Verif.Model.Goal
/-! # Variable introduction for temporal rules  (models /repo/src/NarInfProcedural.rs 64-225) -/
namespace Nar
open Term

mutual
/-- the local function `helper` of `intro_vars`, NarInfProcedural.rs 122-209.  The relation of an image is
copied without replacement (line 184). -/
def replaceTerm (t repl w : Term) : Term :=
  if checkEqTerm t repl then w
  else match t with
    | Stmt c s p => Stmt c (replaceTerm s repl w) (replaceTerm p repl w)
    | Name n => Name n
    | .Seq ts => .Seq (replaceTermL ts repl w)
    | SetInt ts => SetInt (replaceTermL ts repl w)
    | SetExt ts => SetExt (replaceTermL ts repl w)
    | QVar n => QVar n
    | DepVar n => DepVar n
    | IndepVar n => IndepVar n
    | Conj ts => Conj (replaceTermL ts repl w)
    | .Prod ts => .Prod (replaceTermL ts repl w)
    | Img r i ts => Img r i (replaceTermL ts repl w)
    | IntInt ts => IntInt (replaceTermL ts repl w)
    | ExtInt ts => ExtInt (replaceTermL ts repl w)
    | Par ts => Par (replaceTermL ts repl w)
    | .Neg t => .Neg (replaceTerm t repl w)
/-- the collecting loops of NarInfProcedural.rs 135-205 -/
def replaceTermL (ts : List Term) (repl w : Term) : List Term :=
  match ts with
  | [] => []
  | t :: ts => replaceTerm t repl w :: replaceTermL ts repl w
end

/-- the alphabet of NarInfProcedural.rs 221 (it lacks the digit 3) -/
def varAlphabet : List Char := ['0', '1', '2', '4', '5', '6', '7', '8', '9', 'A', 'B', 'C', 'D', 'E', 'F']

/-- the loop of `create_random_varname`, NarInfProcedural.rs 220-223, `n` characters still to draw. -/
def varNameLoop : Nat → List Nat → R (List Char × List Nat)
  | 0, rng => .ok ([], rng)
  | n + 1, rng => do
      let (idx, rng) ← genRange rng 16
      let v ← unwrap varAlphabet[idx]?
      let (rest, rng) ← varNameLoop n rng
      .ok (v :: rest, rng)

/-- `create_random_varname`, NarInfProcedural.rs 218-225. -/
def createRandomVarname (rng : List Nat) : R (Term × List Nat) := do
  let (cs, rng) ← varNameLoop 24 rng
  .ok (IndepVar (String.ofList ('Q' :: cs)), rng)

/-- `intro_vars`, NarInfProcedural.rs 115-216. -/
def introVars (t repl : Term) (rng : List Nat) : R (List Term × List Nat) :=
  if countOccurence t repl < 2 then .ok ([], rng)
  else do
    let (w, rng) ← createRandomVarname rng
    .ok ([replaceTerm t repl w], rng)

/-- `matchandintro_var1`, NarInfProcedural.rs 76-112. -/
def matchandintroVar1 (s : Term) (rng : List Nat) : R (List Term × List Nat) :=
  match s with
  | Stmt .PREDIMPL (.Seq [Stmt .INH subj2 (SetInt _), _]) _ => introVars s subj2 rng
  | _ => .ok ([], rng)

/-- `matchandintro_var1_sentence`, NarInfProcedural.rs 64-73. -/
def matchandintroVar1Sentence (s : Sentence) (rng : List Nat) : R (List Sentence × List Nat) := do
  let (ts, rng) ← matchandintroVar1 s.term rng
  .ok (ts.map (fun t => { shallowCopySentence s with term := t }), rng)

end Nar
