import Verif.Model.Sentence
import Verif.Model.Unify
/-!
# Declarative inference rules  (models /repo/src/NarWorkingCycle.rs 54-973)

Every rule returns `R (Option …)`: an error is a panic of the Rust code, `ok none` is "rule not
applicable".  The attention bias of single-premise conclusions is kept as a rational.
-/
namespace Nar
open Term

/-- conclusion of a two-premise rule: `(Term, Tv, EnumPunctation)` -/
abbrev Concl2 := Term × Tv × Punct
/-- conclusion of a single-premise rule: `(Term, Tv, EnumPunctation, f64)` -/
abbrev Concl1 := Term × Tv × Punct × Rat

/-- `infNeg`, NarWorkingCycle.rs 54-67. -/
def infNeg (a : Term) (punct : Punct) (aTv : Option Tv) : R (Option Concl1) :=
  if punct ≠ .JUGEMENT then .ok none else
  match a with
  | .Neg aterm => do
      let tv ← unwrap aTv
      .ok (some (aterm, Tv.neg tv, .JUGEMENT, 1/2))
  | _ => .ok none

/-- `infStructPred1`, NarWorkingCycle.rs 76-96. -/
def infStructPred1 (a : Term) (punct : Punct) (aTv : Option Tv) (idx : Nat) : R (Option Concl1) :=
  if punct ≠ .JUGEMENT then .ok none else
  match a with
  | .Stmt .INH subj (.IntInt arr) =>
      match arr[idx]? with
      | some x => do
          let tv ← unwrap aTv
          .ok (some (.Stmt .INH subj x, tv, .JUGEMENT, 1))
      | none => .ok none
  | _ => .ok none

/-- `infStructSubj1`, NarWorkingCycle.rs 104-124. -/
def infStructSubj1 (a : Term) (punct : Punct) (aTv : Option Tv) (idx : Nat) : R (Option Concl1) :=
  if punct ≠ .JUGEMENT then .ok none else
  match a with
  | .Stmt .INH (.IntInt arr) pred =>
      match arr[idx]? with
      | some x => do
          let tv ← unwrap aTv
          .ok (some (.Stmt .INH x pred, tv, .JUGEMENT, 9/10))
      | none => .ok none
  | _ => .ok none

/-- `infStructProd0`, NarWorkingCycle.rs 132-153 (indexes without a length test). -/
def infStructProd0 (a : Term) (punct : Punct) (aTv : Option Tv) : R (Option Concl1) :=
  if punct ≠ .JUGEMENT then .ok none else
  match a with
  | .Stmt .INH (.Prod arr) pred => do
      let prod0 ← indexAt arr 0
      let prod1 ← indexAt arr 1
      let tv ← unwrap aTv
      .ok (some (.Stmt .INH prod0 (.Img pred 0 [prod1]), tv, .JUGEMENT, 8/10))
  | _ => .ok none

/-- `infStructProd1`, NarWorkingCycle.rs 160-182. -/
def infStructProd1 (a : Term) (punct : Punct) (aTv : Option Tv) : R (Option Concl1) :=
  if punct ≠ .JUGEMENT then .ok none else
  match a with
  | .Stmt .INH (.Prod arr) pred =>
      if arr.length == 2 then do
        let prod0 ← indexAt arr 0
        let prod1 ← indexAt arr 1
        let tv ← unwrap aTv
        .ok (some (.Stmt .INH prod1 (.Img pred 1 [prod0]), tv, .JUGEMENT, 8/10))
      else .ok none
  | _ => .ok none

/-- `infStructImg0`, NarWorkingCycle.rs 188-209 (accepts questions, unwraps the truth value). -/
def infStructImg0 (a : Term) (punct : Punct) (aTv : Option Tv) : R (Option Concl1) :=
  if punct ≠ .JUGEMENT ∧ punct ≠ .QUESTION then .ok none else
  match a with
  | .Stmt .INH subj (.Img predImg 0 [arr0]) => do
      let tv ← unwrap aTv
      .ok (some (.Stmt .INH (.Prod [subj, arr0]) predImg, tv, .JUGEMENT, 9/10))
  | _ => .ok none

/-- `infStructImg1`, NarWorkingCycle.rs 216-237. -/
def infStructImg1 (a : Term) (punct : Punct) (aTv : Option Tv) : R (Option Concl1) :=
  if punct ≠ .JUGEMENT ∧ punct ≠ .QUESTION then .ok none else
  match a with
  | .Stmt .INH subj (.Img predImg 1 [arr0]) => do
      let tv ← unwrap aTv
      .ok (some (.Stmt .INH (.Prod [arr0, subj]) predImg, tv, .JUGEMENT, 9/10))
  | _ => .ok none

/-- `infStructDecomposePar`, NarWorkingCycle.rs 247-271 (the truth value is unwrapped once per
component). -/
def infStructDecomposePar (a : Term) (punct : Punct) (aTv : Option Tv) : R (Option (List Concl1)) :=
  if punct ≠ .JUGEMENT then .ok none else
  match a with
  | .Stmt .PREDIMPL subj (.Par arr) => do
      let res ← arr.mapM (fun iTerm => do
        let tv ← unwrap aTv
        (.ok (.Stmt .PREDIMPL subj iTerm, tv, .JUGEMENT, 9/10) : R Concl1))
      .ok (some res)
  | _ => .ok none

/-- `infStructSetInt`, NarWorkingCycle.rs 278-301. -/
def infStructSetInt (a : Term) (punct : Punct) (aTv : Option Tv) : R (Option Concl1) :=
  if punct ≠ .JUGEMENT then .ok none else
  match a with
  | .Stmt .SIM (.SetInt [asubj]) (.SetInt [apred]) => do
      let tv ← unwrap aTv
      .ok (some (.Stmt .SIM asubj apred, tv, .JUGEMENT, 1))
  | _ => .ok none

/-- `infStructSetExt`, NarWorkingCycle.rs 305-328. -/
def infStructSetExt (a : Term) (punct : Punct) (aTv : Option Tv) : R (Option Concl1) :=
  if punct ≠ .JUGEMENT then .ok none else
  match a with
  | .Stmt .SIM (.SetExt [asubj]) (.SetExt [apred]) => do
      let tv ← unwrap aTv
      .ok (some (.Stmt .SIM asubj apred, tv, .JUGEMENT, 1))
  | _ => .ok none

/-- helper `sel` of `infGeneralizedJudgJudg`, NarWorkingCycle.rs 348-350. -/
def sel (subj pred : Term) (side : Int) : Term := if side == 1 then subj else pred

/-- `infGeneralizedJudgJudg`, NarWorkingCycle.rs 335-374. -/
def infGeneralizedJudgJudg (a : Term) (punctA : Punct) (aTv : Option Tv)
    (b : Term) (punctB : Punct) (bTv : Option Tv)
    (aCopula bCopula conclCopula : Copula) (aSide bSide : Int) (tvFn : Tv → Tv → Tv) :
    R (Option Concl2) :=
  if punctA ≠ .JUGEMENT ∨ punctB ≠ .JUGEMENT then .ok none else
  match a, b with
  | .Stmt acop asubj apred, .Stmt bcop bsubj bpred =>
      if acop = aCopula ∧ bcop = bCopula then
        if checkEqTerm (sel asubj apred aSide) (sel bsubj bpred bSide) &&
            !checkEqTerm (sel asubj apred (-aSide)) (sel bsubj bpred (-bSide)) then do
          let ta ← unwrap aTv
          let tb ← unwrap bTv
          .ok (some (.Stmt conclCopula (sel asubj apred (-aSide)) (sel bsubj bpred (-bSide)),
            tvFn ta tb, .JUGEMENT))
        else .ok none
      else .ok none
  | _, _ => .ok none

/-- `infCompPred`, NarWorkingCycle.rs 383-402. -/
def infCompPred (a : Term) (punctA : Punct) (aTv : Option Tv)
    (b : Term) (punctB : Punct) (bTv : Option Tv) : R (Option Concl2) :=
  if punctA ≠ .JUGEMENT ∨ punctB ≠ .JUGEMENT then .ok none else
  match a, b with
  | .Stmt copa asubj apred, .Stmt copb bsubj bpred =>
      if (copa = .INH ∨ copa = .SIM) ∧ (copb = .INH ∨ copb = .SIM) then
        if !checkEqTerm apred bpred && checkEqTerm asubj bsubj then do
          let ta ← unwrap aTv
          let tb ← unwrap bTv
          .ok (some (.Stmt .SIM apred bpred, Tv.comp ta tb, .JUGEMENT))
        else .ok none
      else .ok none
  | _, _ => .ok none

/-- `infCompSubj`, NarWorkingCycle.rs 409-428. -/
def infCompSubj (a : Term) (punctA : Punct) (aTv : Option Tv)
    (b : Term) (punctB : Punct) (bTv : Option Tv) : R (Option Concl2) :=
  if punctA ≠ .JUGEMENT ∨ punctB ≠ .JUGEMENT then .ok none else
  match a, b with
  | .Stmt copa asubj apred, .Stmt copb bsubj bpred =>
      if (copa = .INH ∨ copa = .SIM) ∧ (copb = .INH ∨ copb = .SIM) then
        if !checkEqTerm asubj bsubj && checkEqTerm apred bpred then do
          let ta ← unwrap aTv
          let tb ← unwrap bTv
          .ok (some (.Stmt .SIM asubj bsubj, Tv.comp ta tb, .JUGEMENT))
        else .ok none
      else .ok none
  | _, _ => .ok none

/-- `inf10`, NarWorkingCycle.rs 432-453. -/
def inf10 (a : Term) (punctA : Punct) (aTv : Option Tv)
    (b : Term) (punctB : Punct) (bTv : Option Tv) : R (Option Concl2) :=
  if punctA ≠ .JUGEMENT ∨ punctB ≠ .JUGEMENT then .ok none else
  match a, b with
  | .Stmt .INH asubj apred, .Stmt .INH bsubj bpred =>
      if !checkEqTerm apred bpred && checkEqTerm asubj bsubj then do
        let ta ← unwrap aTv
        let tb ← unwrap bTv
        .ok (some (.Stmt .INH asubj (.ExtInt [apred, bpred]), Tv.int ta tb, .JUGEMENT))
      else .ok none
  | _, _ => .ok none

/-- `inf3`, NarWorkingCycle.rs 457-500. -/
def inf3 (a : Term) (punctA : Punct) (aTv : Option Tv)
    (b : Term) (punctB : Punct) (bTv : Option Tv) : R (Option Concl2) :=
  if punctA ≠ .JUGEMENT ∨ punctB ≠ .JUGEMENT then .ok none else
  match a, b with
  | .Stmt .INH asubj (.SetInt apred), .Stmt .INH bsubj (.SetInt bpred) =>
      if checkEqTerm asubj bsubj then do
        let union := apred ++ bpred
        let ta ← unwrap aTv
        let tb ← unwrap bTv
        .ok (some (.Stmt .INH asubj (.SetInt union), Tv.int ta tb, .JUGEMENT))
      else .ok none
  | _, _ => .ok none

/-- `inf4`, NarWorkingCycle.rs 504-550 (disabled in the code). -/
def inf4 (_a : Term) (_punctA : Punct) (_aTv : Option Tv)
    (_b : Term) (_punctB : Punct) (_bTv : Option Tv) : R (Option Concl2) := .ok none

/-- the loop building `conclConj` in `inf5`, NarWorkingCycle.rs 573-580. -/
def inf5Rest (arr : List Term) (conjIdx : Nat) (σ : List Asgnment) : List Term :=
  arr.zipIdx.filterMap (fun p => if p.2 == conjIdx then none else some (unifySubst σ p.1))

/-- the conclusion term of `inf5`, NarWorkingCycle.rs 584-589. -/
def inf5Concl (conclConj : List Term) (substPred : Term) : Term :=
  match conclConj with
  | [x] => .Stmt .IMPL x substPred
  | _ => .Stmt .IMPL (.Conj conclConj) substPred

/-- `inf5`, NarWorkingCycle.rs 559-601. -/
def inf5 (a : Term) (punctA : Punct) (aTv : Option Tv)
    (b : Term) (punctB : Punct) (bTv : Option Tv) (conjIdx : Nat) : R (Option Concl2) :=
  if punctA ≠ .JUGEMENT ∨ punctB ≠ .JUGEMENT then .ok none else
  match a with
  | .Stmt .IMPL (.Conj arr) apred =>
      match arr[conjIdx]? with
      | none => .ok none
      | some c =>
        match unify c b with
        | none => .ok none
        | some σ => do
            let conclConj := inf5Rest arr conjIdx σ
            let substPred := unifySubst σ apred
            let conclTerm := inf5Concl conclConj substPred
            let ta ← unwrap aTv
            let tb ← unwrap bTv
            .ok (some (conclTerm, Tv.ded ta tb, .JUGEMENT))
  | _ => .ok none

/-- `infImplDed`, NarWorkingCycle.rs 609-625. -/
def infImplDed (a : Term) (punctA : Punct) (aTv : Option Tv)
    (b : Term) (punctB : Punct) (bTv : Option Tv) : R (Option Concl2) :=
  if punctA ≠ .JUGEMENT ∨ punctB ≠ .JUGEMENT then .ok none else
  match a with
  | .Stmt .IMPL asubj apred =>
      match unify asubj b with
      | none => .ok none
      | some σ => do
          let ta ← unwrap aTv
          let tb ← unwrap bTv
          .ok (some (unifySubst σ apred, Tv.ded ta tb, .JUGEMENT))
  | _ => .ok none

/-- `inf7`, NarWorkingCycle.rs 632-649. -/
def inf7 (a : Term) (punctA : Punct) (_aTv : Option Tv)
    (b : Term) (punctB : Punct) (bTv : Option Tv) : R (Option Concl2) :=
  if punctA ≠ .QUESTION ∨ punctB ≠ .JUGEMENT then .ok none else
  match a with
  | .Stmt .IMPL _ apred =>
      match unify apred b with
      | none => .ok none
      | some σ => do
          let tb ← unwrap bTv
          .ok (some (unifySubst σ a, tb, .JUGEMENT))
  | _ => .ok none

/-- the repeated `match … { Some(x) => { res.push(x); *wereRulesApplied=true; } _ => {} }`. -/
def pushRes (acc : List Concl2 × Bool) (r : Option Concl2) : List Concl2 × Bool :=
  match r with
  | some x => (acc.1 ++ [x], true)
  | none => acc

/-- the rule calls of `infBinaryInner` in order, NarWorkingCycle.rs 657-734. -/
def binaryRules (a : Term) (aPunct : Punct) (aTv : Option Tv)
    (b : Term) (bPunct : Punct) (bTv : Option Tv) : List (R (Option Concl2)) :=
  [ inf3 a aPunct aTv b bPunct bTv,
    inf4 a aPunct aTv b bPunct bTv,
    inf5 a aPunct aTv b bPunct bTv 0,
    inf5 a aPunct aTv b bPunct bTv 1,
    inf5 a aPunct aTv b bPunct bTv 2,
    inf5 a aPunct aTv b bPunct bTv 3,
    infImplDed a aPunct aTv b bPunct bTv,
    inf7 a aPunct aTv b bPunct bTv,
    inf10 a aPunct aTv b bPunct bTv,
    infCompPred a aPunct aTv b bPunct bTv,
    infCompSubj a aPunct aTv b bPunct bTv,
    infGeneralizedJudgJudg a aPunct aTv b bPunct bTv .PREDIMPL .PREDIMPL .PREDIMPL (-1) 1 Tv.ded,
    infGeneralizedJudgJudg a aPunct aTv b bPunct bTv .IMPL .IMPL .IMPL (-1) 1 Tv.ded,
    infGeneralizedJudgJudg a aPunct aTv b bPunct bTv .INH .INH .INH (-1) 1 Tv.ded,
    infGeneralizedJudgJudg a aPunct aTv b bPunct bTv .INH .INH .INH (-1) (-1) Tv.abd,
    infGeneralizedJudgJudg a aPunct aTv b bPunct bTv .INH .INH .INH 1 1 Tv.ind ]

/-- `infBinaryInner`, NarWorkingCycle.rs 654-737; the flag is the `&mut bool`. -/
def infBinaryInner (a : Term) (aPunct : Punct) (aTv : Option Tv)
    (b : Term) (bPunct : Punct) (bTv : Option Tv) (wereRulesApplied : Bool) :
    R (List Concl2 × Bool) := do
  let rs ← (binaryRules a aPunct aTv b bPunct bTv).mapM id
  .ok (rs.foldl pushRes ([], wereRulesApplied))

/-- `infBinary`, NarWorkingCycle.rs 740-746.  The second call swaps the terms and the punctuation
but passes the truth values unswapped, as in the code. -/
def infBinary (a : Term) (aPunct : Punct) (aTv : Option Tv)
    (b : Term) (bPunct : Punct) (bTv : Option Tv) : R (List Concl2 × Bool) := do
  let (r1, w1) ← infBinaryInner a aPunct aTv b bPunct bTv false
  let (r2, w2) ← infBinaryInner b bPunct aTv a aPunct bTv w1
  .ok (r1 ++ r2, w2)

/-- `infSinglePremise`, NarWorkingCycle.rs 748-804. -/
def infSinglePremise (a : Term) (punct : Punct) (aTv : Option Tv) : R (List Concl1) := do
  let rs ← [ infNeg a punct aTv,
    infStructSubj1 a punct aTv 0, infStructSubj1 a punct aTv 1, infStructSubj1 a punct aTv 2,
    infStructPred1 a punct aTv 0, infStructPred1 a punct aTv 1, infStructPred1 a punct aTv 2,
    infStructProd0 a punct aTv, infStructProd1 a punct aTv,
    infStructImg0 a punct aTv, infStructImg1 a punct aTv,
    infStructSetInt a punct aTv, infStructSetExt a punct aTv ].mapM id
  let par ← infStructDecomposePar a punct aTv
  .ok (rs.filterMap id ++ par.getD [])

/-- the record built for a conclusion, NarWorkingCycle.rs 925-933 and 961-969 (the cell of the counters
is named by `workConclusions`). -/
def conclSentence (term : Term) (tv : Tv) (punct : Punct) (stamp : Stamp) : Sentence :=
  { term := term, evi := some (.TV tv), stamp := stamp, t := none, punct := punct, expDt := none,
    usage := ⟨0, 0, []⟩ }

/-- `inference2`, NarWorkingCycle.rs 913-941. -/
def inference2 (paTerm : Term) (paPunct : Punct) (paStamp : Stamp) (paTv : Option Tv)
    (pbTerm : Term) (pbPunct : Punct) (pbStamp : Stamp) (pbTv : Option Tv) :
    R (List (Sentence × Rat) × Bool) := do
  let (infConcl, were) ← infBinary paTerm paPunct paTv pbTerm pbPunct pbTv
  let concl := infConcl.map (fun (term, tv, punct) =>
    (conclSentence term tv punct (Stamp.merge paStamp pbStamp), (1 : Rat)))
  if concl.length > 0 && Stamp.checkOverlap paStamp pbStamp then .ok ([], were)
  else .ok (concl, were)

/-- `inference`, NarWorkingCycle.rs 946-952. -/
def inference (pa pb : Sentence) : R (List (Sentence × Rat) × Bool) := do
  let ta ← retTv pa
  let tb ← retTv pb
  inference2 pa.term pa.punct pa.stamp ta pb.term pb.punct pb.stamp tb

/-- `infSinglePremise2`, NarWorkingCycle.rs 954-973. -/
def infSinglePremise2 (pa : Sentence) : R (List (Sentence × Rat)) := do
  let ta ← retTv pa
  let infConcl ← infSinglePremise pa.term pa.punct ta
  .ok (infConcl.map (fun (term, tv, punct, attBias) =>
    (conclSentence term tv punct pa.stamp, attBias)))

end Nar
