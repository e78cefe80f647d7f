import Verif.Lemmas.Rename1
/-! # Other names: inference rules -/
namespace Nar
open Term
namespace Renaming
variable (ρ : Renaming)

def concl1 (c : Concl1) : Concl1 := (ρ.term c.1, c.2)
def concl2 (c : Concl2) : Concl2 := (ρ.term c.1, c.2)

/-- the common end of most rules -/
theorem unwrap_concl1 (tv : Option Tv) (k : Tv → Concl1) :
    (unwrap tv >>= fun tv => (Except.ok (some (ρ.concl1 (k tv))) : R (Option Concl1))) =
      (unwrap tv >>= fun tv => (Except.ok (some (k tv)) : R (Option Concl1))).map (Option.map ρ.concl1) := by
  cases tv <;> rfl

theorem unwrap_concl2 (ta tb : Option Tv) (k : Tv → Tv → Concl2) :
    (unwrap ta >>= fun ta => unwrap tb >>= fun tb => (Except.ok (some (ρ.concl2 (k ta tb))) : R (Option Concl2))) =
      (unwrap ta >>= fun ta => unwrap tb >>= fun tb => (Except.ok (some (k ta tb)) : R (Option Concl2))).map
        (Option.map ρ.concl2) := by
  cases ta <;> cases tb <;> rfl

theorem infNeg (a : Term) (p : Punct) (tv : Option Tv) :
    Nar.infNeg (ρ.term a) p tv = (Nar.infNeg a p tv).map (Option.map ρ.concl1) := by
  unfold Nar.infNeg
  split
  · rfl
  · cases a <;> simp only [term] <;> first | rfl | (cases tv <;> rfl)

theorem infStructPred1 (a : Term) (p : Punct) (tv : Option Tv) (idx : Nat) :
    Nar.infStructPred1 (ρ.term a) p tv idx = (Nar.infStructPred1 a p tv idx).map (Option.map ρ.concl1) := by
  unfold Nar.infStructPred1
  split
  · rfl
  · cases a <;> simp only [term] <;> try rfl
    rename_i c s p
    cases c <;> try rfl
    cases p <;> simp only [term] <;> try rfl
    rename_i arr
    rw [terms_map, List.getElem?_map]
    cases arr[idx]? with
    | none => rfl
    | some x => exact ρ.unwrap_concl1 tv fun tv => (.Stmt .INH s x, tv, .JUGEMENT, 1)

theorem infStructSubj1 (a : Term) (p : Punct) (tv : Option Tv) (idx : Nat) :
    Nar.infStructSubj1 (ρ.term a) p tv idx = (Nar.infStructSubj1 a p tv idx).map (Option.map ρ.concl1) := by
  unfold Nar.infStructSubj1
  split
  · rfl
  · cases a <;> simp only [term] <;> try rfl
    rename_i c s p
    cases c <;> try rfl
    cases s <;> simp only [term] <;> try rfl
    rename_i arr
    rw [terms_map, List.getElem?_map]
    cases arr[idx]? with
    | none => rfl
    | some x => exact ρ.unwrap_concl1 tv fun tv => (.Stmt .INH x p, tv, .JUGEMENT, 9/10)

theorem infStructProd0 (a : Term) (p : Punct) (tv : Option Tv) :
    Nar.infStructProd0 (ρ.term a) p tv = (Nar.infStructProd0 a p tv).map (Option.map ρ.concl1) := by
  unfold Nar.infStructProd0
  split
  · rfl
  · cases a <;> simp only [term] <;> try rfl
    rename_i c s p
    cases c <;> try rfl
    cases s <;> simp only [term] <;> try rfl
    rename_i arr
    rw [terms_map]
    refine R.bind_rel (indexAt_ren _ _ _) fun x => R.bind_rel (indexAt_ren _ _ _) fun y => ?_
    exact ρ.unwrap_concl1 tv fun tv => (.Stmt .INH x (.Img p 0 [y]), tv, .JUGEMENT, 8/10)

theorem infStructProd1 (a : Term) (p : Punct) (tv : Option Tv) :
    Nar.infStructProd1 (ρ.term a) p tv = (Nar.infStructProd1 a p tv).map (Option.map ρ.concl1) := by
  unfold Nar.infStructProd1
  split
  · rfl
  · cases a <;> simp only [term] <;> try rfl
    rename_i c s p
    cases c <;> try rfl
    cases s <;> simp only [term] <;> try rfl
    rename_i arr
    rw [terms_map, List.length_map]
    split
    · refine R.bind_rel (indexAt_ren _ _ _) fun x => R.bind_rel (indexAt_ren _ _ _) fun y => ?_
      exact ρ.unwrap_concl1 tv fun tv => (.Stmt .INH y (.Img p 1 [x]), tv, .JUGEMENT, 8/10)
    · rfl

theorem infStructImg0 (a : Term) (p : Punct) (tv : Option Tv) :
    Nar.infStructImg0 (ρ.term a) p tv = (Nar.infStructImg0 a p tv).map (Option.map ρ.concl1) := by
  unfold Nar.infStructImg0
  split
  · rfl
  · cases a <;> simp only [term] <;> try rfl
    rename_i c s p
    cases c <;> try rfl
    cases p <;> simp only [term] <;> try rfl
    rename_i r i ts
    match i, ts with
    | 0, [] => rfl
    | 0, [x] => exact ρ.unwrap_concl1 tv fun tv => (.Stmt .INH (.Prod [s, x]) r, tv, .JUGEMENT, 9/10)
    | 0, _ :: _ :: _ => rfl
    | i + 1, _ => rfl

theorem infStructImg1 (a : Term) (p : Punct) (tv : Option Tv) :
    Nar.infStructImg1 (ρ.term a) p tv = (Nar.infStructImg1 a p tv).map (Option.map ρ.concl1) := by
  unfold Nar.infStructImg1
  split
  · rfl
  · cases a <;> simp only [term] <;> try rfl
    rename_i c s p
    cases c <;> try rfl
    cases p <;> simp only [term] <;> try rfl
    rename_i r i ts
    match i, ts with
    | 0, _ => rfl
    | 1, [] => rfl
    | 1, [x] => exact ρ.unwrap_concl1 tv fun tv => (.Stmt .INH (.Prod [x, s]) r, tv, .JUGEMENT, 9/10)
    | 1, _ :: _ :: _ => rfl
    | i + 2, _ => rfl

theorem infStructDecomposePar (a : Term) (p : Punct) (tv : Option Tv) :
    Nar.infStructDecomposePar (ρ.term a) p tv = (Nar.infStructDecomposePar a p tv).map (Option.map (List.map ρ.concl1)) := by
  unfold Nar.infStructDecomposePar
  split
  · rfl
  · cases a <;> simp only [term] <;> try rfl
    rename_i c s p
    cases c <;> try rfl
    cases p <;> simp only [term] <;> try rfl
    rename_i arr
    rw [terms_map]
    refine R.bind_rel (mapM_rel (g := ρ.concl1) (k := fun iTerm => do
        let tv ← unwrap tv
        (.ok (.Stmt .PREDIMPL s iTerm, tv, .JUGEMENT, 9/10) : R Concl1)) ?_ arr) fun l => rfl
    intro x
    cases tv <;> rfl

theorem infStructSetInt (a : Term) (p : Punct) (tv : Option Tv) :
    Nar.infStructSetInt (ρ.term a) p tv = (Nar.infStructSetInt a p tv).map (Option.map ρ.concl1) := by
  unfold Nar.infStructSetInt
  split
  · rfl
  · cases a <;> simp only [term] <;> try rfl
    rename_i c s p
    cases c <;> try rfl
    cases s <;> simp only [term] <;> try rfl
    rename_i ts
    match ts with
    | [] => rfl
    | _ :: _ :: _ => rfl
    | [x] =>
      cases p <;> simp only [term, terms] <;> try rfl
      rename_i us
      match us with
      | [] => rfl
      | _ :: _ :: _ => rfl
      | [y] => exact ρ.unwrap_concl1 tv fun tv => (.Stmt .SIM x y, tv, .JUGEMENT, 1)

theorem infStructSetExt (a : Term) (p : Punct) (tv : Option Tv) :
    Nar.infStructSetExt (ρ.term a) p tv = (Nar.infStructSetExt a p tv).map (Option.map ρ.concl1) := by
  unfold Nar.infStructSetExt
  split
  · rfl
  · cases a <;> simp only [term] <;> try rfl
    rename_i c s p
    cases c <;> try rfl
    cases s <;> simp only [term] <;> try rfl
    rename_i ts
    match ts with
    | [] => rfl
    | _ :: _ :: _ => rfl
    | [x] =>
      cases p <;> simp only [term, terms] <;> try rfl
      rename_i us
      match us with
      | [] => rfl
      | _ :: _ :: _ => rfl
      | [y] => exact ρ.unwrap_concl1 tv fun tv => (.Stmt .SIM x y, tv, .JUGEMENT, 1)

theorem sel (s p : Term) (side : Int) : Nar.sel (ρ.term s) (ρ.term p) side = ρ.term (Nar.sel s p side) := by
  unfold Nar.sel
  split <;> rfl

theorem infGeneralized (a : Term) (pa : Punct) (ta : Option Tv) (b : Term) (pb : Punct) (tb : Option Tv)
    (ac bc cc : Copula) (sa sb : Int) (fn : Tv → Tv → Tv) :
    infGeneralizedJudgJudg (ρ.term a) pa ta (ρ.term b) pb tb ac bc cc sa sb fn =
      (infGeneralizedJudgJudg a pa ta b pb tb ac bc cc sa sb fn).map (Option.map ρ.concl2) := by
  unfold infGeneralizedJudgJudg
  split
  · rfl
  · cases a <;> simp only [term] <;> try rfl
    cases b <;> simp only [term] <;> try rfl
    rename_i c s p c' s' p'
    simp only [sel, checkEq]
    split
    · split
      · exact ρ.unwrap_concl2 ta tb fun ta tb => (.Stmt cc (Nar.sel s p (-sa)) (Nar.sel s' p' (-sb)), fn ta tb, .JUGEMENT)
      · rfl
    · rfl

theorem infCompPred (a : Term) (pa : Punct) (ta : Option Tv) (b : Term) (pb : Punct) (tb : Option Tv) :
    Nar.infCompPred (ρ.term a) pa ta (ρ.term b) pb tb = (Nar.infCompPred a pa ta b pb tb).map (Option.map ρ.concl2) := by
  unfold Nar.infCompPred
  split
  · rfl
  · cases a <;> simp only [term] <;> try rfl
    cases b <;> simp only [term] <;> try rfl
    rename_i c s p c' s' p'
    simp only [checkEq]
    split
    · split
      · exact ρ.unwrap_concl2 ta tb fun ta tb => (.Stmt .SIM p p', Tv.comp ta tb, .JUGEMENT)
      · rfl
    · rfl

theorem infCompSubj (a : Term) (pa : Punct) (ta : Option Tv) (b : Term) (pb : Punct) (tb : Option Tv) :
    Nar.infCompSubj (ρ.term a) pa ta (ρ.term b) pb tb = (Nar.infCompSubj a pa ta b pb tb).map (Option.map ρ.concl2) := by
  unfold Nar.infCompSubj
  split
  · rfl
  · cases a <;> simp only [term] <;> try rfl
    cases b <;> simp only [term] <;> try rfl
    rename_i c s p c' s' p'
    simp only [checkEq]
    split
    · split
      · exact ρ.unwrap_concl2 ta tb fun ta tb => (.Stmt .SIM s s', Tv.comp ta tb, .JUGEMENT)
      · rfl
    · rfl

theorem inf10 (a : Term) (pa : Punct) (ta : Option Tv) (b : Term) (pb : Punct) (tb : Option Tv) :
    Nar.inf10 (ρ.term a) pa ta (ρ.term b) pb tb = (Nar.inf10 a pa ta b pb tb).map (Option.map ρ.concl2) := by
  unfold Nar.inf10
  split
  · rfl
  · cases a <;> simp only [term] <;> try rfl
    rename_i c s p
    cases c <;> try rfl
    cases b <;> simp only [term] <;> try rfl
    rename_i c' s' p'
    cases c' <;> try rfl
    simp only [checkEq]
    split
    · exact ρ.unwrap_concl2 ta tb fun ta tb => (.Stmt .INH s (.ExtInt [p, p']), Tv.int ta tb, .JUGEMENT)
    · rfl

theorem inf3 (a : Term) (pa : Punct) (ta : Option Tv) (b : Term) (pb : Punct) (tb : Option Tv) :
    Nar.inf3 (ρ.term a) pa ta (ρ.term b) pb tb = (Nar.inf3 a pa ta b pb tb).map (Option.map ρ.concl2) := by
  unfold Nar.inf3
  split
  · rfl
  · cases a <;> simp only [term] <;> try rfl
    rename_i c s p
    cases c <;> try rfl
    cases p <;> simp only [term] <;> try rfl
    cases b <;> simp only [term] <;> try rfl
    rename_i ts c' s' p'
    cases c' <;> try rfl
    cases p' <;> simp only [term] <;> try rfl
    rename_i us
    simp only [checkEq]
    split
    · have := ρ.unwrap_concl2 ta tb fun ta tb => (.Stmt .INH s (.SetInt (ts ++ us)), Tv.int ta tb, .JUGEMENT)
      simp only [concl2, term, terms_map, List.map_append] at this ⊢
      exact this
    · rfl

theorem inf5Rest (arr : List Term) (i : Nat) (as : List Asgnment) :
    Nar.inf5Rest (ρ.terms arr) i (as.map ρ.asgn) = ρ.terms (Nar.inf5Rest arr i as) := by
  unfold Nar.inf5Rest
  rw [terms_map, terms_map, List.zipIdx_map, List.filterMap_map, List.map_filterMap]
  congr 1
  funext x
  obtain ⟨t, n⟩ := x
  simp only [Function.comp, Prod.map, id]
  split <;> simp [subst]

theorem inf5Concl (l : List Term) (t : Term) : Nar.inf5Concl (ρ.terms l) (ρ.term t) = ρ.term (Nar.inf5Concl l t) := by
  match l with
  | [] => simp only [Nar.inf5Concl, term, terms]
  | [x] => simp only [Nar.inf5Concl, term, terms]
  | x :: y :: l => simp only [Nar.inf5Concl, term, terms]

theorem inf5 (a : Term) (pa : Punct) (ta : Option Tv) (b : Term) (pb : Punct) (tb : Option Tv) (i : Nat) :
    Nar.inf5 (ρ.term a) pa ta (ρ.term b) pb tb i = (Nar.inf5 a pa ta b pb tb i).map (Option.map ρ.concl2) := by
  unfold Nar.inf5
  split
  · rfl
  · cases a <;> simp only [term] <;> try rfl
    rename_i c s p
    cases c <;> try rfl
    cases s <;> simp only [term] <;> try rfl
    rename_i arr
    rw [terms_map, List.getElem?_map]
    cases arr[i]? with
    | none => rfl
    | some c =>
      simp only [Option.map_some]
      rw [unify]
      cases Nar.unify c b with
      | none => rfl
      | some as =>
        simp only [Option.map_some]
        rw [← terms_map, inf5Rest, subst, inf5Concl]
        exact ρ.unwrap_concl2 ta tb fun ta tb => (_, Tv.ded ta tb, .JUGEMENT)

theorem infImplDed (a : Term) (pa : Punct) (ta : Option Tv) (b : Term) (pb : Punct) (tb : Option Tv) :
    Nar.infImplDed (ρ.term a) pa ta (ρ.term b) pb tb = (Nar.infImplDed a pa ta b pb tb).map (Option.map ρ.concl2) := by
  unfold Nar.infImplDed
  split
  · rfl
  · cases a <;> simp only [term] <;> try rfl
    rename_i c s p
    cases c <;> try rfl
    simp only
    rw [unify]
    cases Nar.unify s b with
    | none => rfl
    | some as =>
      simp only [Option.map_some]
      rw [subst]
      exact ρ.unwrap_concl2 ta tb fun ta tb => (_, Tv.ded ta tb, .JUGEMENT)

theorem inf7 (a : Term) (pa : Punct) (ta : Option Tv) (b : Term) (pb : Punct) (tb : Option Tv) :
    Nar.inf7 (ρ.term a) pa ta (ρ.term b) pb tb = (Nar.inf7 a pa ta b pb tb).map (Option.map ρ.concl2) := by
  unfold Nar.inf7
  split
  · rfl
  · cases a <;> try rfl
    rename_i c s p
    cases c <;> try rfl
    simp only [term]
    rw [unify]
    cases Nar.unify p b with
    | none => rfl
    | some as =>
      simp only [Option.map_some]
      have := ρ.subst as (.Stmt .IMPL s p)
      simp only [term] at this
      rw [this]
      cases tb <;> rfl

theorem pushRes (acc : List Concl2 × Bool) (r : Option Concl2) :
    Nar.pushRes (acc.1.map ρ.concl2, acc.2) (r.map ρ.concl2) =
      ((Nar.pushRes acc r).1.map ρ.concl2, (Nar.pushRes acc r).2) := by
  cases r with
  | none => rfl
  | some x => simp only [Nar.pushRes, Option.map_some, List.map_append, List.map_cons, List.map_nil]

theorem binaryRules (a : Term) (pa : Punct) (ta : Option Tv) (b : Term) (pb : Punct) (tb : Option Tv) :
    Nar.binaryRules (ρ.term a) pa ta (ρ.term b) pb tb =
      (Nar.binaryRules a pa ta b pb tb).map (Except.map (Option.map ρ.concl2)) := by
  unfold Nar.binaryRules
  simp only [List.map_cons, List.map_nil, inf3, inf5, infImplDed, inf7, inf10, infCompPred, infCompSubj, infGeneralized]
  rfl

def resFlag (r : List Concl2 × Bool) : List Concl2 × Bool := (r.1.map ρ.concl2, r.2)

theorem infBinaryInner (a : Term) (pa : Punct) (ta : Option Tv) (b : Term) (pb : Punct) (tb : Option Tv) (w : Bool) :
    Nar.infBinaryInner (ρ.term a) pa ta (ρ.term b) pb tb w = (Nar.infBinaryInner a pa ta b pb tb w).map ρ.resFlag := by
  unfold Nar.infBinaryInner
  rw [binaryRules]
  refine R.bind_rel (mapM_rel (g := Option.map ρ.concl2) (k := id) (k' := id) (fun _ => rfl) _) fun rs => ?_
  have := foldl_rel (g := ρ.resFlag) (f := Option.map ρ.concl2) (k := Nar.pushRes) (k' := Nar.pushRes)
    (fun s r => ρ.pushRes s r) rs ([], w)
  exact congrArg Except.ok this

theorem infBinary (a : Term) (pa : Punct) (ta : Option Tv) (b : Term) (pb : Punct) (tb : Option Tv) :
    Nar.infBinary (ρ.term a) pa ta (ρ.term b) pb tb = (Nar.infBinary a pa ta b pb tb).map ρ.resFlag := by
  unfold Nar.infBinary
  refine R.bind_rel (ρ.infBinaryInner a pa ta b pb tb false) fun r1 => ?_
  refine R.bind_rel (ρ.infBinaryInner b pb ta a pa tb r1.2) fun r2 => ?_
  simp only [resFlag, Except.map, List.map_append]

theorem infSinglePremise (a : Term) (p : Punct) (tv : Option Tv) :
    Nar.infSinglePremise (ρ.term a) p tv = (Nar.infSinglePremise a p tv).map (List.map ρ.concl1) := by
  unfold Nar.infSinglePremise
  simp only [infNeg, infStructSubj1, infStructPred1, infStructProd0, infStructProd1, infStructImg0, infStructImg1, infStructSetInt,
    infStructSetExt]
  refine R.bind_rel (f := List.map (Option.map ρ.concl1)) ?_ fun rs => R.bind_rel (ρ.infStructDecomposePar a p tv) fun par => ?_
  · exact mapM_rel (f := Except.map (Option.map ρ.concl1)) (g := Option.map ρ.concl1) (k := id) (k' := id) (fun _ => rfl) [_, _, _, _, _, _, _, _, _, _, _, _, _]
  · simp only [Except.map, List.map_append, List.filterMap_map, List.map_filterMap]
    congr 2
    cases par <;> rfl

/-! ## sentences -/

theorem retTv (s : Sentence) : Nar.retTv (ρ.sentence s) = Nar.retTv s := rfl

theorem expOf (s : Sentence) : Nar.expOf (ρ.sentence s) = Nar.expOf s := rfl

def weighted (c : Sentence × Rat) : Sentence × Rat := (ρ.sentence c.1, c.2)

def weightedFlag (r : List (Sentence × Rat) × Bool) : List (Sentence × Rat) × Bool := (r.1.map ρ.weighted, r.2)

theorem inference (a b : Sentence) : Nar.inference (ρ.sentence a) (ρ.sentence b) = (Nar.inference a b).map ρ.weightedFlag := by
  unfold Nar.inference Nar.inference2
  simp only [retTv]
  rw [R.map_of_bind]
  refine R.bind_same fun ta => ?_
  rw [R.map_of_bind]
  refine R.bind_same fun tb => ?_
  refine R.bind_rel (ρ.infBinary a.term a.punct ta b.term b.punct tb) fun r => ?_
  have e : (ρ.resFlag r).1.map (fun x : Concl2 => (conclSentence x.1 x.2.1 x.2.2 (Stamp.merge a.stamp b.stamp), (1 : Rat))) =
      (r.1.map (fun x : Concl2 => (conclSentence x.1 x.2.1 x.2.2 (Stamp.merge a.stamp b.stamp), (1 : Rat)))).map ρ.weighted := by
    simp only [resFlag, List.map_map]; rfl
  have l : ((ρ.resFlag r).1.map (fun x : Concl2 => (conclSentence x.1 x.2.1 x.2.2 (Stamp.merge a.stamp b.stamp), (1 : Rat)))).length =
      (r.1.map (fun x : Concl2 => (conclSentence x.1 x.2.1 x.2.2 (Stamp.merge a.stamp b.stamp), (1 : Rat)))).length := by
    rw [e, List.length_map]
  simp only [sentence, l]
  split
  · rfl
  · exact congrArg (fun l => (Except.ok (l, r.2) : R _)) e

theorem infSinglePremise2 (a : Sentence) : Nar.infSinglePremise2 (ρ.sentence a) = (Nar.infSinglePremise2 a).map (List.map ρ.weighted) := by
  unfold Nar.infSinglePremise2
  simp only [retTv]
  rw [R.map_of_bind]
  refine R.bind_same fun ta => ?_
  refine R.bind_rel (ρ.infSinglePremise a.term a.punct ta) fun l => ?_
  simp only [Except.map, List.map_map]
  rfl

end Renaming
end Nar
