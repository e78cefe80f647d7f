import Verif.Model.OpLib
import Verif.Spec.Nar
import Verif.Lemmas.Task
/-! # Calls of operators of the library always end -/
namespace Nar
open Term

theorem complexityL_sum (ts : List Term) : calcComplexityL ts = (ts.map calcComplexity).sum := by
  induction ts with
  | nil => rfl
  | cons t ts ih => simp [calcComplexityL, ih]

theorem le_complexityL {t : Term} {ts : List Term} (h : t ∈ ts) : calcComplexity t ≤ calcComplexityL ts := by
  induction ts with
  | nil => cases h
  | cons a ts ih =>
    simp only [calcComplexityL]
    rcases List.mem_cons.1 h with rfl | h
    · omega
    · have := ih h; omega

theorem decodeOp_smaller {t : Term} {args : List Term} {name : String} (h : decodeOp t = some (args, name)) :
    callDepth args + 1 = calcComplexity t := by
  unfold decodeOp at h
  split at h
  · cases h
    simp only [callDepth, calcComplexity, calcComplexityL, complexityL_sum, List.map_cons, List.sum_cons]
    omega
  · cases h

theorem mapM_congr {α β : Type} {f g : α → R β} {l : List α} (h : ∀ x ∈ l, f x = g x) : l.mapM f = l.mapM g := by
  induction l with
  | nil => rfl
  | cons a l ih =>
    rw [List.mapM_cons, List.mapM_cons, h a (List.mem_cons_self ..), ih (fun x hx => h x (List.mem_cons_of_mem _ hx))]

theorem mapM_ne {α β : Type} {f : α → R β} {l : List α} {e : Err} (h : ∀ x ∈ l, f x ≠ .error e) : l.mapM f ≠ .error e := by
  induction l with
  | nil => exact fun e => by cases e
  | cons a l ih =>
    rw [List.mapM_cons]
    intro he
    have ha := h a (List.mem_cons_self ..)
    have hl := ih (fun x hx => h x (List.mem_cons_of_mem _ hx))
    cases h1 : f a with
    | error e' => rw [h1] at he ha; simp only [bind, Except.bind] at he; exact ha (by rw [Except.error.inj he])
    | ok b =>
      rw [h1] at he
      cases h2 : l.mapM f with
      | error e' => rw [h2] at he hl; simp only [bind, Except.bind] at he; exact hl (by rw [Except.error.inj he])
      | ok bs => rw [h2] at he; cases he

theorem printed_ne (t : Term) : printed t ≠ .error .fuel := by
  unfold printed
  split <;> (intro h; cases h)

theorem nlpRel0_ne (args : List Term) : nlpRel0 args ≠ .error .fuel := by
  unfold nlpRel0
  split
  · rename_i a rel
    cases h : rewriteRel rel with
    | error e =>
      intro he
      unfold rewriteRel at h
      split at h <;> cases h
      cases he
    | ok x =>
      simp only [bind, Except.bind]
      have h1 := printed_ne rel
      have h2 := printed_ne x
      cases k1 : printed rel with
      | error e => rw [k1] at h1; simpa using h1
      | ok u =>
        simp only
        cases k2 : printed x with
        | error e => rw [k2] at h2; simpa using h2
        | ok u => simp
  · intro h; cases h

theorem execOne_congr {f g : Op → List Term → R (List OpEffect)} {ops : List Op} {t : Term}
    (h : ∀ args name op, decodeOp t = some (args, name) → f op args = g op args) : execOne f ops t = execOne g ops t := by
  unfold execOne
  split
  · rename_i args name hd
    split
    · rw [h args name _ hd]
    · rfl
  · rfl

theorem execOne_ne {f : Op → List Term → R (List OpEffect)} {ops : List Op} {t : Term}
    (h : ∀ args name op, decodeOp t = some (args, name) → f op args ≠ .error .fuel) : execOne f ops t ≠ .error .fuel := by
  unfold execOne
  split
  · rename_i args name hd
    split
    · rename_i op _
      have h1 := printed_ne t
      cases k1 : printed t with
      | error e => rw [k1] at h1; simpa [bind, Except.bind] using h1
      | ok u => simpa [bind, Except.bind] using h args name op hd
    · intro h; cases h
  · intro h; cases h

/-- with enough depth the result does not depend on it, and the depth does not run out -/
theorem callOp_enough (ops : List Op) : ∀ (n m : Nat) (op : Op) (args : List Term), callDepth args ≤ n → callDepth args ≤ m →
    callOp ops n op args = callOp ops m op args ∧ callOp ops n op args ≠ .error .fuel := by
  intro n
  induction n with
  | zero => intro m op args h1 _; unfold callDepth at h1; omega
  | succ n ih =>
    intro m op args h1 h2
    cases m with
    | zero => unfold callDepth at h2; omega
    | succ m =>
      have key : execAndInject (callOp ops n) ops args = execAndInject (callOp ops m) ops args ∧
          execAndInject (callOp ops n) ops args ≠ .error .fuel := by
        unfold execAndInject
        split
        · rename_i a seq inj
          have hsub : ∀ t ∈ seq, ∀ as name, decodeOp t = some (as, name) → callDepth as ≤ n ∧ callDepth as ≤ m := by
            intro t ht as name hd
            have k1 := decodeOp_smaller hd
            have k2 := le_complexityL ht
            simp only [callDepth, List.map_cons, List.map_nil, List.sum_cons, List.sum_nil, calcComplexity] at h1 h2
            unfold callDepth at k1 ⊢
            omega
          have e1 : seq.mapM (execOne (callOp ops n) ops) = seq.mapM (execOne (callOp ops m) ops) :=
            mapM_congr (fun t ht => execOne_congr (fun as name op hd =>
              (ih m op as (hsub t ht as name hd).1 (hsub t ht as name hd).2).1))
          have e2 : seq.mapM (execOne (callOp ops n) ops) ≠ .error .fuel :=
            mapM_ne (fun t ht => execOne_ne (fun as name op hd =>
              (ih m op as (hsub t ht as name hd).1 (hsub t ht as name hd).2).2))
          refine ⟨by rw [e1], ?_⟩
          cases hm : seq.mapM (execOne (callOp ops n) ops) with
          | error e => rw [hm] at e2; simpa [bind, Except.bind] using e2
          | ok x => simp [bind, Except.bind]
        · exact ⟨rfl, fun h => by cases h⟩
      simp only [callOp]
      split
      · exact ⟨rfl, fun h => by cases h⟩
      split
      · exact key
      split
      · exact ⟨rfl, nlpRel0_ne args⟩
      · exact ⟨rfl, fun h => by cases h⟩

theorem opEffects_ends (ops : List Op) (name : String) (args : List Term) : opEffects ops name args ≠ .error .fuel := by
  unfold opEffects
  split
  · exact (callOp_enough ops _ _ _ args (le_refl _) (le_refl _)).2
  · intro h; cases h

theorem retOpByName_none {ops : List Op} {name : String} : retOpByName ops name = none ↔ ¬ ∃ o ∈ ops, o.name = name := by
  unfold retOpByName
  rw [List.find?_eq_none]
  simp

theorem execOne_effects (ops : List Op) (n : Nat) (t : Term)
    (h : ∀ args name, decodeOp t = some (args, name) → callDepth args ≤ n) :
    execOne (callOp ops n) ops t = operationEffects ops t := by
  unfold execOne operationEffects
  cases hd : decodeOp t with
  | none => rfl
  | some x =>
    obtain ⟨args, name⟩ := x
    simp only
    cases ho : retOpByName ops name with
    | none => rw [if_neg (retOpByName_none.1 ho)]
    | some op =>
      rw [if_pos (by
        by_contra hc
        rw [retOpByName_none.2 hc] at ho
        cases ho)]
      unfold printed
      cases t.convTermToStr with
      | none => rfl
      | some s =>
        simp only [bind, Except.bind]
        unfold opEffects
        rw [ho]
        exact (callOp_enough ops n _ op args (h args name hd) (le_refl _)).1

theorem opEffects_exec {ops : List Op} {op : Op} (h : retOpByName ops "^nal9_exeAndInject" = some op)
    (hb : op.babbleable = false) (self : Term) (seq : List Term) (e : Term) :
    opEffects ops "^nal9_exeAndInject" [self, .Seq seq, e] =
      (seq.mapM (operationEffects ops)).map (fun effs => effs.flatten ++ [.inject e]) := by
  have hn : op.name = "^nal9_exeAndInject" := by simpa using List.find?_some h
  unfold opEffects
  rw [h]
  have hdep : callDepth [self, .Seq seq, e] = (calcComplexity self + (calcComplexity (.Seq seq) + (calcComplexity e + 0))) + 1 := by
    simp [callDepth]
  simp only [hdep, callOp, hb, hn]
  simp only [Bool.false_eq_true, if_false, beq_self_eq_true, if_true, execAndInject]
  rw [mapM_congr (g := operationEffects ops)]
  · cases seq.mapM (operationEffects ops) <;> rfl
  · intro t ht
    apply execOne_effects
    intro args name hd
    have k1 := decodeOp_smaller hd
    have k2 := le_complexityL ht
    simp only [calcComplexity]
    unfold callDepth at k1 ⊢
    omega

/-- the events among effects -/
def injected (effs : List OpEffect) : List Term :=
  effs.filterMap (fun e => match e with | .inject t => some t | .relate _ => none)

theorem foldl_applyInject (effs : List OpEffect) : ∀ p : Proc,
    effs.foldl applyInject p = { p with trace := p.trace ++ (injected effs).map (fun t => ⟨t, p.t, p.t⟩) } := by
  induction effs with
  | nil => intro p; simp [injected]
  | cons e es ih =>
    intro p
    rw [List.foldl_cons, ih]
    cases e <;> simp [applyInject, eventHappened, injected]

theorem libCall_eq (name : String) (args : List Term) (p : Proc) :
    libCall name args p = (opEffects p.ops name args).map (fun effs =>
      { p with trace := p.trace ++ (injected effs).map (fun t => ⟨t, p.t, p.t⟩) }) := by
  unfold libCall
  cases opEffects p.ops name args with
  | error e => rfl
  | ok effs => simp [bind, Except.bind, Except.map, foldl_applyInject]

end Nar
