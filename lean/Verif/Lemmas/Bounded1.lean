import Verif.Spec.Bounded
import Verif.Lemmas.Decl4
import Verif.Lemmas.Whole2
import Verif.Lemmas.Thinks3
/-! # Helper lemmas: how many conclusions the worker draws -/
namespace Nar
open Term

theorem mapM_length {α β : Type} {f : α → R β} {l : List α} {r : List β} (h : l.mapM f = .ok r) : r.length = l.length :=
  ((mapM_ok_iff.1 h).length_eq).symm

theorem pushRes_length (rs : List (Option Concl2)) (acc : List Concl2 × Bool) :
    (rs.foldl pushRes acc).1.length ≤ acc.1.length + rs.length := by
  induction rs generalizing acc with
  | nil => simp
  | cons r rs ih =>
    rw [List.foldl_cons]
    refine le_trans (ih _) ?_
    cases r with
    | none => simp [pushRes]
    | some x => simp [pushRes]; omega

theorem infBinaryInner_length {a : Term} {ap : Punct} {at' : Option Tv} {b : Term} {bp : Punct} {bt : Option Tv} {w : Bool}
    {r : List Concl2 × Bool} (h : infBinaryInner a ap at' b bp bt w = .ok r) : r.1.length ≤ 16 := by
  unfold infBinaryInner at h
  obtain ⟨rs, h1, h⟩ := R.bind_ok.1 h
  have h2 := mapM_length h1
  have h3 : (binaryRules a ap at' b bp bt).length = 16 := rfl
  rw [← Except.ok.inj h]
  have := pushRes_length rs ([], w)
  simp only [List.length_nil] at this
  omega

theorem inference_length {pa pb : Sentence} {r : List (Sentence × Rat) × Bool} (h : inference pa pb = .ok r) : r.1.length ≤ 32 := by
  unfold inference at h
  obtain ⟨ta, _, h⟩ := R.bind_ok.1 h
  obtain ⟨tb, _, h⟩ := R.bind_ok.1 h
  unfold inference2 at h
  obtain ⟨⟨cs, w⟩, h1, h⟩ := R.bind_ok.1 h
  have hc : cs.length ≤ 32 := by
    unfold infBinary at h1
    obtain ⟨⟨r1, w1⟩, g1, h1⟩ := R.bind_ok.1 h1
    obtain ⟨⟨r2, w2⟩, g2, h1⟩ := R.bind_ok.1 h1
    have e := Prod.mk.inj (Except.ok.inj h1)
    rw [← e.1, List.length_append]
    have := infBinaryInner_length g1
    have := infBinaryInner_length g2
    simp only at *
    omega
  simp only at h
  split at h
  · rw [← Except.ok.inj h]; simp
  · rw [← Except.ok.inj h]; simpa using hc

/-- a list of conclusions for every partner -/
theorem concl_flatten_length {l : List (List (Sentence × Rat))} {k : Nat} (h : ∀ x ∈ l, x.length ≤ k) : l.flatten.length ≤ k * l.length := by
  induction l with
  | nil => simp
  | cons x l ih =>
    have h1 := h x (by simp)
    have h2 := ih (fun y hy => h y (by simp [hy]))
    simp only [List.flatten_cons, List.length_append, List.length_cons]
    rw [Nat.mul_add]
    omega

theorem partners_length {α : Type} {f : α → R (List (Sentence × Rat))} {l : List α} {r : List (List (Sentence × Rat))}
    (h : l.mapM f = .ok r) (hf : ∀ a x, f a = .ok x → x.length ≤ 32) : r.flatten.length ≤ 32 * l.length := by
  rw [← mapM_length h]
  refine concl_flatten_length (fun x hx => ?_)
  obtain ⟨a, _, ha⟩ := forall₂_right_mem (mapM_ok_iff.1 h) hx
  exact hf a x ha

/-! ## a single premise -/

theorem parts_complexity {ts : List Term} (h : ∀ t ∈ ts, WellFormed t) : ts.length ≤ calcComplexityL ts := by
  induction ts with
  | nil => simp
  | cons t ts ih =>
    have h1 := (h t (by simp)).complexity
    have h2 := ih (fun x hx => h x (by simp [hx]))
    simp only [List.length_cons, calcComplexityL]
    omega

theorem single_length {p : Sentence} {r : List (Sentence × Rat)} (hw : WellFormed p.term) (h : infSinglePremise2 p = .ok r) :
    r.length ≤ 13 + calcComplexity p.term := by
  unfold infSinglePremise2 at h
  obtain ⟨ta, _, h⟩ := R.bind_ok.1 h
  obtain ⟨cs, h1, h⟩ := R.bind_ok.1 h
  rw [← Except.ok.inj h, List.length_map]
  unfold infSinglePremise at h1
  obtain ⟨rs, h2, h1⟩ := R.bind_ok.1 h1
  obtain ⟨par, h3, h1⟩ := R.bind_ok.1 h1
  have l1 := mapM_length h2
  rw [← Except.ok.inj h1, List.length_append]
  have l2 : (rs.filterMap id).length ≤ 13 := by
    have := List.length_filterMap_le id rs
    simp only [List.length_cons, List.length_nil] at l1
    omega
  have l3 : (par.getD []).length ≤ calcComplexity p.term := by
    unfold infStructDecomposePar at h3
    split at h3
    · rw [← Except.ok.inj h3]; simp
    · split at h3
      · rename_i subj arr e
        obtain ⟨res, h4, h3⟩ := R.bind_ok.1 h3
        have l4 := mapM_length h4
        rw [← Except.ok.inj h3, e]
        have hp : ∀ t ∈ arr, WellFormed t := by
          intro t ht
          rw [e] at hw
          exact (wf_iff.1 (wf_stmt.1 hw).2).2 t ht
        have := parts_complexity hp
        simp only [Option.getD_some, calcComplexity]
        omega
      · rw [← Except.ok.inj h3]; simp
  omega

/-! ## a message -/

/-- the tables of beliefs have at most `n` entries -/
def TablesAtMost (n : Nat) (m : Mem) : Prop := ∀ c ∈ m, c.beliefsByExp.length ≤ n ∧ c.beliefsByUsage.length ≤ n

theorem workConclusions_length {cfg : Cfg} {sh : Shared} {msg : Msg} {concl : List (Sentence × Rat)} (hd : DInv cfg sh)
    (hm : msg.secondary.length ≤ 300) (ht : TablesAtMost (max 1 cfg.nBeliefs) sh.mem)
    (h : workConclusions sh msg = .ok concl) : concl.length ≤ roundLimit cfg := by
  unfold workConclusions at h
  obtain ⟨p, h1, h⟩ := R.bind_ok.1 h
  obtain ⟨single, h2, h⟩ := R.bind_ok.1 h
  obtain ⟨secs, h3, h⟩ := R.bind_ok.1 h
  obtain ⟨partA, h4, h⟩ := R.bind_ok.1 h
  obtain ⟨partB, h5, h⟩ := R.bind_ok.1 h
  obtain ⟨partC, h6, h⟩ := R.bind_ok.1 h
  have hp := List.mem_of_getElem? (indexAt_ok.1 h1)
  have hinf : ∀ (s : Sentence) (x : List (Sentence × Rat)),
      (do let (cs, _) ← inference p.sentence s; (Except.ok cs : R (List (Sentence × Rat)))) = .ok x → x.length ≤ 32 := by
    intro s x hx
    obtain ⟨⟨cs, w⟩, g1, g2⟩ := R.bind_ok.1 hx
    rw [← Except.ok.inj g2]
    exact inference_length g1
  have l1 := single_length (hd.good.1 p hp).2.2 h2
  have l2 : (calcComplexity p.sentence.term : Int) ≤ cfg.maxComplexity := hd.inv.complexity p hp
  have l3 := mapM_length h3
  have lB := partners_length h5 (fun s x hx => hinf _ _ hx)
  have lA := partners_length h4 (fun a x hx => by
    obtain ⟨s, r⟩ := a
    simp only at hx
    split at hx
    · rw [← Except.ok.inj hx]; simp
    · exact hinf _ _ hx)
  have lC := partners_length h6 (fun s x hx => hinf _ _ hx)
  have lC' : partC.flatten.length ≤ 32 * (2 * max 1 cfg.nBeliefs) := by
    refine le_trans lC (Nat.mul_le_mul_left _ ?_)
    cases hg : sh.mem.get p.sentence.term with
    | none => simp
    | some c =>
      have := ht c (Mem.get_some hg).1
      simp only [List.length_append]
      omega
  have la : ((secs.zip msg.secondary).take (msg.secondary.length / 2)).length ≤ 150 := by
    rw [List.length_take]; omega
  rw [← Except.ok.inj h]
  unfold nameCells roundLimit
  simp only [List.length_mapIdx, List.length_append]
  omega

theorem sortAsc_length {α} (l : List (Nat × α)) : (sortAsc l).length = l.length := by
  have hi : ∀ (a : Nat × α) l, (insertAsc a l).length = l.length + 1 := by
    intro a l
    induction l with
    | nil => rfl
    | cons b l ih => simp only [insertAsc]; split <;> simp [ih]
  induction l with
  | nil => rfl
  | cons a l ih => simp only [sortAsc, hi, ih, List.length_cons]

theorem secondary_length {sh : Shared} {p : Nat} {l : List Nat} (h : secondaryElligable sh p = .ok l) : l.length ≤ 300 := by
  unfold secondaryElligable at h
  obtain ⟨t, _, h⟩ := R.bind_ok.1 h
  obtain ⟨acc, _, h⟩ := R.bind_ok.1 h
  obtain ⟨arr, _, h⟩ := R.bind_ok.1 h
  rw [← Except.ok.inj h, List.length_map, List.length_take]
  omega

theorem reasonCycle_secondary {cfg : Cfg} {v : Rat} {now : Int} {sh sh' : Shared} {msg : Option Msg} {calls : List AnswerCall}
    (h : reasonCycle cfg v now sh = .ok (sh', msg, calls)) : ∀ m ∈ msg.toList, m.secondary.length ≤ 300 := by
  unfold reasonCycle at h
  obtain ⟨sh1, _, h⟩ := R.bind_ok.1 h
  obtain ⟨⟨sh2, c2⟩, _, h⟩ := R.bind_ok.1 h
  obtain ⟨⟨sh3, m3⟩, h3, h⟩ := R.bind_ok.1 h
  obtain ⟨sh4, _, h⟩ := R.bind_ok.1 h
  obtain ⟨sh5, _, h⟩ := R.bind_ok.1 h
  have e := (Prod.mk.inj (Prod.mk.inj (Except.ok.inj h)).2).1
  subst e
  unfold buildMsg at h3
  obtain ⟨⟨sh6, prim⟩, _, h3⟩ := R.bind_ok.1 h3
  cases prim with
  | none => rw [← (Prod.mk.inj (Except.ok.inj h3)).2]; intro m hm; cases hm
  | some p =>
    obtain ⟨sec, h4, h3⟩ := R.bind_ok.1 h3
    rw [← (Prod.mk.inj (Except.ok.inj h3)).2]
    intro m hm
    simp only [Option.toList_some, List.mem_singleton] at hm
    subst hm
    exact secondary_length h4

end Nar
