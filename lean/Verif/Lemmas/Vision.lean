import Verif.Spec.Vision
import Verif.Lemmas.Map2d
import Verif.Lemmas.MlUtils
import Verif.Lemmas.Tv
import Mathlib.Tactic.Ring
import Mathlib.Tactic.Linarith
import Mathlib.Tactic.FieldSimp
import Mathlib.Tactic.Positivity
/-! # Lemmas about the classifiers -/
namespace Nar

/-! ## The best similarity -/

theorem maxLoop_spec : ∀ (vs : List Rat) (m : Rat) (mi i : Nat),
    let r := maxLoop vs (m, mi, i)
    m ≤ r.1 ∧ (∀ v ∈ vs, v ≤ r.1) ∧
      ((r.1 = m ∧ r.2.1 = mi) ∨
        (m < r.1 ∧ ∃ k, r.2.1 = i + k ∧ vs[k]? = some r.1 ∧ ∀ (j : Nat) (v : Rat), j < k → vs[j]? = some v → v < r.1))
  | [], m, mi, i => ⟨le_refl _, by simp, Or.inl ⟨rfl, rfl⟩⟩
  | v :: vs, m, mi, i => by
    intro r
    by_cases hv : v > m
    · have hr : r = maxLoop vs (v, i, i + 1) := by
        show maxLoop (v :: vs) (m, mi, i) = _
        rw [maxLoop, if_pos hv]
      obtain ⟨h1, h2, h3⟩ := maxLoop_spec vs v i (i + 1)
      rw [← hr] at h1 h2 h3
      refine ⟨by linarith, ?_, Or.inr ⟨by linarith, ?_⟩⟩
      · intro u hu
        rcases List.mem_cons.1 hu with rfl | hu
        · exact h1
        · exact h2 u hu
      · rcases h3 with ⟨e1, e2⟩ | ⟨hlt, k, e, hk, hf⟩
        · exact ⟨0, by simpa using e2, by simp [e1], by intro j v hj; omega⟩
        · refine ⟨k + 1, by omega, by simpa using hk, ?_⟩
          intro j u hj hu
          cases j with
          | zero => simp only [List.getElem?_cons_zero, Option.some.injEq] at hu; rw [← hu]; exact hlt
          | succ j => exact hf j u (by omega) (by simpa using hu)
    · have hr : r = maxLoop vs (m, mi, i + 1) := by
        show maxLoop (v :: vs) (m, mi, i) = _
        rw [maxLoop, if_neg hv]
      obtain ⟨h1, h2, h3⟩ := maxLoop_spec vs m mi (i + 1)
      rw [← hr] at h1 h2 h3
      refine ⟨h1, ?_, ?_⟩
      · intro u hu
        rcases List.mem_cons.1 hu with rfl | hu
        · exact le_trans (not_lt.1 hv) h1
        · exact h2 u hu
      · rcases h3 with h | ⟨hlt, k, e, hk, hf⟩
        · exact Or.inl h
        · refine Or.inr ⟨hlt, k + 1, by omega, by simpa using hk, ?_⟩
          intro j u hj hu
          cases j with
          | zero => simp only [List.getElem?_cons_zero, Option.some.injEq] at hu; rw [← hu]; exact lt_of_le_of_lt (not_lt.1 hv) hlt
          | succ j => exact hf j u (by omega) (by simpa using hu)

theorem IsBest.unique {sims : List Rat} {i j : Nat} {s t : Rat} (h : IsBest sims i s) (g : IsBest sims j t) : i = j ∧ s = t := by
  have e : s = t := le_antisymm (g.max s (List.mem_of_getElem? h.at_i)) (h.max t (List.mem_of_getElem? g.at_i))
  refine ⟨?_, e⟩
  rcases lt_trichotomy i j with hl | hl | hl
  · exact absurd (g.first i s hl h.at_i) (by rw [e]; exact lt_irrefl _)
  · exact hl
  · exact absurd (h.first j t hl g.at_i) (by rw [e]; exact lt_irrefl _)

theorem classifyMax_cases (sims : List Rat) :
    (∃ i s, classifyMax sims = some (i, s) ∧ IsBest sims i s) ∨ (classifyMax sims = none ∧ ∀ v ∈ sims, v < 1 / 2) := by
  unfold classifyMax
  by_cases hl : sims.length = 0
  · rw [if_pos hl]
    have : sims = [] := List.length_eq_zero_iff.1 hl
    subst this
    exact Or.inr ⟨rfl, by simp⟩
  · rw [if_neg hl]
    obtain ⟨h1, h2, h3⟩ := maxLoop_spec sims 0 0 0
    dsimp only
    by_cases hh : (maxLoop sims (0, 0, 0)).1 < 1 / 2
    · rw [if_pos hh]
      exact Or.inr ⟨rfl, fun v hv => lt_of_le_of_lt (h2 v hv) hh⟩
    · rw [if_neg hh]
      rcases h3 with ⟨e, _⟩ | ⟨_, k, e, hk, hf⟩
      · rw [e] at hh; norm_num at hh
      · refine Or.inl ⟨_, _, rfl, ?_⟩
        rw [e, Nat.zero_add]
        exact ⟨hk, not_lt.1 hh, h2, hf⟩

theorem classifyMax_some {sims : List Rat} {i : Nat} {s : Rat} : classifyMax sims = some (i, s) ↔ IsBest sims i s := by
  constructor
  · intro h
    rcases classifyMax_cases sims with ⟨j, t, e, hb⟩ | ⟨e, _⟩
    · rw [h] at e; cases e; exact hb
    · rw [h] at e; cases e
  · intro h
    rcases classifyMax_cases sims with ⟨j, t, e, hb⟩ | ⟨_, hn⟩
    · obtain ⟨rfl, rfl⟩ := h.unique hb; exact e
    · exact absurd (hn s (List.mem_of_getElem? h.at_i)) (not_lt.2 h.half)

theorem classifyMax_none {sims : List Rat} : classifyMax sims = none ↔ ∀ v ∈ sims, v < 1 / 2 := by
  constructor
  · intro h
    rcases classifyMax_cases sims with ⟨j, t, e, hb⟩ | ⟨_, hn⟩
    · rw [h] at e; cases e
    · exact hn
  · intro h
    rcases classifyMax_cases sims with ⟨j, t, e, hb⟩ | ⟨e, _⟩
    · exact absurd (h t (List.mem_of_getElem? hb.at_i)) (not_lt.2 hb.half)
    · exact e

/-! ## What both classifiers share -/

/-- common form of both classifiers -/
def classifyG {π : Type} (sims : R (List Rat)) (revise : π → R π) (mk : π) (ps : List π) (add : Bool) : R (List π × Option Nat) := do
  let sims ← sims
  match classifyMax sims with
  | some (idx, _) =>
    if add then do
      let p ← indexAt ps idx
      let p' ← revise p
      .ok (ps.set idx p', some idx)
    else .ok (ps, some idx)
  | none =>
    if add then .ok (ps ++ [mk], some ps.length)
    else .ok (ps, none)

theorem classifyB_eq (ps : List ProtoB) (s : List (List Tv)) (t : Int) (add : Bool) :
    classifyB ps s t add = classifyG (simsB s ps) (fun p => reviseB p s t) ⟨s, t⟩ ps add := rfl

theorem classifyD_eq (exp : Rat → Rat) (ps : List ProtoD) (s : List (Map2d Rat)) (t : Int) (add : Bool) :
    classifyD exp ps s t add = classifyG (simsD exp s ps) (fun p => reviseD p s t) ⟨s, t, 1⟩ ps add := rfl

/-- the possible outcomes of a classification -/
inductive Outcome {π : Type} (sims : List Rat) (revise : π → R π) (mk : π) (ps : List π) : Bool → List π → Option Nat → Prop
  | found {i s} : IsBest sims i s → Outcome sims revise mk ps false ps (some i)
  | revised {i s p p'} : IsBest sims i s → ps[i]? = some p → revise p = .ok p' →
      Outcome sims revise mk ps true (ps.set i p') (some i)
  | unknown : (∀ v ∈ sims, v < 1 / 2) → Outcome sims revise mk ps false ps none
  | created : (∀ v ∈ sims, v < 1 / 2) → Outcome sims revise mk ps true (ps ++ [mk]) (some ps.length)

theorem classifyG_ok {π : Type} {sims : R (List Rat)} {revise : π → R π} {mk : π} {ps : List π} {add : Bool}
    {ps' : List π} {r : Option Nat} (h : classifyG sims revise mk ps add = .ok (ps', r)) :
    ∃ ss, sims = .ok ss ∧ Outcome ss revise mk ps add ps' r := by
  unfold classifyG at h
  obtain ⟨ss, hs, h⟩ := R.bind_ok.1 h
  refine ⟨ss, hs, ?_⟩
  cases hc : classifyMax ss with
  | none =>
    rw [hc] at h
    have hn := classifyMax_none.1 hc
    cases add with
    | true => rw [if_pos rfl] at h; cases h; exact .created hn
    | false => rw [if_neg (by decide)] at h; cases h; exact .unknown hn
  | some x =>
    obtain ⟨i, s⟩ := x
    rw [hc] at h
    have hb := classifyMax_some.1 hc
    cases add with
    | true =>
      rw [if_pos rfl] at h
      obtain ⟨p, hp, h⟩ := R.bind_ok.1 h
      obtain ⟨p', hp', h⟩ := R.bind_ok.1 h
      cases h
      refine .revised hb ?_ hp'
      unfold indexAt at hp
      cases hq : ps[i]? with
      | none => rw [hq] at hp; cases hp
      | some q => rw [hq] at hp; cases hp; rfl
    | false => rw [if_neg (by decide)] at h; cases h; exact .found hb

theorem classifyG_total {π : Type} {sims : R (List Rat)} {ss : List Rat} {revise : π → R π} {mk : π} {ps : List π} (add : Bool)
    (hs : sims = .ok ss) (hl : ss.length ≤ ps.length) (hr : ∀ p ∈ ps, ∃ p', revise p = .ok p') :
    ∃ ps' r, classifyG sims revise mk ps add = .ok (ps', r) := by
  unfold classifyG
  rw [hs]
  simp only [bind, Except.bind]
  cases hc : classifyMax ss with
  | none => cases add <;> exact ⟨_, _, rfl⟩
  | some x =>
    obtain ⟨i, s⟩ := x
    cases add with
    | false => exact ⟨_, _, rfl⟩
    | true =>
      have hb := classifyMax_some.1 hc
      have hi : i < ps.length := lt_of_lt_of_le (List.getElem?_eq_some_iff.1 hb.at_i).1 hl
      obtain ⟨p', hp'⟩ := hr ps[i] (List.getElem_mem hi)
      simp only [if_pos, indexAt_lt hi, hp']
      exact ⟨_, _, rfl⟩

theorem Outcome.length_eq {π : Type} {ss : List Rat} {revise : π → R π} {mk : π} {ps ps' : List π} {add : Bool} {r : Option Nat}
    (h : Outcome ss revise mk ps add ps' r) :
    ps.length ≤ ps'.length ∧ ps'.length ≤ ps.length + (if add then 1 else 0) := by
  cases h <;> simp

theorem Outcome.index_lt {π : Type} {ss : List Rat} {revise : π → R π} {mk : π} {ps ps' : List π} {add : Bool} {r : Option Nat}
    (hl : ss.length ≤ ps.length) (h : Outcome ss revise mk ps add ps' r) : ∀ i, r = some i → i < ps'.length := by
  intro i hi
  cases h with
  | found hb => cases hi; exact lt_of_lt_of_le (List.getElem?_eq_some_iff.1 hb.at_i).1 hl
  | revised hb _ _ => cases hi; rw [List.length_set]; exact lt_of_lt_of_le (List.getElem?_eq_some_iff.1 hb.at_i).1 hl
  | unknown _ => cases hi
  | created _ => cases hi; simp

theorem Outcome.forall {π : Type} {ss : List Rat} {revise : π → R π} {mk : π} {ps ps' : List π} {add : Bool} {r : Option Nat}
    {Q : π → Prop} (h : Outcome ss revise mk ps add ps' r) (h0 : ∀ p ∈ ps, Q p) (hm : Q mk)
    (hr : ∀ p p', Q p → revise p = .ok p' → Q p') : ∀ p ∈ ps', Q p := by
  cases h with
  | found _ => exact h0
  | unknown _ => exact h0
  | created _ =>
    intro p hp
    rcases List.mem_append.1 hp with hp | hp
    · exact h0 p hp
    · rw [List.mem_singleton] at hp; rw [hp]; exact hm
  | revised _ hp he =>
    intro q hq
    rcases List.mem_or_eq_of_mem_set hq with hq | rfl
    · exact h0 q hq
    · exact hr _ _ (h0 _ (List.mem_of_getElem? hp)) he

/-- `sims` has one entry for each prototype -/
theorem simsB_length {s : List (List Tv)} {ps : List ProtoB} {ss : List Rat} (h : simsB s ps = .ok ss) : ss.length = ps.length :=
  ((mapM_ok_iff.1 h).length_eq).symm

theorem simsD_length {exp : Rat → Rat} {s : List (Map2d Rat)} {ps : List ProtoD} {ss : List Rat} (h : simsD exp s ps = .ok ss) :
    ss.length = ps.length :=
  ((mapM_ok_iff.1 h).length_eq).symm

/-- every prototype is related to the stimuli it was learned from -/
theorem runLooks_assigned {π σ : Type} (step : List π → σ → Int → Bool → R (List π × Option Nat))
    (rel : π → List σ → Prop) (good : σ → Prop) (revise : σ → Int → π → R π) (mk : σ → Int → π)
    (hstep : ∀ ps s t add ps' r, step ps s t add = .ok (ps', r) →
      ∃ ss, ss.length = ps.length ∧ Outcome ss (revise s t) (mk s t) ps add ps' r)
    (hmk : ∀ s t, good s → rel (mk s t) [s])
    (hrev : ∀ s t p p' l, good s → rel p l → revise s t p = .ok p' → rel p' (l ++ [s])) :
    ∀ (looks : List (Look σ)) (ps ps' : List π) (rs : List (Option Nat)) (A : Nat → List σ),
      (∀ l ∈ looks, good l.stimulus) → runLooks step ps looks = .ok (ps', rs) →
      (∀ k p, ps[k]? = some p → rel p (A k)) → (∀ k, ps.length ≤ k → A k = []) →
      rs.length = looks.length ∧ (∀ k p, ps'[k]? = some p → rel p (A k ++ assigned k looks rs)) ∧
        ps.length ≤ ps'.length ∧ ps'.length ≤ ps.length + (looks.filter (·.add)).length ∧
        (∀ r ∈ rs, ∀ i, r = some i → i < ps'.length)
  | [], ps, ps', rs, A, _, h, hp, _ => by
    cases h
    refine ⟨rfl, ?_, le_refl _, by simp, by simp⟩
    intro k p hk
    show rel p (A k ++ [])
    rw [List.append_nil]; exact hp k p hk
  | l :: ls, ps, ps', rs, A, hg, h, hp, hA => by
    rw [runLooks] at h
    obtain ⟨⟨ps1, r⟩, h1, h⟩ := R.bind_ok.1 h
    obtain ⟨⟨ps2, rs2⟩, h2, h⟩ := R.bind_ok.1 h
    cases h
    obtain ⟨ss, hl, ho⟩ := hstep _ _ _ _ _ _ h1
    have hgs := hg l List.mem_cons_self
    have hlen := ho.length_eq
    have hidx := ho.index_lt (le_of_eq hl)
    let B : Nat → List σ := fun k => if l.add = true ∧ r = some k then A k ++ [l.stimulus] else A k
    have key : (∀ k p, ps1[k]? = some p → rel p (B k)) ∧ (∀ k, ps1.length ≤ k → B k = []) := by
      constructor
      · intro k p hk
        show rel p (if l.add = true ∧ r = some k then A k ++ [l.stimulus] else A k)
        generalize hadd : l.add = add at ho
        cases ho with
        | found _ => rw [if_neg (by simp)]; exact hp k p hk
        | unknown _ => rw [if_neg (by simp)]; exact hp k p hk
        | created _ =>
          by_cases hkl : ps.length = k
          · subst hkl
            rw [if_pos ⟨rfl, rfl⟩, hA _ (le_refl _)]
            simp only [List.getElem?_concat_length, Option.some.injEq] at hk
            rw [← hk]; exact hmk _ _ hgs
          · rw [if_neg (by simp [hkl])]
            have hkl' : k < ps.length := by
              have := (List.getElem?_eq_some_iff.1 hk).1
              rw [List.length_append, List.length_singleton] at this
              omega
            rw [List.getElem?_append_left hkl'] at hk
            exact hp k p hk
        | @revised i s q q' hb hq he =>
          by_cases hik : i = k
          · subst hik
            rw [if_pos ⟨rfl, rfl⟩]
            have hi := (List.getElem?_eq_some_iff.1 hq).1
            rw [List.getElem?_set_self hi] at hk
            cases hk
            exact hrev _ _ _ _ _ hgs (hp _ _ hq) he
          · rw [if_neg (by simp [hik])]
            rw [List.getElem?_set_ne hik] at hk
            exact hp k p hk
      · intro k hk
        show (if l.add = true ∧ r = some k then A k ++ [l.stimulus] else A k) = []
        rw [if_neg (by rintro ⟨_, e⟩; have := hidx k e; omega)]
        exact hA k (by omega)
    obtain ⟨e1, e2, e3, e4, e5⟩ := runLooks_assigned step rel good revise mk hstep hmk hrev ls ps1 ps2 rs2 B
      (fun x hx => hg x (List.mem_cons_of_mem _ hx)) h2 key.1 key.2
    refine ⟨by simp [e1], ?_, le_trans hlen.1 e3, ?_, ?_⟩
    · intro k p hk
      have := e2 k p hk
      rw [assigned]
      by_cases hc : l.add = true ∧ r = some k
      · rw [if_pos hc]
        have hB : B k = A k ++ [l.stimulus] := if_pos hc
        rw [hB, List.append_assoc] at this
        exact this
      · rw [if_neg hc]
        have hB : B k = A k := if_neg hc
        rw [hB] at this
        exact this
    · cases ha : l.add with
      | true => rw [ha] at hlen; simp only [List.filter_cons, ha, if_true, List.length_cons] at hlen ⊢; omega
      | false => rw [ha] at hlen; simp only [List.filter_cons, ha] at hlen ⊢; simp at hlen ⊢; omega
    · intro x hx i hi
      rcases List.mem_cons.1 hx with rfl | hx
      · exact lt_of_lt_of_le (hidx i hi) e3
      · exact e5 x hx i hi

end Nar
