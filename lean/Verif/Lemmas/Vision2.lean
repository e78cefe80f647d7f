import Verif.Lemmas.Vision
import Mathlib.Tactic.NormNum
/-! # Lemmas about the classifier over truth values (ModVisionB.rs) -/
namespace Nar
open Tv

/-- the truth value stands for `W` units of evidence, `P` of which are positive -/
structure Ev (tv : Tv) (P W : Rat) : Prop where
  c0 : 0 ≤ tv.c
  c1 : tv.c < 1
  total : wt tv.c = W
  pos : W * tv.f = P

theorem Ev.nonneg {tv : Tv} {P W : Rat} (h : Ev tv P W) : 0 ≤ W := h.total ▸ wt_nonneg h.c0 h.c1

theorem Ev.rev {a b : Tv} {P W P' W' : Rat} (ha : Ev a P W) (hb : Ev b P' W') : ∃ r, Tv.rev a b = some r ∧ Ev r (P + P') (W + W') := by
  have h1 := ha.nonneg
  have h2 := hb.nonneg
  have hw : 0 ≤ W + W' := by linarith
  refine ⟨_, rev_eq ha.c1 hb.c1, ?_⟩
  rw [ha.total, hb.total]
  refine ⟨w2c_nonneg hw, w2c_lt_one hw, wt_w2c hw, ?_⟩
  dsimp only
  rw [ha.pos, hb.pos]
  by_cases hp : W + W' > 0
  · rw [if_pos hp]; field_simp
  · rw [if_neg hp]
    have e1 : W = 0 := by linarith
    have e2 : W' = 0 := by linarith
    have p1 := ha.pos; have p2 := hb.pos
    rw [e1] at p1; rw [e2] at p2
    rw [← p1, ← p2]; ring

theorem Ev.exp {tv : Tv} {P W : Rat} (h : Ev tv P W) : calcExp tv = 1 / 2 + (P - W / 2) / (W + 1) := by
  have h0 := h.nonneg
  have hc : tv.c = W / (W + 1) := by rw [← w2c_wt h.c1, h.total]; rfl
  unfold calcExp
  rw [← h.pos, hc]
  have : W + 1 ≠ 0 := by linarith
  field_simp
  ring

theorem ev_zero : Ev ⟨0, 0⟩ 0 0 := ⟨le_refl _, by norm_num, by unfold wt; norm_num, by norm_num⟩

theorem fold_ev (pos tot : Tv → Rat) : ∀ (l : List Tv) (a : Tv) (P W : Rat), Ev a P W → (∀ x ∈ l, Ev x (pos x) (tot x)) →
    ∃ r, l.foldlM Tv.rev a = some r ∧ Ev r (P + (l.map pos).sum) (W + (l.map tot).sum)
  | [], a, P, W, h, _ => ⟨a, rfl, by simpa using h⟩
  | x :: l, a, P, W, h, hl => by
    obtain ⟨r, hr, he⟩ := h.rev (hl x List.mem_cons_self)
    obtain ⟨r', hr', he'⟩ := fold_ev pos tot l r _ _ he (fun y hy => hl y (List.mem_cons_of_mem _ hy))
    refine ⟨r', by rw [List.foldlM_cons, hr]; exact hr', ?_⟩
    simp only [List.map_cons, List.sum_cons]
    rw [← add_assoc, ← add_assoc]; exact he'

theorem comp_ev {a b : Tv} (ha : Sane a) (hb : Sane b) : Ev (comp a b) (cmpPos a b) (cmpTotal a b) := by
  obtain ⟨h1, h2, h3, h4⟩ := ha
  obtain ⟨g1, g2, g3, g4⟩ := hb
  obtain ⟨o0, o1, o2⟩ := or_range h1 h2 g1 g2
  have w0 : 0 ≤ or a.f b.f * a.c * b.c := by positivity
  have ho : 1 - (1 - a.f) * (1 - b.f) = or a.f b.f := rfl
  have hfa : fabs (or a.f b.f) = or a.f b.f := by unfold fabs; rw [if_neg (not_lt.2 o0)]
  unfold comp cmpPos cmpTotal
  dsimp only
  rw [ho, hfa]
  refine ⟨w2c_nonneg w0, w2c_lt_one w0, wt_w2c w0, ?_⟩
  dsimp only
  by_cases hc : or a.f b.f < 1 / 100000000
  · rw [if_pos hc, if_pos hc]; ring
  · rw [if_neg hc, if_neg hc]
    have : or a.f b.f ≠ 0 := by intro e; rw [e] at hc; norm_num at hc
    field_simp

/-- all truth values of a list of channels have confidence below one -/
def AllSane (s : List (List Tv)) : Prop := ∀ ch ∈ s, ∀ tv ∈ ch, Sane tv

theorem chan_ev : ∀ (x y : List Tv) (a : Tv) (P W : Rat), Ev a P W → (∀ tv ∈ x, Sane tv) → (∀ tv ∈ y, Sane tv) →
    ∃ r, (compVec x y).foldlM Tv.rev a = some r ∧
      Ev r (P + ((List.zip x y).map fun z => cmpPos z.1 z.2).sum) (W + ((List.zip x y).map fun z => cmpTotal z.1 z.2).sum)
  | [], y, a, P, W, h, _, _ => ⟨a, rfl, by simpa using h⟩
  | x :: xs, [], a, P, W, h, _, _ => ⟨a, rfl, by simpa using h⟩
  | x :: xs, y :: ys, a, P, W, h, hx, hy => by
    obtain ⟨r, hr, he⟩ := h.rev (comp_ev (hx x List.mem_cons_self) (hy y List.mem_cons_self))
    obtain ⟨r', hr', he'⟩ := chan_ev xs ys r _ _ he (fun z hz => hx z (List.mem_cons_of_mem _ hz))
      (fun z hz => hy z (List.mem_cons_of_mem _ hz))
    refine ⟨r', ?_, ?_⟩
    · show List.foldlM Tv.rev a (comp x y :: compVec xs ys) = _
      rw [List.foldlM_cons, hr]; exact hr'
    · simp only [List.zip_cons_cons, List.map_cons, List.sum_cons]
      rw [← add_assoc, ← add_assoc]; exact he'

/-- loops over indices are loops over pairs -/
theorem range_fold_zip {α β γ : Type} (f : γ → α → β → R γ) : ∀ (s : List α) (q : List β) (b : γ), s.length ≤ q.length →
    (List.range s.length).foldlM (fun b i => do
      let x ← indexAt s i
      let y ← indexAt q i
      f b x y) b = (List.zip s q).foldlM (fun b z => f b z.1 z.2) b
  | [], q, b, _ => rfl
  | x :: s, [], b, h => by simp at h
  | x :: s, y :: q, b, h => by
    rw [List.length_cons, List.range_succ_eq_map, List.foldlM_cons, List.zip_cons_cons, List.foldlM_cons]
    have h0 : (do
      let x' ← indexAt (x :: s) 0
      let y' ← indexAt (y :: q) 0
      f b x' y' : R γ) = f b x y := rfl
    rw [h0]
    cases f b x y with
    | error e => rfl
    | ok b' =>
      show List.foldlM _ b' (List.map Nat.succ (List.range s.length)) = List.foldlM _ b' _
      rw [List.foldlM_map]
      exact range_fold_zip f s q b' (by simpa using h)

theorem range_map_zip {α β γ : Type} (f : α → β → R γ) : ∀ (s : List α) (q : List β), s.length ≤ q.length →
    (List.range s.length).mapM (fun i => do
      let x ← indexAt s i
      let y ← indexAt q i
      f x y) = (List.zip s q).mapM (fun z => f z.1 z.2)
  | [], q, _ => rfl
  | x :: s, [], h => by simp at h
  | x :: s, y :: q, h => by
    rw [List.length_cons, List.range_succ_eq_map, List.mapM_cons, List.zip_cons_cons, List.mapM_cons, List.mapM_map]
    have := range_map_zip f s q (by simpa using h)
    show (f x y >>= fun a => (List.mapM (fun i => do
      let x ← indexAt s i
      let y ← indexAt q i
      f x y) (List.range s.length)) >>= fun r => pure (a :: r)) = _
    rw [this]

theorem simFold_ev : ∀ (l : List (List Tv × List Tv)) (a : Tv) (P W : Rat), Ev a P W →
    (∀ z ∈ l, (∀ tv ∈ z.1, Sane tv) ∧ ∀ tv ∈ z.2, Sane tv) →
    ∃ r, l.foldlM (m := R) (fun tv z => do
        let t ← nanOf (foldVec (compVec z.1 z.2))
        nanOf (Tv.rev tv t)) a = .ok r ∧
      Ev r (P + (l.map fun x => ((List.zip x.1 x.2).map fun y => cmpPos y.1 y.2).sum).sum)
        (W + (l.map fun x => ((List.zip x.1 x.2).map fun y => cmpTotal y.1 y.2).sum).sum)
  | [], a, P, W, h, _ => ⟨a, rfl, by simpa using h⟩
  | z :: l, a, P, W, h, hl => by
    obtain ⟨h1, h2⟩ := hl z List.mem_cons_self
    obtain ⟨t, ht, et⟩ := chan_ev z.1 z.2 _ _ _ ev_zero h1 h2
    rw [zero_add, zero_add] at et
    obtain ⟨r, hr, er⟩ := h.rev et
    obtain ⟨r', hr', er'⟩ := simFold_ev l r _ _ er (fun y hy => hl y (List.mem_cons_of_mem _ hy))
    refine ⟨r', ?_, ?_⟩
    · rw [List.foldlM_cons]
      have hf : foldVec (compVec z.1 z.2) = some t := ht
      simp only [hf, nanOf, hr, bind, Except.bind]
      exact hr'
    · simp only [List.map_cons, List.sum_cons]
      rw [← add_assoc, ← add_assoc]; exact er'

theorem simB_eq {s : List (List Tv)} {p : ProtoB} (hl : s.length ≤ p.channels.length) (hs : AllSane s) (hp : AllSane p.channels) :
    simB s p = .ok (1 / 2 + (sumPairs cmpPos s p.channels - sumPairs cmpTotal s p.channels / 2) / (sumPairs cmpTotal s p.channels + 1)) := by
  obtain ⟨r, hr, er⟩ := simFold_ev (List.zip s p.channels) _ _ _ ev_zero (fun z hz =>
    ⟨hs z.1 (List.of_mem_zip hz).1, hp z.2 (List.of_mem_zip hz).2⟩)
  rw [zero_add, zero_add] at er
  unfold simB
  rw [range_fold_zip (fun tv s c => do
    let t ← nanOf (foldVec (compVec s c))
    nanOf (Tv.rev tv t)) s p.channels _ hl, hr]
  show Except.ok (calcExp r) = _
  rw [er.exp]; rfl

theorem cmpTotal_nonneg {a b : Tv} (ha : Sane a) (hb : Sane b) : 0 ≤ cmpTotal a b := (comp_ev ha hb).nonneg

theorem sum_nonneg' : ∀ (l : List Rat), (∀ x ∈ l, 0 ≤ x) → 0 ≤ l.sum
  | [], _ => le_refl _
  | x :: l, h => by
    rw [List.sum_cons]
    have := sum_nonneg' l (fun y hy => h y (List.mem_cons_of_mem _ hy))
    have := h x List.mem_cons_self
    linarith

theorem sumPairs_total_nonneg {s q : List (List Tv)} (hs : AllSane s) (hq : AllSane q) : 0 ≤ sumPairs cmpTotal s q := by
  unfold sumPairs
  apply sum_nonneg'
  intro x hx
  obtain ⟨z, hz, rfl⟩ := List.mem_map.1 hx
  apply sum_nonneg'
  intro y hy
  obtain ⟨w, hw, rfl⟩ := List.mem_map.1 hy
  exact cmpTotal_nonneg (hs _ (List.of_mem_zip hz).1 _ (List.of_mem_zip hw).1) (hq _ (List.of_mem_zip hz).2 _ (List.of_mem_zip hw).2)

theorem half_le_iff {P W : Rat} (hW : 0 ≤ W) : 1 / 2 ≤ 1 / 2 + (P - W / 2) / (W + 1) ↔ W ≤ 2 * P := by
  have h1 : (0 : Rat) < W + 1 := by linarith
  constructor
  · intro h
    have : 0 ≤ (P - W / 2) / (W + 1) := by linarith
    rw [le_div_iff₀ h1] at this
    linarith
  · intro h
    have : 0 ≤ (P - W / 2) / (W + 1) := div_nonneg (by linarith) h1.le
    linarith

theorem cmp_crisp {a : Tv} (h : a.f = 0 ∨ a.f = 1) : cmpTotal a a ≤ 2 * cmpPos a a := by
  unfold cmpTotal cmpPos
  rcases h with h | h <;> rw [h] <;> norm_num
  nlinarith

theorem sumPairs_crisp : ∀ (s : List (List Tv)), AllSane s → Crisp s → sumPairs cmpTotal s s ≤ 2 * sumPairs cmpPos s s := by
  have chan : ∀ x : List Tv, (∀ tv ∈ x, Sane tv) → (∀ tv ∈ x, tv.f = 0 ∨ tv.f = 1) →
      ((List.zip x x).map fun y => cmpTotal y.1 y.2).sum ≤ 2 * ((List.zip x x).map fun y => cmpPos y.1 y.2).sum := by
    intro x
    induction x with
    | nil => intro _ _; simp
    | cons a x ih =>
      intro h1 h2
      simp only [List.zip_cons_cons, List.map_cons, List.sum_cons]
      have := ih (fun z hz => h1 z (List.mem_cons_of_mem _ hz)) (fun z hz => h2 z (List.mem_cons_of_mem _ hz))
      have := cmp_crisp (h2 a List.mem_cons_self)
      linarith
  intro s
  induction s with
  | nil => intro _ _; simp [sumPairs]
  | cons x s ih =>
    intro h1 h2
    have e1 := ih (fun z hz => h1 z (List.mem_cons_of_mem _ hz)) (fun z hz => h2 z (List.mem_cons_of_mem _ hz))
    have e2 := chan x (h1 x List.mem_cons_self) (h2 x List.mem_cons_self)
    unfold sumPairs at e1 ⊢
    simp only [List.zip_cons_cons, List.map_cons, List.sum_cons]
    linarith

/-! ## Revision -/

theorem revVec_spec : ∀ (c s : List Tv), (∀ tv ∈ c, Sane tv) → (∀ tv ∈ s, Sane tv) → c.length = s.length →
    ∃ r, revVec c s = some r ∧ r.length = c.length ∧ (∀ tv ∈ r, Sane tv) ∧
      ∀ (j : Nat) (tv : Tv), r[j]? = some tv → ∃ a b, c[j]? = some a ∧ s[j]? = some b ∧ Tv.rev a b = some tv
  | [], [], _, _, _ => ⟨[], rfl, rfl, by simp, by simp⟩
  | [], _ :: _, _, _, h => by simp at h
  | _ :: _, [], _, _, h => by simp at h
  | a :: c, b :: s, hc, hs, hl => by
    obtain ⟨t, ht, st⟩ := rev_sane (hc a List.mem_cons_self) (hs b List.mem_cons_self)
    obtain ⟨r, hr, lr, sr, jr⟩ := revVec_spec c s (fun z hz => hc z (List.mem_cons_of_mem _ hz))
      (fun z hz => hs z (List.mem_cons_of_mem _ hz)) (by simpa using hl)
    refine ⟨t :: r, ?_, by simp [lr], ?_, ?_⟩
    · unfold revVec at hr ⊢
      rw [List.zip_cons_cons, List.mapM_cons]
      show (Tv.rev a b >>= _) = _
      rw [ht, hr]; rfl
    · intro z hz
      rcases List.mem_cons.1 hz with rfl | hz
      · exact st
      · exact sr z hz
    · intro j tv hj
      cases j with
      | zero => simp only [List.getElem?_cons_zero, Option.some.injEq] at hj; subst hj; exact ⟨a, b, rfl, rfl, ht⟩
      | succ j => simpa using jr j tv (by simpa using hj)

theorem revChannels_spec : ∀ (q s : List (List Tv)), AllSane q → AllSane s → q.map List.length = s.map List.length →
    ∃ r, (List.zip q s).mapM (m := R) (fun z => nanOf (revVec z.1 z.2)) = .ok r ∧ r.map List.length = q.map List.length ∧ AllSane r ∧
      ∀ i j tv, entry r i j = some tv → ∃ a b, entry q i j = some a ∧ entry s i j = some b ∧ Tv.rev a b = some tv
  | [], [], _, _, _ => ⟨[], rfl, rfl, by intro c hc; simp at hc, by intro i j tv h; simp [entry] at h⟩
  | [], _ :: _, _, _, h => by simp at h
  | _ :: _, [], _, _, h => by simp at h
  | x :: q, y :: s, hq, hs, hl => by
    simp only [List.map_cons, List.cons.injEq] at hl
    obtain ⟨r, hr, lr, sr, jr⟩ := revVec_spec x y (hq x List.mem_cons_self) (hs y List.mem_cons_self) hl.1
    obtain ⟨rr, hrr, lrr, srr, jrr⟩ := revChannels_spec q s (fun z hz => hq z (List.mem_cons_of_mem _ hz))
      (fun z hz => hs z (List.mem_cons_of_mem _ hz)) hl.2
    refine ⟨r :: rr, ?_, by simp [lr, lrr], ?_, ?_⟩
    · rw [List.zip_cons_cons, List.mapM_cons, hrr, hr]; rfl
    · intro z hz
      rcases List.mem_cons.1 hz with rfl | hz
      · exact sr
      · exact srr z hz
    · intro i j tv h
      cases i with
      | zero => exact jr j tv h
      | succ i => exact jrr i j tv h

theorem evPos_eq (tv : Tv) : evPos tv = wt tv.c * tv.f := rfl
theorem evTotal_eq (tv : Tv) : evTotal tv = wt tv.c := rfl

theorem sane_ev {tv : Tv} (h : Sane tv) : Ev tv (evPos tv) (evTotal tv) := ⟨h.2.2.1, h.2.2.2, rfl, rfl⟩

/-- a prototype and the stimuli it was learned from -/
structure RelB (shape : List Nat) (p : ProtoB) (l : List (List (List Tv))) : Prop where
  shape : p.channels.map List.length = shape
  sane : AllSane p.channels
  total : ∀ i j tv, entry p.channels i j = some tv → evTotal tv = sumEntry evTotal l i j
  pos : ∀ i j tv, entry p.channels i j = some tv → evPos tv = sumEntry evPos l i j

theorem relB_new {shape : List Nat} {s : List (List Tv)} (h : SaneStim shape s) (t : Int) : RelB shape ⟨s, t⟩ [s] := by
  refine ⟨h.1, h.2, ?_, ?_⟩ <;>
  · intro i j tv he
    simp only [sumEntry, List.map_cons, List.map_nil, List.sum_cons, List.sum_nil, add_zero]
    have he' : entry s i j = some tv := he
    rw [he']

theorem reviseB_spec {p : ProtoB} {s : List (List Tv)} (hp : AllSane p.channels) (hs : AllSane s)
    (hl : p.channels.map List.length = s.map List.length) (t : Int) :
    ∃ r, reviseB p s t = .ok ⟨r, t⟩ ∧ r.map List.length = p.channels.map List.length ∧ AllSane r ∧
      ∀ i j tv, entry r i j = some tv → ∃ a b, entry p.channels i j = some a ∧ entry s i j = some b ∧ Tv.rev a b = some tv := by
  obtain ⟨r, hr, lr, sr, jr⟩ := revChannels_spec p.channels s hp hs hl
  refine ⟨r, ?_, lr, sr, jr⟩
  unfold reviseB
  have hlen : p.channels.length ≤ s.length := by
    have := congrArg List.length hl
    simp only [List.length_map] at this
    omega
  rw [range_map_zip (fun c s => nanOf (revVec c s)) _ _ hlen, hr]
  rfl

theorem entry_sane {s : List (List Tv)} (h : AllSane s) {i j : Nat} {tv : Tv} (he : entry s i j = some tv) : Sane tv := by
  unfold entry at he
  obtain ⟨ch, h1, h2⟩ := Option.bind_eq_some_iff.1 he
  exact h ch (List.mem_of_getElem? h1) tv (List.mem_of_getElem? h2)

theorem relB_revise {shape : List Nat} {s : List (List Tv)} {t : Int} {p p' : ProtoB} {l : List (List (List Tv))}
    (hs : SaneStim shape s) (h : RelB shape p l) (hr : reviseB p s t = .ok p') : RelB shape p' (l ++ [s]) := by
  obtain ⟨r, e, lr, sr, jr⟩ := reviseB_spec h.sane hs.2 (h.shape.trans hs.1.symm) t
  rw [e] at hr
  cases hr
  have key : ∀ i j tv, entry r i j = some tv → evTotal tv = sumEntry evTotal (l ++ [s]) i j ∧ evPos tv = sumEntry evPos (l ++ [s]) i j := by
    intro i j tv he
    obtain ⟨a, b, ha, hb, hrev⟩ := jr i j tv he
    obtain ⟨tv', htv, hev⟩ := (sane_ev (entry_sane h.sane ha)).rev (sane_ev (entry_sane hs.2 hb))
    rw [hrev] at htv
    cases htv
    have e1 := h.total i j a ha
    have e2 := h.pos i j a ha
    simp only [sumEntry, List.map_append, List.sum_append, List.map_cons, List.map_nil, List.sum_cons, List.sum_nil, add_zero, hb] at *
    have e3 : evTotal tv = evTotal a + evTotal b := hev.total
    refine ⟨by rw [e3, e1], ?_⟩
    have e4 : evPos tv = evPos a + evPos b := by rw [evPos_eq, hev.total]; exact hev.pos
    rw [e4, e2]
  exact ⟨lr.trans h.shape, sr, fun i j tv he => (key i j tv he).1, fun i j tv he => (key i j tv he).2⟩

/-- everything known has the shape and is sane -/
theorem runB_total {shape : List Nat} : ∀ (looks : List (Look (List (List Tv)))) (ps : List ProtoB),
    (∀ l ∈ looks, SaneStim shape l.stimulus) → (∀ p ∈ ps, SaneStim shape p.channels) →
    ∃ ps' rs, runLooks classifyB ps looks = .ok (ps', rs)
  | [], ps, _, _ => ⟨ps, [], rfl⟩
  | l :: ls, ps, hl, hp => by
    have hs := hl l List.mem_cons_self
    have hlen : ∀ p ∈ ps, l.stimulus.length = p.channels.length := by
      intro p hpm
      have := congrArg List.length (hs.1.trans (hp p hpm).1.symm)
      simpa using this
    have hsims : ∃ ss, simsB l.stimulus ps = .ok ss := by
      unfold simsB
      have : ∀ p ∈ ps, ∃ v, simB l.stimulus p = .ok v := fun p hpm => ⟨_, simB_eq (le_of_eq (hlen p hpm)) hs.2 (hp p hpm).2⟩
      clear hp hlen
      induction ps with
      | nil => exact ⟨[], rfl⟩
      | cons p ps ih =>
        obtain ⟨v, hv⟩ := this p List.mem_cons_self
        obtain ⟨vs, hvs⟩ := ih (fun q hq => this q (List.mem_cons_of_mem _ hq))
        exact ⟨v :: vs, by rw [List.mapM_cons, hv, hvs]; rfl⟩
    obtain ⟨ss, hss⟩ := hsims
    have hrev : ∀ p ∈ ps, ∃ p', reviseB p l.stimulus l.time = .ok p' := fun p hpm => by
      obtain ⟨r, e, _⟩ := reviseB_spec (hp p hpm).2 hs.2 ((hp p hpm).1.trans hs.1.symm) l.time
      exact ⟨_, e⟩
    obtain ⟨ps1, r, h1⟩ := classifyG_total (mk := (⟨l.stimulus, l.time⟩ : ProtoB)) l.add hss (le_of_eq (simsB_length hss)) hrev
    obtain ⟨_, _, ho⟩ := classifyG_ok h1
    have hp1 : ∀ p ∈ ps1, SaneStim shape p.channels := ho.forall (Q := fun p => SaneStim shape p.channels) hp hs (by
      intro p p' hq he
      obtain ⟨r, e, lr, sr, _⟩ := reviseB_spec hq.2 hs.2 (hq.1.trans hs.1.symm) l.time
      rw [e] at he; cases he
      exact ⟨lr.trans hq.1, sr⟩)
    obtain ⟨ps2, rs, h2⟩ := runB_total ls ps1 (fun x hx => hl x (List.mem_cons_of_mem _ hx)) hp1
    refine ⟨ps2, r :: rs, ?_⟩
    rw [runLooks, classifyB_eq, h1]
    simp only [bind, Except.bind, h2]

/-! ## Quantisation -/

theorem quantisize_range {v : Rat} {n : Int} (hn : 1 ≤ n) (h0 : 0 ≤ v) (h1 : v ≤ 1) : 0 ≤ quantisize v n ∧ quantisize v n < n := by
  have hn' : (0 : Rat) ≤ (n : Rat) - 1 := by have : (1 : Rat) ≤ (n : Rat) := by exact_mod_cast hn
                                             linarith
  have hx : 0 ≤ v * ((n : Rat) - 1) := mul_nonneg h0 hn'
  unfold quantisize
  dsimp only
  rw [if_pos hx]
  refine ⟨Rat.le_floor_iff.2 (by simpa using hx), ?_⟩
  have : (((v * ((n : Rat) - 1)).floor : Int) : Rat) ≤ ((n - 1 : Int) : Rat) := by
    refine le_trans (Rat.floor_le _) ?_
    push_cast
    nlinarith
  have : (v * ((n : Rat) - 1)).floor ≤ n - 1 := by exact_mod_cast this
  omega

theorem vecOf_ok {α : Type} (v : α) {n : Int} (h : 0 ≤ n) : vecOf v n = .ok (List.replicate n.toNat v) := by
  unfold vecOf; rw [if_neg (by omega)]

theorem convToTvVec_eq {v : Rat} {n : Int} {conf : Rat} (hn : 0 ≤ n) (h0 : 0 ≤ quantisize v n) (h1 : quantisize v n < n) :
    convToTvVec v n conf = .ok ((List.replicate n.toNat ⟨0, conf⟩).set (quantisize v n).toNat ⟨1, conf⟩) := by
  unfold convToTvVec
  rw [vecOf_ok _ hn]
  simp only [bind, Except.bind]
  rw [if_neg (by omega), if_pos (by rw [List.length_replicate]; omega)]

theorem convToTvVec_err {v : Rat} {n : Int} {conf : Rat} (h : n < 0 ∨ quantisize v n < 0 ∨ n ≤ quantisize v n) :
    ∃ e, convToTvVec v n conf = .error e := by
  unfold convToTvVec
  by_cases hn : n < 0
  · exact ⟨.explicit, by unfold vecOf; rw [if_pos hn]; rfl⟩
  · rw [vecOf_ok _ (by omega)]
    simp only [bind, Except.bind]
    by_cases hq : quantisize v n < 0
    · exact ⟨.index, by rw [if_pos hq]⟩
    · exact ⟨.index, by rw [if_neg hq, if_neg (by rw [List.length_replicate]; omega)]⟩

end Nar
