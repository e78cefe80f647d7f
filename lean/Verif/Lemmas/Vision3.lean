import Verif.Lemmas.Vision2
import Verif.Props.Map2d
/-! # Lemmas about images, the classifier over maps (ModVisionD.rs) and convolution (ModVisionC.rs) -/
namespace Nar
open Tv

/-! ## Images as truth values -/

theorem readAt_pix {m : Map2d Rat} (hm : m.WF) (y x : Int) : readAt m y x = .ok (pix m y x) := by
  obtain ⟨v, hv⟩ := readAt_total hm y x
  unfold pix; rw [hv]

theorem pix_out (m : Map2d Rat) {y x : Int} (h : ¬ m.Has y x) : pix m y x = 0 := by
  unfold pix; rw [readAt_out m h]; rfl

/-- the vector with one feature present -/
def oneHot (n : Nat) (q : Nat) (conf : Rat) : List Tv := (List.replicate n ⟨0, conf⟩).set q ⟨1, conf⟩

theorem oneHot_length (n q : Nat) (conf : Rat) : (oneHot n q conf).length = n := by simp [oneHot]

theorem mem_oneHot {n q : Nat} {conf : Rat} {tv : Tv} (h : tv ∈ oneHot n q conf) : tv = ⟨0, conf⟩ ∨ tv = ⟨1, conf⟩ := by
  rcases List.mem_or_eq_of_mem_set h with h | h
  · exact Or.inl (List.eq_of_mem_replicate h)
  · exact Or.inr h

theorem zip_zero (g : Tv → Tv → Rat) (z : Tv) (h : g z z = 0) : ∀ n,
    ((List.zip (List.replicate n z) (List.replicate n z)).map fun y => g y.1 y.2).sum = 0
  | 0 => rfl
  | n + 1 => by simp only [List.replicate_succ, List.zip_cons_cons, List.map_cons, List.sum_cons, h, zip_zero g z h n, add_zero]

theorem zip_left (g : Tv → Tv → Rat) (z o : Tv) (h : g z z = 0) : ∀ n q, q < n →
    ((List.zip ((List.replicate n z).set q o) (List.replicate n z)).map fun y => g y.1 y.2).sum = g o z
  | 0, _, hq => by omega
  | n + 1, 0, _ => by simp only [List.replicate_succ, List.set_cons_zero, List.zip_cons_cons, List.map_cons, List.sum_cons, zip_zero g z h n, add_zero]
  | n + 1, q + 1, hq => by
    simp only [List.replicate_succ, List.set_cons_succ, List.zip_cons_cons, List.map_cons, List.sum_cons, h, zero_add]
    exact zip_left g z o h n q (by omega)

theorem zip_right (g : Tv → Tv → Rat) (z o : Tv) (h : g z z = 0) : ∀ n q, q < n →
    ((List.zip (List.replicate n z) ((List.replicate n z).set q o)).map fun y => g y.1 y.2).sum = g z o
  | 0, _, hq => by omega
  | n + 1, 0, _ => by simp only [List.replicate_succ, List.set_cons_zero, List.zip_cons_cons, List.map_cons, List.sum_cons, zip_zero g z h n, add_zero]
  | n + 1, q + 1, hq => by
    simp only [List.replicate_succ, List.set_cons_succ, List.zip_cons_cons, List.map_cons, List.sum_cons, h, zero_add]
    exact zip_right g z o h n q (by omega)

theorem zip_both (g : Tv → Tv → Rat) (z o : Tv) (h : g z z = 0) : ∀ n q r, q < n → r < n →
    ((List.zip ((List.replicate n z).set q o) ((List.replicate n z).set r o)).map fun y => g y.1 y.2).sum =
      if q = r then g o o else g o z + g z o
  | 0, _, _, hq, _ => by omega
  | n + 1, 0, 0, _, _ => by
    simp only [List.replicate_succ, List.set_cons_zero, List.zip_cons_cons, List.map_cons, List.sum_cons, zip_zero g z h n, add_zero, if_true]
  | n + 1, 0, r + 1, _, hr => by
    simp only [List.replicate_succ, List.set_cons_zero, List.set_cons_succ, List.zip_cons_cons, List.map_cons, List.sum_cons]
    rw [zip_right g z o h n r (by omega), if_neg (by omega)]
  | n + 1, q + 1, 0, hq, _ => by
    simp only [List.replicate_succ, List.set_cons_zero, List.set_cons_succ, List.zip_cons_cons, List.map_cons, List.sum_cons]
    rw [zip_left g z o h n q (by omega), if_neg (by omega), add_comm]
  | n + 1, q + 1, r + 1, hq, hr => by
    simp only [List.replicate_succ, List.set_cons_succ, List.zip_cons_cons, List.map_cons, List.sum_cons, h, zero_add]
    rw [zip_both g z o h n q r (by omega) (by omega)]
    simp only [Nat.add_right_cancel_iff]

theorem convImg_eq {m : Map2d Rat} (hm : UnitImage m) {n : Int} (hn : 1 ≤ n) (conf : Rat) :
    convImgToTvVec m n conf =
      .ok ((gridPoints 0 m.h 0 m.w).flatMap fun p => oneHot n.toNat (quantisize (pix m p.1 p.2) n).toNat conf) := by
  have gen : ∀ (l : List (Int × Int)) (acc : List Tv), l.foldlM (fun stimulus (p : Int × Int) => do
      let v ← readAt m p.1 p.2
      let t ← convToTvVec v n conf
      (.ok (stimulus ++ t) : R (List Tv))) acc =
      .ok (acc ++ l.flatMap fun p => oneHot n.toNat (quantisize (pix m p.1 p.2) n).toNat conf) := by
    intro l
    induction l with
    | nil => intro acc; simp [pure, Except.pure]
    | cons p l ih =>
      intro acc
      obtain ⟨h0, h1⟩ := hm.2 p.1 p.2
      obtain ⟨q0, q1⟩ := quantisize_range hn h0 h1
      rw [foldlM_cons_ok]
      refine ⟨acc ++ oneHot n.toNat (quantisize (pix m p.1 p.2) n).toNat conf, ?_, ?_⟩
      · rw [readAt_pix hm.1]
        simp only [bind, Except.bind, convToTvVec_eq (conf := conf) (by omega) q0 q1]
        rfl
      · rw [ih, List.flatMap_cons, List.append_assoc]
  unfold convImgToTvVec
  exact gen _ []

theorem zip_flatMap (g : Tv → Tv → Rat) {γ : Type} (A B : γ → List Tv) (hl : ∀ c, (A c).length = (B c).length) : ∀ l : List γ,
    ((List.zip (l.flatMap A) (l.flatMap B)).map fun y => g y.1 y.2).sum =
      (l.map fun c => ((List.zip (A c) (B c)).map fun y => g y.1 y.2).sum).sum
  | [] => rfl
  | c :: l => by
    rw [List.flatMap_cons, List.flatMap_cons, List.zip_append (hl c), List.map_append, List.sum_append, List.map_cons, List.sum_cons,
      zip_flatMap g A B hl l]

theorem sum_if_count {γ : Type} (p : γ → Bool) (u w : Rat) : ∀ l : List γ,
    (l.map fun c => if p c then u else w).sum = u * l.countP p + w * ((l.length : Rat) - l.countP p)
  | [] => by simp
  | c :: l => by
    rw [List.map_cons, List.sum_cons, sum_if_count p u w l]
    cases h : p c
    · rw [List.countP_cons_of_neg (by simp [h]), List.length_cons]
      push_cast
      ring
    · rw [List.countP_cons_of_pos h, List.length_cons, if_pos rfl]
      push_cast
      ring

theorem cmp_values (conf : Rat) :
    cmpPos ⟨0, conf⟩ ⟨0, conf⟩ = 0 ∧ cmpPos ⟨1, conf⟩ ⟨0, conf⟩ = 0 ∧ cmpPos ⟨0, conf⟩ ⟨1, conf⟩ = 0 ∧
      cmpPos ⟨1, conf⟩ ⟨1, conf⟩ = conf * conf ∧
    cmpTotal ⟨0, conf⟩ ⟨0, conf⟩ = 0 ∧ cmpTotal ⟨1, conf⟩ ⟨0, conf⟩ = conf * conf ∧ cmpTotal ⟨0, conf⟩ ⟨1, conf⟩ = conf * conf ∧
      cmpTotal ⟨1, conf⟩ ⟨1, conf⟩ = conf * conf := by
  unfold cmpPos cmpTotal
  norm_num

theorem quantisize_nonneg {v : Rat} {n : Int} (hn : 1 ≤ n) (h0 : 0 ≤ v) : quantisize v n = (v * ((n : Rat) - 1)).floor := by
  have hn' : (0 : Rat) ≤ (n : Rat) - 1 := by
    have : (1 : Rat) ≤ (n : Rat) := by exact_mod_cast hn
    linarith
  unfold quantisize
  dsimp only
  rw [if_pos (mul_nonneg h0 hn')]

theorem image_sums {a b : Map2d Rat} (ha : UnitImage a) (hb : UnitImage b) (hw : a.w = b.w) (hh : a.h = b.h) {n : Int} (hn : 1 ≤ n)
    (conf : Rat) :
    ∃ u v, convImgToTvVec a n conf = .ok u ∧ convImgToTvVec b n conf = .ok v ∧
      (∀ tv ∈ u, tv = ⟨0, conf⟩ ∨ tv = ⟨1, conf⟩) ∧ (∀ tv ∈ v, tv = ⟨0, conf⟩ ∨ tv = ⟨1, conf⟩) ∧
      sumPairs cmpPos [u] [v] = conf * conf * sameLevel n a b ∧
      sumPairs cmpTotal [u] [v] = conf * conf * (2 * ((gridPoints 0 a.h 0 a.w).length : Rat) - sameLevel n a b) := by
  have e2 := convImg_eq hb hn conf
  rw [← hw, ← hh] at e2
  refine ⟨_, _, convImg_eq ha hn conf, e2, ?_, ?_, ?_, ?_⟩
  · intro tv h
    obtain ⟨p, _, h⟩ := List.mem_flatMap.1 h
    exact mem_oneHot h
  · intro tv h
    obtain ⟨p, _, h⟩ := List.mem_flatMap.1 h
    exact mem_oneHot h
  all_goals
    obtain ⟨c1, c2, c3, c4, d1, d2, d3, d4⟩ := cmp_values conf
    simp only [sumPairs, List.zip_cons_cons, List.zip_nil_right, List.map_cons, List.map_nil, List.sum_cons, List.sum_nil, add_zero]
    rw [zip_flatMap _ _ _ (by intro c; rw [oneHot_length, oneHot_length])]
  · have key : ∀ p : Int × Int, ((List.zip (oneHot n.toNat (quantisize (pix a p.1 p.2) n).toNat conf)
        (oneHot n.toNat (quantisize (pix b p.1 p.2) n).toNat conf)).map fun y => cmpPos y.1 y.2).sum =
        if decide ((pix a p.1 p.2 * ((n : Rat) - 1)).floor = (pix b p.1 p.2 * ((n : Rat) - 1)).floor) = true then conf * conf else 0 := by
      intro p
      obtain ⟨q0, q1⟩ := quantisize_range hn (ha.2 p.1 p.2).1 (ha.2 p.1 p.2).2
      obtain ⟨r0, r1⟩ := quantisize_range hn (hb.2 p.1 p.2).1 (hb.2 p.1 p.2).2
      rw [oneHot, oneHot, zip_both _ _ _ c1 _ _ _ (by omega) (by omega), c4, c2, c3]
      rw [← quantisize_nonneg hn (ha.2 p.1 p.2).1, ← quantisize_nonneg hn (hb.2 p.1 p.2).1]
      by_cases e : quantisize (pix a p.1 p.2) n = quantisize (pix b p.1 p.2) n
      · rw [if_pos (by rw [e]), if_pos (by simpa using e)]
      · rw [if_neg (by omega), if_neg (by simpa using e), add_zero]
    simp only [key]
    rw [sum_if_count]
    unfold sameLevel
    ring
  · have key : ∀ p : Int × Int, ((List.zip (oneHot n.toNat (quantisize (pix a p.1 p.2) n).toNat conf)
        (oneHot n.toNat (quantisize (pix b p.1 p.2) n).toNat conf)).map fun y => cmpTotal y.1 y.2).sum =
        if decide ((pix a p.1 p.2 * ((n : Rat) - 1)).floor = (pix b p.1 p.2 * ((n : Rat) - 1)).floor) = true then conf * conf
        else conf * conf + conf * conf := by
      intro p
      obtain ⟨q0, q1⟩ := quantisize_range hn (ha.2 p.1 p.2).1 (ha.2 p.1 p.2).2
      obtain ⟨r0, r1⟩ := quantisize_range hn (hb.2 p.1 p.2).1 (hb.2 p.1 p.2).2
      rw [oneHot, oneHot, zip_both _ _ _ d1 _ _ _ (by omega) (by omega), d4, d2, d3]
      rw [← quantisize_nonneg hn (ha.2 p.1 p.2).1, ← quantisize_nonneg hn (hb.2 p.1 p.2).1]
      by_cases e : quantisize (pix a p.1 p.2) n = quantisize (pix b p.1 p.2) n
      · rw [if_pos (by rw [e]), if_pos (by simpa using e)]
      · rw [if_neg (by omega), if_neg (by simpa using e)]
    simp only [key]
    rw [sum_if_count]
    unfold sameLevel
    ring

theorem intRange_length (a b : Int) : (intRange a b).length = (b - a).toNat := by simp [intRange]

theorem gridPoints_length (y0 y1 x0 x1 : Int) : (gridPoints y0 y1 x0 x1).length = (y1 - y0).toNat * (x1 - x0).toNat := by
  unfold gridPoints
  rw [List.length_flatMap]
  simp only [List.length_map, intRange_length]
  rw [List.map_const', List.sum_replicate, intRange_length]
  rfl

/-! ## The classifier over maps -/

theorem sumFold {γ : Type} (g : γ → R Rat) (val : γ → Rat) : ∀ (l : List γ) (b : Rat), (∀ c ∈ l, g c = .ok (val c)) →
    l.foldlM (m := R) (fun b c => do let v ← g c; .ok (b + v)) b = .ok (b + (l.map val).sum)
  | [], b, _ => by simp [pure, Except.pure]
  | c :: l, b, h => by
    rw [foldlM_cons_ok]
    refine ⟨b + val c, by rw [h c List.mem_cons_self]; rfl, ?_⟩
    rw [sumFold g val l _ (fun x hx => h x (List.mem_cons_of_mem _ hx)), List.map_cons, List.sum_cons, add_assoc]

theorem distPow2_eq {m : Map2d Rat} (hm : m.WF) :
    distPow2 m = .ok (((gridPoints 0 m.h 0 m.w).map fun p => pix m p.1 p.2 * pix m p.1 p.2).sum) := by
  have := sumFold (fun p : Int × Int => (.ok (pix m p.1 p.2 * pix m p.1 p.2) : R Rat)) (fun p => pix m p.1 p.2 * pix m p.1 p.2)
    (gridPoints 0 m.h 0 m.w) 0 (fun _ _ => rfl)
  rw [zero_add] at this
  rw [← this]
  unfold distPow2
  apply foldlM_congr_mem
  rintro b ⟨y, x⟩ _
  dsimp only
  rw [readAt_pix hm]; rfl

theorem readAt_pix_iff {m : Map2d Rat} {y x : Int} {v : Rat} (h : readAt m y x = .ok v) : pix m y x = v := by
  unfold pix; rw [h]

theorem chanDist_eq {s c : Map2d Rat} (hs : s.WF) (hc : c.WF) {e : Int} (he : e ≠ 0) :
    (do let m ← mapDiv c e; let d ← mapSub s m; distPow2 d : R Rat) =
      .ok (((gridPoints 0 s.h 0 s.w).map fun q => (pix s q.1 q.2 - pix c q.1 q.2 / e) ^ 2).sum) := by
  obtain ⟨m, h1, h2, h3, h4, h5⟩ := Props.C44_div c hc (e : Rat) (by exact_mod_cast he)
  obtain ⟨d, k1, k2, k3, k4, k5⟩ := Props.C44_sub s m hs h2
  simp only [bind, Except.bind, h1, k1]
  rw [distPow2_eq k2, k3, k4]
  congr 2
  apply List.map_congr_left
  rintro ⟨y, x⟩ hmem
  rw [mem_gridPoints] at hmem
  obtain ⟨u, v, e1, e2, e3⟩ := k5 y x ⟨hmem.1.1, hmem.1.2, hmem.2.1, hmem.2.2⟩
  obtain ⟨u', f1, f2⟩ := h5 y x
  rw [f2] at e2
  cases e2
  rw [readAt_pix_iff e1, readAt_pix_iff f1, readAt_pix_iff e3]
  ring

theorem distD_eq {shape : List (Int × Int)} {s : List (Map2d Rat)} {p : ProtoD} (hs : MapStim shape s) (hp : MapStim shape p.channels)
    (he : p.evidence ≠ 0) : distD s p = .ok (meanDist s p) := by
  have hsh : s.map (fun m => (m.w, m.h)) = p.channels.map (fun m => (m.w, m.h)) := hs.1.trans hp.1.symm
  have hlen : s.length ≤ p.channels.length := by
    have := congrArg List.length hsh
    simp only [List.length_map] at this
    omega
  unfold distD
  have e0 : (List.range s.length).foldlM (m := R) (fun dist i => do
      let c ← indexAt p.channels i
      let m ← mapDiv c p.evidence
      let s ← indexAt s i
      let d ← mapSub s m
      let x ← distPow2 d
      .ok (dist + x)) (0 : Rat) = (List.range s.length).foldlM (m := R) (fun dist i => do
        let s ← indexAt s i
        let c ← indexAt p.channels i
        (do let v ← (do let m ← mapDiv c p.evidence; let d ← mapSub s m; distPow2 d : R Rat); .ok (dist + v) : R Rat)) 0 := by
    apply foldlM_congr_mem
    intro b i hi
    rw [List.mem_range] at hi
    have hc : i < p.channels.length := by omega
    simp only [bind, Except.bind, indexAt_lt hi, indexAt_lt hc]
    cases mapDiv p.channels[i] (p.evidence : Rat) with
    | error e => rfl
    | ok m =>
      dsimp only
      cases mapSub s[i] m with
      | error e => rfl
      | ok d => rfl
  rw [e0, range_fold_zip (fun dist s c => do
    let v ← (do let m ← mapDiv c p.evidence; let d ← mapSub s m; distPow2 d : R Rat); .ok (dist + v)) s p.channels 0 hlen,
    sumFold (fun z : Map2d Rat × Map2d Rat => (do let m ← mapDiv z.2 p.evidence; let d ← mapSub z.1 m; distPow2 d : R Rat))
      (fun z => ((gridPoints 0 z.1.h 0 z.1.w).map fun q => (pix z.1 q.1 q.2 - pix z.2 q.1 q.2 / p.evidence) ^ 2).sum)]
  · rw [zero_add]; rfl
  · intro z hz
    exact chanDist_eq (hs.2 _ (List.of_mem_zip hz).1) (hp.2 _ (List.of_mem_zip hz).2) he

theorem mapAdd_pix {a b : Map2d Rat} (ha : a.WF) (hb : b.WF) (hw : a.w = b.w) (hh : a.h = b.h) :
    ∃ c, mapAdd a b = .ok c ∧ c.WF ∧ c.w = a.w ∧ c.h = a.h ∧ ∀ y x, pix c y x = pix a y x + pix b y x := by
  obtain ⟨c, h1, h2, h3, h4, h5⟩ := Props.C44_add a b ha hb
  refine ⟨c, h1, h2, h3, h4, fun y x => ?_⟩
  by_cases h : a.Has y x
  · obtain ⟨u, v, e1, e2, e3⟩ := h5 y x h
    rw [readAt_pix_iff e1, readAt_pix_iff e2, readAt_pix_iff e3]
  · rw [pix_out a h, pix_out b (by unfold Map2d.Has at h ⊢; rw [← hw, ← hh]; exact h),
      pix_out c (by unfold Map2d.Has at h ⊢; rw [h3, h4]; exact h), add_zero]

theorem addChannels_spec : ∀ (q s : List (Map2d Rat)), (∀ m ∈ q, m.WF) → (∀ m ∈ s, m.WF) →
    q.map (fun m => (m.w, m.h)) = s.map (fun m => (m.w, m.h)) →
    ∃ r, (List.zip q s).mapM (m := R) (fun z => mapAdd z.1 z.2) = .ok r ∧ r.map (fun m => (m.w, m.h)) = q.map (fun m => (m.w, m.h)) ∧
      (∀ m ∈ r, m.WF) ∧ ∀ i y x, chPix r i y x = chPix q i y x + chPix s i y x
  | [], [], _, _, _ => ⟨[], rfl, rfl, by simp, by intro i y x; simp [chPix]⟩
  | [], _ :: _, _, _, h => by simp at h
  | _ :: _, [], _, _, h => by simp at h
  | a :: q, b :: s, hq, hs, hl => by
    simp only [List.map_cons, List.cons.injEq, Prod.mk.injEq] at hl
    obtain ⟨c, h1, h2, h3, h4, h5⟩ := mapAdd_pix (hq a List.mem_cons_self) (hs b List.mem_cons_self) hl.1.1 hl.1.2
    obtain ⟨r, hr, lr, sr, jr⟩ := addChannels_spec q s (fun z hz => hq z (List.mem_cons_of_mem _ hz))
      (fun z hz => hs z (List.mem_cons_of_mem _ hz)) hl.2
    refine ⟨c :: r, ?_, by simp [lr, h3, h4], ?_, ?_⟩
    · rw [List.zip_cons_cons, List.mapM_cons, hr, h1]; rfl
    · intro z hz
      rcases List.mem_cons.1 hz with rfl | hz
      · exact h2
      · exact sr z hz
    · intro i y x
      cases i with
      | zero => exact h5 y x
      | succ i => exact jr i y x

theorem reviseD_spec {shape : List (Int × Int)} {p : ProtoD} {s : List (Map2d Rat)} (hp : MapStim shape p.channels)
    (hs : MapStim shape s) (t : Int) :
    ∃ r, reviseD p s t = .ok ⟨r, t, p.evidence + 1⟩ ∧ MapStim shape r ∧
      ∀ i y x, chPix r i y x = chPix p.channels i y x + chPix s i y x := by
  have hsh := hp.1.trans hs.1.symm
  obtain ⟨r, hr, lr, sr, jr⟩ := addChannels_spec p.channels s hp.2 hs.2 hsh
  refine ⟨r, ?_, ⟨lr.trans hp.1, sr⟩, jr⟩
  unfold reviseD
  have hlen : p.channels.length ≤ s.length := by
    have := congrArg List.length hsh
    simp only [List.length_map] at this
    omega
  rw [range_map_zip (fun c s => mapAdd c s) _ _ hlen, hr]
  rfl

/-- a prototype and the stimuli it was learned from -/
structure RelD (shape : List (Int × Int)) (p : ProtoD) (l : List (List (Map2d Rat))) : Prop where
  shape : MapStim shape p.channels
  count : p.evidence = l.length
  sum : ∀ i y x, chPix p.channels i y x = (l.map fun s => chPix s i y x).sum

theorem relD_new {shape : List (Int × Int)} {s : List (Map2d Rat)} (h : MapStim shape s) (t : Int) : RelD shape ⟨s, t, 1⟩ [s] :=
  ⟨h, rfl, fun i y x => by simp⟩

theorem relD_revise {shape : List (Int × Int)} {s : List (Map2d Rat)} {t : Int} {p p' : ProtoD} {l : List (List (Map2d Rat))}
    (hs : MapStim shape s) (h : RelD shape p l) (hr : reviseD p s t = .ok p') : RelD shape p' (l ++ [s]) := by
  obtain ⟨r, e, hm, hj⟩ := reviseD_spec h.shape hs t
  rw [e] at hr
  cases hr
  refine ⟨hm, ?_, fun i y x => ?_⟩
  · show p.evidence + 1 = _
    rw [h.count, List.length_append, List.length_singleton]; push_cast; rfl
  · show chPix r i y x = _
    rw [hj, h.sum]; simp

theorem simsD_total {exp : Rat → Rat} {shape : List (Int × Int)} {s : List (Map2d Rat)} (hs : MapStim shape s) {ps : List ProtoD}
    (hp : ∀ p ∈ ps, MapStim shape p.channels ∧ 0 < p.evidence) :
    simsD exp s ps = .ok (ps.map fun p => exp (meanDist s p * -(1 / 2))) := by
  unfold simsD
  rw [mapM_ok_iff]
  induction ps with
  | nil => exact .nil
  | cons p ps ih =>
    refine .cons ?_ (ih (fun q hq => hp q (List.mem_cons_of_mem _ hq)))
    rw [distD_eq hs (hp p List.mem_cons_self).1 (ne_of_gt (hp p List.mem_cons_self).2)]
    rfl

theorem runD_total {exp : Rat → Rat} {shape : List (Int × Int)} : ∀ (looks : List (Look (List (Map2d Rat)))) (ps : List ProtoD),
    (∀ l ∈ looks, MapStim shape l.stimulus) → (∀ p ∈ ps, MapStim shape p.channels ∧ 0 < p.evidence) →
    ∃ ps' rs, runLooks (classifyD exp) ps looks = .ok (ps', rs)
  | [], ps, _, _ => ⟨ps, [], rfl⟩
  | l :: ls, ps, hl, hp => by
    have hs := hl l List.mem_cons_self
    have hss := simsD_total (exp := exp) hs hp
    have hrev : ∀ p ∈ ps, ∃ p', reviseD p l.stimulus l.time = .ok p' := fun p hpm => by
      obtain ⟨r, e, _⟩ := reviseD_spec (hp p hpm).1 hs l.time
      exact ⟨_, e⟩
    obtain ⟨ps1, r, h1⟩ := classifyG_total (mk := (⟨l.stimulus, l.time, 1⟩ : ProtoD)) l.add hss (le_of_eq (simsD_length hss)) hrev
    obtain ⟨_, _, ho⟩ := classifyG_ok h1
    have hp1 : ∀ p ∈ ps1, MapStim shape p.channels ∧ 0 < p.evidence :=
      ho.forall (Q := fun p => MapStim shape p.channels ∧ 0 < p.evidence) hp ⟨hs, Int.one_pos⟩ (by
      intro p p' hq he
      obtain ⟨r, e, hm, _⟩ := reviseD_spec hq.1 hs l.time
      rw [e] at he; cases he
      exact ⟨hm, by show 0 < p.evidence + 1; have := hq.2; omega⟩)
    obtain ⟨ps2, rs, h2⟩ := runD_total ls ps1 (fun x hx => hl x (List.mem_cons_of_mem _ hx)) hp1
    refine ⟨ps2, r :: rs, ?_⟩
    rw [runLooks, classifyD_eq, h1]
    show (runLooks (classifyD exp) ps1 ls >>= _) = _
    rw [h2]; rfl

/-! ## Convolution -/

theorem intRange_shift (a b c : Int) : intRange (a + c) (b + c) = (intRange a b).map (· + c) := by
  unfold intRange
  rw [List.map_map, show b + c - (a + c) = b - a by omega]
  apply List.map_congr_left
  intro k _
  show a + c + (k : Int) = a + (k : Int) + c
  omega

theorem gridPoints_shift (y0 y1 x0 x1 c d : Int) :
    gridPoints (y0 + c) (y1 + c) (x0 + d) (x1 + d) = (gridPoints y0 y1 x0 x1).map fun p => (p.1 + c, p.2 + d) := by
  unfold gridPoints
  rw [intRange_shift, intRange_shift, List.map_flatMap, List.flatMap_map]
  congr 1
  funext y
  rw [List.map_map, List.map_map]
  rfl

theorem convAt_eq {v k : Map2d Rat} (hv : v.WF) (hk : k.WF) (iy ix : Int) :
    convAt v k iy ix = .ok (kernelSum v k (2 * (k.h / 2)) (2 * (k.w / 2)) iy ix) := by
  have h1 : Int.tdiv k.h 2 = k.h / 2 := Int.tdiv_eq_ediv_of_nonneg hk.h
  have h2 : Int.tdiv k.w 2 = k.w / 2 := Int.tdiv_eq_ediv_of_nonneg hk.w
  unfold convAt kernelSum
  rw [Int.neg_tdiv, Int.neg_tdiv, h1, h2]
  have hg := gridPoints_shift (-(k.h / 2)) (k.h / 2) (-(k.w / 2)) (k.w / 2) (k.h / 2) (k.w / 2)
  rw [show -(k.h / 2) + k.h / 2 = 0 by omega, show -(k.w / 2) + k.w / 2 = 0 by omega, ← two_mul, ← two_mul] at hg
  rw [hg, List.map_map]
  have := sumFold (fun p : Int × Int => (.ok (pix k (k.h / 2 + p.1) (k.w / 2 + p.2) * pix v (p.1 + iy) (p.2 + ix)) : R Rat))
    (fun p => pix k (k.h / 2 + p.1) (k.w / 2 + p.2) * pix v (p.1 + iy) (p.2 + ix))
    (gridPoints (-(k.h / 2)) (k.h / 2) (-(k.w / 2)) (k.w / 2)) 0 (fun _ _ => rfl)
  rw [zero_add] at this
  have e1 : List.map ((fun q : Int × Int => pix k q.1 q.2 * pix v (iy + q.1 - k.h / 2) (ix + q.2 - k.w / 2)) ∘
      fun p : Int × Int => (p.1 + k.h / 2, p.2 + k.w / 2)) (gridPoints (-(k.h / 2)) (k.h / 2) (-(k.w / 2)) (k.w / 2)) =
      List.map (fun p => pix k (k.h / 2 + p.1) (k.w / 2 + p.2) * pix v (p.1 + iy) (p.2 + ix))
        (gridPoints (-(k.h / 2)) (k.h / 2) (-(k.w / 2)) (k.w / 2)) := by
    apply List.map_congr_left
    rintro ⟨dy, dx⟩ _
    dsimp only [Function.comp]
    rw [show iy + (dy + k.h / 2) - k.h / 2 = dy + iy by omega, show ix + (dx + k.w / 2) - k.w / 2 = dx + ix by omega,
      add_comm dy, add_comm dx]
  rw [e1, ← this]
  apply foldlM_congr_mem
  rintro b ⟨y, x⟩ _
  dsimp only
  rw [readAt_pix hk, readAt_pix hv]; rfl

theorem length_flatMap_const {α β : Type} {k : Nat} (l : List α) {f : α → List β} (hf : ∀ a ∈ l, (f a).length = k) :
    (l.flatMap f).length = l.length * k := by
  induction l with
  | nil => simp
  | cons a l ih =>
    rw [List.flatMap_cons, List.length_append, ih fun b hb => hf b (List.mem_cons_of_mem _ hb), hf a List.mem_cons_self,
      List.length_cons, Nat.succ_mul, Nat.add_comm]

theorem getElem?_flatMap_const {α β : Type} {k : Nat} {l : List α} {f : α → List β} (hf : ∀ a ∈ l, (f a).length = k) {i j : Nat} {a : α}
    (hi : l[i]? = some a) (hj : j < k) : (l.flatMap f)[i * k + j]? = (f a)[j]? := by
  induction l generalizing i with
  | nil => simp at hi
  | cons b l ih =>
    have hb := hf b List.mem_cons_self
    rw [List.flatMap_cons]
    cases i with
    | zero =>
      simp only [List.getElem?_cons_zero, Option.some.injEq] at hi
      subst hi
      rw [List.getElem?_append_left (by omega)]
      simp
    | succ i =>
      rw [List.getElem?_append_right (by rw [hb, Nat.succ_mul]; omega), hb,
        show (i + 1) * k + j - k = i * k + j by rw [Nat.succ_mul]; omega]
      exact ih (fun c hc => hf c (List.mem_cons_of_mem _ hc)) (by simpa using hi)

theorem gridPoints_at {h w : Int} {y x : Nat} (hy : (y : Int) < h) (hx : (x : Int) < w) :
    (gridPoints 0 h 0 w)[y * w.toNat + x]? = some ((y : Int), (x : Int)) := by
  have row : ∀ {b : Int} {i : Nat}, (i : Int) < b → (intRange 0 b)[i]? = some (i : Int) := by
    intro b i hi
    unfold intRange
    rw [List.getElem?_map, List.getElem?_range (by omega)]
    simp
  unfold gridPoints
  rw [getElem?_flatMap_const (k := w.toNat) (a := (y : Int)) (by intro a _; simp [intRange]) (row hy) (by omega), List.getElem?_map, row hx]
  rfl

end Nar
