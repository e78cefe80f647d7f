import Verif.Lemmas.MemNumbers
import Verif.Lemmas.Taught
import Verif.Lemmas.Counters
import Verif.Lemmas.Thinks5
import Verif.Lemmas.Server
/-! # With ordinary numbers the memory is that of the model with rational numbers -/
namespace Nar
open Term

/-- a belief as it comes from telling: with a written truth value in range, never used -/
def ToldOnly (b : Sentence) : Prop := ∃ tv : Tv, b.evi = some (.TV tv) ∧ 0 ≤ tv.c ∧ tv.c < 1 ∧ b.usage.useCount = 0

theorem ToldOnly.exp {b : Sentence} (h : ToldOnly b) : ∃ e, expOf b = .ok e ∧ calcExpF b.asF.tv = .fin e := by
  obtain ⟨tv, h1, _⟩ := h
  refine ⟨Tv.calcExp tv, ?_, ?_⟩
  · unfold expOf retTv
    rw [h1]
    rfl
  · unfold Sentence.asF asNumbers
    rw [h1]
    show Fl.fin (tv.c * (tv.f + -(1/2)) + 1/2) = _
    unfold Tv.calcExp
    rw [sub_eq_add_neg]

theorem ToldOnly.ordinary {b : Sentence} (h : ToldOnly b) : b.asF.tv.Ordinary := by
  obtain ⟨tv, h1, h2, h3, _⟩ := h
  unfold Sentence.asF asNumbers
  rw [h1]
  exact ⟨⟨_, rfl⟩, _, rfl, h2, h3⟩

theorem ToldOnly.useless {b : Sentence} (h : ToldOnly b) (now : Int) : calcUsageUsefulness b.usage now = 0 := by
  obtain ⟨tv, _, _, _, h4⟩ := h
  unfold calcUsageUsefulness
  simp [h4]

theorem asF_dependent (l : List Sentence) (s : Sentence) : dependentF (l.map Sentence.asF) s.asF = dependentBelief l s := by
  unfold dependentF dependentBelief
  rw [List.any_map]
  rfl

theorem asF_insert {a : Rat × Sentence} (ha : calcExpF a.2.asF.tv = .fin a.1) : ∀ (l : List (Rat × Sentence)),
    (∀ p ∈ l, calcExpF p.2.asF.tv = .fin p.1) →
    insertF a.2.asF (l.map (fun p => p.2.asF)) = (insertDesc a l).map (fun p => p.2.asF)
  | [], _ => rfl
  | b :: l, h => by
    have hb := h b List.mem_cons_self
    rw [List.map_cons]
    unfold insertF insertDesc
    rw [hb, ha]
    have : Fl.le (.fin b.1) (.fin a.1) = decide (b.1 ≤ a.1) := rfl
    rw [this]
    by_cases hc : b.1 ≤ a.1
    · rw [if_pos (decide_eq_true hc), if_pos hc]; rfl
    · rw [if_neg (by simpa using hc), if_neg hc, List.map_cons, asF_insert ha l (fun p hp => h p (List.mem_cons_of_mem _ hp))]

theorem asF_sort : ∀ (l : List (Rat × Sentence)), (∀ p ∈ l, calcExpF p.2.asF.tv = .fin p.1) →
    sortedF (l.map (fun p => p.2.asF)) = (sortDesc l).map (fun p => p.2.asF)
  | [], _ => rfl
  | a :: l, h => by
    rw [List.map_cons]
    unfold sortedF sortDesc
    rw [asF_sort l (fun p hp => h p (List.mem_cons_of_mem _ hp))]
    exact asF_insert (h a List.mem_cons_self) _ (fun p hp => h p (List.mem_cons_of_mem _ ((sortDesc_perm l).mem_iff.1 hp)))

theorem asF_storeExp {l l' : List Sentence} {s : Sentence} {n : Nat} (hl : ∀ b ∈ l, ToldOnly b) (hs : ToldOnly s)
    (h : storeTable expOf l s n = .ok l') : storeExpF (l.map Sentence.asF) s.asF n = .ok (l'.map Sentence.asF) ∧ ∀ b ∈ l', ToldOnly b := by
  unfold storeTable at h
  unfold storeExpF
  rw [asF_dependent]
  by_cases hd : dependentBelief l s = true
  · rw [if_pos hd] at h ⊢
    cases h
    exact ⟨rfl, hl⟩
  · rw [if_neg hd] at h ⊢
    obtain ⟨temp, h1, h2⟩ := R.bind_ok.1 h
    have hc : shallowCopySentence s = s := rfl
    rw [hc] at h1
    obtain ⟨k1, k2⟩ := keyed_ok_map h1
    have hall : ∀ b ∈ l ++ [s], ToldOnly b := by
      intro b hb
      rcases List.mem_append.1 hb with k | k
      · exact hl b k
      · rw [List.mem_singleton.1 k]; exact hs
    have hk : ∀ p ∈ temp, calcExpF p.2.asF.tv = .fin p.1 := by
      intro p hp
      obtain ⟨e, e1, e2⟩ := (hall p.2 (k1 ▸ List.mem_map_of_mem hp)).exp
      have := k2 p hp
      rw [e1] at this
      rw [← Except.ok.inj this]; exact e2
    have hmap : l.map Sentence.asF ++ [s.asF] = temp.map (fun p => p.2.asF) := by
      have : temp.map (fun p => p.2.asF) = (temp.map (·.2)).map Sentence.asF := by rw [List.map_map]; rfl
      rw [this, k1, List.map_append]; rfl
    have hord : ∀ b ∈ l.map Sentence.asF ++ [s.asF], b.tv.Ordinary := by
      intro b hb
      rw [show l.map Sentence.asF ++ [s.asF] = (l ++ [s]).map Sentence.asF by rw [List.map_append]; rfl] at hb
      obtain ⟨b', hb', rfl⟩ := List.mem_map.1 hb
      exact (hall b' hb').ordinary
    rw [sortF_ordinary hord, hmap, asF_sort temp hk]
    have e := (Except.ok.inj h2).symm
    subst e
    refine ⟨?_, ?_⟩
    · show Except.ok _ = Except.ok _
      rw [List.map_take, List.map_map, List.length_map, List.length_map]
      rfl
    · intro b hb
      obtain ⟨p, hp, rfl⟩ := List.mem_map.1 (List.mem_of_mem_take hb)
      exact hall p.2 (k1 ▸ List.mem_map_of_mem ((sortDesc_perm temp).mem_iff.1 hp))

theorem asF_storeUsage {l l' : List Sentence} {s : Sentence} {n : Nat} {now : Int} (hl : ∀ b ∈ l, ToldOnly b) (hs : ToldOnly s)
    (h : storeTable (usefulOf now) l s n = .ok l') :
    storeUsageF (l.map Sentence.asF) s.asF n = l'.map Sentence.asF ∧ ∀ b ∈ l', ToldOnly b := by
  unfold storeTable at h
  unfold storeUsageF
  rw [asF_dependent]
  by_cases hd : dependentBelief l s = true
  · rw [if_pos hd] at h ⊢
    cases h
    exact ⟨rfl, hl⟩
  · rw [if_neg hd] at h ⊢
    have hc : shallowCopySentence s = s := rfl
    rw [hc, keyed_useful] at h
    have hall : ∀ b ∈ l ++ [s], ToldOnly b := by
      intro b hb
      rcases List.mem_append.1 hb with k | k
      · exact hl b k
      · rw [List.mem_singleton.1 k]; exact hs
    have e := (Except.ok.inj h).symm
    rw [sortDesc_id _ 0 (by
      intro x hx
      obtain ⟨b, hb, rfl⟩ := List.mem_map.1 hx
      exact (hall b hb).useless now)] at e
    rw [List.map_map] at e
    have hm : (l ++ [s]).map ((fun p : Rat × Sentence => p.2) ∘ fun s => (calcUsageUsefulness s.usage now, s)) = l ++ [s] := by
      have : ((fun p : Rat × Sentence => p.2) ∘ fun s => (calcUsageUsefulness s.usage now, s)) = id := rfl
      rw [this, List.map_id]
    rw [hm] at e
    subst e
    refine ⟨?_, fun b hb => hall b (List.mem_of_mem_take hb)⟩
    rw [List.map_take, List.map_append, List.length_append, List.length_append, List.length_map]
    rfl

/-- the memories are the same, and all beliefs fresh -/
def SimF (m : Mem) (fm : FMem) : Prop :=
  SameMemory m fm ∧ ∀ x c, m.get x = some c → (∀ b ∈ c.beliefsByExp, ToldOnly b) ∧ ∀ b ∈ c.beliefsByUsage, ToldOnly b

theorem SimF.set {m : Mem} {fm : FMem} (h : SimF m fm) {x : Term} {c : Concept} (hx : m.get x = some c) {e u : List Sentence}
    (he : ∀ b ∈ e, ToldOnly b) (hu : ∀ b ∈ u, ToldOnly b) :
    SimF (m.set { c with beliefsByExp := e, beliefsByUsage := u }) (fm.set x ⟨e.map Sentence.asF, u.map Sentence.asF⟩) := by
  have hn := (Mem.get_some hx).2
  subst hn
  have hself := Mem.get_set_self (m := m) (d := { c with beliefsByExp := e, beliefsByUsage := u }) (c := c) hx
  constructor
  · intro y
    by_cases hy : y = c.name
    · subst hy
      rw [FMem.set_same]
      have : (m.set { c with beliefsByExp := e, beliefsByUsage := u }).get c.name = some { c with beliefsByExp := e, beliefsByUsage := u } := hself
      rw [this]; rfl
    · rw [FMem.set_other _ _ hy, Mem.get_set_ne (d := { c with beliefsByExp := e, beliefsByUsage := u }) hy]
      exact h.1 y
  · intro y d hd
    by_cases hy : y = c.name
    · subst hy
      have : (m.set { c with beliefsByExp := e, beliefsByUsage := u }).get c.name = some { c with beliefsByExp := e, beliefsByUsage := u } := hself
      rw [this] at hd
      cases hd
      exact ⟨he, hu⟩
    · rw [Mem.get_set_ne (d := { c with beliefsByExp := e, beliefsByUsage := u }) hy] at hd
      exact h.2 y d hd

theorem asF_storeAt {m m' : Mem} {fm : FMem} {s : Sentence} {n : Nat} {now : Int} {x : Term} (h : SimF m fm) (hs : ToldOnly s)
    (hr : storeAt s n now m x = .ok m') : ∃ fm', storeAtF s.asF n fm x = .ok fm' ∧ SimF m' fm' := by
  unfold storeAt at hr
  unfold storeAtF
  have hx := h.1 x
  cases hg : m.get x with
  | none =>
    rw [hg] at hr hx
    rw [hx]
    have e := (Except.ok.inj hr).symm
    subst e
    have hget : ∀ y, Mem.get (m ++ [({ name := x, beliefsByExp := [shallowCopySentence s], beliefsByUsage := [shallowCopySentence s] } : Concept)]) y =
        if y = x then some { name := x, beliefsByExp := [s], beliefsByUsage := [s] } else m.get y := by
      intro y
      by_cases hy : y = x
      · subst hy
        rw [if_pos rfl]
        unfold Mem.get at hg ⊢
        rw [List.find?_append, hg, List.find?_cons]
        simp only [(checkEqTerm_iff y y).2 rfl]
        rfl
      · rw [if_neg hy]
        unfold Mem.get
        rw [List.find?_append, List.find?_cons]
        have : checkEqTerm x y = false := by
          rw [Bool.eq_false_iff]; exact fun hc => hy ((checkEqTerm_iff x y).1 hc).symm
        simp only [this, List.find?_nil, Option.or_none]
    refine ⟨_, rfl, ?_, ?_⟩
    · intro y
      rw [hget y]
      by_cases hy : y = x
      · subst hy; rw [FMem.set_same, if_pos rfl]; rfl
      · rw [FMem.set_other _ _ hy, if_neg hy]; exact h.1 y
    · intro y d hd
      rw [hget y] at hd
      by_cases hy : y = x
      · rw [if_pos hy] at hd
        cases hd
        constructor <;> intro b hb <;> rw [List.mem_singleton.1 hb] <;> exact hs
      · rw [if_neg hy] at hd; exact h.2 y d hd
  | some c =>
    rw [hg] at hr hx
    rw [hx]
    obtain ⟨e, h1, hr⟩ := R.bind_ok.1 hr
    obtain ⟨u, h2, hr⟩ := R.bind_ok.1 hr
    obtain ⟨k1, k2⟩ := asF_storeExp (h.2 x c hg).1 hs h1
    obtain ⟨k3, k4⟩ := asF_storeUsage (h.2 x c hg).2 hs h2
    refine ⟨fm.set x ⟨e.map Sentence.asF, u.map Sentence.asF⟩, R.bind_ok.2 ⟨_, k1, ?_⟩, ?_⟩
    · show Except.ok (fm.set x ⟨_, storeUsageF (c.beliefsByUsage.map Sentence.asF) s.asF n⟩) = _
      rw [k3]
    · rw [← Except.ok.inj hr]
      exact h.set hg k2 k4

theorem asF_storeAll {s : Sentence} {n : Nat} {now : Int} (hs : ToldOnly s) : ∀ (l : List Term) {m m' : Mem} {fm : FMem}, SimF m fm →
    l.foldlM (storeAt s n now) m = .ok m' → ∃ fm', l.foldlM (storeAtF s.asF n) fm = .ok fm' ∧ SimF m' fm'
  | [], m, m', fm, h, hr => by
    cases hr; exact ⟨fm, rfl, h⟩
  | x :: l, m, m', fm, h, hr => by
    obtain ⟨m1, h1, h2⟩ := foldlM_cons_ok.1 hr
    obtain ⟨fm1, k1, k2⟩ := asF_storeAt h hs h1
    obtain ⟨fm', k3, k4⟩ := asF_storeAll hs l k2 h2
    exact ⟨fm', foldlM_cons_ok.2 ⟨fm1, k1, k3⟩, k4⟩

/-! ## revision -/

theorem asF_c2w {c w : Rat} (h : Tv.c2w c = some w) : c2wF (.fin c) = .fin w := by
  unfold Tv.c2w at h
  split at h
  · cases h
  · rename_i hc
    cases h
    show (if (1 + -c : Rat) = 0 then _ else Fl.fin (1 * c / (1 + -c))) = _
    rw [sub_eq_add_neg] at hc
    rw [if_neg hc, sub_eq_add_neg]

theorem c2w_ge {c w : Rat} (h : Tv.c2w c = some w) (h0 : 0 ≤ c) (h1 : c < 1) : 0 ≤ w := by
  obtain ⟨w', h2, h3⟩ := c2w_ordinary h0 h1
  rw [asF_c2w h] at h3
  cases h3
  exact h2

theorem asF_rev {a b tv : Tv} (h : Tv.rev a b = some tv) (ha0 : 0 ≤ a.c) (ha1 : a.c < 1) (hb0 : 0 ≤ b.c) (hb1 : b.c < 1) :
    revF (asNumbers a) (asNumbers b) = asNumbers tv ∧ 0 ≤ tv.c ∧ tv.c < 1 := by
  unfold Tv.rev at h
  cases h1 : Tv.c2w a.c with
  | none => rw [h1] at h; cases h
  | some w1 =>
    cases h2 : Tv.c2w b.c with
    | none => rw [h1, h2] at h; cases h
    | some w2 =>
      rw [h1, h2] at h
      cases h
      have p1 := c2w_ge h1 ha0 ha1
      have p2 := c2w_ge h2 hb0 hb1
      have hn : (w1 + w2 + 1 : Rat) ≠ 0 := by intro e; linarith
      refine ⟨?_, div_nonneg (by linarith) (by linarith), ?_⟩
      · unfold revF asNumbers
        simp only [asF_c2w h1, asF_c2w h2]
        have e1 : Fl.add (.fin w1) (.fin w2) = .fin (w1 + w2) := rfl
        have e2 : w2cF (.fin (w1 + w2)) = .fin (Tv.w2c (w1 + w2)) := by
          show (if (w1 + w2 + 1 : Rat) = 0 then _ else Fl.fin ((w1 + w2) / (w1 + w2 + 1))) = _
          rw [if_neg hn]; rfl
        rw [e1, e2]
        congr 1
        by_cases hp : w1 + w2 > 0
        · rw [if_pos (show (Fl.fin (w1 + w2)).pos = true from decide_eq_true hp), if_pos hp]
          show (if (w1 + w2 : Rat) = 0 then _ else Fl.fin ((w1 * a.f + w2 * b.f) / (w1 + w2))) = _
          rw [if_neg (ne_of_gt hp)]
        · rw [if_neg (show ¬ (Fl.fin (w1 + w2)).pos = true from fun hc => hp (of_decide_eq_true hc)), if_neg hp]
      · show (w1 + w2) / (w1 + w2 + 1) < 1
        rw [div_lt_one (by linarith)]
        linarith

theorem asF_reviseTable {cell : List Int} {l l' : List Sentence} {s : Sentence} {res : Option Sentence} (hl : ∀ b ∈ l, ToldOnly b)
    (hs : ToldOnly s) (h : reviseTable cell l s = .ok (l', res)) :
    reviseTableF (l.map Sentence.asF) s.asF = (l'.map Sentence.asF, res.isSome) ∧ ∀ b ∈ l', ToldOnly b := by
  unfold reviseTable at h
  unfold reviseTableF
  have hf : (l.map Sentence.asF).findIdx? (fun b => checkEqTerm b.term s.asF.term && !Stamp.checkOverlap b.stamp s.asF.stamp) =
      l.findIdx? (fun b => checkEqTerm b.term s.term && !Stamp.checkOverlap b.stamp s.stamp) := by
    rw [List.findIdx?_map]; rfl
  rw [hf]
  cases hi : l.findIdx? (fun b => checkEqTerm b.term s.term && !Stamp.checkOverlap b.stamp s.stamp) with
  | none =>
    rw [hi] at h
    obtain ⟨rfl, rfl⟩ := Prod.mk.inj (Except.ok.inj h)
    exact ⟨rfl, hl⟩
  | some i =>
    rw [hi] at h
    obtain ⟨b, h1, h⟩ := R.bind_ok.1 h
    obtain ⟨a, h2, h⟩ := R.bind_ok.1 h
    obtain ⟨rfl, rfl⟩ := Prod.mk.inj (Except.ok.inj h)
    have hb := indexAt_ok.1 h1
    simp only [List.getElem?_map, hb, Option.map_some]
    obtain ⟨tvb, e1, b0, b1, _⟩ := hl b (List.mem_of_getElem? hb)
    obtain ⟨tvs, e2, s0, s1, _⟩ := hs
    have ha : ∃ tv, Tv.rev tvb tvs = some tv ∧ a.term = b.term ∧ a.stamp = Stamp.merge b.stamp s.stamp ∧ a.evi = some (.TV tv) ∧
        a.usage.useCount = 0 := by
      unfold revisedBelief retTv at h2
      simp only [e1, e2, bind, Except.bind, unwrap] at h2
      cases hr : Tv.rev tvb tvs with
      | none => rw [hr] at h2; cases h2
      | some tv =>
        rw [hr] at h2
        rw [← Except.ok.inj h2]
        exact ⟨tv, rfl, rfl, rfl, rfl, rfl⟩
    obtain ⟨tv, r1, r2, r3, r4, r5⟩ := ha
    obtain ⟨q1, q2, q3⟩ := asF_rev r1 b0 b1 s0 s1
    refine ⟨?_, ?_⟩
    · have : (⟨b.asF.term, Stamp.merge b.asF.stamp s.asF.stamp, revF b.asF.tv s.asF.tv⟩ : FSent) = a.asF := by
        unfold Sentence.asF
        rw [r2, r3, r4, e1, e2]
        simp only [q1]
      rw [this, List.map_append, List.eraseIdx_map]
      rfl
    · intro b' hb'
      rcases List.mem_append.1 hb' with k | k
      · exact hl b' (List.mem_of_mem_eraseIdx k)
      · rw [List.mem_singleton.1 k]
        exact ⟨tv, r4, q2, q3, r5⟩

theorem asF_reviseAt {s : Sentence} (hs : ToldOnly s) {m m' : Mem} {fm : FMem} {r r' : Option Sentence} {x : Term} (h : SimF m fm)
    (hr : reviseAt s (m, r) x = .ok (m', r')) :
    ∃ fm', reviseAtF s.asF (fm, r.isSome) x = (fm', r'.isSome) ∧ SimF m' fm' := by
  unfold reviseAt at hr
  unfold reviseAtF
  have hx := h.1 x
  simp only at hr ⊢
  cases hg : m.get x with
  | none =>
    rw [hg] at hr hx
    rw [hx]
    obtain ⟨rfl, rfl⟩ := Prod.mk.inj (Except.ok.inj hr)
    exact ⟨fm, rfl, h⟩
  | some c =>
    rw [hg] at hr hx
    rw [hx]
    obtain ⟨⟨e, r1⟩, h1, hr⟩ := R.bind_ok.1 hr
    obtain ⟨⟨u, r2⟩, h2, hr⟩ := R.bind_ok.1 hr
    obtain ⟨rfl, rfl⟩ := Prod.mk.inj (Except.ok.inj hr)
    obtain ⟨k1, k2⟩ := asF_reviseTable (h.2 x c hg).1 hs h1
    obtain ⟨k3, k4⟩ := asF_reviseTable (h.2 x c hg).2 hs h2
    refine ⟨fm.set x ⟨e.map Sentence.asF, u.map Sentence.asF⟩, ?_, h.set hg k2 k4⟩
    simp only [Option.map_some, k1, k3]
    refine Prod.ext rfl ?_
    cases r <;> cases r1 <;> cases r2 <;> rfl

theorem asF_reviseAll {s : Sentence} (hs : ToldOnly s) : ∀ (l : List Term) {m m' : Mem} {fm : FMem} {r r' : Option Sentence}, SimF m fm →
    l.foldlM (reviseAt s) (m, r) = .ok (m', r') →
    ∃ fm', l.foldl (reviseAtF s.asF) (fm, r.isSome) = (fm', r'.isSome) ∧ SimF m' fm'
  | [], m, m', fm, r, r', h, hr => by
    obtain ⟨rfl, rfl⟩ := Prod.mk.inj (Except.ok.inj hr)
    exact ⟨fm, rfl, h⟩
  | x :: l, m, m', fm, r, r', h, hr => by
    obtain ⟨⟨m1, r1⟩, h1, h2⟩ := foldlM_cons_ok.1 hr
    obtain ⟨fm1, k1, k2⟩ := asF_reviseAt hs h h1
    obtain ⟨fm', k3, k4⟩ := asF_reviseAll hs l k2 h2
    exact ⟨fm', by rw [List.foldl_cons, k1, k3], k4⟩

/-! ## telling -/

theorem asF_add {m m' : Mem} {fm : FMem} {t : Term} {tv : Tv} {k now : Int} {rev : Option Sentence} (h : SimF m fm) (h0 : 0 ≤ tv.c)
    (h1 : tv.c < 1) (hc : calcComplexity t ≤ 64)
    (hr : addBelief m (newEternalSentenceByTv t .JUGEMENT tv ⟨[k]⟩) 20 now = .ok (m', rev)) :
    ∃ fm', tellF (fm, k) (t, asNumbers tv) = .ok (fm', k + 1) ∧ SimF m' fm' := by
  obtain ⟨s, hsd⟩ : ∃ s, s = newEternalSentenceByTv t .JUGEMENT tv ⟨[k]⟩ := ⟨_, rfl⟩
  rw [← hsd] at hr
  have hp : s.punct = .JUGEMENT := by rw [hsd]; rfl
  have ht : s.term = t := by rw [hsd]; rfl
  have hs : ToldOnly s := ⟨tv, by rw [hsd]; rfl, h0, h1, by rw [hsd]; rfl⟩
  have hsf : s.asF = ⟨t, ⟨[k]⟩, asNumbers tv⟩ := by rw [hsd]; rfl
  unfold addBelief at hr
  obtain ⟨⟨m1, rc⟩, g1, hr⟩ := R.bind_ok.1 hr
  unfold memReviseBelief at g1
  rw [if_neg (by rw [hp]; decide), ht] at g1
  obtain ⟨fm1, k1, k2⟩ := asF_reviseAll hs _ (r := none) h g1
  have hrev : reviseF ⟨t, ⟨[k]⟩, asNumbers tv⟩ fm = (fm1, rc.isSome) := by
    rw [hsf] at k1; exact k1
  unfold tellF
  rw [if_neg (by simp only; omega)]
  simp only [hrev]
  cases rc with
  | some c =>
    obtain ⟨rfl, rfl⟩ := Prod.mk.inj (Except.ok.inj hr)
    exact ⟨fm1, by simp, k2⟩
  | none =>
    obtain ⟨m2, g2, hr⟩ := R.bind_ok.1 hr
    obtain ⟨rfl, rfl⟩ := Prod.mk.inj (Except.ok.inj hr)
    unfold storeInConcepts storeInConcepts2 at g2
    rw [if_neg (by rw [hp]; decide), ht] at g2
    obtain ⟨fm2, k3, k4⟩ := asF_storeAll hs _ k2 g2
    refine ⟨fm2, ?_, k4⟩
    simp only [Option.isSome_none, Bool.false_eq_true, if_false]
    refine R.bind_ok.2 ⟨fm2, ?_, rfl⟩
    rw [hsf] at k3
    exact k3

theorem asF_step {env : Env} {r r' : Reasoner} {t : Term} {tv : Tv} {fm : FMem} (hn : ¬ IsTemporal t) (h0 : 0 ≤ tv.c) (h1 : tv.c < 1)
    (hm : r.maxComplexity = 64) (hb : r.nConceptBeliefs = 20) (h : SimF r.sh.mem fm)
    (hr : inputT2 env r t .JUGEMENT tv false [] = .ok r') : r'.maxComplexity = 64 ∧ r'.nConceptBeliefs = 20 ∧
    ∃ fm', tellF (fm, r.sh.stampIdCounter) (t, asNumbers tv) = .ok (fm', r'.sh.stampIdCounter) ∧ SimF r'.sh.mem fm' := by
  obtain ⟨sh', k1, rfl⟩ := inputT2_statement hn hr
  refine ⟨hm, hb, ?_⟩
  have hst : sh'.stampIdCounter = r.sh.stampIdCounter + 1 := congrArg Prod.fst (memAddTask_outer k1)
  have e1 : (r.cfg env).maxComplexity = 64 := hm
  have e2 : (r.cfg env).nBeliefs = 20 := hb
  have ht : (newEternalSentenceByTv t .JUGEMENT tv ⟨[r.sh.stampIdCounter]⟩).term = t := rfl
  simp only [hst]
  rcases memAddTask_cases k1 with ⟨c, e⟩ | ⟨c, mem, rev, g1, g2⟩
  · rw [e1, ht] at c
    rw [e]
    refine ⟨fm, ?_, h⟩
    unfold tellF
    rw [if_pos (by simp only; omega)]
  · rw [e1, ht] at c
    rw [e2] at g1
    obtain ⟨fm', q1, q2⟩ := asF_add h h0 h1 (by omega) g1
    refine ⟨fm', q1, ?_⟩
    rw [addTasks_memory _ g2]
    exact q2

theorem asF_run {env : Env} (xs : List (Term × Tv)) : ∀ {r : Reasoner}, (∀ x ∈ xs, ¬ IsTemporal x.1 ∧ 0 ≤ x.2.c ∧ x.2.c < 1) →
    runNar env (xs.map fun x => .tell x.1 .JUGEMENT x.2 false []) = .ok r → r.maxComplexity = 64 ∧ r.nConceptBeliefs = 20 ∧
    ∃ fm, tellAllF (xs.map fun x => (x.1, asNumbers x.2)) = .ok (fm, r.sh.stampIdCounter) ∧ SimF r.sh.mem fm := by
  induction xs using List.reverseRecOn with
  | nil =>
    intro r _ h
    cases h
    exact ⟨rfl, rfl, _, rfl, (fun x => rfl), fun x c hc => by cases hc⟩
  | append_singleton xs x ih =>
    intro r hx h
    rw [List.map_append, List.map_singleton, runNar_snoc] at h
    obtain ⟨r0, h0, h1⟩ := R.bind_ok.1 h
    obtain ⟨a1, a2, fm, a3, a4⟩ := ih (fun y hy => hx y (by simp [hy])) h0
    have hx' := hx x (by simp)
    obtain ⟨b1, b2, fm', b3, b4⟩ := asF_step hx'.1 hx'.2.1 hx'.2.2 a1 a2 a4 h1
    refine ⟨b1, b2, fm', ?_, b4⟩
    unfold tellAllF at a3 ⊢
    rw [List.map_append, List.foldlM_append, R.bind_ok]
    exact ⟨_, a3, foldlM_cons_ok.2 ⟨_, b3, rfl⟩⟩

end Nar
