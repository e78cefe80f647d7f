import Verif.Lemmas.Proc
/-! # Lemmas about the storage of temporal rules -/
namespace Nar
open Term

/-! ## growth -/

theorem Grown.refl (b : Sentence) : Grown b b :=
  ⟨rfl, rfl, rfl, fun pos cnt h => ⟨pos, cnt, h, by omega, by omega, by omega⟩⟩

theorem Grown.trans {a b c : Sentence} (h1 : Grown a b) (h2 : Grown b c) : Grown a c := by
  refine ⟨h2.1.trans h1.1, h2.2.1.trans h1.2.1, h2.2.2.1.trans h1.2.2.1, ?_⟩
  intro pos cnt h
  obtain ⟨p1, c1, g1, g2, g3, g4⟩ := h1.2.2.2 pos cnt h
  obtain ⟨p2, c2, k1, k2, k3, k4⟩ := h2.2.2.2 p1 c1 g1
  exact ⟨p2, c2, k1, by omega, by omega, by omega⟩

theorem HeapGrown.refl (h : List Sentence) : HeapGrown h h := fun _ b hb => ⟨b, hb, .refl b⟩

theorem HeapGrown.trans {a b c : List Sentence} (h1 : HeapGrown a b) (h2 : HeapGrown b c) : HeapGrown a c := by
  intro r x hx
  obtain ⟨y, hy, g1⟩ := h1 r x hx
  obtain ⟨z, hz, g2⟩ := h2 r y hy
  exact ⟨z, hz, g1.trans g2⟩

theorem HeapGrown.append (h l : List Sentence) : HeapGrown h (h ++ l) := by
  intro r b hb
  refine ⟨b, ?_, .refl b⟩
  rw [List.getElem?_append_left (List.getElem?_eq_some_iff.1 hb).1, hb]

theorem HeapGrown.set {h : List Sentence} {r : Nat} {b b' : Sentence} (hb : h[r]? = some b) (hg : Grown b b') :
    HeapGrown h (h.set r b') := by
  intro i x hx
  by_cases hi : r = i
  · subst hi
    rw [hb] at hx; cases hx
    exact ⟨b', by rw [List.getElem?_set_self (List.getElem?_eq_some_iff.1 hb).1], hg⟩
  · exact ⟨x, by rw [List.getElem?_set_ne hi, hx], .refl x⟩

theorem HeapGrown.length_le {h h' : List Sentence} (hg : HeapGrown h h') : h.length ≤ h'.length := by
  rcases Nat.lt_or_ge h'.length h.length with hlt | hge
  · obtain ⟨b', hb', -⟩ := hg h'.length _ (List.getElem?_eq_getElem hlt)
    rw [List.getElem?_eq_none (Nat.le_refl _)] at hb'; cases hb'
  · exact hge

/-! ## procedural memory -/

theorem PMem.get_some {m : PMem} {t : Term} {c : PConcept} (h : m.get t = some c) : c ∈ m.concepts ∧ c.name = t := by
  unfold PMem.get at h
  exact ⟨List.mem_of_find?_eq_some h, (checkEqTerm_iff _ _).1 (by simpa using List.find?_some h)⟩

theorem storeTableP_spec {key : Sentence → R Rat} {heap heap' : List Sentence} {table table' : List Nat}
    {s : Sentence} {n : Nat} (h : storeTableP key heap table s n = .ok (heap', table')) :
    (∃ k, heap' = heap ++ List.replicate k s) ∧ ∀ r ∈ table', r ∈ table ∨ r < heap'.length := by
  unfold storeTableP at h
  obtain ⟨cells, _, h⟩ := R.bind_ok.1 h
  split at h
  · cases h
    exact ⟨⟨0, by simp⟩, fun r hr => .inl hr⟩
  · obtain ⟨temp, ht, h⟩ := R.bind_ok.1 h
    obtain ⟨rfl, rfl⟩ := Prod.mk.inj (Except.ok.inj h)
    refine ⟨⟨1, by simp [shallowCopy_eq]⟩, ?_⟩
    intro r hr
    have hr := List.mem_of_mem_take hr
    have hp : ((sortDesc temp).map (·.2)).Perm (table ++ [heap.length]) := by
      rw [← (keyed_ok_map ht).1]
      exact (sortDesc_perm temp).map _
    rcases List.mem_append.1 (hp.mem_iff.1 hr) with hr | hr
    · exact .inl hr
    · rw [List.mem_singleton] at hr; subst hr
      exact .inr (by simp)

theorem storeAtP_spec {s : Sentence} {n : Nat} {now : Int} {m m' : PMem} {t : Term}
    (h : storeAtP s n now m t = .ok m') :
    (∃ k, m'.heap = m.heap ++ List.replicate k s) ∧ (m.RefsValid → m'.RefsValid) := by
  unfold storeAtP at h
  split at h
  · rename_i c hc
    obtain ⟨⟨h1, e⟩, he, h⟩ := R.bind_ok.1 h
    obtain ⟨⟨h2, u⟩, hu, h⟩ := R.bind_ok.1 h
    cases h
    obtain ⟨⟨k1, rfl⟩, r1⟩ := storeTableP_spec he
    obtain ⟨⟨k2, rfl⟩, r2⟩ := storeTableP_spec hu
    refine ⟨⟨k1 + k2, by simp [List.replicate_append_replicate]⟩, ?_⟩
    intro hv d hd r hr
    simp only [PMem.setC, List.mem_map] at hd
    obtain ⟨d0, hd0, rfl⟩ := hd
    have hlen : m.heap.length ≤ (m.heap ++ List.replicate k1 s).length := by simp
    have hlen2 : (m.heap ++ List.replicate k1 s).length ≤ (m.heap ++ List.replicate k1 s ++ List.replicate k2 s).length := by simp
    have hcv := hv c (PMem.get_some hc).1
    split at hr
    · rcases hr with hr | hr
      · rcases r1 r hr with h | h
        · have := hcv r (.inl h); show r < (m.heap ++ List.replicate k1 s ++ List.replicate k2 s).length; omega
        · show r < (m.heap ++ List.replicate k1 s ++ List.replicate k2 s).length; omega
      · rcases r2 r hr with h | h
        · have := hcv r (.inr h); show r < (m.heap ++ List.replicate k1 s ++ List.replicate k2 s).length; omega
        · show r < (m.heap ++ List.replicate k1 s ++ List.replicate k2 s).length; omega
    · have := hv d0 hd0 r hr; show r < (m.heap ++ List.replicate k1 s ++ List.replicate k2 s).length; omega
  · cases h
    refine ⟨⟨2, by simp [shallowCopy_eq, List.replicate]⟩, ?_⟩
    intro hv d hd r hr
    rcases List.mem_append.1 hd with hd | hd
    · have := hv d hd r hr; simp; omega
    · rw [List.mem_singleton] at hd; subst hd
      simp only [List.mem_singleton] at hr
      rcases hr with rfl | rfl <;> simp

theorem storeInConcepts2P_spec {m m' : PMem} {s : Sentence} {sub : List Term} {n : Nat} {now : Int}
    (h : storeInConcepts2P m s sub n now = .ok m') :
    (∃ k, m'.heap = m.heap ++ List.replicate k s) ∧ (m.RefsValid → m'.RefsValid) := by
  unfold storeInConcepts2P at h
  split at h
  · cases h; exact ⟨⟨0, by simp⟩, id⟩
  · refine foldlM_inv (fun x : PMem => (∃ k, x.heap = m.heap ++ List.replicate k s) ∧ (m.RefsValid → x.RefsValid)) h
      ⟨⟨0, by simp⟩, id⟩ ?_
    rintro t _ x x' ⟨⟨k, hk⟩, hv⟩ hx
    obtain ⟨⟨k', hk'⟩, hv'⟩ := storeAtP_spec hx
    exact ⟨⟨k + k', by rw [hk', hk]; simp [List.replicate_append_replicate]⟩, fun h => hv' (hv h)⟩

theorem retSeqCond_ok {t c : Term} (h : retSeqCond t = .ok c) : ∃ acts effect, t = rule c acts effect := by
  unfold retSeqCond at h
  split at h
  · rename_i seq effect
    have := indexAt_ok.1 h
    match seq, this with
    | c' :: acts, this =>
      simp at this; subst this
      exact ⟨acts, effect, rfl⟩
  · cases h

theorem retPred_ok {t e : Term} (h : retPred t = .ok e) : ∃ cond, t = .Stmt .PREDIMPL cond e := by
  unfold retPred at h
  split at h
  · cases h; exact ⟨_, rfl⟩
  · cases h

theorem memAddEvidenceInternal_spec {m m' : PMem} {s : Sentence} {n : Nat} {now : Int}
    (h : memAddEvidenceInternal m s n now = .ok m') :
    (∃ k, m'.heap = m.heap ++ List.replicate k s) ∧ (m.RefsValid → m'.RefsValid) ∧
      ∃ cond acts effect, s.term = rule cond acts effect := by
  unfold memAddEvidenceInternal at h
  obtain ⟨cond, hc, h⟩ := R.bind_ok.1 h
  obtain ⟨pred, hp, h⟩ := R.bind_ok.1 h
  obtain ⟨h1, h2⟩ := storeInConcepts2P_spec h
  obtain ⟨acts, effect, he⟩ := retSeqCond_ok hc
  exact ⟨h1, h2, cond, acts, effect, he⟩

/-- a sentence that adding `s` may store: `s`, or the copy with an introduced variable -/
def StoredCopy (s x : Sentence) : Prop :=
  x = { s with term := x.term } ∧ ∃ cond acts effect, x.term = rule cond acts effect

theorem introduced_sane {s : Sentence} {rng rng' : List Nat} {out : List Sentence}
    (h : matchandintroVar1Sentence s rng = .ok (out, rng')) {x : Sentence} (hx : x ∈ out) : x = { s with term := x.term } := by
  unfold matchandintroVar1Sentence at h
  obtain ⟨⟨ts, rng1⟩, h1, h⟩ := R.bind_ok.1 h
  cases h
  obtain ⟨t, ht, rfl⟩ := List.mem_map.1 hx
  rfl

theorem foldAddP_spec {out : List Sentence} {n : Nat} {now : Int} {m m' : PMem}
    (h : out.foldlM (fun m i => memAddEvidenceInternal m i n now) m = .ok m') :
    (∃ l, m'.heap = m.heap ++ l ∧ ∀ x ∈ l, x ∈ out ∧ ∃ cond acts effect, x.term = rule cond acts effect) ∧
      (m.RefsValid → m'.RefsValid) := by
  refine foldlM_inv (fun q : PMem => (∃ l, q.heap = m.heap ++ l ∧ ∀ x ∈ l, x ∈ out ∧
    ∃ cond acts effect, x.term = rule cond acts effect) ∧ (m.RefsValid → q.RefsValid)) h ⟨⟨[], by simp⟩, id⟩ ?_
  rintro i hi q q' ⟨⟨l, hl, hx⟩, hv⟩ hq
  obtain ⟨⟨k, hk⟩, hv', hr⟩ := memAddEvidenceInternal_spec hq
  refine ⟨⟨l ++ List.replicate k i, by rw [hk, hl]; simp, ?_⟩, fun h => hv' (hv h)⟩
  intro x hx'
  rcases List.mem_append.1 hx' with hx' | hx'
  · exact hx x hx'
  · rw [List.eq_of_mem_replicate hx']; exact ⟨hi, hr⟩

theorem memAddEvidence_spec {m m' : PMem} {s : Sentence} {n : Nat} {now : Int} {rng : List Nat}
    (h : memAddEvidence m s n now rng = .ok m') :
    (∃ l, m'.heap = m.heap ++ l ∧ ∀ x ∈ l, StoredCopy s x) ∧ (m.RefsValid → m'.RefsValid) := by
  unfold memAddEvidence at h
  obtain ⟨m1, h1, h⟩ := R.bind_ok.1 h
  obtain ⟨⟨out, rng'⟩, h2, h⟩ := R.bind_ok.1 h
  obtain ⟨⟨k, hk⟩, hv, hr⟩ := memAddEvidenceInternal_spec h1
  obtain ⟨⟨l, hl, hx⟩, hv'⟩ := foldAddP_spec h
  refine ⟨⟨List.replicate k s ++ l, by rw [hl, hk]; simp, ?_⟩, fun h => hv' (hv h)⟩
  intro x hx'
  rcases List.mem_append.1 hx' with hx' | hx'
  · rw [List.eq_of_mem_replicate hx']; exact ⟨rfl, hr⟩
  · exact ⟨introduced_sane h2 (hx x hx').1, (hx x hx').2⟩

theorem workerAdd_spec {m : PMem} {s : Sentence} {n : Nat} {now : Int} {rng : List Nat} :
    (∃ l, (workerAdd m s n now rng).1.heap = m.heap ++ l ∧ ∀ x ∈ l, StoredCopy s x) ∧
      (m.RefsValid → (workerAdd m s n now rng).1.RefsValid) := by
  unfold workerAdd
  split
  · exact ⟨⟨[], by simp⟩, id⟩
  · rename_i m1 h1
    obtain ⟨⟨k, hk⟩, hv, hr⟩ := memAddEvidenceInternal_spec h1
    have first : (∃ l, m1.heap = m.heap ++ l ∧ ∀ x ∈ l, StoredCopy s x) ∧ (m.RefsValid → m1.RefsValid) :=
      ⟨⟨_, hk, fun x hx => by rw [List.eq_of_mem_replicate hx]; exact ⟨rfl, hr⟩⟩, hv⟩
    split
    · exact first
    · rename_i out rng' h2
      split
      · exact first
      · rename_i m2 h3
        obtain ⟨⟨l, hl, hx⟩, hv'⟩ := foldAddP_spec h3
        refine ⟨⟨List.replicate k s ++ l, by rw [hl, hk]; simp, ?_⟩, fun h => hv' (hv h)⟩
        intro x hx'
        rcases List.mem_append.1 hx' with hx' | hx'
        · rw [List.eq_of_mem_replicate hx']; exact ⟨rfl, hr⟩
        · exact ⟨introduced_sane h2 (hx x hx').1, (hx x hx').2⟩

theorem StoredCopy.sane {s x : Sentence} (h : StoredCopy s x)
    (hs : s.punct = .JUGEMENT ∧ ∃ pos cnt, Counts s pos cnt ∧ 0 ≤ pos ∧ pos ≤ cnt ∧ 1 ≤ cnt) : SaneRule x := by
  obtain ⟨h1, h2⟩ := h
  obtain ⟨h3, pos, cnt, h4, h5⟩ := hs
  rw [h1]
  exact ⟨h2, h3, pos, cnt, h4, h5⟩

/-! ## the worker -/

theorem supports_iff {b s : Sentence} {r : Bool} (h : supports b s = .ok r) : r = true ↔ Supports b s := by
  unfold supports at h
  have hov : Stamp.checkOverlap b.stamp s.stamp = true ↔ SharesEvidence b s := Stamp.checkOverlap_iff _ _
  split at h
  · rename_i hc
    obtain ⟨eb, heb, h⟩ := R.bind_ok.1 h
    obtain ⟨es, hes, h⟩ := R.bind_ok.1 h
    have heb := unwrap_ok.1 heb
    have hes := unwrap_ok.1 hes
    cases h
    have hns : ¬ SharesEvidence b s := by rw [← hov]; simpa using hc
    simp only [Bool.and_eq_true, decide_eq_true_eq, checkEqTerm_iff]
    constructor
    · rintro ⟨h1, h2⟩; exact ⟨hns, h2, eb, es, heb, hes, h1⟩
    · rintro ⟨_, h2, eb', es', h3, h4, h5⟩
      rw [heb] at h3; rw [hes] at h4; cases h3; cases h4
      exact ⟨h5, h2⟩
  · rename_i hc
    cases h
    have hs : SharesEvidence b s := by rw [← hov]; simpa using hc
    simp only [Bool.false_eq_true, false_iff]
    exact fun h => h.1 hs

theorem cntOf_ok {s : Sentence} {pc : Int × Int} (h : cntOf s = .ok pc) : Counts s pc.1 pc.2 := by
  unfold cntOf at h
  obtain ⟨e, he, h⟩ := R.bind_ok.1 h
  have he := unwrap_ok.1 he
  cases e with
  | CNT pos cnt => cases h; exact he
  | TV tv => cases h

theorem cntOf_of {s : Sentence} {pos cnt : Int} (h : Counts s pos cnt) : cntOf s = .ok (pos, cnt) := by
  unfold cntOf
  rw [show s.evi = _ from h]; rfl

theorem reviseCell_ok {b s b' : Sentence} (h : reviseCell b s = .ok b') : CountedIn b s b' := by
  unfold reviseCell at h
  obtain ⟨⟨n, k⟩, h1, h⟩ := R.bind_ok.1 h
  obtain ⟨⟨pos, cnt⟩, h2, h⟩ := R.bind_ok.1 h
  cases h
  exact ⟨pos, cnt, n, k, cntOf_ok h2, cntOf_ok h1, rfl⟩

theorem CountedIn.not_again {b s b' : Sentence} (h : CountedIn b s b') (hs : s.stamp.ids ≠ []) : ¬ Supports b' s := by
  obtain ⟨pos, cnt, n, k, _, _, rfl⟩ := h
  intro hsup
  exact hsup.1 ((Stamp.checkOverlap_iff _ _).1 (Stamp.merge_overlap_right b.stamp s.stamp hs))

theorem CountedIn.grown {b s b' : Sentence} (h : CountedIn b s b')
    (hs : ∃ n k, Counts s n k ∧ 0 ≤ n ∧ n ≤ k) : Grown b b' := by
  obtain ⟨pos, cnt, n, k, h1, h2, rfl⟩ := h
  obtain ⟨n', k', h3, h4, h5⟩ := hs
  unfold Counts at h2 h3
  rw [h2] at h3; cases h3
  refine ⟨rfl, rfl, rfl, ?_⟩
  intro pos' cnt' h
  unfold Counts at h h1
  rw [h1] at h; cases h
  exact ⟨_, _, rfl, by omega, by omega, by omega⟩

/-- what one visit of the worker does -/
theorem workerVisit_spec {s : Sentence} {st st' : List Sentence × Bool} {r : Nat} (h : workerVisit s st r = .ok st') :
    ∃ b, st.1[r]? = some b ∧ ((¬ Supports b s ∧ st' = st) ∨
      (Supports b s ∧ ∃ b', CountedIn b s b' ∧ st' = (st.1.set r b', false))) := by
  unfold workerVisit at h
  obtain ⟨b, hb, h⟩ := R.bind_ok.1 h
  obtain ⟨sup, hsup, h⟩ := R.bind_ok.1 h
  have hsup := supports_iff hsup
  refine ⟨b, indexAt_ok.1 hb, ?_⟩
  split at h
  · rename_i hc
    obtain ⟨b', hb', h⟩ := R.bind_ok.1 h
    cases h
    exact .inr ⟨hsup.1 hc, b', reviseCell_ok hb', rfl⟩
  · rename_i hc
    cases h
    exact .inl ⟨fun h => hc (hsup.2 h), rfl⟩

theorem workerVisits_grown {s : Sentence} (hs : ∃ n k, Counts s n k ∧ 0 ≤ n ∧ n ≤ k) (refs : List Nat)
    (st : List Sentence × Bool) : HeapGrown st.1 (workerVisits s refs st).1.1 ∧
      (workerVisits s refs st).1.1.length = st.1.length ∧
      ((∀ b ∈ st.1, SaneRule b) → ∀ b ∈ (workerVisits s refs st).1.1, SaneRule b) := by
  induction refs generalizing st with
  | nil => exact ⟨.refl _, rfl, id⟩
  | cons r rs ih =>
    rw [workerVisits]
    cases hv : workerVisit s st r with
    | error e => exact ⟨.refl _, rfl, id⟩
    | ok st' =>
      simp only
      obtain ⟨g1, g2, g3⟩ := ih st'
      obtain ⟨b, hb, ⟨-, rfl⟩ | ⟨-, b', hb', rfl⟩⟩ := workerVisit_spec hv
      · exact ⟨g1, g2, g3⟩
      · have hg := hb'.grown hs
        refine ⟨(HeapGrown.set hb hg).trans g1, by rw [g2]; simp, fun hsane => g3 ?_⟩
        intro x hx
        rcases List.mem_or_eq_of_mem_set hx with hx | rfl
        · exact hsane x hx
        · obtain ⟨h1, h2, pos, cnt, h3, h4, h5, h6⟩ := hsane b (List.mem_of_getElem? hb)
          obtain ⟨e1, e2, e3, e4⟩ := hg
          obtain ⟨pos', cnt', k1, k2, k3, k4⟩ := e4 pos cnt h3
          exact ⟨by rw [e1]; exact h1, by rw [e3]; exact h2, pos', cnt', k1, by omega, by omega, by omega⟩

/-- exactness of the worker's loop: every visited rule that is supported is counted once, nothing else changes -/
theorem workerVisits_exact {s : Sentence} (hs : s.stamp.ids ≠ []) {refs : List Nat} {st st' : List Sentence × Bool}
    (h : workerVisits s refs st = (st', none)) :
    (∀ (r : Nat) (b : Sentence), st.1[r]? = some b →
      ((r ∈ refs ∧ Supports b s) → ∃ b', CountedIn b s b' ∧ st'.1[r]? = some b') ∧
      (¬ (r ∈ refs ∧ Supports b s) → st'.1[r]? = some b)) ∧
    st'.1.length = st.1.length ∧
    (st'.2 = true ↔ st.2 = true ∧ ∀ r ∈ refs, ∀ b, st.1[r]? = some b → ¬ Supports b s) := by
  induction refs generalizing st with
  | nil =>
    rw [workerVisits] at h
    cases h
    exact ⟨fun r b hb => ⟨fun h => absurd h.1 (by simp), fun _ => hb⟩, rfl, by simp⟩
  | cons r0 rs ih =>
    rw [workerVisits] at h
    cases hv : workerVisit s st r0 with
    | error e => rw [hv] at h; simp only at h; cases (Prod.mk.inj h).2
    | ok st1 =>
      rw [hv] at h
      simp only at h
      obtain ⟨i1, i2, i3⟩ := ih h
      obtain ⟨b0, hb0, ⟨hn, rfl⟩ | ⟨hy, b1, hb1, rfl⟩⟩ := workerVisit_spec hv
      · refine ⟨?_, i2, ?_⟩
        · intro r b hb
          obtain ⟨j1, j2⟩ := i1 r b hb
          constructor
          · rintro ⟨hr, hsup⟩
            rcases List.mem_cons.1 hr with rfl | hr
            · rw [hb0] at hb; cases hb; exact absurd hsup hn
            · exact j1 ⟨hr, hsup⟩
          · intro hc
            exact j2 (fun h => hc ⟨List.mem_cons_of_mem _ h.1, h.2⟩)
        · rw [i3]
          constructor
          · rintro ⟨h1, h2⟩
            refine ⟨h1, fun r hr b hb => ?_⟩
            rcases List.mem_cons.1 hr with rfl | hr
            · rw [hb0] at hb; cases hb; exact hn
            · exact h2 r hr b hb
          · rintro ⟨h1, h2⟩
            exact ⟨h1, fun r hr b hb => h2 r (List.mem_cons_of_mem _ hr) b hb⟩
      · have hlt := (List.getElem?_eq_some_iff.1 hb0).1
        refine ⟨?_, by rw [i2]; simp, ?_⟩
        · intro r b hb
          by_cases hr : r0 = r
          · subst hr
            rw [hb0] at hb; cases hb
            have hself : (st.1.set r0 b1)[r0]? = some b1 := List.getElem?_set_self hlt
            obtain ⟨j1, j2⟩ := i1 r0 b1 hself
            constructor
            · intro _
              exact ⟨b1, hb1, j2 (fun h => hb1.not_again hs h.2)⟩
            · intro hc; exact absurd ⟨by simp, hy⟩ hc
          · have hne : (st.1.set r0 b1)[r]? = some b := by rw [List.getElem?_set_ne hr, hb]
            obtain ⟨j1, j2⟩ := i1 r b hne
            constructor
            · rintro ⟨hrm, hsup⟩
              rcases List.mem_cons.1 hrm with rfl | hrm
              · exact absurd rfl hr
              · exact j1 ⟨hrm, hsup⟩
            · intro hc
              exact j2 (fun h => hc ⟨List.mem_cons_of_mem _ h.1, h.2⟩)
        · rw [i3]
          constructor
          · rintro ⟨h1, _⟩; cases h1
          · rintro ⟨_, h2⟩; exact absurd hy (h2 r0 (by simp) b0 hb0)

theorem workerStore_grown {m : PMem} {s : Sentence} {now : Int} {n : Nat} {rng : List Nat} (hp : s.punct = .JUGEMENT)
    (hs : ∃ pos cnt, Counts s pos cnt ∧ 0 ≤ pos ∧ pos ≤ cnt ∧ 1 ≤ cnt) :
    HeapGrown m.heap (workerStore m s now n rng).1.heap ∧
      ((∀ b ∈ m.heap, SaneRule b) → ∀ b ∈ (workerStore m s now n rng).1.heap, SaneRule b) ∧
      (m.RefsValid → (workerStore m s now n rng).1.RefsValid) := by
  have hs' : ∃ n k, Counts s n k ∧ 0 ≤ n ∧ n ≤ k := by
    obtain ⟨a, b, h1, h2, h3, _⟩ := hs; exact ⟨a, b, h1, h2, h3⟩
  unfold workerStore
  split
  · exact ⟨.refl _, id, id⟩
  · rename_i cond pred _
    obtain ⟨g1, g2, g3⟩ := workerVisits_grown hs' (retBeliefsByTermsNonuniqueP m [cond, pred]) (m.heap, true)
    generalize hv : workerVisits s (retBeliefsByTermsNonuniqueP m [cond, pred]) (m.heap, true) = v at g1 g2 g3 ⊢
    have refs : m.RefsValid → PMem.RefsValid { m with heap := v.1.1 } := by
      intro hr c hc r hr'
      have := hr c hc r hr'
      show r < v.1.1.length
      rw [g2]; exact this
    obtain ⟨⟨heap, flag⟩, err⟩ := v
    cases err with
    | some e => exact ⟨g1, g3, refs⟩
    | none =>
      cases flag with
      | false => exact ⟨g1, g3, refs⟩
      | true =>
        obtain ⟨⟨l, hl, hx⟩, hv'⟩ := workerAdd_spec (m := { m with heap := heap }) (s := s) (n := n) (now := now) (rng := rng)
        refine ⟨?_, ?_, fun h => hv' (refs h)⟩
        · rw [hl]; exact g1.trans (.append _ _)
        · intro hsane b hb
          rw [hl] at hb
          rcases List.mem_append.1 hb with hb | hb
          · exact g3 hsane b hb
          · exact (hx b hb).sane ⟨hp, hs⟩

end Nar
