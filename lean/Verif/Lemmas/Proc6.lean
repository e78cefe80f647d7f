import Verif.Lemmas.Proc5
import Verif.Lemmas.VarIntro
import Verif.Lemmas.Printable
import Verif.Spec.Safe
/-! # Lemmas about the safety of the storage worker -/
namespace Nar
open Term

theorem SaneRule.truth {b : Sentence} (h : SaneRule b) : ∃ tv, HasTruth b tv := by
  obtain ⟨-, -, pos, cnt, h1, h2, h3, h4⟩ := h
  unfold HasTruth retTv
  rw [show b.evi = _ from h1]
  simp only [retFreq, retConf, if_neg (show ¬ cnt = 0 by omega), if_neg (show ¬ cnt = -1 by omega)]
  exact ⟨_, rfl⟩

theorem HasTruth.exp {b : Sentence} (h : ∃ tv, HasTruth b tv) : ∃ x, expOf b = .ok x := by
  obtain ⟨tv, h⟩ := h
  exact ⟨_, (expOf_iff b _).2 ⟨tv, h, rfl⟩⟩

/-- what safety needs of a stored rule -/
structure RuleOk (table : List Int) (b : Sentence) : Prop where
  sane : SaneRule b
  shape : ∃ cond acts op effect args name, b.term = rule cond (acts ++ [op]) effect ∧ IsCall op args name
  delay : ∃ k : Nat, k < table.length ∧ b.expDt = some (k : Int)
  stamp : (-1 : Int) ∉ b.stamp.ids
  text : Printable b.term

theorem mapM_indexAt_total {α} {l : List α} {is : List Nat} (h : ∀ i ∈ is, i < l.length) :
    ∃ r, is.mapM (indexAt l) = .ok r :=
  mapM_total (fun i hi => ⟨_, indexAt_ok.2 (List.getElem?_eq_getElem (h i hi))⟩)

theorem storeTableP_total {key : Sentence → R Rat} {heap : List Sentence} {table : List Nat} {s : Sentence} {n : Nat}
    (hr : ∀ r ∈ table, r < heap.length) (hk : ∀ b, b ∈ heap ∨ b = s → ∃ x, key b = .ok x) :
    ∃ res, storeTableP key heap table s n = .ok res := by
  unfold storeTableP
  obtain ⟨cells, hc⟩ := mapM_indexAt_total hr
  simp only [bind, Except.bind, hc]
  split
  · exact ⟨_, rfl⟩
  · obtain ⟨temp, ht⟩ := keyed_ok_of (key := fun r => (indexAt (heap ++ [shallowCopySentence s]) r).bind key)
      (l := table ++ [heap.length]) (by
        intro r hr'
        have hlt : r < (heap ++ [shallowCopySentence s]).length := by
          rcases List.mem_append.1 hr' with h | h
          · have := hr r h; simp; omega
          · rw [List.mem_singleton] at h; subst h; simp
        obtain ⟨x, hx⟩ := hk (heap ++ [shallowCopySentence s])[r] (by
          have := List.getElem_mem hlt
          rcases List.mem_append.1 this with h | h
          · exact .inl h
          · rw [List.mem_singleton] at h; right; rw [h, shallowCopy_eq])
        refine ⟨x, ?_⟩
        simp only [indexAt_ok.2 (List.getElem?_eq_getElem hlt), Except.bind]
        exact hx)
    simp only [Except.bind] at ht
    rw [ht]
    exact ⟨_, rfl⟩

theorem storeAtP_total {s : Sentence} {n : Nat} {now : Int} {m : PMem} {t : Term} (hv : m.RefsValid)
    (hk : ∀ b, b ∈ m.heap ∨ b = s → ∃ tv, HasTruth b tv) : ∃ m', storeAtP s n now m t = .ok m' := by
  unfold storeAtP
  split
  · rename_i c hc
    have hcv := hv c (PMem.get_some hc).1
    obtain ⟨⟨h1, e⟩, he⟩ := storeTableP_total (key := expOf) (n := n) (s := s) (fun r hr => hcv r (.inl hr))
      (fun b hb => HasTruth.exp (hk b hb))
    obtain ⟨⟨k, rfl⟩, -⟩ := storeTableP_spec he
    obtain ⟨⟨h2, u⟩, hu⟩ := storeTableP_total (key := usefulOf now) (n := n) (s := s) (heap := m.heap ++ List.replicate k s)
      (table := c.byUsage) (fun r hr => by have := hcv r (.inr hr); simp; omega) (fun b _ => ⟨_, rfl⟩)
    simp only [bind, Except.bind, he, hu]
    exact ⟨_, rfl⟩
  · exact ⟨_, rfl⟩

theorem storeInConcepts2P_total {m : PMem} {s : Sentence} {sub : List Term} {n : Nat} {now : Int} (hv : m.RefsValid)
    (hk : ∀ b, b ∈ m.heap ∨ b = s → ∃ tv, HasTruth b tv) : ∃ m', storeInConcepts2P m s sub n now = .ok m' := by
  unfold storeInConcepts2P
  split
  · exact ⟨_, rfl⟩
  · induction sub generalizing m with
    | nil => exact ⟨m, rfl⟩
    | cons t sub ih =>
      obtain ⟨m1, h1⟩ := storeAtP_total (n := n) (now := now) (t := t) hv hk
      obtain ⟨⟨k, hk1⟩, hv1⟩ := storeAtP_spec h1
      obtain ⟨m2, h2⟩ := ih (hv1 hv) (by
        intro b hb
        rcases hb with hb | hb
        · rw [hk1] at hb
          rcases List.mem_append.1 hb with hb | hb
          · exact hk b (.inl hb)
          · exact hk b (.inr (List.eq_of_mem_replicate hb))
        · exact hk b (.inr hb))
      exact ⟨m2, foldlM_cons_ok.2 ⟨m1, h1, h2⟩⟩

theorem condAndPred_rule {s : Sentence} {c e : Term} {acts : List Term} (h : s.term = rule c acts e) :
    condAndPred s.term = .ok (c, e) := by
  rw [h]; rfl

theorem memAddEvidenceInternal_total {m : PMem} {s : Sentence} {n : Nat} {now : Int} (hv : m.RefsValid)
    (hk : ∀ b, b ∈ m.heap ∨ b = s → ∃ tv, HasTruth b tv) {c e : Term} {acts : List Term} (h : s.term = rule c acts e) :
    ∃ m', memAddEvidenceInternal m s n now = .ok m' := by
  obtain ⟨m', hm⟩ := storeInConcepts2P_total (sub := retSubterms c ++ retSubterms e) (n := n) (now := now) hv hk
  refine ⟨m', ?_⟩
  unfold memAddEvidenceInternal
  rw [h]
  exact hm

/-! ## variable introduction -/

theorem varNameLoop_total (n : Nat) {rng : List Nat} (h : ∀ d ∈ rng, d % 16 ≠ 15) :
    ∃ cs rng', varNameLoop n rng = .ok (cs, rng') := by
  induction n generalizing rng with
  | zero => exact ⟨_, _, rfl⟩
  | succ n ih =>
    have hd : rng.headD 0 % 16 < 15 := by
      cases rng with
      | nil => decide
      | cons d ds =>
        have := h d (by simp)
        have := Nat.mod_lt d (show 16 > 0 by omega)
        simp only [List.headD_cons]; omega
    obtain ⟨c, hc⟩ : ∃ c, varAlphabet[rng.headD 0 % 16]? = some c :=
      ⟨_, List.getElem?_eq_getElem (by simpa [varAlphabet] using hd)⟩
    obtain ⟨cs, rng', h1⟩ := ih (rng := rng.tail) (fun d hd => h d (List.mem_of_mem_tail hd))
    refine ⟨c :: cs, rng', ?_⟩
    simp only [varNameLoop, genRange, if_neg (show ¬ (16 : Nat) = 0 by omega), bind, Except.bind, hc, unwrap, h1]

theorem createRandomVarname_total {rng : List Nat} (h : ∀ d ∈ rng, d % 16 ≠ 15) :
    ∃ n rng', createRandomVarname rng = .ok (.IndepVar n, rng') := by
  obtain ⟨cs, rng', h1⟩ := varNameLoop_total 24 h
  unfold createRandomVarname
  rw [h1]
  exact ⟨_, rng', rfl⟩

theorem matchandintro_total {t : Term} {rng : List Nat} (h : ∀ d ∈ rng, d % 16 ≠ 15) :
    ∃ ts rng', matchandintroVar1 t rng = .ok (ts, rng') := by
  unfold matchandintroVar1
  split
  · unfold introVars
    split
    · exact ⟨_, _, rfl⟩
    · obtain ⟨n, rng', h1⟩ := createRandomVarname_total h
      simp only [bind, Except.bind, h1]
      exact ⟨_, _, rfl⟩
  · exact ⟨_, _, rfl⟩

/-- replacing something which is no part of an operator call keeps operator calls -/
theorem replace_call {ops : List Op} {x w t : Term} (hx : ¬ CallPart ops x) (h : RegisteredCall ops t) :
    ∃ args name, IsCall (replaceTerm t x w) args name := by
  obtain ⟨args, name, ⟨hne, rfl⟩, o, ho, rfl⟩ := h
  have h1 : Stmt .INH (.SetExt [.Prod args]) (.Name o.name) ≠ x := fun e => hx (.inl ⟨args, o.name, hne, e.symm⟩)
  have h2 : Term.SetExt [.Prod args] ≠ x := fun e => hx (.inr (.inl ⟨args, e.symm⟩))
  have h3 : Term.Prod args ≠ x := fun e => hx (.inr (.inr (.inl ⟨args, e.symm⟩)))
  have h4 : Term.Name o.name ≠ x := fun e => hx (.inr (.inr (.inr ⟨o, ho, e.symm⟩)))
  refine ⟨args.map (replaceTerm · x w), o.name, by simpa using hne, ?_⟩
  rw [replaceTerm_ne h1]
  simp only [replaceTerm_ne h2, List.map_cons, List.map_nil, replaceTerm_ne h3, replaceTerm_ne h4]

theorem matchandintro_keeps {ops : List Op} {cond effect : Term} {acts : List Term} {rng rng' : List Nat} {ts : List Term}
    (hp : PlainEvent ops cond) (ha : ∀ a ∈ acts, RegisteredCall ops a)
    (h : matchandintroVar1 (rule cond acts effect) rng = .ok (ts, rng')) {t : Term} (ht : t ∈ ts) :
    ∃ cond' acts' op effect' args name, t = rule cond' (acts' ++ [op]) effect' ∧ IsCall op args name := by
  unfold matchandintroVar1 at h
  split at h
  · rename_i x ps b c heq
    unfold rule at heq
    injection heq with _ heq hc
    injection heq with heq
    obtain ⟨rfl, rfl⟩ : cond = Stmt .INH x (SetInt ps) ∧ acts = [b] := by
      injection heq with h1 h2; exact ⟨h1, h2⟩
    have hx := hp.2 x ps rfl
    unfold introVars at h
    split at h
    · cases h; simp at ht
    · obtain ⟨⟨w, rng1⟩, hw, h⟩ := R.bind_ok.1 h
      cases h
      rw [List.mem_singleton] at ht
      subst ht
      have n1 : rule (Stmt .INH x (SetInt ps)) [b] effect ≠ x := by
        intro e
        have := congrArg sizeOf e
        simp [rule] at this
        omega
      have n2 : Term.Seq [Stmt .INH x (SetInt ps), b] ≠ x := by
        intro e
        have := congrArg sizeOf e
        simp at this
        omega
      obtain ⟨args, name, hcall⟩ := replace_call (w := w) hx (ha b (by simp))
      refine ⟨replaceTerm (Stmt .INH x (SetInt ps)) x w, [], replaceTerm b x w, replaceTerm effect x w, args, name, ?_, hcall⟩
      rw [replaceTerm_ne n1]
      unfold rule
      simp only [replaceTerm_ne n2, List.map_cons, List.map_nil, List.nil_append]
  · cases h; simp at ht

theorem createRandomVarname_var {rng rng' : List Nat} {w : Term} (h : createRandomVarname rng = .ok (w, rng')) : IsVar w := by
  unfold createRandomVarname at h
  obtain ⟨⟨cs, rng1⟩, -, h⟩ := R.bind_ok.1 h
  obtain ⟨rfl, rfl⟩ := Prod.mk.inj (Except.ok.inj h)
  trivial

theorem matchandintro_printable {t0 : Term} {rng rng' : List Nat} {ts : List Term} (hp : Printable t0)
    (h : matchandintroVar1 t0 rng = .ok (ts, rng')) {t : Term} (ht : t ∈ ts) : Printable t := by
  unfold matchandintroVar1 at h
  split at h
  · unfold introVars at h
    split at h
    · cases h; simp at ht
    · obtain ⟨⟨w, rng1⟩, hw, h⟩ := R.bind_ok.1 h
      cases h
      rw [List.mem_singleton] at ht
      subst ht
      exact printable_replace (printable_var (createRandomVarname_var hw)) _ hp
  · cases h; simp at ht

/-! ## the worker -/

/-- what safety needs of a message to the worker -/
structure MsgOk (ops : List Op) (table : List Int) (s : Sentence) : Prop where
  rule : RuleOk table s
  plain : ∃ cond acts effect, s.term = Nar.rule cond acts effect ∧ PlainEvent ops cond ∧ ∀ a ∈ acts, RegisteredCall ops a

theorem RuleOk.merge {table : List Int} {b s b' : Sentence} (hb : RuleOk table b) (hs : RuleOk table s)
    (h : CountedIn b s b') : RuleOk table b' := by
  have hsane : SaneRule b' := by
    obtain ⟨_, _, n, k, h1, h2, h3, _⟩ := hs.sane
    exact hb.sane.grown (h.grown ⟨n, k, h1, h2, h3⟩)
  obtain ⟨pos, cnt, n, k, _, _, rfl⟩ := h
  refine ⟨hsane, hb.shape, hb.delay, ?_, hb.text⟩
  show (-1 : Int) ∉ (Stamp.merge b.stamp s.stamp).ids
  rw [Stamp.merge_ids]
  intro hm
  rcases (Stamp.mem_interleave _ _ _).1 (List.mem_of_mem_take hm) with h | h
  · exact hb.stamp h
  · exact hs.stamp h

theorem workerVisits_total {table : List Int} {s : Sentence} (hs : RuleOk table s) {refs : List Nat}
    {st : List Sentence × Bool} (hh : ∀ b ∈ st.1, RuleOk table b) (hr : ∀ r ∈ refs, r < st.1.length) :
    ∃ st', workerVisits s refs st = (st', none) ∧ st'.1.length = st.1.length ∧ ∀ b ∈ st'.1, RuleOk table b := by
  induction refs generalizing st with
  | nil => exact ⟨st, rfl, rfl, hh⟩
  | cons r rs ih =>
    have hlt := hr r (by simp)
    have hb := hh st.1[r] (List.getElem_mem _)
    have hget : st.1[r]? = some st.1[r] := List.getElem?_eq_getElem hlt
    have hv : ∃ st1, workerVisit s st r = .ok st1 := by
      unfold workerVisit
      obtain ⟨k, _, hk⟩ := hb.delay
      obtain ⟨k', _, hk'⟩ := hs.delay
      have hsup : ∃ x, supports st.1[r] s = .ok x := by
        unfold supports
        split
        · rw [hk, hk']; exact ⟨_, rfl⟩
        · exact ⟨_, rfl⟩
      obtain ⟨x, hx⟩ := hsup
      simp only [bind, Except.bind, indexAt_ok.2 hget, hx]
      split
      · obtain ⟨_, _, p1, c1, h1, _⟩ := hb.sane
        obtain ⟨_, _, p2, c2, h2, _⟩ := hs.sane
        simp only [reviseCell, cntOf_of h1, cntOf_of h2, bind, Except.bind]
        exact ⟨_, rfl⟩
      · exact ⟨_, rfl⟩
    obtain ⟨st1, hst1⟩ := hv
    rw [workerVisits, hst1]
    simp only
    obtain ⟨b, hb', hc⟩ := workerVisit_spec hst1
    rw [hget] at hb'
    cases hb'
    rcases hc with ⟨-, rfl⟩ | ⟨-, b', hb', rfl⟩
    · exact ih hh (fun r hr' => hr r (by simp [hr']))
    · obtain ⟨st', h1, h2, h3⟩ := ih (st := (st.1.set r b', false)) (by
        intro y hy
        rcases List.mem_or_eq_of_mem_set hy with hy | rfl
        · exact hh y hy
        · exact hb.merge hs hb') (by intro r' hr'; simp; exact hr r' (by simp [hr']))
      exact ⟨st', h1, by rw [h2]; simp, h3⟩

theorem foldAddP_total {out : List Sentence} {n : Nat} {now : Int} {m : PMem} (hv : m.RefsValid)
    (hk : ∀ b ∈ m.heap, ∃ tv, HasTruth b tv) (hx : ∀ x ∈ out, (∃ tv, HasTruth x tv) ∧ ∃ c as e, x.term = rule c as e) :
    ∃ m', out.foldlM (fun m i => memAddEvidenceInternal m i n now) m = .ok m' := by
  induction out generalizing m with
  | nil => exact ⟨m, rfl⟩
  | cons x out ih =>
    obtain ⟨h1, c, as, e, h2⟩ := hx x (by simp)
    obtain ⟨m1, hm1⟩ := memAddEvidenceInternal_total (n := n) (now := now) hv (by
      rintro b (hb | rfl)
      · exact hk b hb
      · exact h1) h2
    obtain ⟨⟨k, hk1⟩, hv1, -⟩ := memAddEvidenceInternal_spec hm1
    obtain ⟨m2, hm2⟩ := ih (hv1 hv) (by
      intro b hb
      rw [hk1] at hb
      rcases List.mem_append.1 hb with hb | hb
      · exact hk b hb
      · rw [List.eq_of_mem_replicate hb]; exact h1) (fun y hy => hx y (by simp [hy]))
    exact ⟨m2, foldlM_cons_ok.2 ⟨m1, hm1, hm2⟩⟩

theorem workerAdd_total {ops : List Op} {table : List Int} {m : PMem} {s : Sentence} {n : Nat} {now : Int} {rng : List Nat}
    (hv : m.RefsValid) (hh : ∀ b ∈ m.heap, RuleOk table b) (hs : MsgOk ops table s) (hr : ∀ d ∈ rng, d % 16 ≠ 15) :
    ∃ m', workerAdd m s n now rng = (m', none) ∧ m'.RefsValid ∧ m.heap.length ≤ m'.heap.length ∧
      ∀ b ∈ m'.heap, RuleOk table b := by
  obtain ⟨cond, acts, effect, hterm, hp, ha⟩ := hs.plain
  obtain ⟨m1, hm1⟩ := memAddEvidenceInternal_total (n := n) (now := now) hv (by
    rintro b (hb | rfl)
    · exact (hh b hb).sane.truth
    · exact hs.rule.sane.truth) hterm
  obtain ⟨⟨k, hk1⟩, hv1, -⟩ := memAddEvidenceInternal_spec hm1
  have hh1 : ∀ b ∈ m1.heap, RuleOk table b := by
    intro b hb
    rw [hk1] at hb
    rcases List.mem_append.1 hb with hb | hb
    · exact hh b hb
    · rw [List.eq_of_mem_replicate hb]; exact hs.rule
  obtain ⟨ts, rng', hts⟩ := matchandintro_total (t := s.term) hr
  have hsent : matchandintroVar1Sentence s rng =
      .ok (ts.map (fun t => { shallowCopySentence s with term := t }), rng') := by
    unfold matchandintroVar1Sentence
    rw [hts]; rfl
  have hx : ∀ x ∈ ts.map (fun t => { shallowCopySentence s with term := t }), RuleOk table x := by
    intro x hx
    obtain ⟨t, ht, rfl⟩ := List.mem_map.1 hx
    have htext := matchandintro_printable hs.rule.text hts ht
    rw [hterm] at hts
    obtain ⟨c', as', op, e', args, name, rfl, hcall⟩ := matchandintro_keeps hp ha hts ht
    obtain ⟨_, h2, h3⟩ := hs.rule.sane
    rw [shallowCopy_eq]
    exact ⟨⟨⟨_, _, _, rfl⟩, h2, h3⟩, ⟨_, _, _, _, _, _, rfl, hcall⟩, hs.rule.delay, hs.rule.stamp, htext⟩
  obtain ⟨m2, hm2⟩ := foldAddP_total (n := n) (now := now) (hv1 hv) (fun b hb => (hh1 b hb).sane.truth)
    (out := ts.map (fun t => { shallowCopySentence s with term := t })) (fun x hx' => ⟨(hx x hx').sane.truth, by
      obtain ⟨c, as, op, e, _, _, h, _⟩ := (hx x hx').shape
      exact ⟨_, _, _, h⟩⟩)
  obtain ⟨⟨l, hl, hlx⟩, hv2⟩ := foldAddP_spec hm2
  refine ⟨m2, ?_, hv2 (hv1 hv), by rw [hl, hk1]; simp, ?_⟩
  · unfold workerAdd
    rw [hm1]
    simp only [hsent, hm2]
  · intro b hb
    rw [hl] at hb
    rcases List.mem_append.1 hb with hb | hb
    · exact hh1 b hb
    · exact hx b (hlx b hb).1

theorem byTerms_refs {m : PMem} (hm : m.RefsValid) (ts : List Term) :
    ∀ r ∈ retBeliefsByTermsNonuniqueP m ts, r < m.heap.length := by
  intro r hr
  unfold retBeliefsByTermsNonuniqueP at hr
  simp only [List.mem_flatMap] at hr
  obtain ⟨t, -, sub, -, hr⟩ := hr
  unfold retBeliefsOfConceptP at hr
  cases hg : m.get sub with
  | none => rw [hg] at hr; simp at hr
  | some c =>
    rw [hg] at hr
    simp at hr
    exact hm c (List.mem_of_find?_eq_some hg) r hr

theorem workerStore_total {ops : List Op} {table : List Int} {m : PMem} {s : Sentence} {n : Nat} {now : Int} {rng : List Nat}
    (hv : m.RefsValid) (hh : ∀ b ∈ m.heap, RuleOk table b) (hs : MsgOk ops table s) (hr : ∀ d ∈ rng, d % 16 ≠ 15) :
    ∃ m', workerStore m s now n rng = (m', none) ∧ m'.RefsValid ∧ m.heap.length ≤ m'.heap.length ∧
      ∀ b ∈ m'.heap, RuleOk table b := by
  obtain ⟨cond, acts, effect, hterm, hp, ha⟩ := hs.plain
  obtain ⟨⟨heap, fl⟩, h1, h2, h3⟩ := workerVisits_total hs.rule (refs := retBeliefsByTermsNonuniqueP m [cond, effect])
    (st := (m.heap, true)) hh (byTerms_refs hv _)
  have hv' : PMem.RefsValid { m with heap := heap } := by
    intro c hc r hr'
    show r < heap.length
    rw [show heap.length = m.heap.length from h2]
    exact hv c hc r hr'
  unfold workerStore
  rw [condAndPred_rule hterm]
  simp only [h1]
  cases fl with
  | false => exact ⟨_, rfl, hv', le_of_eq h2.symm, h3⟩
  | true =>
    obtain ⟨m', k1, k2, k3, k4⟩ := workerAdd_total (ops := ops) (n := n) (now := now) hv' h3 hs hr
    exact ⟨m', k1, k2, le_trans (le_of_eq h2.symm) k3, k4⟩

end Nar
