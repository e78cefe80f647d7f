import Verif.Props.Ways
import Verif.Props.VarIntro
/-! # Lemmas about learning from a single experience -/
namespace Nar
open Term Nar.Props

/-! ## the experience is noticed -/

theorem idxs_three {p : Proc} {x y z : Event} (ht : p.trace = [x, y, z]) (hx : ¬ RegisteredCall p.ops x.name)
    (hy : RegisteredCall p.ops y.name) (hz : ¬ RegisteredCall p.ops z.name) : calcIdxsOfOps p.ops p.trace = [1] := by
  unfold calcIdxsOfOps
  rw [ht]
  have h1 := (callable_false p.ops x.name).2 hx
  have h2 := (callable_iff p.ops y.name).2 hy
  have h3 := (callable_false p.ops z.name).2 hz
  simp [List.zipIdx, List.filter, h1, h2, h3]

theorem perceive_three {p : Proc} (hmax : p.nOpsMax ≠ 0) (halive : p.workerAlive = true) {x y z : Event}
    (ht : p.trace = [x, y, z]) (hx : ¬ RegisteredCall p.ops x.name) (hz : ¬ RegisteredCall p.ops z.name)
    (hne : x.name ≠ z.name) {args : List Term} {name : String} (hcall : IsCall y.name args name) {o : Op}
    (ho : retOpByName p.ops name = some o) (d : SampleDraws) (hd : d.ops ≠ []) :
    perceiveSample p d = .ok { p with queue := p.queue ++ [(observed p o.eviCnt x y z, p.t)] } := by
  have hreg : ∃ o ∈ p.ops, o.name = name := retOpByName_isSome.2 ⟨o, ho⟩
  have hy : RegisteredCall p.ops y.name := ⟨args, name, hcall, hreg⟩
  have hidx := idxs_three ht hx hy hz
  obtain ⟨d0, ds, hds⟩ := List.exists_cons_of_ne_nil hd
  have hn : nSelOps p 1 d.multi = 1 := by
    unfold nSelOps
    split
    · rfl
    · split
      · split
        · rfl
        · omega
      · rfl
  have hsel : selectOps [1] 1 d.ops [] = .ok [1] := by
    rw [hds]
    unfold selectOps genRange
    rw [if_neg (by decide)]
    simp only [bind, Except.bind, List.headD_cons, List.length_singleton, Nat.mod_one]
    rfl
  have hlast : lastIdx p 1 d.prev = .ok 2 := by
    unfold lastIdx
    rw [ht]
    simp only [bind, Except.bind, genRange]
    rw [if_neg (by decide)]
    simp only [List.length_cons, List.length_nil]
    rw [show indexAt [x, y, z] (0 + 1 + 1 + 1 - 2) = .ok y from rfl]
    simp
  have hitems : selectItems p d = .ok (some [x, y, z]) := by
    unfold selectItems
    simp only
    rw [hidx, if_neg (by decide)]
    rw [show ([1] : List Nat).length = 1 from rfl, hn, hsel]
    simp only [bind, Except.bind]
    rw [show unwrap ([1].min?) = .ok 1 from rfl, show unwrap ([1].max?) = .ok 1 from rfl]
    simp only
    rw [if_neg (by decide)]
    unfold genRange
    rw [if_neg (by decide)]
    simp only [List.headD_cons, Nat.mod_one]
    rw [hlast]
    simp only
    rw [ht]
    rfl
  have hbuild : tryBuildImplSeq p.ops [x.name, y.name, z.name] = .ok (some (rule x.name [y.name] z.name)) := by
    rcases tryBuildImplSeq_of (ops := p.ops) (first := x.name) (last := z.name) (acts := [y.name]) (by simp) with h | h
    · exact h.1
    · exact absurd ⟨by simpa using hy, hx, hz, hne⟩ h.2
  have hc : eviCntOf p.ops (rule x.name [y.name] z.name) = .ok o.eviCnt := by
    unfold eviCntOf
    rw [show retImplSeqOp (rule x.name [y.name] z.name) = .ok y.name from rfl]
    simp only [bind, Except.bind, (decodeOp_iff _ _ _).2 hcall, unwrap, ho]
  have hev : evidenceOf p [x, y, z] = .ok (some (observed p o.eviCnt x y z)) := by
    unfold evidenceOf
    simp only [List.map_cons, List.map_nil, hbuild, bind, Except.bind, hc]
    rfl
  unfold perceiveSample
  rw [hitems]
  simp only [bind, Except.bind, hev]
  unfold sendToWorker
  rw [if_pos halive]

theorem samples_three {x y z : Event} {args : List Term} {name : String} {o : Op} (hne : x.name ≠ z.name)
    (hcall : IsCall y.name args name) (draws : Nat → SampleDraws) (hd : ∀ i, (draws i).ops ≠ []) (l : List Nat) (p : Proc)
    (hmax : p.nOpsMax ≠ 0) (halive : p.workerAlive = true) (ht : p.trace = [x, y, z]) (hx : ¬ RegisteredCall p.ops x.name)
    (hz : ¬ RegisteredCall p.ops z.name) (ho : retOpByName p.ops name = some o) :
    l.foldlM (fun p i => perceiveSample p (draws i)) p =
      .ok { p with queue := p.queue ++ List.replicate l.length (observed p o.eviCnt x y z, p.t) } := by
  induction l generalizing p with
  | nil => simp; rfl
  | cons i l ih =>
    rw [List.foldlM_cons, perceive_three hmax halive ht hx hz hne hcall ho (draws i) (hd i)]
    show List.foldlM _ { p with queue := p.queue ++ [(observed p o.eviCnt x y z, p.t)] } l = _
    rw [ih { p with queue := p.queue ++ [(observed p o.eviCnt x y z, p.t)] } hmax halive ht hx hz ho]
    simp [List.replicate_succ, observed]

theorem filterR_nil {α} (f : α → R Bool) : filterR f [] = .ok [] := rfl

theorem step0_three {p : Proc} (hfresh : Fresh p) (hmax : p.nOpsMax ≠ 0) (halive : p.workerAlive = true) {x y z : Event}
    (ht : p.trace = [x, y, z]) (hx : ¬ RegisteredCall p.ops x.name) (hz : ¬ RegisteredCall p.ops z.name)
    (hne : x.name ≠ z.name) {args : List Term} {name : String} (hcall : IsCall y.name args name) {o : Op}
    (ho : retOpByName p.ops name = some o) (draws : Nat → SampleDraws) (hd : ∀ i, (draws i).ops ≠ []) :
    narStep0 p draws = .ok { p with goals := satisfyLast p
                                    queue := List.replicate p.samplesPerStep (observed p o.eviCnt x y z, p.t) } := by
  obtain ⟨h1, h2, h3⟩ := hfresh
  have hconf : (List.range p.perceptWindow).foldlM (confirm p) p.anticipated = .ok [] := by
    rw [h2]
    generalize List.range p.perceptWindow = l
    induction l with
    | nil => rfl
    | cons i l ih =>
      rw [List.foldlM_cons]
      have : confirm p [] i = .ok [] := by unfold confirm; split <;> rfl
      rw [this]
      exact ih
  unfold narStep0
  rw [hconf]
  simp only [bind, Except.bind]
  rw [show negConfirmAll p.mem.heap p.t [] = .ok p.mem.heap from rfl]
  simp only [List.filter_nil]
  unfold traceStep
  rw [if_pos (by rw [ht]; simp)]
  have e2 : ({ p with mem := { p.mem with heap := p.mem.heap }, anticipated := [] } : Proc) = p := by
    obtain ⟨_, _, _, _, _, _, _, _, _, _, _, _, _, _, _, _, _⟩ := p
    simp only at h2; subst h2; rfl
  rw [e2]
  have := samples_three (o := o) hne hcall draws hd (List.range p.samplesPerStep)
    { p with goals := satisfyLast p } hmax halive ht hx hz ho
  rw [this]
  simp [h3, observed]

/-! ## the experience is stored -/

theorem find_setC_self {cs : List PConcept} {t : Term} {c c' : PConcept} (h : cs.find? (fun c => checkEqTerm c.name t) = some c)
    (hn : c'.name = t) : (PMem.setC cs c').find? (fun c => checkEqTerm c.name t) = some c' := by
  induction cs with
  | nil => cases h
  | cons d cs ih =>
    unfold PMem.setC at ih ⊢
    rw [List.map_cons, List.find?_cons]
    rw [List.find?_cons] at h
    by_cases hd : checkEqTerm d.name t = true
    · have : checkEqTerm d.name c'.name = true := by rw [hn]; exact hd
      rw [if_pos this, show checkEqTerm c'.name t = true from (checkEqTerm_iff _ _).2 hn]
    · have hd' : checkEqTerm d.name t = false := by simpa using hd
      have : ¬ checkEqTerm d.name c'.name = true := by rw [hn]; exact hd
      rw [if_neg this]
      simp only [hd'] at h ⊢
      exact ih h

theorem find_setC_ne {cs : List PConcept} {t : Term} {c' : PConcept} (hn : c'.name ≠ t) :
    (PMem.setC cs c').find? (fun c => checkEqTerm c.name t) = cs.find? (fun c => checkEqTerm c.name t) := by
  induction cs with
  | nil => rfl
  | cons d cs ih =>
    unfold PMem.setC at ih ⊢
    rw [List.map_cons, List.find?_cons, List.find?_cons]
    by_cases hd : checkEqTerm d.name c'.name = true
    · rw [if_pos hd, ih]
      have e := (checkEqTerm_iff _ _).1 hd
      have h1 : checkEqTerm c'.name t = false := by
        rw [← Bool.not_eq_true, checkEqTerm_iff]; exact hn
      rw [e, h1]
    · rw [if_neg hd, ih]

theorem sortDesc_id {α} (l : List (Rat × α)) (v : Rat) (h : ∀ x ∈ l, x.1 = v) : sortDesc l = l := by
  induction l with
  | nil => rfl
  | cons a l ih =>
    rw [sortDesc, ih (fun x hx => h x (by simp [hx]))]
    cases l with
    | nil => rfl
    | cons b l =>
      rw [insertDesc, if_pos (by rw [h a (by simp), h b (by simp)])]

theorem expOf_evi {x y : Sentence} (h : x.evi = y.evi) : expOf x = expOf y := by
  unfold expOf retTv
  rw [h]

/-- all stored rules have the evidence `e` -/
def AllEvi (e : Option Evidence) (h : List Sentence) : Prop := ∀ x ∈ h, x.evi = e

theorem storeTableP_head {heap heap' : List Sentence} {r : Nat} {rest table' : List Nat} {s : Sentence} {n : Nat} (hn : 1 ≤ n)
    (ha : AllEvi s.evi heap) (h : storeTableP expOf heap (r :: rest) s n = .ok (heap', table')) : ∃ rest', table' = r :: rest' := by
  unfold storeTableP at h
  obtain ⟨cells, _, h⟩ := R.bind_ok.1 h
  split at h
  · obtain ⟨rfl, rfl⟩ := Prod.mk.inj (Except.ok.inj h)
    exact ⟨rest, rfl⟩
  · obtain ⟨temp, ht, h⟩ := R.bind_ok.1 h
    obtain ⟨rfl, rfl⟩ := Prod.mk.inj (Except.ok.inj h)
    obtain ⟨h1, h2⟩ := keyed_ok_map ht
    have hne : temp ≠ [] := by rintro rfl; cases h1
    obtain ⟨p0, temp', rfl⟩ := List.exists_cons_of_ne_nil hne
    have hk : ∀ p ∈ p0 :: temp', expOf s = .ok p.1 := by
      intro p hp
      obtain ⟨c, hc, hcx⟩ := R.bind_ok.1 (h2 p hp)
      have hm := List.mem_of_getElem? (indexAt_ok.1 hc)
      have : c.evi = s.evi := by
        rcases List.mem_append.1 hm with hm | hm
        · exact ha c hm
        · rw [List.mem_singleton] at hm; subst hm; rfl
      rw [← expOf_evi this]; exact hcx
    have hv : ∀ p ∈ p0 :: temp', p.1 = p0.1 := by
      intro p hp
      have a1 := hk p hp
      have a2 := hk p0 (by simp)
      rw [a1] at a2
      exact Except.ok.inj a2
    rw [sortDesc_id _ p0.1 hv, h1]
    obtain ⟨k, hk⟩ : ∃ k, min (r :: rest ++ [heap.length]).length n = k + 1 :=
      ⟨min (r :: rest ++ [heap.length]).length n - 1, by simp; omega⟩
    rw [hk]
    exact ⟨_, rfl⟩

/-- the first rule of the concept of `a` is `goal` -/
def KnownFirst (a target : Term) (m : PMem) : Prop :=
  ∃ c r rest b, m.get a = some c ∧ c.byExp = r :: rest ∧ m.heap[r]? = some b ∧ b.term = target

theorem getElem?_append_some {α} {l l' : List α} {r : Nat} {b : α} (h : l[r]? = some b) : (l ++ l')[r]? = some b := by
  rw [List.getElem?_append_left (by by_contra hlt; rw [List.getElem?_eq_none (by omega)] at h; cases h)]
  exact h

theorem storeAtP_known {s : Sentence} {n : Nat} {now : Int} {m m' : PMem} {t a target : Term} (hn : 1 ≤ n)
    (ha : AllEvi s.evi m.heap) (h : storeAtP s n now m t = .ok m') (hk : KnownFirst a target m) : KnownFirst a target m' := by
  obtain ⟨c, r, rest, b, k1, k2, k3, k4⟩ := hk
  have hheap := (storeAtP_spec h).1
  obtain ⟨k, hk⟩ := hheap
  have hb : m'.heap[r]? = some b := by rw [hk]; exact getElem?_append_some k3
  unfold storeAtP at h
  split at h
  · rename_i d hd
    obtain ⟨⟨h1, e⟩, he, h⟩ := R.bind_ok.1 h
    obtain ⟨⟨h2, u⟩, hu, h⟩ := R.bind_ok.1 h
    have h := Except.ok.inj h
    have hdn := (PMem.get_some hd).2
    by_cases hta : t = a
    · subst hta
      rw [k1] at hd
      cases hd
      rw [k2] at he
      obtain ⟨rest', rfl⟩ := storeTableP_head hn ha he
      refine ⟨{ c with byExp := r :: rest', byUsage := u }, r, rest', b, ?_, rfl, hb, k4⟩
      rw [← h]
      exact find_setC_self k1 hdn
    · refine ⟨c, r, rest, b, ?_, k2, hb, k4⟩
      rw [← h]
      unfold PMem.get
      rw [find_setC_ne (by show d.name ≠ a; rw [hdn]; exact hta)]
      exact k1
  · rename_i hd
    have h := Except.ok.inj h
    refine ⟨c, r, rest, b, ?_, k2, hb, k4⟩
    rw [← h]
    unfold PMem.get
    rw [List.find?_append]
    have : m.concepts.find? (fun c => checkEqTerm c.name a) = some c := k1
    rw [this]
    rfl

theorem storeAtP_new {s : Sentence} {n : Nat} {now : Int} {m m' : PMem} {a target : Term} (hs : s.term = target)
    (hno : m.get a = none) (h : storeAtP s n now m a = .ok m') : KnownFirst a target m' := by
  unfold storeAtP at h
  rw [hno] at h
  have h := Except.ok.inj h
  refine ⟨⟨a, [m.heap.length], [m.heap.length + 1]⟩, m.heap.length, [], s, ?_, rfl, ?_, hs⟩
  · rw [← h]
    unfold PMem.get
    rw [List.find?_append]
    have : m.concepts.find? (fun c => checkEqTerm c.name a) = none := hno
    rw [this]
    simp [(checkEqTerm_iff a a).2 rfl]
  · rw [← h]
    simp [shallowCopy_eq]

theorem storeAtP_other {s : Sentence} {n : Nat} {now : Int} {m m' : PMem} {t a : Term} (hta : t ≠ a)
    (hno : m.get a = none) (h : storeAtP s n now m t = .ok m') : m'.get a = none := by
  unfold storeAtP at h
  split at h
  · rename_i d hd
    obtain ⟨⟨h1, e⟩, he, h⟩ := R.bind_ok.1 h
    obtain ⟨⟨h2, u⟩, hu, h⟩ := R.bind_ok.1 h
    have h := Except.ok.inj h
    have hdn := (PMem.get_some hd).2
    rw [← h]
    unfold PMem.get
    rw [find_setC_ne (by show d.name ≠ a; rw [hdn]; exact hta)]
    exact hno
  · have h := Except.ok.inj h
    rw [← h]
    unfold PMem.get
    rw [List.find?_append]
    have : m.concepts.find? (fun c => checkEqTerm c.name a) = none := hno
    rw [this]
    have h2 : checkEqTerm t a = false := by rw [← Bool.not_eq_true, checkEqTerm_iff]; exact hta
    simp [h2]

theorem storeFoldP_known {s : Sentence} {n : Nat} {now : Int} {m m' : PMem} {a : Term} (hn : 1 ≤ n) (l : List Term)
    (ha : AllEvi s.evi m.heap) (h : l.foldlM (storeAtP s n now) m = .ok m') :
    AllEvi s.evi m'.heap ∧ (∀ target, KnownFirst a target m → KnownFirst a target m') ∧
      (m.get a = none → a ∈ l → KnownFirst a s.term m') := by
  induction l generalizing m with
  | nil =>
    rw [foldlM_nil_ok] at h
    subst h
    exact ⟨ha, fun _ h => h, fun _ h => by cases h⟩
  | cons t l ih =>
    obtain ⟨m1, h1, h⟩ := foldlM_cons_ok.1 h
    have ha1 : AllEvi s.evi m1.heap := by
      obtain ⟨k, hk⟩ := (storeAtP_spec h1).1
      intro x hx
      rw [hk] at hx
      rcases List.mem_append.1 hx with hx | hx
      · exact ha x hx
      · rw [List.eq_of_mem_replicate hx]
    obtain ⟨i1, i2, i3⟩ := ih ha1 h
    refine ⟨i1, fun g hg => i2 g (storeAtP_known hn ha h1 hg), ?_⟩
    intro hno hm
    by_cases hta : t = a
    · subst hta
      exact i2 _ (storeAtP_new rfl hno h1)
    · rcases List.mem_cons.1 hm with hm | hm
      · exact absurd hm.symm hta
      · exact i3 (storeAtP_other hta hno h1) hm

theorem internal_known {s : Sentence} {n : Nat} {now : Int} {m m' : PMem} {a : Term} (hn : 1 ≤ n) (hp : s.punct = .JUGEMENT)
    (ha : AllEvi s.evi m.heap) (h : memAddEvidenceInternal m s n now = .ok m') :
    AllEvi s.evi m'.heap ∧ (∀ target, KnownFirst a target m → KnownFirst a target m') ∧
      (m.get a = none → (∃ acts e, s.term = rule a acts e) → KnownFirst a s.term m') := by
  unfold memAddEvidenceInternal at h
  obtain ⟨cond, hc, h⟩ := R.bind_ok.1 h
  obtain ⟨pred, hpr, h⟩ := R.bind_ok.1 h
  unfold storeInConcepts2P at h
  rw [if_neg (by simpa using hp)] at h
  obtain ⟨h1, h2, h3⟩ := storeFoldP_known (a := a) hn _ ha h
  refine ⟨h1, h2, ?_⟩
  rintro hno ⟨acts, e, he⟩
  refine h3 hno ?_
  rw [he] at hc
  cases Except.ok.inj hc
  exact List.mem_append_left _ (self_mem_retSubterms a)

theorem addEvidence_known {s : Sentence} {n : Nat} {now : Int} {rng : List Nat} {m m' : PMem} {a : Term} (hn : 1 ≤ n)
    (hp : s.punct = .JUGEMENT) (ha : AllEvi s.evi m.heap) (h : memAddEvidence m s n now rng = .ok m') :
    AllEvi s.evi m'.heap ∧ (∀ target, KnownFirst a target m → KnownFirst a target m') ∧
      (m.get a = none → (∃ acts e, s.term = rule a acts e) → KnownFirst a s.term m') := by
  unfold memAddEvidence at h
  obtain ⟨m1, h1, h⟩ := R.bind_ok.1 h
  obtain ⟨⟨out, rng'⟩, h2, h⟩ := R.bind_ok.1 h
  simp only at h
  obtain ⟨i1, i2, i3⟩ := internal_known (a := a) hn hp ha h1
  have key : ∀ (l : List Sentence), (∀ x ∈ l, x = { s with term := x.term }) → ∀ (q q' : PMem), AllEvi s.evi q.heap →
      l.foldlM (fun m i => memAddEvidenceInternal m i n now) q = .ok q' →
      AllEvi s.evi q'.heap ∧ ∀ target, KnownFirst a target q → KnownFirst a target q' := by
    intro l
    induction l with
    | nil =>
      intro _ q q' hq hf
      rw [foldlM_nil_ok] at hf
      subst hf
      exact ⟨hq, fun _ h => h⟩
    | cons x l ih =>
      intro hl q q' hq hf
      obtain ⟨q1, hf1, hf⟩ := foldlM_cons_ok.1 hf
      have hx := hl x (by simp)
      have he : x.evi = s.evi := by rw [hx]
      obtain ⟨j1, j2, _⟩ := internal_known (a := a) hn (by rw [hx]; exact hp) (he ▸ hq) hf1
      obtain ⟨l1, l2⟩ := ih (fun y hy => hl y (by simp [hy])) q1 q' (he ▸ j1) hf
      exact ⟨l1, fun g hg => l2 g (j2 g hg)⟩
  obtain ⟨j1, j2⟩ := key out (fun x hx => introduced_sane h2 hx) m1 m' i1 h
  exact ⟨j1, fun g hg => j2 g (i2 g hg), fun h1 h2 => j2 _ (i3 h1 h2)⟩

/-! ## rounds of the worker -/

theorem introduced_cond {a e : Term} {acts : List Term} {rng rng' : List Nat} {ts : List Term}
    (hvar : ∀ v q, a ≠ .Stmt .INH (.IndepVar v) q) (h : matchandintroVar1 (rule a acts e) rng = .ok (ts, rng')) {t : Term}
    (ht : t ∈ ts) (acts' : List Term) (e' : Term) : t ≠ rule a acts' e' := by
  unfold matchandintroVar1 at h
  split at h
  · rename_i x ps b c heq
    unfold rule at heq
    injection heq with _ heq hc
    injection heq with heq
    obtain ⟨rfl, rfl⟩ : a = Stmt .INH x (SetInt ps) ∧ acts = [b] := by
      injection heq with h1 h2; exact ⟨h1, h2⟩
    unfold introVars at h
    split at h
    · cases h; simp at ht
    · obtain ⟨⟨w, rng1⟩, hw, h⟩ := R.bind_ok.1 h
      cases h
      rw [List.mem_singleton] at ht
      subst ht
      have n1 : rule (Stmt .INH x (SetInt ps)) [b] e ≠ x := by
        intro e
        have := congrArg sizeOf e
        simp [rule] at this
        omega
      have n2 : Term.Seq [Stmt .INH x (SetInt ps), b] ≠ x := by
        intro e
        have := congrArg sizeOf e
        simp at this
        omega
      have n3 : Stmt .INH x (SetInt ps) ≠ x := by
        intro e
        have := congrArg sizeOf e
        simp at this
        omega
      rw [replaceTerm_ne n1]
      unfold rule
      simp only [replaceTerm_ne n2, List.map_cons, List.map_nil, replaceTerm_ne n3]
      intro he
      injection he with _ he _
      injection he with he
      injection he with he _
      injection he with _ he _
      have hx : replaceTerm x x w = w := by
        rw [replaceTerm.eq_def, if_pos ((checkEqTerm_iff _ _).2 rfl)]
      rw [hx] at he
      unfold createRandomVarname at hw
      obtain ⟨⟨cs, rng2⟩, -, hw⟩ := R.bind_ok.1 hw
      obtain ⟨hw, _⟩ := Prod.mk.inj (Except.ok.inj hw)
      exact hvar _ _ (by rw [← he, ← hw])
  · cases h; simp at ht

theorem foldAddP_mem {out : List Sentence} {n : Nat} {now : Int} {m m' : PMem}
    (h : out.foldlM (fun m i => memAddEvidenceInternal m i n now) m = .ok m') (x : Sentence) (hx : x ∈ m'.heap) :
    x ∈ m.heap ∨ x ∈ out := by
  obtain ⟨⟨l, hl, hm⟩, _⟩ := foldAddP_spec h
  rw [hl] at hx
  exact (List.mem_append.1 hx).imp id (fun h => (hm x h).1)

theorem addEvidence_mem {s : Sentence} {n : Nat} {now : Int} {rng : List Nat} {m m' : PMem} {a e : Term} {acts : List Term}
    (hs : s.term = rule a acts e) (hvar : ∀ v q, a ≠ .Stmt .INH (.IndepVar v) q)
    (h : memAddEvidence m s n now rng = .ok m') (x : Sentence) (hx : x ∈ m'.heap) :
    x ∈ m.heap ∨ (x = { s with term := x.term } ∧ (x.term = s.term ∨ ∀ acts e, x.term ≠ rule a acts e)) := by
  unfold memAddEvidence at h
  obtain ⟨m1, h1, h⟩ := R.bind_ok.1 h
  obtain ⟨⟨out, rng'⟩, h2, h⟩ := R.bind_ok.1 h
  simp only at h
  rcases foldAddP_mem h x hx with hx | hx
  · obtain ⟨⟨k, hk⟩, _⟩ := memAddEvidenceInternal_spec h1
    rw [hk] at hx
    rcases List.mem_append.1 hx with hx | hx
    · exact .inl hx
    · rw [List.eq_of_mem_replicate hx]; exact .inr ⟨rfl, .inl rfl⟩
  · refine .inr ⟨introduced_sane h2 hx, .inr ?_⟩
    obtain ⟨⟨ts, h3, h4⟩, _⟩ := C48_copy_keeps_attributes s x rng rng' out h2 hx
    rw [hs] at h3
    exact introduced_cond hvar h3 h4

/-- all which is known and all which is waiting to be stored comes from the one experience `s` -/
structure Taught (s : Sentence) (a : Term) (p : Proc) : Prop where
  safe : PSafe p
  heap : ∀ x ∈ p.mem.heap, x = { s with term := x.term } ∧ (x.term = s.term ∨ ∀ acts e, x.term ≠ rule a acts e)
  queue : ∀ m ∈ p.queue, m.1 = s

theorem workerStep_frame (p : Proc) (rng : List Nat) :
    ∃ m q w, workerStep p rng = { p with mem := m, queue := q, workerAlive := w } := by
  unfold workerStep
  split
  · split
    · exact ⟨_, _, _, rfl⟩
    · exact ⟨_, _, _, rfl⟩
  · exact ⟨_, _, _, rfl⟩

theorem worker_taught {s : Sentence} {a e : Term} {acts : List Term} {p : Proc} {rng : List Nat} (hs : s.term = rule a acts e)
    (hst : s.stamp.ids ≠ []) (hpu : s.punct = .JUGEMENT) (hvar : ∀ v q, a ≠ .Stmt .INH (.IndepVar v) q)
    (hn : 1 ≤ p.nConceptBeliefs) (hr : ∀ d ∈ rng, d % 16 ≠ 15) (ht : Taught s a p) :
    Taught s a (workerStep p rng) ∧ (KnownFirst a s.term p.mem → KnownFirst a s.term (workerStep p rng).mem) ∧
      (p.mem.get a = none → p.queue ≠ [] → KnownFirst a s.term (workerStep p rng).mem) := by
  have hsafe := workerStep_safe ht.safe hr
  unfold workerStep at hsafe ⊢
  rw [if_pos ht.safe.alive] at hsafe ⊢
  split at hsafe
  · rename_i hq
    rw [hq]
    exact ⟨ht, fun h => h, fun _ h => absurd rfl h⟩
  · rename_i s' time rest hq
    obtain rfl : s' = s := ht.queue (s', time) (by rw [hq]; simp)
    have hmsg := ht.safe.queue (s', time) (by rw [hq]; simp)
    obtain ⟨m', h1, h2, h3, h4⟩ := workerStore_total (n := p.nConceptBeliefs) (now := time) ht.safe.refs ht.safe.heap hmsg hr
    have hadd := (C64_storage_exact p.mem m' s' time p.nConceptBeliefs rng a e acts hs hst h1).2.2 (by
      intro r _ b hb hsup
      obtain ⟨hx, _⟩ := ht.heap b (List.mem_of_getElem? hb)
      obtain ⟨i, l, hl⟩ := List.exists_cons_of_ne_nil hst
      exact hsup.1 ⟨i, by rw [hx]; simp [hl], by simp [hl]⟩)
    have hall : AllEvi s'.evi p.mem.heap := by
      intro x hx
      rw [(ht.heap x hx).1]
    obtain ⟨k1, k2, k3⟩ := addEvidence_known (a := a) hn hpu hall hadd
    simp only [h1] at hsafe
    rw [hq]
    simp only [h1]
    refine ⟨⟨hsafe, ?_, ?_⟩, k2 _, fun hno _ => k3 hno ⟨acts, e, hs⟩⟩
    · intro x hx
      rcases addEvidence_mem hs hvar hadd x hx with hx | hx
      · exact ht.heap x hx
      · exact hx
    · intro m hm
      exact ht.queue m (by rw [hq]; exact List.mem_cons_of_mem _ hm)

end Nar
