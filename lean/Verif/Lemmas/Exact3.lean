import Verif.Lemmas.Exact2
import Verif.Lemmas.Rest5
/-! # Helper lemmas: a new reasoner knows only what can be deduced -/
namespace Nar
open Term

theorem grounded_run {cfg : Cfg} {U : List Int} (hU : U.length ≤ 120) {ops : List SysOp} {s : Sys} (h : runSys cfg ops = .ok s)
    (hs : ∀ op ∈ ops, op.Sane) (he : EvidenceFrom U ops) : Grounded cfg (PutIn ops) U s := by
  refine grounded_more (s := { sh := createShared, queue := [], log := [] }) hU h (runSys_inv (ops := []) rfl) ?_ ?_
  · exact ⟨⟨by simp [createShared], by intro c hc; simp [createShared] at hc⟩, by simp⟩
  · intro x cc mc now hm hj hc
    obtain ⟨tv, h1, h2, h3⟩ := hs _ hm hj
    have hp : PutIn ops x := ⟨cc, mc, now, hm⟩
    obtain ⟨e1, e2⟩ := he x hp
    exact ⟨⟨hj, ⟨tv, h1, h3⟩, h2⟩, hc, e1, e2, _, .told x hp hj hc, fun _ h => h⟩

/-! ## the reasoner as a whole -/

theorem ask_lasts {P : Sentence → Prop} (hP : Lasts P) {env : Env} {qs : List Term} : ∀ {r r' : Reasoner}, moreNar env r (askAll qs) = .ok r' →
    Throughout P r.sh → Throughout P r'.sh ∧ r'.sh.stampIdCounter = r.sh.stampIdCounter + qs.length := by
  induction qs with
  | nil => intro r r' h h0; cases h; exact ⟨h0, by simp⟩
  | cons q qs ih =>
    intro r r' h h0
    obtain ⟨r1, h1, h2⟩ := foldlM_cons_ok.1 h
    obtain ⟨sh', k1, rfl⟩ := inputT2_question h1
    obtain ⟨i1, i2⟩ := ih h2 (memAddTask_lasts hP k1 h0 (fun hj => by cases hj))
    have ho : sh'.stampIdCounter = r.sh.stampIdCounter + 1 := (Prod.mk.inj (memAddTask_outer k1)).1
    refine ⟨i1, ?_⟩
    rw [i2]
    simp only [ho, List.length_cons, Nat.cast_add, Nat.cast_one]
    omega

theorem tell_lasts {P : Sentence → Prop} (hP : Lasts P) {env : Env} {sts : List (Term × Tv)} (ht : ∀ st ∈ sts, ¬ IsTemporal st.1) :
    ∀ {r r' : Reasoner} {n : Nat}, moreNar env r (tellAll sts) = .ok r' → Throughout P r.sh → r.sh.stampIdCounter = n →
      (∀ i A, sts[i]? = some A → P (toldAs (n + i) A)) → Throughout P r'.sh := by
  induction sts with
  | nil => intro r r' n h h0 _ _; cases h; exact h0
  | cons A sts ih =>
    intro r r' n h h0 hn hp
    obtain ⟨r1, h1, h2⟩ := foldlM_cons_ok.1 h
    obtain ⟨sh', k1, rfl⟩ := inputT2_statement (ht A (by simp)) h1
    have ho : sh'.stampIdCounter = r.sh.stampIdCounter + 1 := (Prod.mk.inj (memAddTask_outer k1)).1
    refine ih (n := n + 1) (fun st hst => ht st (List.mem_cons_of_mem _ hst)) h2 (memAddTask_lasts hP k1 h0 (fun _ _ => ?_)) ?_ ?_
    · have := hp 0 A rfl
      rw [hn]
      exact this
    · simp only [ho, hn]
      simp
    · intro i B hB
      have := hp (i + 1) B (by simpa using hB)
      rwa [show n + (i + 1) = n + 1 + i by omega] at this

theorem size_pos (t : Term) : 1 ≤ Term.size t := by
  have : t ∈ retSubterms t := (mem_retSubterms _ _).2 (.refl _)
  exact List.length_pos_of_mem this

theorem handful_length {sts : List (Term × Tv)} (h : Handful sts) : sts.length ≤ 51 := by
  have key : ∀ l : List (Term × Tv), l.length ≤ (l.map (fun st => Term.size st.1)).sum := by
    intro l
    induction l with
    | nil => simp
    | cons a l ih =>
      have := size_pos a.1
      simp only [List.length_cons, List.map_cons, List.sum_cons]
      omega
  have := key sts
  have := h.small
  omega

/-- a new reasoner which thinks knows nothing but what can be deduced -/
theorem new_grounded {env : Env} {k : Nat} {qs : List Term} {sts : List (Term × Tv)} (hq : ∀ q ∈ qs, Printable q ∧ calcComplexity q ≤ 64)
    (hs : Handful sts) {ts : List NarOp} (ht : ∀ op ∈ ts, op.Thinking) {r : Reasoner}
    (h : runNar env (.handlers k :: (askAll qs ++ tellAll sts) ++ ts) = .ok r) {cfg : Cfg} (hcfg : cfg.maxComplexity = 64) :
    ∀ x ∈ r.sh.heap, ∃ E, Deducible cfg (fun s => ∃ i A, sts[i]? = some A ∧ s = toldAs (qs.length + i) A) x.sentence.term E ∧
      ∀ e ∈ E, e ∈ x.sentence.stamp.ids := by
  obtain ⟨r0, h1, jt, hsafe, halive⟩ := asked_told (env := env) (k := k) hq hs
  have huse : ∀ op ∈ NarOp.handlers k :: (askAll qs ++ tellAll sts), SafeUse env op := by
    intro op hop
    rcases List.mem_cons.1 hop with rfl | hop
    · exact trivial
    rcases List.mem_append.1 hop with hop | hop
    · obtain ⟨q, hq', rfl⟩ := List.mem_map.1 hop
      exact ⟨(hq q hq').1, (by intro h; cases h), (by intro h; cases h)⟩
    · obtain ⟨st, hst, rfl⟩ := List.mem_map.1 hop
      exact hs.safe st hst
  obtain ⟨r0', g1, g2⟩ := moreNar_append.1 h
  have hr0 : r0' = r0 := Except.ok.inj (g1.symm.trans h1)
  subst hr0
  obtain ⟨c1, ops, f1, n1, d1, i1⟩ := thinking_sim ht h1 huse g2
  have hm : (r0'.cfg env).maxComplexity = 64 := jt.complexity
  obtain ⟨told, htold⟩ : ∃ told : Sentence → Prop, told = fun s => ∃ i A, sts[i]? = some A ∧ s = toldAs (qs.length + i) A := ⟨_, rfl⟩
  obtain ⟨U, hUe⟩ : ∃ U : List Int, U = (List.range sts.length).map (fun i => ((qs.length + i : Nat) : Int)) := ⟨_, rfl⟩
  have hU : U.length ≤ 120 := by
    have := handful_length hs
    rw [hUe]; simp; omega
  have hP := justified_lasts (cfg := r0'.cfg env) (told := told) hU
  have hstart : ∀ i A, sts[i]? = some A → Justified (r0'.cfg env) told U (toldAs (qs.length + i) A) := by
    intro i A hA
    have hmem := List.mem_of_getElem? hA
    have hsafe := hs.safe A hmem
    obtain ⟨_, hw⟩ := hsafe.2.1 rfl rfl
    have hx : (calcComplexity A.1 : Int) ≤ (r0'.cfg env).maxComplexity := by
      have h4 := complexity_le_size A.1
      have h5 : Term.size A.1 ≤ (sts.map (fun st => Term.size st.1)).sum := List.le_sum_of_mem (List.mem_map.2 ⟨A, hmem, rfl⟩)
      have := hs.small
      rw [hm]; omega
    refine ⟨⟨rfl, ⟨A.2, rfl, hw.2⟩, hw.1⟩, hx, by simp [toldAs, newEternalSentenceByTv], ?_, _,
      .told _ (by rw [htold]; exact ⟨i, A, hA, rfl⟩) rfl hx, fun _ h => h⟩
    intro e he
    have : e = ((qs.length + i : Nat) : Int) := by simpa [toldAs, newEternalSentenceByTv] using he
    rw [this, hUe]
    exact List.mem_map.2 ⟨i, by simpa using (List.getElem?_eq_some_iff.1 hA).1, rfl⟩
  have g0 : Throughout (Justified (r0'.cfg env) told U) r0'.sh := by
    obtain ⟨ra, k1, k2⟩ := foldlM_cons_ok.1 (show List.foldlM (NarOp.run env) createNar _ = .ok r0' from h1)
    obtain ⟨rb, k3, k4⟩ := moreNar_append.1 k2
    have ea : ra.sh = createShared := by rw [← Except.ok.inj k1]; rfl
    obtain ⟨a1, a2⟩ := ask_lasts hP k3 (by rw [ea]; exact ⟨by simp [createShared], by intro c hc; simp [createShared] at hc⟩)
    refine tell_lasts hP (fun st hst => ((hs.safe st hst).2.1 rfl rfl).1) k4 a1 (n := qs.length) ?_ hstart
    rw [a2, ea]
    simp [createShared]
  have hg : Grounded (r0'.cfg env) told U r0'.sys := ⟨g0, by
    intro m hm
    have : r0'.queue = [] := jt.queue
    rw [show r0'.sys.queue = r0'.queue from rfl, this] at hm
    cases hm⟩
  have hend := grounded_more hU d1 hsafe.inv hg (fun x cc mc now hx => absurd hx (i1 x cc mc now))
  intro x hx
  obtain ⟨E, e1, e2⟩ := (hend.all.1 x hx).deduced
  exact ⟨E, by rw [← htold]; exact e1.limit (by rw [hcfg, hm]), e2⟩

end Nar
