import Verif.Lemmas.Rest4
import Verif.Lemmas.Thinks5
/-! # Helper lemmas: a new reasoner which thinks to the end -/
namespace Nar
open Term

theorem calm_cycles {ops : List SysOp} (h : ∀ op ∈ ops, op.Calm) : cyclesIn ops = ops.countP SysOp.isCycle ∧ SysOp.flush ∉ ops ∧
    ∀ x cc mc now, SysOp.input x cc mc now ∉ ops := by
  induction ops with
  | nil => exact ⟨rfl, by simp, by simp⟩
  | cons op ops ih =>
    obtain ⟨h1, h2, h3⟩ := ih fun o ho => h o (List.mem_cons_of_mem _ ho)
    have := h op (by simp)
    cases op <;> simp [SysOp.Calm] at this <;> simp [cyclesIn, SysOp.isCycle, List.countP_cons, h1, h2, h3]

/-- thinking of the reasoner is thinking of its declarative part -/
theorem thinking_sim {env : Env} {ts : List NarOp} (ht : ∀ op ∈ ts, op.Thinking) : ∀ {ops0 : List NarOp} {r r' : Reasoner},
    runNar env ops0 = .ok r → (∀ op ∈ ops0, SafeUse env op) → moreNar env r ts = .ok r' →
    r'.cfg env = r.cfg env ∧ ∃ ops, SysOp.flush ∉ ops ∧ cyclesIn ops = thinkingCycles ts ∧ moreSys (r.cfg env) r.sys ops = .ok r'.sys ∧
      ∀ x cc mc now, SysOp.input x cc mc now ∉ ops := by
  induction ts with
  | nil => intro ops0 r r' _ _ h; cases h; exact ⟨rfl, [], by simp, rfl, rfl, by simp⟩
  | cons op ts ih =>
    intro ops0 r r' h0 hsafe h
    obtain ⟨r1, h1, h2⟩ := foldlM_cons_ok.1 h
    obtain ⟨s1, s2⟩ := runNar_safe h0 (SafeUse.telling hsafe)
    have halive : r.workerAlive = true := s2 (fun k => hsafe _ k)
    have hnext : runNar env (ops0 ++ [op]) = .ok r1 := moreNar_append.2 ⟨r, h0, by
      unfold moreNar
      exact foldlM_cons_ok.2 ⟨r1, h1, rfl⟩⟩
    have huse : ∀ o ∈ ops0 ++ [op], SafeUse env o := by
      intro o ho
      rcases List.mem_append.1 ho with ho | ho
      · exact hsafe o ho
      · rw [List.mem_singleton.1 ho]
        rcases ht op (by simp) with rfl | ⟨v, rfl⟩ <;> exact trivial
    obtain ⟨c2, o2, f2, n2, d2, i2⟩ := ih (fun o ho => ht o (List.mem_cons_of_mem _ ho)) hnext huse h2
    rcases ht op (by simp) with rfl | ⟨v, rfl⟩
    · obtain ⟨c1, w1⟩ := declWork_sim s1 halive
      have e1 : r1 = declWork env r := (Except.ok.inj h1).symm
      subst e1
      refine ⟨c2.trans c1, .work :: o2, by simpa using f2, by simpa [cyclesIn, thinkingCycles] using n2, ?_, by simpa using i2⟩
      unfold moreSys
      exact foldlM_cons_ok.2 ⟨_, w1, by rw [c1] at d2; exact d2⟩
    · obtain ⟨c1, o1, a1, b1, d1⟩ := cycle_sim h1
      obtain ⟨k1, k2, k3⟩ := calm_cycles a1
      refine ⟨c2.trans c1, o1 ++ o2, ?_, ?_, ?_, by simp [k3, i2]⟩
      · simp [k2, f2]
      · rw [cyclesIn_append, k1, b1, n2]
        simp [thinkingCycles]
        omega
      · unfold moreSys
        rw [List.foldlM_append]
        exact R.bind_ok.2 ⟨_, d1, by rw [c1] at d2; exact d2⟩

theorem JustTold.fair {k : Nat} {qs : List Term} {sts : List (Term × Tv)} {r : Reasoner} (h : JustTold k qs sts r) {cfg : Cfg}
    (hi : Inv cfg r.sh) : Fair cfg r.sys := by
  have hlen : r.sh.heap.length = sts.length := by
    have := congrArg List.length h.heap
    simpa using this
  have hall : ∀ a, a < r.sh.heap.length → a ∈ r.sh.judgementTasks := fun a ha => by rw [h.working]; simp; omega
  refine ⟨fun a t ht x hx => hi.complete a (hall a (List.getElem?_eq_some_iff.1 ht).1) t ht x hx, fun a h1 h2 => absurd (hall a h1) h2, fun a b h1 _ hm => ?_⟩
  obtain ⟨ta, _, _, h3, _⟩ := hm
  exact absurd (hall a (List.getElem?_eq_some_iff.1 h3).1) h1

/-- a new reasoner which has come to rest knows everything which can be deduced -/
theorem new_deduced {env : Env} {k : Nat} {qs : List Term} {sts : List (Term × Tv)} (hq : ∀ q ∈ qs, Printable q ∧ calcComplexity q ≤ 64)
    (hs : Handful sts) {ts : List NarOp} (ht : ∀ op ∈ ts, op.Thinking) (hc : thinkingCycles ts < 111) {r : Reasoner}
    (h : runNar env (.handlers k :: (askAll qs ++ tellAll sts) ++ ts) = .ok r) :
    ∃ cfg : Cfg, cfg.maxComplexity = 64 ∧ (Room r.sh → Fair cfg r.sys) ∧ (∀ t ∈ r.sh.heap, Good t.sentence) ∧
      ∀ i A, sts[i]? = some A → HasTask r.sh (toldAs (qs.length + i) A) := by
  obtain ⟨r0, h1, jt, hsafe, halive⟩ := asked_told (env := env) (k := k) hq hs
  have huse : ∀ op ∈ NarOp.handlers k :: (askAll qs ++ tellAll sts), SafeUse env op := by
    intro op hop
    rcases List.mem_cons.1 hop with rfl | hop
    · exact trivial
    rcases List.mem_append.1 hop with hop | hop
    · obtain ⟨q, hq', rfl⟩ := List.mem_map.1 hop
      exact ⟨(hq q hq').1, (by intro h; cases h), (by intro h; cases h)⟩
    · obtain ⟨st, hst, rfl⟩ := List.mem_map.1 hop
      exact hs.safe st hst
  obtain ⟨r0', g1, g2⟩ := moreNar_append.1 h
  have hr0 : r0' = r0 := Except.ok.inj (g1.symm.trans h1)
  subst hr0
  obtain ⟨c1, ops, f1, n1, d1, _⟩ := thinking_sim ht h1 huse g2
  have hinv := hsafe.decl.inv
  obtain ⟨_, b, _⟩ := fair_more (c := 0) d1 hinv f1 jt.counter (by omega)
  have huse' : ∀ op ∈ NarOp.handlers k :: (askAll qs ++ tellAll sts) ++ ts, SafeUse env op := by
    intro o ho
    rcases List.mem_append.1 ho with ho | ho
    · exact huse o ho
    · rcases ht o ho with rfl | ⟨v, rfl⟩ <;> exact trivial
  have hend := (runNar_safe h (SafeUse.telling huse')).1
  refine ⟨r0'.cfg env, jt.complexity, fun room => b room (jt.fair hinv), hend.decl.good.1, fun i A hA => ?_⟩
  have hget : (r0'.sh.heap.map (·.sentence))[i]? = some (toldAs (qs.length + i) A) := by
    rw [jt.heap, List.getElem?_mapIdx, hA]; rfl
  rw [List.getElem?_map] at hget
  obtain ⟨t, ht1, ht2⟩ := Option.map_eq_some_iff.1 hget
  exact HasTask.kept (moreSys_kept d1).heap ⟨t, List.mem_of_getElem? ht1, by rw [ht2], by rw [ht2]⟩

end Nar
