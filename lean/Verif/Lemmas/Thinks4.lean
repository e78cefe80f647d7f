import Verif.Lemmas.Thinks3
import Verif.Lemmas.Decl4
/-! # Helper lemmas: the worker deals with all messages -/
namespace Nar
open Term

theorem moreSys_cons {cfg : Cfg} {s s' : Sys} {op : SysOp} {ops : List SysOp} (h : moreSys cfg s (op :: ops) = .ok s') :
    ∃ s1, op.run cfg s = .ok s1 ∧ moreSys cfg s1 ops = .ok s' := foldlM_cons_ok.1 h

/-- every message of the queue gets its turn -/
theorem worked_each {cfg : Cfg} {n : Nat} {s s' : Sys} {msgs rest : List Msg} (h : moreSys cfg s (worked n) = .ok s')
    (hq : s.queue = msgs ++ rest) (hn : msgs.length ≤ n) {m : Msg} (hm : m ∈ msgs) :
    ∃ sa sb calls i j, moreSys cfg s (worked i) = .ok sa ∧ work cfg sa.sh m = .ok (sb.sh, calls) ∧
      SysOp.work.run cfg sa = .ok sb ∧ moreSys cfg sb (worked j) = .ok s' := by
  induction n generalizing s msgs with
  | zero =>
    have : msgs = [] := List.length_eq_zero_iff.1 (by omega)
    rw [this] at hm; cases hm
  | succ n ih =>
    obtain ⟨s1, h1, h2⟩ := moreSys_cons (show moreSys cfg s (SysOp.work :: worked n) = .ok s' from h)
    cases msgs with
    | nil => cases hm
    | cons m0 msgs =>
      have h1' := h1
      simp only [SysOp.run] at h1
      rw [hq] at h1
      simp only [List.cons_append] at h1
      obtain ⟨⟨sh, calls⟩, h3, h4⟩ := R.bind_ok.1 h1
      rcases List.mem_cons.1 hm with rfl | hm
      · refine ⟨s, s1, calls, 0, n, rfl, ?_, h1', h2⟩
        rw [h3, ← Except.ok.inj h4]
      · obtain ⟨sa, sb, cs, i, j, k1, k2, k3, k4⟩ := ih h2 (by rw [← Except.ok.inj h4]) (by simpa using hn) hm
        refine ⟨sa, sb, cs, i + 1, j, ?_, k2, k3, k4⟩
        exact foldlM_cons_ok.2 ⟨s1, h1', k1⟩

theorem FollowsAlone.same {a a' : Task} {c : Sentence} {w : Rat} (h : SameSent a a') (hf : FollowsAlone a.sentence c w) :
    FollowsAlone a'.sentence c w := by
  obtain ⟨cs, h1, h2⟩ := hf
  refine ⟨cs, ?_, h2⟩
  unfold SameSent at h
  rw [h]; exact h1

theorem Follows.same {a a' b b' : Task} {c : Sentence} {w : Rat} (ha : SameSent a a') (hb : SameSent b b')
    (hf : Follows a.sentence b.sentence c w) : Follows a'.sentence b'.sentence c w := by
  obtain ⟨cs, ap, h1, h2⟩ := hf
  refine ⟨cs, ap, ?_, h2⟩
  unfold SameSent at ha hb
  rw [ha, hb]; exact h1

/-- what can be concluded from the tasks of a waiting message is dealt with -/
theorem worked_deals {cfg : Cfg} {n : Nat} {s s' : Sys} {msgs rest : List Msg} (h : moreSys cfg s (worked n) = .ok s')
    (hq : s.queue = msgs ++ rest) (hn : msgs.length ≤ n) {m : Msg} (hm : m ∈ msgs) {c : Sentence} {w : Rat}
    (hc : ∃ p, s.sh.heap[m.primary]? = some p ∧ (FollowsAlone p.sentence c w ∨
      ∃ r ∈ m.secondary, ∃ t, s.sh.heap[r]? = some t ∧ Follows p.sentence t.sentence c w)) :
    (c.punct = .JUGEMENT → (calcComplexity c.term : Int) ≤ cfg.maxComplexity → HasTask s'.sh c) ∧
    ∀ (i : Nat) (q : Task2), s.sh.questionTasks[i]? = some q → CanAnswer q c → ∀ e, Expectation c e →
      ∃ q', s'.sh.questionTasks[i]? = some q' ∧ e ≤ q'.bestAnswerExp := by
  obtain ⟨sa, sb, calls, i, j, k1, k2, k3, k4⟩ := worked_each h hq hn hm
  have ka := moreSys_kept k1
  have kb := moreSys_kept k4
  have hcon : Concludes sa.sh m c w := by
    obtain ⟨p, hp, hf⟩ := hc
    obtain ⟨p', hp', sp⟩ := ka.heap _ p hp
    refine ⟨p', hp', ?_⟩
    rcases hf with hf | ⟨r, hr, t, ht, hf⟩
    · exact .inl (hf.same sp)
    · obtain ⟨t', ht', st⟩ := ka.heap _ t ht
      exact .inr (.inl ⟨r, hr, t', ht', hf.same sp st⟩)
  obtain ⟨d1, d2⟩ := work_deals k2 hcon
  refine ⟨fun hj hx => HasTask.kept kb.heap (d1 hj hx), ?_⟩
  intro x q hx hca e hexp
  obtain ⟨_, _, ka2⟩ := ka.questions
  obtain ⟨_, _, kb2⟩ := kb.questions
  obtain ⟨q1, a1, a2, a3⟩ := ka2.best hx
  have hca1 : CanAnswer q1 c := ⟨hca.1, by rw [a2]; exact hca.2⟩
  obtain ⟨q2, b1, b2⟩ := d2 x q1 a1 hca1 e hexp
  obtain ⟨q3, c1, c2, c3⟩ := kb2.best b1
  exact ⟨q3, c1, le_trans b2 c3⟩

/-- all that can be concluded from the pending tasks, alone or in pairs which share a term, is dealt with -/
theorem thought_through {cfg : Cfg} {ops : List SysOp} {n : Nat} {s s' : Sys} (hi : Inv cfg s.sh)
    (hq : s.queue = []) (hops : ∀ op ∈ ops, op.Calm) (h : moreSys cfg s (ops ++ worked n) = .ok s')
    (hv : s.sh.judgementTasks.length ≤ ops.countP SysOp.isCycle)
    (hn : s.sh.judgementTasks.length ≤ n)
    (hnt : NoTrim s.sh s.sh.judgementTasks.length) {a : Nat} (ha : a ∈ s.sh.judgementTasks) {ta : Task}
    (hta : s.sh.heap[a]? = some ta) :
    (∀ c w, FollowsAlone ta.sentence c w → DealtWith cfg s s' c) ∧
    (Room s.sh → ∀ b ∈ s.sh.judgementTasks, ∀ tb, s.sh.heap[b]? = some tb →
      (∃ x, IsSubterm x ta.sentence.term ∧ IsSubterm x tb.sentence.term) →
      ∀ c w, Follows ta.sentence tb.sentence c w → DealtWith cfg s s' c) := by
  obtain ⟨new, hlog, hall⟩ := (moreSys_kept h).questions
  obtain ⟨s1, h1, h2⟩ := moreSys_append h
  obtain ⟨msgs, q1, q2, q3, q4⟩ := calm_taken hi hops h1
  obtain ⟨r1, r2, _⟩ := q4 hnt
  rw [q3 hv, List.append_nil] at r1
  have k1 := moreSys_kept h1
  obtain ⟨_, _, kq⟩ := k1.questions
  have hlen : msgs.length ≤ n := by
    have := r1.length_eq
    rw [List.length_map] at this
    omega
  obtain ⟨m, hm, rfl⟩ := List.mem_map.1 (r1.mem_iff.2 ha)
  obtain ⟨ta', hta', sa⟩ := k1.heap _ ta hta
  have hqueue : s1.queue = msgs ++ [] := by rw [q1, hq]; simp
  have fin : ∀ c w, (∃ p, s1.sh.heap[m.primary]? = some p ∧ (FollowsAlone p.sentence c w ∨
      ∃ r ∈ m.secondary, ∃ t, s1.sh.heap[r]? = some t ∧ Follows p.sentence t.sentence c w)) → DealtWith cfg s s' c := by
    intro c w hc
    obtain ⟨d1, d2⟩ := worked_deals h2 hqueue hlen hm hc
    refine ⟨d1, fun q hqm hca e hexp hlt => ?_⟩
    obtain ⟨x, hx⟩ := List.getElem?_of_mem hqm
    obtain ⟨q1, a1, a2, a3⟩ := kq.best hx
    obtain ⟨q2, b1, b2⟩ := d2 x q1 a1 ⟨hca.1, by rw [a2]; exact hca.2⟩ e hexp
    have := reported_of_best hall hx b1 hlt b2
    intro hd hreg
    rw [hlog, List.drop_left]
    exact this hd hreg
  constructor
  · intro c w hf
    exact fin c w ⟨ta', hta', .inl (hf.same sa)⟩
  · intro room b hb tb htb hx c w hf
    obtain ⟨x, hxa, hxb⟩ := hx
    obtain ⟨tb', htb', sb⟩ := k1.heap _ tb htb
    obtain ⟨refs, hl, hr⟩ := hi.complete b hb tb htb x hxb
    have hsec := r2 room m hm ta hta b x refs hxa hl hr
    exact fin c w ⟨ta', hta', .inr ⟨b, hsec, tb', htb', hf.same sa sb⟩⟩

/-! ## the reasoner as a whole -/

theorem cycle_sim {env : Env} {r r' : Reasoner} {v : Rat} (h : cycle env r v = .ok r') :
    r'.cfg env = r.cfg env ∧ ∃ ops, (∀ op ∈ ops, op.Calm) ∧ ops.countP SysOp.isCycle = 1 ∧
      moreSys (r.cfg env) r.sys ops = .ok r'.sys := by
  unfold cycle at h
  obtain ⟨⟨sh, msg, calls⟩, h1, h⟩ := R.bind_ok.1 h
  have key : r' = { r with sh := { sh with procMem := r.sh.procMem }, currentTime := r.currentTime + 1, answers := r.answers ++ calls, queue := r.queue ++ msg.toList } := by
    cases msg with
    | none => cases h; simp
    | some m =>
      simp only [sendMsg] at h
      split at h
      · cases h; rfl
      · cases h
  refine ⟨by rw [key]; rfl, [.procMem r.look.procMem, .cycle v (r.currentTime + 1), .procMem r.sh.procMem], ?_, rfl, ?_⟩
  · intro op hop
    simp only [List.mem_cons, List.not_mem_nil, or_false] at hop
    rcases hop with rfl | rfl | rfl <;> trivial
  · have e : ({ r.sh with procMem := r.look.procMem } : Shared) = r.look := by
      unfold Reasoner.look
      split <;> rfl
    have step2 : (SysOp.cycle v (r.currentTime + 1)).run (r.cfg env) ⟨r.look, r.queue, r.answers⟩ =
        .ok ⟨sh, r.queue ++ msg.toList, r.answers ++ calls⟩ := by
      simp only [SysOp.run]
      rw [h1]; rfl
    refine foldlM_cons_ok.2 ⟨⟨r.look, r.queue, r.answers⟩, ?_, foldlM_cons_ok.2 ⟨_, step2, foldlM_cons_ok.2 ⟨r'.sys, ?_, rfl⟩⟩⟩
    · rw [← e]; rfl
    · rw [key]; rfl

theorem cycles_sim {env : Env} {vs : List Rat} {r r' : Reasoner} (h : moreNar env r (vs.map NarOp.cycle) = .ok r') :
    r'.cfg env = r.cfg env ∧ ∃ ops, (∀ op ∈ ops, op.Calm) ∧ ops.countP SysOp.isCycle = vs.length ∧
      moreSys (r.cfg env) r.sys ops = .ok r'.sys := by
  induction vs generalizing r with
  | nil => cases h; exact ⟨rfl, [], by simp, rfl, rfl⟩
  | cons v vs ih =>
    obtain ⟨r1, h1, h2⟩ := foldlM_cons_ok.1 h
    obtain ⟨c1, o1, a1, b1, d1⟩ := cycle_sim h1
    obtain ⟨c2, o2, a2, b2, d2⟩ := ih h2
    refine ⟨c2.trans c1, o1 ++ o2, ?_, ?_, ?_⟩
    · intro op hop
      rcases List.mem_append.1 hop with ho | ho
      · exact a1 op ho
      · exact a2 op ho
    · rw [List.countP_append, b1, b2, List.length_cons]; omega
    · rw [c1] at d2
      unfold moreSys at *
      rw [List.foldlM_append]
      exact R.bind_ok.2 ⟨_, d1, d2⟩

theorem declWork_sim {env : Env} {r : Reasoner} (hs : Safe env r) (ha : r.workerAlive = true) :
    (declWork env r).cfg env = r.cfg env ∧ SysOp.work.run (r.cfg env) r.sys = .ok (declWork env r).sys := by
  unfold declWork
  rw [if_pos ha]
  cases hq : r.queue with
  | nil => exact ⟨rfl, by simp only [SysOp.run, Reasoner.sys, hq]⟩
  | cons m rest =>
    obtain ⟨sh, calls, h1, _⟩ := work_total hs.decl (hs.queue m (by rw [hq]; simp))
    simp only [h1]
    refine ⟨rfl, ?_⟩
    simp only [SysOp.run, Reasoner.sys, hq, h1]
    rfl

theorem declWorks_sim {env : Env} {n : Nat} {r : Reasoner} (hs : Safe env r) (ha : r.workerAlive = true) :
    ∃ r', moreNar env r (List.replicate n NarOp.declWork) = .ok r' ∧
      moreSys (r.cfg env) r.sys (worked n) = .ok r'.sys := by
  induction n generalizing r with
  | zero => exact ⟨r, rfl, rfl⟩
  | succ n ih =>
    obtain ⟨h1, h2⟩ := declWork_safe hs
    obtain ⟨c, h3⟩ := declWork_sim hs ha
    obtain ⟨r', k1, k2⟩ := ih h1 (h2.trans ha)
    rw [c] at k2
    exact ⟨r', foldlM_cons_ok.2 ⟨_, rfl, k1⟩, foldlM_cons_ok.2 ⟨_, h3, k2⟩⟩

theorem cycles_total {env : Env} {vs : List Rat} {r : Reasoner} (hs : Safe env r) (ha : r.workerAlive = true) :
    ∃ r', moreNar env r (vs.map NarOp.cycle) = .ok r' ∧ Safe env r' ∧ r'.workerAlive = true := by
  induction vs generalizing r with
  | nil => exact ⟨r, rfl, hs, ha⟩
  | cons v vs ih =>
    obtain ⟨r1, h1⟩ := cycle_total hs (.inl ha) v
    obtain ⟨h2, h3⟩ := cycle_safe hs h1
    obtain ⟨r', k1, k2⟩ := ih h2 (h3.trans ha)
    exact ⟨r', foldlM_cons_ok.2 ⟨r1, h1, k1⟩, k2⟩

end Nar
