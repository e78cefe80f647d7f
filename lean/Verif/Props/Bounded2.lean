import Verif.Lemmas.Bounded5
import Verif.Props.Bounded
import Verif.Props.Meaning
import Verif.Props.Channel
import Verif.Props.Lasting
/-! # C97 for the reasoner as a whole -/
namespace Nar.Props
open Nar Term

/-- In every declarative use of the reasoner, however it was arranged: whatever message is waiting, the worker draws at most 15757
conclusions from it. -/
theorem C97_whole_conclusions (env : Env) (ops : List NarOp) (r : Reasoner) (hs : ∀ op ∈ ops, SafeUse env op)
    (h : runNar env ops = .ok r) (m : Msg) (hm : m ∈ r.queue) (concl : List (Sentence × Rat))
    (hc : workConclusions r.sh m = .ok concl) : concl.length ≤ 15757 := by
  have hf := runNar_fit hs h
  have := workConclusions_length hf.limited.inv (hf.limited.partners m hm) hf.limited.tables hc
  rw [← hf.usual.limit (env := env)]
  exact this

/-- In every declarative use of the reasoner every table of beliefs has at most 20 entries, at any time. -/
theorem C97_whole_tables (env : Env) (ops : List NarOp) (r : Reasoner) (hs : ∀ op ∈ ops, SafeUse env op)
    (h : runNar env ops = .ok r) : ∀ c ∈ r.sh.mem, c.beliefsByExp.length ≤ 20 ∧ c.beliefsByUsage.length ≤ 20 := by
  have hf := runNar_fit hs h
  have := hf.limited.tables
  rw [show (r.cfg env).nBeliefs = 20 from hf.usual.beliefs] at this
  exact this

/-- In every declarative use of the reasoner: if between two cycles no more than `k` tasks can come in (two for each sentence told or
typed, and twice the conclusions for each round of the worker), then the tasks which are pending or found by the lookup are at most
30 and what 111 such stretches can bring, however long it goes on. -/
theorem C97_whole_tasks_kept (env : Env) (k : Nat) (ds : List Stretch) (rest : List NarOp) (r : Reasoner)
    (hd : ∀ d ∈ ds, LightUse env k d.before) (hr : LightUse env k rest)
    (h : runNar env (ds.flatMap Stretch.ops ++ rest) = .ok r) :
    KeepsAtMost r.sh (30 + 111 * k) ∧ r.sh.judgementTasks.length ≤ 30 + 111 * k := by
  obtain ⟨r1, h1, h2⟩ := moreNar_append.1 h
  have h0 : KeepsAtMost createNar.sh (30 + (0 % 111) * k) := ⟨[], by simp, by
    rintro r (hr | ⟨p, hp, _⟩)
    · cases hr
    · cases hp⟩
  obtain ⟨_, a3⟩ := stretches_limited ds hd (pre := []) (by simp) rfl 0 rfl h0 h1
  have hsafe : ∀ o ∈ ds.flatMap Stretch.ops, SafeUse env o := by
    intro o ho
    obtain ⟨d, hd1, hd2⟩ := List.mem_flatMap.1 ho
    rcases List.mem_append.1 hd2 with k1 | k1
    · exact (hd d hd1).safe o k1
    · rw [List.mem_singleton.1 k1]; trivial
  obtain ⟨_, b2⟩ := light_use hsafe h1 hr.safe hr.quiet h2
  have hk : KeepsAtMost r.sh (30 + 111 * k) := by
    refine (b2 _ a3).mono ?_
    have h110 : (0 + ds.length) % 111 * k ≤ 110 * k := Nat.mul_le_mul_right _ (by omega)
    have := hr.load
    omega
  refine ⟨hk, ?_⟩
  obtain ⟨l, hl1, hl2⟩ := hk
  have hf := runNar_fit (ops := ds.flatMap Stretch.ops ++ rest) (fun o ho => by
    rcases List.mem_append.1 ho with ho | ho
    · exact hsafe o ho
    · exact hr.safe o ho) h
  exact le_trans (hf.limited.inv.inv.nodup.subperm (fun r hr => hl2 r (.inl hr))).length_le hl1

/-- a statement is told before each cycle, and the worker has one turn -/
def steady (n : Nat) : List Stretch := List.replicate n ⟨[say (isA "a" "b") ⟨1, 9/10⟩, .declWork], 1/2⟩

example : ∀ d ∈ steady 3, LightUse env0 31516 d.before := by
  intro d hd
  rw [List.eq_of_mem_replicate hd]
  exact {
    safe := by
      intro op hop
      simp only [List.mem_cons, List.not_mem_nil, or_false] at hop
      rcases hop with rfl | rfl
      · exact isA_safe env0 "a" "b" _ (by unfold Tv.Sane; decide +kernel) ⟨_, rfl⟩
      · trivial
    quiet := by simp [NarOp.NoCycle, say]
    load := by decide }

example : (runNar env0 ((steady 3).flatMap Stretch.ops)).map (fun r => (r.sh.cycleCounter, r.sh.heap.length, r.queue.length)) =
    .ok (3, 5, 1) := by decide +kernel

/-- a statement before each cycle, while the worker has no turn -/
def hurried (n : Nat) : List Stretch := List.replicate n ⟨[say (isA "a" "b") ⟨1, 9/10⟩], 1/2⟩

/-- Violated by the work which waits: nothing limits it.  If one statement is told before each cycle and the worker does not keep up,
each cycle adds a piece of work. -/
theorem C97_waiting_work_without_limit (env : Env) (n : Nat) :
    (∀ d ∈ hurried n, LightUse env 2 d.before) ∧ ∃ r, runNar env ((hurried n).flatMap Stretch.ops) = .ok r ∧ r.queue.length = n := by
  have hsay : SafeUse env (say (isA "a" "b") ⟨1, 9/10⟩) := isA_safe env "a" "b" _ (by unfold Tv.Sane; decide +kernel) ⟨_, rfl⟩
  have hlight : ∀ n, ∀ d ∈ hurried n, LightUse env 2 d.before := by
    intro n d hd
    rw [List.eq_of_mem_replicate hd]
    exact {
      safe := by
        intro op hop
        rw [List.mem_singleton.1 hop]; exact hsay
      quiet := by simp [NarOp.NoCycle, say]
      load := by decide }
  refine ⟨hlight n, ?_⟩
  induction n with
  | zero => exact ⟨_, rfl, rfl⟩
  | succ n ih =>
    obtain ⟨r, h1, h2⟩ := ih
    have hsafe : ∀ o ∈ (hurried n).flatMap Stretch.ops, SafeUse env o := by
      intro o ho
      obtain ⟨d, hd1, hd2⟩ := List.mem_flatMap.1 ho
      rcases List.mem_append.1 hd2 with k1 | k1
      · exact (hlight n d hd1).safe o k1
      · rw [List.mem_singleton.1 k1]; trivial
    have hf := runNar_fit hsafe h1
    obtain ⟨r1, g1⟩ := NarOp.run_total hf.safe hf.alive hsay
    obtain ⟨p1, p2⟩ := told_pending (isA_not_temporal "a" "b") (by rw [hf.usual.complexity]; decide) g1
    have hs1 : ∀ o ∈ (hurried n).flatMap Stretch.ops ++ [say (isA "a" "b") ⟨1, 9/10⟩], SafeUse env o := by
      intro o ho
      rcases List.mem_append.1 ho with k1 | k1
      · exact hsafe o k1
      · rw [List.mem_singleton.1 k1]; exact hsay
    have e1 : runNar env ((hurried n).flatMap Stretch.ops ++ [say (isA "a" "b") ⟨1, 9/10⟩]) = .ok r1 :=
      moreNar_append.2 ⟨r, h1, foldlM_cons_ok.2 ⟨r1, g1, rfl⟩⟩
    have hf1 := runNar_fit hs1 e1
    obtain ⟨r2, g2⟩ := cycle_total hf1.safe (.inl hf1.alive) (1/2)
    refine ⟨r2, ?_, ?_⟩
    · have : (hurried (n + 1)).flatMap Stretch.ops =
          ((hurried n).flatMap Stretch.ops ++ [say (isA "a" "b") ⟨1, 9/10⟩]) ++ [.cycle (1/2)] := by
        unfold hurried
        rw [List.replicate_succ', List.flatMap_append]
        simp [Stretch.ops]
      rw [this]
      exact moreNar_append.2 ⟨r1, e1, foldlM_cons_ok.2 ⟨r2, g2, rfl⟩⟩
    · rcases C78_handed_over env r1 r2 (1/2) g2 with ⟨k1, _⟩ | ⟨_, m, k1, _⟩
      · exact absurd k1 p1
      · rw [k1, List.length_append, p2, h2]; rfl

end Nar.Props
