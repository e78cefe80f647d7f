import Verif.Spec.EverydayPrograms
import Verif.Lemmas.Service1
import Verif.Lemmas.Programs8
/-! # Lemmas about everyday use of the programs -/
namespace Nar

theorem work_everyday {env : Env} {names : List Op} {w : Work} (h : w.Fair) : Everyday env names w.op ∧ w.op ≠ .link := by
  cases w with
  | decl => exact ⟨trivial, by intro e; cases e⟩
  | proc rng => exact ⟨h, by intro e; cases e⟩

theorem reads_everyday {env : Env} {names : List Op} {lines : List Read} (h : ∀ l ∈ lines, EverydayRead env names l) :
    (∀ op ∈ readOps lines, Everyday env names op) ∧ NarOp.link ∉ readOps lines := by
  have sub : ∀ l ∈ untilQuit lines, l ∈ lines := by
    intro l hl
    unfold untilQuit at hl
    rcases List.mem_append.1 hl with k | k
    · exact (List.takeWhile_sublist _).mem k
    · exact (List.dropWhile_sublist _).mem (List.mem_of_mem_take k)
  have key : ∀ op ∈ readOps lines, Everyday env names op ∧ op ≠ .link := by
    intro op ho
    obtain ⟨l, hl, ho⟩ := List.mem_flatMap.1 ho
    obtain ⟨h1, h2⟩ := h l (sub l hl)
    rcases List.mem_append.1 ho with k | k
    · obtain ⟨w, hw, rfl⟩ := List.mem_map.1 k
      exact work_everyday (h1 w hw)
    · rw [List.mem_singleton.1 k]
      exact ⟨h2, by intro e; cases e⟩
  exact ⟨fun op ho => (key op ho).1, fun hm => (key _ hm).2 rfl⟩

/-- a state reached by everyday use of a reasoner whose memories are not linked -/
def EverydayState (env : Env) (names : List Op) (r : Reasoner) : Prop :=
  ∃ ops, runNar env ops = .ok r ∧ (∀ op ∈ ops, Everyday env names op) ∧ NarOp.link ∉ ops

theorem EverydayState.more {env : Env} {names : List Op} (hn : NopOps names) {r : Reasoner} (h : EverydayState env names r)
    {op : NarOp} (ho : Everyday env names op) (hk : op ≠ .link) :
    ∃ r' a, op.run env r = .ok r' ∧ newAnswers env r r' = .ok a ∧ EverydayState env names r' := by
  obtain ⟨ops, h1, h2, h3⟩ := h
  have hall : ∀ o ∈ ops ++ [op], Everyday env names o := by
    intro o hm
    rcases List.mem_append.1 hm with hm | hm
    · exact h2 o hm
    · rw [List.mem_singleton.1 hm]; exact ho
  have hl : NarOp.link ∉ ops ++ [op] := by
    intro hm
    rcases List.mem_append.1 hm with hm | hm
    · exact h3 hm
    · exact hk (List.mem_singleton.1 hm).symm
  obtain ⟨r', hr, _⟩ := everyday_history hn _ hall
  have hr' := hr
  rw [runNar_snoc, h1] at hr'
  obtain ⟨a, ha⟩ := newAnswers_total h1 hr' (everyday_telling hn hall) hl
  exact ⟨r', a, hr', ha, _, hr, hall, hl⟩

theorem evalWork_everyday {env : Env} {names : List Op} (hn : NopOps names) {r : Reasoner} (h : EverydayState env names r)
    {w : Work} (hw : w.Fair) : EverydayState env names (evalWork env r w) := by
  obtain ⟨h1, h2⟩ := work_everyday (env := env) (names := names) hw
  obtain ⟨r', a, k1, k2, k3⟩ := h.more hn h1 h2
  cases w with
  | decl =>
    have e : declWork env r = r' := Except.ok.inj k1
    subst e
    unfold evalWork
    simp only [k2]
    exact k3
  | proc rng =>
    have e : procWork r rng = r' := Except.ok.inj k1
    subst e
    exact k3

theorem evalWorks_everyday {env : Env} {names : List Op} (hn : NopOps names) : ∀ (ws : List Work) {r : Reasoner},
    EverydayState env names r → (∀ w ∈ ws, w.Fair) → EverydayState env names (ws.foldl (evalWork env) r)
  | [], _, h, _ => h
  | w :: ws, _, h, hw => evalWorks_everyday hn ws (evalWork_everyday hn h (hw w List.mem_cons_self))
      (fun w k => hw w (List.mem_cons_of_mem _ k))

theorem evalCycle_everyday {env : Env} {names : List Op} (hn : NopOps names) {r : Reasoner} (h : EverydayState env names r)
    {d : EvalDraws} (h1 : ∀ w ∈ d.before, w.Fair) (h2 : ∀ w ∈ d.after, w.Fair) :
    ∃ r', evalCycle env r d = .ok r' ∧ EverydayState env names r' := by
  have k := evalWorks_everyday hn d.before h h1
  obtain ⟨r', a, e1, e2, k'⟩ := k.more hn (op := .cycle d.selVal) trivial (by intro e; cases e)
  have e1 : cycle env (d.before.foldl (evalWork env) r) d.selVal = .ok r' := e1
  refine ⟨d.after.foldl (evalWork env) r', ?_, evalWorks_everyday hn d.after k' h2⟩
  unfold evalCycle
  exact R.bind_ok.2 ⟨r', e1, R.bind_ok.2 ⟨a, e2, rfl⟩⟩

theorem evalLoop_everyday {env : Env} {names : List Op} (hn : NopOps names) (draws : Nat → EvalDraws)
    (hd : ∀ i, (∀ w ∈ (draws i).before, w.Fair) ∧ ∀ w ∈ (draws i).after, w.Fair) (n : Nat) : ∀ (k i : Nat) {r : Reasoner},
    EverydayState env names r → ∃ r' x, evalLoop env draws n k i r = .ok (r', x) ∧ EverydayState env names r'
  | 0, _, r, h => ⟨r, none, rfl, h⟩
  | k + 1, i, r, h => by
    obtain ⟨r1, h1, h2⟩ := evalCycle_everyday hn h (hd i).1 (hd i).2
    by_cases hc : n < r1.answers.length
    · refine ⟨r1, some i, ?_, h2⟩
      unfold evalLoop
      refine R.bind_ok.2 ⟨r1, h1, ?_⟩
      rw [if_pos hc]
    · obtain ⟨r', x, h3, h4⟩ := evalLoop_everyday hn draws hd n k (i + 1) h2
      refine ⟨r', x, ?_, h4⟩
      unfold evalLoop
      refine R.bind_ok.2 ⟨r1, h1, ?_⟩
      rw [if_neg hc]
      exact h3

end Nar
