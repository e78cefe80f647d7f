import Verif.Spec.Typing
import Verif.Lemmas.Nar2
import Mathlib.Data.List.Forall2
/-! # Lemmas about lines and calls -/
namespace Nar
open Term

theorem moreNar_cons (env : Env) (r : Reasoner) (op : NarOp) (ops : List NarOp) :
    moreNar env r (op :: ops) = (NarOp.run env r op).bind (fun r => moreNar env r ops) := by
  unfold moreNar
  rw [List.foldlM_cons]; rfl

theorem moreNar_app (env : Env) (r : Reasoner) (xs ys : List NarOp) :
    moreNar env r (xs ++ ys) = (moreNar env r xs).bind (fun r => moreNar env r ys) := by
  unfold moreNar
  rw [List.foldlM_append]; rfl

theorem moreNar_one (env : Env) (r : Reasoner) (op : NarOp) : moreNar env r [op] = NarOp.run env r op := by
  rw [moreNar_cons]
  cases NarOp.run env r op <;> rfl

theorem moreNar_work (env : Env) (n : Nat) (r : Reasoner) :
    moreNar env r (List.replicate n .declWork) = .ok (declWorkN env r n) := by
  induction n generalizing r with
  | zero => rfl
  | succ n ih =>
    rw [List.replicate_succ, moreNar_cons]
    exact ih _

/-- cycles from number `i` on -/
def cycleCallsFrom (draws : Nat → Rat × Nat) : Nat → Nat → List NarOp
  | 0, _ => []
  | n + 1, i => List.replicate (draws i).2 .declWork ++ [.cycle (draws i).1] ++ cycleCallsFrom draws n (i + 1)

theorem cycleCallsFrom_eq (draws : Nat → Rat × Nat) (n i : Nat) :
    cycleCallsFrom draws n i =
      (List.range n).flatMap (fun (k : Nat) => List.replicate (draws (i + k)).2 NarOp.declWork ++ [.cycle (draws (i + k)).1]) := by
  induction n generalizing i with
  | zero => rfl
  | succ n ih =>
    rw [cycleCallsFrom, ih, List.range_succ_eq_map, List.flatMap_cons, List.flatMap_map]
    simp only [Nat.add_zero, Nat.succ_eq_add_one]
    congr 1
    congr 1
    funext k
    rw [show i + 1 + k = i + (k + 1) from by omega]

theorem cycleCalls_eq (draws : Nat → Rat × Nat) (n : Nat) : cycleCalls draws n = cycleCallsFrom draws n 0 := by
  rw [cycleCallsFrom_eq]
  simp only [Nat.zero_add]
  rfl

theorem moreNar_cycles (env : Env) (draws : Nat → Rat × Nat) (n i : Nat) (r : Reasoner) :
    moreNar env r (cycleCallsFrom draws n i) = cyclesLoop env draws n i r := by
  induction n generalizing i r with
  | zero => rfl
  | succ n ih =>
    rw [cycleCallsFrom, moreNar_app, moreNar_app, moreNar_work]
    simp only [Except.bind, moreNar_one, NarOp.run, cyclesLoop, bind]
    cases cycle env (declWorkN env r (draws i).2) (draws i).1 with
    | error e => rfl
    | ok r1 => exact ih _ _

theorem TextCalls.run {env : Env} {rng : List Nat} {text : List Char} {calls : List NarOp} (h : TextCalls env rng text calls) (r : Reasoner) :
    (inputN env r text rng).map (·.1) = moreNar env r calls := by
  cases h with
  | sentence h =>
    rw [moreNar_one]
    unfold inputN
    simp only [h, bind, Except.bind, NarOp.run]
    cases inputT2 env r _ _ _ _ rng <;> rfl
  | nothing h =>
    unfold inputN
    simp only [h, bind, Except.bind]
    rfl

theorem nlpProcess_run {env : Env} {rng : List Nat} {rels : List Relation} {css : List (List NarOp)}
    (h : List.Forall₂ (fun rel calls => ∃ s, convRelToNarsese env.sf rel = .ok s ∧ TextCalls env rng s calls) rels css) (r : Reasoner) :
    nlpProcess env r rels rng = moreNar env r css.flatten := by
  induction h generalizing r with
  | nil => rfl
  | cons h _ ih =>
    obtain ⟨s, hs, ha⟩ := h
    rw [List.flatten_cons, moreNar_app, ← ha.run r]
    unfold nlpProcess
    rw [List.foldlM_cons]
    simp only [hs, bind, Except.bind]
    cases hn : inputN env r s rng with
    | error e => rfl
    | ok x => exact ih _

theorem StandsFor.run {env : Env} {l : List Char} {d : LineDraws} {calls : List NarOp} (h : StandsFor env l d calls) (r : Reasoner) :
    NarOp.run env r (.line l d) = moreNar env r calls := by
  simp only [NarOp.run]
  cases h with
  | nothing hc h =>
    rw [input_of_dispatch hc]
    rcases h with rfl | rfl | rfl | rfl <;> rfl
  | sentence hc h =>
    rw [input_of_dispatch hc, ← h.run r]
    simp only [runCommand, bind, Except.bind]
    cases inputN env r (trimNewline l) d.rng <;> rfl
  | cycles hc h =>
    rw [input_of_dispatch hc, cycleCalls_eq, moreNar_cycles]
    simp only [runCommand, h, bind, Except.bind]
    cases cyclesLoop env d.cycles _ 0 r <;> rfl
  | relations hc h =>
    rw [input_of_dispatch hc, ← nlpProcess_run h]
    simp only [runCommand, bind, Except.bind]
    cases nlpProcess env r d.rels d.rng <;> rfl

theorem AsCalls.run {env : Env} {op : NarOp} {calls : List NarOp} (h : AsCalls env op calls) (r : Reasoner) :
    NarOp.run env r op = moreNar env r calls := by
  cases h with
  | same op => exact (moreNar_one env r _).symm
  | line h => exact h.run r

theorem asCalls_run {env : Env} {ops : List NarOp} {css : List (List NarOp)} (h : List.Forall₂ (AsCalls env) ops css) (r : Reasoner) :
    moreNar env r ops = moreNar env r css.flatten := by
  induction h generalizing r with
  | nil => rfl
  | cons h _ ih =>
    rw [List.flatten_cons, moreNar_app, moreNar_cons, h.run r]
    congr 1
    funext x
    exact ih x

theorem textCalls_of_ok {env : Env} {r r' : Reasoner} {rng : List Nat} {text : List Char} {b : Bool} (h : inputN env r text rng = .ok (r', b)) :
    ∃ calls, TextCalls env rng text calls := by
  unfold inputN at h
  obtain ⟨x, hx, h⟩ := R.bind_ok.1 h
  cases x with
  | none => exact ⟨_, .nothing hx⟩
  | some q => obtain ⟨t, tv, p, ev⟩ := q; exact ⟨_, .sentence hx⟩

theorem textCalls_rels {env : Env} {rng : List Nat} {rels : List Relation} {r r' : Reasoner} (h : nlpProcess env r rels rng = .ok r') :
    ∃ css, List.Forall₂ (fun rel calls => ∃ s, convRelToNarsese env.sf rel = .ok s ∧ TextCalls env rng s calls) rels css := by
  induction rels generalizing r with
  | nil => exact ⟨[], .nil⟩
  | cons rel rels ih =>
    unfold nlpProcess at h
    rw [List.foldlM_cons] at h
    obtain ⟨r1, h1, h⟩ := R.bind_ok.1 h
    obtain ⟨s, hs, h1⟩ := R.bind_ok.1 h1
    obtain ⟨⟨r2, b⟩, hn, h1⟩ := R.bind_ok.1 h1
    obtain ⟨calls, hc⟩ := textCalls_of_ok hn
    obtain ⟨css, hcs⟩ := ih h
    exact ⟨calls :: css, .cons ⟨s, hs, hc⟩ hcs⟩

theorem standsFor_of_ok {env : Env} {r r' : Reasoner} {l : List Char} {d : LineDraws} {q : Bool} {out : List (List Char)}
    (h : input env r l d = .ok (r', q, out)) :
    OwnCommand (commandOf (trimNewline l)) ∨ ∃ calls, StandsFor env l d calls := by
  obtain ⟨hd, hr, _⟩ := input_ok h
  cases hc : commandOf (trimNewline l) with
  | comment => exact .inr ⟨_, .nothing hd (.inl hc)⟩
  | empty => exact .inr ⟨_, .nothing hd (.inr (.inl hc))⟩
  | quit => exact .inr ⟨_, .nothing hd (.inr (.inr (.inl hc)))⟩
  | debugMemory => exact .inr ⟨_, .nothing hd (.inr (.inr (.inr hc)))⟩
  | cycles arg =>
    rw [hc] at hd hr
    obtain ⟨n, hn, _⟩ := R.bind_ok.1 hr
    exact .inr ⟨_, .cycles hd hn⟩
  | nlp text =>
    rw [hc] at hd hr
    obtain ⟨r1, hn, _⟩ := R.bind_ok.1 hr
    obtain ⟨css, h⟩ := textCalls_rels hn
    exact .inr ⟨_, .relations hd h⟩
  | narsese =>
    rw [hc] at hd hr
    obtain ⟨⟨r1, b⟩, hn, _⟩ := R.bind_ok.1 hr
    obtain ⟨calls, h⟩ := textCalls_of_ok hn
    exact .inr ⟨_, .sentence hd h⟩
  | _ => exact .inl trivial

theorem trimNewline_tail {s nl : List Char} (h : ∀ c ∈ nl, c = '\n' ∨ c = '\r') : trimNewline (s ++ nl) = trimNewline s := by
  unfold trimNewline
  rw [List.reverse_append, List.dropWhile_append]
  have : List.dropWhile (fun c => c == '\n' || c == '\r') nl.reverse = [] := by
    rw [List.dropWhile_eq_nil_iff]
    intro c hc
    rcases h c (List.mem_reverse.1 hc) with rfl | rfl <;> rfl
  rw [this]
  rfl

end Nar
