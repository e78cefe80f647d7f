import Verif.Spec.Locks
import Mathlib.Algebra.BigOperators.Group.Finset.Basic
import Mathlib.Algebra.Order.BigOperators.Group.Finset
/-! # Locking discipline, and why it excludes that threads wait for each other -/
namespace Nar.Locks
open Nar Skel

variable {n : Nat}

/-- who shares a lock with the thread which runs commands: nobody, the declarative worker, the storing worker; `leaf`: any
thread, but no other lock is taken while it is held -/
inductive Group
  | priv | decl | store | leaf
  deriving DecidableEq

def group : Lock → Group
  | .mem2 | .declRng | .goals | .batch _ | .goalArr _ | .entry _ | .trace | .traceRng => .priv
  | .shared | .questions | .byTerm | .concepts | .belief _ | .task _ | .handlers | .handler _ => .decl
  | .evidence | .evi _ => .store
  | .usage _ | .bcast => .leaf

/-- the order in which locks of the same group are taken -/
def rank : Lock → Nat
  | .shared => 0 | .questions => 1 | .byTerm => 2 | .concepts => 3 | .belief _ => 4 | .task _ => 5
  | .handlers => 6 | .handler _ => 7
  | .evidence => 0 | .evi _ => 1
  | _ => 0

def isTask : Lock → Bool
  | .task _ => true
  | _ => false

/-- the group of the locks of a thread other than `main` -/
def groupOf : Who n → Group
  | .main => .priv
  | .worker => .decl
  | .store => .store
  | .client _ => .leaf

/-- `main` may take the lock -/
def MainMay (held : List (Lock × Mode)) (l : Lock) (m : Mode) : Prop :=
  (∀ x ∈ held, group x.1 ≠ .leaf) ∧
  ((group l = .priv ∧ (l, .write) ∉ held ∧ (m = .write → (l, .read) ∉ held)) ∨
   group l = .leaf ∨
   (group l ≠ .priv ∧ m = .read ∧ isTask l = true ∧ (l, .write) ∉ held) ∨
   (group l ≠ .priv ∧ ∀ x ∈ held, group x.1 = group l → rank x.1 < rank l))

/-- a thread of group `g` other than `main` may take the lock -/
def HelperMay (g : Group) (held : List (Lock × Mode)) (l : Lock) (m : Mode) : Prop :=
  (∀ x ∈ held, group x.1 ≠ .leaf) ∧
  (group l = .leaf ∨
   (group l = g ∧ (isTask l = true → m = .read) ∧ (∀ x ∈ held, x.1 ≠ l) ∧ ∀ x ∈ held, rank x.1 ≤ rank l))

def May (t : Who n) (held : List (Lock × Mode)) (l : Lock) (m : Mode) : Prop :=
  match t with
  | .main => MainMay held l m
  | t => HelperMay (groupOf t) held l m

def receiver : Chan → Who n
  | .work => .worker
  | .store => .store

/-- a thread with the guards `held` keeps the discipline in what it does -/
def Disc (t : Who n) : List (Lock × Mode) → List Act → Prop
  | held, [] => held = []
  | held, .acq l m :: rest => May t held l m ∧ Disc t ((l, m) :: held) rest
  | held, .rel l m :: rest => (l, m) ∈ held ∧ Disc t (held.erase (l, m)) rest
  | held, .send _ :: rest => t = .main ∧ (∀ x ∈ held, group x.1 = .priv) ∧ Disc t held rest
  | held, .recv c :: rest => t = receiver c ∧ held = [] ∧ Disc t held rest

/-! ## Skeletons -/

/-- a skeleton keeps the discipline -/
def Safe (t : Who n) (held : List (Lock × Mode)) (p : Skel) : Prop :=
  ∀ w, Run p w → ∀ rest, Disc t held rest → Disc t held (w ++ rest)

theorem Safe.skip {t : Who n} {held} : Safe t held .skip := by
  intro w hw rest hr; cases hw; exact hr

theorem Safe.hold {t : Who n} {held l m b} (hm : May t held l m) (hb : Safe t ((l, m) :: held) b) :
    Safe t held (.hold l m b) := by
  intro w hw rest hr
  cases hw with
  | hold h =>
    have e : ∀ v : List Act, Act.acq l m :: (v ++ [.rel l m]) ++ rest = .acq l m :: (v ++ (.rel l m :: rest)) := by
      intro v; simp
    rw [e]
    refine ⟨hm, hb _ h _ ⟨List.mem_cons_self, ?_⟩⟩
    rw [List.erase_cons_head]
    exact hr

theorem Safe.seq {t : Who n} {held p q} (hp : Safe t held p) (hq : Safe t held q) : Safe t held (.seq p q) := by
  intro w hw rest hr
  cases hw with
  | seq h1 h2 => rw [List.append_assoc]; exact hp _ h1 _ (hq _ h2 _ hr)

theorem Safe.alt {t : Who n} {held p q} (hp : Safe t held p) (hq : Safe t held q) : Safe t held (.alt p q) := by
  intro w hw rest hr
  cases hw with
  | left h => exact hp _ h _ hr
  | right h => exact hq _ h _ hr

theorem Safe.loop {t : Who n} {held p} (hp : Safe t held p) : Safe t held (.loop p) := by
  intro w hw
  generalize hq : Skel.loop p = q at hw
  induction hw with
  | done => intro rest hr; exact hr
  | again h1 h2 _ ih2 =>
    cases hq
    intro rest hr
    rw [List.append_assoc]
    exact hp _ h1 _ (ih2 rfl _ hr)
  | _ => cases hq

theorem Safe.pick {t : Who n} {held f} (hf : ∀ i, Safe t held (f i)) : Safe t held (.pick f) := by
  intro w hw rest hr
  cases hw with
  | pick i h => exact hf i _ h _ hr

theorem Safe.opt {t : Who n} {held p} (hp : Safe t held p) : Safe t held (.opt p) := Safe.alt .skip hp

theorem Safe.send {held : List (Lock × Mode)} {c} (h : ∀ x ∈ held, group x.1 = .priv) :
    Safe (.main : Who n) held (.send c) := by
  intro w hw rest hr
  cases hw
  exact ⟨rfl, h, hr⟩

theorem Safe.recv {t : Who n} {c} (h : t = receiver c) : Safe t [] (.recv c) := by
  intro w hw rest hr
  cases hw
  exact ⟨h, rfl, hr⟩

theorem Safe.all_nil {t : Who n} {held} : Safe t held (.all []) := .skip

theorem Safe.all_cons {t : Who n} {held p ps} (hp : Safe t held p) (hq : Safe t held (.all ps)) :
    Safe t held (.all (p :: ps)) := .seq hp hq

theorem Safe.ite {t : Who n} {held p q} {c : Prop} [Decidable c] (hp : c → Safe t held p) (hq : ¬ c → Safe t held q) :
    Safe t held (if c then p else q) := by
  split
  · next h => exact hp h
  · next h => exact hq h

/-- decides whether a lock may be taken -/
macro "may" : tactic => `(tactic| (simp_all [May, MainMay, HelperMay, group, rank, isTask, groupOf]))

/-- goes through a skeleton -/
macro "safe" : tactic => `(tactic| repeat' (first
  | assumption
  | with_reducible exact Safe.skip
  | (with_reducible refine Safe.hold ?_ ?_; · may)
  | with_reducible refine Safe.seq ?_ ?_
  | with_reducible refine Safe.opt ?_
  | with_reducible refine Safe.alt ?_ ?_
  | with_reducible refine Safe.loop ?_
  | (with_reducible refine Safe.pick ?_; intro _)
  | with_reducible exact Safe.all_nil
  | with_reducible refine Safe.all_cons ?_ ?_
  | (with_reducible refine Safe.send ?_; may)
  | (with_reducible refine Safe.ite ?_ ?_ <;> intro _)))

theorem memAddTask_worker : Safe (.worker : Who n) [] memAddTask := by
  unfold memAddTask memReviseBelief addOne storeInConcepts readTasks readBeliefs
  safe

theorem memAddTask_main (m : Mode) : Safe (.main : Who n) [(.mem2, m)] memAddTask := by
  unfold memAddTask memReviseBelief addOne storeInConcepts readTasks readBeliefs
  safe

theorem workerRound_safe : Safe (.worker : Who n) [] workerRound := by
  unfold workerRound qaTryAnswer callHandler readTasks
  refine Safe.seq (Safe.recv rfl) ?_
  have := memAddTask_worker (n := n)
  safe

theorem storeRound_safe : Safe (.store : Who n) [] storeRound := by
  unfold storeRound storeInConcepts
  refine Safe.seq (Safe.recv rfl) ?_
  safe

theorem connection_safe (k : Fin n) : Safe (.client k) [] connection := by
  unfold connection
  safe

theorem setup_safe : Safe (.main : Who n) [] setup := by
  unfold setup
  safe

theorem reasonCycle_safe : Safe (.main : Who n) [] reasonCycle := by
  unfold reasonCycle sampleQuestion selectSecondary qaTryAnswer callHandler limitConcepts readTasks
  safe

theorem addEntry2_safe {held : List (Lock × Mode)}
    (hh : held = [(.mem2, .read)] ∨ held = [(.evidence, .read), (.mem2, .read)]) :
    Safe (.main : Who n) held addEntry2 := by
  unfold addEntry2
  rcases hh with rfl | rfl <;> safe

theorem addEntry_safe {held : List (Lock × Mode)}
    (hh : held = [(.mem2, .read)] ∨ held = [(.evidence, .read), (.mem2, .read)]) :
    Safe (.main : Who n) held addEntry := by
  have := addEntry2_safe (n := n) hh
  unfold addEntry
  rcases hh with rfl | rfl <;> safe

theorem sampleAndInference_safe : Safe (.main : Who n) [(.evidence, .read), (.mem2, .read)] sampleAndInference := by
  have := addEntry_safe (n := n) (.inr rfl)
  unfold sampleAndInference sample retEntries readEntries readEvidence
  safe

theorem limitGoals_safe : Safe (.main : Who n) [(.mem2, .read)] limitGoals := by
  have := addEntry2_safe (n := n) (.inl rfl)
  unfold limitGoals retEntries
  safe

theorem narStep0_safe : Safe (.main : Who n) [] narStep0 := by
  unfold narStep0 traceStep retEntries readEvidence
  safe

theorem narStep1_safe : Safe (.main : Who n) [] narStep1 := by
  have h1 := addEntry_safe (n := n) (.inl rfl)
  have h2 := limitGoals_safe (n := n)
  have h3 := sampleAndInference_safe (n := n)
  have h4 := memAddTask_main (n := n) .write
  unfold narStep1 retEntries readEvidence readEntries callOp limitConcepts
  safe

theorem inputT2_safe : Safe (.main : Who n) [] inputT2 := by
  have h1 := addEntry_safe (n := n) (.inl rfl)
  have h4 := memAddTask_main (n := n) .read
  unfold inputT2 addEvidence storeInConcepts
  safe

theorem command_safe {c : Command} (h : c ≠ .debugTasks) : Safe (.main : Who n) [] (command c) := by
  have h0 := narStep0_safe (n := n)
  have h1 := narStep1_safe (n := n)
  have h2 := reasonCycle_safe (n := n)
  have h3 := inputT2_safe (n := n)
  cases c <;> simp only [command, flushTasks, readEvidence] <;> first | contradiction | safe

theorem serve_safe {c : Command} (h : c ≠ .debugTasks) : Safe (.main : Who n) [] (serve c) := by
  have h1 := command_safe (n := n) h
  unfold serve
  refine Safe.seq h1 ?_
  safe

/-- every section of work keeps the discipline -/
theorem program_disc {t : Who n} {w : List Act} (h : program NotListing t w) : Disc t [] w := by
  have key : ∀ p, Run p w → Safe t [] p → Disc t [] w := fun p hr hs => by
    have := hs w hr [] rfl
    rwa [List.append_nil] at this
  cases t with
  | main =>
    rcases h with h | ⟨c, hc, h⟩
    · exact key _ h setup_safe
    · exact key _ h (serve_safe hc)
  | worker => exact key _ h workerRound_safe
  | store => exact key _ h storeRound_safe
  | client k => exact key _ h (connection_safe k)

end Nar.Locks
