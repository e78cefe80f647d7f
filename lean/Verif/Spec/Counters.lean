import Verif.Spec.Nar
/-! # Specification vocabulary: counters of use -/
namespace Nar
open Term

/-- counters after `n` more uses, the last of them at `now` -/
def Usage.after (n : Nat) (now : Int) (u : Usage) : Usage := if n = 0 then u else ⟨now, u.useCount + n, u.cell⟩

/-- a sentence whose counters are those after the uses counted by `n` for its cell -/
def Sentence.after (n : List Int → Nat) (now : Int) (s : Sentence) : Sentence :=
  { s with usage := s.usage.after (n s.usage.cell) now }

/-- how many of the tasks of a message write into a cell of counters -/
def usesOf (sh : Shared) (msg : Msg) (cell : List Int) : Nat :=
  (msg.primary :: msg.secondary).countP
    (fun r => match sh.heap[r]? with | some t => decide (t.sentence.usage.cell = cell) | none => false)

/-- the counters are held by a task or by a belief in memory -/
def HoldsCounters (sh : Shared) (u : Usage) : Prop :=
  (∃ t ∈ sh.heap, t.sentence.usage = u) ∨
  ∃ c ∈ sh.mem, ∃ b, (b ∈ c.beliefsByExp ∨ b ∈ c.beliefsByUsage) ∧ b.usage = u

/-- a state in which the uses of a message are counted -/
def UsesCounted (n : List Int → Nat) (now : Int) (sh sh' : Shared) : Prop :=
  sh'.heap.map (·.sentence) = sh.heap.map (fun t => t.sentence.after n now) ∧
  ∀ c' ∈ sh'.mem, ∃ c ∈ sh.mem, c' = { c with
    beliefsByExp := c.beliefsByExp.map (Sentence.after n now)
    beliefsByUsage := c.beliefsByUsage.map (Sentence.after n now) }

/-- a concept has at least `n` beliefs listed by use, all of them among the statements `l` -/
def ListedByUse (m : Mem) (name : Term) (n : Nat) (l : List Term) : Prop :=
  ∃ c, m.get name = some c ∧ n ≤ c.beliefsByUsage.length ∧ ∀ b ∈ c.beliefsByUsage, b.term ∈ l

end Nar
