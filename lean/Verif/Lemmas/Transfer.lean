import Verif.Lemmas.Ways
import Verif.Props.Unify
/-! # Lemmas about acting on an instance of what was learned -/
namespace Nar
open Term

/-- a term only depends on what its own variables stand for -/
theorem inst_congr {f g : Term → Term} (t : Term) (h : ∀ v, IsVar v → IsSubterm v t → f v = g v) : inst f t = inst g t := by
  have key : ∀ ts : List Term, (∀ x ∈ ts, inst f x = inst g x) → instL f ts = instL g ts := by
    intro ts hts
    rw [instL_eq_map, instL_eq_map]
    exact List.map_congr_left hts
  induction t using Term.ind with
  | qvar n | depvar n | indepvar n => exact h _ (by simp [IsVar]) (.refl _)
  | name n => rfl
  | stmt c s p hs hp =>
    rw [inst, inst, hs fun v hv k => h v hv (.inside (by simp [parts]) k), hp fun v hv k => h v hv (.inside (by simp [parts]) k)]
  | neg t ih => rw [inst, inst, ih fun v hv k => h v hv (.inside (by simp [parts]) k)]
  | img r i ts hr hts =>
    rw [inst, inst, hr fun v hv k => h v hv (.inside (by simp [parts]) k),
      key ts fun x hx => hts x hx fun v hv k => h v hv (.inside (by simp [parts, hx]) k)]
  | _ => 
    rename_i ts hts
    rw [inst, inst, key ts fun x hx => hts x hx fun v hv k => h v hv (.inside (by simpa [parts] using hx) k)]

/-- a match of the condition carries over to the rest of the sequence -/
theorem unifySubst_seq {cond op state : Term} {θ : Term → Term} (hg : Ground state) (hc : inst θ cond = state)
    (hv : ∀ v, IsVar v → IsSubterm v op → IsSubterm v cond) :
    ∃ a, unify cond state = some a ∧ unifySubst a (.Seq [cond, op]) = .Seq [state, inst θ op] := by
  obtain ⟨a, h1, h2, h3⟩ := Props.C03_match_complete cond state θ hg hc
  refine ⟨a, h1, ?_⟩
  have h4 := Props.C02_match_sound cond state a h1
  rw [unifySubst_eq_inst] at h4 ⊢
  have h5 : inst (fun v => substVar v a) op = inst θ op := by
    refine inst_congr op fun v hv' hs => ?_
    obtain ⟨b, hb, hbv, hbs⟩ := substVar_mem v a (h3 v hv' (hv v hv' hs))
    rw [hbs, ← h2 b hb, hbv]
  simp only [inst, instL, h4, h5]

/-! ## the best choice only gets better -/

/-- something is found which promises at least `x` -/
def AtLeast (x : Rat) (best : Option BestEntry) : Prop := ∃ b, best = some b ∧ x ≤ b.exp

theorem AtLeast.better {x : Rat} {best : Option BestEntry} (h : AtLeast x best) (e : BestEntry) : AtLeast x (better best e) := by
  obtain ⟨b, rfl, hb⟩ := h
  unfold Nar.better
  simp only
  split
  · rename_i k; exact ⟨e, rfl, by linarith⟩
  · exact ⟨b, rfl, hb⟩

theorem bestByState_atLeast {p : Proc} {best best' : Option BestEntry} {i : Nat} {x : Rat} (hb : AtLeast x best)
    (h : bestByState p best i = .ok best') : AtLeast x best' := by
  unfold bestByState at h
  split at h
  · cases h; exact hb
  · obtain ⟨⟨y, found⟩, _, h⟩ := R.bind_ok.1 h
    cases found with
    | none => cases h; exact hb
    | some es => cases h; exact hb.better _

theorem bestByState_reaches {p : Proc} {best best' : Option BestEntry} {i : Nat} {x : Rat} {ev : Event} {e : Entry} {seq : Term}
    (hi : recentEvent p.trace i = some ev) (he : Stored p.goals e) (hs : StartsWith ev.name e seq)
    (hx : Expectation e.sentence x) (h0 : 0 < x) (h : bestByState p best i = .ok best') : AtLeast x best' := by
  unfold bestByState at h
  rw [hi] at h
  obtain ⟨⟨y, found⟩, hf, h⟩ := R.bind_ok.1 h
  obtain ⟨k1, k2⟩ := selHighest_spec hf
  have hxy := k1 e he seq hs x hx
  cases found with
  | none => simp only at k2; linarith
  | some es =>
    cases h
    obtain ⟨b, hb, hbx⟩ := better_best best { unifiedSeq := es.2, exp := y, evidence := es.1.evidence }
    exact ⟨b, hb, by simp only at hbx; linarith⟩

theorem foldBest_reaches {p : Proc} {x : Rat} {ev : Event} {e : Entry} {seq : Term} {l : List Nat} {i : Nat} (hil : i ∈ l)
    {best best' : Option BestEntry} (hi : recentEvent p.trace i = some ev) (he : Stored p.goals e)
    (hs : StartsWith ev.name e seq) (hx : Expectation e.sentence x) (h0 : 0 < x)
    (h : l.foldlM (bestByState p) best = .ok best') : AtLeast x best' := by
  induction l generalizing best with
  | nil => cases hil
  | cons j l ih =>
    obtain ⟨b1, h1, h2⟩ := foldlM_cons_ok.1 h
    rcases List.mem_cons.1 hil with rfl | hil
    · exact foldlM_inv (AtLeast x) h2 (bestByState_reaches hi he hs hx h0 h1) (fun _ _ _ _ hx hs => bestByState_atLeast hx hs)
    · exact ih hil h2

theorem decidePredicted_atLeast {heap : List Sentence} {predicted : Term} {hit : Entry} {chain : List Nat}
    {best best' : Option BestEntry} {x : Rat} (hb : AtLeast x best)
    (h : decidePredicted heap predicted hit chain best = .ok best') : AtLeast x best' := by
  unfold decidePredicted at h
  obtain ⟨_, _, h⟩ := R.bind_ok.1 h
  obtain ⟨_, _, h⟩ := R.bind_ok.1 h
  obtain ⟨⟨c, tv, so⟩, _, h⟩ := R.bind_ok.1 h
  cases so with
  | none => cases h; exact hb
  | some s =>
    obtain ⟨_, _, h⟩ := R.bind_ok.1 h
    obtain ⟨_, _, h⟩ := R.bind_ok.1 h
    cases h
    exact hb.better _

theorem predict_atLeast {p : Proc} (n : Nat) {predicted : Term} {chain : List Nat} {best best' : Option BestEntry}
    {rng rng' : List Nat} {x : Rat} (hb : AtLeast x best) (h : predict p n predicted chain best rng = .ok (best', rng')) :
    AtLeast x best' := by
  induction n generalizing predicted chain rng with
  | zero => rw [predict] at h; cases h; exact hb
  | succ n ih =>
    rw [predict] at h
    split at h
    · obtain ⟨b1, h1, h⟩ := R.bind_ok.1 h
      cases h
      exact decidePredicted_atLeast hb h1
    · obtain ⟨found, hf, h⟩ := R.bind_ok.1 h
      split at h
      · cases h; exact hb
      · obtain ⟨⟨i, rng1⟩, _, h⟩ := R.bind_ok.1 h
        obtain ⟨r, hr, h⟩ := R.bind_ok.1 h
        obtain ⟨b, hb1, h⟩ := R.bind_ok.1 h
        obtain ⟨pred, hp, h⟩ := R.bind_ok.1 h
        exact ih h

theorem predictAll_atLeast {p : Proc} {best best' : Option BestEntry} {rng rng' : List Nat} {x : Rat} (hb : AtLeast x best)
    (h : predictAll p best rng = .ok (best', rng')) : AtLeast x best' := by
  unfold predictAll retLastEvents at h
  cases hl : p.trace.getLast? with
  | none => rw [hl] at h; cases h; exact hb
  | some e =>
    rw [hl] at h
    obtain ⟨st, h1, h⟩ := foldlM_cons_ok.1 h
    have := foldlM_nil_ok.1 h
    subst this
    exact predict_atLeast 3 hb h1

end Nar
