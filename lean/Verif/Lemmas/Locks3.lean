import Verif.Lemmas.Locks2
/-! # Running the threads by a given schedule, and the schedule by which `!dt` hangs -/
namespace Nar.Locks
open Nar Skel

instance (p : Who 0 → Prop) [DecidablePred p] : Decidable (∀ u, p u) :=
  decidable_of_iff (p .main ∧ p .worker ∧ p .store)
    ⟨fun h u => match u with | .main => h.1 | .worker => h.2.1 | .store => h.2.2 | .client k => k.elim0,
     fun h => ⟨h _, h _, h _⟩⟩

instance (p : Mode → Prop) [DecidablePred p] : Decidable (∀ u, p u) :=
  decidable_of_iff (p .read ∧ p .write)
    ⟨fun h u => match u with | .read => h.1 | .write => h.2, fun h => ⟨h _, h _⟩⟩

instance (x : Thread) (l : Lock) : Decidable (WaitsToWrite x l) :=
  decidable_of_iff (x.parked = true ∧ x.todo.head? = some (.acq l .write))
    (by unfold WaitsToWrite; rw [List.head?_eq_some_iff])

instance (s : Sys 0) (t : Who 0) (a : Act) : Decidable (CanTake s t a) :=
  match a with
  | .acq l .write => inferInstanceAs (Decidable (∀ u m, (l, m) ∉ (s.thr u).held))
  | .acq l .read => inferInstanceAs (Decidable ((∀ u, (l, .write) ∉ (s.thr u).held) ∧ ∀ u, u ≠ t → ¬ WaitsToWrite (s.thr u) l))
  | .rel _ _ => isTrue trivial
  | .send c => inferInstanceAs (Decidable (s.queue c < capacity))
  | .recv c => inferInstanceAs (Decidable (0 < s.queue c))

inductive Move
  | begin (t : Who 0) (w : List Act)
  | park (t : Who 0)
  | go (t : Who 0) (k : Nat)

def goes (s : Sys 0) (t : Who 0) : Nat → Option (Sys 0)
  | 0 => some s
  | k + 1 =>
    match (s.thr t).todo with
    | [] => none
    | a :: rest => if CanTake s t a then goes (exec s t rest a) t k else none

def Move.run (s : Sys 0) : Move → Option (Sys 0)
  | .begin t w => if (s.thr t).todo = [] then some (s.set t { (s.thr t) with todo := w, parked := false }) else none
  | .park t =>
    match (s.thr t).todo with
    | [] => none
    | a :: _ => if CanTake s t a then none else some (s.set t { (s.thr t) with parked := true })
  | .go t k => goes s t k

theorem goes_steps {prog : Who 0 → List Act → Prop} {t : Who 0} {k} : ∀ {s s' : Sys 0}, goes s t k = some s' → Steps prog s s' := by
  induction k with
  | zero => intro s s' h; cases h; exact .refl
  | succ k ih =>
    intro s s' h
    unfold goes at h
    split at h
    · cases h
    · next a rest ht =>
      split at h
      · next hc => exact (Steps.tail .refl (.act t a rest ht hc)).trans (ih h)
      · cases h

theorem Move.run_steps {prog : Who 0 → List Act → Prop} {m : Move} {s s' : Sys 0} (h : m.run s = some s')
    (hp : ∀ t w, m = .begin t w → prog t w) : Steps prog s s' := by
  cases m with
  | begin t w =>
    simp only [Move.run] at h
    split at h
    · next h0 => cases h; exact .tail .refl (.begin t w h0 (hp t w rfl))
    · cases h
  | park t =>
    simp only [Move.run] at h
    split at h
    · cases h
    · next a rest ht =>
      split at h
      · cases h
      · next hc => cases h; exact .tail .refl (.park t a rest ht hc)
  | go t k => exact goes_steps h

theorem foldlM_moves {prog : Who 0 → List Act → Prop} {ms : List Move} : ∀ {s s' : Sys 0},
    ms.foldlM (fun s m => m.run s) s = some s' → (∀ t w, Move.begin t w ∈ ms → prog t w) → Steps prog s s' := by
  induction ms with
  | nil => intro s s' h _; cases h; exact .refl
  | cons m ms ih =>
    intro s s' h hp
    rw [List.foldlM_cons] at h
    cases hm : m.run s with
    | none => rw [hm] at h; cases h
    | some s1 =>
      rw [hm] at h
      exact (Move.run_steps hm (fun t w e => hp t w (by simp [e]))).trans
        (ih h (fun t w hw => hp t w (List.mem_cons_of_mem _ hw)))

/-! ## Sections of work -/

/-- adding a judgement whose term is new: nothing to revise, the judgement is stored, then added to the tasks -/
def addNew : { w // Run memAddTask w } :=
  ⟨_, .right (.seq (.hold .done) (.seq (.right (.hold (.hold .done))) (.seq
    (.again (.left (.seq (.hold .done) (.right (.seq (.hold .skip) (.hold (.hold .skip)))))) .done) .skip)))⟩

/-- a line with a judgement -/
def lineSection : { w // Run (serve .narsese) w } :=
  ⟨_, .seq (.right (.seq (.hold (.hold .skip)) (.right (.right (.left (.hold addNew.2)))))) .done⟩

/-- a cycle which hands work to the worker -/
def cycleSection : { w // Run (serve (.cycles ['1'])) w } :=
  ⟨_, .seq (.again (.seq (.hold (.hold .skip)) (.seq (.hold (.hold (.hold .done)))
    (.seq (.hold (.hold (.again (.pick 0 (.hold .skip)) (.again (.pick 1 (.hold .skip)) .done))))
    (.seq (.hold (.hold (.seq (.hold .skip) (.left .skip))))
    (.seq (.hold (.seq (.hold .skip) (.seq (.right (.hold .done)) (.seq (.hold (.right (.pick 0
      (.seq (.hold .skip) (.seq .done (.seq .done .skip)))))) .skip))))
    (.seq (.right (.seq .done (.seq (.hold .send) .skip)))
    (.seq (.hold (.seq (.hold .skip) (.left .skip)))
    (.seq (.hold (.seq (.hold .skip) (.left .skip)))
    (.seq (.hold (.hold (.left .skip))) .skip))))))))) .done) .done⟩

/-- a round of the worker with one conclusion -/
def roundSection : { w // Run workerRound w } :=
  ⟨_, .seq .recv (.pick 0 (.seq (.hold .skip) (.seq .done (.seq (.hold .skip) (.seq (.hold .done) (.seq (.hold .skip)
    (.seq (.hold (.hold .done)) (.seq .done (.seq (.again (.seq (.hold .skip) addNew.2) .done) .skip)))))))))⟩

/-- the list of tasks, with one task -/
def listSection : { w // Run (serve .debugTasks) w } :=
  ⟨_, .seq (.hold (.hold (.again (.pick 1 (.seq (.hold .skip) (.seq (.hold .skip) (.seq (.hold (.hold .skip)) .skip)))) .done)))
    .done⟩

/-- two lines, a cycle; then the worker has a conclusion to add just when the tasks are being listed -/
def hangSchedule : List Move :=
  [.begin .main lineSection.1, .go .main lineSection.1.length,
   .begin .main lineSection.1, .go .main lineSection.1.length,
   .begin .main cycleSection.1, .go .main cycleSection.1.length,
   .begin .worker roundSection.1, .go .worker 23,
   .begin .main listSection.1, .go .main 7,
   .park .worker]

/-- two lines, a cycle; then the worker has a conclusion to add just when a further line reads the clock of the tasks -/
def busySchedule : List Move :=
  [.begin .main lineSection.1, .go .main lineSection.1.length,
   .begin .main lineSection.1, .go .main lineSection.1.length,
   .begin .main cycleSection.1, .go .main cycleSection.1.length,
   .begin .worker roundSection.1, .go .worker 23,
   .begin .main lineSection.1, .go .main 2,
   .park .worker]

theorem busy_reached : ∃ s : Sys 0, Reachable NotListing s ∧ WaitsToWrite (s.thr .worker) .shared ∧
    (.shared, .read) ∈ (s.thr .main).held := by
  have h : ∀ o : Option (Sys 0), (o.map fun s => decide (WaitsToWrite (s.thr .worker) .shared ∧
      (.shared, .read) ∈ (s.thr .main).held)) = some true → ∃ s, o = some s ∧
      WaitsToWrite (s.thr .worker) .shared ∧ (.shared, .read) ∈ (s.thr .main).held := by
    intro o ho
    cases o with
    | none => cases ho
    | some s => exact ⟨s, rfl, of_decide_eq_true (Option.some.inj ho)⟩
  obtain ⟨s, hs, h1⟩ := h (busySchedule.foldlM (fun s (m : Move) => m.run s) (start 0)) (by decide +kernel)
  refine ⟨s, foldlM_moves hs ?_, h1⟩
  intro t w hw
  simp only [busySchedule, List.mem_cons, List.not_mem_nil, or_false, reduceCtorEq, false_or] at hw
  rcases hw with h | h | h | h | h
  · cases h; exact .inr ⟨.narsese, nofun, lineSection.2⟩
  · cases h; exact .inr ⟨.narsese, nofun, lineSection.2⟩
  · cases h; exact .inr ⟨.cycles ['1'], nofun, cycleSection.2⟩
  · cases h; exact roundSection.2
  · cases h; exact .inr ⟨.narsese, nofun, lineSection.2⟩

/-- the state after the schedule which hangs -/
theorem hang_reached : ∃ s : Sys 0, hangSchedule.foldlM (fun s (m : Move) => m.run s) (start 0) = some s ∧
    (s.thr .main).todo.head? = some (.acq .shared .read) ∧ (.shared, .read) ∈ (s.thr .main).held ∧
    (s.thr .worker).todo.head? = some (.acq .shared .write) ∧ (s.thr .worker).parked = true := by
  have h : ∀ o : Option (Sys 0), (o.map fun s => decide ((s.thr .main).todo.head? = some (.acq .shared .read) ∧
      (.shared, .read) ∈ (s.thr .main).held ∧ (s.thr .worker).todo.head? = some (.acq .shared .write) ∧
      (s.thr .worker).parked = true)) = some true → ∃ s, o = some s ∧
    (s.thr .main).todo.head? = some (.acq .shared .read) ∧ (.shared, .read) ∈ (s.thr .main).held ∧
    (s.thr .worker).todo.head? = some (.acq .shared .write) ∧ (s.thr .worker).parked = true := by
    intro o ho
    cases o with
    | none => cases ho
    | some s => exact ⟨s, rfl, of_decide_eq_true (Option.some.inj ho)⟩
  exact h _ (by decide +kernel)

theorem hang_reachable {s : Sys 0} (h : hangSchedule.foldlM (fun s (m : Move) => m.run s) (start 0) = some s) :
    Reachable (fun _ => True) s := by
  refine foldlM_moves h ?_
  intro t w hw
  simp only [hangSchedule, List.mem_cons, List.not_mem_nil, or_false, reduceCtorEq, false_or] at hw
  rcases hw with h | h | h | h | h
  · cases h; exact .inr ⟨_, trivial, lineSection.2⟩
  · cases h; exact .inr ⟨_, trivial, lineSection.2⟩
  · cases h; exact .inr ⟨_, trivial, cycleSection.2⟩
  · cases h; exact roundSection.2
  · cases h; exact .inr ⟨_, trivial, listSection.2⟩

variable {n : Nat}

/-- the thread which runs commands wants to read what it reads already, and the worker waits to write it -/
def Embrace (s : Sys n) : Prop :=
  (∃ r, (s.thr .main).todo = .acq .shared .read :: r) ∧ (.shared, .read) ∈ (s.thr .main).held ∧
  WaitsToWrite (s.thr .worker) .shared

theorem Embrace.step {prog : Who n → List Act → Prop} {s s' : Sys n} (h : Embrace s) (hs : Step prog s s') : Embrace s' := by
  obtain ⟨⟨r, h1⟩, h2, h3, r', h4⟩ := h
  have hm : ¬ CanTake s .main (.acq .shared .read) := fun hc => hc.2 .worker (by simp) ⟨h3, r', h4⟩
  have hw : ¬ CanTake s .worker (.acq .shared .write) := fun hc => hc .main .read h2
  cases hs with
  | begin t w h0 hp =>
    have t1 : t ≠ .main := by rintro rfl; rw [h1] at h0; cases h0
    have t2 : t ≠ .worker := by rintro rfl; rw [h4] at h0; cases h0
    refine ⟨⟨r, ?_⟩, ?_, ?_, r', ?_⟩ <;> rw [Sys.set_ne _ _ (Ne.symm ‹_›)] <;> assumption
  | park t a rest h0 _ =>
    by_cases t1 : t = .main
    · subst t1
      exact ⟨⟨r, by simpa using h1⟩, by simpa using h2, by simpa [Sys.set] using h3, r', by simpa [Sys.set] using h4⟩
    · by_cases t2 : t = .worker
      · subst t2
        exact ⟨⟨r, by simpa [Sys.set] using h1⟩, by simpa [Sys.set] using h2, by simp, r', by simpa using h4⟩
      · refine ⟨⟨r, ?_⟩, ?_, ?_, r', ?_⟩ <;> rw [Sys.set_ne _ _ (Ne.symm ‹_›)] <;> assumption
  | act t a rest h0 hc =>
    have t1 : t ≠ .main := by rintro rfl; rw [h1] at h0; cases h0; exact hm hc
    have t2 : t ≠ .worker := by rintro rfl; rw [h4] at h0; cases h0; exact hw hc
    refine ⟨⟨r, ?_⟩, ?_, ?_, r', ?_⟩ <;> rw [exec_thr_ne (Ne.symm ‹_›)] <;> assumption

theorem Embrace.hangs {ok : Command → Prop} {s : Sys n} (h : Embrace s) : HangsForEver ok s := by
  intro s' hs
  have : Embrace s' := by
    induction hs with
    | refl => exact h
    | tail _ h2 ih => exact ih.step h2
  obtain ⟨⟨r, h1⟩, _⟩ := this
  rw [h1]; simp

/-! ## Exclusion -/

theorem Exclusive.step {prog : Who n → List Act → Prop} {s s' : Sys n} (h : Exclusive s) (hs : Step prog s s') :
    Exclusive s' := by
  have key : ∀ (s' : Sys n) (t : Who n), (∀ u, u ≠ t → (s'.thr u).held = (s.thr u).held) →
      (∀ x ∈ (s'.thr t).held, x ∈ (s.thr t).held) → Exclusive s' := by
    intro s' t ho hsub a b l m hab hw hm
    have f : ∀ v x, x ∈ (s'.thr v).held → x ∈ (s.thr v).held := by
      intro v x hx
      by_cases hv : v = t
      · subst hv; exact hsub x hx
      · rwa [ho v hv] at hx
    exact h a b l m hab (f _ _ hw) (f _ _ hm)
  cases hs with
  | begin t w h0 hp =>
    exact key _ t (fun u hu => by rw [Sys.set_ne _ _ hu]) (fun x hx => by simpa using hx)
  | park t a rest h0 _ =>
    exact key _ t (fun u hu => by rw [Sys.set_ne _ _ hu]) (fun x hx => by simpa using hx)
  | act t a rest h0 hc =>
    cases a with
    | acq l m =>
      intro a b l' m' hab hw hm
      by_cases ha : a = t
      · subst ha
        rw [exec_thr_ne (Ne.symm hab)] at hm
        simp only [exec, Sys.set_self, List.mem_cons] at hw
        rcases hw with hw | hw
        · cases hw; exact hc b m' hm
        · exact h a b l' m' hab hw hm
      · rw [exec_thr_ne ha] at hw
        by_cases hb : b = t
        · subst hb
          simp only [exec, Sys.set_self, List.mem_cons] at hm
          rcases hm with hm | hm
          · cases hm
            cases m with
            | write => exact hc a .write hw
            | read => exact hc.1 a hw
          · exact h a b l' m' hab hw hm
        · rw [exec_thr_ne hb] at hm
          exact h a b l' m' hab hw hm
    | rel l m =>
      exact key _ t (fun u hu => by rw [exec_thr_ne hu])
        (fun x hx => by simp only [exec, Sys.set_self] at hx; exact List.mem_of_mem_erase hx)
    | send c => exact key _ t (fun u hu => by rw [exec_thr_ne hu]) (fun x hx => by simpa [exec] using hx)
    | recv c => exact key _ t (fun u hu => by rw [exec_thr_ne hu]) (fun x hx => by simpa [exec] using hx)

end Nar.Locks
