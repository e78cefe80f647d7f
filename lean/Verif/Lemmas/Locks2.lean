import Verif.Lemmas.Locks
/-! # Threads which keep the discipline never wait for each other for ever -/
namespace Nar.Locks
open Nar Skel

variable {n : Nat}

@[simp] theorem Sys.set_self (s : Sys n) (t : Who n) (x : Thread) : (s.set t x).thr t = x := by simp [Sys.set]
theorem Sys.set_ne (s : Sys n) {t u : Who n} (x : Thread) (h : u ≠ t) : (s.set t x).thr u = s.thr u := by
  simp [Sys.set, h]
@[simp] theorem Sys.set_queue (s : Sys n) (t : Who n) (x : Thread) : (s.set t x).queue = s.queue := rfl

/-- the guards which a thread may have -/
def HeldOk (t : Who n) (held : List (Lock × Mode)) : Prop :=
  t ≠ .main → ∀ x ∈ held, group x.1 = .leaf ∨ (group x.1 = groupOf t ∧ (isTask x.1 = true → x.2 = .read))

/-- the discipline is kept by all threads -/
structure Inv (s : Sys n) : Prop where
  disc : ∀ t, Disc t (s.thr t).held (s.thr t).todo
  held : ∀ t, HeldOk t (s.thr t).held
  queue : ∀ c, s.queue c ≤ capacity

theorem Inv.start : Inv (start n) where
  disc _ := rfl
  held t _ x hx := by cases hx
  queue _ := Nat.zero_le _

theorem exec_thr_ne {s : Sys n} {t u : Who n} {rest a} (h : u ≠ t) : (exec s t rest a).thr u = s.thr u := by
  cases a <;> simp [exec, Sys.set, h]

theorem exec_todo {s : Sys n} {t : Who n} {rest a} : ((exec s t rest a).thr t).todo = rest := by
  cases a <;> simp [exec]

theorem Inv.step {s s' : Sys n} (h : Inv s) (hs : Step (program NotListing) s s') : Inv s' := by
  cases hs with
  | begin t w h0 hp =>
    have hd := h.disc t
    rw [h0] at hd
    have hh : (s.thr t).held = [] := hd
    refine ⟨fun u => ?_, fun u => ?_, h.queue⟩
    · by_cases hu : u = t
      · subst hu; simp [hh]; exact program_disc hp
      · rw [Sys.set_ne _ _ hu]; exact h.disc u
    · by_cases hu : u = t
      · subst hu; simpa using h.held u
      · rw [Sys.set_ne _ _ hu]; exact h.held u
  | park t a rest h0 _ =>
    refine ⟨fun u => ?_, fun u => ?_, h.queue⟩
    · by_cases hu : u = t
      · subst hu; simpa using h.disc u
      · rw [Sys.set_ne _ _ hu]; exact h.disc u
    · by_cases hu : u = t
      · subst hu; simpa using h.held u
      · rw [Sys.set_ne _ _ hu]; exact h.held u
  | act t a rest h0 hc =>
    have hd := h.disc t
    rw [h0] at hd
    refine ⟨fun u => ?_, fun u => ?_, fun c => ?_⟩
    · by_cases hu : u = t
      · subst hu
        cases a with
        | acq l m => simpa [exec] using hd.2
        | rel l m => simpa [exec] using hd.2
        | send c => simpa [exec] using hd.2.2
        | recv c => simpa [exec] using hd.2.2
      · rw [exec_thr_ne hu]; exact h.disc u
    · by_cases hu : u = t
      · subst hu
        have hh := h.held u
        cases a with
        | acq l m =>
          intro hm x hx
          simp only [exec, Sys.set_self, List.mem_cons] at hx
          rcases hx with rfl | hx
          · have := hd.1
            cases u with
            | main => exact absurd rfl hm
            | _ =>
              rcases this.2 with h1 | ⟨h1, h2, _⟩
              · exact .inl h1
              · exact .inr ⟨h1, h2⟩
          · exact hh hm x hx
        | rel l m =>
          intro hm x hx
          simp only [exec, Sys.set_self] at hx
          exact hh hm x (List.mem_of_mem_erase hx)
        | send c => simpa [exec] using hh
        | recv c => simpa [exec] using hh
      · rw [exec_thr_ne hu]; exact h.held u
    · cases a with
      | acq l m => exact h.queue c
      | rel l m => exact h.queue c
      | send d =>
        have hq := h.queue c
        have hd : s.queue d < capacity := hc
        simp only [exec]
        split
        · next e => subst e; exact hd
        · exact hq
      | recv d =>
        have hq := h.queue c
        simp only [exec]
        split
        · omega
        · exact hq

theorem Inv.steps {s s' : Sys n} (h : Inv s) (hs : Steps (program NotListing) s s') : Inv s' := by
  induction hs with
  | refl => exact h
  | tail _ h2 ih => exact ih.step h2

/-- no thread can go on -/
def NoMove (s : Sys n) : Prop := ∀ t a rest, (s.thr t).todo = a :: rest → ¬ CanTake s t a

variable {s : Sys n}

/-- a thread with a guard is in the middle of a section -/
theorem Inv.busy (h : Inv s) {t : Who n} {x} (hx : x ∈ (s.thr t).held) : ∃ a rest, (s.thr t).todo = a :: rest := by
  have := h.disc t
  cases ht : (s.thr t).todo with
  | nil => rw [ht] at this; rw [show (s.thr t).held = [] from this] at hx; cases hx
  | cons a rest => exact ⟨a, rest, rfl⟩

theorem no_leaf {t : Who n} {held : List (Lock × Mode)} {l m} (h : May t held l m) : ∀ x ∈ held, group x.1 ≠ .leaf := by
  cases t <;> exact h.1

/-- when nobody can go on, no leaf is held -/
theorem Inv.no_leaf_held (h : Inv s) (hn : NoMove s) (t : Who n) {x} (hx : x ∈ (s.thr t).held) : group x.1 ≠ .leaf := by
  obtain ⟨a, rest, ht⟩ := h.busy hx
  have hd := h.disc t
  rw [ht] at hd
  cases a with
  | acq l m => exact no_leaf hd.1 x hx
  | rel l m => exact absurd trivial (hn t _ _ ht)
  | send c => rw [hd.2.1 x hx]; simp
  | recv c => rw [hd.2.1] at hx; cases hx

/-- a thread which cannot take a lock: someone has a guard of it, or waits to write -/
theorem not_canTake {t : Who n} {l : Lock} {m : Mode} (h : ¬ CanTake s t (.acq l m)) :
    (∃ u m', (l, m') ∈ (s.thr u).held ∧ (m = .write ∨ m' = .write)) ∨
    (m = .read ∧ ∃ u, u ≠ t ∧ WaitsToWrite (s.thr u) l) := by
  cases m with
  | write =>
    simp only [CanTake, not_forall, not_not] at h
    obtain ⟨u, m', hu⟩ := h
    exact .inl ⟨u, m', hu, .inl rfl⟩
  | read =>
    simp only [CanTake, not_and_or, not_forall, not_not] at h
    rcases h with ⟨u, hu⟩ | ⟨u, hu, hw⟩
    · exact .inl ⟨u, _, hu, .inr rfl⟩
    · exact .inr ⟨rfl, u, hu, hw⟩

/-- a writer in the queue of a lock, while nobody can go on: someone has a guard of the lock -/
theorem writer_blocked (hn : NoMove s) {u : Who n} {l : Lock} (hw : WaitsToWrite (s.thr u) l) :
    ∃ v m, (l, m) ∈ (s.thr v).held := by
  obtain ⟨_, rest, ht⟩ := hw
  rcases not_canTake (hn u _ _ ht) with ⟨v, m, hv, _⟩ | ⟨h, _⟩
  · exact ⟨v, m, hv⟩
  · cases h

/-- whoever waits for a lock while nobody can go on: someone has a guard of it -/
theorem lock_held (hn : NoMove s) {t : Who n} {l : Lock} {m : Mode} {rest} (ht : (s.thr t).todo = .acq l m :: rest) :
    ∃ v m', (l, m') ∈ (s.thr v).held := by
  rcases not_canTake (hn t _ _ ht) with ⟨v, m', hv, _⟩ | ⟨_, u, _, hw⟩
  · exact ⟨v, m', hv⟩
  · exact writer_blocked hn hw

theorem Inv.not_leaf_wait (h : Inv s) (hn : NoMove s) {t : Who n} {l : Lock} {m : Mode} {rest}
    (ht : (s.thr t).todo = .acq l m :: rest) : group l ≠ .leaf := by
  obtain ⟨v, m', hv⟩ := lock_held hn ht
  exact h.no_leaf_held hn v hv

theorem groupOf_inj {t u : Who n} (ht : t ≠ .main) (h : groupOf t = groupOf u) (hl : groupOf t ≠ .leaf) : t = u := by
  cases t <;> cases u <;> simp_all [groupOf]

theorem groupOf_priv {t : Who n} (h : groupOf t = .priv) : t = .main := by
  cases t <;> simp_all [groupOf]

theorem helper_may {t : Who n} (hm : t ≠ .main) {held l m} (h : May t held l m) : HelperMay (groupOf t) held l m := by
  cases t <;> first | exact absurd rfl hm | exact h

/-- a thread other than `main` which waits for a lock: `main` has a guard of that lock -/
theorem Inv.waits_for_main (h : Inv s) (hn : NoMove s) {t : Who n} (hm : t ≠ .main) {l : Lock} {m : Mode} {rest}
    (ht : (s.thr t).todo = .acq l m :: rest) : ∃ m', (l, m') ∈ (s.thr .main).held := by
  have hd := h.disc t
  rw [ht] at hd
  have hl := h.not_leaf_wait hn ht
  have hmay := helper_may hm hd.1
  obtain ⟨v, m', hv⟩ := lock_held hn ht
  rcases hmay.2 with h1 | ⟨h1, _, h3, _⟩
  · exact absurd h1 hl
  · by_cases hvm : v = .main
    · exact ⟨m', hvm ▸ hv⟩
    · rcases h.held v hvm _ hv with h4 | ⟨h4, _⟩
      · exact absurd h4 hl
      · have : v = t := groupOf_inj hvm (h4.symm.trans h1) (h4 ▸ hl)
        subst this
        exact absurd rfl (h3 _ hv)

theorem main_not_acq (h : Inv s) (hn : NoMove s) {l m rest} (ht : (s.thr .main).todo = .acq l m :: rest) : False := by
  have hd := h.disc .main
  rw [ht] at hd
  have hl := h.not_leaf_wait hn ht
  have hmay : MainMay _ _ _ := hd.1
  have hblock := not_canTake (hn _ _ _ ht)
  -- nobody else has a guard of a lock of the group `priv`
  have hpriv : ∀ v m', (l, m') ∈ (s.thr v).held → group l = .priv → v = .main := by
    intro v m' hv hp
    by_contra hvm
    rcases h.held v hvm _ hv with h4 | ⟨h4, _⟩
    · exact hl h4
    · exact hvm (groupOf_priv (h4.symm.trans hp))
  have hwait : ∀ u, u ≠ Who.main → WaitsToWrite (s.thr u) l → ∃ m', (l, m') ∈ (s.thr .main).held := by
    rintro u hu ⟨_, rest', hu'⟩
    exact h.waits_for_main hn hu hu'
  have hwgrp : ∀ u, u ≠ Who.main → WaitsToWrite (s.thr u) l → group l ≠ .priv ∧ isTask l = false := by
    rintro u hu ⟨_, rest', hu'⟩
    have hdu := h.disc u
    rw [hu'] at hdu
    rcases (helper_may hu hdu.1).2 with h1 | ⟨h1, h2, _⟩
    · exact absurd h1 hl
    · constructor
      · intro hp; exact hu (groupOf_priv (h1.symm.trans hp))
      · cases hT : isTask l
        · rfl
        · cases h2 hT
  rcases hmay.2 with ⟨hp, hw, hr⟩ | h1 | ⟨hp, hr, hT, hw⟩ | ⟨hp, hrank⟩
  · rcases hblock with ⟨v, m', hv, hmm⟩ | ⟨_, u, hu, hwt⟩
    · have := hpriv v m' hv hp
      subst this
      cases m' with
      | write => exact hw hv
      | read =>
        rcases hmm with h1 | h1
        · exact hr h1 hv
        · cases h1
    · exact (hwgrp u hu hwt).1 hp
  · exact hl h1
  · rcases hblock with ⟨v, m', hv, hmm⟩ | ⟨_, u, hu, hwt⟩
    · have hm' : m' = .write := by
        rcases hmm with h1 | h1
        · rw [hr] at h1; cases h1
        · exact h1
      subst hm'
      by_cases hvm : v = .main
      · subst hvm; exact hw hv
      · rcases h.held v hvm _ hv with h4 | ⟨_, h4⟩
        · exact hl h4
        · cases h4 hT
    · have := (hwgrp u hu hwt).2
      rw [hT] at this; cases this
  · -- `main` has no guard of the lock
    have hself : ∀ m', (l, m') ∉ (s.thr .main).held := fun m' hv => Nat.lt_irrefl _ (hrank _ hv rfl)
    rcases hblock with ⟨v, m', hv, hmm⟩ | ⟨_, u, hu, hwt⟩
    · by_cases hvm : v = .main
      · subst hvm; exact hself _ hv
      · obtain ⟨a, rest', hta⟩ := h.busy hv
        have hdv := h.disc v
        rw [hta] at hdv
        rcases h.held v hvm _ hv with h4 | ⟨h4, _⟩
        · exact hl h4
        · cases a with
          | acq l' m2 =>
            obtain ⟨m3, h3⟩ := h.waits_for_main hn hvm hta
            have hl' := h.not_leaf_wait hn hta
            rcases (helper_may hvm hdv.1).2 with h5 | ⟨h5, _, _, h6⟩
            · exact hl' h5
            · have r1 := hrank _ h3 (h5.trans h4.symm)
              have r2 := h6 _ hv
              simp only at r1 r2
              omega
          | rel l' m2 => exact hn _ _ _ hta trivial
          | send c => exact hvm hdv.1
          | recv c => rw [hdv.2.1] at hv; cases hv
    · obtain ⟨m', hm'⟩ := hwait u hu hwt
      exact hself _ hm'

/-- when nobody can go on, `main` is between two commands or waits for space in a channel; it has no guard which another
thread wants -/
theorem Inv.main_state (h : Inv s) (hn : NoMove s) :
    (∀ x ∈ (s.thr .main).held, group x.1 = .priv) ∧
    ((s.thr .main).todo = [] ∨ ∃ c rest, (s.thr .main).todo = .send c :: rest ∧ s.queue c = capacity) := by
  have hd := h.disc .main
  cases ht : (s.thr .main).todo with
  | nil =>
    rw [ht] at hd
    refine ⟨?_, .inl rfl⟩
    intro x hx
    rw [show (s.thr .main).held = [] from hd] at hx; cases hx
  | cons a rest =>
    rw [ht] at hd
    cases a with
    | acq l m => exact (main_not_acq h hn ht).elim
    | rel l m => exact absurd trivial (hn _ _ _ ht)
    | send c =>
      refine ⟨hd.2.1, .inr ⟨c, rest, rfl, ?_⟩⟩
      have := hn _ _ _ ht
      simp only [CanTake] at this
      have := h.queue c
      omega
    | recv c =>
      cases c with
      | work => cases hd.1
      | store => cases hd.1

/-- when nobody can go on, each other thread is between two sections or waits for work -/
theorem Inv.helper_state (h : Inv s) (hn : NoMove s) {t : Who n} (hm : t ≠ .main) :
    (s.thr t).todo = [] ∨ ∃ c, t = receiver c ∧ WaitsForWork s t c := by
  have hd := h.disc t
  cases ht : (s.thr t).todo with
  | nil => exact .inl rfl
  | cons a rest =>
    rw [ht] at hd
    cases a with
    | acq l m =>
      obtain ⟨m', hm'⟩ := h.waits_for_main hn hm ht
      have hp := (h.main_state hn).1 _ hm'
      have hl := h.not_leaf_wait hn ht
      rcases (helper_may hm hd.1).2 with h1 | ⟨h1, _⟩
      · exact absurd h1 hl
      · exact absurd (groupOf_priv (h1.symm.trans hp)) hm
    | rel l m => exact absurd trivial (hn _ _ _ ht)
    | send c => exact absurd hd.1 hm
    | recv c =>
      refine .inr ⟨c, hd.1, ?_, rest, ht⟩
      have := hn _ _ _ ht
      simp only [CanTake] at this
      omega

/-! ## Running to the end -/

/-- the work which is left -/
def left (s : Sys n) : Nat :=
  (s.thr .worker).todo.length + (s.thr .store).todo.length + ∑ k : Fin n, (s.thr (.client k)).todo.length

def waiting (s : Sys n) : Nat := s.queue .work + s.queue .store

theorem left_lt {s s' : Sys n} {t : Who n} (hm : t ≠ .main) (h : ∀ u, u ≠ t → (s'.thr u).todo = (s.thr u).todo)
    (ht : (s'.thr t).todo.length < (s.thr t).todo.length) : left s' < left s := by
  cases t with
  | main => exact absurd rfl hm
  | worker =>
    have h1 := h .store (by simp)
    have h2 : ∀ k, (s'.thr (.client k)).todo = (s.thr (.client k)).todo := fun k => h _ (by simp)
    simp only [left, h1, h2]
    omega
  | store =>
    have h1 := h .worker (by simp)
    have h2 : ∀ k, (s'.thr (.client k)).todo = (s.thr (.client k)).todo := fun k => h _ (by simp)
    simp only [left, h1, h2]
    omega
  | client k =>
    have h1 := h .worker (by simp)
    have h2 := h .store (by simp)
    simp only [left, h1, h2]
    have : ∑ i : Fin n, (s'.thr (.client i)).todo.length < ∑ i : Fin n, (s.thr (.client i)).todo.length := by
      refine Finset.sum_lt_sum (fun i _ => ?_) ⟨k, Finset.mem_univ _, ht⟩
      by_cases hi : i = k
      · subst hi; exact ht.le
      · rw [h (.client i) (by simpa using hi)]
    omega

theorem Steps.trans {prog : Who n → List Act → Prop} {a b c : Sys n} (h1 : Steps prog a b) (h2 : Steps prog b c) :
    Steps prog a c := by
  induction h2 with
  | refl => exact h1
  | tail _ h ih => exact ih.tail h

theorem workerRound_run : ∃ w, Run workerRound (.recv .work :: w) := by
  refine ⟨_, Run.seq (s := [.recv .work]) .recv (.pick 0 <|
    Run.seq (.hold .skip) (Run.seq .done (Run.seq (.hold .skip) (Run.seq (.hold .done) (Run.seq (.hold .skip)
    (Run.seq (.hold (.hold .done)) (Run.seq .done (Run.seq .done .skip)))))))) ⟩

theorem storeRound_run : ∃ w, Run storeRound (.recv .store :: w) := by
  exact ⟨_, Run.seq (s := [.recv .store]) .recv (Run.seq (.hold .done) .done)⟩

theorem receiver_run {ok : Command → Prop} (c : Chan) :
    ∃ w, program (n := n) ok (receiver c) (.recv c :: w) := by
  cases c with
  | work => exact workerRound_run
  | store => exact storeRound_run

theorem receiver_ne_main (c : Chan) : (receiver c : Who n) ≠ .main := by cases c <;> simp [receiver]

/-- a worker which is between two rounds takes a message -/
theorem take_message {ok : Command → Prop} {s : Sys n} {c : Chan} (h0 : (s.thr (receiver c)).todo = [])
    (hq : 0 < s.queue c) : ∃ s', Steps (program ok) s s' ∧ (s'.thr .main) = (s.thr .main) ∧ s'.queue c = s.queue c - 1 ∧
      ∀ d, d ≠ c → s'.queue d = s.queue d := by
  obtain ⟨w, hw⟩ := receiver_run (n := n) (ok := ok) c
  have hne : (Who.main : Who n) ≠ receiver c := (receiver_ne_main c).symm
  refine ⟨_, Steps.tail (Steps.tail .refl (Step.begin (receiver c) _ h0 hw))
    (Step.act (receiver c) (.recv c) w (by simp) ?_), ?_, ?_, ?_⟩
  · simpa [CanTake] using hq
  · rw [exec_thr_ne hne, Sys.set_ne _ _ hne]
  · simp [exec]
  · intro d hd; simp [exec, hd]

/-- from a state in which the discipline is kept, everything which was begun can be brought to an end -/
theorem Inv.quiet {s : Sys n} (h : Inv s) : ∃ s', Steps (program NotListing) s s' ∧ Quiet s' := by
  by_cases hn : NoMove s
  · -- nobody can go on
    have hmain := h.main_state hn
    by_cases hq : ∃ c, 0 < s.queue c
    · obtain ⟨c, hc⟩ := hq
      have h0 : (s.thr (receiver c)).todo = [] := by
        rcases h.helper_state hn (receiver_ne_main c) with h0 | ⟨d, hd, hw, _⟩
        · exact h0
        · have : c = d := by cases c <;> cases d <;> simp_all [receiver]
          subst this
          omega
      obtain ⟨s', hs, hm, hq', hq2⟩ := take_message (ok := NotListing) h0 hc
      have hlt : waiting s' < waiting s := by
        unfold waiting
        cases c with
        | work => have := hq2 .store (by simp); omega
        | store => have := hq2 .work (by simp); omega
      obtain ⟨s'', hs2, hd⟩ := Inv.quiet (h.steps hs)
      exact ⟨s'', hs.trans hs2, hd⟩
    · have hq0 : ∀ c, s.queue c = 0 := fun c => by
        by_contra hc
        exact hq ⟨c, by omega⟩
      have hm0 : (s.thr .main).todo = [] := by
        rcases hmain.2 with h1 | ⟨c, _, _, h2⟩
        · exact h1
        · rw [hq0 c] at h2; cases h2
      refine ⟨s, .refl, hm0, hq0, fun k => ?_, ?_, ?_, fun t => ?_⟩
      · rcases h.helper_state hn (t := .client k) (by simp) with h1 | ⟨c, hc, _⟩
        · exact h1
        · cases c <;> cases hc
      · rcases h.helper_state hn (t := .worker) (by simp) with h1 | ⟨c, hc, hw⟩
        · exact .inl h1
        · cases c with
          | work => exact .inr hw
          | store => cases hc
      · rcases h.helper_state hn (t := .store) (by simp) with h1 | ⟨c, hc, hw⟩
        · exact .inl h1
        · cases c with
          | work => cases hc
          | store => exact .inr hw
      · have hd := h.disc t
        by_cases ht : t = .main
        · subst ht; rw [hm0] at hd; exact hd
        · rcases h.helper_state hn ht with h1 | ⟨c, _, _, rest, h2⟩
          · rw [h1] at hd; exact hd
          · rw [h2] at hd; exact hd.2.1
  · -- someone can go on
    simp only [NoMove, not_forall, not_not] at hn
    obtain ⟨t, a, rest, ht, hc⟩ := hn
    have hst : Step (program NotListing) s (exec s t rest a) := .act t a rest ht hc
    have hlen : ((exec s t rest a).thr t).todo.length < (s.thr t).todo.length := by
      rw [exec_todo, ht]; simp
    have hdec : ((exec s t rest a).thr .main).todo.length < (s.thr .main).todo.length ∨
        (((exec s t rest a).thr .main).todo.length = (s.thr .main).todo.length ∧
          (waiting (exec s t rest a) < waiting s ∨
            (waiting (exec s t rest a) = waiting s ∧ left (exec s t rest a) < left s))) := by
      by_cases hm : t = .main
      · subst hm; exact .inl hlen
      · refine .inr ⟨by rw [exec_thr_ne (Ne.symm hm)], ?_⟩
        have hl : left (exec s t rest a) < left s := left_lt hm (fun u hu => by rw [exec_thr_ne hu]) hlen
        cases a with
        | acq l m => exact .inr ⟨rfl, hl⟩
        | rel l m => exact .inr ⟨rfl, hl⟩
        | send c =>
          have hd := h.disc t
          rw [ht] at hd
          exact absurd hd.1 hm
        | recv c =>
          have : 0 < s.queue c := hc
          left
          unfold waiting
          cases c <;> simp [exec] <;> omega
    obtain ⟨s'', hs2, hd⟩ := Inv.quiet (h.step hst)
    exact ⟨s'', (Steps.tail .refl hst).trans hs2, hd⟩
termination_by ((s.thr .main).todo.length, waiting s, left s)
decreasing_by
  · rw [hm]
    simp only [Prod.lex_def]
    exact .inr ⟨trivial, .inl hlt⟩
  · simp only [Prod.lex_def]
    exact hdec

end Nar.Locks
