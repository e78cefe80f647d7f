import Verif.Props.Legible
/-! # The listings the user can ask for -/
namespace Nar.Props
open Nar Term

/-! ## C41 -/

theorem stampToStr_ok {s : Stamp} {st : List Char} (h : stampToStr s = .ok st) : s.ids ≠ [] ∧ st = trailText s.ids := by
  unfold stampToStr at h
  have key : ∀ (is : List Int) (a : List Char), is.foldl (fun res iid => res ++ ',' :: (toString iid).toList) a =
      a ++ (is.map (fun i => ',' :: (toString i).toList)).flatten := by
    intro is
    induction is with
    | nil => intro a; simp
    | cons i is ih => intro a; simp only [List.foldl_cons, ih, List.map_cons, List.flatten_cons]; simp
  have inter : ∀ (is : List Int) (i : Int), trailText (i :: is) =
      (toString i).toList ++ (is.map (fun i => ',' :: (toString i).toList)).flatten := by
    intro is
    induction is with
    | nil => intro i; simp [trailText, List.intercalate]
    | cons j is ih =>
      intro i
      have := ih j
      unfold trailText at this ⊢
      simp only [List.map_cons, List.intercalate_cons_cons, List.flatten_cons] at this ⊢
      rw [this]; simp
  cases hi : s.ids with
  | nil => rw [hi] at h; cases h
  | cons i is =>
    rw [hi] at h
    simp only at h
    cases h
    exact ⟨by simp, by rw [key, inter]⟩

theorem forall₂_nth {α β : Type} {R : α → β → Prop} {l : List α} {l' : List β} (h : List.Forall₂ R l l') {i : Nat} {a : α}
    (hi : l[i]? = some a) : ∃ b, l'[i]? = some b ∧ R a b := by
  induction h generalizing i with
  | nil => cases hi
  | cons h1 _ ih =>
    cases i with
    | zero => cases hi; exact ⟨_, rfl, h1⟩
    | succ i => exact ih hi

/-- C41: "!dt" lists the tasks which are statements, one line for each and in their order: the statement, its punctuation, its
truth value, its trail of evidence and its credit; it changes nothing. -/
theorem C41_lists_tasks (env : Env) (r r' : Reasoner) (line : List Char) (d : LineDraws) (quit : Bool) (out : List (List Char))
    (hl : trimNewline line = "!dt".toList) (h : input env r line d = .ok (r', quit, out)) :
    r' = r ∧ quit = false ∧ out.length = r.sh.judgementTasks.length ∧
    ∀ (i ref : Nat) (task : Task), r.sh.judgementTasks[i]? = some ref → r.sh.heap[ref]? = some task → task.sentence.punct = .JUGEMENT →
      ∃ text tv, convTermToStr task.sentence.term = some text ∧ HasTruth task.sentence tv ∧
        out[i]? = some ("task  ".toList ++ text ++ ". {".toList ++ env.sf tv.f ++ [' '] ++ env.sf tv.c ++ "} ".toList ++
          trailText task.sentence.stamp.ids ++ "  credit=".toList ++
          env.sf ((task.qaCredit / 5 + task.credit) * env.decay (r.sh.cycleCounter - task.derivTime) * task.mulCredit)) := by
  have hd : dispatch (trimNewline line) = .ok .debugTasks := by rw [hl]; decide
  rw [input_of_dispatch hd] at h
  obtain ⟨⟨r1, out1⟩, h1, h2⟩ := R.map_ok.1 h
  obtain ⟨rfl, rfl, rfl⟩ : r1 = r' ∧ false = quit ∧ out1 = out := by
    have := h2; simp only [Prod.mk.injEq] at this; exact ⟨this.1, this.2.1, this.2.2⟩
  simp only [runCommand] at h1
  obtain ⟨lines, h3, h4⟩ := R.bind_ok.1 h1
  obtain ⟨rfl, rfl⟩ := Prod.mk.inj (Except.ok.inj h4)
  have hf := (mapM_ok_iff).1 h3
  refine ⟨rfl, rfl, hf.length_eq.symm, ?_⟩
  intro i ref task hi hr hj
  obtain ⟨out, ho, hx⟩ := forall₂_nth hf hi
  unfold debugTask at hx
  obtain ⟨t, g1, hx⟩ := R.bind_ok.1 hx
  have : t = task := by rw [indexAt_ok] at g1; rw [hr] at g1; cases g1; rfl
  subst this
  obtain ⟨s, g2, hx⟩ := R.bind_ok.1 hx
  obtain ⟨st, g3, hx⟩ := R.bind_ok.1 hx
  obtain ⟨_, rfl⟩ := stampToStr_ok g3
  unfold convSentenceTermPunctToStr at g2
  cases ht : convTermToStr t.sentence.term with
  | none => rw [ht] at g2; cases g2
  | some text =>
    rw [ht] at g2
    obtain ⟨tx, g4, g2⟩ := R.bind_ok.1 g2
    obtain rfl := Except.ok.inj g4
    rw [hj] at g2
    obtain ⟨o, g5, g2⟩ := R.bind_ok.1 g2
    obtain ⟨tv, g6, g2⟩ := R.bind_ok.1 g2
    rw [unwrap_ok] at g6
    subst g6
    refine ⟨_, tv, rfl, g5, ?_⟩
    rw [ho, ← Except.ok.inj hx, ← Except.ok.inj g2]
    have e : t.qaCredit * (1/5) = t.qaCredit / 5 := by ring
    unfold taskCalcCredit tvToStr
    simp only [e, Punct.str]
    simp

/-- C41: "!dmd" tells the number of concepts and changes nothing. -/
theorem C41_counts_concepts (env : Env) (r : Reasoner) (line : List Char) (d : LineDraws) (hl : trimNewline line = "!dmd".toList) :
    input env r line d = .ok (r, false, ["concept count = ".toList ++ (toString r.sh.mem.length).toList]) := by
  have hd : dispatch (trimNewline line) = .ok .debugMemory := by rw [hl]; decide
  rw [input_of_dispatch hd]; rfl

/-- after "tom is a cat" there is one task and three concepts -/
example : ((runNar env0 [say (isA "tom" "cat") ⟨1, 9/10⟩]).bind (fun r => (input env0 r "!dt".toList (draws [] [])).map (fun x => x.2.2.length))) =
    .ok 1 := by decide +kernel
example : ((runNar env0 [say (isA "tom" "cat") ⟨1, 9/10⟩]).bind (fun r => (input env0 r "!dmd".toList (draws [] [])).map (fun x => x.2.2))) =
    .ok ["concept count = 3".toList] := by decide +kernel

end Nar.Props
