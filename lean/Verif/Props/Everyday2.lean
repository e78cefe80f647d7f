import Verif.Lemmas.Everyday2
import Verif.Props.Everyday
import Verif.Props.Unprompted
/-! # C100: everyday use with operators of the library -/
namespace Nar.Props
open Nar Nar.Term

/-- C100: nothing crashes either when the operators of the library are registered, as long as nothing which is given for acting
mentions them, and no other operator is registered under their names. -/
theorem C100_library_operators_partial (env : Env) (names : List String) (hn : ∀ n ∈ names, ¬ LibraryName n) (ops : List NarOp)
    (h : ∀ op ∈ ops, Everyday env (nops names ++ libraryOps) op)
    (hm : ∀ op ∈ ops, ∀ t, GivesForActing env op t → ∀ n, LibraryName n → ¬ Mentions t n) :
    ∃ r, runNar env ops = .ok r ∧ r.workerAlive = true ∧ r.proc.workerAlive = true := by
  have hidle : IdleOps (fun n => ¬ LibraryName n) (nops names ++ libraryOps) := by
    intro op hop
    rcases List.mem_append.1 hop with hop | hop
    · obtain ⟨n, k, rfl⟩ := List.mem_map.1 hop
      exact ⟨⟨fun _ => rfl, fun _ => hn n k⟩, by show (1 : Int) ≤ 3; decide⟩
    · simp only [libraryOps, List.mem_cons, List.not_mem_nil, or_false] at hop
      rcases hop with rfl | rfl
      · exact ⟨⟨fun k => absurd (.inl rfl) k, fun k => by cases k⟩, by decide⟩
      · exact ⟨⟨fun k => absurd (.inr rfl) k, fun k => by cases k⟩, by decide⟩
  have hself : ¬ LibraryName "SELF" := by unfold LibraryName; decide
  obtain ⟨r, h1, h2, h3⟩ := idle_history hidle hself ops (fun op ho => ⟨h op ho, fun t ht x hx hl => hm op ho t ht x hl hx⟩)
  exact ⟨r, h1, h2, h3.safe.alive⟩

/-! ## a concrete case -/

/-- all operators are registered, a rule is learnt and applied, two statements are thought about -/
def withLibrary : List NarOp :=
  [ln "!por NOP ^l", ln "!por execinj", ln "!por nlpRel0", ln "<a --> b>.", ln "<b --> c>.", stepIdle [], stepIdle [], ln "a. :|:",
   stepBabble, ln "b. :|:", stepIdle [[]], .procWork [], .procWork [], ln "c. :|:", ln "b! :|:", ln "a. :|:", stepIdle [], ln "!s2"]

theorem everyday_typed {names : List Op} (s : String) {t : Term} {tv : Tv} {p : Punct} {ev : Bool}
    (h1 : dispatch (trimNewline s.toList) = .ok .narsese)
    (h2 : parseNarsese env0.pf (trimNewline s.toList) = .ok (some (t, tv, p, ev))) (h3 : EverydaySentence names t p tv ev) :
    Everyday env0 names (ln s) := by
  refine ⟨.narsese, h1, ⟨_, h2⟩, fun term tv punct e h => ?_⟩
  obtain ⟨rfl, rfl, rfl, rfl⟩ : _ ∧ _ ∧ _ ∧ _ := by
    have := Option.some.inj (Except.ok.inj (h2.symm.trans h))
    simpa only [Prod.mk.injEq] using this
  exact h3

theorem everyday_named {names : List Op} (n : String) (tv : Tv) : EverydaySentence names (.Name n) .JUGEMENT tv true := by
  intro _
  simp only [if_true]
  exact plain_name' n

theorem everyday_stated {names : List Op} (a b : String) : EverydaySentence names (.Stmt .INH (.Name a) (.Name b)) .JUGEMENT ⟨1, 9/10⟩ false := by
  intro _
  simp only [Bool.false_eq_true, if_false]
  exact ⟨(by rintro ⟨a, b, h⟩; cases h), (by decide +kernel)⟩

theorem everyday_stepping {names : List Op} (b : List (List Nat)) (infs : List (Rat × Rat × List Nat)) (dec : List Nat)
    (hb : ∀ rng ∈ b, NameDraws rng) (hi : ∀ x ∈ infs, 0 ≤ x.2.1) :
    Everyday env0 names (.line "!sp".toList { draws b dec with infs := infs }) :=
  ⟨.step, by decide +kernel, (fun i => by simp [draws]), hb, hi⟩

theorem everyday_registering {names : List Op} (s : String) (arg : List Char) (o : Op)
    (h1 : dispatch (trimNewline s.toList) = .ok (.register arg)) (h2 : registeredOp (splitWhitespace arg []) = some o) (h3 : o ∈ names) :
    Everyday env0 names (ln s) := by
  refine ⟨.register arg, h1, fun op h => ?_⟩
  rw [h2] at h
  cases h
  exact h3

theorem withLibrary_everyday : ∀ op ∈ withLibrary, Everyday env0 (nops ["^l"] ++ libraryOps) op := by
  intro op hop
  simp only [withLibrary, List.mem_cons, List.not_mem_nil, or_false] at hop
  have step : ∀ b dec, (∀ rng ∈ b, NameDraws rng) → Everyday env0 (nops ["^l"] ++ libraryOps) (.line "!sp".toList (draws b dec)) :=
    fun b dec hb => everyday_stepping b [] dec hb (fun x hx => by cases hx)
  rcases hop with rfl | rfl | rfl | rfl | rfl | rfl | rfl | rfl | rfl | rfl | rfl | rfl | rfl | rfl | rfl | rfl | rfl | rfl
  · exact everyday_registering _ "NOP ^l".toList ⟨"^l", true, 3⟩ (by decide +kernel) (by decide +kernel) (by simp [nops])
  · exact everyday_registering _ "execinj".toList ⟨"^nal9_exeAndInject", false, 3⟩ (by decide +kernel) (by decide +kernel)
      (by simp [libraryOps])
  · exact everyday_registering _ "nlpRel0".toList ⟨"^nlpRel0", false, 3⟩ (by decide +kernel) (by decide +kernel) (by simp [libraryOps])
  · exact everyday_typed _ (by decide +kernel) (by decide +kernel) (everyday_stated "a" "b")
  · exact everyday_typed _ (by decide +kernel) (by decide +kernel) (everyday_stated "b" "c")
  · exact step _ _ (fun _ h => by cases h)
  · exact step _ _ (fun _ h => by cases h)
  · exact everyday_typed _ (by decide +kernel) (by decide +kernel) (everyday_named "a" ⟨1, 9/10⟩)
  · exact step _ _ (fun _ h => by cases h)
  · exact everyday_typed _ (by decide +kernel) (by decide +kernel) (everyday_named "b" ⟨1, 9/10⟩)
  · exact step _ _ (fun rng h => by rw [List.mem_singleton.1 h]; exact fun d hd => by cases hd)
  · exact fun d hd => by cases hd
  · exact fun d hd => by cases hd
  · exact everyday_typed _ (by decide +kernel) (by decide +kernel) (everyday_named "c" ⟨1, 9/10⟩)
  · exact everyday_typed (t := .Name "b") (tv := ⟨1, 9/10⟩) (p := .GOAL) (ev := true) _ (by decide +kernel) (by decide +kernel)
      (fun h => by cases h)
  · exact everyday_typed _ (by decide +kernel) (by decide +kernel) (everyday_named "a" ⟨1, 9/10⟩)
  · exact step _ _ (fun _ h => by cases h)
  · exact ⟨.cycles ['2'], by decide +kernel, .inr ⟨2, by decide +kernel⟩⟩

example : ∃ r, runNar env0 withLibrary = .ok r ∧ r.workerAlive = true ∧ r.proc.workerAlive = true := by
  refine C100_library_operators_partial env0 ["^l"] (fun n hn => ?_) _ withLibrary_everyday ?_
  · rw [List.mem_singleton.1 hn]; unfold LibraryName; decide
  · intro op ho t ht n hl hs
    have h1 : ∀ op ∈ withLibrary, noRels op = true := by decide +kernel
    have h2 : ∀ op ∈ withLibrary, ∀ t ∈ actTerm op, ∀ s ∈ retSubterms t, s ≠ .Name "^nal9_exeAndInject" ∧ s ≠ .Name "^nlpRel0" := by
      decide +kernel
    have := h2 op ho t (gives_actTerm (h1 op ho) ht) _ ((mem_retSubterms _ _).2 hs)
    rcases hl with rfl | rfl
    · exact this.1 rfl
    · exact this.2 rfl

/-- the rule is learnt and the operator executed for the goal -/
example : (runNar env0 withLibrary).map (fun r => (r.proc.ops.length, r.proc.mem.heap.length,
    r.proc.trace.map (·.name) == [.Name "a", opL, .Name "b", .Name "c", .Name "a", opL])) = .ok (3, 4, true) := by decide +kernel

/-! ## mentioned they may crash it -/

/-- a call of the relation operator with a relation of only one thing -/
def shortCall : Term := encodeOp [selfTerm, .Stmt .INH (.Prod [.Name "x"]) (.Name "r")] "^nlpRel0"

/-- once `a` was seen, the relation operator was called, and `b` followed; then `b` is wanted and `a` seen again -/
def shortRelation : List NarOp :=
  [ln "!por nlpRel0", stepWith [] [], stepWith [] [], ln "a. :|:", happens shortCall, ln "b. :|:", stepWith [[1, 2, 3, 4, 5, 6, 7, 8]] [],
   ln "z. :|:", ln "b! :|:", stepWith [] [(0, 0, [2, 0]), (0, 0, [1, 0])], ln "a. :|:", stepWith [] []]

/-- C100, violated if operators of the library are mentioned: nothing is done but what is everyday use, but the reasoner decides to
repeat a call which was seen, and the relation operator crashes on a relation of only one thing. -/
theorem C100_library_operator_crashes :
    (∀ op ∈ shortRelation, Everyday env0 libraryOps op) ∧ runNar env0 shortRelation = .error .index := by
  refine ⟨?_, error_of_map (f := fun _ => ()) (by decide +kernel)⟩
  intro op hop
  simp only [shortRelation, List.mem_cons, List.not_mem_nil, or_false] at hop
  have step : ∀ b infs, (∀ rng ∈ b, NameDraws rng) → (∀ x ∈ infs, 0 ≤ x.2.1) → Everyday env0 libraryOps (stepWith b infs) :=
    fun b infs hb hi => everyday_stepping b infs [0] hb hi
  rcases hop with rfl | rfl | rfl | rfl | rfl | rfl | rfl | rfl | rfl | rfl | rfl | rfl
  · exact everyday_registering _ "nlpRel0".toList ⟨"^nlpRel0", false, 3⟩ (by decide +kernel) (by decide +kernel) (by simp [libraryOps])
  · exact step _ _ (fun _ h => by cases h) (fun _ h => by cases h)
  · exact step _ _ (fun _ h => by cases h) (fun _ h => by cases h)
  · exact everyday_typed _ (by decide +kernel) (by decide +kernel) (everyday_named "a" ⟨1, 9/10⟩)
  · refine ⟨⟨_, rfl⟩, ?_, fun _ h => by cases h⟩
    intro _
    simp only [if_true]
    exact ⟨⟨_, rfl⟩, fun _ _ h => by cases h⟩
  · exact everyday_typed _ (by decide +kernel) (by decide +kernel) (everyday_named "b" ⟨1, 9/10⟩)
  · refine step _ _ (fun rng h => ?_) (fun _ h => by cases h)
    rw [List.mem_singleton.1 h]
    unfold NameDraws
    decide
  · exact everyday_typed _ (by decide +kernel) (by decide +kernel) (everyday_named "z" ⟨1, 9/10⟩)
  · exact everyday_typed (t := .Name "b") (tv := ⟨1, 9/10⟩) (p := .GOAL) (ev := true) _ (by decide +kernel) (by decide +kernel)
      (fun h => by cases h)
  · refine step _ _ (fun _ h => by cases h) ?_
    decide +kernel
  · exact everyday_typed _ (by decide +kernel) (by decide +kernel) (everyday_named "a" ⟨1, 9/10⟩)
  · exact step _ _ (fun _ h => by cases h) (fun _ h => by cases h)

end Nar.Props
