import Verif.Lemmas.Rename7
import Verif.Props.Nar
import Verif.Props.Programs2
/-! # Names do not matter (C95) -/
namespace Nar.Props
open Nar Term

/-- the names `a` and `robin` exchanged -/
def robin : Renaming := .ofPerm (Equiv.swap "a" "robin")

theorem robin_fixes : robin.Fixes := by
  refine ⟨fun _ => rfl, ?_, ?_, ?_, ?_⟩ <;> decide

/-- C95: what follows from two statements is, with other names, exactly what follows from the statements with the other names, with
the same truth value, evidence and attention factor. -/
theorem C95_conclusions_from_two (ρ : Renaming) (a b c' : Sentence) (w : Rat) :
    Follows (ρ.sentence a) (ρ.sentence b) c' w ↔ ∃ c, c' = ρ.sentence c ∧ Follows a b c w := by
  unfold Follows
  rw [ρ.inference]
  constructor
  · rintro ⟨cs, ap, h, hm⟩
    obtain ⟨⟨cs0, ap0⟩, h1, h2⟩ := R.map_ok.1 h
    obtain ⟨rfl, rfl⟩ := Prod.mk.inj h2
    obtain ⟨⟨c, w0⟩, h3, h4⟩ := List.mem_map.1 hm
    obtain ⟨rfl, rfl⟩ := Prod.mk.inj h4
    exact ⟨c, rfl, cs0, ap0, h1, h3⟩
  · rintro ⟨c, rfl, cs, ap, h, hm⟩
    rw [h]
    exact ⟨_, _, rfl, List.mem_map.2 ⟨(c, w), hm, rfl⟩⟩

/-- C95: the same for what follows from one statement. -/
theorem C95_conclusions_from_one (ρ : Renaming) (a c' : Sentence) (w : Rat) :
    FollowsAlone (ρ.sentence a) c' w ↔ ∃ c, c' = ρ.sentence c ∧ FollowsAlone a c w := by
  unfold FollowsAlone
  rw [ρ.infSinglePremise2]
  constructor
  · rintro ⟨cs, h, hm⟩
    obtain ⟨cs0, h1, rfl⟩ := R.map_ok.1 h
    obtain ⟨⟨c, w0⟩, h3, h4⟩ := List.mem_map.1 hm
    obtain ⟨rfl, rfl⟩ := Prod.mk.inj h4
    exact ⟨c, rfl, cs0, h1, h3⟩
  · rintro ⟨c, rfl, cs, h, hm⟩
    rw [h]
    exact ⟨_, rfl, List.mem_map.2 ⟨(c, w), hm, rfl⟩⟩

example : robin.sentence (jdg "a" "b" 1 (9/10) 1) = jdg "robin" "b" 1 (9/10) 1 := by decide +kernel
example : (inference (jdg "robin" "b" 1 (9/10) 1) (jdg "b" "c" 1 (9/10) 2)).map (fun r => r.1.map (·.1.term)) =
    .ok [.Stmt .INH (.Name "robin") (.Name "c")] := by decide +kernel

/-- C95: with other names for names and variables, every history of the declarative reasoner, with any attention, leads to the same
state with the other names: the same tasks, credits, beliefs, answers, and the same crashes. -/
theorem C95_declarative_reasoning (ρ : Renaming) (cfg : Cfg) (ops : List SysOp) :
    runSys cfg (ops.map ρ.sysOp) = (runSys cfg ops).map ρ.sys := ρ.runSys cfg ops

example : (runSys cfg1 (sys1.map robin.sysOp)).map (fun s => (s.sh.heap.map (·.sentence.term), s.log.map (·.answer.term))) =
    .ok ([.Stmt .INH (.Name "robin") (.Name "b"), .Stmt .INH (.Name "b") (.Name "c"), .Stmt .INH (.Name "robin") (.Name "c")],
      [.Stmt .INH (.Name "b") (.Name "c")]) := by decide +kernel

/-- C95: with other names (except for the agent itself), every history of the procedural reasoner leads to the same state with the
other names: the same rules with the same evidence, goals and executed operators, for operators which do not look at names. -/
theorem C95_procedural_reasoning (ρ : Renaming) (hv : ∀ v, ρ.var v = v) (hself : ρ.name "SELF" = "SELF") (call call' : Call)
    (hc : ρ.SameCalls call call') (decay : Int → Rat) (p : Proc) (ops : List ProcOp) :
    runProc call' decay (ρ.proc p) (ops.map ρ.procOp) = (runProc call decay p ops).map ρ.proc := ρ.runProc hv hself hc decay p ops

/-- C95: the operators of the library do not look at names, apart from their own and the word `and`. -/
theorem C95_library_operators (ρ : Renaming) (h : ρ.Fixes) : ρ.SameCalls libCall libCall := ρ.libCall h

/-- C95: for every history of the whole reasoner, with everything told, asked, wanted or experienced under other names: the same
happens with the other names. -/
theorem C95_whole_reasoner (ρ : Renaming) (hf : ρ.Fixes) (env : Env) (ops ops' : List NarOp)
    (h : List.Forall₂ (ρ.SameAction env) ops ops') : runNar env ops' = (runNar env ops).map ρ.reasoner :=
  ρ.moreNar hf env ops ops' h createNar

/-- C95: so the answers are the same answers with the other names, in the same order. -/
theorem C95_answers (ρ : Renaming) (hf : ρ.Fixes) (env : Env) (ops ops' : List NarOp)
    (h : List.Forall₂ (ρ.SameAction env) ops ops') (r r' : Reasoner) (hr : runNar env ops = .ok r) (hr' : runNar env ops' = .ok r') :
    r'.answers.map (fun c => (c.handler, c.question, c.answer)) =
      r.answers.map (fun c => (c.handler, ρ.term c.question, ρ.sentence c.answer)) := by
  rw [C95_whole_reasoner ρ hf env ops ops' h, hr] at hr'
  rw [← Except.ok.inj hr']
  simp only [Renaming.reasoner, List.map_map]
  exact List.map_congr_left fun c _ => rfl

/-- C95: the written line of a sentence corresponds to the written line of the sentence with other names. -/
theorem C95_written_lines (ρ : Renaming) (env : Env) (t : Term) (p : Punct) (tvp : Option (List Char × List Char)) (ev : Bool) (tv : Tv)
    (ht : Readable t) (ht' : Readable (ρ.term t)) (hn : ∀ a b, tvp = some (a, b) → NumText a ∧ NumText b)
    (htv : tvMeant env.pf tvp = some tv) : ρ.SameLine env (lineText t p tvp ev) (lineText (ρ.term t) p tvp ev) :=
  ρ.sameLine_text env t p tvp ev tv ht ht' hn htv

/-- C95: any names can be exchanged for any others which are as many, as long as they mean nothing to the program. -/
theorem C95_any_names (xs ys : List String) (hx : xs.Nodup) (hy : ys.Nodup) (hl : xs.length = ys.length)
    (hrx : ∀ x ∈ xs, x ∉ Renaming.reserved) (hry : ∀ y ∈ ys, y ∉ Renaming.reserved) :
    ∃ ρ : Renaming, ρ.Fixes ∧ xs.map ρ.name = ys := by
  have nd : ∀ zs : List String, zs.Nodup → (∀ z ∈ zs, z ∉ Renaming.reserved) → (zs ++ Renaming.reserved).Nodup := by
    intro zs h1 h2
    refine List.nodup_append.2 ⟨h1, by decide, ?_⟩
    rintro a ha b hb rfl
    exact h2 a ha hb
  obtain ⟨e, he⟩ := Renaming.exists_perm (xs ++ Renaming.reserved) (ys ++ Renaming.reserved) (nd xs hx hrx) (nd ys hy hry) (by simp [hl])
  rw [List.map_append] at he
  obtain ⟨h1, h2⟩ := List.append_inj he (by simp [hl])
  simp only [Renaming.reserved, List.map_cons, List.map_nil, List.cons.injEq, and_true] at h2
  exact ⟨.ofPerm e, ⟨fun _ => rfl, h2.1, h2.2.1, h2.2.2.1, h2.2.2.2⟩, h1⟩

/-- a statement, read from a line -/
def typed1 (t : Term) (p : Punct) (ev : Bool) : NarOp := .line (lineText t p none ev) (draws [] [5])

/-- x is y; y is z; think; is x z? -/
def syllogismAbout (x y z : String) : List NarOp :=
  [.handlers 1, typed1 (.Stmt .INH (.Name x) (.Name y)) .JUGEMENT false, typed1 (.Stmt .INH (.Name y) (.Name z)) .JUGEMENT false, ln "!s2",
   .declWork, .declWork, typed1 (.Stmt .INH (.Name x) (.Name z)) .QUESTION true, ln "!s2"]

theorem sameLine_self {ρ : Renaming} {env : Env} {l : List Char} {c : Command} (h : dispatch (trimNewline l) = .ok c) (h1 : c ≠ .narsese)
    (h2 : ∀ a, c ≠ .register a) (h3 : ∀ t, c ≠ .nlp t) : ρ.SameLine env l l := by
  unfold Renaming.SameLine
  rw [h]
  cases c <;> first | rfl | exact absurd rfl h1 | exact absurd rfl (h2 _) | exact absurd rfl (h3 _)

theorem same_typed {ρ : Renaming} {t t' : Term} (e : ρ.term t = t') (h1 : Readable t) (h2 : Readable t') (p : Punct) (ev : Bool) :
    ρ.SameAction env0 (typed1 t p ev) (typed1 t' p ev) := by
  subst e
  exact .line _ (ρ.sameLine_text env0 t p none ev ⟨1, 9/10⟩ h1 h2 (by simp) rfl)

/-- C95: the derived statement answers the question, whatever the three things are called. -/
theorem C95_syllogism_about_anything (x y z : String) (hd : [x, y, z].Nodup) (hw : ∀ n ∈ [x, y, z], Word n)
    (hr : ∀ n ∈ [x, y, z], n ∉ Renaming.reserved) :
    ∃ r, runNar env0 (syllogismAbout x y z) = .ok r ∧
      r.answers.map (fun c => (c.question, c.answer.term, c.answer.evi, c.answer.stamp.ids)) =
        [(.Stmt .INH (.Name x) (.Name z), .Stmt .INH (.Name x) (.Name z), some (.TV ⟨1, 81/100⟩), [0, 1])] := by
  obtain ⟨ρ, hf, hn⟩ := C95_any_names ["a", "b", "c"] [x, y, z] (by decide) hd rfl (by decide) hr
  simp only [List.map_cons, List.map_nil, List.cons.injEq, and_true] at hn
  obtain ⟨rfl, rfl, rfl⟩ := hn
  have hwx := hw _ (List.mem_cons_self ..)
  have hwy := hw (ρ.name "b") (by simp)
  have hwz := hw (ρ.name "c") (by simp)
  have k2 : ρ.SameAction env0 (ln "!s2") (ln "!s2") :=
    .line _ (sameLine_self (c := .cycles ['2']) (by decide +kernel) (by simp) (by simp) (by simp))
  have hs : List.Forall₂ (ρ.SameAction env0) (syllogismAbout "a" "b" "c") (syllogismAbout (ρ.name "a") (ρ.name "b") (ρ.name "c")) := by
    refine .cons (.handlers 1) (.cons (same_typed rfl ?_ ?_ _ _) (.cons (same_typed rfl ?_ ?_ _ _) (.cons k2 (.cons .declWork
      (.cons .declWork (.cons (same_typed rfl ?_ ?_ _ _) (.cons k2 .nil)))))))
    · exact .stmt (.name (by decide)) (.name (by decide))
    · exact .stmt (.name hwx) (.name hwy)
    · exact .stmt (.name (by decide)) (.name (by decide))
    · exact .stmt (.name hwy) (.name hwz)
    · exact .stmt (.name (by decide)) (.name (by decide))
    · exact .stmt (.name hwx) (.name hwz)
  have run : (runNar env0 (syllogismAbout "a" "b" "c")).map (fun r => r.answers.map (fun c => (c.question, c.answer.term, c.answer.evi,
      c.answer.stamp.ids))) = .ok [(.Stmt .INH (.Name "a") (.Name "c"), .Stmt .INH (.Name "a") (.Name "c"), some (.TV ⟨1, 81/100⟩), [0, 1])] := by
    decide +kernel
  obtain ⟨r, h1, h2⟩ := R.map_ok.1 run
  refine ⟨ρ.reasoner r, by rw [C95_whole_reasoner ρ hf env0 _ _ hs, h1]; rfl, ?_⟩
  have := congrArg (List.map (fun q : Term × Term × Option Evidence × List Int => (ρ.term q.1, ρ.term q.2.1, q.2.2))) h2
  rw [List.map_map] at this
  simp only [Renaming.reasoner, List.map_map]
  exact this

/-- the hypotheses are met by these words -/
example : ∃ r, runNar env0 (syllogismAbout "robin" "bird" "animal") = .ok r ∧
      r.answers.map (fun c => (c.question, c.answer.term, c.answer.evi, c.answer.stamp.ids)) =
        [(.Stmt .INH (.Name "robin") (.Name "animal"), .Stmt .INH (.Name "robin") (.Name "animal"), some (.TV ⟨1, 81/100⟩), [0, 1])] :=
  C95_syllogism_about_anything _ _ _ (by decide) (by decide) (by decide)

/-- x, then the operator, then y, once; then it is asked how to reach y -/
def learnAbout (x y z op : String) : List NarOp :=
  [.link, .handlers 1, .line ("!por NOP ".toList ++ op.toList) (draws [] [5]), stepIdle [], stepIdle [], typed1 (.Name x) .JUGEMENT true,
   stepBabble, typed1 (.Name y) .JUGEMENT true, stepIdle [[]], .procWork [], .procWork [], typed1 (.Name z) .JUGEMENT true,
   typed1 (.Stmt .PREDIMPL (.QVar "how") (.Name y)) .QUESTION true, ln "!s3"]

/-- C95: what was experienced once is told as the way to reach it, whatever the events and the operator are called. -/
theorem C95_learned_about_anything (x y z op : String) (hd : [x, y, z, op].Nodup) (hw : ∀ n ∈ [x, y, z, op], Word n)
    (hr : ∀ n ∈ [x, y, z, op], n ∉ Renaming.reserved) :
    ∃ r, runNar env0 (learnAbout x y z op) = .ok r ∧
      r.answers.map (fun c => (c.question, c.answer.term)) =
        [(.Stmt .PREDIMPL (.QVar "how") (.Name y),
          .Stmt .PREDIMPL (.Seq [.Name x, encodeOp [.SetExt [.Name "SELF"]] op]) (.Name y))] := by
  obtain ⟨ρ, hf, hn⟩ := C95_any_names ["a", "b", "c", "^l"] [x, y, z, op] (by decide) hd rfl (by decide) hr
  simp only [List.map_cons, List.map_nil, List.cons.injEq, and_true] at hn
  obtain ⟨rfl, rfl, rfl, rfl⟩ := hn
  have hwx := hw _ (List.mem_cons_self ..)
  have hwy := hw (ρ.name "b") (by simp)
  have hwz := hw (ρ.name "c") (by simp)
  have hwo := hw (ρ.name "^l") (by simp)
  have k (l : String) (d : LineDraws) (c : Command) (h : dispatch (trimNewline l.toList) = .ok c) (h1 : c ≠ .narsese)
      (h2 : ∀ a, c ≠ .register a) (h3 : ∀ t, c ≠ .nlp t) : ρ.SameAction env0 (.line l.toList d) (.line l.toList d) :=
    .line _ (sameLine_self h h1 h2 h3)
  have sp (d : LineDraws) : ρ.SameAction env0 (.line "!sp".toList d) (.line "!sp".toList d) :=
    k _ _ .step (by decide +kernel) (by simp) (by simp) (by simp)
  have hs : List.Forall₂ (ρ.SameAction env0) (learnAbout "a" "b" "c" "^l")
      (learnAbout (ρ.name "a") (ρ.name "b") (ρ.name "c") (ρ.name "^l")) := by
    refine .cons .link (.cons (.handlers 1) (.cons (.line _ (ρ.sameLine_register env0 (by decide) hwo rfl)) (.cons (sp _) (.cons (sp _)
      (.cons (same_typed rfl (.name (by decide)) (.name hwx) _ _) (.cons (sp _) (.cons (same_typed rfl (.name (by decide)) (.name hwy) _ _)
      (.cons (sp _) (.cons (.procWork []) (.cons (.procWork []) (.cons (same_typed rfl (.name (by decide)) (.name hwz) _ _)
      (.cons (same_typed ?_ ?_ ?_ _ _) (.cons (k "!s3" _ (.cycles ['3']) (by decide +kernel) (by simp) (by simp) (by simp)) .nil)))))))))))))
    · simp only [Renaming.term, hf.vars]
    · exact .stmt (.qvar (by decide)) (.name (by decide))
    · exact .stmt (.qvar (by decide)) (.name hwy)
  have run : (runNar env0 (learnAbout "a" "b" "c" "^l")).map (fun r => r.answers.map (fun c => (c.question, c.answer.term))) =
      .ok [(.Stmt .PREDIMPL (.QVar "how") (.Name "b"),
        .Stmt .PREDIMPL (.Seq [.Name "a", encodeOp [.SetExt [.Name "SELF"]] "^l"]) (.Name "b"))] := by
    decide +kernel
  obtain ⟨r, h1, h2⟩ := R.map_ok.1 run
  refine ⟨ρ.reasoner r, by rw [C95_whole_reasoner ρ hf env0 _ _ hs, h1]; rfl, ?_⟩
  have := congrArg (List.map (fun q : Term × Term => (ρ.term q.1, ρ.term q.2))) h2
  rw [List.map_map] at this
  simp only [Renaming.reasoner, List.map_map]
  simp only [List.map_cons, List.map_nil, Renaming.term, Renaming.terms, encodeOp, hf.vars, hf.self] at this
  exact this

example : ∃ r, runNar env0 (learnAbout "rain" "wet" "later" "^dance") = .ok r ∧
      r.answers.map (fun c => (c.question, c.answer.term)) =
        [(.Stmt .PREDIMPL (.QVar "how") (.Name "wet"),
          .Stmt .PREDIMPL (.Seq [.Name "rain", encodeOp [.SetExt [.Name "SELF"]] "^dance"]) (.Name "wet"))] :=
  C95_learned_about_anything _ _ _ _ (by decide) (by decide) (by decide)

end Nar.Props
