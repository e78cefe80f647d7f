import Verif.Spec.Service
import Verif.Lemmas.Server
import Verif.Lemmas.Everyday1
import Verif.Props.Whole
/-! # A server loses nothing -/
namespace Nar
open Term

theorem handedFrom_append (env : Env) (a : List ServerOp) : ∀ (b : List ServerOp) (s : Server),
    handedFrom env s (a ++ b) = handedFrom env s a ++ handedFrom env (moreServer env s a) b := by
  induction a with
  | nil => intro b s; rfl
  | cons op ops ih =>
    intro b s
    simp only [List.cons_append, handedFrom, ih, List.append_assoc]
    rfl

theorem handedOver_snoc (env : Env) (ops : List ServerOp) (op : ServerOp) :
    handedOver env (ops ++ [op]) = handedOver env ops ++ handedBy (runServer env ops) op := by
  unfold handedOver
  rw [handedFrom_append]
  simp [handedFrom, runServer]

theorem postedFrom_append (env : Env) (a : List ServerOp) : ∀ (b : List ServerOp) (s : Server),
    postedFrom env s (a ++ b) = postedFrom env s a ++ postedFrom env (moreServer env s a) b := by
  induction a with
  | nil => intro b s; rfl
  | cons op ops ih =>
    intro b s
    simp only [List.cons_append, postedFrom, ih, List.append_assoc]
    rfl

theorem posted_snoc (env : Env) (ops : List ServerOp) (op : ServerOp) :
    posted env (ops ++ [op]) = posted env ops ++ postedBy (runServer env ops) op := by
  unfold posted
  rw [postedFrom_append]
  simp [postedFrom, runServer]

theorem posted_text (env : Env) (ops : List ServerOp) : (posted env ops).map Post.text = published env ops := by
  induction ops using List.reverseRecOn with
  | nil => rfl
  | append_singleton ops op ih => rw [posted_snoc, published_snoc, List.map_append, postedBy_text, ih]

theorem returnedFrom_snoc {env : Env} (op : NarOp) : ∀ (nops : List NarOp) (r r' : Reasoner), moreNar env r nops = .ok r' →
    returnedFrom env r (nops ++ [op]) = returnedFrom env r nops ++ returnedBy env r' op := by
  intro nops
  induction nops with
  | nil =>
    intro r r' h
    rw [← foldlM_nil_ok.1 h]
    simp only [List.nil_append, returnedFrom]
    cases op.run env r <;> simp
  | cons a nops ih =>
    intro r r' h
    obtain ⟨r1, h1, h2⟩ := foldlM_cons_ok.1 h
    simp only [List.cons_append, returnedFrom, h1, ih r1 r' h2, List.append_assoc]

/-- the answers given so far are those given before, and more -/
theorem answers_more {env : Env} {nops : List NarOp} {op : NarOp} {r r' : Reasoner} (h : runNar env nops = .ok r)
    (h' : op.run env r = .ok r') : ∃ new, r'.answers = r.answers ++ new := by
  obtain ⟨_, new, h1, _⟩ := Props.C71_answers_improve env nops [op] r r' h (foldlM_cons_ok.2 ⟨r', h', rfl⟩)
  exact ⟨new, h1⟩

theorem newAnswers_eq {env : Env} {r r' : Reasoner} {new : List AnswerCall} (h : r'.answers = r.answers ++ new) :
    newAnswers env r r' = new.mapM (answerText env) := by
  unfold newAnswers
  rw [h, List.drop_left]

theorem answerText_isAnswer {env : Env} {c : AnswerCall} {p : Post} (h : answerText env c = .ok p) : p.isAnswer = true := by
  unfold answerText at h
  split at h
  · cases h
  · obtain ⟨t, _, h⟩ := R.bind_ok.1 h
    rw [← Except.ok.inj h]
    rfl

theorem answers_isAnswer {env : Env} {l : List AnswerCall} {ps : List Post} (h : l.mapM (answerText env) = .ok ps) :
    ∀ p ∈ ps, p.isAnswer = true := by
  intro p hp
  obtain ⟨c, _, hc⟩ := mapM_mem h hp
  exact answerText_isAnswer hc

theorem mapM_append_ok {α β : Type} {f : α → R β} {a b : List α} {x y : List β} (h1 : a.mapM f = .ok x) (h2 : b.mapM f = .ok y) :
    (a ++ b).mapM f = .ok (x ++ y) := by
  rw [List.mapM_append]
  simp only [h1, h2, bind, Except.bind, pure, Except.pure]

theorem filter_all {l : List Post} (h : ∀ p ∈ l, p.isAnswer = true) : l.filter (·.isAnswer) = l ∧ l.filter (fun p => !p.isAnswer) = [] := by
  refine ⟨List.filter_eq_self.2 h, List.filter_eq_nil_iff.2 fun p hp => by simp [h p hp]⟩

theorem filter_lines (l : List (List Char)) : (l.map Post.line).filter (·.isAnswer) = [] ∧
    (l.map Post.line).filter (fun p => !p.isAnswer) = l.map Post.line := by
  refine ⟨List.filter_eq_nil_iff.2 ?_, List.filter_eq_self.2 ?_⟩ <;>
  · intro p hp
    obtain ⟨m, _, rfl⟩ := List.mem_map.1 hp
    simp [Post.isAnswer]

/-- exactly what happened to what clients sent -/
structure Exact (env : Env) (A : List (List Char)) (H : List Post) (s : Server) (nops : List NarOp) (crashed : List (List Char)) : Prop where
  run : runNar env nops = .ok s.nar
  lines : lineTexts nops ++ crashed ++ s.chan = A
  one : crashed.length ≤ 1
  alive : s.narAlive = true ↔ crashed = []
  ret : (H ++ s.todo).filter (fun p => !p.isAnswer) = (returnedFrom env createNar nops).map .line
  worker : ∀ p ∈ s.todoWorker, p.isAnswer = true
  answers : ∃ texts, s.nar.answers.mapM (answerText env) = .ok texts ∧
    ((H ++ s.todo ++ s.todoWorker).filter (·.isAnswer)).Perm texts

theorem lineTexts_append (a b : List NarOp) : lineTexts (a ++ b) = lineTexts a ++ lineTexts b := List.flatMap_append ..

theorem Exact.op {env : Env} {A : List (List Char)} {H : List Post} {s : Server} {nops : List NarOp} {crashed : List (List Char)}
    (h : Exact env A H s nops crashed) (op : ServerOp) : ∃ more crashed',
    Exact env (A ++ handedBy s op) (H ++ postedBy s op) (op.run env s) (nops ++ more) crashed' := by
  have keep : ∀ s' : Server, s'.nar = s.nar → s'.narAlive = s.narAlive → s'.chan = s.chan ++ handedBy s op → s'.todo = s.todo →
      s'.todoWorker = s.todoWorker → postedBy s op = [] →
      ∃ more crashed', Exact env (A ++ handedBy s op) (H ++ postedBy s op) s' (nops ++ more) crashed' := by
    intro s' h1 h0 h2 h3 h4 h5
    refine ⟨[], crashed, ?_⟩
    rw [List.append_nil, h5, List.append_nil]
    exact ⟨by rw [h1]; exact h.run, by rw [h2, ← h.lines]; simp, h.one, by rw [h0]; exact h.alive, by rw [h3]; exact h.ret,
      by rw [h4]; exact h.worker, by rw [h1, h3, h4]; exact h.answers⟩
  cases op with
  | connect => exact keep _ rfl rfl (by simp [handedBy, ServerOp.run, Nar.connect]) rfl rfl rfl
  | receive i line =>
    simp only [ServerOp.run]
    cases hc : s.clients[i]? with
    | none =>
      have e : Nar.receive s i line = s := by unfold Nar.receive; rw [hc]
      rw [e]
      exact keep _ rfl rfl (by simp [handedBy, hc]) rfl rfl rfl
    | some c =>
      cases ha : c.alive with
      | false =>
        have e : Nar.receive s i line = s := by unfold Nar.receive; rw [hc]; simp [ha]
        rw [e]
        exact keep _ rfl rfl (by simp [handedBy, hc, ha]) rfl rfl rfl
      | true =>
        cases hn : s.narAlive with
        | false =>
          have e : Nar.receive s i line = { s with clients := s.clients.set i { c with alive := false } } := by
            unfold Nar.receive; rw [hc]; simp [ha, hn]
          rw [e]
          exact keep _ rfl rfl (by simp [handedBy, hc, ha, hn]) rfl rfl rfl
        | true =>
          have e : Nar.receive s i line = { s with chan := s.chan ++ [line] } := by
            unfold Nar.receive; rw [hc]; simp [ha, hn]
          rw [e]
          exact keep _ rfl rfl (by simp [handedBy, hc, ha, hn]) rfl rfl rfl
  | poll i =>
    simp only [ServerOp.run]
    unfold Nar.poll
    split
    · exact keep _ rfl rfl (by simp [handedBy]) rfl rfl rfl
    · split <;> exact keep _ rfl rfl (by simp [handedBy]) rfl rfl rfl
  | think d =>
    simp only [ServerOp.run]
    unfold Nar.think
    split
    · rename_i hcond
      obtain ⟨hal, htodo⟩ := hcond
      split
      · exact keep _ rfl rfl (by simp [handedBy]) rfl rfl rfl
      · rename_i l rest hch
        have hcr := h.alive.1 hal
        have dead : ∃ more crashed', Exact env (A ++ handedBy s (.think d)) (H ++ postedBy s (.think d))
            { s with narAlive := false, chan := rest } (nops ++ more) crashed' := by
          refine ⟨[], [l], ?_⟩
          simp only [List.append_nil, postedBy, handedBy]
          exact ⟨h.run, by rw [← h.lines, hch, hcr]; simp, by simp, by simp, h.ret, h.worker, h.answers⟩
        split
        · exact dead
        · rename_i r q lines hin
          split
          · exact dead
          · rename_i answers han
            refine ⟨[.line l d], [], ?_⟩
            simp only [postedBy, handedBy, List.append_nil]
            have hrun : (NarOp.line l d).run env s.nar = .ok r := by
              show (input env s.nar l d).map _ = _
              rw [hin]; rfl
            obtain ⟨new, hnew⟩ := answers_more h.run hrun
            rw [newAnswers_eq hnew] at han
            obtain ⟨f1, f2⟩ := filter_all (answers_isAnswer han)
            obtain ⟨g1, g2⟩ := filter_lines lines
            have hret := h.ret
            obtain ⟨texts, t1, t2⟩ := h.answers
            rw [htodo, List.append_nil] at hret t2
            refine ⟨by rw [runNar_snoc, h.run]; exact hrun, ?_, by simp, by simp [hal], ?_, h.worker, texts ++ answers, ?_, ?_⟩
            · rw [← h.lines, hch, hcr, lineTexts_append]; simp [lineTexts]
            · rw [returnedFrom_snoc _ _ _ _ h.run]
              simp only [List.filter_append, hret, f2, g2, List.map_append, returnedBy, hin, List.nil_append]
            · rw [show ({ s with nar := r, chan := rest, todo := answers ++ lines.map Post.line } : Server).nar.answers = r.answers from rfl, hnew]
              exact mapM_append_ok t1 han
            · simp only [List.filter_append, f1, g1, List.append_nil] at t2 ⊢
              rw [List.append_assoc]
              refine List.Perm.trans (List.Perm.append_left _ List.perm_append_comm) ?_
              rw [← List.append_assoc]
              exact t2.append_right _
    · exact keep _ rfl rfl (by simp [handedBy]) rfl rfl rfl
  | publish =>
    simp only [ServerOp.run]
    unfold Nar.publish
    cases ht : s.todo with
    | nil => exact keep _ rfl rfl (by simp [handedBy]) rfl rfl (by simp [postedBy, ht])
    | cons p ps =>
      refine ⟨[], crashed, ?_⟩
      simp only [List.append_nil, handedBy, postedBy, ht, List.take_succ_cons, List.take_zero]
      refine ⟨h.run, h.lines, h.one, h.alive, ?_, h.worker, ?_⟩
      · have := h.ret
        rw [ht] at this
        simpa using this
      · have := h.answers
        rw [ht] at this
        simpa using this
  | declWork =>
    simp only [ServerOp.run]
    unfold serverDeclWork
    split
    · rename_i htw
      split
      · refine ⟨[.workerLost], crashed, ?_⟩
        simp only [postedBy, handedBy, List.append_nil]
        refine ⟨by rw [runNar_snoc, h.run]; rfl, by rw [← h.lines, lineTexts_append]; simp [lineTexts], h.one, h.alive, ?_, h.worker, h.answers⟩
        rw [returnedFrom_snoc _ _ _ _ h.run]
        simpa [returnedBy] using h.ret
      · rename_i answers han
        refine ⟨[.declWork], crashed, ?_⟩
        simp only [postedBy, handedBy, List.append_nil]
        have hrun : NarOp.declWork.run env s.nar = .ok (declWork env s.nar) := rfl
        obtain ⟨new, hnew⟩ := answers_more h.run hrun
        rw [newAnswers_eq hnew] at han
        obtain ⟨texts, t1, t2⟩ := h.answers
        rw [htw, List.append_nil] at t2
        refine ⟨by rw [runNar_snoc, h.run]; exact hrun, by rw [← h.lines, lineTexts_append]; simp [lineTexts], h.one, h.alive, ?_,
          answers_isAnswer han, texts ++ answers, ?_, ?_⟩
        · rw [returnedFrom_snoc _ _ _ _ h.run]
          simpa [returnedBy] using h.ret
        · rw [show ({ s with nar := declWork env s.nar, todoWorker := answers } : Server).nar.answers = (declWork env s.nar).answers from rfl, hnew]
          exact mapM_append_ok t1 han
        · rw [List.filter_append, (filter_all (answers_isAnswer han)).1]
          exact t2.append_right _
    · exact keep _ rfl rfl (by simp [handedBy]) rfl rfl rfl
  | publishWorker =>
    simp only [ServerOp.run]
    unfold Nar.publishWorker
    cases ht : s.todoWorker with
    | nil => exact keep _ rfl rfl (by simp [handedBy]) rfl rfl (by simp [postedBy, ht])
    | cons p ps =>
      refine ⟨[], crashed, ?_⟩
      have hw := h.worker
      rw [ht] at hw
      have hp := hw p (by simp)
      simp only [List.append_nil, handedBy, postedBy, ht, List.take_succ_cons, List.take_zero]
      refine ⟨h.run, h.lines, h.one, h.alive, ?_, fun q hq => hw q (by simp [hq]), ?_⟩
      · have := h.ret
        simpa [hp] using this
      · obtain ⟨texts, t1, t2⟩ := h.answers
        refine ⟨texts, t1, ?_⟩
        rw [ht] at t2
        refine List.Perm.trans ?_ t2
        refine List.Perm.filter _ ?_
        simp only [List.append_assoc]
        refine List.Perm.append_left _ ?_
        simp only [List.singleton_append]
        exact List.perm_middle.symm
  | procWork rng =>
    refine ⟨[.procWork rng], crashed, ?_⟩
    simp only [postedBy, handedBy, List.append_nil, ServerOp.run]
    refine ⟨by rw [runNar_snoc, h.run]; rfl, by rw [← h.lines, lineTexts_append]; simp [lineTexts], h.one, h.alive, ?_, h.worker, h.answers⟩
    rw [returnedFrom_snoc _ _ _ _ h.run]
    simpa [returnedBy] using h.ret

theorem runServer_exact (env : Env) (ops : List ServerOp) : ∃ nops crashed,
    Exact env (handedOver env ops) (posted env ops) (runServer env ops) (.handlers 1 :: nops) crashed := by
  induction ops using List.reverseRecOn with
  | nil => exact ⟨[], [], rfl, rfl, (by decide), ⟨fun _ => rfl, fun _ => rfl⟩, rfl, (fun p hp => by cases hp), [], rfl, List.Perm.refl _⟩
  | append_singleton ops op ih =>
    obtain ⟨nops, crashed, h⟩ := ih
    obtain ⟨more, crashed', h'⟩ := h.op op
    refine ⟨nops ++ more, crashed', ?_⟩
    rw [handedOver_snoc, posted_snoc, runServer_snoc]
    exact h'

/-! ## everyday service -/

theorem printable_of_inst {θ : Term → Term} (t : Term) : Printable (inst θ t) → Printable t := by
  refine parts_ind (P := fun t => Printable (inst θ t) → Printable t) (fun t ih h => ?_) t
  have hl : ∀ ts : List Term, (∀ x ∈ ts, x ∈ parts t) → instL θ ts ≠ [] → (∀ x ∈ instL θ ts, Printable x) →
      ts ≠ [] ∧ ∀ x ∈ ts, Printable x := by
    intro ts hts hn hp
    rw [instL_eq_map] at hn hp
    exact ⟨by simpa using hn, fun x hx => ih x (hts x hx) (hp _ (List.mem_map_of_mem hx))⟩
  cases t with
  | QVar n => exact ⟨_, rfl⟩
  | DepVar n => exact ⟨_, rfl⟩
  | IndepVar n => exact ⟨_, rfl⟩
  | Name n => exact ⟨_, rfl⟩
  | Stmt c s p =>
    have := printable_stmt.1 h
    exact printable_stmt.2 ⟨ih s (by simp [parts]) this.1, ih p (by simp [parts]) this.2⟩
  | Neg t =>
    refine printable_iff.2 ⟨trivial, ?_⟩
    intro x hx
    simp only [parts, List.mem_singleton] at hx
    subst hx
    exact ih x (by simp [parts]) (h.part (by simp [inst, parts]))
  | Img r i ts =>
    obtain ⟨h1, h2⟩ := printable_iff.1 h
    obtain ⟨k1, k2⟩ := hl ts (fun x hx => by simp [parts, hx]) h1 (fun x hx => h2 x (by simp [inst, parts, hx]))
    refine printable_iff.2 ⟨k1, ?_⟩
    intro x hx
    simp only [parts, List.mem_cons] at hx
    rcases hx with rfl | hx
    · exact ih x (by simp [parts]) (h2 _ (by simp [inst, parts]))
    · exact k2 x hx
  | Seq ts | SetInt ts | SetExt ts | Conj ts | Prod ts | IntInt ts | ExtInt ts | Par ts =>
    obtain ⟨h1, h2⟩ := printable_iff.1 h
    obtain ⟨k1, k2⟩ := hl ts (fun x hx => by simpa [parts] using hx) h1 (fun x hx => h2 x (by simpa [inst, parts] using hx))
    exact printable_iff.2 ⟨k1, by simpa [parts] using k2⟩

/-- every answer which is ever given can be published -/
theorem answers_printable {env : Env} {nops : List NarOp} {r : Reasoner} (h : runNar env nops = .ok r) (hs : SaneTelling env nops)
    (hl : NarOp.link ∉ nops) : ∀ c ∈ r.answers, ∃ p, answerText env c = .ok p := by
  intro c hc
  have hr := (moreNar_RInv (Q := fun _ => True) good_id h (fun pre post op r0 he h0 term tv ht n _ => by
      obtain ⟨h1, h2⟩ := hs pre op post r0 term tv he h0 ht
      exact ⟨rfl, ⟨tv, rfl, h2⟩, h1⟩) (fun _ _ _ _ _ _ _ => trivial) (createNar_RInv _ _)).1
  have hg : Good c.answer := by
    rcases hr.answers c hc with hg | ⟨hg, _⟩
    · exact hg
    · exact absurd ((runNar_linked h).1 hg) hl
  obtain ⟨_, ⟨θ, hθ⟩, _⟩ := Props.C71_answers_match env nops r h c hc
  have hp := wf_printable _ hg.2.2
  rw [← hθ] at hp
  obtain ⟨q, hq⟩ := printable_of_inst _ hp
  obtain ⟨a, ha⟩ := wf_printable _ hg.2.2
  obtain ⟨g1, ⟨tv, g2, _⟩, _⟩ := hg
  unfold answerText
  rw [hq]
  simp only [bind, Except.bind, convSentenceTermPunctToStr, ha, g1, retTv, g2, unwrap]
  simp

theorem newAnswers_total {env : Env} {nops : List NarOp} {op : NarOp} {r r' : Reasoner} (h : runNar env nops = .ok r)
    (h' : op.run env r = .ok r') (hs : SaneTelling env (nops ++ [op])) (hl : NarOp.link ∉ nops ++ [op]) :
    ∃ a, newAnswers env r r' = .ok a := by
  have hr : runNar env (nops ++ [op]) = .ok r' := by rw [runNar_snoc, h]; exact h'
  exact mapM_total fun c hc => answers_printable hr hs hl c (List.mem_of_mem_drop hc)

/-- everyday service goes on -/
structure Serving (env : Env) (names : List Op) (s : Server) (nops : List NarOp) : Prop where
  run : runNar env nops = .ok s.nar
  ops : ∀ op ∈ nops, Everyday env names op
  noLink : NarOp.link ∉ nops
  alive : s.narAlive = true
  clients : ∀ c ∈ s.clients, c.alive = true
  chan : ∀ l ∈ s.chan, ∀ d, EverydayDraws env names d → EverydayLine env names (trimNewline l) d

theorem Serving.more {env : Env} {names : List Op} (hn : NopOps names) {s : Server} {nops : List NarOp} (h : Serving env names s nops)
    {op : NarOp} (ho : Everyday env names op) (hk : op ≠ .link) :
    ∃ r a, op.run env s.nar = .ok r ∧ newAnswers env s.nar r = .ok a ∧ runNar env (nops ++ [op]) = .ok r ∧
      (∀ o ∈ nops ++ [op], Everyday env names o) ∧ NarOp.link ∉ nops ++ [op] := by
  have hall : ∀ o ∈ nops ++ [op], Everyday env names o := by
    intro o hm
    rcases List.mem_append.1 hm with hm | hm
    · exact h.ops o hm
    · rw [List.mem_singleton.1 hm]; exact ho
  have hl : NarOp.link ∉ nops ++ [op] := by
    intro hm
    rcases List.mem_append.1 hm with hm | hm
    · exact h.noLink hm
    · exact hk (List.mem_singleton.1 hm).symm
  obtain ⟨r, hr, _⟩ := everyday_history hn _ hall
  have hr' := hr
  rw [runNar_snoc, h.run] at hr'
  obtain ⟨a, ha⟩ := newAnswers_total h.run hr' (everyday_telling hn hall) hl
  exact ⟨r, a, hr', ha, hr, hall, hl⟩

theorem Serving.think {env : Env} {names : List Op} (hn : NopOps names) {s : Server} {nops : List NarOp} (h : Serving env names s nops)
    {d : LineDraws} (hd : EverydayDraws env names d) (ht : s.todo = []) {l : List Char} {rest : List (List Char)} (hc : s.chan = l :: rest) :
    ∃ r q out a, input env s.nar l d = .ok (r, q, out) ∧
      Nar.think env s d = { s with nar := r, chan := rest, todo := a ++ out.map .line } ∧ newAnswers env s.nar r = .ok a ∧
      runNar env (nops ++ [.line l d]) = .ok r ∧ (∀ o ∈ nops ++ [NarOp.line l d], Everyday env names o) ∧
      NarOp.link ∉ nops ++ [NarOp.line l d] := by
  have ho : Everyday env names (.line l d) := h.chan l (by rw [hc]; simp) d hd
  obtain ⟨r, a, h1, h2, h3, h4, h5⟩ := h.more hn ho (by intro e; cases e)
  obtain ⟨⟨r', q, out⟩, hi, e⟩ := R.map_ok.1 h1
  have e : r' = r := e
  subst e
  refine ⟨r', q, out, a, hi, ?_, h2, h3, h4, h5⟩
  unfold Nar.think
  rw [if_pos ⟨h.alive, ht⟩, hc]
  simp only [hi, h2]

theorem Serving.work {env : Env} {names : List Op} (hn : NopOps names) {s : Server} {nops : List NarOp} (h : Serving env names s nops)
    (ht : s.todoWorker = []) : ∃ a, serverDeclWork env s = { s with nar := declWork env s.nar, todoWorker := a } ∧
      newAnswers env s.nar (declWork env s.nar) = .ok a ∧ runNar env (nops ++ [.declWork]) = .ok (declWork env s.nar) ∧
      (∀ o ∈ nops ++ [NarOp.declWork], Everyday env names o) ∧ NarOp.link ∉ nops ++ [NarOp.declWork] := by
  obtain ⟨r, a, h1, h2, h3, h4, h5⟩ := h.more (op := .declWork) hn trivial (by intro e; cases e)
  have e : declWork env s.nar = r := Except.ok.inj h1
  subst e
  refine ⟨a, ?_, h2, h3, h4, h5⟩
  unfold serverDeclWork
  rw [if_pos ht]
  simp only [h2]

theorem Serving.op {env : Env} {names : List Op} (hn : NopOps names) {s : Server} {nops : List NarOp} (h : Serving env names s nops)
    {op : ServerOp} (ho : EverydayService env names op) : ∃ more, Serving env names (op.run env s) (nops ++ more) := by
  have same : ∀ s' : Server, s'.nar = s.nar → s'.narAlive = s.narAlive → (∀ c ∈ s'.clients, c.alive = true) → s'.chan = s.chan →
      ∃ more, Serving env names s' (nops ++ more) := by
    intro s' h1 h2 h3 h4
    refine ⟨[], ?_⟩
    rw [List.append_nil]
    exact ⟨by rw [h1]; exact h.run, h.ops, h.noLink, by rw [h2]; exact h.alive, h3, by rw [h4]; exact h.chan⟩
  cases op with
  | connect =>
    refine same _ rfl rfl ?_ rfl
    intro c hc
    rcases List.mem_append.1 hc with hc | hc
    · exact h.clients c hc
    · rw [List.mem_singleton.1 hc]
  | receive i line =>
    simp only [ServerOp.run]
    unfold Nar.receive
    split
    · exact same _ rfl rfl h.clients rfl
    · split
      · rw [if_pos h.alive]
        refine ⟨[], ?_⟩
        rw [List.append_nil]
        refine ⟨h.run, h.ops, h.noLink, h.alive, h.clients, ?_⟩
        intro l hl
        rcases List.mem_append.1 hl with hl | hl
        · exact h.chan l hl
        · rw [List.mem_singleton.1 hl]; exact ho
      · exact same _ rfl rfl h.clients rfl
  | poll i =>
    simp only [ServerOp.run]
    unfold Nar.poll
    split
    · exact same _ rfl rfl h.clients rfl
    · rename_i c hc
      split
      · rename_i ha
        refine same _ rfl rfl ?_ rfl
        intro x hx
        rcases List.mem_or_eq_of_mem_set hx with hx | rfl
        · exact h.clients x hx
        · exact ha
      · exact same _ rfl rfl h.clients rfl
  | think d =>
    show ∃ more, Serving env names (Nar.think env s d) (nops ++ more)
    by_cases ht : s.todo = []
    · cases hc : s.chan with
      | nil =>
        have e : Nar.think env s d = s := by
          unfold Nar.think
          rw [if_pos ⟨h.alive, ht⟩, hc]
        rw [e]
        exact same _ rfl rfl h.clients rfl
      | cons l rest =>
        obtain ⟨r, q, out, a, _, h2, _, h3, h4, h5⟩ := h.think hn ho ht hc
        refine ⟨[.line l d], ?_⟩
        rw [h2]
        exact ⟨h3, h4, h5, h.alive, h.clients, fun x hx => h.chan x (by rw [hc]; exact List.mem_cons_of_mem _ hx)⟩
    · have e : Nar.think env s d = s := by
        unfold Nar.think
        rw [if_neg (by simp [ht])]
      rw [e]
      exact same _ rfl rfl h.clients rfl
  | publish =>
    simp only [ServerOp.run]
    unfold Nar.publish
    split <;> exact same _ rfl rfl h.clients rfl
  | declWork =>
    show ∃ more, Serving env names (serverDeclWork env s) (nops ++ more)
    by_cases ht : s.todoWorker = []
    · obtain ⟨a, h2, _, h3, h4, h5⟩ := h.work hn ht
      refine ⟨[.declWork], ?_⟩
      rw [h2]
      exact ⟨h3, h4, h5, h.alive, h.clients, h.chan⟩
    · have e : serverDeclWork env s = s := by
        unfold serverDeclWork
        rw [if_neg ht]
      rw [e]
      exact same _ rfl rfl h.clients rfl
  | publishWorker =>
    simp only [ServerOp.run]
    unfold Nar.publishWorker
    split <;> exact same _ rfl rfl h.clients rfl
  | procWork rng =>
    obtain ⟨r, a, h1, h2, h3, h4, h5⟩ := h.more (op := .procWork rng) hn ho (by intro e; cases e)
    have e : procWork s.nar rng = r := Except.ok.inj h1
    subst e
    exact ⟨[.procWork rng], h3, h4, h5, h.alive, h.clients, h.chan⟩

theorem runServer_serving {env : Env} {names : List Op} (hn : NopOps names) (ops : List ServerOp)
    (ho : ∀ op ∈ ops, EverydayService env names op) : ∃ nops, Serving env names (runServer env ops) nops := by
  induction ops using List.reverseRecOn with
  | nil =>
    refine ⟨[.handlers 1], rfl, ?_, ?_, rfl, (fun c hc => by cases hc), (fun c hc => by cases hc)⟩
    · intro op hm; rw [List.mem_singleton.1 hm]; trivial
    · intro hm; cases List.mem_singleton.1 hm
  | append_singleton ops op ih =>
    obtain ⟨nops, h⟩ := ih (fun x hx => ho x (by simp [hx]))
    obtain ⟨more, h'⟩ := h.op hn (ho op (by simp))
    rw [runServer_snoc]
    exact ⟨_, h'⟩

theorem publish_all (env : Env) (n : Nat) : ∀ s : Server, n = s.todo.length →
    moreServer env s (List.replicate n .publish) = { s with todo := [], global := s.todo.foldl Global.post s.global } := by
  induction n with
  | zero =>
    intro s h
    have : s.todo = [] := List.eq_nil_of_length_eq_zero h.symm
    obtain ⟨a, b, c, d, e, f, g⟩ := s
    simp only at this
    subst this
    rfl
  | succ n ih =>
    intro s h
    cases ht : s.todo with
    | nil => rw [ht] at h; cases h
    | cons p ps =>
      show moreServer env (Nar.publish s) (List.replicate n .publish) = _
      have e : Nar.publish s = { s with todo := ps, global := s.global.post p } := by unfold Nar.publish; rw [ht]
      rw [ih _ (by rw [e]; rw [ht] at h; simpa using h), e]
      rfl

theorem publishWorker_all (env : Env) (n : Nat) : ∀ s : Server, n = s.todoWorker.length →
    moreServer env s (List.replicate n .publishWorker) =
      { s with todoWorker := [], global := s.todoWorker.foldl Global.post s.global } := by
  induction n with
  | zero =>
    intro s h
    have : s.todoWorker = [] := List.eq_nil_of_length_eq_zero h.symm
    obtain ⟨a, b, c, d, e, f, g⟩ := s
    simp only at this
    subst this
    rfl
  | succ n ih =>
    intro s h
    cases ht : s.todoWorker with
    | nil => rw [ht] at h; cases h
    | cons p ps =>
      show moreServer env (Nar.publishWorker s) (List.replicate n .publishWorker) = _
      have e : Nar.publishWorker s = { s with todoWorker := ps, global := s.global.post p } := by unfold Nar.publishWorker; rw [ht]
      rw [ih _ (by rw [e]; rw [ht] at h; simpa using h), e]
      rfl

theorem posted_all (env : Env) (n : Nat) : ∀ s : Server, n = s.todo.length →
    postedFrom env s (List.replicate n .publish) = s.todo := by
  induction n with
  | zero =>
    intro s h
    rw [List.eq_nil_of_length_eq_zero h.symm]
    rfl
  | succ n ih =>
    intro s h
    cases ht : s.todo with
    | nil => rw [ht] at h; cases h
    | cons p ps =>
      have e : Nar.publish s = { s with todo := ps, global := s.global.post p } := by unfold Nar.publish; rw [ht]
      show s.todo.take 1 ++ postedFrom env (Nar.publish s) (List.replicate n .publish) = _
      rw [ih _ (by rw [e]; rw [ht] at h; simpa using h), e, ht]
      rfl

theorem postedWorker_all (env : Env) (n : Nat) : ∀ s : Server, n = s.todoWorker.length →
    postedFrom env s (List.replicate n .publishWorker) = s.todoWorker := by
  induction n with
  | zero =>
    intro s h
    rw [List.eq_nil_of_length_eq_zero h.symm]
    rfl
  | succ n ih =>
    intro s h
    cases ht : s.todoWorker with
    | nil => rw [ht] at h; cases h
    | cons p ps =>
      have e : Nar.publishWorker s = { s with todoWorker := ps, global := s.global.post p } := by unfold Nar.publishWorker; rw [ht]
      show s.todoWorker.take 1 ++ postedFrom env (Nar.publishWorker s) (List.replicate n .publishWorker) = _
      rw [ih _ (by rw [e]; rw [ht] at h; simpa using h), e, ht]
      rfl

theorem posted_append (env : Env) (a b : List ServerOp) : posted env (a ++ b) = posted env a ++ postedFrom env (runServer env a) b :=
  postedFrom_append env a b startServer

theorem handedOver_append (env : Env) (a b : List ServerOp) :
    handedOver env (a ++ b) = handedOver env a ++ handedFrom env (runServer env a) b :=
  handedFrom_append env a b startServer

theorem handedFrom_none (env : Env) (ops : List ServerOp) (h : ∀ op ∈ ops, ∀ i l, op ≠ .receive i l) : ∀ s : Server,
    handedFrom env s ops = [] := by
  induction ops with
  | nil => intro s; rfl
  | cons op ops ih =>
    intro s
    have h1 : handedBy s op = [] := by
      cases op with
      | receive i l => exact absurd rfl (h _ (by simp) i l)
      | _ => rfl
    simp only [handedFrom, h1, List.nil_append]
    exact ih (fun o ho => h o (by simp [ho])) _

end Nar
