import Verif.Lemmas.Service1
import Verif.Props.Server
import Verif.Props.Everyday
/-! # C101: a server loses nothing, and serves everyday lines for ever

Everything holds for every interleaving of the connections, the thread of the reasoner and the workers.
-/
namespace Nar.Props
open Nar Nar.Term

/-- C101: no line is lost, repeated or overtaken on its way to the reasoner: the lines which the reasoner has handled, in their order,
then the line on which it crashed, if it did, then the lines still waiting, are exactly the lines handed over by the connections.
No returned line is lost, repeated or overtaken on its way back.  Every answer which was ever given is published once, or waits
for it. -/
theorem C101_nothing_lost (env : Env) (ops : List ServerOp) : ∃ (nops : List NarOp) (crashed : List (List Char)) (texts : List Post),
    runNar env (.handlers 1 :: nops) = .ok (runServer env ops).nar ∧
    lineTexts nops ++ crashed ++ (runServer env ops).chan = handedOver env ops ∧
    crashed.length ≤ 1 ∧ ((runServer env ops).narAlive = true ↔ crashed = []) ∧
    (posted env ops).map Post.text = published env ops ∧
    (posted env ops ++ (runServer env ops).todo).filter (fun p => !p.isAnswer) =
      (returnedFrom env createNar (.handlers 1 :: nops)).map .line ∧
    (runServer env ops).nar.answers.mapM (answerText env) = .ok texts ∧
    ((posted env ops ++ (runServer env ops).todo ++ (runServer env ops).todoWorker).filter (·.isAnswer)).Perm texts := by
  obtain ⟨nops, crashed, h⟩ := runServer_exact env ops
  obtain ⟨texts, h1, h2⟩ := h.answers
  exact ⟨nops, crashed, texts, h.run, h.lines, h.one, h.alive, posted_text env ops, h.ret, h1, h2⟩

/-- everything in the way of the thread of the reasoner is published -/
def afterPublish (s : Server) : Server := { s with todo := [], global := s.todo.foldl Global.post s.global }

/-- everything in the way of the worker is published -/
def afterPublishWorker (s : Server) : Server := { s with todoWorker := [], global := s.todoWorker.foldl Global.post s.global }

theorem nops_nop (names : List String) : NopOps (nops names) := by
  intro op hop
  obtain ⟨n, _, rfl⟩ := List.mem_map.1 hop
  exact ⟨rfl, by show (1 : Int) ≤ 3; decide⟩

/-- C101: as long as clients send everyday lines nothing ever crashes: the reasoner, its workers and all connections stay alive. -/
theorem C101_serves_partial (env : Env) (names : List String) (ops : List ServerOp) (h : ∀ op ∈ ops, EverydayService env (nops names) op) :
    (runServer env ops).narAlive = true ∧ (runServer env ops).nar.workerAlive = true ∧ (runServer env ops).nar.proc.workerAlive = true ∧
    ∀ c ∈ (runServer env ops).clients, c.alive = true := by
  obtain ⟨ns, hs⟩ := runServer_serving (nops_nop names) ops h
  obtain ⟨r, h1, h2, h3⟩ := C100_never_crashes_partial env names ns hs.ops
  rw [hs.run] at h1
  cases h1
  exact ⟨hs.alive, h2, h3, hs.clients⟩

/-- C101: then the first waiting line is handled as soon as the messages before it are published, whatever was done before. -/
theorem C101_next_line_handled_partial (env : Env) (names : List String) (ops : List ServerOp)
    (h : ∀ op ∈ ops, EverydayService env (nops names) op) (l : List Char) (rest : List (List Char))
    (hc : (runServer env ops).chan = l :: rest) (d : LineDraws) (hd : EverydayDraws env (nops names) d) (s : Server)
    (hs : s = runServer env (ops ++ List.replicate (runServer env ops).todo.length .publish ++ [.think d])) :
    s.chan = rest ∧ ∃ q out answers, input env (runServer env ops).nar l d = .ok (s.nar, q, out) ∧
      newAnswers env (runServer env ops).nar s.nar = .ok answers ∧ s.todo = answers ++ out.map .line := by
  obtain ⟨ns, hv⟩ := runServer_serving (nops_nop names) ops h
  rw [runServer_append, runServer_append, publish_all env _ _ rfl] at hs
  have hv' : Serving env (nops names) (afterPublish (runServer env ops)) ns := ⟨hv.run, hv.ops, hv.noLink, hv.alive, hv.clients, hv.chan⟩
  obtain ⟨r, q, out, a, h1, h2, h3, _⟩ := hv'.think (nops_nop names) hd rfl hc
  have e : s = think env (afterPublish (runServer env ops)) d := hs
  rw [h2] at e
  subst e
  exact ⟨rfl, q, out, a, h1, h3, rfl⟩

/-- C101: the worker of the declarative memory goes on working as soon as it has published the answers it found, and publishes
every answer it finds. -/
theorem C101_worker_goes_on_partial (env : Env) (names : List String) (ops : List ServerOp)
    (h : ∀ op ∈ ops, EverydayService env (nops names) op) (s : Server)
    (hs : s = runServer env (ops ++ List.replicate (runServer env ops).todoWorker.length .publishWorker ++ [.declWork])) :
    s.nar = declWork env (runServer env ops).nar ∧ newAnswers env (runServer env ops).nar s.nar = .ok s.todoWorker := by
  obtain ⟨ns, hv⟩ := runServer_serving (nops_nop names) ops h
  rw [runServer_append, runServer_append, publishWorker_all env _ _ rfl] at hs
  have hv' : Serving env (nops names) (afterPublishWorker (runServer env ops)) ns := ⟨hv.run, hv.ops, hv.noLink, hv.alive, hv.clients, hv.chan⟩
  obtain ⟨a, h2, h3, _⟩ := hv'.work (nops_nop names) rfl
  have e : s = serverDeclWork env (afterPublishWorker (runServer env ops)) := hs
  rw [h2] at e
  subst e
  exact ⟨rfl, h3⟩

/-- C101: so everything is served: from whatever state, as many turns of the thread of the reasoner as lines are waiting, with
publications between them, leave nothing waiting; then every line handed over was handled in order, every line returned was
published in order, and every answer was published exactly once. -/
theorem C101_all_served_partial (env : Env) (names : List String) (ops : List ServerOp)
    (h : ∀ op ∈ ops, EverydayService env (nops names) op) (d : LineDraws) (hd : EverydayDraws env (nops names) d) :
    ∃ (more : List ServerOp) (ns : List NarOp) (texts : List Post),
      (∀ op ∈ more, op = .publish ∨ op = .publishWorker ∨ op = .think d) ∧
      (more.filter (fun op => match op with | .think _ => true | _ => false)).length = (runServer env ops).chan.length ∧
      runNar env (.handlers 1 :: ns) = .ok (runServer env (ops ++ more)).nar ∧
      lineTexts ns = handedOver env ops ∧
      (posted env (ops ++ more)).filter (fun p => !p.isAnswer) = (returnedFrom env createNar (.handlers 1 :: ns)).map .line ∧
      (runServer env (ops ++ more)).nar.answers.mapM (answerText env) = .ok texts ∧
      ((posted env (ops ++ more)).filter (·.isAnswer)).Perm texts := by
  have drain : ∀ (n : Nat) (ops : List ServerOp), (∀ op ∈ ops, EverydayService env (nops names) op) → (runServer env ops).chan.length = n →
      ∃ more : List ServerOp, (∀ op ∈ more, op = .publish ∨ op = .publishWorker ∨ op = .think d) ∧
        (more.filter (fun op => match op with | .think _ => true | _ => false)).length = n ∧
        (runServer env (ops ++ more)).chan = [] ∧ (runServer env (ops ++ more)).todo = [] ∧
        (runServer env (ops ++ more)).todoWorker = [] := by
    intro n
    induction n with
    | zero =>
      intro ops _ hn
      refine ⟨List.replicate (runServer env ops).todo.length .publish ++
        List.replicate (runServer env ops).todoWorker.length .publishWorker, ?_, ?_, ?_⟩
      · intro op hop
        rcases List.mem_append.1 hop with hop | hop
        · exact .inl (List.eq_of_mem_replicate hop)
        · exact .inr (.inl (List.eq_of_mem_replicate hop))
      · simp
      · rw [← List.append_assoc, runServer_append, runServer_append, publish_all env _ _ rfl, publishWorker_all env _ _ rfl]
        exact ⟨List.eq_nil_of_length_eq_zero hn, rfl, rfl⟩
    | succ n ih =>
      intro ops ho hn
      cases hc : (runServer env ops).chan with
      | nil => rw [hc] at hn; cases hn
      | cons l rest =>
        rw [hc] at hn
        obtain ⟨h1, _⟩ := C101_next_line_handled_partial env names ops ho l rest hc d hd _ rfl
        obtain ⟨more, m1, m2, m3⟩ := ih (ops ++ List.replicate (runServer env ops).todo.length .publish ++ [.think d]) (by
          intro op hop
          rcases List.mem_append.1 hop with hop | hop
          · rcases List.mem_append.1 hop with hop | hop
            · exact ho op hop
            · rw [List.eq_of_mem_replicate hop]; trivial
          · rw [List.mem_singleton.1 hop]; exact hd) (by rw [h1]; simpa using hn)
        refine ⟨List.replicate (runServer env ops).todo.length .publish ++ [.think d] ++ more, ?_, ?_, ?_⟩
        · intro op hop
          rcases List.mem_append.1 hop with hop | hop
          · rcases List.mem_append.1 hop with hop | hop
            · exact .inl (List.eq_of_mem_replicate hop)
            · exact .inr (.inr (List.mem_singleton.1 hop))
          · exact m1 op hop
        · rw [List.filter_append, List.length_append, m2]
          simp
          omega
        · simpa only [List.append_assoc] using m3
  obtain ⟨more, m1, m2, m3, m4, m5⟩ := drain _ ops h rfl
  obtain ⟨ns, crashed, texts, h1, h2, _, h4, _, h6, h7, h8⟩ := C101_nothing_lost env (ops ++ more)
  have hall : ∀ op ∈ ops ++ more, EverydayService env (nops names) op := by
    intro op hop
    rcases List.mem_append.1 hop with hop | hop
    · exact h op hop
    · rcases m1 op hop with rfl | rfl | rfl
      · trivial
      · trivial
      · exact hd
  rw [h4.1 (C101_serves_partial env names _ hall).1, m3, List.append_nil, List.append_nil, handedOver_append,
    handedFrom_none env more (fun op hop i l e => by rcases m1 op hop with h | h | h <;> (rw [e] at h; cases h)), List.append_nil] at h2
  rw [m4, List.append_nil] at h6
  rw [m4, m5, List.append_nil, List.append_nil] at h8
  exact ⟨more, ns, texts, m1, m2, h1, h2, h6, h7, h8⟩

/-- two clients; the first tells a fact, both ask for it, then everything is handled and published -/
def servedClients : List ServerOp :=
  [.connect, .connect, .receive 0 "<a --> b>.".toList, .receive 1 "<a --> b>? :|:".toList, .think (draws [] []), .receive 0 "!s9".toList,
   .declWork, .procWork [], .publish, .think (draws [] []), .poll 1]

theorem noDraws_everyday : EverydayDraws env0 (nops []) (draws [] []) :=
  ⟨⟨fun i => by simp [draws], (fun x hx => by cases hx), (fun x hx => by cases hx)⟩, (fun x hx => by cases hx)⟩

theorem servedClients_everyday : ∀ op ∈ servedClients, EverydayService env0 (nops []) op := by
  intro op hop
  simp only [servedClients, List.mem_cons, List.not_mem_nil, or_false] at hop
  rcases hop with rfl | rfl | rfl | rfl | rfl | rfl | rfl | rfl | rfl | rfl | rfl
  · trivial
  · trivial
  · intro d _
    refine ⟨.narsese, by decide +kernel, ⟨some (.Stmt .INH (.Name "a") (.Name "b"), ⟨1, 9/10⟩, .JUGEMENT, false), by decide +kernel⟩, ?_⟩
    intro term tv punct e h
    rw [show trimNewline "<a --> b>.".toList = "<a --> b>.".toList by decide +kernel,
      show parseNarsese env0.pf "<a --> b>.".toList = .ok (some (.Stmt .INH (.Name "a") (.Name "b"), ⟨1, 9/10⟩, .JUGEMENT, false)) by
        decide +kernel] at h
    cases h
    intro _
    simp only [Bool.false_eq_true, if_false]
    exact ⟨(by rintro ⟨a, b, h⟩; cases h), (by decide +kernel)⟩
  · intro d _
    refine ⟨.narsese, by decide +kernel, ⟨some (.Stmt .INH (.Name "a") (.Name "b"), ⟨1, 9/10⟩, .QUESTION, true), by decide +kernel⟩, ?_⟩
    intro term tv punct e h
    rw [show trimNewline "<a --> b>? :|:".toList = "<a --> b>? :|:".toList by decide +kernel,
      show parseNarsese env0.pf "<a --> b>? :|:".toList = .ok (some (.Stmt .INH (.Name "a") (.Name "b"), ⟨1, 9/10⟩, .QUESTION, true)) by
        decide +kernel] at h
    cases h
    intro h
    cases h
  · exact noDraws_everyday
  · intro d _
    exact ⟨.cycles "9".toList, by decide +kernel, .inr ⟨9, by decide +kernel⟩⟩
  · trivial
  · intro x hx
    cases hx
  · trivial
  · exact noDraws_everyday
  · trivial

/-- one line waits in `servedClients`; with the two messages published and it handled the answer is published once -/
example : (runServer env0 servedClients).chan.map String.ofList = ["!s9"] ∧
    handedOver env0 servedClients = ["<a --> b>.".toList, "<a --> b>? :|:".toList, "!s9".toList] := by decide +kernel

example : (posted env0 (servedClients ++ [.think spread, .publish, .declWork, .publishWorker])).map (·.isAnswer) = [true] := by decide +kernel

example := C101_all_served_partial env0 [] servedClients servedClients_everyday (draws [] []) noDraws_everyday

end Nar.Props
