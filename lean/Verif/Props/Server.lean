import Verif.Lemmas.Server
import Verif.Props.Nar
/-! # Properties of the server: C42, C72, C73 -/
namespace Nar.Props
open Nar

/-! ## C42 -/

/-- C42: in every history the messages are numbered in the order of their publication without gaps, and the stored messages
are the last ones published, at least 50 of them if there are so many. -/
theorem C42_numbers (env : Env) (ops : List ServerOp) :
    (runServer env ops).global.idCounter = (published env ops).length ∧
    ∃ k, (runServer env ops).global.arr.map (·.2) = (published env ops).drop k ∧
      (runServer env ops).global.arr.map (·.1) = (List.range' k ((published env ops).length - k)).map Int.ofNat ∧
      k ≤ (published env ops).length - min 50 (published env ops).length := by
  have h := (runServer_inv env ops).global
  obtain ⟨h1, h2, h3⟩ := h.first
  refine ⟨h.id, (runServer env ops).global.first, ?_, ?_, h3⟩
  · conv_lhs => rw [h2]
    rw [List.map_drop]
    congr 1
    apply List.ext_getElem?
    intro i
    simp [numbered]
  · conv_lhs => rw [h2]
    apply List.ext_getElem?
    intro i
    simp only [List.getElem?_map, List.getElem?_drop, numbered, List.getElem?_mapIdx]
    by_cases hi : (runServer env ops).global.first + i < (published env ops).length
    · rw [List.getElem?_eq_getElem hi, List.getElem?_range' (by omega)]
      simp
    · rw [List.getElem?_eq_none (by omega), List.getElem?_eq_none (by simp; omega)]
      rfl

/-- C42: a poll sends to the client consecutive published messages in the order of their publication, up to the newest one. -/
theorem C42_poll_in_order (env : Env) (ops : List ServerOp) (i : Nat) (c : Client)
    (hc : (runServer env ops).clients[i]? = some c) (ha : c.alive = true) :
    ∃ c' k, (runServer env (ops ++ [.poll i])).clients[i]? = some c' ∧ c'.sent = c.sent ++ (published env ops).drop k ∧
      c'.alive = true := by
  obtain ⟨my, h1, h2, h3, h4⟩ := poll_eq hc ha
  rw [runServer_snoc]
  show ∃ c' k, (poll (runServer env ops) i).clients[i]? = some c' ∧ _
  rw [h4]
  exact ⟨_, _, List.getElem?_set_self (List.getElem?_eq_some_iff.1 hc).1, rfl, ha⟩

/-- C42: a client which polls often enough misses nothing: when it has polled, everything published since it connected
was sent to it in order; and nothing published before is ever sent. -/
theorem C42_nothing_missed (env : Env) (pre mid : List ServerOp) (i : Nat) (hi : i = (runServer env pre).clients.length)
    (h : PollsOften env pre (mid ++ [.poll i]) i) :
    ∃ c, (runServer env (pre ++ .connect :: (mid ++ [.poll i]))).clients[i]? = some c ∧
      (c.alive = true →
        ((published env (pre ++ .connect :: (mid ++ [.poll i]))).drop (published env pre).length).Sublist c.sent ∧
        ∀ m ∈ c.sent, m ∈ (published env (pre ++ .connect :: (mid ++ [.poll i]))).drop (published env pre).length) := by
  obtain ⟨c, hc, ht⟩ := track env pre i hi _ h
  refine ⟨c, hc, fun ha => ?_⟩
  obtain ⟨a, m, h1, h2, h3, h4⟩ := ht ha
  have hm : m = [] := by
    cases hl : m.reverse with
    | nil => simpa using hl
    | cons x xs =>
      have hm : m = xs.reverse ++ [x] := by
        have := congrArg List.reverse hl
        simpa using this
      rw [hm, ← List.append_assoc] at h1
      have := (List.append_inj' h1 rfl).2
      cases this
      exact absurd (by rw [hm]; simp) h2
  subst hm
  rw [List.append_nil] at h1
  subst h1
  refine ⟨?_, h4.only⟩
  have := h4.all
  rwa [List.take_length] at this

/-- C42, violation: a client which got a message gets the last published message again with every further poll, even if
nothing new was published. -/
theorem C42_last_message_again (env : Env) (ops : List ServerOp) (i : Nat) (c : Client)
    (hc : (runServer env ops).clients[i]? = some c) (ha : c.alive = true) (hs : c.sent ≠ []) :
    ∃ c1 c2 m, (runServer env (ops ++ [.poll i])).clients[i]? = some c1 ∧
      (runServer env (ops ++ [.poll i] ++ [.poll i])).clients[i]? = some c2 ∧
      (published env ops).getLast? = some m ∧ c2.sent = c1.sent ++ [m] := by
  obtain ⟨my, h1, h2, h3, h4⟩ := poll_eq hc ha
  have hinv := runServer_inv env ops
  obtain ⟨f1, f2, f3⟩ := hinv.global.first
  have hlt : max my (runServer env ops).global.first < (published env ops).length := by
    have := h3 hs
    omega
  have hrun : runServer env (ops ++ [.poll i]) = poll (runServer env ops) i := by rw [runServer_snoc]; rfl
  rw [h4, if_pos hlt] at hrun
  have hc1 : (runServer env (ops ++ [.poll i])).clients[i]? = some
      { c with my := ((published env ops).length : Int) - 1
               sent := c.sent ++ (published env ops).drop (max my (runServer env ops).global.first) } := by
    rw [hrun]
    exact List.getElem?_set_self (List.getElem?_eq_some_iff.1 hc).1
  obtain ⟨my', g1, g2, g3, g4⟩ := poll_eq hc1 ha
  have hpub : published env (ops ++ [.poll i]) = published env ops := by rw [published_snoc]; simp [publishedBy]
  have hfst : (runServer env (ops ++ [.poll i])).global.first = (runServer env ops).global.first := by rw [hrun]
  have hmy : my' = (published env ops).length - 1 := by
    have : ((published env ops).length : Int) - 1 = (my' : Int) := g1
    omega
  obtain ⟨m, hm⟩ : ∃ m, (published env ops).getLast? = some m := by
    rw [List.getLast?_eq_getElem?]
    exact ⟨_, List.getElem?_eq_getElem (by omega)⟩
  have hmax : max my' (runServer env ops).global.first = (published env ops).length - 1 := by omega
  refine ⟨_, { c with
    my := ((published env ops).length : Int) - 1
    sent := c.sent ++ (published env ops).drop (max my (runServer env ops).global.first) ++ [m] }, m, hc1, ?_, hm, rfl⟩
  · rw [runServer_snoc]
    show (poll (runServer env (ops ++ [.poll i])) i).clients[i]? = _
    rw [g4]
    rw [List.getElem?_set_self (List.getElem?_eq_some_iff.1 hc1).1]
    rw [hpub, hfst, hmax, if_pos (by omega)]
    have : (published env ops).drop ((published env ops).length - 1) = [m] := by
      rw [List.getLast?_eq_getElem?] at hm
      obtain ⟨hl, hm⟩ := List.getElem?_eq_some_iff.1 hm
      rw [List.drop_eq_getElem_cons hl, hm]
      simp
      omega
    rw [this]

/-- C42: publishing a line leaves at most 50 messages stored. -/
theorem C42_store_limited_by_lines (env : Env) (s : Server) (m : List Char) (rest : List Post) (h : s.todo = .line m :: rest) :
    (ServerOp.publish.run env s).global.arr.length ≤ 50 := by
  simp only [ServerOp.run]
  unfold Nar.publish
  rw [h]
  simp only [Global.post]
  unfold Global.limit
  split
  · simp only [List.length_drop]; omega
  · omega

/-- everything undetermined while a line is handled: each cycle considers another question -/
def spread : LineDraws := { draws [] [5] with cycles := fun i => (((i * 7 % 100 : Nat) : Rat) / 100, 0) }

/-- C42, violation: answers are stored without limit: however many are given, all of them are kept until the next line is
returned by a command. -/
theorem C42_answers_unlimited (env : Env) (answers : List (List Char)) (rest : List Post) : ∀ s : Server,
    s.todo = answers.map .answer ++ rest →
    (moreServer env s (List.replicate answers.length .publish)).global.arr.length = s.global.arr.length + answers.length := by
  induction answers with
  | nil => intro s _; rfl
  | cons a as ih =>
    intro s hs
    have hp : publish s = { s with todo := as.map .answer ++ rest, global := s.global.post (.answer a) } := by
      unfold publish; rw [hs]; rfl
    show (moreServer env (publish s) (List.replicate as.length .publish)).global.arr.length = _
    rw [ih _ (by rw [hp])]
    rw [hp]
    simp [Global.post, Global.push]
    omega

/-- a fact, two questions, some cycles, both answers published; two polls before and after -/
def twoAnswers : List ServerOp :=
  [.connect, .connect, .receive 0 "<a --> b>.".toList, .think spread, .receive 0 "<a --> b>? :|:".toList, .think spread,
   .receive 1 "<a --> b>? :|:".toList, .think spread, .receive 0 "!s9".toList, .think spread, .poll 0, .publish, .poll 0,
   .publish, .poll 0, .poll 0, .poll 1]

/-- the first client gets the last answer again and again, the second client gets both at once -/
example : (runServer env0 twoAnswers).clients.map (fun c => (c.sent.map (fun m => m.length), c.my, c.alive)) =
    [([39, 39, 39, 39], 1, true), ([39, 39], 1, true)] ∧ (published env0 twoAnswers).length = 2 := by
  decide +kernel

theorem publishedFrom_length (env : Env) : ∀ (ops : List ServerOp) (s : Server),
    (publishedFrom env s ops).length ≤ ops.length := by
  intro ops
  induction ops with
  | nil => intro s; simp [publishedFrom]
  | cons op ops ih =>
    intro s
    have h1 : (publishedBy s op).length ≤ 1 := by
      cases op <;> simp [publishedBy] <;> omega
    have := ih (op.run env s)
    simp only [publishedFrom, List.length_append, List.length_cons]
    omega

/-- the second client of that history polls once, at the end, and still gets both answers, as fewer than 50 messages were
published -/
example : ∃ c, (runServer env0 twoAnswers).clients[1]? = some c ∧ c.alive = true ∧
    (published env0 twoAnswers).Sublist c.sent := by
  have hp : PollsOften env0 [.connect] (twoAnswers.tail.tail.dropLast ++ [.poll 1]) 1 := by
    intro a m rest h _ _
    have hl := congrArg List.length h
    simp only [List.length_append, List.length_cons, List.length_nil, List.length_dropLast, List.length_tail,
      show twoAnswers.length = 17 from rfl] at hl
    have := publishedFrom_length env0 m (runServer env0 ([.connect] ++ .connect :: a))
    omega
  obtain ⟨c, hc, hs⟩ := C42_nothing_missed env0 [.connect] _ 1 (by decide +kernel) hp
  have ha : (runServer env0 twoAnswers).clients[1]?.map (·.alive) = some true := by decide +kernel
  have hc' : (runServer env0 twoAnswers).clients[1]? = some c := hc
  rw [hc'] at ha
  have ha' : c.alive = true := Option.some.inj ha
  exact ⟨c, hc', ha', (hs ha').1⟩

/-! ## C72 -/
/-! ## C72 -/

theorem narAlive_stays (env : Env) (ops : List ServerOp) : ∀ s : Server, s.narAlive = false →
    (moreServer env s ops).narAlive = false := by
  induction ops with
  | nil => intro s h; exact h
  | cons op ops ih =>
    intro s h
    apply ih
    cases op with
    | connect => exact h
    | receive i l =>
      simp only [ServerOp.run]
      unfold Nar.receive
      split
      · exact h
      · split
        · split <;> exact h
        · exact h
    | poll i =>
      simp only [ServerOp.run]
      unfold Nar.poll
      split
      · exact h
      · split <;> exact h
    | think d =>
      simp only [ServerOp.run]
      unfold Nar.think
      rw [if_neg (by rw [h]; simp)]
      exact h
    | publish =>
      simp only [ServerOp.run]
      unfold Nar.publish
      split <;> exact h
    | declWork =>
      simp only [ServerOp.run]
      unfold serverDeclWork
      split
      · split <;> exact h
      · exact h
    | publishWorker =>
      simp only [ServerOp.run]
      unfold Nar.publishWorker
      split <;> exact h
    | procWork rng => exact h

/-- C72: a line which the reasoner handles without crashing leaves the service running. -/
theorem C72_partial (env : Env) (s : Server) (d : LineDraws) (l : List Char) (rest : List (List Char)) (r : Reasoner) (q : Bool)
    (out : List (List Char)) (answers : List Post) (ha : s.narAlive = true) (ht : s.todo = []) (hc : s.chan = l :: rest)
    (h : input env s.nar l d = .ok (r, q, out)) (hn : newAnswers env s.nar r = .ok answers) :
    (ServerOp.run env s (.think d)).narAlive = true ∧ (ServerOp.run env s (.think d)).nar = r ∧
      (ServerOp.run env s (.think d)).todo = answers ++ out.map .line := by
  simp only [ServerOp.run]
  unfold Nar.think
  rw [if_pos ⟨ha, ht⟩, hc]
  simp only [h, hn]
  exact ⟨ha, trivial, trivial⟩

/-- C72: the command to quit, sent by a client, does not stop the service. -/
theorem C72_quit_is_ignored (env : Env) (s : Server) (d : LineDraws) (rest : List (List Char)) (ha : s.narAlive = true)
    (ht : s.todo = []) (hc : s.chan = "!QQ".toList :: rest) : ServerOp.run env s (.think d) = { s with chan := rest } := by
  have h : input env s.nar "!QQ".toList d = .ok (s.nar, true, []) := by
    rw [input_of_dispatch (c := .quit) (by decide)]
    rfl
  simp only [ServerOp.run]
  unfold Nar.think
  rw [if_pos ⟨ha, ht⟩, hc]
  simp only [h, newAnswers, List.drop_length, List.map_nil, List.append_nil]
  show { s with chan := rest, todo := [] } = _
  rw [← ht]

/-- C72, violation: when a line crashes the reasoner, whoever sent it, every client loses its connection with the next line
it sends, for ever. -/
theorem C72_crash_ends_service (env : Env) (s : Server) (d : LineDraws) (l : List Char) (rest : List (List Char)) (e : Err)
    (ht : s.todo = []) (hc : s.chan = l :: rest) (h : input env s.nar l d = .error e)
    (mid : List ServerOp) (i : Nat) (line : List Char) (c : Client)
    (hs : (moreServer env s (.think d :: mid ++ [.receive i line])).clients[i]? = some c) : c.alive = false := by
  have hdead : (ServerOp.run env s (.think d)).narAlive = false ∨ s.narAlive = false := by
    cases ha : s.narAlive with
    | false => exact .inr rfl
    | true =>
      left
      simp only [ServerOp.run]
      unfold Nar.think
      rw [if_pos ⟨ha, ht⟩, hc]
      simp only [h]
  have hdead : (ServerOp.run env s (.think d)).narAlive = false := by
    rcases hdead with h | h
    · exact h
    · exact narAlive_stays env [.think d] s h
  have h2 := narAlive_stays env mid _ hdead
  have e1 : moreServer env s (.think d :: mid ++ [.receive i line]) =
      receive (moreServer env (ServerOp.run env s (.think d)) mid) i line := by
    simp [moreServer, List.foldl_append, ServerOp.run]
  rw [e1] at hs
  generalize moreServer env (ServerOp.run env s (.think d)) mid = s2 at *
  unfold receive at hs
  split at hs
  · rename_i hn
    rw [hn] at hs
    cases hs
  · rename_i c0 h0
    split at hs
    · rw [h2] at hs
      simp only [Bool.false_eq_true, if_false] at hs
      rw [List.getElem?_set_self (List.getElem?_eq_some_iff.1 h0).1] at hs
      cases hs
      rfl
    · rename_i ha
      rw [h0] at hs
      cases hs
      simpa using ha

/-- C72, violation: a client sends a word with an umlaut; another client is cut off. -/
example : (runServer env0 [.connect, .connect, .receive 0 "bär".toList, .think (draws [] []), .receive 1 "<a --> b>.".toList]).clients.map
    (·.alive) = [true, false] := by decide +kernel

/-! ## C73 -/

/-- C73: the reasoner of a server only does what its clients tell it: its state is the one of a reasoner with one question
handler, which got lines the clients sent, and whose workers worked; every message ever published tells an answer
derivable from these lines, or was returned by a command among these lines. -/
theorem C73_server_refines_reasoner (env : Env) (ops : List ServerOp) : ∃ (nops : List NarOp) (posts : List Post),
    runNar env (.handlers 1 :: nops) = .ok (runServer env ops).nar ∧
    (∀ op ∈ nops, FromClients (receivedLines ops) op) ∧
    posts.map Post.text = published env ops ∧
    ∀ p ∈ posts, Legitimate env (receivedLines ops) (.handlers 1 :: nops) p := by
  obtain ⟨H, nops, h1, h2⟩ := runServer_refines env ops
  obtain ⟨nops, rfl⟩ : ∃ l, nops = .handlers 1 :: l := by
    cases nops with
    | nil => cases h2.head
    | cons a l =>
      have := h2.head
      simp only [List.head?_cons, Option.some.injEq] at this
      exact ⟨l, by rw [this]⟩
  exact ⟨nops, H, h2.run, h2.ops, h1, fun p hp => h2.posts p (by simp [hp])⟩

/-- C73: so the beliefs of the server rest on distinct evidence, as for every reasoner. -/
theorem C73_beliefs_well_stamped (env : Env) (ops : List ServerOp) (s : Sentence) (hs : Holds (runServer env ops).nar s) :
    WellStamped (runServer env ops).nar s := by
  obtain ⟨nops, _, h, _⟩ := C73_server_refines_reasoner env ops
  exact C39_well_stamped env _ _ h s hs

/-- in that history the reasoner of the server holds the statement of its client, and it was published twice -/
example : ∃ (s : Sentence) (nops : List NarOp) (posts : List Post), Holds (runServer env0 twoAnswers).nar s ∧ s.term = .Stmt .INH (.Name "a") (.Name "b") ∧
    WellStamped (runServer env0 twoAnswers).nar s ∧ posts.length = 2 ∧
    ∀ p ∈ posts, Legitimate env0 (receivedLines twoAnswers) (.handlers 1 :: nops) p := by
  have h : (runServer env0 twoAnswers).nar.sh.heap[0]?.map (fun t => t.sentence.term) =
      some (.Stmt .INH (.Name "a") (.Name "b")) := by decide +kernel
  obtain ⟨t, ht, hterm⟩ := Option.map_eq_some_iff.1 h
  have hh : Holds (runServer env0 twoAnswers).nar t.sentence := .inl ⟨t, List.mem_of_getElem? ht, rfl⟩
  obtain ⟨nops, posts, -, -, hp, hl⟩ := C73_server_refines_reasoner env0 twoAnswers
  have hn : (published env0 twoAnswers).length = 2 := by decide +kernel
  exact ⟨t.sentence, nops, posts, hh, hterm, C73_beliefs_well_stamped env0 twoAnswers _ hh,
    by rw [← hn, ← hp, List.length_map], hl⟩

/-! ## C68 for servers -/
/-! ## C68 for servers -/

/-- C68, violation: a server never makes the rules available: whatever it learned, questions about temporal rules have no
candidate answers. -/
theorem C68_server_never_answers (env : Env) (ops : List ServerOp) (q : Term) (hq : IsTemporal q) (b : Sentence) :
    ¬ Candidate (runServer env ops).nar.look q b := by
  obtain ⟨nops, _, h1, h2, _⟩ := C73_server_refines_reasoner env ops
  refine C68_not_available env _ _ h1 ?_ q hq b
  intro hm
  rcases List.mem_cons.1 hm with hm | hm
  · cases hm
  · exact h2 _ hm

end Nar.Props
