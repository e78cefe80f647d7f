import Verif.Spec.Server
import Verif.Lemmas.Nar
import Mathlib.Tactic.Conv
import Mathlib.Tactic.Tauto
namespace Nar

/-- messages with their numbers -/
def numbered (H : List (List Char)) : List (Int × List Char) := H.mapIdx (fun i m => ((i : Int), m))

theorem numbered_length (H : List (List Char)) : (numbered H).length = H.length := by simp [numbered]

theorem numbered_append (H : List (List Char)) (m : List Char) :
    numbered (H ++ [m]) = numbered H ++ [((H.length : Int), m)] := by
  simp [numbered, List.mapIdx_append]

theorem publishedFrom_append (env : Env) : ∀ (ops1 ops2 : List ServerOp) (s : Server),
    publishedFrom env s (ops1 ++ ops2) = publishedFrom env s ops1 ++ publishedFrom env (moreServer env s ops1) ops2 := by
  intro ops1
  induction ops1 with
  | nil => intro ops2 s; rfl
  | cons op ops ih =>
    intro ops2 s
    simp only [List.cons_append, publishedFrom, ih, List.append_assoc]
    rfl

theorem published_snoc (env : Env) (ops : List ServerOp) (op : ServerOp) :
    published env (ops ++ [op]) = published env ops ++ publishedBy (runServer env ops) op := by
  unfold published
  rw [publishedFrom_append]
  simp [publishedFrom, runServer]

theorem runServer_snoc (env : Env) (ops : List ServerOp) (op : ServerOp) :
    runServer env (ops ++ [op]) = op.run env (runServer env ops) := by
  simp [runServer, moreServer, List.foldl_append]

/-- the published messages which are still stored -/
structure GlobalInv (H : List (List Char)) (g : Global) : Prop where
  id : g.idCounter = H.length
  arr : ∃ k, k ≤ H.length ∧ g.arr = (numbered H).drop k
  enough : min 50 H.length ≤ g.arr.length

theorem GlobalInv.push {H : List (List Char)} {g : Global} (h : GlobalInv H g) (m : List Char) :
    GlobalInv (H ++ [m]) (g.push m) := by
  obtain ⟨k, hk, ha⟩ := h.arr
  refine ⟨by simp [Global.push, h.id], ⟨k, by simp; omega, ?_⟩, ?_⟩
  · rw [numbered_append, List.drop_append_of_le_length (by rw [numbered_length]; exact hk)]
    simp [Global.push, ha, h.id]
  · have := h.enough
    simp [Global.push]
    omega

theorem GlobalInv.limit {H : List (List Char)} {g : Global} (h : GlobalInv H g) : GlobalInv H g.limit := by
  unfold Global.limit
  split
  · rename_i hl
    obtain ⟨k, hk, ha⟩ := h.arr
    have hl' : g.arr.length = H.length - k := by rw [ha, List.length_drop, numbered_length]
    refine ⟨h.id, ⟨k + (g.arr.length - 50), by omega, ?_⟩, ?_⟩
    · simp only [ha, List.drop_drop]
    · simp only [List.length_drop]; omega
  · exact h

theorem GlobalInv.post {H : List (List Char)} {g : Global} (h : GlobalInv H g) (p : Post) :
    GlobalInv (H ++ [p.text]) (g.post p) := by
  cases p with
  | answer m => exact h.push m
  | line m => exact (h.push m).limit

theorem pollLoop_numbered (H : List (List Char)) : ∀ (n k my : Nat) (acc : List (List Char)), H.length - k = n → k ≤ H.length →
    pollLoop my acc ((numbered H).drop k) =
      (if max my k < H.length then (H.length : Int) - 1 else my, acc ++ H.drop (max my k)) := by
  intro n
  induction n with
  | zero =>
    intro k my acc h1 h2
    have hk : k = H.length := by omega
    subst hk
    rw [List.drop_of_length_le (by rw [numbered_length])]
    have : ¬ max my H.length < H.length := by omega
    simp [pollLoop]
  | succ n ih =>
    intro k my acc h1 h2
    have hk : k < H.length := by omega
    have hn : (numbered H).drop k = ((k : Int), H[k]) :: (numbered H).drop (k + 1) := by
      rw [List.drop_eq_getElem_cons (by rw [numbered_length]; exact hk)]
      simp [numbered]
    rw [hn]
    unfold pollLoop
    by_cases hm : my ≤ k
    · rw [if_pos (by exact_mod_cast hm), ih (k + 1) k _ (by omega) (by omega)]
      have e1 : max k (k + 1) = k + 1 := by omega
      have e2 : max my k = k := by omega
      rw [e1, e2, if_pos hk]
      refine Prod.ext ?_ ?_
      · simp only
        split <;> omega
      · simp only
        rw [List.drop_eq_getElem_cons hk]
        simp
    · rw [if_neg (by intro h; apply hm; exact_mod_cast h), ih (k + 1) my _ (by omega) (by omega)]
      have e1 : max my (k + 1) = max my k := by omega
      rw [e1]

/-- number of the first stored message -/
def Global.first (g : Global) : Nat := (g.idCounter - g.arr.length).toNat

theorem GlobalInv.first {H : List (List Char)} {g : Global} (h : GlobalInv H g) :
    g.first ≤ H.length ∧ g.arr = (numbered H).drop g.first ∧ g.first ≤ H.length - min 50 H.length := by
  obtain ⟨k, hk, ha⟩ := h.arr
  have hl : g.arr.length = H.length - k := by rw [ha, List.length_drop, numbered_length]
  have hf : g.first = k := by
    unfold Global.first
    rw [h.id, hl]
    omega
  have := h.enough
  rw [hf]
  exact ⟨hk, ha, by omega⟩

theorem GlobalInv.poll {H : List (List Char)} {g : Global} (h : GlobalInv H g) (my : Nat) (acc : List (List Char)) :
    pollLoop my acc g.arr =
      (if max my g.first < H.length then (H.length : Int) - 1 else my, acc ++ H.drop (max my g.first)) := by
  obtain ⟨h1, h2, _⟩ := h.first
  rw [h2]
  exact pollLoop_numbered H _ _ my acc rfl h1

/-- all that is needed about the server in any history -/
structure ServerInv (H : List (List Char)) (s : Server) : Prop where
  global : GlobalInv H s.global
  clients : ∀ c ∈ s.clients, ∃ my : Nat, c.my = my ∧ my ≤ H.length ∧ (c.sent ≠ [] → my < H.length) ∧ ∀ m ∈ c.sent, m ∈ H

theorem ServerInv.of_eq {H : List (List Char)} {s s' : Server} (h : ServerInv H s) (h1 : s'.global = s.global)
    (h2 : s'.clients = s.clients) : ServerInv H s' := ⟨by rw [h1]; exact h.global, by rw [h2]; exact h.clients⟩

theorem ServerInv.post {H : List (List Char)} {s s' : Server} {p : Post} (h : ServerInv H s)
    (h1 : s'.global = s.global.post p) (h2 : s'.clients = s.clients) : ServerInv (H ++ [p.text]) s' := by
  refine ⟨by rw [h1]; exact h.global.post p, ?_⟩
  rw [h2]
  intro c hc
  obtain ⟨my, k1, k2, k3, k4⟩ := h.clients c hc
  refine ⟨my, k1, by simp; omega, fun hs => by have := k3 hs; simp; omega, fun m hm => List.mem_append_left _ (k4 m hm)⟩

theorem think_frame (env : Env) (s : Server) (d : LineDraws) :
    (think env s d).global = s.global ∧ (think env s d).clients = s.clients := by
  unfold think
  split
  · split
    · exact ⟨rfl, rfl⟩
    · split
      · exact ⟨rfl, rfl⟩
      · split <;> exact ⟨rfl, rfl⟩
  · exact ⟨rfl, rfl⟩

theorem serverDeclWork_frame (env : Env) (s : Server) :
    (serverDeclWork env s).global = s.global ∧ (serverDeclWork env s).clients = s.clients := by
  unfold serverDeclWork
  split
  · split <;> exact ⟨rfl, rfl⟩
  · exact ⟨rfl, rfl⟩

theorem ServerOp.run_inv {env : Env} {H : List (List Char)} {s : Server} (h : ServerInv H s) (op : ServerOp) :
    ServerInv (H ++ publishedBy s op) (op.run env s) := by
  cases op with
  | connect =>
    simp only [publishedBy, List.append_nil]
    refine ⟨h.global, ?_⟩
    intro c hc
    rcases List.mem_append.1 hc with hc | hc
    · exact h.clients c hc
    · rw [List.mem_singleton] at hc
      subst hc
      exact ⟨H.length, h.global.id, le_refl _, fun hs => absurd rfl hs, fun m hm => by cases hm⟩
  | receive i line =>
    simp only [publishedBy, List.append_nil, ServerOp.run]
    unfold Nar.receive
    split
    · exact h
    · rename_i c hc
      split
      · split
        · exact h.of_eq rfl rfl
        · refine ⟨h.global, ?_⟩
          intro c' hc'
          rcases List.mem_or_eq_of_mem_set hc' with h' | rfl
          · exact h.clients c' h'
          · exact h.clients c (List.mem_of_getElem? hc)
      · exact h
  | poll i =>
    simp only [publishedBy, List.append_nil, ServerOp.run]
    unfold Nar.poll
    split
    · exact h
    · rename_i c hc
      split
      · obtain ⟨my, k1, k2, k3, k4⟩ := h.clients c (List.mem_of_getElem? hc)
        rw [k1, h.global.poll]
        refine ⟨h.global, ?_⟩
        intro c' hc'
        rcases List.mem_or_eq_of_mem_set hc' with h' | rfl
        · exact h.clients c' h'
        · simp only [List.nil_append]
          have hf := h.global.first.1
          split
          · rename_i hlt
            refine ⟨H.length - 1, by omega, by omega, fun _ => by omega, ?_⟩
            intro m hm
            rcases List.mem_append.1 hm with hm | hm
            · exact k4 m hm
            · exact List.mem_of_mem_drop hm
          · rename_i hlt
            rw [List.drop_of_length_le (by omega), List.append_nil]
            exact ⟨my, rfl, k2, k3, k4⟩
      · exact h
  | think d =>
    simp only [publishedBy, List.append_nil, ServerOp.run]
    exact h.of_eq (think_frame env s d).1 (think_frame env s d).2
  | publish =>
    simp only [ServerOp.run, publishedBy]
    unfold Nar.publish
    cases ht : s.todo with
    | nil => simpa using h
    | cons p ps => exact h.post (p := p) rfl rfl
  | declWork =>
    simp only [publishedBy, List.append_nil, ServerOp.run]
    exact h.of_eq (serverDeclWork_frame env s).1 (serverDeclWork_frame env s).2
  | publishWorker =>
    simp only [ServerOp.run, publishedBy]
    unfold Nar.publishWorker
    cases ht : s.todoWorker with
    | nil => simpa using h
    | cons p ps => exact h.post (p := p) rfl rfl
  | procWork rng =>
    simp only [publishedBy, List.append_nil, ServerOp.run]
    exact h.of_eq rfl rfl

theorem runServer_inv (env : Env) (ops : List ServerOp) : ServerInv (published env ops) (runServer env ops) := by
  induction ops using List.reverseRecOn with
  | nil => exact ⟨⟨rfl, ⟨0, le_refl _, rfl⟩, by simp [published, publishedFrom]⟩, fun c hc => by cases hc⟩
  | append_singleton ops op ih =>
    rw [runServer_snoc, published_snoc]
    exact ServerOp.run_inv ih op

theorem poll_eq {env : Env} {ops : List ServerOp} {i : Nat} {c : Client} (hc : (runServer env ops).clients[i]? = some c)
    (ha : c.alive = true) : ∃ my : Nat, c.my = my ∧ my ≤ (published env ops).length ∧
      (c.sent ≠ [] → my < (published env ops).length) ∧
      poll (runServer env ops) i = { runServer env ops with
        clients := (runServer env ops).clients.set i
          { c with
            my := (if max my (runServer env ops).global.first < (published env ops).length
              then ((published env ops).length : Int) - 1 else my)
            sent := c.sent ++ (published env ops).drop (max my (runServer env ops).global.first) } } := by
  have h := runServer_inv env ops
  obtain ⟨my, k1, k2, k3, k4⟩ := h.clients c (List.mem_of_getElem? hc)
  refine ⟨my, k1, k2, k3, ?_⟩
  unfold poll
  rw [hc]
  simp only [ha, if_true]
  rw [k1, h.global.poll]
  simp

theorem set_ne {α : Type} {l : List α} {i j : Nat} {x : α} (h : i ≠ j) : (l.set i x)[j]? = l[j]? := by
  rw [List.getElem?_set_ne h]

/-- only its own polls change what a client got -/
theorem client_frame {env : Env} {s : Server} {i : Nat} {c : Client} {op : ServerOp} (hc : s.clients[i]? = some c)
    (hop : op ≠ .poll i) : ∃ c', (op.run env s).clients[i]? = some c' ∧ c'.my = c.my ∧ c'.sent = c.sent ∧
      (c'.alive = true → c.alive = true) := by
  have same : ∀ s' : Server, s'.clients = s.clients → ∃ c', s'.clients[i]? = some c' ∧ c'.my = c.my ∧ c'.sent = c.sent ∧
      (c'.alive = true → c.alive = true) := fun s' h => ⟨c, by rw [h]; exact hc, rfl, rfl, id⟩
  have hi : i < s.clients.length := (List.getElem?_eq_some_iff.1 hc).1
  cases op with
  | connect =>
    refine ⟨c, ?_, rfl, rfl, id⟩
    show (s.clients ++ _)[i]? = _
    rw [List.getElem?_append_left hi, hc]
  | receive j line =>
    simp only [ServerOp.run]
    unfold Nar.receive
    split
    · exact same _ rfl
    · rename_i cj hj
      split
      · split
        · exact same _ rfl
        · by_cases hij : j = i
          · subst hij
            rw [hc] at hj
            cases hj
            exact ⟨{ c with alive := false }, by simp [hi], rfl, rfl, fun h => by cases h⟩
          · exact ⟨c, by simp only; rw [set_ne hij]; exact hc, rfl, rfl, id⟩
      · exact same _ rfl
  | poll j =>
    have hij : j ≠ i := fun h => hop (by rw [h])
    simp only [ServerOp.run]
    unfold Nar.poll
    split
    · exact same _ rfl
    · split
      · exact ⟨c, by simp only; rw [set_ne hij]; exact hc, rfl, rfl, id⟩
      · exact same _ rfl
  | think d => exact same _ (think_frame env s d).2
  | publish =>
    simp only [ServerOp.run]
    unfold Nar.publish
    split <;> exact same _ rfl
  | declWork => exact same _ (serverDeclWork_frame env s).2
  | publishWorker =>
    simp only [ServerOp.run]
    unfold Nar.publishWorker
    split <;> exact same _ rfl
  | procWork rng => exact same _ rfl

theorem runServer_append (env : Env) (a b : List ServerOp) : runServer env (a ++ b) = moreServer env (runServer env a) b := by
  simp [runServer, moreServer, List.foldl_append]

theorem published_append (env : Env) (a b : List ServerOp) :
    published env (a ++ b) = published env a ++ publishedFrom env (runServer env a) b := by
  unfold published
  rw [publishedFrom_append]
  rfl

/-- what a client got so far: everything up to the last poll -/
structure Tracked (H : List (List Char)) (start b : Nat) (c : Client) : Prop where
  my : ∃ my : Nat, c.my = my ∧ start ≤ my ∧ (my = b ∨ my + 1 = b)
  le : start ≤ b
  all : ((H.take b).drop start).Sublist c.sent
  only : ∀ x ∈ c.sent, x ∈ H.drop start

theorem track (env : Env) (pre : List ServerOp) (i : Nat) (hi : i = (runServer env pre).clients.length) (mid : List ServerOp) :
    PollsOften env pre mid i → ∃ c, (runServer env (pre ++ .connect :: mid)).clients[i]? = some c ∧
      (c.alive = true → ∃ a m, mid = a ++ m ∧ ServerOp.poll i ∉ m ∧ (a = [] ∨ ∃ a', a = a' ++ [.poll i]) ∧
        Tracked (published env (pre ++ .connect :: mid)) (published env pre).length
          (published env (pre ++ .connect :: a)).length c) := by
  induction mid using List.reverseRecOn with
  | nil =>
    intro _
    refine ⟨⟨(runServer env pre).global.idCounter, [], true⟩, ?_, ?_⟩
    · rw [runServer_snoc]
      show (_ ++ _)[i]? = _
      rw [hi]
      simp
    · intro _
      refine ⟨[], [], rfl, by simp, .inl rfl, ?_⟩
      have hp : published env (pre ++ [.connect]) = published env pre := by rw [published_snoc]; simp [publishedBy]
      rw [hp]
      refine ⟨⟨_, (runServer_inv env pre).global.id, le_refl _, .inl rfl⟩, le_refl _, ?_, fun x hx => by cases hx⟩
      rw [List.drop_of_length_le (by simp)]
  | append_singleton mid op ih =>
    intro hp
    have hp' : PollsOften env pre mid i := by
      intro a m rest h1
      exact hp a m (rest ++ [op]) (by rw [h1]; simp)
    obtain ⟨c, hc, ht⟩ := ih hp'
    have hsnoc : pre ++ ServerOp.connect :: (mid ++ [op]) = (pre ++ ServerOp.connect :: mid) ++ [op] := by simp
    rw [hsnoc, runServer_snoc, published_snoc]
    by_cases hop : op = .poll i
    · subst hop
      simp only [publishedBy, List.append_nil]
      cases ha : c.alive with
      | false =>
        refine ⟨c, ?_, fun h => by rw [ha] at h; cases h⟩
        simp only [ServerOp.run]
        unfold Nar.poll
        rw [hc]
        simp [ha, hc]
      | true =>
        obtain ⟨a, m, h1, h2, h3, h4⟩ := ht ha
        obtain ⟨my, k1, k2, _, k4⟩ := poll_eq hc ha
        simp only [ServerOp.run]
        rw [k4]
        refine ⟨_, List.getElem?_set_self (List.getElem?_eq_some_iff.1 hc).1, ?_⟩
        intro _
        refine ⟨mid ++ [.poll i], [], by simp, by simp, .inr ⟨mid, rfl⟩, ?_⟩
        have hinv := runServer_inv env (pre ++ .connect :: mid)
        have e1 : (published env (pre ++ ServerOp.connect :: (mid ++ [ServerOp.poll i]))).length =
            (published env (pre ++ .connect :: mid)).length := by
          rw [hsnoc, published_snoc]; simp [publishedBy]
        rw [e1]
        have hlen := hp a m [] (by rw [h1]) h2 h3
        have hH : published env (pre ++ .connect :: mid) = published env (pre ++ .connect :: a) ++
            publishedFrom env (runServer env (pre ++ .connect :: a)) m := by
          rw [← published_append, h1]; simp
        have hHl := congrArg List.length hH
        rw [List.length_append] at hHl
        obtain ⟨my', j1, j2, j3⟩ := h4.my
        have : my' = my := by rw [k1] at j1; exact_mod_cast j1.symm
        subst this
        obtain ⟨f1, f2, f3⟩ := hinv.global.first
        have hst := h4.le
        generalize hHdef : published env (pre ++ .connect :: mid) = H at *
        generalize (runServer env (pre ++ .connect :: mid)).global.first = fst at *
        generalize (published env (pre ++ .connect :: a)).length = b at *
        generalize (published env pre).length = start at *
        refine ⟨?_, by omega, ?_, ?_⟩
        · by_cases hm : max my' fst < H.length
          · exact ⟨H.length - 1, by simp only [hm, if_true]; omega, by omega, by omega⟩
          · exact ⟨my', by simp only [hm, if_false], j2, by omega⟩
        · rw [List.take_length]
          have : H.drop start = (H.take b).drop start ++ H.drop b := by
            conv_lhs => rw [← List.take_append_drop b H]
            rw [List.drop_append_of_le_length]
            rw [List.length_take]; omega
          rw [this]
          refine h4.all.append ?_
          have : H.drop b = (H.drop (max my' fst)).drop (b - max my' fst) := by
            rw [List.drop_drop]; congr 1; omega
          rw [this]
          exact List.drop_sublist _ _
        · intro x hx
          rcases List.mem_append.1 hx with hx | hx
          · exact h4.only x hx
          · have : H.drop (max my' fst) = (H.drop start).drop (max my' fst - start) := by
              rw [List.drop_drop]; congr 1; omega
            rw [this] at hx
            exact List.mem_of_mem_drop hx
    · obtain ⟨c', h1, h2, h3, h4⟩ := client_frame (env := env) hc hop
      refine ⟨c', h1, fun ha => ?_⟩
      obtain ⟨a, m, g1, g2, g3, g4⟩ := ht (h4 ha)
      refine ⟨a, m ++ [op], by rw [g1]; simp, ?_, g3, ?_⟩
      · intro hm
        rcases List.mem_append.1 hm with hm | hm
        · exact g2 hm
        · rw [List.mem_singleton] at hm
          exact hop hm.symm
      · have hle : (published env (pre ++ .connect :: a)).length ≤ (published env (pre ++ .connect :: mid)).length := by
          have : pre ++ ServerOp.connect :: mid = (pre ++ ServerOp.connect :: a) ++ m := by rw [g1]; simp
          rw [this, published_append _ (pre ++ ServerOp.connect :: a), List.length_append]
          omega
        refine ⟨by rw [h2]; exact g4.my, g4.le, ?_, ?_⟩
        · rw [h3, List.take_append_of_le_length hle]
          exact g4.all
        · rw [h3]
          intro x hx
          rw [List.drop_append_of_le_length (by have := g4.le; omega)]
          exact List.mem_append_left _ (g4.only x hx)

/-! ## the reasoner of the server -/

theorem Derivable.mono {env : Env} {ops more : List NarOp} {s : Sentence} (h : Derivable env ops s) :
    Derivable env (ops ++ more) s := by
  induction h with
  | told h1 h2 h3 id => exact .told (show ops ++ more = _ ++ _ :: (_ ++ more) by rw [h1]; simp; rfl) h2 h3 id
  | pool _ _ h3 h4 h5 ih1 ih2 => exact .pool ih1 ih2 h3 h4 h5
  | two _ _ h3 ih1 ih2 => exact .two ih1 ih2 h3
  | alone _ h2 ih => exact .alone ih h2
  | used u _ ih => exact .used u ih

theorem Legitimate.mono {env : Env} {ls ls' : List (List Char)} {nops more : List NarOp} {p : Post}
    (h : Legitimate env ls nops p) (hl : ∀ l ∈ ls, l ∈ ls') : Legitimate env ls' (nops ++ more) p := by
  rcases h with ⟨c, h1, h2⟩ | ⟨r, l, d, r', q, out, m, h1, h2⟩
  · exact .inl ⟨c, h1.mono, h2⟩
  · exact .inr ⟨r, l, d, r', q, out, m, hl l h1, h2⟩

theorem FromClients.mono {ls ls' : List (List Char)} {op : NarOp} (h : FromClients ls op) (hl : ∀ l ∈ ls, l ∈ ls') :
    FromClients ls' op := by
  cases op <;> first | exact hl _ h | exact h

theorem receivedLines_append (a b : List ServerOp) : receivedLines (a ++ b) = receivedLines a ++ receivedLines b := by
  induction a with
  | nil => rfl
  | cons op ops ih => cases op <;> simp [receivedLines, ih]

/-- the reasoner of the server has a history as a reasoner -/
structure Refines (env : Env) (ls : List (List Char)) (H : List Post) (s : Server) (nops : List NarOp) : Prop where
  run : runNar env nops = .ok s.nar
  ops : ∀ op ∈ nops.tail, FromClients ls op
  head : nops.head? = some (.handlers 1)
  chan : ∀ l ∈ s.chan, l ∈ ls
  posts : ∀ p ∈ H ++ s.todo ++ s.todoWorker, Legitimate env ls nops p

theorem runNar_snoc (env : Env) (ops : List NarOp) (op : NarOp) :
    runNar env (ops ++ [op]) = (runNar env ops).bind (fun r => op.run env r) := by
  unfold runNar moreNar
  rw [List.foldlM_append]
  cases List.foldlM (NarOp.run env) createNar ops with
  | error e => rfl
  | ok r =>
    simp only [bind, Except.bind, List.foldlM_cons, List.foldlM_nil, pure, Except.pure]
    cases op.run env r <;> rfl

theorem tail_snoc {α : Type} {l : List α} {x a : α} (h : l.head? = some a) : (l ++ [x]).tail = l.tail ++ [x] := by
  cases l with
  | nil => cases h
  | cons y ys => rfl

theorem mapM_mem {α β : Type} {f : α → R β} : ∀ {l : List α} {ys : List β}, l.mapM f = .ok ys → ∀ {y : β}, y ∈ ys →
    ∃ x ∈ l, f x = .ok y := by
  intro l
  induction l with
  | nil => intro ys h y hy; cases h; cases hy
  | cons a l ih =>
    intro ys h y hy
    rw [List.mapM_cons] at h
    obtain ⟨b, hb, h⟩ := R.bind_ok.1 h
    obtain ⟨bs, hbs, h⟩ := R.bind_ok.1 h
    cases h
    rcases List.mem_cons.1 hy with rfl | hy
    · exact ⟨a, List.mem_cons_self .., hb⟩
    · obtain ⟨x, hx, hf⟩ := ih hbs hy
      exact ⟨x, List.mem_cons_of_mem _ hx, hf⟩

theorem newAnswers_legit {env : Env} {r r' : Reasoner} {posts : List Post} {nops : List NarOp} {ls : List (List Char)}
    (h : newAnswers env r r' = .ok posts) (hr : runNar env nops = .ok r') (hl : NarOp.link ∉ nops) : ∀ p ∈ posts, Legitimate env ls nops p := by
  intro p hp
  obtain ⟨c, hc, ht⟩ := mapM_mem h hp
  rcases (runNar_derivable hr).answers c (List.mem_of_mem_drop hc) with h | ⟨h, _⟩
  · exact .inl ⟨c, h, ht⟩
  · exact absurd ((runNar_linked hr).1 h) hl

theorem Refines.noLink {env : Env} {ls : List (List Char)} {H : List Post} {s : Server} {nops : List NarOp}
    (h : Refines env ls H s nops) : NarOp.link ∉ nops := by
  intro hm
  cases nops with
  | nil => cases hm
  | cons a l =>
    have ha := h.head
    simp only [List.head?_cons, Option.some.injEq] at ha
    subst ha
    rcases List.mem_cons.1 hm with hm | hm
    · cases hm
    · exact h.ops _ hm

/-- more of the history -/
theorem Refines.step {env : Env} {ls ls' : List (List Char)} {H : List Post} {s s' : Server} {nops : List NarOp}
    (h : Refines env ls H s nops) (op : NarOp) (hop : FromClients ls' op) (hl : ∀ l ∈ ls, l ∈ ls')
    (hr : op.run env s.nar = .ok s'.nar) (hc : ∀ l ∈ s'.chan, l ∈ ls')
    (hp : ∀ p ∈ H ++ s'.todo ++ s'.todoWorker, p ∈ H ++ s.todo ++ s.todoWorker ∨ Legitimate env ls' (nops ++ [op]) p) :
    Refines env ls' H s' (nops ++ [op]) where
  run := by rw [runNar_snoc, h.run]; exact hr
  ops := by
    rw [tail_snoc h.head]
    intro o ho
    rcases List.mem_append.1 ho with ho | ho
    · exact (h.ops o ho).mono hl
    · rw [List.mem_singleton] at ho; subst ho; exact hop
  head := by rw [List.head?_append, h.head]; rfl
  chan := hc
  posts := fun p hp' => (hp p hp').elim (fun k => (h.posts p k).mono hl) id

theorem Refines.same {env : Env} {ls ls' : List (List Char)} {H H' : List Post} {s s' : Server} {nops : List NarOp}
    (h : Refines env ls H s nops) (hl : ∀ l ∈ ls, l ∈ ls') (hr : s'.nar = s.nar) (hc : ∀ l ∈ s'.chan, l ∈ ls')
    (hp : ∀ p ∈ H' ++ s'.todo ++ s'.todoWorker, p ∈ H ++ s.todo ++ s.todoWorker) : Refines env ls' H' s' nops where
  run := by rw [hr]; exact h.run
  ops := fun o ho => (h.ops o ho).mono hl
  head := h.head
  chan := hc
  posts := fun p hp' => by simpa using (h.posts p (hp p hp')).mono (more := []) hl

theorem postedBy_text (s : Server) (op : ServerOp) : (postedBy s op).map Post.text = publishedBy s op := by
  cases op <;> rfl

theorem ServerOp.run_refines {env : Env} {ls : List (List Char)} {H : List Post} {s : Server} {nops : List NarOp}
    (h : Refines env ls H s nops) (op : ServerOp) :
    ∃ more, Refines env (ls ++ receivedLines [op]) (H ++ postedBy s op) (op.run env s) (nops ++ more) := by
  have hl : ∀ l ∈ ls, l ∈ ls ++ receivedLines [op] := fun l hl => List.mem_append_left _ hl
  have keep : ∀ s' : Server, s'.nar = s.nar → s'.chan = s.chan → s'.todo = s.todo → s'.todoWorker = s.todoWorker →
      postedBy s op = [] → ∃ more, Refines env (ls ++ receivedLines [op]) (H ++ postedBy s op) s' (nops ++ more) := by
    intro s' h1 h2 h3 h4 h5
    refine ⟨[], ?_⟩
    rw [List.append_nil, h5, List.append_nil]
    exact h.same hl h1 (by rw [h2]; exact fun l hc => hl l (h.chan l hc)) (by rw [h3, h4]; exact fun p hp => hp)
  cases op with
  | connect => exact keep _ rfl rfl rfl rfl rfl
  | receive i line =>
    simp only [ServerOp.run]
    unfold Nar.receive
    split
    · exact keep _ rfl rfl rfl rfl rfl
    · split
      · split
        · refine ⟨[], ?_⟩
          simp only [List.append_nil, postedBy]
          refine h.same hl rfl ?_ (fun p hp => hp)
          intro l hc
          rcases List.mem_append.1 hc with hc | hc
          · exact hl l (h.chan l hc)
          · exact List.mem_append_right _ (by simpa [receivedLines] using hc)
        · exact keep _ rfl rfl rfl rfl rfl
      · exact keep _ rfl rfl rfl rfl rfl
  | poll i =>
    simp only [ServerOp.run]
    unfold Nar.poll
    split
    · exact keep _ rfl rfl rfl rfl rfl
    · split <;> exact keep _ rfl rfl rfl rfl rfl
  | think d =>
    simp only [ServerOp.run]
    unfold Nar.think
    split
    · rename_i hcond
      split
      · exact keep _ rfl rfl rfl rfl rfl
      · rename_i l rest hch
        have hrest : ∀ x ∈ rest, x ∈ ls ++ receivedLines [ServerOp.think d] :=
          fun x hx => hl x (h.chan x (by rw [hch]; exact List.mem_cons_of_mem _ hx))
        have dead : ∃ more, Refines env (ls ++ receivedLines [.think d]) (H ++ postedBy s (.think d))
            { s with narAlive := false, chan := rest } (nops ++ more) := by
          refine ⟨[], ?_⟩
          simp only [List.append_nil, postedBy]
          exact h.same hl rfl hrest (fun p hp => hp)
        split
        · exact dead
        · rename_i r q lines hin
          split
          · exact dead
          · rename_i answers han
            have hlm : l ∈ ls := h.chan l (by rw [hch]; exact List.mem_cons_self ..)
            refine ⟨[.line l d], ?_⟩
            simp only [postedBy, List.append_nil]
            have hrun : (NarOp.line l d).run env s.nar = .ok r := by
              show (input env s.nar l d).map _ = _
              rw [hin]; rfl
            refine h.step (.line l d) (hl l hlm) hl hrun hrest ?_
            intro p hp
            simp only [List.mem_append, List.mem_map] at hp
            rcases hp with (hp | hp | ⟨m, hm, rfl⟩) | hp
            · left; simp [hp]
            · right
              refine newAnswers_legit han ?_ (by simp [h.noLink]) p hp
              rw [runNar_snoc, h.run]; exact hrun
            · right
              exact .inr ⟨_, l, d, _, _, _, m, hl l hlm, hin, hm, rfl⟩
            · left; simp [hp]
    · exact keep _ rfl rfl rfl rfl rfl
  | publish =>
    simp only [ServerOp.run]
    unfold Nar.publish
    cases ht : s.todo with
    | nil =>
      refine ⟨[], ?_⟩
      rw [List.append_nil, postedBy, ht]
      simpa using h.same hl rfl (fun l hc => hl l (h.chan l hc)) (fun p hp => hp)
    | cons p ps =>
      refine ⟨[], ?_⟩
      rw [List.append_nil, postedBy, ht]
      refine h.same hl rfl (fun l hc => hl l (h.chan l hc)) ?_
      intro x hx
      rw [ht]
      simpa [or_assoc] using hx
  | declWork =>
    simp only [ServerOp.run]
    unfold serverDeclWork
    split
    · rename_i htw
      split
      · refine ⟨[.workerLost], ?_⟩
        simp only [postedBy, List.append_nil]
        exact h.step .workerLost trivial hl rfl (fun l hc => hl l (h.chan l hc)) (fun p hp => .inl hp)
      · rename_i answers han
        refine ⟨[.declWork], ?_⟩
        simp only [postedBy, List.append_nil]
        refine h.step .declWork trivial hl rfl (fun l hc => hl l (h.chan l hc)) ?_
        intro p hp
        simp only [List.mem_append] at hp
        rcases hp with (hp | hp) | hp
        · left; simp [hp]
        · left; simp [hp]
        · right
          refine newAnswers_legit han ?_ (by simp [h.noLink]) p hp
          rw [runNar_snoc, h.run]; rfl
    · exact keep _ rfl rfl rfl rfl rfl
  | publishWorker =>
    simp only [ServerOp.run]
    unfold Nar.publishWorker
    cases ht : s.todoWorker with
    | nil =>
      refine ⟨[], ?_⟩
      rw [List.append_nil, postedBy, ht]
      simpa using h.same hl rfl (fun l hc => hl l (h.chan l hc)) (fun p hp => hp)
    | cons p ps =>
      refine ⟨[], ?_⟩
      rw [List.append_nil, postedBy, ht]
      refine h.same hl rfl (fun l hc => hl l (h.chan l hc)) ?_
      intro x hx
      rw [ht]
      simp only [List.mem_append, List.mem_cons, List.take_succ_cons, List.take_zero, List.not_mem_nil, or_false] at hx ⊢
      tauto
  | procWork rng =>
    refine ⟨[.procWork rng], ?_⟩
    simp only [postedBy, List.append_nil]
    exact h.step (.procWork rng) trivial hl rfl (fun l hc => hl l (h.chan l hc)) (fun p hp => .inl hp)

theorem runServer_refines (env : Env) (ops : List ServerOp) : ∃ H nops, H.map Post.text = published env ops ∧
    Refines env (receivedLines ops) H (runServer env ops) nops := by
  induction ops using List.reverseRecOn with
  | nil =>
    refine ⟨[], [.handlers 1], rfl, ⟨rfl, fun o ho => (by cases ho), rfl, fun l hl => (by cases hl), fun p hp => ?_⟩⟩
    change p ∈ ([] : List Post) at hp
    cases hp
  | append_singleton ops op ih =>
    obtain ⟨H, nops, h1, h2⟩ := ih
    obtain ⟨more, h3⟩ := ServerOp.run_refines h2 op
    refine ⟨H ++ postedBy (runServer env ops) op, nops ++ more, ?_, ?_⟩
    · rw [List.map_append, postedBy_text, h1, published_snoc]
    · rw [runServer_snoc, receivedLines_append]
      exact h3

end Nar
