import Verif.Lemmas.Asking2
import Verif.Props.Turns
/-! # C130: what is asked about is thought about first -/
namespace Nar.Props
open Nar Term

/-- However often and however long questions are open: the credit they give a waiting statement is bounded by what the statement has in common
with them, divided by its complexity less one. In particular a statement with nothing in common has none. -/
theorem C130_question_credit_bounded (env : Env) (ops : List NarOp) (r : Reasoner) (h : runNar env ops = .ok r)
    (i : Nat) (hi : i ∈ r.sh.judgementTasks) (t : Task) (ht : r.sh.heap[i]? = some t) (hc : 2 ≤ calcComplexity t.sentence.term) :
    0 ≤ t.qaCredit ∧ t.qaCredit ≤ askedIn r.sh.questionTasks t.sentence.term / ((calcComplexity t.sentence.term : Rat) - 1) := by
  have hc' : (2 : Rat) ≤ calcComplexity t.sentence.term := by exact_mod_cast hc
  refine ⟨((runNar_credit h).1 t (List.mem_of_getElem? ht)).2.1, ?_⟩
  rw [le_div_iff₀ (by linarith)]
  exact (runNar_asked h).bound i hi t ht

/-- What does hold: if the questions have at least two and a half places in common with a waiting statement `u` for each unit of its complexity, no statement which has nothing in common with them, is not younger and has no greater factor is taken before.
Missing: that it is enough to have asked once. -/
theorem C130_asked_about_first_partial (env : Env) (ops : List NarOp) (r r' : Reasoner) (v : Rat) (m : Msg) (h : runNar env ops = .ok r)
    (hd : ∀ d, 0 < env.decay d) (hanti : ∀ d e, d ≤ e → env.decay e ≤ env.decay d)
    (hc : cycle env r v = .ok r') (hm : r'.queue = r.queue ++ [m]) (t u : Task) (ht : r.sh.heap[m.primary]? = some t)
    (i : Nat) (hi : i ∈ r.sh.judgementTasks) (hu : r.sh.heap[i]? = some u)
    (hmuch : 5 * calcComplexity u.sentence.term ≤ 2 * askedIn r.sh.questionTasks u.sentence.term)
    (hage : t.derivTime ≤ u.derivTime) (hmul : t.mulCredit ≤ u.mulCredit) (hpos : 0 < u.mulCredit)
    (hct : 2 ≤ calcComplexity t.sentence.term) : askedIn r.sh.questionTasks t.sentence.term ≠ 0 := by
  intro hno
  obtain ⟨hmem, t', ht', hbest⟩ := C128_reasoner_taken_has_most env ops r r' v m h (fun d => (hd d).le) hc hm
  obtain ⟨t1, a1, _, a3, a4, a5, a6⟩ := C128_reasoner_questions_attract env ops r r' v h hc _ hmem t ht
  rw [a1] at ht'; cases ht'
  obtain ⟨u1, b1, _, b3, b4, b5, b6⟩ := C128_reasoner_questions_attract env ops r r' v h hc _ hi u hu
  have hle := hbest i hi u1 b1
  obtain ⟨ht0, k, hk, hkc⟩ := runNar_aged h _ hmem t ht
  obtain ⟨hu0, l, hl, hlc⟩ := runNar_aged h _ hi u hu
  obtain ⟨q1, q2⟩ := C130_question_credit_bounded env ops r h _ hmem t ht hct
  have hq0 : t.qaCredit = 0 := le_antisymm (by rw [hno] at q2; simpa using q2) q1
  have hqu : 0 ≤ u.qaCredit := ((runNar_credit h).1 u (List.mem_of_getElem? hu)).2.1
  have hmt : 0 ≤ t.mulCredit := ((runNar_credit h).1 t (List.mem_of_getElem? ht)).2.2
  have hcu : (0 : Rat) < calcComplexity u.sentence.term := by exact_mod_cast Nat.pos_of_ne_zero hu0
  have e1 : t'.credit = ownCredit (calcComplexity t.sentence.term) (k + 1) := by rw [a5, hkc]; rfl
  have e2 : u1.credit = ownCredit (calcComplexity u.sentence.term) (l + 1) := by rw [b5, hlc]; rfl
  have e3 : t'.qaCredit = 0 := by
    have : ((r.sh.questionTasks.map fun q => inCommon q.sentence.term t.sentence.term).sum : Nat) = 0 := hno
    rw [a6, hq0, this]; simp
  have e4 : 5/2 ≤ u1.qaCredit := by
    rw [b6, le_div_iff₀ hcu]
    have h2 : (5 : Rat) * calcComplexity u.sentence.term ≤
        2 * ((r.sh.questionTasks.map fun q => inCommon q.sentence.term u.sentence.term).sum : Nat) := by exact_mod_cast hmuch
    linarith
  have hown : ownCredit (calcComplexity t.sentence.term) (k + 1) ≤ 1/2 :=
    (ownCredit_le hct _).trans (one_div_le_one_div_of_le (by norm_num) (by exact_mod_cast hct))
  have hpu := ownCredit_pos (Nat.pos_of_ne_zero hu0) (l + 1)
  have hpt := ownCredit_pos (Nat.pos_of_ne_zero ht0) (k + 1)
  have hdec := hanti (r'.sh.cycleCounter - u.derivTime) (r'.sh.cycleCounter - t.derivTime) (by omega)
  have hd1 := hd (r'.sh.cycleCounter - u.derivTime)
  unfold creditAt at hle
  rw [e1, e2, e3, a3, a4, b3, b4] at hle
  simp only [zero_div, add_zero] at hle
  have s1 : ownCredit (calcComplexity t.sentence.term) (k + 1) * env.decay (r'.sh.cycleCounter - t.derivTime) * t.mulCredit ≤
      ownCredit (calcComplexity t.sentence.term) (k + 1) * env.decay (r'.sh.cycleCounter - u.derivTime) * u.mulCredit :=
    mul_le_mul (mul_le_mul_of_nonneg_left hdec hpt.le) hmul hmt (mul_pos hpt hd1).le
  have s2 : ownCredit (calcComplexity t.sentence.term) (k + 1) * env.decay (r'.sh.cycleCounter - u.derivTime) * u.mulCredit <
      (ownCredit (calcComplexity u.sentence.term) (l + 1) + u1.qaCredit / 5) * env.decay (r'.sh.cycleCounter - u.derivTime) * u.mulCredit :=
    mul_lt_mul_of_pos_right (mul_lt_mul_of_pos_right (by linarith) hd1) hpos
  exact absurd (lt_of_le_of_lt (le_trans hle s1) s2) (lt_irrefl _)

/-- The violation: something simple was told just before the cycle, with whatever questions open. Then no statement is taken which has not
much in common with the questions for its complexity, even if it is just what was asked. -/
theorem C130_small_talk_wins (env : Env) (ops : List NarOp) (r r1 r' : Reasoner) (s : Term) (tv : Tv) (rng : List Nat) (v : Rat) (m : Msg)
    (h : runNar env ops = .ok r) (hs : inputT2 env r s .JUGEMENT tv false rng = .ok r1) (hn : ¬ IsTemporal s)
    (hx : calcComplexity s ≤ 3) (hd : ∀ d, 0 < env.decay d) (hanti : ∀ d e, d ≤ e → env.decay e ≤ env.decay d)
    (hc : cycle env r1 v = .ok r') (hm : r'.queue = r1.queue ++ [m])
    (t : Task) (ht : r1.sh.heap[m.primary]? = some t) :
    calcComplexity t.sentence.term < 15 ∨ calcComplexity t.sentence.term < askedIn r1.sh.questionTasks t.sentence.term := by
  by_contra hno
  push Not at hno
  obtain ⟨h15, hK⟩ := hno
  obtain ⟨i, hi, u, hu, f1, f2, f3⟩ := told_waits h hs hn (by omega)
  have h1 : runNar env (ops ++ [.tell s .JUGEMENT tv false rng]) = .ok r1 := moreNar_append.2 ⟨r, h, foldlM_cons_ok.2 ⟨r1, hs, rfl⟩⟩
  obtain ⟨hmem, t', ht', hbest⟩ := C128_reasoner_taken_has_most env _ r1 r' v m h1 (fun d => (hd d).le) hc hm
  obtain ⟨t1, a1, _, a3, a4, a5, a6⟩ := C128_reasoner_questions_attract env _ r1 r' v h1 hc _ hmem t ht
  rw [a1] at ht'; cases ht'
  obtain ⟨u1, b1, _, b3, b4, b5, b6⟩ := C128_reasoner_questions_attract env _ r1 r' v h1 hc _ hi u hu
  have hle := hbest i hi u1 b1
  obtain ⟨ht0, k, hk, hkc⟩ := runNar_aged h1 _ hmem t ht
  obtain ⟨hu0, l, hl, hlc⟩ := runNar_aged h1 _ hi u hu
  have hl0 : l = 0 := by omega
  subst hl0
  have hb := (runNar_asked h1).bound _ hmem t ht
  have hqu : 0 ≤ u.qaCredit := ((runNar_credit h1).1 u (List.mem_of_getElem? hu)).2.1
  have hmt : 0 ≤ t.mulCredit := ((runNar_credit h1).1 t (List.mem_of_getElem? ht)).2.2
  have hmt1 : t.mulCredit ≤ 1 := runNar_mul h1 t (List.mem_of_getElem? ht)
  have e1 : t'.credit = ownCredit (calcComplexity t.sentence.term) (k + 1) := by rw [a5, hkc]; rfl
  have hc15 : (15 : Rat) ≤ calcComplexity t.sentence.term := by exact_mod_cast h15
  have hKc : (askedIn r1.sh.questionTasks t.sentence.term : Rat) ≤ calcComplexity t.sentence.term := by exact_mod_cast hK
  have hown : ownCredit (calcComplexity t.sentence.term) (k + 1) ≤ 17/450 := by
    refine (ownCredit_older (c := calcComplexity t.sentence.term) (by omega) (Nat.succ_le_succ (Nat.zero_le k))).trans ?_
    show (1 / (calcComplexity t.sentence.term : Rat) + 1/2) / calcComplexity t.sentence.term ≤ 17/450
    have : 1 / (calcComplexity t.sentence.term : Rat) ≤ 1/15 := one_div_le_one_div_of_le (by norm_num) hc15
    rw [div_le_iff₀ (by linarith)]
    linarith
  have hqa : t'.qaCredit ≤ 15/14 := by
    have e : t'.qaCredit = (t.qaCredit + askedIn r1.sh.questionTasks t.sentence.term) / calcComplexity t.sentence.term := a6
    rw [e, div_le_iff₀ (by linarith)]
    have : t.qaCredit ≤ 15/14 := by
      by_contra hgt
      rw [not_le] at hgt
      nlinarith
    nlinarith
  have hu1 : 5/18 ≤ u1.credit := by
    rw [b5, hlc, f1]
    have hc1 : calcComplexity s ≠ 0 := by rw [f1] at hu0; exact hu0
    have hcs : calcComplexity s = 1 ∨ calcComplexity s = 2 ∨ calcComplexity s = 3 := by omega
    rcases hcs with e | e | e <;> rw [e] <;> norm_num [ownCredit]
  have hqu1 : 0 ≤ u1.qaCredit := by
    rw [b6]
    exact div_nonneg (add_nonneg hqu (Nat.cast_nonneg _)) (Nat.cast_nonneg _)
  have hpt := ownCredit_pos (Nat.pos_of_ne_zero ht0) (k + 1)
  have hdec := hanti (r'.sh.cycleCounter - u.derivTime) (r'.sh.cycleCounter - t.derivTime) (by omega)
  have hd1 := hd (r'.sh.cycleCounter - u.derivTime)
  have hd2 := hd (r'.sh.cycleCounter - t.derivTime)
  unfold creditAt at hle
  rw [a3, a4, b3, b4, f3, mul_one, e1] at hle
  have s1 : (ownCredit (calcComplexity t.sentence.term) (k + 1) + t'.qaCredit / 5) * env.decay (r'.sh.cycleCounter - t.derivTime) * t.mulCredit ≤
      (227/900) * env.decay (r'.sh.cycleCounter - u.derivTime) := by
    have g1 : (ownCredit (calcComplexity t.sentence.term) (k + 1) + t'.qaCredit / 5) * env.decay (r'.sh.cycleCounter - t.derivTime) ≤
        (227/900) * env.decay (r'.sh.cycleCounter - u.derivTime) := by
      have g0 : ownCredit (calcComplexity t.sentence.term) (k + 1) + t'.qaCredit / 5 ≤ 227/900 := by linarith
      exact (mul_le_mul_of_nonneg_right g0 hd2.le).trans (mul_le_mul_of_nonneg_left hdec (by norm_num))
    have g2 : 0 ≤ (227/900) * env.decay (r'.sh.cycleCounter - u.derivTime) := by positivity
    exact (mul_le_mul_of_nonneg_right g1 hmt).trans (mul_le_of_le_one_right g2 hmt1)
  have s2 : (5/18) * env.decay (r'.sh.cycleCounter - u.derivTime) ≤ (u1.credit + u1.qaCredit / 5) * env.decay (r'.sh.cycleCounter - u.derivTime) :=
    mul_le_mul_of_nonneg_right (by linarith) hd1.le
  linarith

/-- The violation, at any length: a long statement without repetitions is told and asked, and then the talk goes on with short statements, for as long
as you like. All this works; and each time what is taken is not what was asked. -/
theorem C130_asked_in_vain (env : Env) (hd : ∀ d, 0 < env.decay d) (hanti : ∀ d e, d ≤ e → env.decay e ≤ env.decay d)
    (c : Term) (tv : Tv) (hc : SafeInput c .JUGEMENT tv false) (hlong : 15 ≤ calcComplexity c) (hx : calcComplexity c ≤ 64)
    (hrep : inCommon c c ≤ calcComplexity c) (l : List Round) (x : Round)
    (hl : ∀ y ∈ l ++ [x], SafeInput y.said .JUGEMENT y.tv false ∧ calcComplexity y.said ≤ 3) :
    ∃ r r' m t, runNar env (.tell c .JUGEMENT tv false [] :: .tell c .QUESTION ⟨1, 1/2⟩ true [] :: talk l ++ [x.say]) = .ok r ∧
      cycle env r x.draw = .ok r' ∧ r'.queue = r.queue ++ [m] ∧ r.sh.heap[m.primary]? = some t ∧ t.sentence.term ≠ c := by
  have hkind : ∀ op ∈ talk l, SafeUse env op ∧ Calm op := by
    intro op hop
    obtain ⟨y, hy, hop⟩ := List.mem_flatMap.1 hop
    have hs := (hl y (List.mem_append_left _ hy)).1
    rcases List.mem_cons.1 hop with rfl | hop
    · exact ⟨hs, y.said, y.tv, Or.inl rfl⟩
    · rcases List.mem_cons.1 hop with rfl | hop
      · exact ⟨trivial, y.said, y.tv, Or.inr (Or.inl ⟨_, rfl⟩)⟩
      · obtain ⟨_, rfl⟩ := List.mem_replicate.1 hop
        exact ⟨trivial, y.said, y.tv, Or.inr (Or.inr rfl)⟩
  obtain ⟨hxs, hxc⟩ := hl x (by simp)
  have hcq : SafeInput c .QUESTION ⟨1, 1/2⟩ true := ⟨hc.1, (fun h => by cases h), (fun h => by cases h)⟩
  obtain ⟨r2, hr2, _⟩ := C58_declarative_use_never_crashes env
    (([NarOp.tell c .JUGEMENT tv false [], .tell c .QUESTION ⟨1, 1/2⟩ true []] ++ talk l ++ [x.say]) ++ [.cycle x.draw]) (by
      intro op hop
      rcases List.mem_append.1 hop with hop | hop
      · rcases List.mem_append.1 hop with hop | hop
        · rcases List.mem_append.1 hop with hop | hop
          · rcases List.mem_cons.1 hop with rfl | hop
            · exact hc
            · rw [List.mem_singleton.1 hop]; exact hcq
          · exact (hkind op hop).1
        · rw [List.mem_singleton.1 hop]; exact hxs
      · rw [List.mem_singleton.1 hop]; trivial)
  obtain ⟨r1, hr1, hcy⟩ := moreNar_append.1 hr2
  obtain ⟨r0, hr0, hsay⟩ := moreNar_append.1 hr1
  obtain ⟨rb, hrb, htalk⟩ := moreNar_append.1 hr0
  obtain ⟨ra, hra, hask⟩ := foldlM_cons_ok.1 hrb
  obtain ⟨_, hask, hb⟩ := foldlM_cons_ok.1 hask
  cases hb
  obtain ⟨_, hcy, hb⟩ := foldlM_cons_ok.1 hcy
  cases hb
  obtain ⟨_, hsay, hb⟩ := foldlM_cons_ok.1 hsay
  cases hb
  have q0 : OnlyAsked [] createNar.sh := ⟨rfl, createNar_quiet.1.2⟩
  have qa : OnlyAsked [] ra.sh := inputT2_only hra q0
  have hra' : runNar env [.tell c .JUGEMENT tv false []] = .ok ra := foldlM_cons_ok.2 ⟨ra, hra, rfl⟩
  have qb : OnlyAsked [c] rb.sh := inputT2_asked hra' hx hask qa
  have q1 : OnlyAsked [c] r0.sh := moreNar_calm_only htalk (fun op hop => (hkind op hop).2) qb
  have q2 : OnlyAsked [c] r1.sh := inputT2_only hsay q1
  have hnt := (hxs.2.1 rfl rfl).1
  obtain ⟨i, hi, _⟩ := told_waits hr0 hsay hnt (by omega)
  obtain ⟨m, hm⟩ := (C128_reasoner_takes_one env _ r1 r2 x.draw hr1 hcy).1 (List.ne_nil_of_mem hi)
  obtain ⟨hmem, _⟩ := C128_reasoner_taken_has_most env _ r1 r2 x.draw m hr1 (fun d => (hd d).le) hcy hm
  obtain ⟨t, ht⟩ : ∃ t, r1.sh.heap[m.primary]? = some t :=
    ⟨_, List.getElem?_eq_getElem ((runNar_WDecl hr1).inv.valid _ hmem)⟩
  refine ⟨r1, r2, m, t, hr1, hcy, hm, ht, fun he => ?_⟩
  have := C130_small_talk_wins env _ r0 r1 r2 x.said x.tv [] x.draw m hr0 hsay hnt hxc hd hanti hcy hm t ht
  rw [he, askedIn_eq, q2.1] at this
  simp only [List.map_cons, List.map_nil, List.sum_cons, List.sum_nil, add_zero] at this
  omega

/-! ## Concrete cases -/

/-- a long statement -/
def long2 : Term := .Stmt .IMPL (.Stmt .IMPL (.Stmt .INH (.Name "a") (.Name "b")) (.Stmt .INH (.Name "c") (.Name "d")))
  (.Stmt .IMPL (.Stmt .INH (.Name "e") (.Name "f")) (.Stmt .INH (.Name "g") (.Name "h")))
/-- it is asked -/
def ask2 : NarOp := .tell long2 .QUESTION ⟨1, 9/10⟩ true []
/-- a short statement is told -/
def say2 (x y : String) : NarOp := .tell (.Stmt .INH (.Name x) (.Name y)) .JUGEMENT ⟨1, 9/10⟩ false []

/-- The long statement (0) is told, and asked, then a short one (1) is told. The question has fifteen places in common with the long statement and
none with the short one, both are of the same age and have the same factor; the cycle takes the short one. -/
theorem C130_asked_but_not_next :
    (runNar env0 [.tell long2 .JUGEMENT ⟨1, 9/10⟩ false [], ask2, say2 "x" "y"]).map (fun r => (r.sh.judgementTasks,
      r.sh.heap.map fun t => (askedIn r.sh.questionTasks t.sentence.term, t.derivTime, t.mulCredit))) = .ok ([0, 1], [(15, 0, 1), (0, 0, 1)]) ∧
    (runNar env0 [.tell long2 .JUGEMENT ⟨1, 9/10⟩ false [], ask2, say2 "x" "y", .cycle 0]).map (fun r => (r.sh.judgementTasks,
      r.queue.map (·.primary))) = .ok ([0], [1]) := by decide +kernel

/-- it stays so, although the credit from the question has grown to almost 15/14 -/
example : calcComplexity long2 = 15 ∧ (runNar env0 [.tell long2 .JUGEMENT ⟨1, 9/10⟩ false [], ask2, say2 "x" "y", .cycle 0, say2 "y" "z", .cycle 0,
    say2 "z" "u", .cycle 0, say2 "v" "w", .cycle 0]).map (fun r => (r.sh.judgementTasks, r.queue.map (·.primary), r.sh.heap.map (·.qaCredit))) =
    .ok ([0], [1, 2, 3, 4], [3616/3375, 0, 0, 0, 0]) := by decide +kernel
/-- asked three times it comes first -/
example : (runNar env0 [.tell long2 .JUGEMENT ⟨1, 9/10⟩ false [], ask2, ask2, ask2, say2 "x" "y"]).map (fun r => (r.sh.judgementTasks,
    r.sh.heap.map fun t => askedIn r.sh.questionTasks t.sentence.term)) = .ok ([0, 1], [45, 0]) := by decide +kernel
example : (runNar env0 [.tell long2 .JUGEMENT ⟨1, 9/10⟩ false [], ask2, ask2, ask2, say2 "x" "y", .cycle 0]).map (fun r => (r.sh.judgementTasks,
    r.queue.map (·.primary))) = .ok ([1], [0]) := by decide +kernel

/-- the same said again and again, at any length -/
theorem long2_safe : SafeInput long2 .JUGEMENT ⟨1, 9/10⟩ false :=
  ⟨⟨_, rfl⟩, fun _ _ => ⟨(by rintro ⟨a, b, h⟩; cases h), wf_stmt.2 ⟨wf_stmt.2 ⟨small_wf _ _ _, small_wf _ _ _⟩,
    wf_stmt.2 ⟨small_wf _ _ _, small_wf _ _ _⟩⟩, by decide +kernel⟩, by intro h; cases h⟩
example (n : Nat) : ∃ r r' m t, runNar env0 (.tell long2 .JUGEMENT ⟨1, 9/10⟩ false [] :: .tell long2 .QUESTION ⟨1, 1/2⟩ true [] ::
      talk (List.replicate n ⟨.Stmt .INH (.Name "x") (.Name "y"), ⟨1, 9/10⟩, 0, 1⟩) ++ [say2 "x" "y"]) = .ok r ∧
    cycle env0 r 0 = .ok r' ∧ r'.queue = r.queue ++ [m] ∧ r.sh.heap[m.primary]? = some t ∧ t.sentence.term ≠ long2 :=
  C130_asked_in_vain env0 (fun _ => one_pos) (fun _ _ _ => le_refl _) long2 ⟨1, 9/10⟩ long2_safe (by decide) (by decide) (by decide)
    (List.replicate n ⟨.Stmt .INH (.Name "x") (.Name "y"), ⟨1, 9/10⟩, 0, 1⟩) ⟨.Stmt .INH (.Name "x") (.Name "y"), ⟨1, 9/10⟩, 0, 1⟩ (by
      intro y hy
      have hy : y = ⟨.Stmt .INH (.Name "x") (.Name "y"), ⟨1, 9/10⟩, 0, 1⟩ := by
        rcases List.mem_append.1 hy with hy | hy
        · exact (List.mem_replicate.1 hy).2
        · exact List.mem_singleton.1 hy
      subst hy
      exact ⟨small_safe _ _, by decide⟩)

end Nar.Props
