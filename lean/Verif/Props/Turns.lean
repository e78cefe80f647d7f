import Verif.Lemmas.Turns2
import Verif.Lemmas.Turns3
import Verif.Spec.Turns
import Verif.Lemmas.Programs2
import Verif.Props.Attention2
import Verif.Props.Decl
/-! # C129: whose turn it is -/
namespace Nar.Props
open Nar Term

/-- When nothing was asked, no statement which is simpler and not older is passed over (unless it has a smaller factor). -/
theorem C129_younger_simpler_first (env : Env) (ops : List NarOp) (r r' : Reasoner) (v : Rat) (m : Msg) (h : runNar env ops = .ok r)
    (hd : ∀ d, 0 < env.decay d) (hanti : ∀ d e, d ≤ e → env.decay e ≤ env.decay d)
    (hq : r.sh.questionTasks = []) (hc : cycle env r v = .ok r') (hm : r'.queue = r.queue ++ [m])
    (t u : Task) (ht : r.sh.heap[m.primary]? = some t) (i : Nat) (hi : i ∈ r.sh.judgementTasks) (hu : r.sh.heap[i]? = some u)
    (hage : t.derivTime ≤ u.derivTime) (hmul : t.mulCredit ≤ u.mulCredit) (hpos : 0 < u.mulCredit) :
    calcComplexity t.sentence.term ≤ calcComplexity u.sentence.term := by
  obtain ⟨hmem, t', ht', hbest⟩ := C128_reasoner_taken_has_most env ops r r' v m h (fun d => (hd d).le) hc hm
  obtain ⟨t1, a1, _, a3, a4, a5, a6⟩ := C128_reasoner_questions_attract env ops r r' v h hc _ hmem t ht
  rw [a1] at ht'; cases ht'
  obtain ⟨u1, b1, _, b3, b4, b5, b6⟩ := C128_reasoner_questions_attract env ops r r' v h hc _ hi u hu
  have hle := hbest i hi u1 b1
  obtain ⟨ht0, k, hk, hkc⟩ := runNar_aged h _ hmem t ht
  obtain ⟨hu0, l, hl, hlc⟩ := runNar_aged h _ hi u hu
  have hqt := runNar_unasked h hq t (List.mem_of_getElem? ht)
  have hqu := runNar_unasked h hq u (List.mem_of_getElem? hu)
  have hlk : l ≤ k := by omega
  by_contra hlt
  rw [not_le] at hlt
  have hanti1 := ownCredit_anti (Nat.pos_of_ne_zero hu0) hlt (l + 1)
  have hold := ownCredit_older (c := calcComplexity t.sentence.term) (by omega) (Nat.succ_le_succ hlk)
  have hpos1 := ownCredit_pos (Nat.pos_of_ne_zero ht0) (k + 1)
  have e1 : t'.credit = ownCredit (calcComplexity t.sentence.term) (k + 1) := by rw [a5, hkc]; rfl
  have e2 : u1.credit = ownCredit (calcComplexity u.sentence.term) (l + 1) := by rw [b5, hlc]; rfl
  have e3 : t'.qaCredit = 0 := by rw [a6, hqt, hq]; simp
  have e4 : u1.qaCredit = 0 := by rw [b6, hqu, hq]; simp
  have hdec := hanti (r'.sh.cycleCounter - u.derivTime) (r'.sh.cycleCounter - t.derivTime) (by omega)
  have hd1 := hd (r'.sh.cycleCounter - u.derivTime)
  have hd2 := hd (r'.sh.cycleCounter - t.derivTime)
  have hmt : 0 ≤ t.mulCredit := ((runNar_credit h).1 t (List.mem_of_getElem? ht)).2.2
  unfold creditAt at hle
  rw [e1, e2, e3, e4, a3, a4, b3, b4] at hle
  simp only [zero_div, add_zero] at hle
  have s1 : ownCredit (calcComplexity t.sentence.term) (k + 1) * env.decay (r'.sh.cycleCounter - t.derivTime) * t.mulCredit ≤
      ownCredit (calcComplexity t.sentence.term) (k + 1) * env.decay (r'.sh.cycleCounter - u.derivTime) * u.mulCredit :=
    mul_le_mul (mul_le_mul_of_nonneg_left hdec hpos1.le) hmul hmt (mul_pos hpos1 hd1).le
  have s2 : ownCredit (calcComplexity t.sentence.term) (k + 1) * env.decay (r'.sh.cycleCounter - u.derivTime) * u.mulCredit <
      ownCredit (calcComplexity u.sentence.term) (l + 1) * env.decay (r'.sh.cycleCounter - u.derivTime) * u.mulCredit :=
    mul_lt_mul_of_pos_right (mul_lt_mul_of_pos_right (lt_of_le_of_lt hold hanti1) hd1) hpos
  exact absurd (lt_of_le_of_lt (le_trans hle s1) s2) (lt_irrefl _)

/-- When nothing was asked, the cycle after a statement was told takes nothing which is more complex than that statement. -/
theorem C129_just_told (env : Env) (ops : List NarOp) (r r1 r' : Reasoner) (s : Term) (tv : Tv) (rng : List Nat) (v : Rat) (m : Msg)
    (h : runNar env ops = .ok r) (hs : inputT2 env r s .JUGEMENT tv false rng = .ok r1) (hn : ¬ IsTemporal s)
    (hx : calcComplexity s ≤ 64) (hd : ∀ d, 0 < env.decay d) (hanti : ∀ d e, d ≤ e → env.decay e ≤ env.decay d)
    (hq : r1.sh.questionTasks = []) (hc : cycle env r1 v = .ok r') (hm : r'.queue = r1.queue ++ [m])
    (t : Task) (ht : r1.sh.heap[m.primary]? = some t) : calcComplexity t.sentence.term ≤ calcComplexity s := by
  obtain ⟨i, hi, u, hu, e1, e2, e3⟩ := told_waits h hs hn hx
  have h1 : runNar env (ops ++ [.tell s .JUGEMENT tv false rng]) = .ok r1 := by
    unfold runNar at h ⊢
    exact moreNar_append.2 ⟨r, h, by unfold moreNar; rw [List.foldlM_cons]; exact R.bind_ok.2 ⟨r1, hs, rfl⟩⟩
  have hmem := (C128_reasoner_taken_has_most env _ r1 r' v m h1 (fun d => (hd d).le) hc hm).1
  obtain ⟨_, k, hk, _⟩ := runNar_aged h1 _ hmem t ht
  have := C129_younger_simpler_first env _ r1 r' v m h1 hd hanti hq hc hm t u ht i hi hu (by omega)
    (by rw [e3]; exact runNar_mul h1 t (List.mem_of_getElem? ht)) (by rw [e3]; norm_num)
  rw [e1] at this
  exact this

/-- What does hold: left alone, each statement waiting has its turn within as many cycles as there are statements waiting, if in each 111th cycle
no more than thirty others wait and what each is worth to the reasoner is more than a thousandth even without questions.
Missing: that it has its turn whatever is said meanwhile, however many wait and however complex and old they are. -/
theorem C129_left_alone_partial (env : Env) (ops : List NarOp) (r r' : Reasoner) (vs : List Rat) (h : runNar env ops = .ok r)
    (hv : moreNar env r (vs.map .cycle) = .ok r') (hlen : r.sh.judgementTasks.length ≤ vs.length)
    (hfew : ∀ k : Nat, 0 < k → k ≤ vs.length → (r.sh.cycleCounter + k) % 111 = 0 → r.sh.judgementTasks.length ≤ 30 + k)
    (hworth : ∀ k : Nat, 0 < k → k ≤ vs.length → (r.sh.cycleCounter + k) % 111 = 0 → ∀ j ∈ r.sh.judgementTasks, ∀ t,
      r.sh.heap[j]? = some t →
      1/1000 < 1 / (2 * (calcComplexity t.sentence.term : Rat)) * env.decay (r.sh.cycleCounter + k - t.derivTime) * t.mulCredit)
    (i : Nat) (hi : i ∈ r.sh.judgementTasks) : ∃ m ∈ r'.queue, m.primary = i := by
  have keep : ∀ (vs : List Rat) (r : Reasoner), moreNar env r (vs.map .cycle) = .ok r' → ∀ m ∈ r.queue, m ∈ r'.queue := by
    intro vs
    induction vs with
    | nil => intro r hv m hm; cases hv; exact hm
    | cons v vs ih =>
      intro r hv m hm
      obtain ⟨r1, hc, hv⟩ := foldlM_cons_ok.1 hv
      obtain ⟨_, _, _, _, _, g3⟩ := cycle_parts hc
      exact ih r1 hv m (by rw [g3]; exact List.mem_append_left _ hm)
  induction vs generalizing ops r with
  | nil => rw [List.eq_nil_of_length_eq_zero (Nat.le_zero.1 hlen)] at hi; cases hi
  | cons v vs ih =>
    obtain ⟨r1, hc, hv⟩ := foldlM_cons_ok.1 hv
    have hr1 : runNar env (ops ++ [.cycle v]) = .ok r1 := moreNar_append.2 ⟨r, h, foldlM_cons_ok.2 ⟨r1, hc, rfl⟩⟩
    obtain ⟨sh, msg, calls, g1, g2, g3⟩ := cycle_parts hc
    obtain ⟨e1, e2, _, _, e5⟩ := look_fields r
    have hin := (runNar_WDecl h).inv
    have k3 := (reasonCycle_taken g1 (look_inv hin)).2.2.1
    rw [e5] at k3
    have hcc : r1.sh.cycleCounter = r.sh.cycleCounter + 1 := by rw [g2]; exact k3
    have hheap : r1.sh.heap = sh.heap := by rw [g2]
    have hjt : r1.sh.judgementTasks = sh.judgementTasks := by rw [g2]
    simp only [List.length_cons] at hlen hfew hworth
    have k5 := reasonCycle_keep g1 (look_inv hin) (by rw [e2, e5]; intro h0; exact hfew 1 one_pos (by omega) h0) (by
      rw [e2, e5]
      intro h0 j hj t ht
      have hlt := hin.valid j hj
      obtain ⟨t', a1, a2, a3, a4, a5, _⟩ := C128_reasoner_questions_attract env ops r r1 v h hc j hj _ (List.getElem?_eq_getElem hlt)
      rw [hheap, ht] at a1
      obtain rfl := Option.some.inj a1
      have hw := hworth 1 one_pos (by omega) h0 j hj _ (List.getElem?_eq_getElem hlt)
      have hmem : t ∈ r1.sh.heap := by rw [hheap]; exact List.mem_of_getElem? ht
      have hqa : 0 ≤ t.qaCredit := ((runNar_credit hr1).1 t hmem).2.1
      have hc0 : 0 ≤ (r.sh.heap[j]).credit := ((runNar_credit h).1 _ (List.getElem_mem hlt)).1
      refine lt_of_lt_of_le hw ?_
      show _ ≤ (t.qaCredit * (1/5) + t.credit) * env.decay (r.sh.cycleCounter + 1 - t.derivTime) * t.mulCredit
      rw [a3, a4, mul_assoc, mul_assoc]
      have hx : (0 : Rat) < 1 / (2 * (calcComplexity (r.sh.heap[j]).sentence.term : Rat)) *
          (env.decay (r.sh.cycleCounter + 1 - (r.sh.heap[j]).derivTime) * (r.sh.heap[j]).mulCredit) := by
        rw [← mul_assoc]
        exact lt_trans (by norm_num) hw
      have hd0 : 0 ≤ env.decay (r.sh.cycleCounter + 1 - (r.sh.heap[j]).derivTime) * (r.sh.heap[j]).mulCredit := by
        by_contra hneg
        rw [not_le] at hneg
        have : (0 : Rat) ≤ 1 / (2 * (calcComplexity (r.sh.heap[j]).sentence.term : Rat)) := by positivity
        nlinarith
      refine mul_le_mul_of_nonneg_right ?_ hd0
      rw [a5]
      have hcn : (0 : Rat) ≤ (calcComplexity (r.sh.heap[j]).sentence.term : Rat) := by positivity
      have : (1 : Rat) / (2 * (calcComplexity (r.sh.heap[j]).sentence.term : Rat)) = (1/2) / (calcComplexity (r.sh.heap[j]).sentence.term : Rat) := by
        rw [div_div]
      rw [this]
      have := div_le_div_of_nonneg_right (show (1/2 : Rat) ≤ (r.sh.heap[j]).credit + 1/2 by linarith) hcn
      linarith)
    rw [e2] at k5
    rcases k5 with k5 | ⟨m, rfl, hp⟩
    · rw [k5] at hi; cases hi
    · by_cases hmi : m.primary = i
      · exact ⟨m, keep vs r1 hv m (by rw [g3]; simp), hmi⟩
      · rw [← hjt] at hp
        have hlen' := hp.length_eq
        simp only [List.length_cons] at hlen'
        have shift : ∀ k : Nat, r1.sh.cycleCounter + (k : Int) = r.sh.cycleCounter + ((k + 1 : Nat) : Int) := by
          intro k; rw [hcc]; push_cast; ring
        refine ih (ops ++ [.cycle v]) r1 hr1 hv (by omega) ?_ ?_ ?_
        · intro k hk hk' h0
          rw [shift] at h0
          have := hfew (k + 1) (by omega) (by omega) h0
          omega
        · intro k hk hk' h0 j hj t ht
          rw [shift] at h0 ⊢
          have hj0 := hp.mem_iff.1 (List.mem_cons_of_mem _ hj)
          obtain ⟨t', a1, a2, a3, a4, _⟩ := C128_reasoner_questions_attract env ops r r1 v h hc j hj0 _
            (List.getElem?_eq_getElem (hin.valid j hj0))
          rw [ht] at a1
          obtain rfl := Option.some.inj a1
          rw [a2, a3, a4]
          exact hworth (k + 1) (by omega) (by omega) h0 j hj0 _ (List.getElem?_eq_getElem (hin.valid j hj0))
        · rcases List.mem_cons.1 (hp.mem_iff.2 hi) with e | e
          · exact absurd e.symm hmi
          · exact e

/-- So it is if all that waits was told and not concluded (a factor of one), as long as at a clean-up the decay is above 0.128 (in the
program this is so up to an age of 2055 cycles): however complex the statements, nothing is forgotten before its turn. -/
theorem C129_told_left_alone_partial (env : Env) (ops : List NarOp) (r r' : Reasoner) (vs : List Rat) (h : runNar env ops = .ok r)
    (hv : moreNar env r (vs.map .cycle) = .ok r') (hlen : r.sh.judgementTasks.length ≤ vs.length)
    (hfew : ∀ k : Nat, 0 < k → k ≤ vs.length → (r.sh.cycleCounter + k) % 111 = 0 → r.sh.judgementTasks.length ≤ 30 + k)
    (htold : ∀ j ∈ r.sh.judgementTasks, ∀ t, r.sh.heap[j]? = some t → t.mulCredit = 1 ∧
      ∀ k : Nat, k ≤ vs.length → 128/1000 < env.decay (r.sh.cycleCounter + k - t.derivTime))
    (i : Nat) (hi : i ∈ r.sh.judgementTasks) : ∃ m ∈ r'.queue, m.primary = i := by
  refine C129_left_alone_partial env ops r r' vs h hv hlen hfew ?_ i hi
  intro k _ hk _ j hj t ht
  obtain ⟨h1, h2⟩ := htold j hj t ht
  have hd := h2 k hk
  have hw := runNar_WDecl h
  have hc : (calcComplexity t.sentence.term : Int) ≤ 64 := by
    rw [← hw.complexity]; exact hw.inv.complexity t (List.mem_of_getElem? ht)
  have hc0 := (runNar_aged h j hj t ht).1
  have hc1 : (calcComplexity t.sentence.term : Rat) ≤ 64 := by exact_mod_cast hc
  have hc2 : (0 : Rat) < (calcComplexity t.sentence.term : Rat) := by exact_mod_cast Nat.pos_of_ne_zero hc0
  rw [h1, mul_one]
  have : (1 : Rat) / 128 ≤ 1 / (2 * (calcComplexity t.sentence.term : Rat)) :=
    one_div_le_one_div_of_le (by linarith) (by linarith)
  nlinarith

/-- The violation: a statement is told, and then the talk goes on with simpler ones, for as long as you like. All this works; and
each time what is taken is not the statement: it never has its turn. -/
theorem C129_never_its_turn (env : Env) (hd : ∀ d, 0 < env.decay d) (hanti : ∀ d e, d ≤ e → env.decay e ≤ env.decay d)
    (c : Term) (tv : Tv) (hc : SafeInput c .JUGEMENT tv false) (hx : calcComplexity c ≤ 64) (l : List Round) (x : Round)
    (hl : ∀ y ∈ l ++ [x], SafeInput y.said .JUGEMENT y.tv false ∧ calcComplexity y.said < calcComplexity c) :
    ∃ r r' m t, runNar env (.tell c .JUGEMENT tv false [] :: talk l ++ [x.say]) = .ok r ∧ cycle env r x.draw = .ok r' ∧
      r'.queue = r.queue ++ [m] ∧ r.sh.heap[m.primary]? = some t ∧ calcComplexity t.sentence.term ≤ calcComplexity x.said ∧
      t.sentence.term ≠ c := by
  have hkind : ∀ op ∈ NarOp.tell c .JUGEMENT tv false [] :: talk l, SafeUse env op ∧ Calm op := by
    intro op hop
    rcases List.mem_cons.1 hop with rfl | hop
    · exact ⟨hc, c, tv, Or.inl rfl⟩
    · obtain ⟨y, hy, hop⟩ := List.mem_flatMap.1 hop
      have hs := (hl y (List.mem_append_left _ hy)).1
      rcases List.mem_cons.1 hop with rfl | hop
      · exact ⟨hs, y.said, y.tv, Or.inl rfl⟩
      · rcases List.mem_cons.1 hop with rfl | hop
        · exact ⟨trivial, y.said, y.tv, Or.inr (Or.inl ⟨_, rfl⟩)⟩
        · obtain ⟨_, rfl⟩ := List.mem_replicate.1 hop
          exact ⟨trivial, y.said, y.tv, Or.inr (Or.inr rfl)⟩
  obtain ⟨hxs, hxc⟩ := hl x (by simp)
  obtain ⟨r2, hr2, _⟩ := C58_declarative_use_never_crashes env
    ((NarOp.tell c .JUGEMENT tv false [] :: talk l ++ [x.say]) ++ [.cycle x.draw]) (by
      intro op hop
      rcases List.mem_append.1 hop with hop | hop
      · rcases List.mem_append.1 hop with hop | hop
        · exact (hkind op hop).1
        · rw [List.mem_singleton.1 hop]; exact hxs
      · rw [List.mem_singleton.1 hop]; trivial)
  obtain ⟨r1, hr1, hcy⟩ := moreNar_append.1 hr2
  obtain ⟨r0, hr0, hsay⟩ := moreNar_append.1 hr1
  have hcy : cycle env r1 x.draw = .ok r2 := by
    unfold moreNar at hcy
    rw [List.foldlM_cons] at hcy
    obtain ⟨a, ha, hb⟩ := R.bind_ok.1 hcy
    cases hb; exact ha
  have hsay : inputT2 env r0 x.said .JUGEMENT x.tv false [] = .ok r1 := by
    unfold moreNar at hsay
    rw [List.foldlM_cons] at hsay
    obtain ⟨a, ha, hb⟩ := R.bind_ok.1 hsay
    cases hb; exact ha
  have hq0 : Quiet [] r0 := moreNar_calm hr0 (fun op hop => (hkind op hop).2) createNar_quiet
  have hq1 : Quiet [] r1 := inputT2_quiet hsay (by simp) hq0
  have hnt := (hxs.2.1 rfl rfl).1
  obtain ⟨i, hi, _⟩ := told_waits hr0 hsay hnt (by omega)
  obtain ⟨m, hm⟩ := (C128_reasoner_takes_one env _ r1 r2 x.draw hr1 hcy).1 (List.ne_nil_of_mem hi)
  obtain ⟨hmem, _⟩ := C128_reasoner_taken_has_most env _ r1 r2 x.draw m hr1 (fun d => (hd d).le) hcy hm
  obtain ⟨t, ht⟩ : ∃ t, r1.sh.heap[m.primary]? = some t :=
    ⟨_, List.getElem?_eq_getElem ((runNar_WDecl hr1).inv.valid _ hmem)⟩
  have hle := C129_just_told env _ r0 r1 r2 x.said x.tv [] x.draw m hr0 hsay hnt (by omega) hd hanti hq1.1.1 hcy hm t ht
  exact ⟨r1, r2, m, t, hr1, hcy, hm, ht, hle, fun he => by rw [he] at hle; omega⟩

/-- The violation, in another way: if more than thirty-one statements wait when a clean-up is due, one of them is neither taken nor kept, and
never has its turn, whatever is done afterwards. -/
theorem C129_forgotten_before_its_turn (env : Env) (ops : List NarOp) (r r' : Reasoner) (v : Rat) (h : runNar env ops = .ok r)
    (hlen : 31 < r.sh.judgementTasks.length) (hdue : (r.sh.cycleCounter + 1) % 111 = 0) (hc : cycle env r v = .ok r') :
    ∃ i ∈ r.sh.judgementTasks, (∃ m, r'.queue = r.queue ++ [m] ∧ m.primary ≠ i) ∧
      ∀ more r2, moreNar env r' more = .ok r2 → i ∉ r2.sh.judgementTasks := by
  obtain ⟨sh, msg, calls, g1, g2, g3⟩ := cycle_parts hc
  obtain ⟨_, e2, e3, _, e5⟩ := look_fields r
  have inv := look_inv (runNar_WDecl h).inv
  obtain ⟨_, k2, k3, _, k5⟩ := reasonCycle_taken g1 inv
  obtain ⟨_, _, k, _⟩ := reasonCycle_keeps (n := _) g1
    ⟨r.look.judgementTasks ++ r.look.judgementTasksByTerm.flatMap (·.2), le_refl _, by
      rintro i (hi | ⟨p, hp, hi⟩)
      · exact List.mem_append_left _ hi
      · exact List.mem_append_right _ (List.mem_flatMap.2 ⟨p, hp, hi⟩)⟩
  obtain ⟨few, hfew, hall⟩ := k (by rw [k3, e5]; exact hdue)
  rcases k5 with ⟨k5, _⟩ | ⟨m, l, rfl, hp, _⟩
  · rw [e2] at k5; rw [k5] at hlen; simp at hlen
  · have hn := hp.nodup_iff.2 inv.nodup
    rw [List.nodup_cons] at hn
    have hl := hp.length_eq
    rw [e2, List.length_cons] at hl
    obtain ⟨i, hi, hif⟩ : ∃ i ∈ l, i ∉ few := by
      by_contra hno
      push Not at hno
      have := (hn.2.subperm hno).length_le
      omega
    have hij : i ∈ r.look.judgementTasks := hp.mem_iff.1 (List.mem_cons_of_mem _ hi)
    refine ⟨i, by rw [← e2]; exact hij, ⟨m, g3, fun he => hn.1 (he ▸ hi)⟩, fun more r2 hmore hi2 => ?_⟩
    have hr' : runNar env (ops ++ [.cycle v]) = .ok r' := moreNar_append.2 ⟨r, h, foldlM_cons_ok.2 ⟨r', hc, rfl⟩⟩
    have hg : Gone i r'.sh := by
      rw [g2]
      have : Gone i sh := ⟨by rw [k2]; exact inv.valid i hij, fun hk => hif (hall i hk)⟩
      exact this
    exact (moreNar_dkept (gone_kept env i) hr' hg hmore).2 (.inl hi2)

/-! ## Concrete cases -/

/-- told first: an implication between statements -/
def long1 : Term := .Stmt .IMPL (.Stmt .INH (.Name "a") (.Name "b")) (.Stmt .INH (.Name "a") (.Name "c"))
/-- then small talk -/
def small1 : List Round := [⟨.Stmt .INH (.Name "b") (.Name "c"), ⟨1, 9/10⟩, 0, 1⟩, ⟨.Stmt .INH (.Name "c") (.Name "d"), ⟨1, 9/10⟩, 0, 1⟩,
  ⟨.Stmt .SIM (.Name "d") (.Name "e"), ⟨1, 9/10⟩, 0, 1⟩]

theorem small_wf (c : Copula) (x y : String) : WellFormed (.Stmt c (.Name x) (.Name y)) :=
  wf_stmt.2 ⟨wf_iff.2 ⟨trivial, by simp [parts]⟩, wf_iff.2 ⟨trivial, by simp [parts]⟩⟩

theorem small_safe (x y : String) : SafeInput (.Stmt .INH (.Name x) (.Name y)) .JUGEMENT ⟨1, 9/10⟩ false :=
  ⟨⟨_, rfl⟩, fun _ _ => ⟨(by rintro ⟨a, b, h⟩; cases h), small_wf _ _ _, by decide +kernel⟩, by intro h; cases h⟩

theorem long1_safe : SafeInput long1 .JUGEMENT ⟨1, 9/10⟩ false :=
  ⟨⟨_, rfl⟩, fun _ _ => ⟨(by rintro ⟨a, b, h⟩; cases h), wf_stmt.2 ⟨small_wf _ _ _, small_wf _ _ _⟩, by decide +kernel⟩, by intro h; cases h⟩

/-- after three rounds three statements were taken, one was derived, and the implication (0) still waits -/
example : (runNar env0 (.tell long1 .JUGEMENT ⟨1, 9/10⟩ false [] :: talk small1)).map (fun r => (r.sh.judgementTasks,
    r.sh.questionTasks.length, r.sh.cycleCounter)) = .ok ([0, 4], 0, 3) := by decide +kernel
example : (runNar env0 (.tell long1 .JUGEMENT ⟨1, 9/10⟩ false [] :: talk small1)).map (fun r => r.sh.heap.map fun t =>
    (calcComplexity t.sentence.term, t.derivTime, t.mulCredit)) = .ok [(7, 0, 1), (3, 0, 1), (3, 1, 1), (3, 2, 1), (3, 2, 1)] := by
  decide +kernel
/-- without the talk it has its turn at once -/
example : (runNar env0 [.tell long1 .JUGEMENT ⟨1, 9/10⟩ false [], .cycle 0]).map (fun r => (r.sh.judgementTasks, r.queue.map (·.primary))) =
    .ok ([], [0]) := by decide +kernel

/-- left alone: three statements, three cycles, each has its turn, the implication last -/
example : (runNar env0 (att2 ++ [.tell (.Stmt .INH (.Name "c") (.Name "d")) .JUGEMENT ⟨1, 9/10⟩ false []])).map (fun r =>
    (r.sh.judgementTasks, r.sh.cycleCounter)) = .ok ([0, 1, 2], 0) := by decide +kernel
example : (runNar env0 (att2 ++ [.tell (.Stmt .INH (.Name "c") (.Name "d")) .JUGEMENT ⟨1, 9/10⟩ false [], .cycle 0, .cycle 0,
    .cycle 0])).map (fun r => r.queue.map (·.primary)) = .ok [1, 2, 0] := by decide +kernel

/-- small talk of any length, in which the same is said again and again: the implication never has its turn -/
example (n : Nat) : ∃ r r' m t, runNar env0 (.tell long1 .JUGEMENT ⟨1, 9/10⟩ false [] ::
      talk (List.replicate n ⟨.Stmt .INH (.Name "b") (.Name "c"), ⟨1, 9/10⟩, 0, 1⟩) ++ [.tell (.Stmt .INH (.Name "b") (.Name "c")) .JUGEMENT ⟨1, 9/10⟩ false []]) = .ok r ∧
    cycle env0 r 0 = .ok r' ∧ r'.queue = r.queue ++ [m] ∧ r.sh.heap[m.primary]? = some t ∧ t.sentence.term ≠ long1 := by
  obtain ⟨r, r', m, t, h1, h2, h3, h4, _, h6⟩ := C129_never_its_turn env0 (fun _ => one_pos) (fun _ _ _ => le_refl _) long1 ⟨1, 9/10⟩
    long1_safe (by decide) (List.replicate n ⟨.Stmt .INH (.Name "b") (.Name "c"), ⟨1, 9/10⟩, 0, 1⟩)
    ⟨.Stmt .INH (.Name "b") (.Name "c"), ⟨1, 9/10⟩, 0, 1⟩ (by
      intro y hy
      have hy : y = ⟨.Stmt .INH (.Name "b") (.Name "c"), ⟨1, 9/10⟩, 0, 1⟩ := by
        rcases List.mem_append.1 hy with hy | hy
        · exact (List.mem_replicate.1 hy).2
        · exact List.mem_singleton.1 hy
      subst hy
      exact ⟨small_safe _ _, by decide⟩)
  exact ⟨r, r', m, t, h1, h2, h3, h4, h6⟩

/-- three statements, told when the clean-up is due in the second cycle: the one left then is kept, and has its turn -/
def few1 : List NarOp := List.replicate 109 (.cycle 0) ++ [.tell long1 .JUGEMENT ⟨1, 9/10⟩ false [],
  .tell (.Stmt .INH (.Name "b") (.Name "c")) .JUGEMENT ⟨1, 9/10⟩ false [], .tell (.Stmt .INH (.Name "c") (.Name "d")) .JUGEMENT ⟨1, 9/10⟩ false []]

example : (runNar env0 few1).map (fun r => (r.sh.judgementTasks, r.sh.cycleCounter)) = .ok ([0, 1, 2], 109) := by decide +kernel
example : (runNar env0 few1).map (fun r => r.sh.heap.map fun t => (t.mulCredit, decide (128/1000 < env0.decay (112 - t.derivTime)))) =
    .ok [(1, true), (1, true), (1, true)] := by decide +kernel
example : (runNar env0 few1).map (fun r => r.sh.heap.map fun t => decide (1/1000 < 1 / (2 * (calcComplexity t.sentence.term : Rat)) *
    env0.decay (111 - t.derivTime) * t.mulCredit)) = .ok [true, true, true] := by decide +kernel
example : (runNar env0 (few1 ++ [.cycle 0, .cycle 0, .cycle 0])).map (fun r => (r.queue.map (·.primary), r.sh.cycleCounter)) =
    .ok ([1, 2, 0], 112) := by decide +kernel

/-- thirty-two statements, told when the clean-up is due with the next cycle -/
def many1 : List NarOp := List.replicate 110 (.cycle 0) ++ (List.range 32).map fun k =>
  .tell (.Stmt .INH (.Name (String.ofList (List.replicate (k + 1) 'a'))) (.Name "z")) .JUGEMENT ⟨1, 9/10⟩ false []

/-- one of them is taken, thirty are kept -/
example : (runNar env0 many1).map (fun r => (r.sh.judgementTasks.length, r.sh.cycleCounter)) = .ok (32, 110) := by decide +kernel
example : (runNar env0 (many1 ++ [.cycle 0])).map (fun r => (r.sh.judgementTasks.length, r.queue.length)) = .ok (30, 1) := by decide +kernel

end Nar.Props
