import Verif.Lemmas.MemNumbers2
import Verif.Props.Decl
import Verif.Props.Lasting
/-!
# C123: a typed truth value, whatever number it is, does not harm what is told later
-/
namespace Nar.Props
open Nar Term

/-- C123 for ordinary truth values (a finite frequency, a confidence from 0 to below 1): whatever is told, in whatever order and
however often, nothing crashes, and every belief then held again has an ordinary truth value.  Full statement: the same for every
number which the reader of numbers accepts.  It is false, see the theorems below. -/
theorem C123_ordinary_numbers_never_harm_partial (xs : List (Term × TvF)) (h : ∀ x ∈ xs, x.2.Ordinary) :
    ∃ m n, tellAllF xs = .ok (m, n) ∧ ∀ x b, FMem.Lists m x b → b.tv.Ordinary := by
  obtain ⟨⟨m, n⟩, h1, h2⟩ := tellAllF_ordinary xs (st := (fun _ => none, 0)) (fun x c hc => by cases hc) h
  refine ⟨m, n, h1, ?_⟩
  rintro x b ⟨c, hc, hb | hb⟩
  · exact (h2 x c hc).1 b hb
  · exact (h2 x c hc).2 b hb

/-- frequency and confidence as usually typed -/
def num (f c : Rat) : TvF := ⟨.fin f, .fin c⟩

theorem num_ordinary {f c : Rat} (h0 : 0 ≤ c) (h1 : c < 1) : (num f c).Ordinary := ⟨⟨f, rfl⟩, c, rfl, h0, h1⟩

example : ∃ m n, tellAllF [(isA "a" "b", num 1 (9/10)), (isA "b" "c", num (-7) 0), (isA "a" "b", num 2 (1/2))] = .ok (m, n) ∧
    ∀ x b, FMem.Lists m x b → b.tv.Ordinary := by
  refine C123_ordinary_numbers_never_harm_partial _ fun x hx => ?_
  simp only [List.mem_cons, List.not_mem_nil, or_false] at hx
  rcases hx with rfl | rfl | rfl
  all_goals exact num_ordinary (by decide +kernel) (by decide +kernel)

/-- C123: with sane truth values nothing of what the rest of the model leaves out makes a difference: telling the statements to a new
reasoner succeeds, and its memory is the same as that which is calculated with all numbers of the machine, belief for belief and in
the same order. -/
theorem C123_exact_for_sane_numbers_partial (env : Env) (xs : List (Term × Tv)) (h : ∀ x ∈ xs, SafeInput x.1 .JUGEMENT x.2 false) :
    ∃ r m n, runNar env (xs.map fun x => .tell x.1 .JUGEMENT x.2 false []) = .ok r ∧
      tellAllF (xs.map fun x => (x.1, asNumbers x.2)) = .ok (m, n) ∧ SameMemory r.sh.mem m := by
  obtain ⟨r, h1, _⟩ := C58_declarative_use_never_crashes env (xs.map fun x => .tell x.1 .JUGEMENT x.2 false []) (by
    intro op hop
    obtain ⟨x, hx, rfl⟩ := List.mem_map.1 hop
    exact h x hx)
  obtain ⟨_, _, m, h2, h3⟩ := asF_run xs (fun x hx => by
    obtain ⟨k1, _, k2⟩ := (h x hx).2.1 rfl rfl
    exact ⟨k1, k2.2.2.1, k2.2.2.2⟩) h1
  exact ⟨r, m, _, h1, h2, h3.1⟩

example : ∃ r m n, runNar env0 [say (isA "a" "b") ⟨1, 9/10⟩, say (isA "b" "c") ⟨0, 1/2⟩, say (isA "a" "b") ⟨1/3, 1/2⟩] = .ok r ∧
    tellAllF [(isA "a" "b", num 1 (9/10)), (isA "b" "c", num 0 (1/2)), (isA "a" "b", num (1/3) (1/2))] = .ok (m, n) ∧
    SameMemory r.sh.mem m := by
  refine C123_exact_for_sane_numbers_partial env0 [(isA "a" "b", ⟨1, 9/10⟩), (isA "b" "c", ⟨0, 1/2⟩), (isA "a" "b", ⟨1/3, 1/2⟩)]
    fun x hx => ?_
  simp only [List.mem_cons, List.not_mem_nil, or_false] at hx
  rcases hx with rfl | rfl | rfl
  all_goals exact isA_safe env0 _ _ _ (by unfold Tv.Sane; decide +kernel) ⟨_, rfl⟩

/-- C123, violated: whenever memory holds, under some term, a belief whose expectation is not a number, telling any new statement
in which that term occurs (and which is not too complex to be kept) crashes, whatever its truth value is. -/
theorem C123_poisoned_term_crashes (m : FMem) (n : Int) (x t : Term) (tv : TvF) (hp : m.Poisoned x) (hx : IsSubterm x t)
    (hc : calcComplexity t ≤ 64) (hu : ∀ y b, m.Lists y b → b.term ≠ t) : tellF (m, n) (t, tv) = .error .unwrapNone :=
  tellF_poisoned (st := (m, n)) (x := (t, tv)) hc hu hx hp

example : ∃ m : FMem, m.Poisoned (.Name "b") ∧ tellF (m, 5) (isA "b" "c", num 1 (9/10)) = .error .unwrapNone := by
  refine ⟨fun x => if x = .Name "b" then some ⟨[⟨isA "a" "b", ⟨[0]⟩, ⟨.nan, .nan⟩⟩], []⟩ else none,
    ⟨_, rfl, _, List.mem_singleton.2 rfl, rfl⟩, C123_poisoned_term_crashes _ _ (.Name "b") _ _ ⟨_, rfl, _, List.mem_singleton.2 rfl, rfl⟩
      (.inside (by simp [isA, parts]) (.refl _)) (by decide) ?_⟩
  rintro y b ⟨c, hc, hb⟩
  simp only at hc
  split at hc
  · cases hc
    rcases hb with hb | hb
    · rw [List.mem_singleton.1 hb]; decide
    · cases hb
  · cases hc

/-- C123, violated: after a statement with the frequency `nan` (a text the reader of numbers accepts) every different statement
which shares a term with it crashes the reasoner, whatever its truth value is; so does the confidence `nan`. -/
theorem C123_nan_crashes (t t' x : Term) (tv tv' : TvF) (hn : tv.f = .nan ∨ tv.c = .nan) (ht : t ≠ t') (hx : IsSubterm x t)
    (hx' : IsSubterm x t') (hc : calcComplexity t ≤ 64) (hc' : calcComplexity t' ≤ 64) :
    (∃ m, tellAllF [(t, tv)] = .ok (m, 1)) ∧ tellAllF [(t, tv), (t', tv')] = .error .unwrapNone := by
  have he : calcExpF tv = .nan := by
    obtain ⟨f, c⟩ := tv
    rcases hn with h | h <;> simp only at h <;> subst h
    · cases c <;> rfl
    · rfl
  obtain ⟨m, h1, h2⟩ := tellF_first (x := (t, tv)) hc 0
  refine ⟨⟨m, foldlM_cons_ok.2 ⟨_, h1, rfl⟩⟩, ?_⟩
  show (do let st ← tellF (fun _ => none, 0) (t, tv); [(t', tv')].foldlM tellF st) = _
  rw [h1]
  show (do let st ← tellF (m, 0 + 1) (t', tv'); [].foldlM tellF st) = _
  rw [C123_poisoned_term_crashes m (0 + 1) x t' tv' (h2.poisoned he hx) hx' hc' (h2.unheard ht)]
  rfl

example : tellAllF [(isA "a" "b", ⟨.nan, .fin (9/10)⟩), (isA "b" "c", num 1 (9/10))] = .error .unwrapNone :=
  (C123_nan_crashes (isA "a" "b") (isA "b" "c") (.Name "b") _ _ (.inl rfl) (by decide) (.inside (by simp [isA, parts]) (.refl _))
    (.inside (by simp [isA, parts]) (.refl _)) (by decide) (by decide)).2

/-- C123, violated for infinite numbers: the frequency `inf` with confidence 0 (any finite frequency with the confidence `inf`, if
it is exactly one half) is an expectation which is not a number. -/
theorem C123_infinity_crashes (t t' x : Term) (neg : Bool) (tv tv' : TvF)
    (hn : tv = ⟨.inf neg, .fin 0⟩ ∨ tv = ⟨.fin (1/2), .inf neg⟩) (ht : t ≠ t') (hx : IsSubterm x t)
    (hx' : IsSubterm x t') (hc : calcComplexity t ≤ 64) (hc' : calcComplexity t' ≤ 64) :
    (∃ m, tellAllF [(t, tv)] = .ok (m, 1)) ∧ tellAllF [(t, tv), (t', tv')] = .error .unwrapNone := by
  have he : calcExpF tv = .nan := by
    rcases hn with h | h <;> subst h <;> cases neg <;> decide +kernel
  obtain ⟨m, h1, h2⟩ := tellF_first (x := (t, tv)) hc 0
  refine ⟨⟨m, foldlM_cons_ok.2 ⟨_, h1, rfl⟩⟩, ?_⟩
  show (do let st ← tellF (fun _ => none, 0) (t, tv); [(t', tv')].foldlM tellF st) = _
  rw [h1]
  show (do let st ← tellF (m, 0 + 1) (t', tv'); [].foldlM tellF st) = _
  rw [C123_poisoned_term_crashes m (0 + 1) x t' tv' (h2.poisoned he hx) hx' hc' (h2.unheard ht)]
  rfl

example : (∃ m, tellAllF [(isA "a" "b", ⟨.inf true, .fin 0⟩)] = .ok (m, 1)) ∧
    tellAllF [(isA "a" "b", ⟨.inf true, .fin 0⟩), (isA "b" "c", num 1 (9/10))] = .error .unwrapNone :=
  C123_infinity_crashes (isA "a" "b") (isA "b" "c") (.Name "b") true _ _ (.inl rfl) (by decide)
    (.inside (by simp [isA, parts]) (.refl _)) (.inside (by simp [isA, parts]) (.refl _)) (by decide) (by decide)

/-- pooling with a confidence of 1 gives what is not a number -/
theorem rev_axiom (f f' c' : Rat) (h0 : 0 ≤ c') (h1 : c' ≤ 1) : calcExpF (revF ⟨.fin f, .fin 1⟩ ⟨.fin f', .fin c'⟩) = .nan := by
  have e1 : c2wF (.fin 1) = .inf false := by decide +kernel
  have e2 : (c2wF (.fin 1)).add (c2wF (.fin c')) = .inf false := by
    rw [e1]
    rcases lt_or_eq_of_le h1 with h | h
    · obtain ⟨w, _, e⟩ := c2w_ordinary h0 h
      rw [e]; rfl
    · rw [h, e1]; rfl
  have e3 : w2cF (.inf false) = .nan := rfl
  unfold revF
  simp only [e2, e3]
  rfl

/-- C123, violated by the confidence 1 (`{1.0 1.0}` in a text), which is within the usual range: telling a statement with this
confidence, and then the same statement again, with any confidence from 0 to 1, does not crash yet; but the two are pooled to a truth
value which is not a number, and then any other statement which shares a term with it crashes the reasoner. -/
theorem C123_certainty_crashes (t t' x : Term) (f f' c' : Rat) (tv' : TvF) (h0 : 0 ≤ c') (h1 : c' ≤ 1) (ht : t ≠ t')
    (hx : IsSubterm x t) (hx' : IsSubterm x t') (hc : calcComplexity t ≤ 64) (hc' : calcComplexity t' ≤ 64) :
    (∃ m, tellAllF [(t, num f 1), (t, num f' c')] = .ok (m, 2)) ∧
    tellAllF [(t, num f 1), (t, num f' c'), (t', tv')] = .error .unwrapNone := by
  obtain ⟨m, k1, k2⟩ := tellF_first (x := (t, num f 1)) hc 0
  obtain ⟨m', k3, k4⟩ := tellF_second (v := num f' c') hc k2
  refine ⟨⟨m', foldlM_cons_ok.2 ⟨_, k1, foldlM_cons_ok.2 ⟨_, k3, rfl⟩⟩⟩, ?_⟩
  show (do let st ← tellF (fun _ => none, 0) (t, num f 1); [(t, num f' c'), (t', tv')].foldlM tellF st) = _
  rw [k1]
  show (do let st ← tellF (m, 0 + 1) (t, num f' c'); [(t', tv')].foldlM tellF st) = _
  rw [k3]
  show (do let st ← tellF (m', 0 + 2) (t', tv'); [].foldlM tellF st) = _
  rw [C123_poisoned_term_crashes m' (0 + 2) x t' tv' (k4.poisoned (rev_axiom f f' c' h0 h1) hx) hx' hc' (k4.unheard ht)]
  rfl

example : tellAllF [(isA "a" "b", num 1 1), (isA "a" "b", num 1 (9/10)), (isA "b" "c", num 1 (9/10))] = .error .unwrapNone :=
  (C123_certainty_crashes (isA "a" "b") (isA "b" "c") (.Name "b") 1 1 (9/10) _ (by decide +kernel) (by decide +kernel) (by decide)
    (.inside (by simp [isA, parts]) (.refl _)) (.inside (by simp [isA, parts]) (.refl _)) (by decide) (by decide)).2

/-! ## statements of complexity zero -/

/-- C123, violated by statements without any part, like an empty set: the priority of the new task is not a number. -/
theorem C123_empty_compound_has_no_priority (t : Term) (decay mulCredit : Rat) (h : calcComplexity t = 0) :
    newCreditF t decay mulCredit = .nan := by
  unfold newCreditF divCreditF
  rw [h]
  rfl

example : newCreditF (.SetExt []) (9/10) 1 = .nan := C123_empty_compound_has_no_priority _ _ _ (by decide)
example : newCreditF (isA "a" "b") (9/10) 1 = .fin (3/10) := by decide +kernel

/-- C123, violated: while such a task is waiting there is no choice by priority: whatever is drawn, the last task of the list is
taken. -/
theorem C123_no_number_ends_choice (v : Rat) (ws : List Fl) (h : Fl.nan ∈ ws) : selF v ws = .ok (ws.length - 1) := selF_nan v ws h

example : (selF (1/10) [.fin 1, .nan, .fin 1] = .ok 2) ∧ selF (1/10) [.fin 1, .fin 1, .fin 1] = .ok 0 :=
  ⟨C123_no_number_ends_choice _ _ (by simp), by decide +kernel⟩

/-- With numbers the choice is the one by priority (which C22 and C99 are about). -/
theorem C123_numbers_choose_partial (v : Rat) (ws : List Rat) : selF v (ws.map Fl.fin) = selByWeight v ws := selF_fin v ws

example : selF (1/2) [.fin 1, .fin 2, .fin 1] = .ok 1 ∧ selByWeight (1/2) [1, 2, 1] = .ok 1 := by decide +kernel

/-- C123, violated: if such a task is still waiting, with some other, when the tasks are sorted, the reasoner crashes, and only
then; with numbers the best 30 are kept, as far as their priority is above 1/1000. -/
theorem C123_no_number_crashes_trimming (ws : List Fl) (h2 : 2 ≤ ws.length) :
    (trimF ws = .error .unwrapNone ↔ Fl.nan ∈ ws) ∧
    (∀ ws' : List Rat, ws = ws'.map Fl.fin → ∃ best left : List Rat, (best ++ left).Perm ws' ∧ best.length = min 30 ws.length ∧
      (∀ a ∈ best, ∀ b ∈ left, b ≤ a) ∧ trimF ws = .ok ((best.filter (fun w => 1/1000 < w)).map Fl.fin)) := by
  refine ⟨?_, ?_⟩
  · unfold trimF
    by_cases h : Fl.nan ∈ ws
    · rw [if_pos ⟨h2, (any_nan ws).2 h⟩]; simp [h]
    · rw [if_neg (fun hc => h ((any_nan ws).1 hc.2))]; simp [h]
  · rintro ws' rfl
    obtain ⟨l, h1, h3, h4⟩ := sortCredit_fin ws'
    have hl : (l.take (min 30 (ws'.map Fl.fin).length)).length = min 30 (ws'.map Fl.fin).length := by
      rw [List.length_take, h3.length_eq, List.length_map]; omega
    refine ⟨l.take (min 30 (ws'.map Fl.fin).length), l.drop (min 30 (ws'.map Fl.fin).length), by rw [List.take_append_drop]; exact h3, hl, ?_, ?_⟩
    · intro a ha b hb
      have := h4
      rw [← List.take_append_drop (min 30 (ws'.map Fl.fin).length) l, List.pairwise_append] at this
      exact this.2.2 a ha b hb
    · unfold trimF
      rw [if_neg (fun hc => by have := (any_nan _).1 hc.2; simp at this), h1, ← List.map_take, List.filter_map]
      congr 2
      refine List.filter_congr fun x _ => ?_
      show (!decide (x ≤ 1/1000) && !false) = decide (1/1000 < x)
      by_cases hx : x ≤ 1/1000
      · rw [decide_eq_true hx, decide_eq_false (not_lt.2 hx)]; rfl
      · rw [decide_eq_false hx, decide_eq_true (not_le.1 hx)]; rfl

example : trimF [.fin 1, .nan] = .error .unwrapNone := ((C123_no_number_crashes_trimming _ (by decide)).1).2 (by simp)
example : trimF [.fin (1/2000), .fin (1/3), .fin 1] = .ok [.fin 1, .fin (1/3)] := by decide +kernel

/-! ## goals -/

/-- C123, violated by goals: a goal told with a frequency or confidence which is not a number has a usefulness which is not a number,
now and always. -/
theorem C123_goal_without_usefulness (tv : TvF) (d decay : Rat) (hn : tv.f = .nan ∨ tv.c = .nan) : goalUtilityF tv d decay = .nan := by
  have he : calcExpF tv = .nan := by
    obtain ⟨f, c⟩ := tv
    rcases hn with h | h <;> simp only at h <;> subst h
    · cases c <;> rfl
    · rfl
  unfold goalUtilityF
  rw [he]
  rfl

example : goalUtilityF ⟨.nan, .fin (9/10)⟩ 1 (1/2) = .nan := C123_goal_without_usefulness _ _ _ (.inl rfl)
example : goalUtilityF (num 1 (9/10)) (-1) (1/2) = .fin (19/40) := by decide +kernel

/-- C123, violated by goals: as soon as there is another goal, the regular limiting of goals (in every 13th step) crashes, and only
then; with numbers the most useful ones are kept. -/
theorem C123_no_number_crashes_goals (n : Nat) (us : List Fl) (h2 : 2 ≤ us.length) :
    (limitGoalsF n us = .error .unwrapNone ↔ Fl.nan ∈ us) ∧
    (∀ us' : List Rat, us = us'.map Fl.fin → ∃ kept left : List Rat, limitGoalsF n us = .ok (kept.map Fl.fin) ∧ (kept ++ left).Perm us' ∧
      kept.length = min n us.length ∧ ∀ a ∈ kept, ∀ b ∈ left, b ≤ a) := by
  refine ⟨?_, ?_⟩
  · unfold limitGoalsF
    by_cases h : Fl.nan ∈ us
    · rw [if_pos ⟨h2, (any_nan us).2 h⟩]; simp [h]
    · rw [if_neg (fun hc => h ((any_nan us).1 hc.2))]; simp [h]
  · rintro us' rfl
    obtain ⟨l, h1, h3, h4⟩ := sortCredit_fin us'
    refine ⟨l.take n, l.drop n, ?_, by rw [List.take_append_drop]; exact h3, ?_, ?_⟩
    · unfold limitGoalsF
      rw [if_neg (fun hc => by have := (any_nan _).1 hc.2; simp at this), h1, List.map_take]
    · rw [List.length_take, h3.length_eq, List.length_map]
    · intro a ha b hb
      have := h4
      rw [← List.take_append_drop n l, List.pairwise_append] at this
      exact this.2.2 a ha b hb

example : limitGoalsF 30 [.fin (1/2), .nan] = .error .unwrapNone :=
  ((C123_no_number_crashes_goals 30 _ (by decide)).1).2 (by simp)
example : limitGoalsF 2 [.fin (1/2), .fin (1/3), .fin 1] = .ok [.fin 1, .fin (1/2)] := by decide +kernel

end Nar.Props
