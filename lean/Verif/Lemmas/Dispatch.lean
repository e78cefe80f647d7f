import Verif.Spec.Nar
import Verif.Lemmas.Parser3
import Verif.Lemmas.Task
import Mathlib.Data.List.Basic
/-! # The command which a line selects -/
namespace Nar

theorem utf8Size_pos (c : Char) : 0 < c.utf8Size := Char.utf8Size_pos c

theorem bytePrefix_ok {n : Nat} {s p : List Char} (h : bytePrefix s n = .ok p) : p <+: s ∧ byteLen p = n := by
  induction s generalizing n p with
  | nil =>
    cases n with
    | zero => simp only [bytePrefix] at h; cases h; exact ⟨List.nil_prefix, rfl⟩
    | succ n => simp only [bytePrefix] at h; cases h
  | cons c cs ih =>
    cases n with
    | zero => simp only [bytePrefix] at h; cases h; exact ⟨List.nil_prefix, rfl⟩
    | succ n =>
      simp only [bytePrefix] at h
      split at h
      · rename_i hc
        obtain ⟨r, hr, h⟩ := R.bind_ok.1 h
        cases h
        obtain ⟨h1, h2⟩ := ih hr
        refine ⟨List.cons_prefix_cons.2 ⟨rfl, h1⟩, ?_⟩
        simp only [byteLen, List.map_cons, List.sum_cons] at h2 ⊢
        omega
      · cases h

theorem bytePrefix_of_prefix {s p : List Char} (h : p <+: s) : bytePrefix s (byteLen p) = .ok p := by
  induction s generalizing p with
  | nil => obtain rfl := List.prefix_nil.1 h; rfl
  | cons c cs ih =>
    cases p with
    | nil => rfl
    | cons d ds =>
      obtain ⟨rfl, h1⟩ := List.cons_prefix_cons.1 h
      have hc := utf8Size_pos d
      have hl : byteLen (d :: ds) = d.utf8Size + byteLen ds := by simp [byteLen]
      obtain ⟨m, hm⟩ : ∃ m, d.utf8Size + byteLen ds = m + 1 := ⟨d.utf8Size + byteLen ds - 1, by omega⟩
      rw [hl, hm]
      simp only [bytePrefix]
      rw [if_pos (by omega)]
      have : m + 1 - d.utf8Size = byteLen ds := by omega
      rw [this, ih h1]
      rfl

/-- all characters are ASCII -/
def IsAscii (s : List Char) : Prop := ∀ c ∈ s, c.utf8Size = 1

theorem IsAscii.byteLen {s : List Char} (h : IsAscii s) : byteLen s = s.length := by
  induction s with
  | nil => rfl
  | cons c cs ih =>
    have h1 := h c (List.mem_cons_self ..)
    have h2 := ih (fun x hx => h x (List.mem_cons_of_mem _ hx))
    simp only [Nar.byteLen, List.map_cons, List.sum_cons, List.length_cons] at *
    omega

theorem byteLen_append (a b : List Char) : byteLen (a ++ b) = byteLen a + byteLen b := by
  simp [byteLen, List.sum_append]

theorem byteLen_prefix {p s : List Char} (h : p <+: s) : byteLen p ≤ byteLen s := by
  obtain ⟨t, rfl⟩ := h
  simp [byteLen, List.sum_append]

theorem startsWith_ok {pre s : List Char} {b : Bool} (hp : IsAscii pre) (h : startsWith pre s = .ok b) :
    b = pre.isPrefixOf s := by
  unfold startsWith at h
  split at h
  · obtain ⟨p, hb, h⟩ := R.bind_ok.1 h
    have h := Except.ok.inj h
    subst h
    rw [Bool.eq_iff_iff, beq_iff_eq, List.isPrefixOf_iff_prefix]
    constructor
    · rintro rfl; exact (bytePrefix_ok hb).1
    · intro hpre
      have := bytePrefix_of_prefix hpre
      rw [hp.byteLen, hb] at this
      exact Except.ok.inj this
  · rename_i hl
    have h := Except.ok.inj h
    subst h
    symm
    rw [Bool.eq_false_iff, Ne, List.isPrefixOf_iff_prefix]
    intro hpre
    have := byteLen_prefix hpre
    rw [hp.byteLen] at this
    omega

theorem startsWith_ascii {pre s : List Char} (hp : IsAscii pre) (hs : IsAscii s) :
    startsWith pre s = .ok (pre.isPrefixOf s) := by
  have key : ∀ (s : List Char) (n : Nat), IsAscii s → n ≤ s.length → bytePrefix s n = .ok (s.take n) := by
    intro s
    induction s with
    | nil => intro n _ hn; obtain rfl : n = 0 := by simpa using hn
             rfl
    | cons c cs ih =>
      intro n h hn
      cases n with
      | zero => rfl
      | succ n =>
        simp only [bytePrefix]
        rw [h c (List.mem_cons_self ..), if_pos (by omega), Nat.add_sub_cancel,
          ih n (fun x hx => h x (List.mem_cons_of_mem _ hx)) (by simpa using hn)]
        rfl
  cases h : startsWith pre s with
  | ok b => rw [startsWith_ok hp h]
  | error e =>
    unfold startsWith at h
    split at h
    · rename_i hl
      rw [key s _ hs (by rw [← hs.byteLen]; exact hl)] at h
      cases h
    · cases h

theorem isAscii_of_all {s : List Char} (h : s.all (fun c => c.utf8Size == 1) = true) : IsAscii s := by
  intro c hc
  exact eq_of_beq (List.all_eq_true.1 h c hc)

theorem bind_ok_ite {b : R Bool} {t : Bool} {x : Command} {rest : R Command} (h : b = .ok t) :
    (b >>= fun t => if t = true then .ok x else rest) = if t = true then .ok x else rest := by rw [h]; rfl

theorem beq_toList (s t : List Char) : (s == t) = decide (s = t) := by
  by_cases h : s = t <;> simp [h]

theorem nlp_test (s : List Char) (h : "!.nlp ".toList.isPrefixOf s = true) :
    (byteLen s > 6) ↔ s ≠ "!.nlp ".toList := by
  obtain ⟨t, rfl⟩ := List.isPrefixOf_iff_prefix.1 h
  have h6 : byteLen "!.nlp ".toList = 6 := by decide
  have : byteLen ("!.nlp ".toList ++ t) = 6 + byteLen t := by
    rw [byteLen_append, h6]
  rw [this]
  cases t with
  | nil => simp [byteLen]
  | cons c cs =>
    have := utf8Size_pos c
    have h2 : byteLen (c :: cs) = c.utf8Size + byteLen cs := by simp [byteLen]
    constructor
    · intro _ he
      have := congrArg List.length he
      rw [List.length_append, List.length_cons] at this
      omega
    · intro _; omega

/-- with the answers of the five prefix tests the rest is determined -/
theorem dispatch_of_tests {s : List Char}
    (h1 : startsWith "//".toList s = .ok ("//".toList.isPrefixOf s))
    (h2 : "//".toList.isPrefixOf s = false → startsWith "!sp".toList s = .ok ("!sp".toList.isPrefixOf s))
    (h3 : "//".toList.isPrefixOf s = false → "!sp".toList.isPrefixOf s = false →
      startsWith "!s".toList s = .ok ("!s".toList.isPrefixOf s))
    (h4 : "//".toList.isPrefixOf s = false → "!s".toList.isPrefixOf s = false → s ≠ "!dtf".toList →
      startsWith "!por ".toList s = .ok ("!por ".toList.isPrefixOf s))
    (h5 : "//".toList.isPrefixOf s = false → "!s".toList.isPrefixOf s = false → s ≠ "!dtf".toList →
      "!por ".toList.isPrefixOf s = false → s ≠ "!pse".toList → s ≠ "!peb 0".toList → s ≠ "!peb 1".toList →
      startsWith "!.nlp ".toList s = .ok ("!.nlp ".toList.isPrefixOf s)) :
    dispatch s = .ok (commandOf s) := by
  unfold dispatch commandOf
  rw [bind_ok_ite h1]
  by_cases c1 : "//".toList.isPrefixOf s = true
  · rw [if_pos c1, if_pos c1]
  rw [if_neg c1, if_neg c1]
  rw [Bool.not_eq_true] at c1
  rw [bind_ok_ite (h2 c1)]
  by_cases c2 : "!sp".toList.isPrefixOf s = true
  · rw [if_pos c2, if_pos c2]
  rw [if_neg c2, if_neg c2]
  have e1 : ¬ (s == "!spA".toList) = true := by
    intro he; rw [eq_of_beq he] at c2; exact c2 (by decide)
  have e2 : ¬ (s == "!spB".toList) = true := by
    intro he; rw [eq_of_beq he] at c2; exact c2 (by decide)
  rw [if_neg e1, if_neg e2]
  rw [Bool.not_eq_true] at c2
  rw [bind_ok_ite (h3 c1 c2)]
  by_cases c3 : "!s".toList.isPrefixOf s = true
  · rw [if_pos c3, if_pos c3]
  rw [if_neg c3, if_neg c3]
  rw [Bool.not_eq_true] at c3
  by_cases c4 : s = "!dtf".toList
  · rw [if_pos (beq_iff_eq.2 c4), if_pos c4]
  rw [if_neg (mt beq_iff_eq.1 c4), if_neg c4]
  rw [bind_ok_ite (h4 c1 c3 c4)]
  by_cases c5 : "!por ".toList.isPrefixOf s = true
  · rw [if_pos c5, if_pos c5]
  rw [if_neg c5, if_neg c5]
  rw [Bool.not_eq_true] at c5
  by_cases c6 : s = "!pse".toList
  · rw [if_pos (beq_iff_eq.2 c6), if_pos c6]
  rw [if_neg (mt beq_iff_eq.1 c6), if_neg c6]
  by_cases c7 : s = "!peb 0".toList
  · rw [if_pos (beq_iff_eq.2 c7), if_pos c7]
  rw [if_neg (mt beq_iff_eq.1 c7), if_neg c7]
  by_cases c8 : s = "!peb 1".toList
  · rw [if_pos (beq_iff_eq.2 c8), if_pos c8]
  rw [if_neg (mt beq_iff_eq.1 c8), if_neg c8]
  rw [h5 c1 c3 c4 c5 c6 c7 c8]
  simp only [bind, Except.bind]
  by_cases c9 : "!.nlp ".toList.isPrefixOf s = true ∧ s ≠ "!.nlp ".toList
  · rw [if_pos c9, if_pos (by rw [Bool.and_eq_true, decide_eq_true_eq]; exact ⟨c9.1, (nlp_test s c9.1).2 c9.2⟩)]
  rw [if_neg c9, if_neg (by
    rw [Bool.and_eq_true, decide_eq_true_eq]; rintro ⟨a, b⟩; exact c9 ⟨a, (nlp_test s a).1 b⟩)]
  by_cases c10 : s = "!dt".toList
  · rw [if_pos (beq_iff_eq.2 c10), if_pos c10]
  rw [if_neg (mt beq_iff_eq.1 c10), if_neg c10]
  by_cases c11 : s = "!dmd".toList
  · rw [if_pos (beq_iff_eq.2 c11), if_pos c11]
  rw [if_neg (mt beq_iff_eq.1 c11), if_neg c11]
  by_cases c12 : s = "!QQ".toList
  · rw [if_pos (beq_iff_eq.2 c12), if_pos c12]
  rw [if_neg (mt beq_iff_eq.1 c12), if_neg c12]
  by_cases c13 : s = []
  · rw [if_pos (beq_iff_eq.2 c13), if_pos c13]
  rw [if_neg (mt beq_iff_eq.1 c13), if_neg c13]

theorem ascii_lits : IsAscii "//".toList ∧ IsAscii "!sp".toList ∧ IsAscii "!s".toList ∧ IsAscii "!por ".toList ∧
    IsAscii "!.nlp ".toList :=
  ⟨isAscii_of_all (by decide), isAscii_of_all (by decide), isAscii_of_all (by decide), isAscii_of_all (by decide),
    isAscii_of_all (by decide)⟩

theorem dispatch_ascii {s : List Char} (h : IsAscii s) : dispatch s = .ok (commandOf s) := by
  obtain ⟨a1, a2, a3, a4, a5⟩ := ascii_lits
  exact dispatch_of_tests (startsWith_ascii a1 h) (fun _ => startsWith_ascii a2 h) (fun _ _ => startsWith_ascii a3 h)
    (fun _ _ _ => startsWith_ascii a4 h) (fun _ _ _ _ _ _ _ => startsWith_ascii a5 h)

theorem startsWith_succeeds {pre s : List Char} (hp : IsAscii pre) {α : Type} {f : Bool → R α} {c : α}
    (h : (startsWith pre s >>= f) = .ok c) :
    startsWith pre s = .ok (pre.isPrefixOf s) ∧ f (pre.isPrefixOf s) = .ok c := by
  obtain ⟨b, hb, h⟩ := R.bind_ok.1 h
  rw [startsWith_ok hp hb] at h hb
  exact ⟨hb, h⟩

theorem dispatch_ok {s : List Char} {c : Command} (h : dispatch s = .ok c) : c = commandOf s := by
  have key : dispatch s = .ok (commandOf s) := by
    obtain ⟨a1, a2, a3, a4, a5⟩ := ascii_lits
    unfold dispatch at h
    obtain ⟨h1, h⟩ := startsWith_succeeds a1 h
    have k2 : "//".toList.isPrefixOf s = false → _ := fun c1 => startsWith_succeeds a2 (by rw [c1, if_neg (by simp)] at h; exact h)
    have k3 : "//".toList.isPrefixOf s = false → "!sp".toList.isPrefixOf s = false → _ := fun c1 c2 =>
      startsWith_succeeds a3 (by
        have := (k2 c1).2
        have e1 : ¬ (s == "!spA".toList) = true := by
          intro he; rw [eq_of_beq he] at c2; revert c2; decide
        have e2 : ¬ (s == "!spB".toList) = true := by
          intro he; rw [eq_of_beq he] at c2; revert c2; decide
        rw [c2, if_neg (by simp), if_neg e1, if_neg e2] at this
        exact this)
    have sp_s : "!s".toList.isPrefixOf s = false → "!sp".toList.isPrefixOf s = false := by
      intro c3
      rw [Bool.eq_false_iff, Ne, List.isPrefixOf_iff_prefix] at c3 ⊢
      intro hp
      exact c3 (List.IsPrefix.trans (by decide) hp)
    have k4 : "//".toList.isPrefixOf s = false → "!s".toList.isPrefixOf s = false → s ≠ "!dtf".toList → _ :=
      fun c1 c3 c4 => startsWith_succeeds a4 (by
        have := (k3 c1 (sp_s c3)).2
        rw [c3, if_neg (by simp), if_neg (mt beq_iff_eq.1 c4)] at this
        exact this)
    have k5 : "//".toList.isPrefixOf s = false → "!s".toList.isPrefixOf s = false → s ≠ "!dtf".toList →
        "!por ".toList.isPrefixOf s = false → s ≠ "!pse".toList → s ≠ "!peb 0".toList → s ≠ "!peb 1".toList → _ :=
      fun c1 c3 c4 c5 c6 c7 c8 => startsWith_succeeds a5 (by
        have := (k4 c1 c3 c4).2
        rw [c5, if_neg (by simp), if_neg (mt beq_iff_eq.1 c6), if_neg (mt beq_iff_eq.1 c7),
          if_neg (mt beq_iff_eq.1 c8)] at this
        exact this)
    exact dispatch_of_tests h1 (fun c1 => (k2 c1).1) (fun c1 c2 => (k3 c1 c2).1) (fun c1 c3 c4 => (k4 c1 c3 c4).1)
      (fun c1 c3 c4 c5 c6 c7 c8 => (k5 c1 c3 c4 c5 c6 c7 c8).1)
  rw [h] at key
  exact Except.ok.inj key

theorem ite_ne_of {α : Type} {p : Prop} [Decidable p] {a b x : α} (ha : a ≠ x) (hb : b ≠ x) :
    (if p then a else b) ≠ x := by by_cases h : p <;> simp [h, ha, hb]

theorem dispatch_ne_stepA (s : List Char) : dispatch s ≠ .ok .stepA := by
  intro h
  refine absurd (dispatch_ok h).symm ?_
  unfold commandOf
  iterate 13 refine ite_ne_of (fun e => Command.noConfusion e) ?_
  exact fun e => Command.noConfusion e

theorem dispatch_ne_stepB (s : List Char) : dispatch s ≠ .ok .stepB := by
  intro h
  refine absurd (dispatch_ok h).symm ?_
  unfold commandOf
  iterate 13 refine ite_ne_of (fun e => Command.noConfusion e) ?_
  exact fun e => Command.noConfusion e

theorem Ascii.isAscii {s : List Char} (h : Ascii s) : IsAscii s := fun c hc => utf8Size_one (h c hc)

theorem startsWith_prefix {pre s : List Char} (hp : IsAscii pre) (h : pre <+: s) : startsWith pre s = .ok true := by
  unfold startsWith
  have h1 := byteLen_prefix h
  rw [hp.byteLen] at h1
  rw [if_pos h1]
  have := bytePrefix_of_prefix h
  rw [hp.byteLen] at this
  rw [this]
  simp [bind, Except.bind]

theorem dispatch_comment {s : List Char} (h : "//".toList <+: s) : dispatch s = .ok .comment := by
  unfold dispatch
  rw [startsWith_prefix ascii_lits.1 h]
  rfl

/-- a prefix test with the same beginning does not fail -/
theorem startsWith_in {pre q s : List Char} (hp : IsAscii pre) (hq : IsAscii q) (h : q <+: s) (hl : pre.length ≤ q.length) :
    startsWith pre s = .ok (pre.isPrefixOf s) := by
  have h1 : q.take pre.length <+: s := (List.take_prefix _ _).trans h
  have h2 : IsAscii (q.take pre.length) := fun c hc => hq c (List.mem_of_mem_take hc)
  have h3 := bytePrefix_of_prefix h1
  rw [h2.byteLen, List.length_take, Nat.min_eq_left hl] at h3
  have h4 := byteLen_prefix h
  rw [hq.byteLen] at h4
  cases hs : startsWith pre s with
  | ok b => rw [startsWith_ok hp hs]
  | error e =>
    unfold startsWith at hs
    rw [if_pos (by omega), h3] at hs
    cases hs

theorem not_prefix_of_head {a b : Char} {p q s : List Char} (h : (b :: q) <+: s) (hab : a ≠ b) :
    (a :: p).isPrefixOf s = false := by
  obtain ⟨t, rfl⟩ := h
  simp [List.isPrefixOf, hab]

theorem dispatch_step {s : List Char} (h : "!sp".toList <+: s) : dispatch s = .ok .step := by
  obtain ⟨a1, a2, a3, a4, a5⟩ := ascii_lits
  have c1 : "//".toList.isPrefixOf s = false := not_prefix_of_head (b := '!') (q := ['s', 'p']) h (by decide)
  have c2 : "!sp".toList.isPrefixOf s = true := List.isPrefixOf_iff_prefix.2 h
  have c3 : "!s".toList.isPrefixOf s = true := List.isPrefixOf_iff_prefix.2 (List.IsPrefix.trans (by decide) h)
  rw [dispatch_of_tests (startsWith_in a1 a2 h (by decide)) (fun _ => startsWith_in a2 a2 h (by decide))
    (fun _ hx => by rw [c2] at hx; cases hx) (fun _ hx => by rw [c3] at hx; cases hx)
    (fun _ hx => by rw [c3] at hx; cases hx)]
  unfold commandOf
  rw [c1, c2, if_neg (by decide), if_pos rfl]

theorem dispatch_register {s : List Char} (h : "!por ".toList <+: s) : dispatch s = .ok (.register (s.drop 5)) := by
  obtain ⟨a1, a2, a3, a4, a5⟩ := ascii_lits
  have c1 : "//".toList.isPrefixOf s = false := not_prefix_of_head h (by decide)
  have c3 : "!s".toList.isPrefixOf s = false := by
    obtain ⟨t, rfl⟩ := h; rfl
  have c2 : "!sp".toList.isPrefixOf s = false := by
    obtain ⟨t, rfl⟩ := h; rfl
  have c4 : "!por ".toList.isPrefixOf s = true := List.isPrefixOf_iff_prefix.2 h
  have c5 : s ≠ "!dtf".toList := by
    rintro rfl; revert c4; decide
  rw [dispatch_of_tests (startsWith_in a1 a4 h (by decide)) (fun _ => startsWith_in a2 a4 h (by decide))
    (fun _ _ => startsWith_in a3 a4 h (by decide)) (fun _ _ _ => startsWith_in a4 a4 h (by decide))
    (fun _ _ _ hx => by rw [c4] at hx; cases hx)]
  unfold commandOf
  rw [c1, c2, c3, c4, if_neg (by decide), if_neg (by decide), if_neg (by decide), if_neg c5, if_pos rfl]

theorem bytePrefix_cut {c d : Char} {rest : List Char} {n : Nat} (hc : c.utf8Size = 1) (hd : 1 < d.utf8Size)
    (hn : n = 2) : bytePrefix (c :: d :: rest) n = .error .index := by
  subst hn
  have : ¬ d.utf8Size ≤ 1 := by omega
  simp [bytePrefix, hc, this, bind, Except.bind]

theorem dispatch_cut {c d : Char} {rest : List Char} (hc : c.utf8Size = 1) (hd : 1 < d.utf8Size) :
    dispatch (c :: d :: rest) = .error .index := by
  unfold dispatch
  have : startsWith "//".toList (c :: d :: rest) = .error .index := by
    unfold startsWith
    rw [if_pos (by
      have h2 : byteLen (c :: d :: rest) = c.utf8Size + (d.utf8Size + byteLen rest) := by simp [byteLen]
      rw [h2]; show _ ≥ 2; omega), bytePrefix_cut hc hd (by decide)]
    rfl
  rw [this]
  rfl

end Nar
