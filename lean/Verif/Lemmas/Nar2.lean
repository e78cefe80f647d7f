import Verif.Lemmas.Nar
import Verif.Lemmas.Parser5
import Verif.Lemmas.Parser4
/-! # Lemmas about inputs and lines -/
namespace Nar
open Term

/-! ## sentences told -/

theorem addBelief_other {m : Mem} {s : Sentence} {n : Nat} {t : Int} (h : s.punct ≠ .JUGEMENT) :
    addBelief m s n t = .ok (m, none) := by
  unfold addBelief memReviseBelief storeInConcepts storeInConcepts2
  simp [h, bind, Except.bind]

theorem memAddTask_question {cfg : Cfg} {sh sh' : Shared} {s : Sentence} {now : Int} (hq : s.punct = .QUESTION)
    (h : memAddTask cfg sh s true 1 now = .ok sh') :
    sh' = if (calcComplexity s.term : Int) ≤ cfg.maxComplexity
      then { sh with questionTasks := sh.questionTasks ++
        [{ sentence := shallowCopySentence s, handler := false, bestAnswerExp := 0, prio := 1 }] }
      else sh := by
  rcases memAddTask_cases h with ⟨h1, rfl⟩ | ⟨h1, mem, rev, h2, h3⟩
  · rw [if_neg (by omega)]
  · rw [if_pos h1]
    rw [addBelief_other (by rw [hq]; simp)] at h2
    cases h2
    simp only [Option.toList, addTasks, hq] at h3
    exact (Except.ok.inj h3).symm

/-! ## lines -/

theorem input_of_dispatch {env : Env} {r : Reasoner} {line : List Char} {d : LineDraws} {c : Command}
    (h : dispatch (trimNewline line) = .ok c) :
    input env r line d = (runCommand env r d (trimNewline line) c).map (fun x => (x.1, c == .quit, x.2)) := by
  unfold input
  simp only [h]
  cases hr : runCommand env r d (trimNewline line) c with
  | error e => simp [bind, Except.bind, hr, Except.map]
  | ok x => simp [bind, Except.bind, hr, Except.map]

theorem input_ok {env : Env} {r r' : Reasoner} {line : List Char} {d : LineDraws} {q : Bool} {out : List (List Char)}
    (h : input env r line d = .ok (r', q, out)) :
    dispatch (trimNewline line) = .ok (commandOf (trimNewline line)) ∧
    runCommand env r d (trimNewline line) (commandOf (trimNewline line)) = .ok (r', out) ∧
    q = (commandOf (trimNewline line) == .quit) := by
  unfold input at h
  obtain ⟨c, hc, h⟩ := R.bind_ok.1 h
  obtain ⟨⟨r1, out1⟩, h1, h⟩ := R.bind_ok.1 h
  have := dispatch_ok hc
  subst this
  cases h
  exact ⟨hc, h1, rfl⟩

theorem ite_eq_of {α : Type} {p : Prop} [Decidable p] {a b x : α} (ha : a ≠ x) (h : (if p then a else b) = x) :
    ¬ p ∧ b = x := by
  by_cases hp : p
  · rw [if_pos hp] at h; exact absurd h ha
  · rw [if_neg hp] at h; exact ⟨hp, h⟩

theorem commandOf_quit (s : List Char) : commandOf s = .quit ↔ s = "!QQ".toList := by
  constructor
  · intro h
    unfold commandOf at h
    iterate 11 replace h := (ite_eq_of (fun e => Command.noConfusion e) h).2
    by_cases hs : s = "!QQ".toList
    · exact hs
    · rw [if_neg hs] at h
      by_cases h0 : s = []
      · rw [if_pos h0] at h; cases h
      · rw [if_neg h0] at h; cases h
  · rintro rfl
    decide

theorem commandOf_narsese {s : List Char} (h : commandOf s = .narsese) : s ≠ [] := by
  rintro rfl
  revert h
  decide

/-! ## cycles -/

theorem cycle_time {env : Env} {r r' : Reasoner} {v : Rat} (h : cycle env r v = .ok r') :
    r'.currentTime = r.currentTime + 1 ∧ r'.sh.cycleCounter = r.sh.cycleCounter + 1 ∧ r'.proc = r.proc := by
  unfold cycle at h
  obtain ⟨⟨sh, msg, calls⟩, h1, h⟩ := R.bind_ok.1 h
  have ht : sh.cycleCounter = r.sh.cycleCounter + 1 := by
    rw [reasonCycle_time h1]; unfold Reasoner.look; split <;> rfl
  cases msg with
  | none => cases h; exact ⟨rfl, ht, rfl⟩
  | some m =>
    simp only [sendMsg] at h
    split at h
    · cases h; exact ⟨rfl, ht, rfl⟩
    · cases h

theorem declWork_time (env : Env) (r : Reasoner) :
    (declWork env r).currentTime = r.currentTime ∧ (declWork env r).sh.cycleCounter = r.sh.cycleCounter ∧
    (declWork env r).proc = r.proc := by
  unfold declWork
  split
  · split
    · exact ⟨rfl, rfl, rfl⟩
    · split
      · rename_i sh calls hw
        exact ⟨rfl, (outer_of_outer3 (work_outer3 hw)).2, rfl⟩
      · exact ⟨rfl, rfl, rfl⟩
  · exact ⟨rfl, rfl, rfl⟩

theorem declWorkN_time (env : Env) (r : Reasoner) (n : Nat) :
    (declWorkN env r n).currentTime = r.currentTime ∧ (declWorkN env r n).sh.cycleCounter = r.sh.cycleCounter ∧
    (declWorkN env r n).proc = r.proc := by
  induction n generalizing r with
  | zero => exact ⟨rfl, rfl, rfl⟩
  | succ n ih =>
    obtain ⟨h1, h2, h3⟩ := ih (declWork env r)
    obtain ⟨k1, k2, k3⟩ := declWork_time env r
    exact ⟨h1.trans k1, h2.trans k2, h3.trans k3⟩

theorem cyclesLoop_time {env : Env} {draws : Nat → Rat × Nat} {n i : Nat} {r r' : Reasoner}
    (h : cyclesLoop env draws n i r = .ok r') :
    r'.currentTime = r.currentTime + n ∧ r'.sh.cycleCounter = r.sh.cycleCounter + n ∧ r'.proc = r.proc := by
  induction n generalizing i r with
  | zero => cases h; exact ⟨by simp, by simp, rfl⟩
  | succ n ih =>
    unfold cyclesLoop at h
    obtain ⟨r1, h1, h⟩ := R.bind_ok.1 h
    obtain ⟨a1, a2, a3⟩ := ih h
    obtain ⟨b1, b2, b3⟩ := cycle_time h1
    obtain ⟨c1, c2, c3⟩ := declWorkN_time env r (draws i).2
    refine ⟨?_, ?_, by rw [a3, b3, c3]⟩
    · rw [a1, b1, c1]; push_cast; ring
    · rw [a2, b2, c2]; push_cast; ring

theorem commandOf_cycles {arg : List Char} (h : arg.head? ≠ some 'p') : commandOf ('!' :: 's' :: arg) = .cycles arg := by
  unfold commandOf
  have h1 : ("//".toList).isPrefixOf ('!' :: 's' :: arg) = false := not_prefix_of_head (b := '!') (q := []) (by simp) (by decide)
  have h2 : ("!sp".toList).isPrefixOf ('!' :: 's' :: arg) = false := by
    cases arg with
    | nil => rfl
    | cons c cs =>
      have hc : ¬ 'p' = c := by intro e; exact h (by rw [← e]; rfl)
      show List.isPrefixOf ['!', 's', 'p'] ('!' :: 's' :: c :: cs) = false
      simp [List.isPrefixOf, hc]
  have h3 : ("!s".toList).isPrefixOf ('!' :: 's' :: arg) = true := List.isPrefixOf_iff_prefix.2 ⟨arg, rfl⟩
  rw [h1, h2, h3, if_neg (by decide), if_neg (by decide), if_pos rfl]
  rfl

theorem dispatch_cycles {arg : List Char} (h : arg.head? ≠ some 'p') (h3 : ∀ c cs, arg = c :: cs → c.utf8Size = 1) :
    dispatch ('!' :: 's' :: arg) = .ok (.cycles arg) := by
  obtain ⟨a1, a2, a3, a4, a5⟩ := ascii_lits
  have c3 : ("!s".toList).isPrefixOf ('!' :: 's' :: arg) = true := List.isPrefixOf_iff_prefix.2 ⟨arg, rfl⟩
  have hp : "!s".toList <+: '!' :: 's' :: arg := ⟨arg, rfl⟩
  rw [← commandOf_cycles h]
  refine dispatch_of_tests (startsWith_in a1 a3 hp (by decide)) (fun _ => ?_) (fun _ _ => startsWith_in a3 a3 hp (by decide))
    (fun _ hx => by rw [c3] at hx; cases hx) (fun _ hx => by rw [c3] at hx; cases hx)
  cases arg with
  | nil => decide
  | cons c cs =>
    refine startsWith_in (q := ['!', 's', c]) a2 ?_ ⟨cs, rfl⟩ (by show 3 ≤ 3; omega)
    intro x hx
    simp only [List.mem_cons, List.not_mem_nil, or_false] at hx
    rcases hx with rfl | rfl | rfl
    · decide
    · decide
    · exact h3 _ _ rfl

theorem digitVal_isDigit {c : Char} (h : c.isDigit = true) : digitVal c = some (c.toNat - 48) := by
  unfold digitVal
  rw [if_pos]
  simp only [Char.isDigit, Bool.and_eq_true, decide_eq_true_eq] at h ⊢
  exact ⟨h.1, h.2⟩

theorem digitsVal_digits {l : List Char} (h : ∀ c ∈ l, c.isDigit = true) (n : Nat) :
    digitsVal l n = some (Nat.ofDigitChars 10 l n) := by
  induction l generalizing n with
  | nil => simp [digitsVal, Nat.ofDigitChars_nil]
  | cons c cs ih =>
    rw [Nat.ofDigitChars_cons, digitsVal, digitVal_isDigit (h c (List.mem_cons_self ..))]
    simp only
    rw [ih (fun x hx => h x (List.mem_cons_of_mem _ hx))]
    rfl

theorem parseI64_nat {n : Nat} (h : n < 2 ^ 63) : parseI64 (natStr n) = some (n : Int) := by
  have hd : ∀ c ∈ Nat.toDigits 10 n, c.isDigit = true := fun c hc => Nat.isDigit_of_mem_toDigits (by decide) (by decide) hc
  have hl : natStr n = Nat.toDigits 10 n := by unfold natStr; rw [Nat.toString_eq_ofList_toDigits]; simp
  have hv := digitsVal_digits hd 0
  rw [Nat.ofDigitChars_ten_toDigits] at hv
  rw [hl]
  have hne : Nat.toDigits 10 n ≠ [] := Nat.toDigits_ne_nil
  generalize Nat.toDigits 10 n = l at hd hv hne
  have h2 : (-(2:Int) ^ 63 ≤ (n : Int) ∧ (n : Int) < 2 ^ 63) := by
    constructor
    · have : (0:Int) ≤ 2 ^ 63 := by norm_num
      omega
    · exact_mod_cast h
  cases l with
  | nil => exact absurd rfl hne
  | cons c cs =>
    have hc := hd c (List.mem_cons_self ..)
    have c1 : c ≠ '-' := by rintro rfl; revert hc; decide
    have c2 : c ≠ '+' := by rintro rfl; revert hc; decide
    have hsv : signedVal (c :: cs) = some (n : Int) := by
      simp only [signedVal]
      rw [if_neg (by simpa using c1), if_neg (by simpa using c2), hv]
      rfl
    unfold parseI64
    rw [hsv]
    simp only
    rw [if_pos h2]

theorem signedVal_signed {n : Nat} : signedVal ('-' :: natStr n) = some (-(n : Int)) ∧ signedVal ('+' :: natStr n) = some (n : Int) := by
  have hd : ∀ c ∈ Nat.toDigits 10 n, c.isDigit = true := fun c hc => Nat.isDigit_of_mem_toDigits (by decide) (by decide) hc
  have hl : natStr n = Nat.toDigits 10 n := by unfold natStr; rw [Nat.toString_eq_ofList_toDigits]; simp
  have hv := digitsVal_digits hd 0
  rw [Nat.ofDigitChars_ten_toDigits] at hv
  rw [hl]
  have hne : (Nat.toDigits 10 n).isEmpty = false := by
    rw [List.isEmpty_eq_false_iff]; exact Nat.toDigits_ne_nil
  constructor
  · simp only [signedVal]
    rw [if_pos (by decide), hne, hv]
    rfl
  · simp only [signedVal]
    rw [if_neg (by decide), if_pos (by decide), hne, hv]
    rfl

theorem parseI64_neg {n : Nat} (h : n ≤ 2 ^ 63) : parseI64 ('-' :: natStr n) = some (-(n : Int)) := by
  unfold parseI64
  rw [signedVal_signed.1]
  simp only
  rw [if_pos]
  have : (n : Int) ≤ 2 ^ 63 := by exact_mod_cast h
  constructor <;> omega

theorem parseI64_plus {n : Nat} (h : n < 2 ^ 63) : parseI64 ('+' :: natStr n) = some (n : Int) := by
  unfold parseI64
  rw [signedVal_signed.2]
  simp only
  rw [if_pos]
  have : (n : Int) < 2 ^ 63 := by exact_mod_cast h
  constructor <;> omega

/-! ## unknown commands -/

theorem BlanksAtStars.head {s s' : List Char} (h : BlanksAtStars s s') (hs : s'.head? = some '!') : s.head? = some '!' := by
  induction h with
  | same => exact hs
  | after _ ih =>
    rename_i u v _
    apply ih
    cases u with
    | nil => simp at hs
    | cons a u => simpa using hs
  | before _ ih =>
    rename_i u v _
    apply ih
    cases u with
    | nil => simp at hs
    | cons a u => simpa using hs

theorem parseNarsese_bang {pf : List Char → Option Rat} {l : List Char} {x} :
    parseNarsese pf ('!' :: l) ≠ .ok (some x) := by
  obtain ⟨t, tv, p, ev⟩ := x
  intro h
  obtain ⟨h1, h2, junk, blanks, tvp, h3, h4, h5, h6, h7⟩ := parseNarsese_ok h
  obtain ⟨h8, h9⟩ := (tightenStars_iff _ ('!' :: l)).1 rfl
  have := h9.head rfl
  rw [h7] at this
  obtain ⟨c, l2, hc, hst⟩ := notation_start h2
  unfold looseLine at this
  rw [hc] at this
  simp at this
  subst this
  revert hst; decide

end Nar
