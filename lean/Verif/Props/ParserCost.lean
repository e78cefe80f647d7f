import Verif.Lemmas.ParserCost3
import Verif.Props.Parser
/-! # C93: the work needed to read a line -/
namespace Nar.Props

/-- C93: counting does not change what is read. -/
theorem C93_same_parser (pf : List Char → Option Rat) (line : List Char) :
    (parseNarseseC pf line).map Count.res = parseNarsese pf line := parseNarseseC_res pf line

example : (parseNarseseC someNumbers "<a --> b>.".toList) =
    .ok ⟨3, some (.Stmt .INH (.Name "a") (.Name "b"), ⟨1, 9/10⟩, .JUGEMENT, false)⟩ := by
  decide +kernel

/-- C93: the bound on the recursion depth in the model has no influence on the count. -/
theorem C93_depth_bound_is_irrelevant (i : List Char) (n : Nat) (h : i.length < n) :
    parseSubjOrPredC n i = parseEntryC i := parseSubjOrPredC_fuel _ _ _ h (by omega)

example : parseSubjOrPredC 50 "((a*b)*c)".toList = parseEntryC "((a*b)*c)".toList :=
  C93_depth_bound_is_irrelevant _ _ (by decide)

/-- C93, the part that holds: a line without an opening parenthesis, readable or not, is read
with at most one call for each of its characters.  Desired would be some bound of this kind for
all lines. -/
theorem C93_without_parentheses_partial (pf : List Char → Option Rat) (line : List Char)
    (h : '(' ∉ line) : lineCalls pf line ≤ line.length := by
  unfold lineCalls
  rcases hx : parseNarseseC pf line with e | x
  · exact Nat.zero_le _
  · rcases parseNarseseC_text hx with h0 | ⟨s, h1, h2, h3⟩
    · show x.calls ≤ _; omega
    · have hp := parseSubjOrPredC_linear (s.length + 1) s (fun hc => h (h3 _ hc))
      show x.calls ≤ _
      rw [h1]
      unfold parseEntryC
      rcases hr : (parseSubjOrPredC (s.length + 1) s).res with _ | ⟨a, r⟩
      · have := hp.2 hr; omega
      · have := (hp.1 a r hr).2; omega

example : lineCalls someNumbers "<{[a]} --> <b ==> [{c}]>>.".toList = 9 := by decide +kernel

/-- C93: reading always comes to an end: a line of `n` characters takes fewer than `11 ^ n`
calls. -/
theorem C93_always_ends (pf : List Char → Option Rat) (line : List Char) :
    10 * lineCalls pf line < 11 ^ line.length := by
  unfold lineCalls
  rcases hx : parseNarseseC pf line with e | x
  · exact Nat.pow_pos (by decide)
  · rcases parseNarseseC_text hx with h0 | ⟨s, h1, h2, h3⟩
    · show 10 * x.calls < _
      rw [h0]; exact Nat.pow_pos (by decide)
    · show 10 * x.calls < _
      rw [h1]
      exact Nat.lt_of_lt_of_le (parseEntryC_calls_le s) (Nat.pow_le_pow_right (by decide) h2)

example : lineCalls someNumbers "((a*b)*c).".toList = 26 := by decide +kernel

/-- C93, violation: a line of `n` opening parentheses, which is refused in the end, takes
`(9 ^ (n + 1) - 1) / 8` calls. -/
theorem C93_open_parentheses (pf : List Char → Option Rat) (n : Nat) :
    parseNarsese pf (parensLine n) = .ok none ∧ (parensLine n).length = n + 1 ∧
      8 * lineCalls pf (parensLine n) + 1 = 9 ^ (n + 1) := by
  have hA : Ascii (List.replicate n '(') := fun c hc => by
    rw [List.eq_of_mem_replicate hc]; decide
  have hs : '*' ∉ List.replicate n '(' := fun hc => absurd (List.eq_of_mem_replicate hc) (by decide)
  have hl := parseNarseseC_plain pf _ hA hs
  obtain ⟨h1, h2⟩ := parens_calls n ((List.replicate n '(').length + 1) (by simp)
  refine ⟨?_, by simp [parensLine], ?_⟩
  · rw [← C93_same_parser, parensLine, hl]
    unfold parseEntryC
    rw [h1]; rfl
  · rw [lineCalls, parensLine, hl]
    exact h2

/-- Twenty characters: more than 10 ^ 18 calls. -/
example (pf : List Char → Option Rat) : (parensLine 19).length = 20 ∧
    10 ^ 18 < lineCalls pf (parensLine 19) := by
  have := (C93_open_parentheses pf 19).2.2
  exact ⟨rfl, by omega⟩

/-- C93, violation: lines that are accepted take as long, if conjunctions are nested on the left:
`5 * n + 2` characters, `(3 * 7 ^ n - 1) / 2` calls. -/
theorem C93_nested_conjunctions (pf : List Char → Option Rat) (n : Nat) :
    parseNarsese pf (notation' (leftConj n) ++ ['.']) =
        .ok (some (leftConj n, ⟨1, 9/10⟩, .JUGEMENT, false)) ∧
      (notation' (leftConj n) ++ ['.']).length = 5 * n + 2 ∧
      2 * lineCalls pf (notation' (leftConj n) ++ ['.']) + 1 = 3 * 7 ^ n := by
  have hm : ∀ n, ∀ c ∈ notation' (leftConj n), c ∈ ['a', '(', '&', ')'] := by
    intro n
    induction n with
    | zero => intro c hc; simp [leftConj, notation'] at hc; simp [hc]
    | succ n ih =>
      have := leftConj_text n []
      simp only [List.append_nil] at this
      rw [this]
      intro c hc
      simp only [List.mem_cons, List.mem_append, List.not_mem_nil, or_false] at hc
      rcases hc with rfl | hc | rfl | rfl | rfl | rfl
      · simp
      · exact ih c hc
      all_goals simp
  have hA : Ascii (notation' (leftConj n)) := fun c hc => by
    have := hm n c hc
    simp only [List.mem_cons, List.not_mem_nil, or_false] at this
    rcases this with rfl | rfl | rfl | rfl <;> decide
  have hs : '*' ∉ notation' (leftConj n) := fun hc => absurd (hm n _ hc) (by decide)
  have hl := parseNarseseC_plain pf _ hA hs
  obtain ⟨m, h1, h2⟩ := leftConj_calls n ((notation' (leftConj n)).length + 1)
    (by rw [leftConj_length]; omega) [] (fun d k hd => nomatch hd)
  rw [List.append_nil] at h1
  refine ⟨?_, by simp [leftConj_length], ?_⟩
  · rw [← C93_same_parser, hl]
    unfold parseEntryC
    rw [h1]; rfl
  · rw [lineCalls, hl]
    unfold parseEntryC
    rw [h1]; exact h2

example : lineCalls someNumbers "((a&&a)&&a).".toList = 73 := by decide +kernel

/-- C93, violation: no polynomial in the length of the line bounds the work, not even for the
lines that are accepted. -/
theorem C93_not_polynomial (pf : List Char → Option Rat) :
    ¬ PolyBounded (fun line => ∃ s, parseNarsese pf line = .ok (some s)) (lineCalls pf) := by
  rintro ⟨c, k, h⟩
  obtain ⟨n, hn⟩ := pow_beats_poly (c * 2 ^ k) k
  obtain ⟨h1, h2, h3⟩ := C93_nested_conjunctions pf n
  have h4 := h _ ⟨_, h1⟩
  rw [h2] at h4
  have h5 : (5 * n + 2 + 1) ^ k ≤ (2 * (5 * n + 2)) ^ k := Nat.pow_le_pow_left (by omega) k
  have h6 : c * (5 * n + 2 + 1) ^ k ≤ c * 2 ^ k * (5 * n + 2) ^ k := by
    rw [mul_assoc, ← mul_pow]; exact Nat.mul_le_mul_left _ h5
  have h7 : 2 ^ n ≤ 7 ^ n := Nat.pow_le_pow_left (by decide) n
  have h8 : 0 < 7 ^ n := Nat.pow_pos (by decide)
  omega

end Nar.Props
