import Verif.Lemmas.Meaning1
/-! # Lemmas: what does not fit the world rests on many observations -/
namespace Nar
open Term

/-- the confidence is no more than half a unit of evidence per observation gives -/
def Weak (tv : Tv) (n : Nat) : Prop := tv.c * (n + 2) ≤ n

theorem Weak.mono {ta tb : Tv} {n m : Nat} (h : Weak ta n) (hc : tb.c ≤ ta.c) (hn : n ≤ m) (hs : Tv.InRange ta) : Weak tb m := by
  unfold Weak at *
  have h1 : (n : Rat) ≤ m := by exact_mod_cast hn
  have h2 : (0 : Rat) ≤ n := by positivity
  have h3 := hs.2.2.1
  have h4 := hs.2.2.2
  nlinarith

theorem weak_half {tv : Tv} {n : Nat} (h : tv.c ≤ 1 / 2) (hn : 2 ≤ n) : Weak tv n := by
  unfold Weak
  have h1 : (2 : Rat) ≤ n := by exact_mod_cast hn
  nlinarith

theorem weak_zero {tv : Tv} {n : Nat} (h : tv.c = 0) : Weak tv n := by unfold Weak; rw [h]; simp

theorem weak_wt {tv : Tv} {n : Nat} (h : tv.c < 1) : Weak tv n ↔ 2 * Tv.wt tv.c ≤ n := by
  unfold Weak Tv.wt
  have h1 : 0 < 1 - tv.c := by linarith
  rw [← mul_div_assoc, div_le_iff₀ h1]
  constructor <;> intro h <;> linarith

theorem merge_length (a b : Stamp) : (Stamp.merge a b).ids.length = min 120 (a.ids.length + b.ids.length) := by
  rw [Stamp.merge_ids, List.length_take, Stamp.interleave_length]

section
variable {D T : Type} [Preorder T] (M : World D T)

/-- the truth value fits the world, or the confidence is weak for the number of observations -/
def Tenable (t : Term) (tv : Tv) (n : Nat) : Prop := Fits M t tv ∨ Weak tv n

theorem Tv.ded_comm (a b : Tv) : Tv.ded a b = Tv.ded b a := by
  unfold Tv.ded; simp only [Tv.mk.injEq]; constructor <;> ring

theorem Tv.int_comm (a b : Tv) : Tv.int a b = Tv.int b a := by
  unfold Tv.int; simp only [Tv.mk.injEq]; constructor <;> ring

theorem mul_eq_one_sane {x y : Rat} (hx0 : 0 ≤ x) (hx : x ≤ 1) (hy0 : 0 ≤ y) (hy : y ≤ 1) (h : x * y = 1) : x = 1 ∧ y = 1 :=
  ⟨by nlinarith, by nlinarith⟩

theorem rule2_tenable {a b c : Term} {ta tb tc : Tv} {na nb : Nat} (h : Rule2 a ta b tb c tc) (ha : OnlyUniversal a)
    (hb : OnlyUniversal b) (sa : Tv.Sane ta) (sb : Tv.Sane tb) (hna : 0 < na) (hnb : 0 < nb)
    (hf : (Tenable M a ta na ∧ Tenable M b tb nb) ∨ (Tenable M a tb nb ∧ Tenable M b ta na)) :
    Tenable M c tc (na + nb) := by
  have ra := sa.range
  have rb := sb.range
  rcases rule2_kind h ha hb with ⟨rfl, h1⟩ | ⟨rfl, h1, h2⟩ | rfl | rfl | rfl
  · -- deduction
    have key : ∀ {ta tb : Tv} {na nb : Nat}, Tv.Sane ta → Tv.Sane tb → Tenable M a ta na → Tenable M b tb nb →
        Tenable M c (Tv.ded ta tb) (na + nb) := by
      intro ta tb na nb sa sb k1 k2
      rcases k1 with k1 | k1
      · rcases k2 with k2 | k2
        · by_cases hz : (Tv.ded ta tb).f = 0
          · refine .inr (weak_zero ?_)
            simp only [Tv.ded] at hz ⊢
            rw [hz, mul_zero]
          · refine .inl ⟨fun ho => ?_, fun h0 => absurd h0 hz⟩
            simp only [Tv.ded] at ho
            obtain ⟨e1, e2⟩ := mul_eq_one_sane sa.1 sa.2.1 sb.1 sb.2.1 ho
            exact h1 D T _ M (k1.1 e1) (k2.1 e2)
        · exact .inr (k2.mono (Tv.ded_c_le_right sa.range sb.range) (by omega) sb.range)
      · exact .inr (k1.mono (Tv.ded_c_le_left sa.range sb.range) (by omega) sa.range)
    rcases hf with ⟨k1, k2⟩ | ⟨k1, k2⟩
    · exact key sa sb k1 k2
    · rw [Tv.ded_comm, Nat.add_comm]; exact key sb sa k1 k2
  · have key : ∀ {ta tb : Tv} {na nb : Nat}, Tv.Sane ta → Tv.Sane tb → Tenable M a ta na → Tenable M b tb nb →
        Tenable M c (Tv.int ta tb) (na + nb) := by
      intro ta tb na nb sa sb k1 k2
      have hr := Tv.int_range sa.range sb.range
      rcases k1 with k1 | k1
      · rcases k2 with k2 | k2
        · refine .inl ⟨fun ho => ?_, fun h0 => ?_⟩
          · simp only [Tv.int] at ho
            obtain ⟨e1, e2⟩ := mul_eq_one_sane sa.1 sa.2.1 sb.1 sb.2.1 ho
            exact h1 D T _ M (k1.1 e1) (k2.1 e2)
          · simp only [Tv.int] at h0
            rcases mul_eq_zero.1 h0 with h0 | h0
            · exact h2 D T _ M (.inl (k1.2 h0))
            · exact h2 D T _ M (.inr (k2.2 h0))
        · exact .inr (k2.mono hr.2.2 (by omega) sb.range)
      · exact .inr (k1.mono hr.2.1 (by omega) sa.range)
    rcases hf with ⟨k1, k2⟩ | ⟨k1, k2⟩
    · exact key sa sb k1 k2
    · rw [Tv.int_comm, Nat.add_comm]; exact key sb sa k1 k2
  · exact .inr (weak_half (Tv.abd_range ra rb).2.1 (by omega))
  · exact .inr (weak_half (Tv.abd_range rb ra).2.1 (by omega))
  · exact .inr (weak_half (Tv.comp_range ra rb).2.1 (by omega))

theorem rev_tenable {t : Term} {ta tb tc : Tv} {na nb : Nat} (h : Tv.rev ta tb = some tc) (sa : Tv.Sane ta) (sb : Tv.Sane tb)
    (ka : Tenable M t ta na) (kb : Tenable M t tb nb) : Tenable M t tc (na + nb) := by
  rw [Tv.rev_eq sa.2.2.2 sb.2.2.2] at h
  have wa := Tv.wt_nonneg sa.2.2.1 sa.2.2.2
  have wb := Tv.wt_nonneg sb.2.2.1 sb.2.2.2
  have hw : Tv.wt tc.c = Tv.wt ta.c + Tv.wt tb.c := by
    rw [← Option.some.inj h]; exact Tv.wt_w2c (by linarith)
  have hc1 : tc.c < 1 := by
    rw [← Option.some.inj h]; exact Tv.w2c_lt_one (by linarith)
  have hf : tc.f = if Tv.wt ta.c + Tv.wt tb.c > 0 then (Tv.wt ta.c * ta.f + Tv.wt tb.c * tb.f) / (Tv.wt ta.c + Tv.wt tb.c) else 0 := by
    rw [← Option.some.inj h]
  -- if both are weak so is the result
  have both : Weak ta na → Weak tb nb → Tenable M t tc (na + nb) := by
    intro h1 h2
    refine .inr ((weak_wt hc1).2 ?_)
    rw [weak_wt sa.2.2.2] at h1; rw [weak_wt sb.2.2.2] at h2
    rw [hw]; push_cast; linarith
  by_cases hpos : Tv.wt ta.c + Tv.wt tb.c > 0
  swap
  · refine both ((weak_wt sa.2.2.2).2 ?_) ((weak_wt sb.2.2.2).2 ?_)
    · have : (0 : Rat) ≤ na := by positivity
      linarith
    · have : (0 : Rat) ≤ nb := by positivity
      linarith
  rw [if_pos hpos] at hf
  by_contra hn
  have hn' : ¬ Fits M t tc := fun h => hn (.inl h)
  -- a premise without weight or with the same extreme frequency does not fit either
  have one : ∀ {u : Tv} {n : Nat}, Tv.Sane u → Tenable M t u n → (Tv.wt u.c = 0 ∨ ¬ Fits M t u) → Weak u n := by
    intro u n su k h
    rcases h with h | h
    · rw [weak_wt su.2.2.2, h]; simp
    · exact k.resolve_left h
  have hcase : (tc.f = 1 ∧ ¬ TrueIn M t) ∨ (tc.f = 0 ∧ ¬ FalseIn M t) := by
    unfold Fits at hn'; tauto
  rcases hcase with ⟨h1, h2⟩ | ⟨h1, h2⟩
  · have e : Tv.wt ta.c * (1 - ta.f) + Tv.wt tb.c * (1 - tb.f) = 0 := by
      rw [h1, eq_div_iff hpos.ne'] at hf; linarith
    have ea : 0 ≤ Tv.wt ta.c * (1 - ta.f) := mul_nonneg wa (by linarith [sa.2.1])
    have eb : 0 ≤ Tv.wt tb.c * (1 - tb.f) := mul_nonneg wb (by linarith [sb.2.1])
    refine hn (both (one sa ka ?_) (one sb kb ?_))
    · rcases mul_eq_zero.1 (show Tv.wt ta.c * (1 - ta.f) = 0 by linarith) with h | h
      · exact .inl h
      · exact .inr (fun hh => h2 (hh.1 (by linarith)))
    · rcases mul_eq_zero.1 (show Tv.wt tb.c * (1 - tb.f) = 0 by linarith) with h | h
      · exact .inl h
      · exact .inr (fun hh => h2 (hh.1 (by linarith)))
  · have e : Tv.wt ta.c * ta.f + Tv.wt tb.c * tb.f = 0 := by
      rw [h1, eq_div_iff hpos.ne'] at hf; linarith
    have ea : 0 ≤ Tv.wt ta.c * ta.f := mul_nonneg wa sa.1
    have eb : 0 ≤ Tv.wt tb.c * tb.f := mul_nonneg wb sb.1
    refine hn (both (one sa ka ?_) (one sb kb ?_))
    · rcases mul_eq_zero.1 (show Tv.wt ta.c * ta.f = 0 by linarith) with h | h
      · exact .inl h
      · exact .inr (fun hh => h2 (hh.2 h))
    · rcases mul_eq_zero.1 (show Tv.wt tb.c * tb.f = 0 by linarith) with h | h
      · exact .inl h
      · exact .inr (fun hh => h2 (hh.2 h))

theorem rule1_c {a c : Term} {ta tc : Tv} (h : Rule1 a ta c tc) : tc.c = ta.c := by
  cases h <;> rfl

/-- a judgement about usual terms which fits the world unless it is weak or its trail was cut -/
def Trusty (s : Sentence) : Prop :=
  s.punct = .JUGEMENT ∧ 0 < s.stamp.ids.length ∧ Usual s.term ∧ ∃ tv, s.evi = some (.TV tv) ∧ Tv.Sane tv ∧
    (s.stamp.ids.length < 120 → Tenable M s.term tv s.stamp.ids.length)

variable {M}

theorem Trusty.retTv {s : Sentence} (h : Trusty M s) {o : Option Tv} (he : retTv s = .ok o) :
    ∃ tv, o = some tv ∧ Tv.Sane tv ∧ (s.stamp.ids.length < 120 → Tenable M s.term tv s.stamp.ids.length) := by
  obtain ⟨_, _, _, tv, h1, h2, h3⟩ := h
  unfold Nar.retTv at he
  rw [h1] at he; cases he
  exact ⟨tv, rfl, h2, h3⟩

variable (M)

theorem trusty_closed : SentClosed (Trusty M) where
  pool _ b s r hb hs hsame hno h := by
    obtain ⟨ta, tb, tv, h1, h2, h3, rfl⟩ := revisedBelief_ok h
    obtain ⟨_, e1, sa, ka⟩ := hb.retTv h1
    cases e1
    obtain ⟨_, e2, sb, kb⟩ := hs.retTv h2
    cases e2
    obtain ⟨tv', e, hr⟩ := Tv.rev_sane sa sb
    rw [h3] at e; cases e
    have pa := hb.2.1
    refine ⟨hb.1, ?_, hb.2.2.1, tv, rfl, hr, ?_⟩
    · show 0 < (Stamp.merge b.stamp s.stamp).ids.length
      rw [merge_length]; omega
    · show (Stamp.merge b.stamp s.stamp).ids.length < 120 → Tenable M b.term tv (Stamp.merge b.stamp s.stamp).ids.length
      rw [merge_length]
      intro hl
      have hl' : b.stamp.ids.length + s.stamp.ids.length < 120 := by omega
      rw [Nat.min_eq_right (by omega)]
      have kb := kb (by omega)
      rw [← hsame] at kb
      exact rev_tenable M h3 sa sb (ka (by omega)) kb
  used s u h := h
  two p s c w hp hs h := by
    obtain ⟨cs, w', h, hc⟩ := h
    obtain ⟨ta, tb, rs, h1, h2, hbin, rfl⟩ := inference_ok h
    obtain ⟨ta, rfl, sa, ka⟩ := hp.retTv h1
    obtain ⟨tb, rfl, sb, kb⟩ := hs.retTv h2
    have pa := hp.2.1
    have pb := hs.2.1
    split at hc
    · simp at hc
    · obtain ⟨⟨t, tv, q⟩, hr, e⟩ := List.mem_map.1 hc
      cases e
      rw [hp.1, hs.1] at hbin
      have hlen : (Stamp.merge p.stamp s.stamp).ids.length = min 120 (p.stamp.ids.length + s.stamp.ids.length) := merge_length _ _
      have : q = .JUGEMENT ∧ Tv.Sane tv ∧ Usual t ∧ ((Stamp.merge p.stamp s.stamp).ids.length < 120 →
          Tenable M t tv (Stamp.merge p.stamp s.stamp).ids.length) := by
        rcases ((infBinary_ok hbin).1 _).1 hr with hm | hm
        · obtain ⟨rfl, hrule⟩ := (binaryRules_iff t tv q).1 hm
          refine ⟨rfl, rule2_sane hrule sa sb, rule2_usual hrule hp.2.2.1 hs.2.2.1, fun hl => ?_⟩
          rw [hlen] at hl ⊢
          rw [Nat.min_eq_right (by omega)]
          exact rule2_tenable M hrule hp.2.2.1.universal hs.2.2.1.universal sa sb pa pb (.inl ⟨ka (by omega), kb (by omega)⟩)
        · obtain ⟨rfl, hrule⟩ := (binaryRules_iff t tv q).1 hm
          refine ⟨rfl, rule2_sane hrule sa sb, rule2_usual hrule hs.2.2.1 hp.2.2.1, fun hl => ?_⟩
          rw [hlen] at hl ⊢
          rw [Nat.min_eq_right (by omega)]
          exact rule2_tenable M hrule hs.2.2.1.universal hp.2.2.1.universal sa sb pa pb (.inr ⟨kb (by omega), ka (by omega)⟩)
      refine ⟨this.1, ?_, this.2.2.1, tv, rfl, this.2.1, this.2.2.2⟩
      show 0 < (Stamp.merge p.stamp s.stamp).ids.length
      rw [hlen]; omega
  alone p c w hp h := by
    obtain ⟨cs, h, hc⟩ := h
    obtain ⟨ta, rs, h1, hs, rfl⟩ := infSinglePremise2_ok h
    obtain ⟨⟨t, tv, q, v⟩, hr, e⟩ := List.mem_map.1 hc
    cases e
    obtain ⟨ta', rfl, _, rfl, hrule⟩ := infSinglePremise_rule hs hr
    obtain ⟨_, e, sa, ka⟩ := hp.retTv h1
    cases e
    refine ⟨rfl, hp.2.1, rule1_usual hrule hp.2.2.1, tv, rfl, rule1_sane hrule sa, fun hl => ?_⟩
    rcases ka hl with k | k
    · exact .inl (rule1_meaning hrule hp.2.2.1 M k)
    · exact .inr (k.mono (rule1_c hrule).le le_rfl sa.range)

theorem trusty_id : IdClosed (fun _ => Trusty M) := ⟨fun _ => trusty_closed M, fun _ _ _ _ h => h⟩

theorem trusty_told {term : Term} {tv : Tv} (h1 : Usual term) (h2 : Tv.Sane tv) (h3 : Fits M term tv) (n : Int) :
    Trusty M (newEternalSentenceByTv term .JUGEMENT tv ⟨[n]⟩) :=
  ⟨rfl, by simp [newEternalSentenceByTv], h1, tv, rfl, h2, fun _ => .inl h3⟩

theorem runNar_trusty {env : Env} {ops : List NarOp} {r : Reasoner} (h : runNar env ops = .ok r)
    (hu : UsualTelling env ops) (ht : TruthfulTelling M env ops) : RInv (fun _ => Trusty M) (fun _ => True) r := by
  refine (moreNar_RInv (trusty_id M) h ?_ (fun _ _ _ _ _ _ _ => trivial) (createNar_RInv _ _)).1
  intro pre post op r0 he hr term tv hk n _
  obtain ⟨h1, h2⟩ := hu pre op post r0 term tv he hr hk
  exact trusty_told M h1 h2 (ht pre op post r0 term tv he hr hk) n

end

theorem strong_not_weak {tv : Tv} {n : Nat} (h : (n : Rat) / (n + 2) < tv.c) : ¬ Weak tv n := by
  unfold Weak
  have h0 : (0 : Rat) < n + 2 := by positivity
  rw [div_lt_iff₀ h0] at h
  exact not_le.2 h

theorem trusty_fits {D T : Type} [Preorder T] {M : World D T} {s : Sentence} (h : Trusty M s) {tv : Tv} (htv : HasTruth s tv)
    (hn : s.stamp.ids.length < 120) (hc : (s.stamp.ids.length : Rat) / (s.stamp.ids.length + 2) < tv.c) : Fits M s.term tv := by
  obtain ⟨tv', e, _, k⟩ := h.retTv htv
  cases e
  exact (k hn).resolve_right (strong_not_weak hc)

end Nar
