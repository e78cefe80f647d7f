import Verif.Spec.Trail
import Verif.Lemmas.Meaning2
import Verif.Lemmas.Server
/-! # Lemmas: the trail of evidence -/
namespace Nar
open Term

theorem FollowsFrom.mono {env : Env} {ops : List NarOp} {ids ids' : List Int} (hi : ∀ id ∈ ids, id ∈ ids') {s : Sentence}
    (h : FollowsFrom env ops ids s) : FollowsFrom env ops ids' s := by
  induction h with
  | told h1 h2 => exact .told (hi _ h1) h2
  | pool _ _ h1 h2 h3 ih1 ih2 => exact .pool ih1 ih2 h1 h2 h3
  | two _ _ h ih1 ih2 => exact .two ih1 ih2 h
  | alone _ h ih => exact .alone ih h
  | used u _ ih => exact .used u ih

/-- what holds of the recorded statements and is kept by inference holds of what follows from them -/
theorem FollowsFrom.closed {P : Sentence → Prop} (hP : SentClosed P) {env : Env} {ops : List NarOp} {ids : List Int}
    (ht : ∀ k, ∀ id ∈ ids, ∀ term tv, Recorded env ops k id term tv → P (newEternalSentenceByTv term .JUGEMENT tv ⟨[id]⟩))
    {s : Sentence} (h : FollowsFrom env ops ids s) : P s := by
  induction h with
  | told h1 h2 => exact ht _ _ h1 _ _ h2
  | pool _ _ h1 h2 h3 ih1 ih2 => exact hP.pool _ _ _ _ ih1 ih2 h1 h2 h3
  | two _ _ h ih1 ih2 => exact hP.two _ _ _ _ ih1 ih2 h
  | alone _ h ih => exact hP.alone _ _ _ ih h
  | used u _ ih => exact hP.used _ u ih

theorem merge_short {a b : Stamp} (h : (Stamp.merge a b).ids.length < 120) :
    (Stamp.merge a b).ids = Stamp.interleave a.ids b.ids ∧ a.ids.length < 120 ∧ b.ids.length < 120 := by
  rw [merge_length] at h
  refine ⟨?_, by omega, by omega⟩
  rw [Stamp.merge_ids, List.take_of_length_le]
  rw [Stamp.interleave_length]; omega

/-- the trail is a record: each number in it is that of a statement told, and if it was not cut the sentence follows from these
statements -/
def Traced (env : Env) (ops : List NarOp) (s : Sentence) : Prop :=
  (∀ id ∈ s.stamp.ids, ∃ k term tv, Recorded env ops k id term tv) ∧
  (s.stamp.ids.length < 120 → FollowsFrom env ops s.stamp.ids s)

theorem merge_mem {a b : Stamp} {id : Int} (h : id ∈ (Stamp.merge a b).ids) : id ∈ a.ids ∨ id ∈ b.ids := by
  rw [Stamp.merge_ids] at h
  exact (Stamp.mem_interleave _ _ _).1 (List.mem_of_mem_take h)

theorem traced_closed (env : Env) (ops : List NarOp) : SentClosed (Traced env ops) where
  pool cell b s r hb hs hsame hno h := by
    have hst : r.stamp = Stamp.merge b.stamp s.stamp := by
      obtain ⟨ta, tb, tv, h1, h2, h3, rfl⟩ := revisedBelief_ok h
      rfl
    refine ⟨fun id hid => ?_, fun hl => ?_⟩
    · rw [hst] at hid
      rcases merge_mem hid with hid | hid
      · exact hb.1 id hid
      · exact hs.1 id hid
    · rw [hst] at hl ⊢
      obtain ⟨h1, h2, h3⟩ := merge_short hl
      exact .pool ((hb.2 h2).mono (fun id hid => by rw [h1, Stamp.mem_interleave]; exact .inl hid))
        ((hs.2 h3).mono (fun id hid => by rw [h1, Stamp.mem_interleave]; exact .inr hid)) hsame hno h
  used s u h := ⟨h.1, fun hl => .used u (h.2 hl)⟩
  two p s c w hp hs h := by
    have hst := (follows_stamp h).2
    refine ⟨fun id hid => ?_, fun hl => ?_⟩
    · rw [hst] at hid
      rcases merge_mem hid with hid | hid
      · exact hp.1 id hid
      · exact hs.1 id hid
    · rw [hst] at hl ⊢
      obtain ⟨h1, h2, h3⟩ := merge_short hl
      exact .two ((hp.2 h2).mono (fun id hid => by rw [h1, Stamp.mem_interleave]; exact .inl hid))
        ((hs.2 h3).mono (fun id hid => by rw [h1, Stamp.mem_interleave]; exact .inr hid)) h
  alone p c w hp h := by
    have hst := followsAlone_stamp h
    refine ⟨fun id hid => hp.1 id (hst ▸ hid), fun hl => ?_⟩
    rw [hst] at hl ⊢
    exact .alone (hp.2 hl) h

theorem runNar_traced {env : Env} {ops : List NarOp} {r : Reasoner} (h : runNar env ops = .ok r) :
    RInv (fun _ => Traced env ops) (fun _ => True) r := by
  refine (moreNar_RInv_numbers ⟨fun _ => traced_closed env ops, fun _ _ _ _ h => h⟩ h ?_ (fun _ _ _ _ _ _ _ => trivial)
    (createNar_RInv _ _)).1
  intro pre post op r0 r1 he hr hop _ term tv ht n hn hn'
  have hrec : Recorded env ops pre.length n term tv := by
    refine ⟨op, r0, r1, by rw [he]; simp, ?_, hop, ht, hn, hn'⟩
    rw [he, List.take_left]
    exact hr
  have hid : n ∈ (newEternalSentenceByTv term .JUGEMENT tv ⟨[n]⟩).stamp.ids := by simp [newEternalSentenceByTv]
  refine ⟨fun id hi => ?_, fun _ => .told hid hrec⟩
  simp only [newEternalSentenceByTv, List.mem_singleton] at hi
  subst hi
  exact ⟨_, _, _, hrec⟩

/-! ## numbers are given out once -/

theorem recorded_before {env : Env} {ops : List NarOp} {j k : Nat} {op : NarOp} {r r' r2 : Reasoner} (ho : ops[j]? = some op)
    (h1 : runNar env (ops.take j) = .ok r) (h2 : op.run env r = .ok r') (h3 : runNar env (ops.take k) = .ok r2) (hjk : j < k) :
    idsGiven r' ≤ idsGiven r2 := by
  have hs : ops.take (j + 1) = ops.take j ++ [op] := by
    rw [List.take_succ, ho]; rfl
  have hr' : runNar env (ops.take (j + 1)) = .ok r' := by
    rw [hs, runNar_snoc, h1]; exact h2
  have hk : ops.take k = ops.take (j + 1) ++ (ops.take k).drop (j + 1) := by
    conv_lhs => rw [← List.take_append_drop (j + 1) (ops.take k)]
    rw [List.take_take, Nat.min_eq_left (by omega)]
  rw [hk] at h3
  obtain ⟨r3, g1, g2⟩ := moreNar_append.1 h3
  have : r3 = r' := by
    have : (Except.ok r3 : R Reasoner) = .ok r' := g1.symm.trans hr'
    exact Except.ok.inj this
  subst this
  refine (moreNar_RInv (P := fun _ _ => True) (Q := fun _ => True) ⟨fun _ => ⟨?_, ?_, ?_, ?_⟩, fun _ _ _ _ _ => trivial⟩ g2
    ?_ ?_ ?_).2
  all_goals first
    | (intros; trivial)
    | exact (runNar_stamps g1).imp (fun _ _ => trivial)

/-! ## amounts -/

theorem rule2_c {a b c : Term} {ta tb tc : Tv} (h : Rule2 a ta b tb c tc) (ha : Tv.InRange ta) (hb : Tv.InRange tb) :
    tc.c ≤ ta.c ∧ tc.c ≤ tb.c := by
  cases h <;> first
    | exact ⟨(Tv.int_range ha hb).2.1, (Tv.int_range ha hb).2.2⟩
    | exact ⟨Tv.ded_c_le_left ha hb, Tv.ded_c_le_right ha hb⟩
    | exact (Tv.abd_range ha hb).2.2
    | exact ⟨(Tv.abd_range hb ha).2.2.2, (Tv.abd_range hb ha).2.2.1⟩
    | exact (Tv.comp_range ha hb).2.2

theorem wt_mono {c d : Rat} (h0 : 0 ≤ c) (h : c ≤ d) (hd : d < 1) : Tv.wt c ≤ Tv.wt d := by
  unfold Tv.wt
  rw [div_le_div_iff₀ (by linarith) (by linarith)]
  nlinarith

/-- the confidence is covered by the evidence behind the numbers of the trail, unless the trail was cut -/
def Covered (e : Int → Rat) (s : Sentence) : Prop :=
  s.punct = .JUGEMENT ∧ ∃ tv, s.evi = some (.TV tv) ∧ Tv.Sane tv ∧
    (s.stamp.ids.length < 120 → Tv.wt tv.c ≤ (s.stamp.ids.map e).sum)

theorem Covered.retTv {e : Int → Rat} {s : Sentence} (h : Covered e s) {o : Option Tv} (he : retTv s = .ok o) :
    ∃ tv, o = some tv ∧ Tv.Sane tv ∧ (s.stamp.ids.length < 120 → Tv.wt tv.c ≤ (s.stamp.ids.map e).sum) := by
  obtain ⟨_, tv, h1, h2, h3⟩ := h
  unfold Nar.retTv at he
  rw [h1] at he; cases he
  exact ⟨tv, rfl, h2, h3⟩

theorem merge_sum (e : Int → Rat) {a b : Stamp} (h : (Stamp.merge a b).ids.length < 120) :
    ((Stamp.merge a b).ids.map e).sum = (a.ids.map e).sum + (b.ids.map e).sum := by
  rw [(merge_short h).1, ((Stamp.interleave_perm a.ids b.ids).map e).sum_eq, List.map_append, List.sum_append]

theorem covered_closed {e : Int → Rat} (he : ∀ i, 0 ≤ e i) : SentClosed (Covered e) where
  pool cell b s r hb hs hsame hno h := by
    obtain ⟨ta, tb, tv, h1, h2, h3, rfl⟩ := revisedBelief_ok h
    obtain ⟨_, e1, sa, ka⟩ := hb.retTv h1
    cases e1
    obtain ⟨_, e2, sb, kb⟩ := hs.retTv h2
    cases e2
    obtain ⟨tv', e3, hr⟩ := Tv.rev_sane sa sb
    rw [h3] at e3; cases e3
    refine ⟨hb.1, tv, rfl, hr, ?_⟩
    show (Stamp.merge b.stamp s.stamp).ids.length < 120 → Tv.wt tv.c ≤ ((Stamp.merge b.stamp s.stamp).ids.map e).sum
    intro hl
    obtain ⟨_, hl1, hl2⟩ := merge_short hl
    rw [merge_sum e hl]
    have wa := Tv.wt_nonneg sa.2.2.1 sa.2.2.2
    have wb := Tv.wt_nonneg sb.2.2.1 sb.2.2.2
    rw [Tv.rev_eq sa.2.2.2 sb.2.2.2] at h3
    have hw : Tv.wt tv.c = Tv.wt ta.c + Tv.wt tb.c := by
      rw [← Option.some.inj h3]; exact Tv.wt_w2c (by linarith)
    rw [hw]
    exact add_le_add (ka hl1) (kb hl2)
  used s u h := h
  two p s c w hp hs h := by
    obtain ⟨cs, w', h, hc⟩ := h
    obtain ⟨ta, tb, rs, h1, h2, hbin, rfl⟩ := inference_ok h
    obtain ⟨ta, rfl, sa, ka⟩ := hp.retTv h1
    obtain ⟨tb, rfl, sb, kb⟩ := hs.retTv h2
    split at hc
    · simp at hc
    · obtain ⟨⟨t, tv, q⟩, hr, e'⟩ := List.mem_map.1 hc
      cases e'
      rw [hp.1, hs.1] at hbin
      have : q = .JUGEMENT ∧ Tv.Sane tv ∧ tv.c ≤ ta.c := by
        rcases ((infBinary_ok hbin).1 _).1 hr with hm | hm
        · obtain ⟨rfl, hrule⟩ := (binaryRules_iff t tv q).1 hm
          exact ⟨rfl, rule2_sane hrule sa sb, (rule2_c hrule sa.range sb.range).1⟩
        · obtain ⟨rfl, hrule⟩ := (binaryRules_iff t tv q).1 hm
          exact ⟨rfl, rule2_sane hrule sa sb, (rule2_c hrule sa.range sb.range).1⟩
      refine ⟨this.1, tv, rfl, this.2.1, ?_⟩
      show (Stamp.merge p.stamp s.stamp).ids.length < 120 → Tv.wt tv.c ≤ ((Stamp.merge p.stamp s.stamp).ids.map e).sum
      intro hl
      rw [merge_sum e hl]
      have hb : 0 ≤ (s.stamp.ids.map e).sum := List.sum_nonneg (by simpa using fun i _ => he i)
      have := wt_mono this.2.1.2.2.1 this.2.2 sa.2.2.2
      have := ka (merge_short hl).2.1
      linarith
  alone p c w hp h := by
    obtain ⟨cs, h, hc⟩ := h
    obtain ⟨ta, rs, h1, hs, rfl⟩ := infSinglePremise2_ok h
    obtain ⟨⟨t, tv, q, v⟩, hr, e'⟩ := List.mem_map.1 hc
    cases e'
    obtain ⟨ta', rfl, _, rfl, hrule⟩ := infSinglePremise_rule hs hr
    obtain ⟨_, e', sa, ka⟩ := hp.retTv h1
    cases e'
    refine ⟨rfl, tv, rfl, rule1_sane hrule sa, fun hl => ?_⟩
    rw [rule1_c hrule]
    exact ka hl

end Nar
