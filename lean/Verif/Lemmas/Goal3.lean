import Verif.Lemmas.Goal2
/-! # Lemmas about sampling goals -/
namespace Nar
open Term

theorem binSearch_spec (val : Rat) : ∀ (n : Nat) (arr : List Entry), arr.length = n → arr ≠ [] →
    arr.Pairwise (fun a b => a.accDesirability ≤ b.accDesirability) →
    ∃ first e later, binSearch arr val = .ok e ∧ arr = first ++ e :: later ∧
      (first = [] ∨ e.accDesirability ≤ val) ∧ ∀ x ∈ later, val < x.accDesirability := by
  intro n
  induction n using Nat.strongRecOn with
  | _ n ih =>
    intro arr hlen hne hs
    match arr, hne with
    | [e], _ => exact ⟨[], e, [], by simp [binSearch], rfl, .inl rfl, by simp⟩
    | e1 :: e2 :: rest, _ =>
      rw [binSearch]
      set arr := e1 :: e2 :: rest with harr
      have hl : arr.length = rest.length + 2 := by simp [harr]
      have hmid : arr.length / 2 < arr.length := by omega
      simp only [List.getElem?_eq_getElem hmid]
      have hsplit := List.take_append_drop (arr.length / 2) arr
      have hdrop : arr.drop (arr.length / 2) = arr[arr.length / 2] :: arr.drop (arr.length / 2 + 1) :=
        List.drop_eq_getElem_cons hmid
      rw [← hsplit, List.pairwise_append] at hs
      by_cases hgt : arr[arr.length / 2].accDesirability > val
      · simp only [if_pos hgt]
        obtain ⟨first, e, later, h1, h2, h3, h4⟩ := ih (arr.take (arr.length / 2)).length (by simp; omega) _ rfl
          (by intro hc; have := congrArg List.length hc; simp at this; omega) hs.1
        refine ⟨first, e, later ++ arr.drop (arr.length / 2), h1, ?_, h3, ?_⟩
        · conv_lhs => rw [← hsplit, h2]
          simp
        · intro x hx
          rw [List.mem_append] at hx
          rcases hx with hx | hx
          · exact h4 x hx
          · have hd := hs.2.1
            rw [hdrop] at hd hx
            rw [List.pairwise_cons] at hd
            rcases List.mem_cons.1 hx with rfl | hx
            · exact hgt
            · exact lt_of_lt_of_le hgt (hd.1 x hx)
      · simp only [if_neg hgt]
        obtain ⟨first, e, later, h1, h2, h3, h4⟩ := ih (arr.drop (arr.length / 2)).length (by simp; omega) _ rfl
          (by intro hc; have := congrArg List.length hc; simp at this; omega) hs.2.1
        refine ⟨arr.take (arr.length / 2) ++ first, e, later, h1, ?_, ?_, h4⟩
        · conv_lhs => rw [← hsplit, h2]
          simp
        · rcases h3 with rfl | h3
          · right
            rw [hdrop] at h2
            have := List.head_eq_of_cons_eq h2
            rw [← this]
            exact le_of_not_gt hgt
          · exact .inr h3

theorem selBatchLoop_spec (p : Rat) (bs : List (List Group)) (sum : Rat) (sel : List Group) (h1 : sum < p)
    (h2 : p ≤ sum + (bs.filter (fun level => decide (level ≠ []))).length) :
    ∃ k : Nat, (bs.filter (fun level => decide (level ≠ [])))[k]? = some (selBatchLoop p bs sum sel) ∧
      sum + k < p ∧ p ≤ sum + k + 1 := by
  induction bs generalizing sum sel with
  | nil => simp at h2; linarith
  | cons b bs ih =>
    unfold selBatchLoop
    rw [if_neg (by linarith)]
    by_cases hb : b = []
    · subst hb
      have hf : ([] :: bs).filter (fun level => decide (level ≠ [])) =
          bs.filter (fun level : List Group => decide (level ≠ [])) := by simp
      rw [hf] at h2 ⊢
      simp only [List.length_nil, gt_iff_lt, lt_self_iff_false, if_false]
      exact ih sum sel h1 h2
    · have hpos : b.length > 0 := List.length_pos_iff.2 hb
      rw [if_pos hpos]
      have hf : (b :: bs).filter (fun level => decide (level ≠ [])) =
          b :: bs.filter (fun level => decide (level ≠ [])) := by simp [hb]
      rw [hf] at h2 ⊢
      by_cases hc : sum + 1 < p
      · obtain ⟨k, hk1, hk2, hk3⟩ := ih (sum + 1) b hc (by push_cast [List.length_cons] at h2; linarith)
        refine ⟨k + 1, ?_, ?_, ?_⟩
        · simpa using hk1
        · push_cast; linarith
        · push_cast; linarith
      · refine ⟨0, ?_, by simpa using h1, by simp; linarith⟩
        have : selBatchLoop p bs (sum + 1) b = b := by
          cases bs with
          | nil => rfl
          | cons c bs => unfold selBatchLoop; rw [if_pos (by linarith)]
        simp [this]

theorem selBatchLoop_zero (bs : List (List Group)) (sum p : Rat) (sel : List Group) (h : p ≤ sum) :
    selBatchLoop p bs sum sel = sel := by
  cases bs with
  | nil => rfl
  | cons c bs => unfold selBatchLoop; rw [if_pos (by linarith)]

theorem selBatchLoop_mem (p : Rat) (bs : List (List Group)) (sum : Rat) (sel : List Group) :
    selBatchLoop p bs sum sel = sel ∨ selBatchLoop p bs sum sel ∈ bs := by
  induction bs generalizing sum sel with
  | nil => exact .inl rfl
  | cons b bs ih =>
    unfold selBatchLoop
    split
    · exact .inl rfl
    · split
      · rcases ih (sum + 1) b with h | h
        · exact .inr (by rw [h]; simp)
        · exact .inr (by simp [h])
      · rcases ih sum sel with h | h
        · exact .inl h
        · exact .inr (by simp [h])

theorem groupWeight_iff (gr : Group) (w : Rat) : groupWeight gr = .ok w ↔ Weight gr w := by
  unfold groupWeight Weight
  cases hl : gr.entries.getLast? with
  | none =>
    rw [List.getLast?_eq_none_iff] at hl
    simp [hl]
  | some last =>
    obtain ⟨ini, hini⟩ := List.getLast?_eq_some_iff.1 hl
    constructor
    · intro h
      exact ⟨ini, last, hini, (Except.ok.inj h).symm⟩
    · rintro ⟨ini', last', h1, rfl⟩
      have := hl
      rw [h1, List.getLast?_append] at this
      simp at this
      rw [this]

theorem weights_iff (gs : List Group) (ws : List Rat) (h : gs.mapM groupWeight = .ok ws) : TotalWeight gs ws.sum := by
  rw [mapM_ok_iff] at h
  induction h with
  | nil => exact .nil
  | cons h1 _ ih => rw [List.sum_cons]; exact .cons ((groupWeight_iff _ _).1 h1) ih

theorem TotalWeight.unique {gs : List Group} {W W' : Rat} (h : TotalWeight gs W) (h' : TotalWeight gs W') : W = W' := by
  induction h generalizing W' with
  | nil => cases h'; rfl
  | cons hw _ ih =>
    cases h' with
    | cons hw' ht' =>
      have e1 := (groupWeight_iff _ _).2 hw
      have e2 := (groupWeight_iff _ _).2 hw'
      rw [e1] at e2
      rw [Except.ok.inj e2, ih ht']

theorem TotalWeight.append {gs hs : List Group} {W V : Rat} (h : TotalWeight gs W) (h' : TotalWeight hs V) :
    TotalWeight (gs ++ hs) (W + V) := by
  induction h with
  | nil => simpa using h'
  | cons hw _ ih => rw [add_assoc]; exact .cons hw ih

/-- groups with entries in range and ordered positions -/
def LevelOk (level : List Group) : Prop :=
  ∀ gr ∈ level, gr.entries ≠ [] ∧ gr.entries.Pairwise (fun a b => a.accDesirability ≤ b.accDesirability) ∧
    ∀ e ∈ gr.entries, 0 ≤ e.accDesirability ∧ 0 ≤ e.desirability

theorem LevelOk.weight {level : List Group} (h : LevelOk level) {gr : Group} (hgr : gr ∈ level) :
    ∃ w, groupWeight gr = .ok w ∧ 0 ≤ w := by
  obtain ⟨h1, -, h3⟩ := h gr hgr
  unfold groupWeight
  cases hl : gr.entries.getLast? with
  | none => exact absurd (List.getLast?_eq_none_iff.1 hl) h1
  | some last =>
    have := h3 last (List.mem_of_getLast? hl)
    exact ⟨_, rfl, by linarith⟩

theorem LevelOk.total {level : List Group} (h : LevelOk level) : ∃ ws, level.mapM groupWeight = .ok ws ∧ 0 ≤ ws.sum := by
  induction level with
  | nil => exact ⟨[], by simp [pure, Except.pure], by simp⟩
  | cons gr gs ih =>
    obtain ⟨ws, h1, h2⟩ := ih (fun g hg => h g (by simp [hg]))
    obtain ⟨w, h3, h4⟩ := h.weight (List.mem_cons_self)
    refine ⟨w :: ws, ?_, by simp; linarith⟩
    rw [mapM_ok_iff] at h1 ⊢
    exact .cons h3 h1

theorem selGroupLoop_spec {p total : Rat} (gs pre : List Group) (sum rest : Rat) (hok : LevelOk gs)
    (hpre : TotalWeight pre sum) (hrest : TotalWeight gs rest) (htot : sum + rest ≤ total) (hp : sum ≤ p) :
    ∃ r, selGroupLoop total p gs sum = .ok r ∧
      match r with
      | none => sum + rest ≤ p
      | some _ => SampledFrom (pre ++ gs) p r := by
  induction gs generalizing pre sum rest with
  | nil =>
    cases hrest
    exact ⟨none, rfl, by simpa using hp⟩
  | cons gr gs ih =>
    cases hrest with
    | @cons _ _ w W hw hW =>
      obtain ⟨w', hw', hw0⟩ := hok.weight (List.mem_cons_self (a := gr) (l := gs))
      have hww : w' = w := by
        have := (groupWeight_iff _ _).2 hw
        rw [hw'] at this; exact Except.ok.inj this
      subst hww
      obtain ⟨ws, hws, hws0⟩ := LevelOk.total (level := gs) (fun g hg => hok g (by simp [hg]))
      have hW0 : 0 ≤ W := by rw [hW.unique (weights_iff gs ws hws)]; exact hws0
      unfold selGroupLoop
      rw [if_pos (by linarith), hw']
      simp only [bind, Except.bind]
      by_cases hc : w' + sum > p
      · rw [if_pos hc]
        obtain ⟨h1, h2, -⟩ := hok gr (by simp)
        obtain ⟨first, e, later, b1, b2, b3, b4⟩ := binSearch_spec p _ gr.entries rfl h1 h2
        rw [b1]
        refine ⟨some (e.sentence, e.depth), rfl, ?_⟩
        exact ⟨pre, gr, gs, sum, w', rfl, hpre, hw, hp, by linarith, first, e, later, b2, rfl, rfl, b3, b4⟩
      · rw [if_neg hc]
        obtain ⟨r, hr1, hr2⟩ := ih (pre ++ [gr]) (sum + w') W (fun g hg => hok g (by simp [hg]))
          (by have := hpre.append (TotalWeight.cons hw .nil); simpa using this) hW (by linarith) (by linarith)
        refine ⟨r, hr1, ?_⟩
        cases r with
        | none => simp only at hr2 ⊢; linarith
        | some x => simpa using hr2

theorem GInv.levelOk {g : GoalSystem} (hi : GInv g) {level : List Group} (h : level ∈ g.batchesByDepth) : LevelOk level := by
  intro gr hgr
  obtain ⟨i, hi'⟩ := List.getElem?_of_mem h
  have o := hi.groups i level hi' gr hgr
  refine ⟨o.nonempty, o.accSorted, ?_⟩
  intro e he
  have := hi.entries e (.inr ⟨i, level, gr, hi', hgr, he⟩)
  exact ⟨this.acc0, this.des0⟩

theorem sum_indicator (l : List (List Group)) :
    (l.map (fun iv => if iv.length > 0 then (1 : Rat) else 0)).sum =
      ((l.filter (fun level => decide (level ≠ []))).length : Rat) := by
  induction l with
  | nil => simp
  | cons b l ih =>
    simp only [List.map_cons, List.sum_cons, ih]
    by_cases hb : b = []
    · subst hb; simp
    · have hpos : b.length > 0 := List.length_pos_iff.2 hb
      simp [hb, hpos]; ring

/-- sampling from a chosen level -/
theorem goalSample_level {g : GoalSystem} (hi : GInv g) {d1 d2 : Rat} {level : List Group} (hd0 : 0 ≤ d2)
    (hs : selBatch g d1 = .ok level) (hm : level ∈ g.batchesByDepth) :
    ∃ r W, goalSample g d1 d2 = .ok r ∧ TotalWeight level W ∧ 0 ≤ W ∧ SampledFrom level (d2 * W) r := by
  have hok := hi.levelOk hm
  obtain ⟨ws, hws, h0⟩ := hok.total
  unfold goalSample
  rw [hs]
  simp only [bind, Except.bind]
  by_cases hl : level.length = 0
  · rw [if_pos hl]
    have : level = [] := List.length_eq_zero_iff.1 hl
    subst this
    refine ⟨none, 0, rfl, .nil, le_refl _, ?_⟩
    intro W hW
    cases hW; simp
  · rw [if_neg hl, hws]
    have hW := weights_iff level ws hws
    obtain ⟨r, hr1, hr2⟩ := selGroupLoop_spec (p := d2 * ws.sum) (total := ws.sum) level [] 0 ws.sum hok .nil hW
      (by linarith) (mul_nonneg hd0 h0)
    refine ⟨r, ws.sum, hr1, hW, h0, ?_⟩
    cases r with
    | none =>
      intro W' hW'
      rw [hW'.unique hW]
      simp at hr2; exact hr2
    | some x => simpa using hr2

end Nar
