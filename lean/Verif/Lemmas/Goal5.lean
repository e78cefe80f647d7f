import Verif.Lemmas.Goal4
import Mathlib.Tactic.Linarith
import Mathlib.Tactic.FieldSimp
/-! # Sampling weights when no goal was satisfied or limited -/
namespace Nar

/-- all goals are fully desired and know their position in their group -/
def Counted (g : GoalSystem) : Prop :=
  ∀ level ∈ g.batchesByDepth, ∀ gr ∈ level, ∀ (j : Nat) (e : Entry), gr.entries[j]? = some e →
    e.desirability = 1 ∧ e.accDesirability = j

theorem addEntry_counted {g g' : GoalSystem} {t : Int} {goal : Sentence} {ev : Option Nat} {d : Int}
    (h : addEntry g t goal ev d = .ok g') (hc : Counted g) : Counted g' := by
  rcases (addEntry_cases h).2 with ⟨-, rfl⟩ | ⟨-, h⟩
  · exact hc
  · rcases addEntry2_cases h with ⟨-, -, rfl⟩ | ⟨-, -, rfl⟩ | ⟨-, h⟩
    · exact hc
    · exact hc
    · obtain ⟨i, level, -, hl, hcs⟩ := addToLevel_cases h
      have hml := List.mem_of_getElem? hl
      rcases hcs with ⟨pre, gr, post, last, rfl, -, -, h4, rfl⟩ | ⟨-, rfl⟩
      · intro lv hlv
        rcases List.mem_or_eq_of_mem_set hlv with hlv | rfl
        · exact hc lv hlv
        · intro gr' hgr'
          rw [List.mem_append, List.mem_cons] at hgr'
          rcases hgr' with hgr' | rfl | hgr'
          · exact hc _ hml gr' (by simp [hgr'])
          · intro j e hj
            have hgr := hc _ hml gr (by simp)
            rw [List.getElem?_append] at hj
            split at hj
            · exact hgr j e hj
            · rename_i hlt
              rw [List.getElem?_singleton] at hj
              split at hj
              · rename_i h0
                cases hj
                have hlen : j = gr.entries.length := by omega
                have hne : gr.entries ≠ [] := by rintro h; rw [h] at h4; cases h4
                have hpos := List.length_pos_iff.2 hne
                rw [List.getLast?_eq_getElem?] at h4
                obtain ⟨a, b⟩ := hgr _ _ h4
                refine ⟨rfl, ?_⟩
                show last.accDesirability + max last.desirability 0 = _
                rw [a, b, hlen, max_eq_left (by norm_num)]
                rw [Nat.cast_sub hpos]; push_cast; ring
              · cases hj
          · exact hc _ hml gr' (by simp [hgr'])
      · intro lv hlv
        rcases List.mem_or_eq_of_mem_set hlv with hlv | rfl
        · exact hc lv hlv
        · intro gr' hgr'
          rw [List.mem_append, List.mem_singleton] at hgr'
          rcases hgr' with hgr' | rfl
          · exact hc _ hml gr' hgr'
          · intro j e hj
            rw [List.getElem?_singleton] at hj
            split at hj
            · rename_i h0
              cases hj; subst h0; exact ⟨rfl, by simp [newEntry]⟩
            · cases hj

theorem GoalOp.run_counted {decay : Int → Rat} {g g' : GoalSystem} {op : GoalOp} (h : op.run decay g = .ok g')
    (hop : (∀ t, op ≠ .limit t) ∧ ∀ e, op ≠ .event e) (hr : Counted g) : Counted g' := by
  cases op with
  | add t goal ev d => exact addEntry_counted h hr
  | event term => exact absurd rfl (hop.2 term)
  | limit t => exact absurd rfl (hop.1 t)
  | infer t m d1 d2 rng =>
    rcases sampleAndInference_cases h with ⟨-, rfl⟩ | ⟨goal, depth, cs1, rng1, cs2, rng2, -, -, -, hf⟩
    · exact hr
    · exact foldlM_inv Counted hf hr (fun a _ b b' hb ha => addEntry_counted ha hb)
  | executed i => rw [← Except.ok.inj h]; exact hr
  | configure n en => rw [← Except.ok.inj h]; exact hr

theorem runGoals_counted {decay : Int → Rat} {n d : Int} {ops : List GoalOp} {g : GoalSystem}
    (h : runGoals decay n d ops = .ok g) (hop : ∀ op ∈ ops, (∀ t, op ≠ .limit t) ∧ ∀ e, op ≠ .event e) : Counted g := by
  refine foldlM_inv Counted h ?_ (fun op ho b b' hb hr => GoalOp.run_counted hr (hop op ho) hb)
  intro level hl gr hgr
  simp [makeGoalSystem] at hl
  rw [hl.2] at hgr; simp at hgr

/-- number of goals in some groups -/
def entryCount (gs : List Group) : Nat := (gs.map (fun gr => gr.entries.length)).sum

theorem counted_weight {gr : Group} (hc : ∀ (j : Nat) (e : Entry), gr.entries[j]? = some e →
    e.desirability = 1 ∧ e.accDesirability = j) {w : Rat} (hw : Weight gr w) : w = gr.entries.length := by
  obtain ⟨ini, last, h1, rfl⟩ := hw
  obtain ⟨a, b⟩ := hc ini.length last (by rw [h1]; simp)
  rw [a, b, h1]; simp

theorem counted_total {gs : List Group} (hc : ∀ gr ∈ gs, ∀ (j : Nat) (e : Entry),
    gr.entries[j]? = some e → e.desirability = 1 ∧ e.accDesirability = j) {W : Rat} (hW : TotalWeight gs W) :
    W = entryCount gs := by
  induction hW with
  | nil => simp [entryCount]
  | cons hw _ ih =>
    rw [ih (fun gr h => hc gr (by simp [h])),
      counted_weight (hc _ (by simp)) hw]
    simp [entryCount]

/-- the position `p` lies in the segment of one group only -/
theorem segment_unique {pre pre' post post' : List Group} {gr gr' : Group} (h : pre ++ gr :: post = pre' ++ gr' :: post')
    {p : Rat} (h1 : (entryCount pre : Rat) ≤ p) (h2 : p < entryCount pre + gr.entries.length)
    (h3 : (entryCount pre' : Rat) ≤ p) (h4 : p < entryCount pre' + gr'.entries.length) : pre = pre' ∧ gr = gr' := by
  have hnat : entryCount pre < entryCount pre' + gr'.entries.length ∧
      entryCount pre' < entryCount pre + gr.entries.length := by
    constructor
    · have := lt_of_le_of_lt h1 h4
      exact_mod_cast this
    · have := lt_of_le_of_lt h3 h2
      exact_mod_cast this
  rcases List.append_eq_append_iff.1 h with ⟨a, ha, hb⟩ | ⟨a, ha, hb⟩
  · cases a with
    | nil => simp at ha hb; exact ⟨ha.symm, hb.1⟩
    | cons x a =>
      simp only [List.cons_append, List.cons.injEq] at hb
      rw [ha, ← hb.1] at hnat
      simp [entryCount] at hnat
  · cases a with
    | nil => simp at ha hb; exact ⟨ha, hb.1.symm⟩
    | cons x a =>
      simp only [List.cons_append, List.cons.injEq] at hb
      rw [ha, ← hb.1] at hnat
      simp [entryCount] at hnat

/-- what is sampled from counted groups at position `p` -/
theorem sampled_counted {level pre post : List Group} {gr : Group} (hlev : level = pre ++ gr :: post)
    (hc : ∀ x ∈ level, ∀ (j : Nat) (e : Entry), x.entries[j]? = some e →
      e.desirability = 1 ∧ e.accDesirability = j) {j : Nat} {e : Entry} (he : gr.entries[j]? = some e) {p W : Rat}
    (hW : TotalWeight level W)
    (hp : p = (max (entryCount pre) j : Nat)) (hj : entryCount pre ≤ j ∨ j + 1 = gr.entries.length)
    {r : Option (Sentence × Int)} (hs : SampledFrom level p r) : r = some (e.sentence, e.depth) := by
  have hjl := (List.getElem?_eq_some_iff.1 he).1
  have hpn : entryCount pre ≤ max (entryCount pre) j ∧ max (entryCount pre) j < entryCount pre + gr.entries.length := by
    omega
  have hp1 : (entryCount pre : Rat) ≤ p := by rw [hp]; exact_mod_cast hpn.1
  have hp2 : p < entryCount pre + gr.entries.length := by rw [hp]; exact_mod_cast hpn.2
  cases r with
  | none =>
    exfalso
    have h1 := hs W hW
    rw [counted_total hc hW, hp] at h1
    have h2 : entryCount level ≤ max (entryCount pre) j := by exact_mod_cast h1
    have h3 : entryCount level = entryCount pre + (gr.entries.length + entryCount post) := by
      rw [hlev]; simp [entryCount]
    omega
  | some q =>
    obtain ⟨s, dep⟩ := q
    obtain ⟨pre', gr', post', before, w, h1, h2, hw, h3, h4, first, e', later, h5, rfl, rfl, h7, h8⟩ := hs
    have hm' : gr' ∈ level := by rw [h1]; simp
    rw [counted_total (fun x hx => hc x (by rw [h1]; simp [hx])) h2] at h3 h4
    rw [counted_weight (hc _ hm') hw] at h4
    obtain ⟨rfl, rfl⟩ := segment_unique (hlev.symm.trans h1) hp1 hp2 h3 h4
    -- the index of the sampled goal
    have hidx : first.length = j := by
      have hacc := (hc _ hm' first.length e' (by rw [h5]; simp)).2
      have hlow : first.length ≤ max (entryCount pre) j := by
        rcases h7 with rfl | h7
        · simp
        · rw [hacc, hp] at h7; exact_mod_cast h7
      have hlen : gr.entries.length = first.length + 1 + later.length := by rw [h5]; simp; omega
      by_cases hl : later = []
      · subst hl
        simp at hlen
        rcases hj with hj | hj <;> omega
      · have hx := h8 (later.head hl) (List.head_mem hl)
        have hacc' := (hc _ hm' (first.length + 1) (later.head hl) (by
          rw [h5, List.getElem?_append_right (by omega)]
          cases later with
          | nil => exact absurd rfl hl
          | cons a l => simp)).2
        rw [hacc', hp] at hx
        have hx' : max (entryCount pre) j < first.length + 1 := by exact_mod_cast hx
        have hll := List.length_pos_iff.2 hl
        rcases hj with hj | hj <;> omega
    have : e' = e := by
      have h9 : gr.entries[first.length]? = some e' := by rw [h5]; simp
      rw [hidx, he] at h9
      exact (Option.some.inj h9).symm
    rw [this]

end Nar
