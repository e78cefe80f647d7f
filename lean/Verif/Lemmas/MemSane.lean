import Verif.Lemmas.Mem2
/-! # Memories of sane beliefs never crash -/
namespace Nar
open Term

/-- all beliefs of the memory are sane -/
def SaneMem (m : Mem) : Prop :=
  ∀ c ∈ m, (∀ b ∈ c.beliefsByExp, SaneBelief b) ∧ (∀ b ∈ c.beliefsByUsage, SaneBelief b)

theorem storeTable_total (key : Sentence → R Rat) (table : List Sentence) (s : Sentence) (n : Nat)
    (hk : ∀ b, SaneBelief b → ∃ k, key b = .ok k) (ht : ∀ b ∈ table, SaneBelief b) (hs : SaneBelief s) :
    ∃ table', storeTable key table s n = .ok table' ∧ ∀ b ∈ table', SaneBelief b := by
  have hex : ∃ table', storeTable key table s n = .ok table' := by
    unfold storeTable
    split
    · exact ⟨_, rfl⟩
    · obtain ⟨r, hr⟩ := keyed_ok_of (key := key) (l := table ++ [shallowCopySentence s]) (by
        intro b hb
        apply hk
        rcases List.mem_append.1 hb with hb | hb
        · exact ht b hb
        · simp at hb; rw [hb]; exact hs)
      rw [hr]; exact ⟨_, rfl⟩
  obtain ⟨table', h⟩ := hex
  refine ⟨table', h, ?_⟩
  intro b hb
  rcases storeTable_mem h b hb with hb | rfl
  · exact ht b hb
  · exact hs

theorem sane_exp (b : Sentence) (h : SaneBelief b) : ∃ k, expOf b = .ok k := by
  obtain ⟨tv, htv, _⟩ := h
  exact ⟨_, (expOf_iff _ _).2 ⟨tv, htv, rfl⟩⟩

theorem reviseTable_total (cell : List Int) (table : List Sentence) (s : Sentence)
    (ht : ∀ b ∈ table, SaneBelief b) (hs : SaneBelief s) :
    ∃ r, reviseTable cell table s = .ok r ∧ ∀ b ∈ r.1, SaneBelief b := by
  have hrev : ∀ b, SaneBelief b → ∃ add, revisedBelief cell b s = .ok add ∧ SaneBelief add := by
    rintro b ⟨ta, hta, ha⟩
    obtain ⟨tb, htb, hb⟩ := hs
    obtain ⟨tv, hr, hv⟩ := Tv.rev_sane (a := ta) (b := tb) ha hb
    refine ⟨{ term := b.term, t := b.t, punct := b.punct, stamp := Stamp.merge b.stamp s.stamp,
              expDt := b.expDt, evi := some (.TV tv), usage := ⟨0, 0, cell⟩ }, ?_, ⟨tv, ?_, hv⟩⟩
    · unfold revisedBelief
      unfold HasTruth at hta htb
      rw [hta, htb]
      simp only [bind, Except.bind, unwrap, hr]
    · rfl
  have hex : ∃ r, reviseTable cell table s = .ok r := by
    unfold reviseTable
    split
    · exact ⟨_, rfl⟩
    · rename_i i hf
      rw [List.findIdx?_eq_some_iff_getElem] at hf
      obtain ⟨hi, _⟩ := hf
      obtain ⟨add, hadd, _⟩ := hrev table[i] (ht _ (List.getElem_mem hi))
      unfold indexAt
      rw [List.getElem?_eq_getElem hi]
      simp only [bind, Except.bind, hadd]
      exact ⟨_, rfl⟩
  obtain ⟨r, h⟩ := hex
  refine ⟨r, h, ?_⟩
  rcases reviseTable_cases h with ⟨_, rfl⟩ | ⟨pre, b, post, add, rfl, _, _, _, hr, rfl⟩
  · exact ht
  · intro x hx
    simp only [List.mem_append, List.mem_singleton] at hx
    rcases hx with (hx | hx) | rfl
    · exact ht x (by simp [hx])
    · exact ht x (by simp [hx])
    · obtain ⟨add', h1, h2⟩ := hrev b (ht b (by simp))
      rw [hr] at h1; cases h1; exact h2

theorem foldlM_total {α β} {f : β → α → R β} (P : β → Prop) (l : List α)
    (hs : ∀ a ∈ l, ∀ b, P b → ∃ b', f b a = .ok b' ∧ P b') (b : β) (h0 : P b) :
    ∃ b', l.foldlM f b = .ok b' ∧ P b' := by
  induction l generalizing b with
  | nil => exact ⟨b, rfl, h0⟩
  | cons a l ih =>
    obtain ⟨b1, h1, hP⟩ := hs a (by simp) b h0
    obtain ⟨b', h2, hP'⟩ := ih (fun a ha => hs a (by simp [ha])) b1 hP
    exact ⟨b', foldlM_cons_ok.2 ⟨b1, h1, h2⟩, hP'⟩

theorem store_total (m : Mem) (s : Sentence) (sub : List Term) (n : Nat) (now : Int)
    (hm : SaneMem m) (hs : s.punct = .JUGEMENT → SaneBelief s) :
    ∃ m', storeInConcepts2 m s sub n now = .ok m' ∧ SaneMem m' := by
  unfold storeInConcepts2
  split
  · exact ⟨m, rfl, hm⟩
  · rename_i hp
    have hs := hs (by simpa using hp)
    apply foldlM_total SaneMem _ _ m hm
    intro t _ m hm
    cases hg : m.get t with
    | none =>
      refine ⟨m ++ [⟨t, [s], [s]⟩], by unfold storeAt; rw [hg]; rfl, ?_⟩
      intro c hc
      rcases List.mem_append.1 hc with hc | hc
      · exact hm c hc
      · simp at hc; subst hc; simpa using hs
    | some c =>
      have hc := hm c (Mem.get_some hg).1
      obtain ⟨e, he, hse⟩ := storeTable_total expOf _ s n sane_exp hc.1 hs
      obtain ⟨u, hu, hsu⟩ := storeTable_total (usefulOf now) _ s n (fun b _ => ⟨_, rfl⟩) hc.2 hs
      refine ⟨m.set { c with beliefsByExp := e, beliefsByUsage := u }, ?_, ?_⟩
      · unfold storeAt; rw [hg]; simp only [he, hu]; rfl
      · intro d hd
        rcases Mem.mem_set hd with rfl | ⟨hd, _⟩
        · exact ⟨hse, hsu⟩
        · exact hm d hd

theorem revise_total (m : Mem) (s : Sentence)
    (hm : SaneMem m) (hs : s.punct = .JUGEMENT → SaneBelief s) :
    ∃ st, memReviseBelief m s = .ok st ∧ SaneMem st.1 := by
  unfold memReviseBelief
  split
  · exact ⟨_, rfl, hm⟩
  · rename_i hp
    have hs := hs (by simpa using hp)
    apply foldlM_total (fun st : Mem × Option Sentence => SaneMem st.1) _ _ (m, none) hm
    intro t _ st hm
    cases hg : st.1.get t with
    | none => exact ⟨st, by unfold reviseAt; rw [hg], hm⟩
    | some c =>
      have hc := hm c (Mem.get_some hg).1
      obtain ⟨r1, h1, hs1⟩ := reviseTable_total (nextCell s st.2) _ s hc.1 hs
      obtain ⟨r2, h2, hs2⟩ := reviseTable_total (nextCell s (r1.2.or st.2)) _ s hc.2 hs
      refine ⟨(st.1.set { c with beliefsByExp := r1.1, beliefsByUsage := r2.1 }, r2.2.or (r1.2.or st.2)), ?_, ?_⟩
      · unfold reviseAt; rw [hg]; simp only [h1, bind, Except.bind, h2]
      · intro d hd
        rcases Mem.mem_set hd with rfl | ⟨hd, _⟩
        · exact ⟨hs1, hs2⟩
        · exact hm d hd

end Nar
