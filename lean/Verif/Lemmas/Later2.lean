import Verif.Lemmas.Later
import Verif.Lemmas.Rename5
import Verif.Lemmas.Ways
/-! # Later: the procedural reasoner -/
namespace Nar
open Term

theorem R.bind_when {α β} {x : R α} {k k' : α → R β} (h : ∀ a, x = .ok a → k a = k' a) : (x >>= k) = (x >>= k') := by
  cases x with
  | error e => rfl
  | ok a => exact h a rfl

/-! ## what was never used in an inference is not useful, whenever -/

/-- the belief was never used in an inference of the declarative reasoner -/
def Unused (s : Sentence) : Prop := s.usage.useCount = 0

theorem Unused.useful {s : Sentence} (h : Unused s) (now : Int) : usefulOf now s = .ok 0 := by
  unfold usefulOf calcUsageUsefulness
  rw [h]
  simp

theorem storeTableP_when {now now' : Int} {heap : List Sentence} (hh : ∀ b ∈ heap, Unused b) (table : List Nat) {s : Sentence}
    (hs : Unused s) (n : Nat) :
    storeTableP (usefulOf now) heap table s n = storeTableP (usefulOf now') heap table s n := by
  unfold storeTableP
  refine R.bind_same fun cells => ?_
  split
  · rfl
  · have e : (fun r => do let c ← indexAt (heap ++ [shallowCopySentence s]) r; usefulOf now c) =
        (fun r => do let c ← indexAt (heap ++ [shallowCopySentence s]) r; usefulOf now' c) := by
      funext r
      unfold indexAt
      cases hr : (heap ++ [shallowCopySentence s])[r]? with
      | none => rfl
      | some c =>
        have hc : Unused c := by
          rcases List.mem_append.1 (List.mem_of_getElem? hr) with h | h
          · exact hh c h
          · rw [List.mem_singleton.1 h]; exact hs
        show usefulOf now c = usefulOf now' c
        rw [hc.useful, hc.useful]
    simp only [e]

theorem storeTableP_unused {key : Sentence → R Rat} {heap : List Sentence} (hh : ∀ b ∈ heap, Unused b) {table : List Nat} {s : Sentence}
    (hs : Unused s) {n : Nat} {r : List Sentence × List Nat} (h : storeTableP key heap table s n = .ok r) : ∀ b ∈ r.1, Unused b := by
  unfold storeTableP at h
  obtain ⟨cells, -, h⟩ := R.bind_ok.1 h
  split at h
  · rw [← Except.ok.inj h]; exact hh
  · obtain ⟨temp, -, h⟩ := R.bind_ok.1 h
    rw [← Except.ok.inj h]
    intro b hb
    rcases List.mem_append.1 hb with h | h
    · exact hh b h
    · rw [List.mem_singleton.1 h]; exact hs

theorem storeAtP_unused {s : Sentence} (hs : Unused s) {n : Nat} {now : Int} {m m' : PMem} (hm : ∀ b ∈ m.heap, Unused b) {t : Term}
    (h : storeAtP s n now m t = .ok m') : ∀ b ∈ m'.heap, Unused b := by
  unfold storeAtP at h
  split at h
  · obtain ⟨e, he, h⟩ := R.bind_ok.1 h
    obtain ⟨u, hu, h⟩ := R.bind_ok.1 h
    rw [← Except.ok.inj h]
    exact storeTableP_unused (storeTableP_unused hm hs he) hs hu
  · rw [← Except.ok.inj h]
    intro b hb
    rcases List.mem_append.1 hb with h | h
    · exact hm b h
    · simp only [List.mem_cons, List.not_mem_nil, or_false] at h
      rcases h with h | h <;> (rw [h]; exact hs)

theorem storeAtP_when {s : Sentence} (hs : Unused s) (n : Nat) (now now' : Int) {m : PMem} (hm : ∀ b ∈ m.heap, Unused b) (t : Term) :
    storeAtP s n now m t = storeAtP s n now' m t := by
  unfold storeAtP
  cases m.get t with
  | none => rfl
  | some c =>
    simp only
    refine R.bind_when fun e he => ?_
    rw [storeTableP_when (now' := now') (storeTableP_unused hm hs he) c.byUsage hs n]

theorem foldlM_when {α σ} {P : σ → Prop} {f g : σ → α → R σ} {l : List α} (hk : ∀ a ∈ l, ∀ s s', P s → f s a = .ok s' → P s')
    (he : ∀ a ∈ l, ∀ s, P s → f s a = g s a) {s : σ} (h : P s) : l.foldlM f s = l.foldlM g s := by
  induction l generalizing s with
  | nil => rfl
  | cons a l ih =>
    rw [List.foldlM_cons, List.foldlM_cons, ← he a (.head _) s h]
    exact R.bind_when fun s' hs => ih (fun b hb => hk b (.tail _ hb)) (fun b hb => he b (.tail _ hb)) (hk a (.head _) s s' h hs)

theorem storeInConcepts2P_when {s : Sentence} (hs : Unused s) (n : Nat) (now now' : Int) {m : PMem} (hm : ∀ b ∈ m.heap, Unused b)
    (ts : List Term) : storeInConcepts2P m s ts n now = storeInConcepts2P m s ts n now' := by
  unfold storeInConcepts2P
  split
  · rfl
  · exact foldlM_when (P := fun m : PMem => ∀ b ∈ m.heap, Unused b) (fun t _ m m' hm h => storeAtP_unused hs hm h)
      (fun t _ m hm => storeAtP_when hs n now now' hm t) hm

theorem storeInConcepts2P_unused {s : Sentence} (hs : Unused s) {n : Nat} {now : Int} {m m' : PMem} (hm : ∀ b ∈ m.heap, Unused b)
    {ts : List Term} (h : storeInConcepts2P m s ts n now = .ok m') : ∀ b ∈ m'.heap, Unused b := by
  unfold storeInConcepts2P at h
  split at h
  · rw [← Except.ok.inj h]; exact hm
  · exact foldlM_inv (fun m : PMem => ∀ b ∈ m.heap, Unused b) h hm (fun t _ _ _ hm h => storeAtP_unused hs hm h)

theorem addInternal_when {s : Sentence} (hs : Unused s) (n : Nat) (now now' : Int) {m : PMem} (hm : ∀ b ∈ m.heap, Unused b) :
    memAddEvidenceInternal m s n now = memAddEvidenceInternal m s n now' := by
  unfold memAddEvidenceInternal
  exact R.bind_same fun c => R.bind_same fun p => storeInConcepts2P_when hs n now now' hm _

theorem addInternal_unused {s : Sentence} (hs : Unused s) {n : Nat} {now : Int} {m m' : PMem} (hm : ∀ b ∈ m.heap, Unused b)
    (h : memAddEvidenceInternal m s n now = .ok m') : ∀ b ∈ m'.heap, Unused b := by
  unfold memAddEvidenceInternal at h
  obtain ⟨c, -, h⟩ := R.bind_ok.1 h
  obtain ⟨p, -, h⟩ := R.bind_ok.1 h
  exact storeInConcepts2P_unused hs hm h

theorem matchVarS_unused {s : Sentence} (hs : Unused s) {rng : List Nat} {r : List Sentence × List Nat}
    (h : matchandintroVar1Sentence s rng = .ok r) : ∀ b ∈ r.1, Unused b := by
  unfold matchandintroVar1Sentence at h
  obtain ⟨ts, -, h⟩ := R.bind_ok.1 h
  rw [← Except.ok.inj h]
  intro b hb
  obtain ⟨t, -, rfl⟩ := List.mem_map.1 hb
  exact hs

theorem foldInternal_when {l : List Sentence} (hl : ∀ s ∈ l, Unused s) (n : Nat) (now now' : Int) {m : PMem}
    (hm : ∀ b ∈ m.heap, Unused b) :
    l.foldlM (fun m i => memAddEvidenceInternal m i n now) m = l.foldlM (fun m i => memAddEvidenceInternal m i n now') m := by
  exact foldlM_when (P := fun m : PMem => ∀ b ∈ m.heap, Unused b) (fun i hi m m' hm h => addInternal_unused (hl i hi) hm h)
    (fun i hi m hm => addInternal_when (hl i hi) n now now' hm) hm

theorem foldInternal_unused {l : List Sentence} (hl : ∀ s ∈ l, Unused s) {n : Nat} {now : Int} {m m' : PMem}
    (hm : ∀ b ∈ m.heap, Unused b) (h : l.foldlM (fun m i => memAddEvidenceInternal m i n now) m = .ok m') : ∀ b ∈ m'.heap, Unused b :=
  foldlM_inv (fun m : PMem => ∀ b ∈ m.heap, Unused b) h hm (fun i hi _ _ hm h => addInternal_unused (hl i hi) hm h)

theorem addEvidence_when {s : Sentence} (hs : Unused s) (n : Nat) (now now' : Int) {m : PMem} (hm : ∀ b ∈ m.heap, Unused b) (rng : List Nat) :
    memAddEvidence m s n now rng = memAddEvidence m s n now' rng := by
  unfold memAddEvidence
  rw [addInternal_when hs n now now' hm]
  refine R.bind_when fun m1 h => R.bind_when fun r hv => ?_
  exact foldInternal_when (matchVarS_unused hs hv) n now now' (addInternal_unused hs hm h)

theorem addEvidence_unused {s : Sentence} (hs : Unused s) {n : Nat} {now : Int} {m m' : PMem} (hm : ∀ b ∈ m.heap, Unused b) {rng : List Nat}
    (h : memAddEvidence m s n now rng = .ok m') : ∀ b ∈ m'.heap, Unused b := by
  unfold memAddEvidence at h
  obtain ⟨m1, h1, h⟩ := R.bind_ok.1 h
  obtain ⟨r, hv, h⟩ := R.bind_ok.1 h
  exact foldInternal_unused (matchVarS_unused hs hv) (addInternal_unused hs hm h1) h

theorem workerAdd_when {s : Sentence} (hs : Unused s) (n : Nat) (now now' : Int) {m : PMem} (hm : ∀ b ∈ m.heap, Unused b) (rng : List Nat) :
    workerAdd m s n now rng = workerAdd m s n now' rng := by
  unfold workerAdd
  rw [addInternal_when hs n now now' hm]
  cases h : memAddEvidenceInternal m s n now' with
  | error e => rfl
  | ok m1 =>
    simp only
    cases hv : matchandintroVar1Sentence s rng with
    | error e => rfl
    | ok r =>
      simp only
      rw [foldInternal_when (matchVarS_unused hs hv) n now now' (addInternal_unused hs hm h)]

theorem workerAdd_unused {s : Sentence} (hs : Unused s) (n : Nat) (now : Int) {m : PMem} (hm : ∀ b ∈ m.heap, Unused b) (rng : List Nat) :
    ∀ b ∈ (workerAdd m s n now rng).1.heap, Unused b := by
  unfold workerAdd
  cases h : memAddEvidenceInternal m s n now with
  | error e => exact hm
  | ok m1 =>
    simp only
    cases hv : matchandintroVar1Sentence s rng with
    | error e => exact addInternal_unused hs hm h
    | ok r =>
      simp only
      cases hf : r.1.foldlM (fun m i => memAddEvidenceInternal m i n now) m1 with
      | error e => exact addInternal_unused hs hm h
      | ok m2 => exact foldInternal_unused (matchVarS_unused hs hv) (addInternal_unused hs hm h) hf

theorem workerVisit_unused {s : Sentence} {st st' : List Sentence × Bool} (hh : ∀ b ∈ st.1, Unused b) {r : Nat}
    (h : workerVisit s st r = .ok st') : ∀ b ∈ st'.1, Unused b := by
  unfold workerVisit at h
  obtain ⟨b, hb, h⟩ := R.bind_ok.1 h
  obtain ⟨sup, -, h⟩ := R.bind_ok.1 h
  split at h
  · obtain ⟨b', hb', h⟩ := R.bind_ok.1 h
    rw [← Except.ok.inj h]
    intro x hx
    rcases List.mem_or_eq_of_mem_set hx with h | h
    · exact hh x h
    · rw [h]
      unfold reviseCell at hb'
      obtain ⟨c1, -, hb'⟩ := R.bind_ok.1 hb'
      obtain ⟨c2, -, hb'⟩ := R.bind_ok.1 hb'
      rw [← Except.ok.inj hb']
      exact hh b (List.mem_of_getElem? (indexAt_ok.1 hb))
  · rw [← Except.ok.inj h]; exact hh

theorem workerVisits_unused {s : Sentence} (l : List Nat) {st : List Sentence × Bool} (hh : ∀ b ∈ st.1, Unused b) :
    ∀ b ∈ (workerVisits s l st).1.1, Unused b := by
  induction l generalizing st with
  | nil => exact hh
  | cons r l ih =>
    simp only [workerVisits]
    cases h : workerVisit s st r with
    | error e => exact hh
    | ok st' => exact ih (workerVisit_unused hh h)

theorem workerStore_when {s : Sentence} (hs : Unused s) (n : Nat) (now now' : Int) {m : PMem} (hm : ∀ b ∈ m.heap, Unused b) (rng : List Nat) :
    workerStore m s now n rng = workerStore m s now' n rng := by
  unfold workerStore
  cases condAndPred s.term with
  | error e => rfl
  | ok cp =>
    obtain ⟨c, p⟩ := cp
    simp only
    have hv := workerVisits_unused (s := s) (retBeliefsByTermsNonuniqueP m [c, p]) (st := (m.heap, true)) hm
    generalize workerVisits s (retBeliefsByTermsNonuniqueP m [c, p]) (m.heap, true) = v at hv ⊢
    obtain ⟨⟨heap, b⟩, er⟩ := v
    cases er with
    | some e => rfl
    | none => cases b with
      | false => rfl
      | true => exact workerAdd_when hs n now now' (m := { m with heap := heap }) hv rng

theorem workerStore_unused {s : Sentence} (hs : Unused s) (n : Nat) (now : Int) {m : PMem} (hm : ∀ b ∈ m.heap, Unused b) (rng : List Nat) :
    ∀ b ∈ (workerStore m s now n rng).1.heap, Unused b := by
  unfold workerStore
  cases condAndPred s.term with
  | error e => exact hm
  | ok cp =>
    obtain ⟨c, p⟩ := cp
    simp only
    have hv := workerVisits_unused (s := s) (retBeliefsByTermsNonuniqueP m [c, p]) (st := (m.heap, true)) hm
    generalize workerVisits s (retBeliefsByTermsNonuniqueP m [c, p]) (m.heap, true) = v at hv ⊢
    obtain ⟨⟨heap, b⟩, er⟩ := v
    cases er with
    | some e => exact hv
    | none => cases b with
      | false => exact hv
      | true => exact workerAdd_unused hs n now (m := { m with heap := heap }) hv rng

end Nar
