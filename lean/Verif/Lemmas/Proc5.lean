import Verif.Lemmas.Proc4
/-! # Lemmas: every observation with one operator can be sampled -/
namespace Nar
open Term

/-- the observation sampled from three events -/
def observed (p : Proc) (n : Int) (first act last : Event) : Sentence :=
  { punct := .JUGEMENT, t := none, stamp := ⟨[first.evi, act.evi, last.evi]⟩,
    expDt := some (findMinTableIdx (last.occT - act.occT) p.table), term := rule first.name [act.name] last.name,
    evi := some (.CNT n n), usage := ⟨0, 0, []⟩ }

theorem mem_getElem_mod {l : List Nat} {j : Nat} (h : j ∈ l) : ∃ d, ∃ hd : d < l.length, l[d] = j ∧ d % l.length = d := by
  obtain ⟨d, hd, rfl⟩ := List.mem_iff_getElem.1 h
  exact ⟨d, hd, rfl, Nat.mod_eq_of_lt hd⟩

theorem perceive_one {p : Proc} (hmax : p.nOpsMax = 1) (halive : p.workerAlive = true) {i j l : Nat}
    {first act last : Event} (hij : i < j) (hjl : j < l) (hl : l + 1 = p.trace.length)
    (h1 : p.trace[i]? = some first) (h2 : p.trace[j]? = some act) (h3 : p.trace[l]? = some last)
    (hf : ¬ RegisteredCall p.ops first.name) (ha : RegisteredCall p.ops act.name)
    (hla : ¬ RegisteredCall p.ops last.name) (hne : first.name ≠ last.name) :
    ∃ d n, (∃ args name, IsCall act.name args name ∧ EvidenceWeight p.ops name n) ∧
      perceiveSample p d = .ok { p with queue := p.queue ++ [(observed p n first act last, p.t)] } := by
  obtain ⟨args, name, hcall, hreg⟩ := ha
  obtain ⟨o, ho⟩ := retOpByName_isSome.1 hreg
  have hmem : j ∈ calcIdxsOfOps p.ops p.trace := mem_calcIdxsOfOps.2 ⟨act, h2, args, name, hcall, hreg⟩
  obtain ⟨d, hd, hdj, hdm⟩ := mem_getElem_mod hmem
  have hpos : (calcIdxsOfOps p.ops p.trace).length ≠ 0 := by omega
  refine ⟨⟨1, [d], i, 0⟩, o.eviCnt, ⟨args, name, hcall, retOpByName_weight ho⟩, ?_⟩
  have hsel : selectOps (calcIdxsOfOps p.ops p.trace) 1 [d] [] = .ok [j] := by
    unfold selectOps genRange
    rw [if_neg hpos]
    simp only [bind, Except.bind, List.headD_cons, hdm]
    rw [show indexAt (calcIdxsOfOps p.ops p.trace) d = .ok j from indexAt_ok.2 (by rw [List.getElem?_eq_getElem hd, hdj])]
    simp
  have hlast : lastIdx p j 0 = .ok l := by
    unfold lastIdx
    have hlt : p.trace.length - 2 < p.trace.length := by omega
    rw [show indexAt p.trace (p.trace.length - 2) = .ok (p.trace[p.trace.length - 2]) from
      indexAt_ok.2 (List.getElem?_eq_getElem hlt)]
    simp only [bind, Except.bind, genRange]
    rw [if_neg (by decide)]
    simp only [List.headD_cons, Nat.zero_mod]
    rw [show p.trace.length - 1 = l from by omega]
    simp
  have hsort : sortNat (i :: ([j] ++ [l])) = [i, j, l] := by
    simp only [List.singleton_append, sortNat, insertNat]
    rw [if_pos (by omega : j ≤ l)]
    simp only [insertNat]
    rw [if_pos (by omega : i ≤ j)]
  have hitems : selectItems p ⟨1, [d], i, 0⟩ = .ok (some [first, act, last]) := by
    unfold selectItems
    simp only
    rw [if_neg hpos]
    have hn : nSelOps p (calcIdxsOfOps p.ops p.trace).length 1 = 1 := by unfold nSelOps; rw [if_pos hmax]
    rw [hn, hsel]
    simp only [bind, Except.bind]
    rw [show unwrap ([j].min?) = .ok j from rfl, show unwrap ([j].max?) = .ok j from rfl]
    simp only
    rw [if_neg (by omega)]
    unfold genRange
    rw [if_neg (by omega)]
    simp only [List.headD_cons]
    rw [Nat.mod_eq_of_lt hij, hlast]
    simp only [hsort]
    have : ([i, j, l] : List Nat).mapM (indexAt p.trace) = .ok [first, act, last] := by
      rw [mapM_ok_iff]
      exact .cons (indexAt_ok.2 h1) (.cons (indexAt_ok.2 h2) (.cons (indexAt_ok.2 h3) .nil))
    rw [this]
  have hbuild : tryBuildImplSeq p.ops [first.name, act.name, last.name] = .ok (some (rule first.name [act.name] last.name)) := by
    rcases tryBuildImplSeq_of (ops := p.ops) (first := first.name) (last := last.name) (acts := [act.name]) (by simp) with h | h
    · exact h.1
    · exact absurd ⟨by simpa using ⟨args, name, hcall, hreg⟩, hf, hla, hne⟩ h.2
  have hn : eviCntOf p.ops (rule first.name [act.name] last.name) = .ok o.eviCnt := by
    unfold eviCntOf
    rw [show retImplSeqOp (rule first.name [act.name] last.name) = .ok act.name from rfl]
    simp only [bind, Except.bind, (decodeOp_iff _ _ _).2 hcall, unwrap, ho]
  have hev : evidenceOf p [first, act, last] = .ok (some (observed p o.eviCnt first act last)) := by
    unfold evidenceOf
    simp only [List.map_cons, List.map_nil, hbuild, bind, Except.bind, hn]
    rfl
  unfold perceiveSample
  rw [hitems]
  simp only [bind, Except.bind, hev]
  unfold sendToWorker
  rw [if_pos halive]

end Nar
