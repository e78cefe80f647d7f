import Verif.Lemmas.Turns
import Verif.Lemmas.Longago1
import Verif.Lemmas.Bounded2
/-! # Lemmas about statements which are forgotten before their turn -/
namespace Nar
open Term

/-- the task existed, and nothing refers to it any more -/
def Gone (i : Nat) (sh : Shared) : Prop := i < sh.heap.length ∧ ¬ TaskKept sh i

theorem memAddTask_gone {cfg : Cfg} {sh sh' : Shared} {s : Sentence} {cc : Bool} {mc : Rat} {now : Int} {i : Nat}
    (h : memAddTask cfg sh s cc mc now = .ok sh') (hg : Gone i sh) : Gone i sh' := by
  obtain ⟨⟨new, e, _⟩, hk, _⟩ := memAddTask_available h
  refine ⟨by rw [e, List.length_append]; exact Nat.lt_add_right _ hg.1, fun hi => ?_⟩
  rcases hk i hi with hi | ⟨hi, _⟩
  · exact hg.2 hi
  · exact absurd hg.1 (Nat.not_lt.2 hi)

theorem gone_kept (env : Env) (i : Nat) : DKept env (Gone i) where
  add := fun _ _ hc h => memAddTask_gone h hc
  cycle := fun _ hi hc h => ⟨by rw [(reasonCycle_taken h hi).2.1]; exact hc.1, fun hk => hc.2 ((reasonCycle_sub h).1 i hk)⟩
  work := fun _ _ _ hc h => by
    unfold Nar.work at h
    obtain ⟨concl, a1, h⟩ := R.bind_ok.1 h
    obtain ⟨p, a2, h⟩ := R.bind_ok.1 h
    obtain ⟨⟨sh2, c2⟩, a3, h⟩ := R.bind_ok.1 h
    obtain ⟨sh3, a4, h⟩ := R.bind_ok.1 h
    obtain ⟨rfl, _⟩ := Prod.mk.inj (Except.ok.inj h)
    obtain ⟨qs, hq⟩ := offerAll_outer a3
    refine foldlM_inv (Gone i) a4 (by rw [hq]; exact hc) ?_
    intro c _ a b ha hb
    exact memAddTask_gone hb ha
  flush := fun h => ⟨h.1, by rintro (hk | ⟨p, hp, _⟩) <;> [cases hk; cases hp]⟩
  newId := fun h => h
  procMem := fun _ h => h

theorem moreNar_dkept {env : Env} {P : Shared → Prop} (hP : DKept env P) {ops more : List NarOp} {r r' : Reasoner}
    (h : runNar env ops = .ok r) (h0 : P r.sh) (h' : moreNar env r more = .ok r') : P r'.sh :=
  (foldlM_inv (WKept env P) h' ⟨runNar_WDecl h, h0⟩ (fun _ _ _ _ ha hs => NarOp.run_WKept hP hs ha)).aged

end Nar
