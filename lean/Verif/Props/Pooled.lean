import Verif.Lemmas.Pooled
import Verif.Props.Lasting
import Verif.Props.Asked
/-! # What is told is pooled, whatever the order -/
namespace Nar.Props
open Nar Term

/-! ## C108 -/

theorem sayable_safe (env : Env) {sts : List (Term × Tv)} (h : ∀ st ∈ sts, Sayable st) : ∀ op ∈ tellAll sts, SafeUse env op := by
  intro op hop
  obtain ⟨st, hst, rfl⟩ := List.mem_map.1 hop
  exact (h st hst).1

theorem pooledAt_told {env : Env} {sts : List (Term × Tv)} {r : Reasoner} (hs : ∀ st ∈ sts, Sayable st)
    (h : runNar env (tellAll sts) = .ok r) {x : Term} (hfew : FewAbout sts x) : PooledAt sts x r.sh.mem := by
  induction sts using List.reverseRecOn generalizing r with
  | nil =>
    cases h
    exact ⟨(fun c hc => by cases hc), (fun t ht => by cases ht), (fun c hc => by cases hc)⟩
  | append_singleton sts st ih =>
    obtain ⟨t, v⟩ := st
    have e : tellAll (sts ++ [(t, v)]) = tellAll sts ++ [say t v] := by simp [tellAll, say]
    rw [e, runNar_snoc] at h
    obtain ⟨r1, h1, h2⟩ := R.bind_ok.1 h
    have hs1 : ∀ st ∈ sts, Sayable st := fun st hst => hs st (by simp [hst])
    have hfew1 : FewAbout sts x := by
      obtain ⟨l, l1, l2⟩ := hfew
      exact ⟨l, l1, fun st hst hx => l2 st (by simp [hst]) hx⟩
    have hp := ih hs1 h1 hfew1
    have hst := hs (t, v) (by simp)
    have ht : ¬ IsTemporal t := (hst.1.2.1 rfl rfl).1
    have hm := inputT2_told ht h2
    have hw := runNar_WDecl h1
    have hok := memOk_of_run h1
    have hok' : MemOk r.sh.mem := memOk_of_run (env := env) (ops := tellAll sts ++ [say t v]) (by rw [runNar_snoc]; exact h)
    have hstamp := runNar_stamps h1
    rcases memAddTask_cases hm with ⟨hx, _⟩ | ⟨_, mem, rev, ha, h3⟩
    · have : r1.maxComplexity < calcComplexity t := hx
      have h64 : calcComplexity t ≤ 64 := hst.2.1
      rw [hw.complexity] at this; omega
    · have hmem : r.sh.mem = mem := addTasks_mem h3
      have hn : (r1.cfg env).nBeliefs = 20 := hw.beliefs
      rw [hn] at ha
      rw [hmem] at hok' ⊢
      refine hp.add hok.wf hok'.wf hok.once ?_ ha hfew ?_
      · intro c hc k b hb hid
        have hsok : StampOk r1.sh.stampIdCounter b := by
          cases k
          · exact (hstamp.all.2.1 c hc).1 b hb
          · exact (hstamp.all.2.1 c hc).2 b hb
        have := (hsok.2.2.2 _ hid).2
        omega
      · intro st hst
        have := hs st hst
        exact ⟨this.2.2, (this.1.2.1 rfl rfl).2.2.2.2.2⟩

/-- C108: whatever statements a new reasoner is told, in whatever order and however often each, it then believes under each term
which at most twenty different statements mention just these statements, each with all the evidence told for and against it. -/
theorem C108_pooled_partial (env : Env) (sts : List (Term × Tv)) (hs : ∀ st ∈ sts, Sayable st) :
    ∃ r, runNar env (tellAll sts) = .ok r ∧ ∀ x, FewAbout sts x → ∀ k t tv,
      BelievedAs r.sh.mem x k t tv ↔ IsSubterm x t ∧ toldAbout sts t ≠ [] ∧ tv = pooled (toldAbout sts t) := by
  obtain ⟨r, hr, _⟩ := C58_declarative_use_never_crashes env (tellAll sts) (sayable_safe env hs)
  refine ⟨r, hr, fun x hx k t tv => ?_⟩
  have hp := pooledAt_told hs hr hx
  have hw := (memOk_of_run hr).wf
  constructor
  · rintro ⟨c, hc, rfl, b, hb, rfl, htv⟩
    obtain ⟨h1, h2⟩ := hp.truth c (Mem.get_of_mem hw hc) k b hb
    refine ⟨h1, toldAbout_ne.2 (hp.only c hc k b hb), ?_⟩
    unfold HasTruth at htv h2
    rw [h2] at htv; cases htv; rfl
  · rintro ⟨h1, h2, rfl⟩
    obtain ⟨c, hg, hb⟩ := hp.here t (toldAbout_ne.1 h2) h1
    obtain ⟨b, hb1, rfl⟩ := hb k
    exact ⟨c, (Mem.get_some hg).1, (Mem.get_some hg).2, b, hb1, rfl, (hp.truth c hg k b hb1).2⟩

/-- C108: so the order in which things are told does not matter to what is believed. -/
theorem C108_order_does_not_matter_partial (env : Env) (sts sts' : List (Term × Tv)) (hs : ∀ st ∈ sts, Sayable st)
    (hp : sts.Perm sts') (r r' : Reasoner) (h : runNar env (tellAll sts) = .ok r) (h' : runNar env (tellAll sts') = .ok r')
    (x : Term) (hx : FewAbout sts x) (k : Ranking) (t : Term) (tv : Tv) :
    BelievedAs r.sh.mem x k t tv ↔ BelievedAs r'.sh.mem x k t tv := by
  obtain ⟨r1, h1, h2⟩ := C108_pooled_partial env sts hs
  obtain ⟨r2, h3, h4⟩ := C108_pooled_partial env sts' (fun st hst => hs st (hp.mem_iff.2 hst))
  rw [h] at h1; cases h1
  rw [h'] at h3; cases h3
  have hx' : FewAbout sts' x := by
    obtain ⟨l, l1, l2⟩ := hx
    exact ⟨l, l1, fun st hst => l2 st (hp.mem_iff.2 hst)⟩
  have hperm : (toldAbout sts t).Perm (toldAbout sts' t) := (hp.filter _).map _
  rw [h2 x hx, h4 x hx', pooled_perm hperm]
  have : toldAbout sts t ≠ [] ↔ toldAbout sts' t ≠ [] := by
    rw [not_iff_not]
    exact ⟨fun e => by rw [e] at hperm; exact hperm.nil_eq.symm, fun e => by rw [e] at hperm; exact hperm.eq_nil⟩
  rw [this]

theorem believedAs_iff {r : Reasoner} {x : Term} {k : Ranking} {t : Term} {tv : Tv} :
    BelievedAs r.sh.mem x k t tv ↔ some tv ∈ listed r x k t := by
  unfold BelievedAs listed
  constructor
  · rintro ⟨d, h1, h2, b, h3, h4, h5⟩
    exact List.mem_map.2 ⟨b, List.mem_filter.2 ⟨List.mem_flatMap.2 ⟨d, List.mem_filter.2 ⟨h1, by simpa using h2⟩, h3⟩,
      by simpa using h4⟩, truthOf_iff.2 h5⟩
  · intro h1
    obtain ⟨b, h3, h4⟩ := List.mem_map.1 h1
    obtain ⟨h5, h6⟩ := List.mem_filter.1 h3
    obtain ⟨d, h7, h8⟩ := List.mem_flatMap.1 h5
    obtain ⟨h9, h10⟩ := List.mem_filter.1 h7
    exact ⟨d, h9, by simpa using h10, b, h8, by simpa using h6, truthOf_iff.1 h4⟩

/-- mixed reports about swans -/
def swans : List (Term × Tv) :=
  [(isA "swan" "bird", ⟨1, 9/10⟩), (isA "swan" "white", ⟨1, 1/2⟩), (isA "swan" "white", ⟨0, 1/2⟩), (isA "swan" "white", ⟨1, 1/2⟩)]

theorem isA_sayable (s p : String) (tv : Tv) (h : Tv.Sane tv) (h0 : 0 < tv.c) (he : ∃ txt, convTermToStr (isA s p) = some txt)
    (hc : calcComplexity (isA s p) ≤ 64) : Sayable (isA s p, tv) := ⟨isA_safe env0 s p tv h he, hc, h0⟩

theorem swans_sayable : ∀ st ∈ swans, Sayable st := by
  intro st hst
  simp only [swans, List.mem_cons, List.not_mem_nil, or_false] at hst
  rcases hst with rfl | rfl | rfl | rfl <;>
  exact isA_sayable _ _ _ (by unfold Tv.Sane; decide +kernel) (by decide +kernel) ⟨_, rfl⟩ (by decide)

theorem isA_mentions_self (s p : String) : IsSubterm (.Name s) (isA s p) := .inside (by simp [parts, isA]) (.refl _)

/-- two reports for and one against white swans make 2/3 with the confidence of three -/
example (env : Env) : ∃ r, runNar env (tellAll swans) = .ok r ∧
    BelievedAs r.sh.mem (.Name "swan") .expectation (isA "swan" "white") ⟨2/3, 3/4⟩ ∧
    BelievedAs r.sh.mem (.Name "swan") .use (isA "swan" "bird") ⟨1, 9/10⟩ := by
  obtain ⟨r, h1, h2⟩ := C108_pooled_partial env swans swans_sayable
  have hx : FewAbout swans (.Name "swan") := ⟨[isA "swan" "bird", isA "swan" "white"], by simp, by
    intro st hst _
    simp only [swans, List.mem_cons, List.not_mem_nil, or_false] at hst
    rcases hst with rfl | rfl | rfl | rfl <;> simp⟩
  refine ⟨r, h1, (h2 _ hx _ _ _).2 ⟨isA_mentions_self _ _, by decide +kernel, by decide +kernel⟩,
    (h2 _ hx _ _ _).2 ⟨isA_mentions_self _ _, by decide +kernel, by decide +kernel⟩⟩

/-- twenty-one statements about tom -/
def twentyOne : List (Term × Tv) :=
  (["a", "b", "c", "d", "e", "f", "g", "h", "i", "j", "k", "l", "m", "n", "o", "p", "q", "r", "s", "t", "u"]).map
    (fun (x : String) => (isA "tom" x, ⟨1, 9/10⟩))

/-- Once more than twenty statements mention a term the order matters: of twenty-one equally good statements about tom the one
told last is not believed under "tom". -/
theorem C108_order_matters_when_full :
    ∃ r r' t tv, (∀ st ∈ twentyOne, Sayable st) ∧ runNar env0 (tellAll twentyOne) = .ok r ∧
      runNar env0 (tellAll twentyOne.reverse) = .ok r' ∧
      BelievedAs r'.sh.mem (.Name "tom") .expectation t tv ∧ ¬ BelievedAs r.sh.mem (.Name "tom") .expectation t tv := by
  have hv : (runNar env0 (tellAll twentyOne)).map (fun r => listed r (.Name "tom") .expectation (isA "tom" "u")) = .ok [] := by
    decide +kernel
  have hv2 : (runNar env0 (tellAll twentyOne.reverse)).map (fun r => listed r (.Name "tom") .expectation (isA "tom" "u")) =
    .ok [some ⟨1, 9/10⟩] := by decide +kernel
  obtain ⟨r, hr, e⟩ := R.map_ok.1 hv
  obtain ⟨r', hr', e'⟩ := R.map_ok.1 hv2
  refine ⟨r, r', isA "tom" "u", ⟨1, 9/10⟩, ?_, hr, hr', believedAs_iff.2 (by rw [e']; simp), fun hb => ?_⟩
  · intro st hst
    obtain ⟨x, hx, rfl⟩ := List.mem_map.1 hst
    refine isA_sayable _ _ _ (by unfold Tv.Sane; decide +kernel) (by decide +kernel) ⟨_, rfl⟩ ?_
    show calcComplexity (isA "tom" x) ≤ 64
    simp [calcComplexity, isA]
  · have := believedAs_iff.1 hb
    rw [e] at this; cases this

/-- Statements without evidence are not pooled: told twice, with no confidence at all, that tom is a cat, the reasoner believes,
with no confidence, that tom is not a cat. -/
theorem C108_without_evidence : ∃ r, runNar env0 (tellAll [(isA "tom" "cat", ⟨1, 0⟩), (isA "tom" "cat", ⟨1, 0⟩)]) = .ok r ∧
    BelievedAs r.sh.mem (.Name "tom") .expectation (isA "tom" "cat") ⟨0, 0⟩ := by
  have hv : (runNar env0 (tellAll [(isA "tom" "cat", ⟨1, 0⟩), (isA "tom" "cat", ⟨1, 0⟩)])).map
    (fun r => listed r (.Name "tom") .expectation (isA "tom" "cat")) = .ok [some ⟨0, 0⟩] := by decide +kernel
  obtain ⟨r, hr, e⟩ := R.map_ok.1 hv
  exact ⟨r, hr, believedAs_iff.2 (by rw [e]; simp)⟩

end Nar.Props
