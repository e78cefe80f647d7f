import Verif.Lemmas.Legible
/-! # Conclusions stay legible; lines tell sentences apart -/
namespace Nar
open Term

theorem substVar_legible {v : Term} {σ : List Asgnment} (hv : Legible v) (hσ : ∀ x ∈ σ, Legible x.val) :
    Legible (substVar v σ) := by
  by_cases h : ∃ a ∈ σ, a.var = v
  · obtain ⟨a, ha, _, e⟩ := substVar_mem v σ h
    rw [e]; exact hσ a ha
  · rw [substVar_not_mem v σ (fun a ha hc => h ⟨a, ha, hc⟩)]; exact hv

theorem unifySubst_legible {σ : List Asgnment} (hσ : ∀ x ∈ σ, Legible x.val) {t : Term} (ht : Legible t) :
    Legible (unifySubst σ t) := by
  induction t using Term.indParts with
  | h t ih =>
    have h1 : ∀ c ∈ parts t, Legible (unifySubst σ c) := fun c hc => ih c hc (ht.part hc)
    have h2 := (legible_iff.1 ht).1
    cases t with
    | Name n => simpa [unifySubst] using ht
    | QVar n | DepVar n | IndepVar n => simp only [unifySubst]; exact substVar_legible ht hσ
    | Stmt c s p => simp only [unifySubst]; rw [legible_stmt]; exact ⟨h1 s (by simp [parts]), h1 p (by simp [parts])⟩
    | Neg t =>
      simp only [unifySubst]; rw [legible_iff]
      exact ⟨trivial, by simpa [parts] using h1 t (by simp [parts])⟩
    | Img r i ts =>
      simp only [unifySubst, unifySubstL_eq_map]; rw [legible_iff]
      refine ⟨by simpa [Clear] using h2, ?_⟩
      simp only [parts, List.mem_cons, List.mem_map]
      rintro c (rfl | ⟨d, hd, rfl⟩)
      · exact h1 r (by simp [parts])
      · exact h1 d (by simp [parts, hd])
    | Seq ts | SetInt ts | SetExt ts | IntInt ts | ExtInt ts | Par ts | Prod ts | Conj ts =>
      simp only [unifySubst, unifySubstL_eq_map]; rw [legible_iff]
      refine ⟨by simpa [Clear] using h2, ?_⟩
      simp only [parts, List.mem_map]
      rintro c ⟨d, hd, rfl⟩
      exact h1 d hd

theorem conjOf_legible {ts : List Term} (hn : ts ≠ []) (h : ∀ t ∈ ts, Legible t) : Legible (conjOf ts) := by
  match ts with
  | [] => exact absurd rfl hn
  | [x] => exact h x (by simp)
  | x :: y :: ts => exact legible_iff.2 ⟨by simp [conjOf, Clear], h⟩

theorem rule2_legible {a b c : Term} {ta tb tc : Tv} (h : Rule2 a ta b tb c tc) (ha : Legible a) (hb : Legible b) : Legible c := by
  cases h with
  | setUnion x A B =>
    rw [legible_stmt] at ha hb ⊢
    refine ⟨ha.1, legible_iff.2 ⟨?_, ?_⟩⟩
    · have := (legible_iff.1 ha.2).1
      simp only [Clear, ne_eq] at this ⊢
      intro hc; exact this (List.append_eq_nil_iff.1 hc).1
    · intro d hd
      rcases List.mem_append.1 hd with hd | hd
      · exact ha.2.part hd
      · exact hb.2.part hd
  | intersection x p q =>
    rw [legible_stmt] at ha hb ⊢
    exact ⟨ha.1, legible_iff.2 ⟨by simp [Clear], by simp [parts, ha.2, hb.2]⟩⟩
  | comparePred => rw [legible_stmt] at ha hb ⊢; exact ⟨ha.2, hb.2⟩
  | compareSubj => rw [legible_stmt] at ha hb ⊢; exact ⟨ha.1, hb.1⟩
  | deduction => rw [legible_stmt] at ha hb ⊢; exact ⟨ha.1, hb.2⟩
  | abduction => rw [legible_stmt] at ha hb ⊢; exact ⟨ha.1, hb.1⟩
  | induction => rw [legible_stmt] at ha hb ⊢; exact ⟨ha.2, hb.2⟩
  | detach p q b σ _ _ hu =>
    rw [legible_stmt] at ha
    exact unifySubst_legible (fun x hx => hb.sub (unify_vals hu x hx)) ha.2
  | conjDetach pre c post q b σ _ _ hl hu =>
    rw [legible_stmt] at ha ⊢
    have hσ : ∀ x ∈ σ, Legible x.val := fun x hx => hb.sub (unify_vals hu x hx)
    refine ⟨conjOf_legible ?_ ?_, unifySubst_legible hσ ha.2⟩
    · intro e
      have h2 := (legible_iff.1 ha.1).1
      simp only [List.map_eq_nil_iff, List.append_eq_nil_iff] at e
      rw [e.1, e.2] at h2
      simp [Clear] at h2
    · intro t ht
      obtain ⟨d, hd, rfl⟩ := List.mem_map.1 ht
      refine unifySubst_legible hσ (ha.1.part ?_)
      simp only [parts, List.mem_append, List.mem_cons] at hd ⊢
      tauto

theorem rule1_legible {a c : Term} {ta tc : Tv} (h : Rule1 a ta c tc) (ha : Legible a) : Legible c := by
  cases h with
  | negation a => exact ha.part (by simp [parts])
  | decomposeSubj pre x post p => rw [legible_stmt] at ha ⊢; exact ⟨ha.1.part (by simp [parts]), ha.2⟩
  | decomposePred pre x post p => rw [legible_stmt] at ha ⊢; exact ⟨ha.1, ha.2.part (by simp [parts])⟩
  | productLeft x y rest rel | productRight x y rel =>
    rw [legible_stmt] at ha ⊢
    refine ⟨ha.1.part (by simp [parts]), legible_iff.2 ⟨by simp [Clear], ?_⟩⟩
    simp only [parts, List.mem_cons, List.not_mem_nil, or_false]
    rintro c (rfl | rfl)
    exacts [ha.2, ha.1.part (by simp [parts])]
  | imageLeft x y rel | imageRight x y rel =>
    rw [legible_stmt] at ha ⊢
    refine ⟨legible_iff.2 ⟨by simp [Clear], ?_⟩, ha.2.part (by simp [parts])⟩
    simp only [parts, List.mem_cons, List.not_mem_nil, or_false]
    rintro c (rfl | rfl)
    all_goals first | exact ha.1 | exact ha.2.part (by simp [parts])
  | setInt a b | setExt a b => rw [legible_stmt] at ha ⊢; exact ⟨ha.1.part (by simp [parts]), ha.2.part (by simp [parts])⟩
  | decomposePar s ps x _ hx => rw [legible_stmt] at ha ⊢; exact ⟨ha.1, ha.2.part (by simpa [parts] using hx)⟩

/-- a legible judgement -/
def LegibleJudgement (s : Sentence) : Prop := s.punct = .JUGEMENT ∧ Legible s.term

theorem legible_closed : SentClosed LegibleJudgement where
  pool _ b s r hb hs hsame hno h := by
    obtain ⟨ta, tb, tv, h1, h2, h3, rfl⟩ := revisedBelief_ok h
    exact hb
  used s u h := h
  two p s c w hp hs h := by
    obtain ⟨hc, ta, tb, tc, hrule | hrule⟩ := follows_rule hp.1 hs.1 h
    · exact ⟨hc, rule2_legible hrule hp.2 hs.2⟩
    · exact ⟨hc, rule2_legible hrule hs.2 hp.2⟩
  alone p c w hp h := by
    obtain ⟨hc, ta, tc, hrule⟩ := followsAlone_rule h
    exact ⟨hc, rule1_legible hrule hp.2⟩

theorem runNar_legible {env : Env} {ops : List NarOp} {r : Reasoner} (h : runNar env ops = .ok r)
    (ht : ∀ t, WasTold env ops t → Legible t) : RInv (fun _ => LegibleJudgement) (fun _ => True) r := by
  refine (moreNar_RInv ⟨fun _ => legible_closed, fun _ _ _ _ h => h⟩ h ?_ (fun _ _ _ _ _ _ _ => trivial)
    (createNar_RInv _ _)).1
  intro pre post op r0 he hr term tv hk n _
  exact ⟨rfl, ht term ⟨pre, op, post, r0, tv, he, hr, hk⟩⟩

theorem Word.spelled {w : String} (h : Word w) : Spelled w := ⟨fun e => by have := h.1; rw [e] at this; simp at this, h.2.2⟩

theorem Readable.legible {t : Term} (h : Readable t) : Legible t := by
  induction h with
  | name h | qvar h | depvar h | indepvar h => exact legible_iff.2 ⟨h.spelled, by simp [parts]⟩
  | stmt _ _ h1 h2 => exact legible_stmt.2 ⟨h1, h2⟩
  | setExt _ h | setInt _ h => exact legible_iff.2 ⟨by simp [Clear], by simpa [parts] using h⟩
  | neg _ h => exact legible_iff.2 ⟨trivial, by simpa [parts] using h⟩
  | seq hl _ h | prod hl _ h => exact legible_iff.2 ⟨hl, h⟩
  | conj hl _ _ h => exact legible_iff.2 ⟨hl, h⟩
  | intInt _ _ h1 h2 | extInt _ _ h1 h2 => exact legible_iff.2 ⟨by simp [Clear], by simp [parts, h1, h2]⟩
  | img _ _ _ h1 h2 => exact legible_iff.2 ⟨by simp [Clear], by simp [parts, h1, h2]⟩

/-! ## lines -/

theorem cut_unique {a b x y : List Char} (ha : ' ' ∉ a) (hb : ' ' ∉ b) (h : a ++ ' ' :: x = b ++ ' ' :: y) : a = b ∧ x = y := by
  induction a generalizing b with
  | nil =>
    cases b with
    | nil => simpa using h
    | cons c b =>
      simp only [List.nil_append, List.cons_append, List.cons.injEq] at h
      exact absurd (by rw [h.1]; simp) hb
  | cons c a ih =>
    cases b with
    | nil =>
      simp only [List.nil_append, List.cons_append, List.cons.injEq] at h
      exact absurd (by rw [h.1]; simp) ha
    | cons d b =>
      simp only [List.cons_append, List.cons.injEq] at h
      obtain ⟨h1, h2⟩ := ih (by simp at ha; tauto) (by simp at hb; tauto) h.2
      exact ⟨by rw [h.1, h1], h2⟩

theorem tvToStr_inj {sf : Rat → List Char} (hi : Function.Injective sf) (hb : ∀ x, ' ' ∉ sf x) {a b : Tv}
    (h : tvToStr sf a = tvToStr sf b) : a = b := by
  unfold tvToStr at h
  simp only [List.cons_append, List.append_assoc, List.cons.injEq, true_and] at h
  obtain ⟨h1, h2⟩ := cut_unique (hb _) (hb _) h
  have h3 := List.append_cancel_right h2
  cases a; cases b
  simp only at h1 h3
  rw [hi h1, hi h3]

theorem sentence_text {sf : Rat → List Char} {s : Sentence} {en : Bool} {line : List Char}
    (hl : Legible s.term) (h : convSentenceTermPunctToStr sf s en = .ok line) :
    ∃ rest, line = tx s.term ++ (s.punct.str ++ rest) ∧
      ((en = true ∧ s.punct ≠ .QUESTION) → ∃ tv, retTv s = .ok (some tv) ∧ rest = ' ' :: tvToStr sf tv) := by
  unfold convSentenceTermPunctToStr at h
  rw [hl.text] at h
  simp only [bind, Except.bind] at h
  split at h
  · rename_i hc
    rcases hr : retTv s with e | o
    · rw [hr] at h; cases h
    rw [hr] at h
    rcases o with _ | tv
    · cases h
    simp only [unwrap, Except.ok.injEq] at h
    exact ⟨' ' :: tvToStr sf tv, by rw [← h]; simp, fun _ => ⟨tv, rfl, rfl⟩⟩
  · rename_i hc
    simp only [Except.ok.injEq] at h
    refine ⟨[], by rw [← h]; simp, fun k => ?_⟩
    simp [k.1, k.2] at hc

theorem punct_stops (p : Punct) (x : List Char) : Stops (p.str ++ x) := by
  cases p <;> exact stops_cons (by decide) _

theorem punct_unique {p q : Punct} {x y : List Char} (h : p.str ++ x = q.str ++ y) : p = q ∧ x = y := by
  cases p <;> cases q <;> simp_all [Punct.str]

theorem sentence_unique {sf : Rat → List Char} {s s' : Sentence} {en : Bool} {line : List Char} (hi : Function.Injective sf)
    (hb : ∀ x, ' ' ∉ sf x) (hl : Legible s.term) (hl' : Legible s'.term)
    (h : convSentenceTermPunctToStr sf s en = .ok line) (h' : convSentenceTermPunctToStr sf s' en = .ok line) :
    s.term = s'.term ∧ s.punct = s'.punct ∧ (en = true → s.punct ≠ .QUESTION → retTv s = retTv s') := by
  obtain ⟨r, e, k⟩ := sentence_text hl h
  obtain ⟨r', e', k'⟩ := sentence_text hl' h'
  obtain ⟨h1, h2⟩ := tx_unique hl hl' (punct_stops _ _) (punct_stops _ _) (e.symm.trans e')
  obtain ⟨h3, h4⟩ := punct_unique h2
  refine ⟨h1, h3, fun he hq => ?_⟩
  obtain ⟨tv, a, b⟩ := k ⟨he, hq⟩
  obtain ⟨tv', a', b'⟩ := k' ⟨he, h3 ▸ hq⟩
  rw [b, b'] at h4
  simp only [List.cons.injEq, true_and] at h4
  rw [a, a', tvToStr_inj hi hb h4]

end Nar
