import Verif.Spec.Proc
import Verif.Lemmas.VarIntro
import Verif.Lemmas.Goal5
/-! # Lemmas about perception -/
namespace Nar
open Term

/-! ## the interval table -/

theorem findMinTableLoop_spec (dt : Int) (l : List Int) (i : Nat) :
    (findMinTableLoop dt l i = none ∧ ∀ v ∈ l, v ≤ dt) ∨
    ∃ pre v post, l = pre ++ v :: post ∧ (∀ u ∈ pre, u ≤ dt) ∧ dt < v ∧
      findMinTableLoop dt l i = some ((i + pre.length : Nat) - 1 : Int) := by
  induction l generalizing i with
  | nil => exact .inl ⟨rfl, by simp⟩
  | cons v vs ih =>
    rw [findMinTableLoop]
    split
    · rename_i h
      exact .inr ⟨[], v, vs, rfl, by simp, h, by simp⟩
    · rename_i h
      rcases ih (i + 1) with ⟨h1, h2⟩ | ⟨pre, w, post, h1, h2, h3, h4⟩
      · exact .inl ⟨h1, by simpa using ⟨by omega, h2⟩⟩
      · refine .inr ⟨v :: pre, w, post, by rw [h1]; rfl, ?_, h3, ?_⟩
        · simpa using ⟨by omega, h2⟩
        · rw [h4]; simp; omega

/-- the index which is found, in terms of the table without its first entry -/
theorem findMinTableIdx_spec (dt first : Int) (l : List Int) :
    ∃ k, k ≤ l.length ∧ findMinTableIdx dt (first :: l) = k ∧ (∀ v ∈ l.take k, v ≤ dt) ∧
      ∀ v, l[k]? = some v → dt < v := by
  unfold findMinTableIdx
  rcases findMinTableLoop_spec dt l 1 with ⟨h1, h2⟩ | ⟨pre, v, post, h1, h2, h3, h4⟩
  · refine ⟨l.length, Nat.le_refl _, ?_, by simpa using h2, by simp⟩
    simp [h1]
  · refine ⟨pre.length, by rw [h1]; simp, ?_, ?_, ?_⟩
    · simp [h4]
    · rw [h1]; simpa using h2
    · rw [h1]; simpa using h3

/-! ## operators -/

theorem decodeOp_iff (t : Term) (args : List Term) (name : String) :
    decodeOp t = some (args, name) ↔ IsCall t args name := by
  constructor
  · intro h
    unfold decodeOp at h
    split at h
    · cases h; exact ⟨by simp, rfl⟩
    · cases h
  · rintro ⟨h, rfl⟩
    cases args with
    | nil => exact absurd rfl h
    | cons a as => rfl

theorem callable_iff (ops : List Op) (t : Term) : checkIsCallableOp ops t = true ↔ RegisteredCall ops t := by
  unfold checkIsCallableOp RegisteredCall
  cases hd : decodeOp t with
  | none =>
    constructor
    · intro h; cases h
    · rintro ⟨args, name, h, -⟩
      rw [(decodeOp_iff t args name).2 h] at hd; cases hd
  | some p =>
    obtain ⟨args, name⟩ := p
    constructor
    · intro h
      obtain ⟨o, ho, hn⟩ := List.any_eq_true.1 h
      exact ⟨args, name, (decodeOp_iff _ _ _).1 hd, o, ho, by simpa using hn⟩
    · rintro ⟨args', name', h, o, ho, hn⟩
      rw [(decodeOp_iff t args' name').2 h] at hd
      cases hd
      exact List.any_eq_true.2 ⟨o, ho, by simpa using hn⟩

theorem callable_false (ops : List Op) (t : Term) : checkIsCallableOp ops t = false ↔ ¬ RegisteredCall ops t := by
  rw [← callable_iff]; simp

theorem retOpByName_some {ops : List Op} {name : String} {o : Op} (h : retOpByName ops name = some o) :
    o ∈ ops ∧ o.name = name := by
  unfold retOpByName at h
  exact ⟨List.mem_of_find?_eq_some h, by simpa using List.find?_some h⟩

theorem retOpByName_weight {ops : List Op} {name : String} {o : Op} (h : retOpByName ops name = some o) :
    EvidenceWeight ops name o.eviCnt := by
  unfold retOpByName at h
  obtain ⟨h1, pre, post, h2, h3⟩ := List.find?_eq_some_iff_append.1 h
  refine ⟨pre, o, post, h2, by simpa using h1, ?_, rfl⟩
  intro x hx hn
  have := h3 x hx
  simp [hn] at this

theorem retOpByName_isSome {ops : List Op} {name : String} : (∃ o ∈ ops, o.name = name) ↔
    ∃ o, retOpByName ops name = some o := by
  unfold retOpByName
  rw [← Option.isSome_iff_exists, List.find?_isSome]
  simp

/-! ## building rules -/

theorem tryBuildImplSeq_some {ops : List Op} {events : List Term} {r : Term}
    (h : tryBuildImplSeq ops events = .ok (some r)) :
    ∃ first acts last, events = first :: (acts ++ [last]) ∧ acts ≠ [] ∧ (∀ a ∈ acts, RegisteredCall ops a) ∧
      ¬ RegisteredCall ops first ∧ ¬ RegisteredCall ops last ∧ first ≠ last ∧ r = rule first acts last := by
  unfold tryBuildImplSeq at h
  split at h
  · cases h
  · rename_i first rest
    split at h
    · cases h
    · rename_i last hl
      have hr : rest = rest.dropLast ++ [last] := by
        have := List.dropLast_append_getLast? last hl
        exact this.symm
      simp only at h
      split at h
      · cases h
      · rename_i hm
        split at h
        · rename_i hc
          simp only [Bool.and_eq_true, List.all_eq_true, Bool.not_eq_true'] at hc
          obtain ⟨⟨⟨h1, h2⟩, h3⟩, h4⟩ := hc
          refine ⟨first, rest.dropLast, last, by rw [← hr], by intro e; simp [e] at hm, ?_, ?_, ?_, ?_, ?_⟩
          · exact fun a ha => (callable_iff _ _).1 (h1 a ha)
          · exact (callable_false _ _).1 h2
          · exact (callable_false _ _).1 h3
          · intro e; subst e
            rw [(checkEqTerm_iff _ _).2 rfl] at h4; cases h4
          · exact (Option.some.inj (Except.ok.inj h)).symm
        · cases h

theorem tryBuildImplSeq_of {ops : List Op} {first last : Term} {acts : List Term} (hne : acts ≠ []) :
    (tryBuildImplSeq ops (first :: (acts ++ [last])) = .ok (some (rule first acts last)) ∧
      (∀ a ∈ acts, RegisteredCall ops a) ∧ ¬ RegisteredCall ops first ∧ ¬ RegisteredCall ops last ∧ first ≠ last) ∨
    (tryBuildImplSeq ops (first :: (acts ++ [last])) = .ok none ∧
      ¬ ((∀ a ∈ acts, RegisteredCall ops a) ∧ ¬ RegisteredCall ops first ∧ ¬ RegisteredCall ops last ∧
        first ≠ last)) := by
  unfold tryBuildImplSeq
  simp only [List.getLast?_append, List.getLast?_singleton, Option.some_or, List.dropLast_concat]
  rw [if_neg (by simpa using hne)]
  have e : (acts.all (checkIsCallableOp ops) && !checkIsCallableOp ops first && !checkIsCallableOp ops last
      && !checkEqTerm first last) = true ↔
      ((∀ a ∈ acts, RegisteredCall ops a) ∧ ¬ RegisteredCall ops first ∧ ¬ RegisteredCall ops last ∧ first ≠ last) := by
    have h4 : checkEqTerm first last = false ↔ first ≠ last := by
      rw [← Bool.not_eq_true, checkEqTerm_iff]
    simp only [Bool.and_eq_true, List.all_eq_true, Bool.not_eq_true', callable_iff, callable_false, h4, and_assoc]
  by_cases hc : (∀ a ∈ acts, RegisteredCall ops a) ∧ ¬ RegisteredCall ops first ∧ ¬ RegisteredCall ops last ∧ first ≠ last
  · rw [if_pos (e.2 hc)]; exact .inl ⟨rfl, hc⟩
  · rw [if_neg (fun h => hc (e.1 h))]; exact .inr ⟨rfl, hc⟩

/-! ## the window -/

theorem traceLimit_newest (tr : List Event) : traceLimit tr = newest 20 tr := by
  unfold traceLimit newest
  split
  · rfl
  · rw [Nat.sub_eq_zero_of_le (by omega)]; rfl

theorem newest_suffix {α} (n : Nat) (l : List α) : newest n l <:+ l := List.drop_suffix _ _

theorem newest_length {α} (n : Nat) (l : List α) : (newest n l).length = min n l.length := by
  unfold newest; simp; omega

theorem suffix_eq_newest {α} {m l : List α} (h : m <:+ l) : m = newest m.length l := by
  obtain ⟨pre, rfl⟩ := h
  unfold newest; simp

theorem newest_newest {α} {m l : List α} (n : Nat) (h : m <:+ l) (hn : min n l.length ≤ m.length) :
    newest n m = newest n l := by
  obtain ⟨pre, rfl⟩ := h
  unfold newest
  simp only [List.length_append] at hn ⊢
  by_cases h : n ≤ m.length
  · have e : pre.length + m.length - n = pre.length + (m.length - n) := by omega
    rw [e, ← List.drop_drop, List.drop_left]
  · have : pre.length = 0 := by omega
    rw [List.eq_nil_of_length_eq_zero this]; simp

/-! ## selecting events -/

theorem insertNat_perm (a : Nat) (l : List Nat) : (insertNat a l).Perm (a :: l) := by
  induction l with
  | nil => exact .refl _
  | cons b l ih =>
    rw [insertNat]
    split
    · exact .refl _
    · exact (ih.cons b).trans (.swap a b l)

theorem sortNat_perm (l : List Nat) : (sortNat l).Perm l := by
  induction l with
  | nil => exact .refl _
  | cons a l ih => rw [sortNat]; exact (insertNat_perm a _).trans (ih.cons a)

theorem insertNat_sorted {a : Nat} {l : List Nat} (h : l.Pairwise (· ≤ ·)) : (insertNat a l).Pairwise (· ≤ ·) := by
  induction l with
  | nil => simp [insertNat]
  | cons b l ih =>
    rw [insertNat]
    split
    · rename_i hab
      refine List.Pairwise.cons ?_ h
      intro x hx
      rcases List.mem_cons.1 hx with rfl | hx
      · exact hab
      · exact Nat.le_trans hab (List.rel_of_pairwise_cons h hx)
    · rename_i hab
      refine List.Pairwise.cons ?_ (ih h.of_cons)
      intro x hx
      rcases List.mem_cons.1 ((insertNat_perm a l).mem_iff.1 hx) with rfl | hx
      · omega
      · exact List.rel_of_pairwise_cons h hx

theorem sortNat_sorted (l : List Nat) : (sortNat l).Pairwise (· ≤ ·) := by
  induction l with
  | nil => simp [sortNat]
  | cons a l ih => rw [sortNat]; exact insertNat_sorted ih

theorem insertNat_append {a b : Nat} {l : List Nat} (h : a ≤ b) : insertNat a (l ++ [b]) = insertNat a l ++ [b] := by
  induction l with
  | nil => simp [insertNat, h]
  | cons c l ih =>
    rw [List.cons_append, insertNat, insertNat]
    split
    · rfl
    · rw [ih]; rfl

theorem sortNat_append {b : Nat} {l : List Nat} (h : ∀ x ∈ l, x ≤ b) : sortNat (l ++ [b]) = sortNat l ++ [b] := by
  induction l with
  | nil => rfl
  | cons a l ih =>
    rw [List.cons_append, sortNat, sortNat, ih (fun x hx => h x (by simp [hx])), insertNat_append (h a (by simp))]

theorem sublist_of_indices {α} {tr items : List α} {is : List Nat} {k : Nat} (hs : is.Pairwise (· < ·))
    (hk : ∀ i ∈ is, k ≤ i) (h : List.Forall₂ (fun i e => tr[i]? = some e) is items) : items.Sublist (tr.drop k) := by
  induction h generalizing k with
  | nil => exact List.nil_sublist _
  | @cons i e is items hi _ ih =>
    have h1 := ih hs.of_cons (k := i + 1) (fun j hj => List.rel_of_pairwise_cons hs hj)
    obtain ⟨hlt, he⟩ := List.getElem?_eq_some_iff.1 hi
    have h2 : tr.drop i = e :: tr.drop (i + 1) := by rw [List.drop_eq_getElem_cons hlt, he]
    have h3 : (e :: items).Sublist (tr.drop i) := by rw [h2]; exact h1.cons_cons e
    refine h3.trans ?_
    have hki := hk i (by simp)
    have : tr.drop i = (tr.drop k).drop (i - k) := by rw [List.drop_drop]; congr 1; omega
    rw [this]
    exact List.drop_sublist _ _

theorem mem_calcIdxsOfOps {ops : List Op} {tr : List Event} {i : Nat} :
    i ∈ calcIdxsOfOps ops tr ↔ ∃ e, tr[i]? = some e ∧ RegisteredCall ops e.name := by
  unfold calcIdxsOfOps
  simp only [List.mem_map, List.mem_filter, List.mem_zipIdx_iff_getElem?, Prod.exists, callable_iff]
  constructor
  · rintro ⟨e, j, ⟨h1, h2⟩, rfl⟩; exact ⟨e, h1, h2⟩
  · rintro ⟨e, h1, h2⟩; exact ⟨e, i, ⟨h1, h2⟩, rfl⟩

theorem selectOps_spec {idxs : List Nat} {n : Nat} {ds sel r : List Nat} (h : selectOps idxs n ds sel = .ok r)
    (hn : sel.Nodup) (hm : ∀ x ∈ sel, x ∈ idxs) : r.Nodup ∧ (∀ x ∈ r, x ∈ idxs) ∧ r.length = n := by
  induction ds generalizing sel with
  | nil => cases h
  | cons d ds ih =>
    rw [selectOps] at h
    obtain ⟨⟨i, _⟩, _, h⟩ := R.bind_ok.1 h
    obtain ⟨x, hx, h⟩ := R.bind_ok.1 h
    have hx' : x ∈ idxs := List.mem_of_getElem? (indexAt_ok.1 hx)
    have key : ∀ sel' : List Nat, sel' = (if sel.contains x then sel else sel ++ [x]) →
        sel'.Nodup ∧ ∀ y ∈ sel', y ∈ idxs := by
      intro sel' he
      by_cases hc : sel.contains x = true
      · rw [if_pos hc] at he; subst he; exact ⟨hn, hm⟩
      · rw [if_neg hc] at he
        have hc' : x ∉ sel := by simpa using hc
        subst he
        constructor
        · rw [List.nodup_append]
          exact ⟨hn, by simp, by intro a ha b hb; rw [List.mem_singleton] at hb; subst hb; exact fun e => hc' (e ▸ ha)⟩
        · intro y hy
          rcases List.mem_append.1 hy with hy | hy
          · exact hm y hy
          · rw [List.mem_singleton] at hy; subst hy; exact hx'
    generalize hs' : (if sel.contains x then sel else sel ++ [x]) = sel' at h
    obtain ⟨h1, h2⟩ := key sel' hs'.symm
    simp only at h
    split at h
    · rename_i hl
      cases h
      exact ⟨h1, h2, hl⟩
    · exact ih h h1 h2

theorem mem_le_max? {l : List Nat} {m : Nat} (h : l.max? = some m) : ∀ x ∈ l, x ≤ m :=
  fun x hx => (List.max?_eq_some_iff.1 h).2 x hx

theorem mem_min?_le {l : List Nat} {m : Nat} (h : l.min? = some m) : ∀ x ∈ l, m ≤ x :=
  fun x hx => (List.min?_eq_some_iff.1 h).2 x hx

theorem unwrap_ok {α} {o : Option α} {a : α} : unwrap o = .ok a ↔ o = some a := by
  cases o <;> simp [unwrap]

theorem lastIdx_ok {p : Proc} {mx prev i : Nat} (h : lastIdx p mx prev = .ok i) :
    (i = p.trace.length - 1) ∨ (i = p.trace.length - 2 ∧ mx < i) := by
  unfold lastIdx at h
  obtain ⟨sel, _, h⟩ := R.bind_ok.1 h
  obtain ⟨⟨g, _⟩, _, h⟩ := R.bind_ok.1 h
  simp only at h
  split at h
  · rename_i hc
    cases h; exact .inr ⟨rfl, hc.2.1⟩
  · cases h; exact .inl rfl

theorem forall₂_snoc {α β} {R : α → β → Prop} {l : List α} {a : α} {m : List β} (h : List.Forall₂ R (l ++ [a]) m) :
    ∃ ini b, m = ini ++ [b] ∧ List.Forall₂ R l ini ∧ R a b := by
  induction l generalizing m with
  | nil =>
    cases h with
    | cons h hn => cases hn; exact ⟨[], _, rfl, .nil, h⟩
  | cons x l ih =>
    cases h with
    | cons h hn =>
      obtain ⟨ini, b, rfl, h1, h2⟩ := ih hn
      exact ⟨_ :: ini, b, rfl, .cons h h1, h2⟩

/-- the selected events: indices of the window in ascending order, the last one is the largest -/
theorem selectItems_spec {p : Proc} {d : SampleDraws} {items : List Event} (h : selectItems p d = .ok (some items)) :
    ∃ (is : List Nat) (l : Nat) (ini : List Event) (last : Event),
      items = ini ++ [last] ∧ is.Pairwise (· < ·) ∧ (∀ i ∈ is, i ≤ l) ∧ p.trace[l]? = some last ∧
      List.Forall₂ (fun i e => p.trace[i]? = some e) is ini ∧ 2 ≤ is.length ∧
      (l ∈ is → RegisteredCall p.ops last.name) := by
  unfold selectItems at h
  simp only at h
  split at h
  · cases h
  · obtain ⟨sel, hsel, h⟩ := R.bind_ok.1 h
    obtain ⟨mn, hmn, h⟩ := R.bind_ok.1 h
    obtain ⟨mx, hmx, h⟩ := R.bind_ok.1 h
    split at h
    · cases h
    · rename_i hmn0
      obtain ⟨⟨f, _⟩, hf, h⟩ := R.bind_ok.1 h
      obtain ⟨l, hl, h⟩ := R.bind_ok.1 h
      obtain ⟨its, hits, h⟩ := R.bind_ok.1 h
      cases h
      obtain ⟨hnd, hmem, -⟩ := selectOps_spec hsel List.nodup_nil (by simp)
      have hmn := unwrap_ok.1 hmn
      have hmx := unwrap_ok.1 hmx
      have hfl : f < mn := by
        unfold genRange at hf
        rw [if_neg (by omega)] at hf
        cases hf
        exact Nat.mod_lt _ (by omega)
      have hsl : ∀ x ∈ sel, x ≤ l := by
        intro x hx
        obtain ⟨e, he, _⟩ := mem_calcIdxsOfOps.1 (hmem x hx)
        have hlt := (List.getElem?_eq_some_iff.1 he).1
        rcases lastIdx_ok hl with rfl | ⟨rfl, hm⟩
        · omega
        · have := mem_le_max? hmx x hx; omega
      have hmnsel : mn ∈ sel := (List.min?_eq_some_iff.1 hmn).1
      have hfsel : ∀ x ∈ sel, f < x := fun x hx => Nat.lt_of_lt_of_le hfl (mem_min?_le hmn x hx)
      have hle : ∀ x ∈ f :: sel, x ≤ l := by
        intro x hx
        rcases List.mem_cons.1 hx with rfl | hx
        · have := hsl mn hmnsel; omega
        · exact hsl x hx
      rw [← List.cons_append, sortNat_append hle] at hits
      rw [mapM_ok_iff] at hits
      obtain ⟨ini, last, h3, h1, hlast⟩ := forall₂_snoc hits
      · refine ⟨sortNat (f :: sel), l, ini, last, h3, ?_, ?_, indexAt_ok.1 hlast, ?_, ?_, ?_⟩
        · have hnd' : (sortNat (f :: sel)).Nodup :=
            (sortNat_perm _).nodup_iff.2 (List.nodup_cons.2 ⟨fun hx => Nat.lt_irrefl _ (hfsel f hx), hnd⟩)
          exact (sortNat_sorted (f :: sel)).imp₂ (fun _ _ hab hne => Nat.lt_of_le_of_ne hab hne) hnd'
        · intro i hi; exact hle i ((sortNat_perm _).mem_iff.1 hi)
        · exact h1.imp (fun i e h => indexAt_ok.1 h)
        · rw [(sortNat_perm _).length_eq]
          have := List.length_pos_of_mem hmnsel
          simp; omega
        · intro hli
          rcases List.mem_cons.1 ((sortNat_perm _).mem_iff.1 hli) with rfl | hx
          · have := hfsel mn hmnsel; have := hsl mn hmnsel; omega
          · obtain ⟨e, he, hr⟩ := mem_calcIdxsOfOps.1 (hmem l hx)
            rw [indexAt_ok.1 hlast] at he
            cases he; exact hr

theorem indexAt_append_last {α} (l : List α) (a b : α) :
    indexAt (l ++ [a, b]) ((l ++ [a, b]).length - 1) = .ok b ∧ indexAt (l ++ [a, b]) ((l ++ [a, b]).length - 2) = .ok a := by
  constructor
  · rw [indexAt_ok]
    have e : (l ++ [a, b]).length - 1 = l.length + 1 := by simp
    rw [e, List.getElem?_append_right (by omega)]; simp
  · rw [indexAt_ok]
    have e : (l ++ [a, b]).length - 2 = l.length := by simp
    rw [e, List.getElem?_append_right (by omega)]; simp

theorem evidenceOf_spec {p : Proc} {items : List Event} {s : Sentence} (h : evidenceOf p items = .ok (some s)) :
    ∃ (first : Event) (acts : List Event) (act last : Event) (n : Int) (args : List Term) (name : String),
      items = first :: (acts ++ [act, last]) ∧
      (∀ a ∈ acts ++ [act], RegisteredCall p.ops a.name) ∧
      ¬ RegisteredCall p.ops first.name ∧ ¬ RegisteredCall p.ops last.name ∧ first.name ≠ last.name ∧
      s.term = rule first.name ((acts ++ [act]).map (·.name)) last.name ∧
      s.stamp = ⟨(first :: (acts ++ [act, last])).map (·.evi)⟩ ∧
      s.expDt = some (findMinTableIdx (last.occT - act.occT) p.table) ∧
      (∃ a, (acts ++ [act]).head? = some a ∧ IsCall a.name args name) ∧ EvidenceWeight p.ops name n ∧ Counts s n n ∧
      s.punct = .JUGEMENT := by
  unfold evidenceOf at h
  obtain ⟨r, hr, h⟩ := R.bind_ok.1 h
  cases r with
  | none => cases h
  | some cand =>
    obtain ⟨last, hlast, h⟩ := R.bind_ok.1 h
    obtain ⟨before, hbefore, h⟩ := R.bind_ok.1 h
    obtain ⟨n, hn, h⟩ := R.bind_ok.1 h
    obtain ⟨f, as, l, h1, h2, h3, h4, h5, h6, h7⟩ := tryBuildImplSeq_some hr
    -- shape of the items
    cases items with
    | nil => cases h1
    | cons first rest =>
      obtain ⟨hf, h1⟩ := List.cons.inj h1
      simp only at hf
      obtain ⟨acts', lasts, hrest, ha', hl'⟩ := List.map_eq_append_iff.1 h1
      obtain ⟨acts, act, rfl⟩ : ∃ acts act, acts' = acts ++ [act] := by
        refine ⟨acts'.dropLast, acts'.getLast (by rintro rfl; exact h2 ha'.symm), (List.dropLast_append_getLast _).symm⟩
      obtain ⟨la, rfl, hla⟩ : ∃ la, lasts = [la] ∧ la.name = l := by
        match lasts, hl' with
        | [la], hl' => exact ⟨la, rfl, by simpa using hl'⟩
      subst hrest
      have hitems : first :: (acts ++ [act] ++ [la]) = (first :: acts) ++ [act, la] := by simp
      rw [hitems] at hlast hbefore
      rw [(indexAt_append_last (first :: acts) act la).1] at hlast
      rw [(indexAt_append_last (first :: acts) act la).2] at hbefore
      cases hlast
      cases hbefore
      have hcand : cand = rule first.name ((acts ++ [before]).map (·.name)) last.name := by
        rw [h7, hf, ha', hla]
      have hw : ∃ a args name, (acts ++ [before]).head? = some a ∧ IsCall a.name args name ∧ EvidenceWeight p.ops name n := by
        unfold eviCntOf at hn
        obtain ⟨opT, hopT, hn⟩ := R.bind_ok.1 hn
        obtain ⟨⟨args, name⟩, hdec, hn⟩ := R.bind_ok.1 hn
        have hdec := (decodeOp_iff _ _ _).1 (unwrap_ok.1 hdec)
        obtain ⟨a, ha⟩ : ∃ a, (acts ++ [before]).head? = some a := by
          cases acts <;> simp
        have hopT' : opT = a.name := by
          rw [hcand, rule] at hopT
          simp only [retImplSeqOp] at hopT
          rw [indexAt_ok, List.getElem?_cons_succ, ← List.head?_eq_getElem?, List.head?_map, ha] at hopT
          simpa using hopT.symm
        rw [hopT'] at hdec
        have hreg := h3 a.name (by rw [← ha']; exact List.mem_map_of_mem (List.mem_of_mem_head? ha))
        obtain ⟨args', name', hc, ho⟩ := hreg
        have e1 := (decodeOp_iff _ _ _).2 hdec
        rw [(decodeOp_iff _ _ _).2 hc] at e1
        cases e1
        obtain ⟨o, ho'⟩ := retOpByName_isSome.1 ho
        simp only [ho'] at hn
        cases hn
        exact ⟨a, _, _, ha, hc, retOpByName_weight ho'⟩
      obtain ⟨a, args, name, w1, w2, w3⟩ := hw
      have hs := Option.some.inj (Except.ok.inj h)
      subst hs
      refine ⟨first, acts, before, last, n, args, name, by simp, ?_, ?_, ?_, ?_, hcand, by simp, rfl, ⟨a, w1, w2⟩, w3, rfl, rfl⟩
      · intro a ha
        exact h3 a.name (by rw [← ha']; exact List.mem_map_of_mem ha)
      · rw [hf]; exact h4
      · rw [hla]; exact h5
      · rw [hf, hla]; exact h6

theorem perceiveSample_spec {p p' : Proc} {d : SampleDraws} (h : perceiveSample p d = .ok p') :
    p' = p ∨ ∃ s, Observation p s ∧ p.workerAlive = true ∧ p' = { p with queue := p.queue ++ [(s, p.t)] } := by
  unfold perceiveSample at h
  obtain ⟨items, hi, h⟩ := R.bind_ok.1 h
  cases items with
  | none => cases h; exact .inl rfl
  | some items =>
    obtain ⟨s, hs, h⟩ := R.bind_ok.1 h
    cases s with
    | none => cases h; exact .inl rfl
    | some s =>
      unfold sendToWorker at h
      simp only at h
      split at h
      · rename_i hw
        cases h
        refine .inr ⟨s, ?_, hw, rfl⟩
        obtain ⟨first, acts, act, last, n, args, name, h1, h2, h3, h4, h5, h6⟩ := evidenceOf_spec hs
        refine ⟨first, acts, act, last, n, args, name, ?_, h2, h3, h4, h5, h6⟩
        obtain ⟨is, l, ini, la, g1, g2, g3, g4, g5, g6, g7⟩ := selectItems_spec hi
        have hla : la = last := by
          have e : ini ++ [la] = (first :: (acts ++ [act])) ++ [last] := by rw [← g1, h1]; simp
          simpa using (List.append_inj' e rfl).2
        subst hla
        have hl : l ∉ is := fun hli => h4 (g7 hli)
        rw [← h1, g1]
        have hp : (is ++ [l]).Pairwise (· < ·) := by
          rw [List.pairwise_append]
          refine ⟨g2, by simp, ?_⟩
          intro a ha b hb
          rw [List.mem_singleton] at hb; subst hb
          exact Nat.lt_of_le_of_ne (g3 a ha) (fun e => hl (e ▸ ha))
        have hf : List.Forall₂ (fun i e => p.trace[i]? = some e) (is ++ [l]) (ini ++ [la]) :=
          List.rel_append g5 (.cons g4 .nil)
        have := sublist_of_indices (k := 0) hp (by simp) hf
        simpa using this
      · cases h

/-- what the perception part of a step changes: goals are satisfied by the last event, and observations of the
window are sent to the worker -/
theorem traceStep_spec {p p' : Proc} {draws : Nat → SampleDraws} (h : traceStep p draws = .ok p') :
    ∃ new, (∀ m ∈ new, m.2 = p.t ∧ Observation p m.1) ∧ (new ≠ [] → p.workerAlive = true) ∧
      p' = { p with goals := satisfyLast p, queue := p.queue ++ new } := by
  unfold traceStep at h
  split at h
  · refine foldlM_inv (fun r => ∃ new, (∀ m ∈ new, m.2 = p.t ∧ Observation p m.1) ∧
      (new ≠ [] → p.workerAlive = true) ∧ r = { p with goals := satisfyLast p, queue := p.queue ++ new }) h
        ⟨[], by simp, by simp, by simp⟩ ?_
    rintro i _ r r' ⟨new, h1, h2, rfl⟩ hr
    rcases perceiveSample_spec hr with rfl | ⟨s, hs, hw, rfl⟩
    · exact ⟨new, h1, h2, rfl⟩
    · refine ⟨new ++ [(s, p.t)], ?_, ?_, ?_⟩
      · intro m hm
        rcases List.mem_append.1 hm with hm | hm
        · exact h1 m hm
        · rw [List.mem_singleton] at hm; subst hm
          exact ⟨rfl, hs⟩
      · intro _; exact hw
      · simp
  · cases h
    exact ⟨[], by simp, by simp, by simp⟩

end Nar
