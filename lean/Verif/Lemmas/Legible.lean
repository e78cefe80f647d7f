import Verif.Spec.Legible
import Verif.Lemmas.Topics
import Verif.Model.Server
/-! # A reader for printed terms -/
namespace Nar
open Term

theorem legible_iff {t : Term} : Legible t ↔ t.Clear ∧ ∀ c ∈ parts t, Legible c := by
  constructor
  · intro h
    exact ⟨h t (.refl t), fun c hc s hs => h s (hs.trans (isSubterm_of_part hc))⟩
  · rintro ⟨h1, h2⟩ s hs
    rcases (isSubterm_iff s t).1 hs with rfl | ⟨c, hc, hs⟩
    · exact h1
    · exact h2 c hc s hs

theorem Legible.sub {s t : Term} (h : Legible t) (hs : IsSubterm s t) : Legible s := fun u hu => h u (hu.trans hs)

theorem Legible.part {c t : Term} (h : Legible t) (hc : c ∈ parts t) : Legible c := (legible_iff.1 h).2 c hc

theorem legible_stmt {c : Copula} {s p : Term} : Legible (.Stmt c s p) ↔ Legible s ∧ Legible p := by
  rw [legible_iff]; simp [parts, Clear]

/-! ## the printed text -/

mutual
/-- the printed text, whatever the term -/
def tx : Term → List Char
  | .Stmt c s p => '<' :: (tx s ++ ' ' :: (c.str ++ ' ' :: (tx p ++ ['>'])))
  | .Name n => n.toList
  | .QVar n => '?' :: n.toList
  | .DepVar n => '#' :: n.toList
  | .IndepVar n => '$' :: n.toList
  | .SetInt ts => '[' :: (txL [' '] ts ++ [']'])
  | .SetExt ts => '{' :: (txL [' '] ts ++ ['}'])
  | .Seq ts => '(' :: ' ' :: (txL [' ', ',', ' '] ts ++ [' ', ')'])
  | .Conj ts => '(' :: ' ' :: (txL [' ', '&', '&', ' '] ts ++ [' ', ')'])
  | .Prod ts => '(' :: ' ' :: (txL [' ', '*', ' '] ts ++ [' ', ')'])
  | .IntInt ts => '(' :: ' ' :: (txL [' ', '|', ' '] ts ++ [' ', ')'])
  | .ExtInt ts => '(' :: ' ' :: (txL [' ', '&', ' '] ts ++ [' ', ')'])
  | .Par ts => '(' :: ' ' :: (txL [' ', ';', ' '] ts ++ [' ', ')'])
  | .Img r i ts => '(' :: ' ' :: (tx r ++ ' ' :: '/' :: (natStr (i + 1) ++ ' ' :: (txL [' '] ts ++ [' ', ')'])))
  | .Neg t => '(' :: '!' :: ' ' :: (tx t ++ [' ', ')'])
/-- several texts with a separator between them -/
def txL (sep : List Char) : List Term → List Char
  | [] => []
  | t :: ts => tx t ++ txTail sep ts
/-- several texts with a separator before each of them -/
def txTail (sep : List Char) : List Term → List Char
  | [] => []
  | t :: ts => sep ++ (tx t ++ txTail sep ts)
end

theorem joinStr_eq {sep : List Char} {ts : List Term} (hn : ts ≠ []) (h : ∀ t ∈ ts, convTermToStr t = some (tx t)) :
    joinStr sep ts = some (txL sep ts) := by
  induction ts with
  | nil => exact absurd rfl hn
  | cons t ts ih =>
    cases ts with
    | nil => simp [joinStr, txL, txTail, h t (by simp)]
    | cons u ts =>
      have := ih (by simp) (fun x hx => h x (by simp [hx]))
      simp [joinStr, h t (by simp), this, txL, txTail]

theorem Legible.text {t : Term} (h : Legible t) : convTermToStr t = some (tx t) := by
  induction t using Term.indParts with
  | h t ih =>
    have h1 : ∀ c ∈ parts t, convTermToStr c = some (tx c) := fun c hc => ih c hc (h.part hc)
    have h2 := (legible_iff.1 h).1
    cases t with
    | Name n | QVar n | DepVar n | IndepVar n => rfl
    | Stmt c s p => simp [convTermToStr, tx, h1 s (by simp [parts]), h1 p (by simp [parts])]
    | Neg t => simp [convTermToStr, tx, h1 t (by simp [parts])]
    | Img r i ts =>
      have hj := joinStr_eq (sep := [' ']) h2 (fun t ht => h1 t (by simp [parts, ht]))
      simp [convTermToStr, tx, hj, h1 r (by simp [parts])]
    | SetInt ts | SetExt ts =>
      have hj := joinStr_eq (sep := [' ']) h2 h1
      simp [convTermToStr, tx, hj]
    | Seq ts | Conj ts | Prod ts | IntInt ts | ExtInt ts | Par ts =>
      have hn : ts ≠ [] := by rintro rfl; simp [Clear] at h2
      have hj := fun sep => joinStr_eq (sep := sep) hn h1
      simp [convTermToStr, tx, hj]

/-! ## the reader -/

/-- the compound which a separator belongs to -/
def kindOf : List Char → Option (List Char × (List Term → Term))
  | ' ' :: ',' :: ' ' :: _ => some ([' ', ',', ' '], .Seq)
  | ' ' :: '&' :: '&' :: ' ' :: _ => some ([' ', '&', '&', ' '], .Conj)
  | ' ' :: '*' :: ' ' :: _ => some ([' ', '*', ' '], .Prod)
  | ' ' :: '|' :: ' ' :: _ => some ([' ', '|', ' '], .IntInt)
  | ' ' :: '&' :: ' ' :: _ => some ([' ', '&', ' '], .ExtInt)
  | ' ' :: ';' :: ' ' :: _ => some ([' ', ';', ' '], .Par)
  | _ => none

/-- the copula at the beginning of a text, with the blank behind it -/
def rdCop : List Char → Option (Copula × List Char)
  | '-' :: '-' :: '>' :: ' ' :: s => some (.INH, s)
  | '<' :: '-' :: '>' :: ' ' :: s => some (.SIM, s)
  | '=' :: '=' :: '>' :: ' ' :: s => some (.IMPL, s)
  | '<' :: '=' :: '>' :: ' ' :: s => some (.EQUIV, s)
  | '=' :: '/' :: '>' :: ' ' :: s => some (.PREDIMPL, s)
  | _ => none

/-- what is left of a text without its beginning -/
def after : List Char → List Char → Option (List Char)
  | [], s => some s
  | c :: cs, d :: s => if c = d then after cs s else none
  | _ :: _, [] => none

theorem after_append (a s : List Char) : after a (a ++ s) = some s := by
  induction a with
  | nil => rfl
  | cons c a ih => simp [after, ih]

/-- the word at the beginning of a text -/
def rdWord (s : List Char) : String × List Char :=
  (String.ofList (s.takeWhile (fun c => decide (SignChar c))), s.dropWhile (fun c => decide (SignChar c)))

mutual
/-- read a term -/
def rd : Nat → List Char → Option (Term × List Char)
  | 0, _ => none
  | n + 1, '<' :: s => do
    let a ← rd n s
    let s1 ← after [' '] a.2
    let c ← rdCop s1
    let b ← rd n c.2
    let s2 ← after ['>'] b.2
    some (.Stmt c.1 a.1 b.1, s2)
  | n + 1, '[' :: s => do
    let a ← rd n s
    let m ← rdMore n [' '] a.2
    let s1 ← after [']'] m.2
    some (.SetInt (a.1 :: m.1), s1)
  | n + 1, '{' :: s => do
    let a ← rd n s
    let m ← rdMore n [' '] a.2
    let s1 ← after ['}'] m.2
    some (.SetExt (a.1 :: m.1), s1)
  | _ + 1, '?' :: s => some (.QVar (rdWord s).1, (rdWord s).2)
  | _ + 1, '#' :: s => some (.DepVar (rdWord s).1, (rdWord s).2)
  | _ + 1, '$' :: s => some (.IndepVar (rdWord s).1, (rdWord s).2)
  | n + 1, '(' :: '!' :: s => do
    let s1 ← after [' '] s
    let a ← rd n s1
    let s2 ← after [' ', ')'] a.2
    some (.Neg a.1, s2)
  | n + 1, '(' :: ' ' :: s => do
    let a ← rd n s
    match kindOf a.2 with
    | some k => do
      let m ← rdMore n k.1 a.2
      let s1 ← after [' ', ')'] m.2
      some (k.2 (a.1 :: m.1), s1)
    | none => do
      let s1 ← after [' ', '/'] a.2
      let s2 ← after [' '] (rdWord s1).2
      let b ← rd n s2
      let m ← rdMore n [' '] b.2
      let s3 ← after [' ', ')'] m.2
      some (.Img a.1 (Nat.ofDigitChars 10 (rdWord s1).1.toList 0 - 1) (b.1 :: m.1), s3)
  | _ + 1, s => if (rdWord s).1.toList = [] then none else some (.Name (rdWord s).1, (rdWord s).2)
/-- read more terms, each with the separator before it -/
def rdMore : Nat → List Char → List Char → Option (List Term × List Char)
  | 0, _, _ => none
  | n + 1, sep, s =>
    match after sep s with
    | none => some ([], s)
    | some s1 =>
      match rd n s1 with
      | none => some ([], s)
      | some a => (rdMore n sep a.2).map (fun m => (a.1 :: m.1, m.2))
end

/-- no word goes on here -/
def Stops (x : List Char) : Prop := ∀ c r, x = c :: r → ¬ SignChar c

theorem rdWord_spelled {w : String} (h : ∀ c ∈ w.toList, SignChar c) {x : List Char} (hx : Stops x) :
    rdWord (w.toList ++ x) = (w, x) := by
  have h1 : x.takeWhile (fun c => decide (SignChar c)) = [] := by
    cases x with
    | nil => rfl
    | cons c r => rw [List.takeWhile_cons_of_neg]; simpa using hx c r rfl
  have h2 : x.dropWhile (fun c => decide (SignChar c)) = x := by
    cases x with
    | nil => rfl
    | cons c r => rw [List.dropWhile_cons_of_neg]; simpa using hx c r rfl
  unfold rdWord
  rw [List.takeWhile_append_of_pos (fun c hc => by simpa using h c hc),
    List.dropWhile_append_of_pos (fun c hc => by simpa using h c hc), h1, h2, List.append_nil, String.ofList_toList]

/-- the text is read as the term, if the reader is given enough time -/
def ReadAs (s : List Char) (t : Term) (x : List Char) : Prop := ∃ N, ∀ n ≥ N, rd n s = some (t, x)

/-- the texts are read as the terms, if the reader is given enough time -/
def ReadMore (sep s : List Char) (ts : List Term) (x : List Char) : Prop := ∃ N, ∀ n ≥ N, rdMore n sep s = some (ts, x)

/-- nothing which begins like this is a further part -/
def NoMore (sep x : List Char) : Prop := ∀ n, rdMore (n + 1) sep x = some ([], x)

theorem readMore {sep : List Char} (hs : ∀ x, Stops (sep ++ x)) {ts : List Term}
    (ih : ∀ t ∈ ts, ∀ x, Stops x → ReadAs (tx t ++ x) t x) {x : List Char} (hx : NoMore sep x) (hst : Stops x) :
    ReadMore sep (txTail sep ts ++ x) ts x := by
  induction ts with
  | nil =>
    refine ⟨1, fun n hn => ?_⟩
    obtain ⟨m, rfl⟩ : ∃ m, n = m + 1 := ⟨n - 1, by omega⟩
    exact hx m
  | cons t ts ih2 =>
    obtain ⟨N2, h2⟩ := ih2 (fun u hu => ih u (by simp [hu]))
    have hstop : Stops (txTail sep ts ++ x) := by
      cases ts with
      | nil => exact hst
      | cons u us => simp only [txTail, List.append_assoc]; exact hs _
    obtain ⟨N1, h1⟩ := ih t (by simp) _ hstop
    refine ⟨N1 + N2 + 1, fun n hn => ?_⟩
    obtain ⟨m, rfl⟩ : ∃ m, n = m + 1 := ⟨n - 1, by omega⟩
    simp only [txTail, List.append_assoc, rdMore, after_append]
    rw [h1 m (by omega)]
    simp only
    rw [h2 m (by omega)]
    rfl

theorem noMore_bracket {c : Char} (h : c ≠ ' ') (x : List Char) : NoMore [' '] (c :: x) := by
  intro n
  simp [rdMore, after, h.symm]

theorem rd_close (n : Nat) (x : List Char) : rd n (')' :: x) = none := by
  cases n with
  | zero => rfl
  | succ n =>
    have : (rdWord (')' :: x)).1.toList = [] := by
      unfold rdWord
      rw [List.takeWhile_cons_of_neg (by decide)]; simp
    simp [rd, this]

theorem noMore_image (x : List Char) : NoMore [' '] (' ' :: ')' :: x) := by
  intro n
  simp [rdMore, after, rd_close]

theorem noMore_sign {sep : List Char} {c : Char} (h : ∃ s, sep = ' ' :: c :: s) (hc : c ≠ ')') (x : List Char) :
    NoMore sep (' ' :: ')' :: x) := by
  obtain ⟨s, rfl⟩ := h
  intro n
  simp [rdMore, after, hc]

theorem stops_cons {c : Char} (h : ¬ SignChar c) (x : List Char) : Stops (c :: x) := by
  rintro d r e
  cases e; exact h

theorem natStr_digits (n : Nat) : (∀ c ∈ natStr n, SignChar c) ∧ Nat.ofDigitChars 10 (natStr n) 0 = n := by
  have hl : natStr n = Nat.toDigits 10 n := by unfold natStr; rw [Nat.toString_eq_ofList_toDigits]; simp
  rw [hl]
  refine ⟨fun c hc => .inl ?_, Nat.ofDigitChars_ten_toDigits⟩
  have := Nat.isDigit_of_mem_toDigits (by decide) (by decide) hc
  simp [Char.isAlphanum, this]

theorem rd_name {n : Nat} {c : Char} {s : List Char} (hc : SignChar c) :
    rd (n + 1) (c :: s) = if (rdWord (c :: s)).1.toList = [] then none else some (.Name (rdWord (c :: s)).1, (rdWord (c :: s)).2) := by
  have h : ∀ d, ¬ SignChar d → c ≠ d := fun d hd e => hd (e ▸ hc)
  have h1 := h '<' (by decide)
  have h2 := h '[' (by decide)
  have h3 := h '{' (by decide)
  have h4 := h '?' (by decide)
  have h5 := h '#' (by decide)
  have h6 := h '$' (by decide)
  have h7 := h '(' (by decide)
  rw [rd]
  all_goals simp_all

theorem rdCop_str (c : Copula) (s : List Char) : rdCop (c.str ++ ' ' :: s) = some (c, s) := by cases c <;> rfl

/-- reading the parts of a compound joined by a sign -/
theorem read_joined {sep : List Char} {k : List Term → Term} {d : Char} {s : List Char} (hsep : sep = ' ' :: d :: s) (hd : d ≠ ')')
    (hk : ∀ x, kindOf (sep ++ x) = some (sep, k)) {ts : List Term} (h2 : 2 ≤ ts.length)
    (ih : ∀ t ∈ ts, ∀ x, Stops x → ReadAs (tx t ++ x) t x) {x : List Char} :
    ReadAs ('(' :: ' ' :: (txL sep ts ++ [' ', ')']) ++ x) (k ts) x := by
  match ts, h2 with
  | t :: u :: ts, _ =>
    have hst : ∀ y, Stops (sep ++ y) := fun y => by rw [hsep]; exact stops_cons (by decide) _
    obtain ⟨N1, h1⟩ := ih t (by simp) (txTail sep (u :: ts) ++ (' ' :: ')' :: x)) (by simp only [txTail, List.append_assoc]; exact hst _)
    obtain ⟨N2, h2⟩ := readMore (sep := sep) hst (ts := u :: ts) (fun v hv => ih v (by simp at hv ⊢; tauto))
      (noMore_sign ⟨s, hsep⟩ hd x) (stops_cons (by decide) _)
    refine ⟨N1 + N2 + 1, fun n hn => ?_⟩
    obtain ⟨m, rfl⟩ : ∃ m, n = m + 1 := ⟨n - 1, by omega⟩
    have e : '(' :: ' ' :: (txL sep (t :: u :: ts) ++ [' ', ')']) ++ x =
        '(' :: ' ' :: (tx t ++ (txTail sep (u :: ts) ++ (' ' :: ')' :: x))) := by simp [txL]
    rw [e]
    simp only [rd]
    rw [h1 m (by omega)]
    have hk' : kindOf (txTail sep (u :: ts) ++ ' ' :: ')' :: x) = some (sep, k) := by
      simp only [txTail, List.append_assoc]; exact hk _
    simp only [Option.bind_eq_bind, Option.bind_some]
    rw [hk']
    simp only
    rw [h2 m (by omega)]
    simp [after]

theorem Legible.read {t : Term} (h : Legible t) : ∀ x, Stops x → ReadAs (tx t ++ x) t x := by
  induction t using Term.indParts with
  | h t ih =>
    have h1 : ∀ c ∈ parts t, ∀ x, Stops x → ReadAs (tx c ++ x) c x := fun c hc => ih c hc (h.part hc)
    have h2 := (legible_iff.1 h).1
    intro x hx
    cases t with
    | Name w =>
      refine ⟨1, fun n hn => ?_⟩
      obtain ⟨m, rfl⟩ : ∃ m, n = m + 1 := ⟨n - 1, by omega⟩
      have hw := rdWord_spelled h2.2 hx
      have hne := h2.1
      simp only [tx]
      cases hl : w.toList with
      | nil => exact absurd hl hne
      | cons c cs =>
        rw [List.cons_append, rd_name (h2.2 c (by simp [hl])), ← List.cons_append, ← hl, hw, if_neg hne]
    | QVar w | DepVar w | IndepVar w =>
      refine ⟨1, fun n hn => ?_⟩
      obtain ⟨m, rfl⟩ : ∃ m, n = m + 1 := ⟨n - 1, by omega⟩
      simp [tx, rd, rdWord_spelled h2.2 hx]
    | Stmt c s p =>
      obtain ⟨N1, k1⟩ := h1 s (by simp [parts]) (' ' :: (c.str ++ ' ' :: (tx p ++ ('>' :: x)))) (stops_cons (by decide) _)
      obtain ⟨N2, k2⟩ := h1 p (by simp [parts]) ('>' :: x) (stops_cons (by decide) _)
      refine ⟨N1 + N2 + 1, fun n hn => ?_⟩
      obtain ⟨m, rfl⟩ : ∃ m, n = m + 1 := ⟨n - 1, by omega⟩
      have e : tx (.Stmt c s p) ++ x = '<' :: (tx s ++ (' ' :: (c.str ++ ' ' :: (tx p ++ ('>' :: x))))) := by simp [tx]
      rw [e]
      simp only [rd]
      rw [k1 m (by omega)]
      simp only [after, Option.bind_eq_bind, Option.bind_some, if_true]
      rw [rdCop_str]
      simp only [Option.bind_some]
      rw [k2 m (by omega)]
      simp [after]
    | Neg t =>
      obtain ⟨N1, k1⟩ := h1 t (by simp [parts]) (' ' :: ')' :: x) (stops_cons (by decide) _)
      refine ⟨N1 + 1, fun n hn => ?_⟩
      obtain ⟨m, rfl⟩ : ∃ m, n = m + 1 := ⟨n - 1, by omega⟩
      have e : tx (.Neg t) ++ x = '(' :: '!' :: ' ' :: (tx t ++ (' ' :: ')' :: x)) := by simp [tx]
      rw [e]
      simp only [rd, after, Option.bind_eq_bind, Option.bind_some, if_true]
      rw [k1 m (by omega)]
      simp [after]
    | Img r i ts =>
      match ts, h2 with
      | t :: ts, _ =>
        have hst : ∀ y, Stops ([' '] ++ y) := fun y => stops_cons (by decide) _
        have hst2 : Stops (txTail [' '] ts ++ (' ' :: ')' :: x)) := by
          cases ts with
          | nil => exact stops_cons (by decide) _
          | cons u us => exact stops_cons (by decide) _
        obtain ⟨N1, k1⟩ := h1 r (by simp [parts])
          (' ' :: '/' :: (natStr (i + 1) ++ (' ' :: (tx t ++ (txTail [' '] ts ++ (' ' :: ')' :: x)))))) (stops_cons (by decide) _)
        obtain ⟨N2, k2⟩ := h1 t (by simp [parts]) (txTail [' '] ts ++ (' ' :: ')' :: x)) hst2
        obtain ⟨N3, k3⟩ := readMore (sep := [' ']) hst (ts := ts) (fun v hv => h1 v (by simp [parts, hv])) (noMore_image x)
          (stops_cons (by decide) _)
        refine ⟨N1 + N2 + N3 + 1, fun n hn => ?_⟩
        obtain ⟨m, rfl⟩ : ∃ m, n = m + 1 := ⟨n - 1, by omega⟩
        have e : tx (.Img r i (t :: ts)) ++ x =
            '(' :: ' ' :: (tx r ++ (' ' :: '/' :: (natStr (i + 1) ++ (' ' :: (tx t ++ (txTail [' '] ts ++ (' ' :: ')' :: x))))))) := by
          simp [tx, txL]
        rw [e]
        simp only [rd]
        rw [k1 m (by omega)]
        have hk : ∀ y, kindOf (' ' :: '/' :: y) = none := fun y => by simp [kindOf]
        simp only [Option.bind_eq_bind, Option.bind_some, hk, after, if_true]
        have hd := natStr_digits (i + 1)
        have hw := rdWord_spelled (w := String.ofList (natStr (i + 1))) (by simpa using hd.1)
          (x := ' ' :: (tx t ++ (txTail [' '] ts ++ (' ' :: ')' :: x)))) (stops_cons (by decide) _)
        rw [String.toList_ofList] at hw
        rw [hw]
        simp only [after, Option.bind_some, if_true]
        rw [k2 m (by omega)]
        simp only [Option.bind_some]
        rw [k3 m (by omega)]
        simp [after, hd.2]
    | SetInt ts | SetExt ts =>
      match ts, h2 with
      | t :: ts, _ =>
        have hst : ∀ y, Stops ([' '] ++ y) := fun y => stops_cons (by decide) _
        have hst2 : ∀ (c : Char), ¬ SignChar c → Stops (txTail [' '] ts ++ (c :: x)) := by
          intro c hc
          cases ts with
          | nil => exact stops_cons hc _
          | cons u us => exact stops_cons (by decide) _
        have k1 : ∀ c, ¬ SignChar c → ReadAs (tx t ++ (txTail [' '] ts ++ (c :: x))) t (txTail [' '] ts ++ (c :: x)) :=
          fun c hc => h1 t (by simp [parts]) _ (hst2 c hc)
        have k2 : ∀ c, ¬ SignChar c → c ≠ ' ' → ReadMore [' '] (txTail [' '] ts ++ (c :: x)) ts (c :: x) :=
          fun c hc hb => readMore (sep := [' ']) hst (ts := ts) (fun v hv => h1 v (by simp [parts, hv])) (noMore_bracket hb x)
            (stops_cons hc _)
        first
        | (obtain ⟨N1, k1⟩ := k1 ']' (by decide)
           obtain ⟨N2, k2⟩ := k2 ']' (by decide) (by decide)
           refine ⟨N1 + N2 + 1, fun n hn => ?_⟩
           obtain ⟨m, rfl⟩ : ∃ m, n = m + 1 := ⟨n - 1, by omega⟩
           have e : tx (.SetInt (t :: ts)) ++ x = '[' :: (tx t ++ (txTail [' '] ts ++ (']' :: x))) := by simp [tx, txL]
           rw [e]
           simp only [rd]
           rw [k1 m (by omega)]
           simp only [Option.bind_eq_bind, Option.bind_some]
           rw [k2 m (by omega)]
           simp [after])
        | (obtain ⟨N1, k1⟩ := k1 '}' (by decide)
           obtain ⟨N2, k2⟩ := k2 '}' (by decide) (by decide)
           refine ⟨N1 + N2 + 1, fun n hn => ?_⟩
           obtain ⟨m, rfl⟩ : ∃ m, n = m + 1 := ⟨n - 1, by omega⟩
           have e : tx (.SetExt (t :: ts)) ++ x = '{' :: (tx t ++ (txTail [' '] ts ++ ('}' :: x))) := by simp [tx, txL]
           rw [e]
           simp only [rd]
           rw [k1 m (by omega)]
           simp only [Option.bind_eq_bind, Option.bind_some]
           rw [k2 m (by omega)]
           simp [after])
    | Seq ts => exact read_joined rfl (by decide) (fun _ => rfl) h2 h1
    | Conj ts => exact read_joined rfl (by decide) (fun _ => rfl) h2 h1
    | Prod ts => exact read_joined rfl (by decide) (fun _ => rfl) h2 h1
    | IntInt ts => exact read_joined rfl (by decide) (fun _ => rfl) h2 h1
    | ExtInt ts => exact read_joined rfl (by decide) (fun _ => rfl) h2 h1
    | Par ts => exact read_joined rfl (by decide) (fun _ => rfl) h2 h1

/-- two texts which go on where no word goes on are those of the same term, and go on in the same way -/
theorem tx_unique {t u : Term} (ht : Legible t) (hu : Legible u) {x y : List Char} (hx : Stops x) (hy : Stops y)
    (h : tx t ++ x = tx u ++ y) : t = u ∧ x = y := by
  obtain ⟨N1, h1⟩ := ht.read x hx
  obtain ⟨N2, h2⟩ := hu.read y hy
  have a := h1 (N1 + N2) (by omega)
  have b := h2 (N1 + N2) (by omega)
  rw [h, b] at a
  simp only [Option.some.injEq, Prod.mk.injEq] at a
  exact ⟨a.1.symm, a.2.symm⟩

end Nar
