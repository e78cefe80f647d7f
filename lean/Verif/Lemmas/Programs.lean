import Verif.Spec.Programs
import Verif.Lemmas.Nar2
import Verif.Lemmas.Decl4
/-! # Files and the interactive session: lemmas -/
namespace Nar
open Term

theorem work_fold (env : Env) (ws : List Work) (r : Reasoner) :
    moreNar env r (ws.map Work.op) = .ok (ws.foldl (Work.run env) r) := by
  induction ws generalizing r with
  | nil => rfl
  | cons w ws ih =>
    rw [List.map_cons, List.foldl_cons, ← ih]
    unfold moreNar
    rw [List.foldlM_cons]
    cases w <;> rfl

theorem moreNar_app (env : Env) (r : Reasoner) (a b : List NarOp) :
    moreNar env r (a ++ b) = (moreNar env r a).bind (fun r => moreNar env r b) := by
  unfold moreNar; rw [List.foldlM_append]; rfl

theorem moreNar_one (env : Env) (r : Reasoner) (op : NarOp) : moreNar env r [op] = op.run env r := by
  unfold moreNar
  rw [List.foldlM_cons]
  cases op.run env r <;> rfl

theorem read_ops (env : Env) (r : Reasoner) (l : Read) :
    moreNar env r l.ops = (input env (l.work.foldl (Work.run env) r) l.line l.draws).map (·.1) := by
  unfold Read.ops
  rw [moreNar_app, work_fold]
  show moreNar env _ _ = _
  rw [moreNar_one]; rfl

theorem input_quits {env : Env} {r r' : Reasoner} {l : Read} {q : Bool} {out : List (List Char)}
    (h : input env r l.line l.draws = .ok (r', q, out)) : q = l.quits := by
  obtain ⟨_, _, rfl⟩ := input_ok h
  rw [Bool.eq_iff_iff, beq_iff_eq, commandOf_quit]
  unfold Read.quits
  rw [beq_iff_eq]

theorem readLines_eq (env : Env) (r : Reasoner) (lines : List Read) :
    readLines env r lines = (moreNar env r (readOps lines)).map (fun r => (r, lines.any Read.quits)) := by
  induction lines generalizing r with
  | nil => rfl
  | cons l lines ih =>
    have e := read_ops env r l
    unfold readLines
    cases hin : input env (l.work.foldl (Work.run env) r) l.line l.draws with
    | error x =>
      have : moreNar env r (readOps (l :: lines)) = .error x := by
        rw [hin] at e
        unfold readOps untilQuit
        cases hq : l.quits <;> simp [hq, moreNar_app, e, Except.map, Except.bind]
      rw [this]; rfl
    | ok x =>
      obtain ⟨r1, q, out⟩ := x
      rw [hin] at e
      have hq := input_quits hin
      subst hq
      show (if l.quits = true then _ else _) = _
      cases hq : l.quits with
      | true =>
        rw [if_pos rfl]
        have : readOps (l :: lines) = l.ops := by simp [readOps, untilQuit, hq]
        rw [this, e]; simp [Except.map, hq]
      | false =>
        rw [if_neg (by simp), ih]
        have : readOps (l :: lines) = l.ops ++ readOps lines := by simp [readOps, untilQuit, hq]
        rw [this, moreNar_app, e]; simp [Except.map, hq, Except.bind]

theorem readLines_cons (env : Env) (r : Reasoner) (l : Read) (rest : List Read) : readLines env r (l :: rest) =
    (input env (l.work.foldl (Work.run env) r) l.line l.draws).bind fun x =>
      if x.2.1 then .ok (x.1, true) else readLines env x.1 rest := rfl

theorem readLines_append (env : Env) (r : Reasoner) (a b : List Read) :
    readLines env r (a ++ b) = (readLines env r a).bind fun x => if x.2 then .ok x else readLines env x.1 b := by
  induction a generalizing r with
  | nil => rfl
  | cons l a ih =>
    rw [List.cons_append, readLines_cons, readLines_cons]
    cases hin : input env (l.work.foldl (Work.run env) r) l.line l.draws with
    | error x => rfl
    | ok x =>
      obtain ⟨r1, q, out⟩ := x
      show (if q = true then _ else _) = Except.bind (if q = true then _ else _) _
      cases q with
      | true => rfl
      | false => rw [if_neg (by simp), if_neg (by simp), ih]

theorem readFiles_eq (env : Env) (r : Reasoner) (files : List (Option (List Read))) :
    readFiles env r files = readLines env r (files.filterMap id).flatten := by
  induction files generalizing r with
  | nil => rfl
  | cons f files ih =>
    cases f with
    | none =>
      show readFiles env r files = _
      rw [ih]; rfl
    | some ls =>
      unfold readFiles
      rw [List.filterMap_cons_some (by rfl), List.flatten_cons, readLines_append]
      show Except.bind (readLines env r ls) _ = _
      congr 1
      funext x
      obtain ⟨r1, q⟩ := x
      cases q with
      | true => rfl
      | false => exact ih r1

/-- the lines of the session after the last line which is remembered -/
def sessionLines (last : List Char) : List Read → List Read
  | [] => []
  | l :: rest => { l with line := (repeatLast last l.line).1 } :: sessionLines (repeatLast last l.line).2 rest

theorem session_eq (env : Env) (r : Reasoner) (last : List Char) (typed : List Read) :
    (session env (r, last) typed).map (fun x => (x.1.1, x.2)) = readLines env r (sessionLines last typed) := by
  induction typed generalizing r last with
  | nil => rfl
  | cons l rest ih =>
    unfold session sessionLines readLines sessionRound
    generalize repeatLast last l.line = p
    obtain ⟨now, last'⟩ := p
    simp only
    cases hin : input env (l.work.foldl (Work.run env) r) now l.draws with
    | error x => rfl
    | ok x =>
      obtain ⟨r1, q, out⟩ := x
      cases q with
      | true => rfl
      | false => exact ih r1 last'

theorem getLastD_filter_cons (a : List Char) (l : List (List Char)) (d : List Char) :
    (((a :: l)).filter (· ≠ [])).getLastD d = (l.filter (· ≠ [])).getLastD (if a = [] then d else a) := by
  by_cases h : a = []
  · simp [h]
  · rw [List.filter_cons_of_pos (by simpa using h), if_neg h]
    cases l.filter (· ≠ []) <;> simp [List.getLastD]

theorem sessionLines_eq (last : List Char) (typed : List Read) : sessionLines last typed =
    typed.mapIdx fun i l => { l with line := ((((typed.map (·.line)).take (i + 1)).map trimNewline).filter (· ≠ [])).getLastD last } := by
  induction typed generalizing last with
  | nil => rfl
  | cons l rest ih =>
    unfold sessionLines
    rw [List.mapIdx_cons]
    have h1 : (repeatLast last l.line).1 = if trimNewline l.line = [] then last else trimNewline l.line := by
      unfold repeatLast; split <;> rfl
    have h2 : (repeatLast last l.line).2 = if trimNewline l.line = [] then last else trimNewline l.line := by
      unfold repeatLast; split <;> rfl
    congr 1
    · rw [h1]
      simp only [List.map_cons, Nat.zero_add, List.take_succ_cons, List.take_zero, List.map_nil]
      rw [getLastD_filter_cons]; rfl
    · rw [ih, h2]
      congr 1
      funext i x
      simp only [List.map_cons, List.take_succ_cons]
      rw [getLastD_filter_cons]

theorem session_repeated (env : Env) (r : Reasoner) (typed : List Read) :
    (session env (r, []) typed).map (fun x => (x.1.1, x.2)) = readLines env r (repeated typed) := by
  rw [session_eq, sessionLines_eq]; rfl

theorem interactive_eq (env : Env) (files : List (Option (List Read))) (typed : List Read) :
    interactive env files typed =
      readLines env { createNar with linked := true } ((files.filterMap id).flatten ++ repeated typed) := by
  unfold interactive
  rw [readFiles_eq, readLines_append]
  show Except.bind _ _ = Except.bind _ _
  congr 1
  funext x
  obtain ⟨r, q⟩ := x
  cases q with
  | true => rfl
  | false =>
    show Except.bind _ _ = readLines env r (repeated typed)
    rw [← session_repeated]
    cases session env (r, []) typed <;> rfl
end Nar
