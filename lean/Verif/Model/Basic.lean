/-! # Panics as values

A Rust panic is an explicit error value of the model. -/
namespace Nar

/-- Why a modelled function does not return normally. -/
inductive Err
  /-- `unwrap()` on `None` -/
  | unwrapNone
  /-- index out of range -/
  | index
  /-- `panic!` or a failed `assert!`/`debug_assert!` -/
  | explicit
  /-- the `f64` result would be NaN or infinite; the exact-arithmetic model stops here -/
  | nan
  /-- a number does not parse -/
  | parse
  /-- a loop over random draws does not end with the draws given -/
  | fuel
  deriving DecidableEq, Repr

/-- result of a function that may panic -/
abbrev R := Except Err

instance {α} [DecidableEq α] : DecidableEq (R α) := fun a b =>
  match a, b with
  | .ok x, .ok y => if h : x = y then isTrue (by rw [h]) else isFalse (by intro e; cases e; exact h rfl)
  | .error x, .error y => if h : x = y then isTrue (by rw [h]) else isFalse (by intro e; cases e; exact h rfl)
  | .ok _, .error _ => isFalse (by intro e; cases e)
  | .error _, .ok _ => isFalse (by intro e; cases e)

/-- `Option::unwrap` -/
def unwrap {α} : Option α → R α
  | some x => .ok x
  | none => .error .unwrapNone

/-- slice indexing `arr[i]` -/
def indexAt {α} (arr : List α) (i : Nat) : R α :=
  match arr[i]? with
  | some x => .ok x
  | none => .error .index

end Nar
