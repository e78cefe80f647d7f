import Verif.Model.Vision
import Verif.Spec.Tv
import Verif.Spec.Map2d
/-! # Specification vocabulary for the vision modules -/
namespace Nar

/-- element `i` of the list is `s`, the greatest element, which is at least one half; it is the first such element -/
structure IsBest (sims : List Rat) (i : Nat) (s : Rat) : Prop where
  at_i : sims[i]? = some s
  half : 1 / 2 ≤ s
  max : ∀ v ∈ sims, v ≤ s
  first : ∀ (j : Nat) (v : Rat), j < i → sims[j]? = some v → v < s

/-- a stimulus which is shown to a classifier -/
structure Look (σ : Type) where
  stimulus : σ
  time : Int
  /-- may the classifier learn from it? -/
  add : Bool

/-- a sequence of stimuli shown to a classifier; the result is what it knows at the end and all its answers -/
def runLooks {π σ : Type} (step : List π → σ → Int → Bool → R (List π × Option Nat)) :
    List π → List (Look σ) → R (List π × List (Option Nat))
  | ps, [] => .ok (ps, [])
  | ps, l :: ls => do
    let r ← step ps l.stimulus l.time l.add
    let q ← runLooks step r.1 ls
    .ok (q.1, r.2 :: q.2)

/-- the stimuli the classifier learned from and answered by the prototype `k` -/
def assigned {σ : Type} (k : Nat) : List (Look σ) → List (Option Nat) → List σ
  | l :: ls, r :: rs => if l.add = true ∧ r = some k then l.stimulus :: assigned k ls rs else assigned k ls rs
  | _, _ => []

/-- a stimulus with channels of the given sizes, all confidences below one -/
def SaneStim (shape : List Nat) (s : List (List Tv)) : Prop :=
  s.map List.length = shape ∧ ∀ ch ∈ s, ∀ tv ∈ ch, Tv.Sane tv

instance (shape : List Nat) (s : List (List Tv)) : Decidable (SaneStim shape s) := by unfold SaneStim; infer_instance

/-- amount of evidence behind a truth value -/
def evTotal (tv : Tv) : Rat := tv.c / (1 - tv.c)

/-- amount of positive evidence behind a truth value -/
def evPos (tv : Tv) : Rat := tv.c / (1 - tv.c) * tv.f

/-- entry `j` of channel `i` -/
def entry (s : List (List Tv)) (i j : Nat) : Option Tv := (s[i]?).bind (fun ch => ch[j]?)

/-- a quantity of entry `j` of channel `i`, summed over stimuli -/
def sumEntry (g : Tv → Rat) (l : List (List (List Tv))) (i j : Nat) : Rat :=
  (l.map fun s => match entry s i j with | some tv => g tv | none => 0).sum

/-- evidence that two entries are comparable: at least one of the features is present -/
def cmpTotal (a b : Tv) : Rat := (1 - (1 - a.f) * (1 - b.f)) * a.c * b.c

/-- evidence that two entries agree: both features are present; nothing if the presence of either is below 1e-8 -/
def cmpPos (a b : Tv) : Rat := if 1 - (1 - a.f) * (1 - b.f) < 1 / 100000000 then 0 else a.f * b.f * a.c * b.c

/-- sum over all pairs of corresponding entries -/
def sumPairs (g : Tv → Tv → Rat) (s p : List (List Tv)) : Rat :=
  ((List.zip s p).map fun x => ((List.zip x.1 x.2).map fun y => g y.1 y.2).sum).sum

/-- every feature is either present or absent -/
def Crisp (s : List (List Tv)) : Prop := ∀ ch ∈ s, ∀ tv ∈ ch, tv.f = 0 ∨ tv.f = 1

/-- the channels are maps of the given sizes (width, height) -/
def MapStim (shape : List (Int × Int)) (s : List (Map2d Rat)) : Prop :=
  s.map (fun m => (m.w, m.h)) = shape ∧ ∀ m ∈ s, m.WF

/-- value of a pixel; zero outside of the map -/
def pix (m : Map2d Rat) (y x : Int) : Rat := match readAt m y x with | .ok v => v | .error _ => 0

/-- pixel of channel `i` -/
def chPix (s : List (Map2d Rat)) (i : Nat) (y x : Int) : Rat := match s[i]? with | some m => pix m y x | none => 0

/-- squared distance of a stimulus from the mean of the stimuli a prototype was learned from -/
def meanDist (s : List (Map2d Rat)) (p : ProtoD) : Rat :=
  ((List.zip s p.channels).map fun z =>
    ((gridPoints 0 z.1.h 0 z.1.w).map fun q => (pix z.1 q.1 q.2 - pix z.2 q.1 q.2 / p.evidence) ^ 2).sum).sum

/-- the pixel values are at least zero and at most one -/
def UnitImage (m : Map2d Rat) : Prop := m.WF ∧ ∀ y x, 0 ≤ pix m y x ∧ pix m y x ≤ 1

/-- the number of pixels of which both images have a value in the same one of `n` levels -/
def sameLevel (n : Int) (a b : Map2d Rat) : Nat :=
  (gridPoints 0 a.h 0 a.w).countP fun p => (pix a p.1 p.2 * ((n : Rat) - 1)).floor = (pix b p.1 p.2 * ((n : Rat) - 1)).floor

/-- weighted sum of the pixels around a position; the first `rows` rows and `cols` columns of the kernel are used -/
def kernelSum (v kernel : Map2d Rat) (rows cols iy ix : Int) : Rat :=
  ((gridPoints 0 rows 0 cols).map fun k => pix kernel k.1 k.2 * pix v (iy + k.1 - kernel.h / 2) (ix + k.2 - kernel.w / 2)).sum

end Nar
