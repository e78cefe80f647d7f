import Verif.Model.Basic
import Mathlib.Analysis.SpecialFunctions.ExpDeriv
/-! # Automatic differentiation and the network builder: src/ad.rs, src/Nn.rs

`f64` is modelled by the real numbers, as the claim is about derivatives; hence these definitions are not computable. -/
namespace Nar

/-- `Ad`, ad.rs 4-8: a value and its derivative -/
structure Ad where
  r : ℝ
  d : ℝ

/-- `add`, ad.rs 10-12 -/
def Ad.add (a b : Ad) : Ad := ⟨a.r + b.r, a.d + b.d⟩

/-- `sub`, ad.rs 14-16 -/
def Ad.sub (a b : Ad) : Ad := ⟨a.r - b.r, a.d - b.d⟩

/-- `mul`, ad.rs 18-20 -/
def Ad.mul (a b : Ad) : Ad := ⟨a.r * b.r, a.r * b.d + a.d * b.r⟩

/-- `div`, ad.rs 22-25 -/
noncomputable def Ad.div (a b : Ad) : Ad := ⟨a.r / b.r, (a.r * b.d + a.d * b.r) / (b.r * b.r)⟩

/-- `exp`, ad.rs 27-30 -/
noncomputable def Ad.exp (v : Ad) : Ad := ⟨Real.exp v.r, v.d * Real.exp v.r⟩

/-- `dot`, ad.rs 32-38 -/
def Ad.dot (v w : List Ad) : R Ad := do
  let v0 ← indexAt v 0
  let w0 ← indexAt w 0
  (List.range' 1 (w.length - 1)).foldlM (fun acc i => do
    let vi ← indexAt v i
    let wi ← indexAt w i
    .ok ((vi.mul wi).add acc)) (v0.mul w0)

open Classical in
/-- `reluAct`, ad.rs 41-48 -/
noncomputable def Ad.relu (v : Ad) : Ad := if v.r > 0 then ⟨v.r, v.d⟩ else ⟨0, 0⟩

/-- `sigmoidAct`, ad.rs 50-53 -/
noncomputable def Ad.sigmoid (v : Ad) : Ad := v.exp.div (v.exp.add ⟨1, 0⟩)

/-- `Neuron`, ad.rs 55-60 -/
structure Neuron where
  weights : List Ad
  bias : Ad
  act : Nat

/-- `calc`, ad.rs 63-67 -/
noncomputable def Neuron.calc (inAct : List Ad) (n : Neuron) : R Ad := do
  let s ← Ad.dot inAct n.weights
  .ok (if n.act = 0 then (s.add n.bias).relu else (s.add n.bias).sigmoid)

/-- the derivative written for the parameter with index `i`, Nn.rs 25, 31, 41, 47 -/
def adMark (diffIdx : Option Nat) (i : Nat) : ℝ := if diffIdx = some i then 1 else 0

/-- the weights of a neuron, Nn.rs 22-27 and 38-43; returns the index after them -/
noncomputable def buildWeights (params : List ℝ) (diffIdx : Option Nat) : Nat → Nat → R (List Ad × Nat)
  | 0, idx => .ok ([], idx)
  | n + 1, idx => do
    let v ← indexAt params idx
    let (ws, idx') ← buildWeights params diffIdx n (idx + 1)
    .ok (⟨v, adMark diffIdx idx⟩ :: ws, idx')

/-- a layer of neurons, Nn.rs 21-35 with factor 15 and Nn.rs 37-51 with factor 8 -/
noncomputable def buildLayer (params : List ℝ) (diffIdx : Option Nat) (nIn : Nat) (act : Nat) (boost : ℝ) :
    Nat → Nat → R (List Neuron × Nat)
  | 0, idx => .ok ([], idx)
  | n + 1, idx => do
    let (ws, i) ← buildWeights params diffIdx nIn idx
    let b ← indexAt params i
    let (ns, idx') ← buildLayer params diffIdx nIn act boost n (i + 1)
    .ok (⟨ws, ⟨b * boost, adMark diffIdx i⟩, act⟩ :: ns, idx')

/-- `Network`, Nn.rs 7-10 -/
structure Network where
  layer0 : List Neuron
  layer1 : List Neuron

/-- `buildNnFromParameters`, Nn.rs 14-53. Negative counts are not modelled (the loops would be empty). -/
noncomputable def buildNn (idx : Nat) (params : List ℝ) (nInput act0 n0 n1 : Nat) (diffIdx : Option Nat) :
    R (Network × Nat) := do
  let (l0, idx) ← buildLayer params diffIdx nInput act0 15 n0 idx
  let (l1, idx) ← buildLayer params diffIdx n0 1 8 n1 idx
  .ok (⟨l0, l1⟩, idx)

end Nar
