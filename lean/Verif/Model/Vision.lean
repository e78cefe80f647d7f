import Verif.Model.Map2d
import Verif.Model.Tv
/-! # Vision modules: src/ModVisionB.rs, src/ModVisionC.rs, src/ModVisionD.rs

Printing is left out. `f64` is modelled by `Rat`; where the code would go on with "not a number", the model stops with the
error `nan`. The exponential function used by ModVisionD.rs is a parameter. -/
namespace Nar

/-- `quantisize`, ModVisionB.rs 230-232: the conversion to `i64` cuts off the fraction -/
def quantisize (v : Rat) (n : Int) : Int :=
  let x := v * ((n : Rat) - 1)
  if 0 ≤ x then x.floor else - (-x).floor

/-- `conv_to_tv_vec`, ModVisionB.rs 234-239; a negative count cannot be allocated, a negative index is out of range -/
def convToTvVec (v : Rat) (n : Int) (conf : Rat) : R (List Tv) := do
  let vec ← vecOf (⟨0, conf⟩ : Tv) n
  let q := quantisize v n
  if q < 0 then .error .index
  else if q.toNat < vec.length then .ok (vec.set q.toNat ⟨1, conf⟩)
  else .error .index

/-- `conv_img_to_tv_vec`, ModVisionB.rs 98-109 -/
def convImgToTvVec (map : Map2d Rat) (n : Int) (conf : Rat) : R (List Tv) :=
  (gridPoints 0 map.h 0 map.w).foldlM (fun stimulus (iy, ix) => do
    let v ← readAt map iy ix
    let t ← convToTvVec v n conf
    .ok (stimulus ++ t)) []

/-- `Prototype`, ModVisionB.rs 119-124; a channel is its vector of truth values -/
structure ProtoB where
  channels : List (List Tv)
  lastUse : Int
  deriving Repr, DecidableEq

/-- a result which is not a number -/
def nanOf {α : Type} : Option α → R α
  | some x => .ok x
  | none => .error .nan

/-- similarity of the stimulus to one prototype, the loop body of `calc_sims`, ModVisionB.rs 141-150 -/
def simB (stimulus : List (List Tv)) (p : ProtoB) : R Rat := do
  let tv ← (List.range stimulus.length).foldlM (fun tv i => do
    let s ← indexAt stimulus i
    let c ← indexAt p.channels i
    let t ← nanOf (Tv.foldVec (Tv.compVec s c))
    nanOf (Tv.rev tv t)) (⟨0, 0⟩ : Tv)
  .ok (Tv.calcExp tv)

/-- `calc_sims`, ModVisionB.rs 136-156 -/
def simsB (stimulus : List (List Tv)) (ps : List ProtoB) : R (List Rat) := ps.mapM (simB stimulus)

/-- the loop of `classify_max`: best similarity, its index, index of the next element, ModVisionB.rs 163-173 -/
def maxLoop : List Rat → Rat × Nat × Nat → Rat × Nat × Nat
  | [], acc => acc
  | v :: vs, (m, mi, i) => maxLoop vs (if v > m then (v, i, i + 1) else (m, mi, i + 1))

/-- `classify_max`, ModVisionB.rs 158-180 and ModVisionD.rs 52-74 -/
def classifyMax (sims : List Rat) : Option (Nat × Rat) :=
  if sims.length = 0 then none
  else
    let r := maxLoop sims (0, 0, 0)
    if r.1 < 1 / 2 then none else some (r.2.1, r.1)

/-- revision of a prototype by the stimulus, ModVisionB.rs 201-207 -/
def reviseB (p : ProtoB) (stimulus : List (List Tv)) (t : Int) : R ProtoB := do
  let chs ← (List.range p.channels.length).mapM (fun i => do
    let c ← indexAt p.channels i
    let s ← indexAt stimulus i
    nanOf (Tv.revVec c s))
  .ok { channels := chs, lastUse := t }

/-- `classify`, ModVisionB.rs 187-225 -/
def classifyB (ps : List ProtoB) (stimulus : List (List Tv)) (t : Int) (add : Bool) : R (List ProtoB × Option Nat) := do
  let sims ← simsB stimulus ps
  match classifyMax sims with
  | some (idx, _) =>
    if add then do
      let p ← indexAt ps idx
      let p' ← reviseB p stimulus t
      .ok (ps.set idx p', some idx)
    else .ok (ps, some idx)
  | none =>
    if add then .ok (ps ++ [{ channels := stimulus, lastUse := t }], some ps.length)
    else .ok (ps, none)

/-- `RealPrototype`, ModVisionD.rs 13-20; a channel is its map -/
structure ProtoD where
  channels : List (Map2d Rat)
  lastUse : Int
  evidence : Int
  deriving Repr, DecidableEq

/-- distance of the stimulus from one prototype, ModVisionD.rs 32-39 -/
def distD (stimulus : List (Map2d Rat)) (p : ProtoD) : R Rat :=
  (List.range stimulus.length).foldlM (fun dist i => do
    let c ← indexAt p.channels i
    let m ← mapDiv c p.evidence
    let s ← indexAt stimulus i
    let d ← mapSub s m
    let x ← distPow2 d
    .ok (dist + x)) 0

/-- `calc_sims`, ModVisionD.rs 27-50 -/
def simsD (exp : Rat → Rat) (stimulus : List (Map2d Rat)) (ps : List ProtoD) : R (List Rat) :=
  ps.mapM fun p => do
    let dist ← distD stimulus p
    .ok (exp (dist * -(1 / 2)))

/-- revision of a prototype by the stimulus, ModVisionD.rs 96-102 -/
def reviseD (p : ProtoD) (stimulus : List (Map2d Rat)) (t : Int) : R ProtoD := do
  let chs ← (List.range p.channels.length).mapM (fun i => do
    let c ← indexAt p.channels i
    let s ← indexAt stimulus i
    mapAdd c s)
  .ok { channels := chs, lastUse := t, evidence := p.evidence + 1 }

/-- `classify`, ModVisionD.rs 81-120 -/
def classifyD (exp : Rat → Rat) (ps : List ProtoD) (stimulus : List (Map2d Rat)) (t : Int) (add : Bool) :
    R (List ProtoD × Option Nat) := do
  let sims ← simsD exp stimulus ps
  match classifyMax sims with
  | some (idx, _) =>
    if add then do
      let p ← indexAt ps idx
      let p' ← reviseD p stimulus t
      .ok (ps.set idx p', some idx)
    else .ok (ps, some idx)
  | none =>
    if add then .ok (ps ++ [{ channels := stimulus, lastUse := t, evidence := 1 }], some ps.length)
    else .ok (ps, none)

/-- the weighted sum at one pixel, ModVisionC.rs 10-19 and 32-40 -/
def convAt (v kernel : Map2d Rat) (iy ix : Int) : R Rat :=
  (gridPoints (Int.tdiv (-kernel.h) 2) (Int.tdiv kernel.h 2) (Int.tdiv (-kernel.w) 2) (Int.tdiv kernel.w 2)).foldlM
    (fun acc (idy, idx) => do
      let k ← readAt kernel (Int.tdiv kernel.h 2 + idy) (Int.tdiv kernel.w 2 + idx)
      let x ← readAt v (idy + iy) (idx + ix)
      .ok (acc + k * x)) 0

/-- `convo`, ModVisionC.rs 27-46 -/
def convo (v kernel : Map2d Rat) : R (Map2d Rat) := do
  let res ← makeMap2d v.h v.w
  (gridPoints 0 v.h 0 v.w).foldlM (fun res (iy, ix) => do
    let a ← convAt v kernel iy ix
    writeAt res iy ix a) res

/-- `convWithoutBorder`, ModVisionC.rs 4-25 -/
def convWithoutBorder (v kernel : Map2d Rat) : R (Map2d Rat) := do
  let res ← makeMap2d v.h v.w
  let by' := Int.tdiv kernel.h 2 + 1
  let bx := Int.tdiv kernel.w 2 + 1
  (gridPoints by' (v.h - by') bx (v.w - bx)).foldlM (fun res (iy, ix) => do
    let a ← convAt v kernel iy ix
    writeAt res iy ix a) res

end Nar
