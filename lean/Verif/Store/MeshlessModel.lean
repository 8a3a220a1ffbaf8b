import Verif.Store.GridModel
import Verif.Geom.BoxModel
import Mathlib.Data.Rat.Floor

/-!
# `MeshlessAdapter`

Model of `storage/meshlessadapter.h`. Coordinates of vertices are rationals (`double` is replaced by exact arithmetic), `n = DIM - 1`;
`insert` compiles for `DIM = 2` only (line 64), `findAllPositions` and `reportFillLevels` don't compile at all and are left out. `none`
stands for undefined behaviour or a loop which exceeds its fuel.
-/

namespace LGD.Meshless

open LGD.Store

abbrev Pos := Nat → ℚ

/-- members of `MeshlessAdapter` (lines 241-245); `scale` and `radius2` are functions of `bs` -/
structure Adapter where
  dims : Pos
  bs : ℚ
  dd : Crd

/-- conversion from `double` to `int` -/
def trunc (x : ℚ) : Int := if 0 ≤ x then ⌊x⌋ else ⌈x⌉

/-- `discreteDim` as computed by `resetBoxSize` (lines 249, 260-262); `floor(dimensions * scale)`, `scale = 1 / boxSize` -/
def discreteDim (dims : Pos) (bs : ℚ) : Crd := fun k => max 1 ⌊dims k * (1 / bs)⌋

def MAX_SIZE : Int := 300000

variable (n : Nat) (wraps : Nat → Bool)

/-- `resetBoxSize` (lines 247-267); the flag tells whether it throws, in which case the members were changed all the same -/
def reset (a : Adapter) (bs : ℚ) : Adapter × Bool :=
  (⟨a.dims, bs, discreteDim a.dims bs⟩, decide (MAX_SIZE < crdProd n (discreteDim a.dims bs)))

/-- `posToCoord` (lines 52-60) -/
def posToCoord (a : Adapter) (p : Pos) : Crd := fun k => min (a.dd k - 1) (trunc (p k * (1 / a.bs)))

/-- `grid` (lines 47-50) -/
def newGrid (a : Adapter) : Grid (List (Pos × Int)) := gridMake n a.dd [] []

/-- `insert` (lines 62-66) -/
def insert (a : Adapter) (g : Grid (List (Pos × Int))) (p : Pos) (id : Int) : Option (Grid (List (Pos × Int))) :=
  (gridRead n wraps g (posToCoord a p)).bind fun l => gridWrite n wraps g (posToCoord a p) (l ++ [(p, id)])

/-- a sequence of insertions -/
def insertAll (a : Adapter) (g : Grid (List (Pos × Int))) (vs : List (Pos × Int)) : Option (Grid (List (Pos × Int))) :=
  vs.foldlM (fun g v => insert n wraps a g v.1 v.2) g

/-- `distance2` (lines 292-305) -/
def distance2 (a : Adapter) (p q : Pos) : ℚ :=
  (List.range (n + 1)).foldl (fun s k =>
    let delta := |p k - q k|
    let delta := if wraps k then min delta (a.dims k - delta) else delta
    s + delta * delta) 0

/-- `searchList` (lines 269-287): whether something was found, and the IDs put to the set -/
def searchList (a : Adapter) (l : List (Pos × Int)) (p : Pos) : Bool × List Int :=
  l.foldl (fun r v => if distance2 n wraps a p v.1 < a.bs * a.bs then (true, r.2 ++ [v.2]) else r) (false, [])

/-- `search` (lines 74-90): the cells of the Moore neighborhood one after the other -/
def searchLoop (a : Adapter) (g : Grid (List (Pos × Int))) (p : Pos) : List Crd → Option (Bool × List Int)
  | [] => some (false, [])
  | i :: is =>
    (gridRead n wraps g (fun k => posToCoord a p k + i k)).bind fun l =>
      (searchLoop a g p is).map fun r => ((searchList n wraps a l p).1 || r.1, (searchList n wraps a l p).2 ++ r.2)

def search (a : Adapter) (g : Grid (List (Pos × Int))) (p : Pos) : Option (Bool × List Int) :=
  (boxCoords n ⟨fun _ => -1, fun _ => 3⟩ 28).bind (searchLoop n wraps a g p)

/-- `manhattanDistance` (lines 307-323) -/
def manhattan (a : Adapter) (p q : Pos) : Int :=
  (List.range (n + 1)).foldl (fun m k =>
    let dist := |posToCoord a p k - posToCoord a q k|
    let dist := if wraps k then min dist (a.dd k - dist) else dist
    max dist m) 0

/-- `checkBoxSize` (lines 184-196); `none`: the graph refers to a vertex which has no position -/
def checkEdges (a : Adapter) (ps : List (Pos × Int)) (p : Pos) : List Nat → Option Bool
  | [] => some true
  | m :: ms =>
    match ps[m]? with
    | none => none
    | some q => if manhattan n wraps a p q.1 > 1 then some false else checkEdges a ps p ms

def checkRows (a : Adapter) (ps : List (Pos × Int)) : Nat → List (List Nat) → Option Bool
  | _, [] => some true
  | i, ms :: g =>
    match ms, ps[i]? with
    | [], _ => checkRows a ps (i + 1) g
    | _ :: _, none => none
    | _ :: _, some p =>
      (checkEdges n wraps a ps p.1 ms).bind fun b => if b then checkRows a ps (i + 1) g else some false

def checkBoxSize (a : Adapter) (ps : List (Pos × Int)) (g : List (List Nat)) : Option Bool := checkRows n wraps a ps 0 g

/-- results of `findOptimumBoxSize` -/
inductive Outcome where
  /-- returns a box size -/
  | ret (a : Adapter) (bs : ℚ)
  /-- `resetBoxSize` throws -/
  | tooMany
  /-- line 180 -/
  | failed

/-- `while (checkBoxSize(…) == expect) resetBoxSize(boxSize * factor)` (lines 123-124, 131-132), after the first call of
`resetBoxSize` -/
def backOff (ps : List (Pos × Int)) (g : List (List Nat)) (expect : Bool) (factor : ℚ) : Nat → Adapter → Option (Adapter × Bool)
  | 0, _ => none
  | fuel + 1, a =>
    (checkBoxSize n wraps a ps g).bind fun b =>
      if b = expect then
        let r := reset n a (a.bs * factor)
        if r.2 then some (r.1, true) else backOff ps g expect factor fuel r.1
      else some (a, false)

/-- `intervalTooLarge` (lines 325-335) -/
def tooLarge (a b : Crd) : Bool := decide (1 < (List.range (n + 1)).foldl (fun m k => max m |a k - b k|) 0)

/-- the bisection of lines 141-151 -/
def bisect (ps : List (Pos × Int)) (g : List (List Nat)) : Nat → Adapter → ℚ → ℚ → Crd → Crd → Option (Adapter × Bool × Crd)
  | 0, _, _, _, _, _ => none
  | fuel + 1, a, lo, up, loDim, upDim =>
    if tooLarge n loDim upDim then
      let r := reset n a ((up + lo) * (1 / 2))
      if r.2 then some (r.1, true, upDim)
      else (checkBoxSize n wraps r.1 ps g).bind fun b =>
        if b then bisect ps g fuel r.1 lo ((up + lo) * (1 / 2)) loDim r.1.dd
        else bisect ps g fuel r.1 ((up + lo) * (1 / 2)) up r.1.dd upDim
    else some (a, false, upDim)

/-- the loop of lines 160-169: `maxBoxSize`, `nextLower` -/
def finalSizes (dims : Pos) (upDim : Crd) : ℚ × ℚ :=
  (List.range (n + 1)).foldl (fun r k =>
    let current := dims k / upDim k
    if current > r.1 then (current, dims k / (upDim k + 1)) else r) (0, 0)

/-- lines 171-181 -/
def finish (ps : List (Pos × Int)) (g : List (List Nat)) (a : Adapter) (upDim : Crd) : Option Outcome :=
  let f := finalSizes n a.dims upDim
  let r := reset n a f.2
  if r.2 then some .tooMany
  else (checkBoxSize n wraps r.1 ps g).bind fun b =>
    if b then some (.ret r.1 f.2)
    else
      let r := reset n r.1 f.1
      if r.2 then some .tooMany
      else (checkBoxSize n wraps r.1 ps g).bind fun b => if b then some (.ret r.1 f.1) else some .failed

/-- `findOptimumBoxSize` (lines 107-182) -/
def findOptimum (fuel : Nat) (a : Adapter) (ps : List (Pos × Int)) (g : List (List Nat)) : Option Outcome :=
  (checkBoxSize n wraps a ps g).bind fun b =>
    let r := reset n a (if b then a.bs * (1 / 2) else a.bs * 2)
    if r.2 then some .tooMany
    else (backOff n wraps ps g b (if b then 1 / 2 else 2) fuel r.1).bind fun r =>
      if r.2 then some .tooMany
      else
        let e := r.1
        (if b then bisect n wraps ps g fuel e e.bs a.bs e.dd a.dd
          else bisect n wraps ps g fuel e a.bs e.bs a.dd e.dd).bind fun r =>
          if r.2.1 then some .tooMany else finish n wraps ps g r.1 r.2.2

end LGD.Meshless
