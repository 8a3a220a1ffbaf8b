import Verif.Part.ZModel

/-!
# `HilbertPartition`
-/

namespace LGD

/-- `HilbertPartition::Square` without the quadrant (hilbertpartition.h:36-57); forms (hilbertpartition.h:20-28) are
0 = LL_TO_LR, 1 = LL_TO_UL, 2 = UR_TO_LR, 3 = UR_TO_UL. -/
structure HSq where
  origin : Crd
  dims : Crd
  form : Nat

/-- `squareFormTransitions` (hilbertpartition.cpp:5-10). -/
def hForm : Nat → Nat → Nat
  | 0, 0 => 1 | 0, 1 => 0 | 0, 2 => 0 | 0, 3 => 2
  | 1, 0 => 0 | 1, 1 => 1 | 1, 2 => 1 | 1, 3 => 3
  | 2, 0 => 3 | 2, 1 => 2 | 2, 2 => 2 | 2, 3 => 0
  | 3, 0 => 2 | 3, 1 => 3 | 3, 2 => 3 | 3, 3 => 1
  | f, _ => f

/-- `squareSectorTransitions` (hilbertpartition.cpp:15-20). -/
def hSector : Nat → Nat → Nat
  | 0, 0 => 2 | 0, 1 => 0 | 0, 2 => 1 | 0, 3 => 3
  | 1, 0 => 2 | 1, 1 => 3 | 1, 2 => 1 | 1, 3 => 0
  | 2, 0 => 1 | 2, 1 => 0 | 2, 2 => 2 | 2, 3 => 3
  | 3, 0 => 1 | 3, 1 => 3 | 3, 2 => 2 | 3, 3 => 0
  | _, q => q

/-- two-dimensional coordinate; the third axis is not used -/
def xyc (x y : Int) : Crd := fun k => if k = 0 then x else if k = 1 then y else 0

/-- `newOrigin`: both components are assigned (the other axes do not exist) -/
def xyo (o : Crd) (x y : Int) : Crd := fun k => if k = 0 then x else if k = 1 then y else o k

/-- New square (hilbertpartition.h:256-283). -/
def hKid (q : HSq) (quarter : Nat) : HSq :=
  let hx := (q.dims 0).tdiv 2
  let hy := (q.dims 1).tdiv 2
  let form := hForm q.form quarter
  match hSector q.form quarter with
  | 0 => { origin := q.origin, dims := xyc hx hy, form := form }
  | 1 => { origin := xyo q.origin (q.origin 0 + hx) (q.origin 1), dims := xyc (q.dims 0 - hx) hy, form := form }
  | 2 => { origin := xyo q.origin (q.origin 0) (q.origin 1 + hy), dims := xyc hx (q.dims 1 - hy), form := form }
  | _ => { origin := xyo q.origin (q.origin 0 + hx) (q.origin 1 + hy), dims := xyc (q.dims 0 - hx) (q.dims 1 - hy), form := form }

/-- `accuSizes` (hilbertpartition.h:200-240). -/
def hAccu (q : HSq) (i : Nat) : Int :=
  let w := q.dims 0
  let h := q.dims 1
  let hx := w.tdiv 2
  let hy := h.tdiv 2
  let total := w * h
  let leftHalf := hx * h
  let rightHalf := total - leftHalf
  let upperLeft := hx * hy
  let lowerLeft := hx * (h - hy)
  let upperRight := (w - hx) * hy
  let lowerRight := (w - hx) * (h - hy)
  match q.form, i with
  | _, 0 => 0
  | 0, 1 => lowerLeft
  | 0, 2 => leftHalf
  | 0, _ => leftHalf + upperRight
  | 1, 1 => lowerLeft
  | 1, 2 => lowerLeft + lowerRight
  | 1, _ => lowerLeft + rightHalf
  | 2, 1 => upperRight
  | 2, 2 => upperRight + upperLeft
  | 2, _ => upperRight + leftHalf
  | _, 1 => upperRight
  | _, 2 => rightHalf
  | _, _ => rightHalf + lowerLeft

/-- `newQuarter` (hilbertpartition.h:242-248). -/
def hSelect (q : HSq) (pos : Int) : Nat :=
  if pos < hAccu q 2 then (if pos < hAccu q 1 then 0 else 1) else (if pos < hAccu q 3 then 2 else 3)

/-- `digUp` on the stack (hilbertpartition.h:286-297). -/
def hUp {Q : Type} : List (Q × Nat) → List (Q × Nat)
  | [] => []
  | (q, k) :: st => if k + 1 = 4 then hUp st else (q, k + 1) :: st

/-- `squareCoordsCache`: width, height, form -/
abbrev HCache := Int → Int → Nat → List Crd

/-- `HilbertPartition::Iterator` with `maxCachedDimensions = (maxC, maxC)` (hilbertpartition.h:59-304). -/
def hSub (cache : HCache) (maxC : Int) : Subdiv HSq where
  K := 4
  size := fun q => q.dims 0 * q.dims 1
  triv := fun q => hasTriv 1 q.dims
  org := fun q => q.origin
  dir := fun q => if q.dims 0 > 1 then 0 else 1
  len := fun q => if q.dims 0 > 1 then q.dims 0 else q.dims 1
  kid := hKid
  accu := hAccu
  select := hSelect
  cached := fun q => if q.dims 0 < maxC ∧ q.dims 1 < maxC then some (cache (q.dims 0) (q.dims 1) q.form) else none
  up := hUp

/-- assignment of one cache entry -/
def hPut (cache : HCache) (x y : Int) (f : Nat) (l : List Crd) : HCache :=
  fun x' y' f' => if x' = x ∧ y' = y ∧ f' = f then l else cache x' y' f'

/-- body of the loops over `x` and `f` in `fillCaches` (hilbertpartition.h:352-364), for the given pairs -/
def hFillRow (y : Int) : List (Int × Nat) → HCache → Option HCache
  | [], cache => some cache
  | (x, f) :: l, cache =>
    (sqAll 1 (hSub cache y) { origin := xyc 0 0, dims := xyc x y, form := f } ((x * y).toNat + 1)).bind (fun coords =>
      hFillRow y l (hPut cache x y f coords))

/-- `2, 3, …, maxDim - 1` -/
def from2 (maxDim : Nat) : List Int := (List.range (maxDim - 2)).map (fun i : Nat => (i : Int) + 2)

/-- loops over `x` and `f` in order -/
def hPairs (maxDim : Nat) : List (Int × Nat) := (from2 maxDim).flatMap (fun x => (List.range 4).map (fun f => (x, f)))

def hFillRows (maxDim : Nat) : List Int → HCache → Option HCache
  | [], cache => some cache
  | y :: ys, cache => (hFillRow y (hPairs maxDim) cache).bind (fun cache' => hFillRows maxDim ys cache')

/-- `fillCaches` (hilbertpartition.h:345-369); there `maxDim = 17`. -/
def hFill (maxDim : Nat) : Option HCache := hFillRows maxDim (from2 maxDim) (fun _ _ _ => [])

/-- `operator[]` (hilbertpartition.h:317-320); the form is LL_TO_LR. -/
def hStart (cache : HCache) (maxC : Int) (b : Box) (pos : Nat) : Option (SqIter HSq) :=
  sqStart (hSub cache maxC) { origin := b.origin, dims := b.dims, form := 0 } pos

/-- `getRegion` (hilbertpartition.h:332-337). -/
def hRegion (cache : HCache) (maxC : Int) (b : Box) (offset : Nat) (weights : List Nat) (fuel node : Nat) : Option Idx :=
  curveRegion 1 (sqOps 1 (hSub cache maxC)) (hStart cache maxC b) offset weights fuel node

end LGD
