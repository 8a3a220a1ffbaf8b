import Verif.Ieee.RoundModel
import Verif.Part.CurveModel

/-!
# `RecursiveBisectionPartition`

The floating point expression `round(ratio * dim)` with `ratio = 1.0 * a / b` is a parameter `rnd a b dim` of the model.
-/

namespace LGD

/-- The loop over the axes in `splitBox` (recursivebisectionpartition.h:113-117): the axis with the largest weighted extent. -/
def rbLongest (n : Nat) (dimWeights dim : Crd) : Nat :=
  (List.range n).foldl (fun l i => if dim l * dimWeights l < dim (i + 1) * dimWeights (i + 1) then i + 1 else l) 0

/-- `splitBox` (recursivebisectionpartition.h:103-124); `num / den` is the `ratio`. -/
def rbSplit (rnd : Nat → Nat → Int → Int) (n : Nat) (dimWeights : Crd) (box : Box) (num den : Nat) : Box × Box :=
  let l := rbLongest n dimWeights box.dims
  let offset := rnd num den (box.dims l)
  ({ box with dims := upd box.dims l offset },
   { origin := upd box.origin l (box.origin l + offset), dims := upd box.dims l (box.dims l - offset) })

/-- Selection of `approxMiddle` (recursivebisectionpartition.h:78-92); iterators into `startOffsets` are positions,
`std::lower_bound` on `[begin, end)` is modelled by its specification. -/
def rbMiddle (offsets : List Nat) (b e : Nat) : Option Nat := do
  let vb ← offsets[b]?
  let ve ← offsets[e]?
  let half := (vb + ve) / 2
  let m := b + (((offsets.take e).drop b).takeWhile (fun x => decide (x < half))).length
  let vm ← offsets[m]?
  if vm = half then some m
  else if m = 0 then none
  else do
    let vp ← offsets[m - 1]?
    some (if half - vp < vm - half then m - 1 else m)

/-- `searchNodeCuboid` (recursivebisectionpartition.h:67-101). `none`: recursion deeper than `fuel`, or undefined behaviour. -/
def rbSearch (rnd : Nat → Nat → Int → Int) (n : Nat) (dimWeights : Crd) (offsets : List Nat) : Nat → Nat → Nat → Nat → Box → Option Box
  | 0, _, _, _, _ => none
  | fuel + 1, b, e, node, box =>
    if e = b + 1 then some box
    else do
      let m ← rbMiddle offsets b e
      let vb ← offsets[b]?
      let ve ← offsets[e]?
      let vm ← offsets[m]?
      let vn ← offsets[node]?
      let boxes := rbSplit rnd n dimWeights box (vm - vb) (ve - vb)
      if vn < vm then rbSearch rnd n dimWeights offsets fuel b m node boxes.1
      else rbSearch rnd n dimWeights offsets fuel m e node boxes.2

/-- The search in `getRegion` (recursivebisectionpartition.h:43-48); the offset is always 0 (line 31). The constructor rejects
grids without cells (36-38). -/
def rbCuboid (rnd : Nat → Nat → Int → Int) (n : Nat) (dimWeights : Crd) (grid : Box) (weights : List Nat) (fuel node : Nat) : Option Box :=
  if crdProd n grid.dims = 0 then none
  else rbSearch rnd n dimWeights (startOffsets 0 weights) fuel 0 weights.length node grid

/-- `getRegion` (recursivebisectionpartition.h:41-53). -/
def rbRegion (rnd : Nat → Nat → Int → Int) (n : Nat) (dimWeights : Crd) (grid : Box) (weights : List Nat) (fuel node : Nat) : Option Idx :=
  (rbCuboid rnd n dimWeights grid weights fuel node).bind (fun box => regInsertBox n emptyIdx box fuel)

/-- `round(ratio * dim)` in exact arithmetic (half away from zero). -/
def exactRound (a b : Nat) (d : Int) : Int := (2 * a * d + b) / (2 * b)

/-- `double ratio = 1.0 * a / b` (recursivebisectionpartition.h:92) and `round(ratio * dim)` (line 119) with `double`s: weights are
converted from `std::size_t`, extents from `int` (which is exact); the argument of `round` isn't negative. -/
def doubleRound (a b : Nat) (d : Int) : Int :=
  ⌊Ieee.rnd (Ieee.rnd (Ieee.rnd (1 * Ieee.rnd a) / Ieee.rnd b) * d) + 1 / 2⌋

end LGD
