import Mathlib.Algebra.Order.Field.Rat
import Mathlib.Data.Int.Order.Basic

/-!
# ConvexPolytope and VoronoiMesher

geometry/plane.h, geometry/convexpolytope.h, geometry/voronoimesher.h. Coordinates are rational numbers, arithmetic is exact.
-/

namespace LGD.Mesh

/-- `FloatCoord<2>` -/
@[ext] structure V where
  x : ℚ
  y : ℚ
  deriving DecidableEq

namespace V

def sub (a b : V) : V := ⟨a.x - b.x, a.y - b.y⟩
def add (a b : V) : V := ⟨a.x + b.x, a.y + b.y⟩
def smul (s : ℚ) (a : V) : V := ⟨s * a.x, s * a.y⟩

/-- inner product (floatcoord.h:415-419) -/
def dot (a b : V) : ℚ := a.x * b.x + a.y * b.y

end V

/-- `Plane` (plane.h:13-45); `length` is computed in the end only -/
structure Plane where
  base : V
  dir : V
  id : Nat

/-- left hand side of `isOnTop` (plane.h:28-31) -/
def Plane.val (e : Plane) (p : V) : ℚ := (p.sub e.base).dot e.dir

/-- `operator==` (plane.h:33-41) ignores the ID -/
def Plane.same (a b : Plane) : Bool := decide (a.base = b.base) && decide (a.dir = b.dir)

/-- `farAway` (convexpolytope.h:241-245) -/
def farAway : V := ⟨-1, -1⟩

/-- `turnLeft90` (lines 247-250) -/
def turn (c : V) : V := ⟨c.y, -c.x⟩

/-- `cutPoint` (lines 301-342) after the swap: the first line isn't vertical -/
def cutPoint' (S : V) (a b : Plane) : V :=
  let m1 := (turn a.dir).y / (turn a.dir).x
  let d1 := a.base.y - m1 * a.base.x
  if b.dir.y = 0 then ⟨b.base.x, b.base.x * m1 + d1⟩
  else
    let m2 := (turn b.dir).y / (turn b.dir).x
    let d2 := b.base.y - m2 * b.base.x
    if m1 = m2 then farAway
    else
      let x := (d2 - d1) / (m1 - m2)
      let y := d1 + x * m1
      if x < -10 * S.x ∨ x > 10 * S.x ∨ y < -10 * S.y ∨ y > 10 * S.y then farAway else ⟨x, y⟩

/-- `cutPoint` (lines 301-342) -/
def cutPoint (S : V) (a b : Plane) : V :=
  if a.dir.y = 0 then (if b.dir.y = 0 then farAway else cutPoint' S b a) else cutPoint' S a b

/-- inner loop of `generateCutPoints` (lines 257-294) for line `e`: both candidates -/
def cutStep (S : V) (e : Plane) (buf : V × V) (f : Plane) : V × V :=
  let cut := cutPoint S e f
  let t := turn e.dir
  let distance := (cut.sub e.base).dot t
  if f.dir.dot t > 0 then
    if cut ≠ farAway ∧ (buf.2 = farAway ∨ distance > (buf.2.sub e.base).dot t) then (buf.1, cut) else buf
  else
    if cut ≠ farAway ∧ (buf.1 = farAway ∨ distance < (buf.1.sub e.base).dot t) then (cut, buf.2) else buf

/-- entries `2 * i` and `2 * i + 1` (lines 252-299) -/
def cutPair (S : V) (es : List Plane) (i : Nat) (e : Plane) : V × V := (es.eraseIdx i).foldl (cutStep S e) (farAway, farAway)

/-- `generateCutPoints` -/
def cutPoints (S : V) (es : List Plane) : List (V × V) := es.zipIdx.map fun ei => cutPair S es ei.2 ei.1

/-- `limits`, `cutPoints`, `diameter` -/
structure Poly where
  limits : List Plane
  cuts : List (V × V)

/-- constructor (lines 28-41) -/
def Poly.make (center S : V) : Poly :=
  let limits : List Plane := [⟨⟨center.x, 0⟩, ⟨0, 1⟩, 0⟩, ⟨⟨0, center.y⟩, ⟨1, 0⟩, 0⟩, ⟨⟨S.x, center.y⟩, ⟨-1, 0⟩, 0⟩, ⟨⟨center.x, S.y⟩, ⟨0, -1⟩, 0⟩]
  ⟨limits, cutPoints S limits⟩

/-- `operator<<` for planes (lines 43-92) -/
def Poly.insert (S : V) (P : Poly) (e : Plane) : Poly :=
  if P.limits.any fun l => e.same l then P
  else
    let below := P.cuts.map fun v => (decide (e.val v.1 ≤ 0), decide (e.val v.2 ≤ 0))
    let superfluous := below.all fun b => !(b.1 || b.2)
    let kept := ((P.limits.zip below).filter fun l => !(l.2.1 && l.2.2)).map Prod.fst
    let delete := below.any fun b => b.1 && b.2
    let limits := (if delete then kept else P.limits) ++ (if superfluous then [] else [e])
    if delete || !superfluous then ⟨limits, cutPoints S limits⟩ else ⟨limits, P.cuts⟩

/-- `includes` (lines 140-148) -/
def Poly.includes (P : Poly) (p : V) : Bool := P.limits.all fun l => decide (l.val p > 0)

/-- plane between the center and another point (lines 97-98, 106) -/
def bisector (center q : V) (id : Nat) : Plane := ⟨V.smul (1 / 2) (center.add q), center.sub q, id⟩

/-- `operator<<` for points (lines 94-108), given the bounding box -/
def Poly.insertPoint (center S : V) (box : V × V) (P : Poly) (q : V) (id : Nat) : Poly :=
  let relative := box.1.sub (bisector center q id).base
  if relative.x > box.2.x + 1 ∨ relative.y > box.2.y + 1 then P else P.insert S (bisector center q id)

/-- extent of the cut points (lines 162-173) -/
def extent (S : V) (cuts : List (V × V)) : V × V :=
  ((cuts.flatMap fun v => [v.1, v.2]).filter fun v => decide (v ≠ farAway)).foldl (fun b v => (⟨min v.x b.1.x, min v.y b.1.y⟩, ⟨max v.x b.2.x, max v.y b.2.y⟩)) (S, ⟨-S.x, -S.y⟩)

/-- `newDiameter` (lines 174, 203) -/
def diameter (S : V) (cuts : List (V × V)) : ℚ := max ((extent S cuts).2.x - (extent S cuts).1.x) ((extent S cuts).2.y - (extent S cuts).1.y)

/-- `updateGeometryData` (lines 155-211): `none` is the exception; area, bounding box and lengths don't matter here -/
def updateDiameter (S : V) (cuts : List (V × V)) (old : ℚ) : Option ℚ := if diameter S cuts > old then none else some (diameter S cuts)

/-- a cell of the mesh -/
structure Site where
  center : V
  id : Nat

/-- the polytope of one cell (voronoimesher.h:95-108): cells of all adjacent containers, whose centers differ. The bounding box is empty until the end. -/
def cellPoly (S : V) (cell : Site) (sites : List Site) : Poly :=
  sites.foldl (fun P s => if cell.center ≠ s.center then P.insertPoint cell.center S (⟨0, 0⟩, ⟨0, 0⟩) s.center cell.id else P) (Poly.make cell.center S)

/-- IDs handed to `pushNeighbor` (lines 118-122) -/
def neighborIDs (P : Poly) : List Nat := P.limits.map Plane.id

end LGD.Mesh
