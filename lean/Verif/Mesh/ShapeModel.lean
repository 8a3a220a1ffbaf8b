import Verif.Mesh.PolytopeModel
import Mathlib.Analysis.SpecialFunctions.Trigonometric.Inverse

/-!
# Shape of a ConvexPolytope

geometry/convexpolytope.h. Angles are real numbers.
-/

namespace LGD.Mesh

/-- `relativeCoordToAngle` (lines 344-357) for points other than the center -/
noncomputable def angle (d : V) : ℝ :=
  let length := Real.sqrt ((d.x : ℝ) * d.x + (d.y : ℝ) * d.y)
  if d.x < 0 then Real.pi - Real.arcsin ((d.y : ℝ) / length) else Real.arcsin ((d.y : ℝ) / length)

/-- `points[angle] = v` for an `std::map`, represented by the sequence of its entries -/
noncomputable def put (k : ℝ) (v : V) : List (ℝ × V) → List (ℝ × V)
  | [] => [(k, v)]
  | e :: l => if k < e.1 then (k, v) :: e :: l else if e.1 < k then e :: put k v l else (k, v) :: l

/-- `getShape` (lines 110-138): `none` are the exceptions; for centers which aren't corners -/
noncomputable def Poly.shape (P : Poly) (center : V) : Option (List V) :=
  let cuts := P.cuts.flatMap fun v => [v.1, v.2]
  if cuts.any fun v => decide (v = farAway) then none
  else
    let res := (cuts.foldl (fun m v => put (angle (v.sub center)) v m) []).map Prod.snd
    if res.length < 3 then none else some res

end LGD.Mesh
