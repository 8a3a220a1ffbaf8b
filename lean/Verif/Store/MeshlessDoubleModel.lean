import Verif.Store.MeshlessModel
import Verif.Ieee.RoundModel

/-!
# `MeshlessAdapter` with rounding

The functions of `Verif.Store.MeshlessModel` which insert and search, with a rounding function `rd` applied to the result of every
operation on `double`s. Conversions to `int` are assumed to be in range.
-/

namespace LGD.MeshlessDouble
open LGD.Store LGD.Meshless

variable (rd : ℚ → ℚ) (n : Nat) (wraps : Nat → Bool)

/-- `scale` (meshlessadapter.h:249) -/
def scale (bs : ℚ) : ℚ := rd (1 / bs)

/-- `discreteDim` as computed by `resetBoxSize` (lines 260-262) -/
def discreteDim (dims : Pos) (bs : ℚ) : Crd := fun k => max 1 ⌊rd (dims k * scale rd bs)⌋

/-- the members after construction (lines 38-45); `resetBoxSize` throws for more than `MAX_SIZE` cells (lines 264-266) -/
def make (dims : Pos) (bs : ℚ) : Option Adapter :=
  if MAX_SIZE < crdProd n (discreteDim rd dims bs) then none else some ⟨dims, bs, discreteDim rd dims bs⟩

/-- `posToCoord` (lines 52-60) -/
def posToCoord (a : Adapter) (p : Pos) : Crd := fun k => min (a.dd k - 1) (trunc (rd (p k * scale rd a.bs)))

/-- `insert` (lines 62-66) -/
def insert (a : Adapter) (g : Grid (List (Pos × Int))) (p : Pos) (id : Int) : Option (Grid (List (Pos × Int))) :=
  (gridRead n wraps g (posToCoord rd a p)).bind fun l => gridWrite n wraps g (posToCoord rd a p) (l ++ [(p, id)])

/-- a sequence of insertions -/
def insertAll (a : Adapter) (g : Grid (List (Pos × Int))) (vs : List (Pos × Int)) : Option (Grid (List (Pos × Int))) :=
  vs.foldlM (fun g v => insert rd n wraps a g v.1 v.2) g

/-- `distance2` (lines 292-305) -/
def distance2 (a : Adapter) (p q : Pos) : ℚ :=
  (List.range (n + 1)).foldl (fun s k =>
    let delta := |rd (p k - q k)|
    let delta := if wraps k then min delta (rd (a.dims k - delta)) else delta
    rd (s + rd (delta * delta))) 0

/-- `searchList` (lines 269-287); `radius2` is set in line 250 -/
def searchList (a : Adapter) (l : List (Pos × Int)) (p : Pos) : Bool × List Int :=
  l.foldl (fun r v => if distance2 rd n wraps a p v.1 < rd (a.bs * a.bs) then (true, r.2 ++ [v.2]) else r) (false, [])

/-- `search` (lines 74-90): the cells of the Moore neighborhood one after the other -/
def searchLoop (a : Adapter) (g : Grid (List (Pos × Int))) (p : Pos) : List Crd → Option (Bool × List Int)
  | [] => some (false, [])
  | i :: is =>
    (gridRead n wraps g (fun k => posToCoord rd a p k + i k)).bind fun l =>
      (searchLoop a g p is).map fun r => ((searchList rd n wraps a l p).1 || r.1, (searchList rd n wraps a l p).2 ++ r.2)

def search (a : Adapter) (g : Grid (List (Pos × Int))) (p : Pos) : Option (Bool × List Int) :=
  (boxCoords n ⟨fun _ => -1, fun _ => 3⟩ 28).bind (searchLoop rd n wraps a g p)

end LGD.MeshlessDouble
