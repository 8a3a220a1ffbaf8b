import Verif.Region.ExpandModel
import Verif.Geom.TopoModel

/-!
# `expandWithTopology`, `expandWithAdjacency`
-/

namespace LGD

/-- `Region::trimStreak` (region.h:1632-1643). -/
def trimStreak (s : Streak) (dim : Crd) : Streak :=
  { origin := upd s.origin 0 (max (s.origin 0) 0), endX := min (dim 0) s.endX }

/-- `Region::normalizeStreak` (region.h:1686-1701). -/
def normalizeStreak (n : Nat) (wraps : Nat → Bool) (dim : Crd) (s : Streak) (target : Idx) : Option Idx :=
  let o := topoNormalize n wraps s.origin dim
  if crdEq n o (fun _ => -1) then some target
  else regInsert n target { origin := o, endX := o 0 + (s.endX - s.origin 0) }

/-- `Region::splitStreak` (region.h:1645-1683). -/
def splitStreak (n : Nat) (wraps : Nat → Bool) (dim : Crd) (s : Streak) (target : Idx) : Option Idx :=
  let width := dim 0
  let x0 := s.origin 0
  let x1 := if x0 < 0 then min s.endX 0 else x0
  let x2 := if x1 < s.endX then min s.endX width else x1
  (if x0 < 0 then normalizeStreak n wraps dim { origin := upd s.origin 0 (x0 + width), endX := min s.endX 0 + width } target
   else some target).bind (fun t1 =>
  (if x1 < s.endX then normalizeStreak n wraps dim { origin := upd s.origin 0 x1, endX := min s.endX width } t1
   else some t1).bind (fun t2 =>
  if x2 < s.endX then normalizeStreak n wraps dim { origin := upd s.origin 0 (x2 - width), endX := s.endX - width } t2
  else some t2))

/-- Loop of `Region::expandWithTopology` (region.h:827-835). -/
def topoLoop (n : Nat) (wraps : Nat → Bool) (dim : Crd) : List Streak → Idx → Option Idx
  | [], ret => some ret
  | s :: ss, ret =>
    (if wraps 0 then splitStreak n wraps dim s ret else normalizeStreak n wraps dim (trimStreak s dim) ret).bind
      (topoLoop n wraps dim ss)

/-- `Region::expandWithTopology` (region.h:817-838). -/
def expandWithTopology (n : Nat) (idx : Idx) (width : Nat) (dim : Crd) (wraps : Nat → Bool) : Option Idx :=
  (expandW n idx width).bind (fun buf => (toVector n buf).bind (fun l => topoLoop n wraps dim l emptyIdx))

/-- `for (int x = streak->origin.x(); x < streak->endX; ++x)` -/
def xsOf (s : Streak) : List Int := (List.range (s.endX - s.origin 0).toNat).map (fun i : Nat => s.origin 0 + (i : Int))

/-- inner loop of `expandWithAdjacency` over the neighbors of one node (region.h:888-893) -/
def adjNodes (ret : Idx) : List Int → Idx → Option Idx
  | [], add => some add
  | i :: is, add =>
    (regCountCoord 0 ret (fun _ => i)).bind (fun b =>
      if b then adjNodes ret is add
      else (regInsert 0 add { origin := fun _ => i, endX := i + 1 }).bind (adjNodes ret is))

/-- The nested loops over streaks and their x-coordinates (region.h:880-895). -/
def adjXs (nb : Int → List Int) (ret : Idx) : List Int → Idx → Option Idx
  | [], add => some add
  | x :: xs, add => (adjNodes ret (nb x) add).bind (adjXs nb ret xs)

/-- The passes of `expandWithAdjacency` (region.h:876-900). -/
def adjPasses (nb : Int → List Int) : Nat → Idx → Idx → Option Idx
  | 0, ret, _ => some ret
  | w + 1, ret, new =>
    (toVector 0 new).bind (fun l =>
    (adjXs nb ret (l.flatMap xsOf) emptyIdx).bind (fun add =>
    (regPlusAssign 0 ret add).bind (fun ret' => adjPasses nb w ret' add)))

/-- `Region::expandWithAdjacency` (region.h:865-904); `nb x` is what `adjacency.getNeighbors(x, …)` delivers. -/
def expandWithAdjacency (idx : Idx) (width : Nat) (nb : Int → List Int) : Option Idx := adjPasses nb width idx idx

end LGD
