import Verif.Region.OnAfterModel
import Verif.Region.CacheModel
import Verif.Region.TopoExpandModel

/-!
# `RegionBasedAdjacency`

Edges `(from, to)` are stored as 2D coordinates `(to, from)`. `Limits<int>::getMax()` is the parameter `M`.
The lazily computed bounding boxes and sizes of the regions are taken from `determineGeometry` directly (the cache is
the subject of C04).
-/

namespace LGD

/-- `for (i = it; i != stop; ++i)`, collecting `*i` -/
def rangeLoop (n : Nat) (idx : Idx) (stop : SIter) : Nat → SIter → Option (List Streak)
  | 0, _ => none
  | fuel + 1, it =>
    if siEq n it stop then some []
    else (siNext n idx (fun _ => 0) 0 it).bind (fun it' => (rangeLoop n idx stop fuel it').map (fun l => it.streak :: l))

/-- `Coord<2>(x, y)` -/
def xy (x y : Int) : Crd := fun k => if k = 0 then x else if k = 1 then y else 0

/-- Members of `RegionBasedAdjacency` (regionbasedadjacency.h:116-118). -/
structure RBA where
  regions : List Idx
  limits : List Int

/-- Constructor (regionbasedadjacency.h:48-52). -/
def rbaNew (M : Int) : RBA := { regions := [emptyIdx], limits := [M] }

/-- `index` (regionbasedadjacency.h:152-156): `std::lower_bound` on the (sorted) limits. -/
def rbaIndex (limits : List Int) (y : Int) : Nat := (limits.takeWhile (fun l => decide (l < y))).length

/-- `splitIfTooLarge` (regionbasedadjacency.h:123-150). -/
def rbaSplit (M : Int) (maxSize : Nat) (st : RBA) (i : Nat) : Option RBA :=
  (st.regions[i]?).bind (fun r =>
    if numStreaks r ≤ maxSize then some st
    else ((r 1)[(r 1).length / 2]?).bind (fun e =>
      (onAfter 1 r (xy M e.1)).bind (fun mid =>
      (siBegin 1 r (fun _ => 0) 0).bind (fun b =>
      (rangeLoop 1 r mid (numStreaks r + 1) b).bind (fun l1 =>
      (rangeLoop 1 r (siEnd r) (numStreaks r + 1) mid).bind (fun l2 =>
      (insAll 1 emptyIdx l1).bind (fun r1 => (insAll 1 emptyIdx l2).bind (fun r2 =>
        some { regions := st.regions.take i ++ r1 :: r2 :: st.regions.drop (i + 1),
               limits := st.limits.take i ++ e.1 :: st.limits.drop i }))))))))

/-- `insert(int, int)` (regionbasedadjacency.h:57-63). -/
def rbaInsert (M : Int) (maxSize : Nat) (st : RBA) (src dst : Int) : Option RBA :=
  let i := rbaIndex st.limits src
  (st.regions[i]?).bind (fun r => (regInsert 1 r { origin := xy dst src, endX := dst + 1 }).bind (fun r' =>
    rbaSplit M maxSize { st with regions := st.regions.set i r' } i))

/-- insertion into a sorted list -/
def sortIns (a : Int) : List Int → List Int
  | [] => [a]
  | b :: l => if a ≤ b then a :: b :: l else b :: sortIns a l

/-- `std::sort` (by specification: the sorted permutation) -/
def sortInts : List Int → List Int
  | [] => []
  | a :: l => sortIns a (sortInts l)

/-- `insert(int, std::vector<int>)` (regionbasedadjacency.h:69-81). -/
def rbaInsertMany (M : Int) (maxSize : Nat) (st : RBA) (src : Int) (dst : List Int) : Option RBA :=
  (insAll 1 emptyIdx ((sortInts dst).map (fun d => { origin := xy d src, endX := d + 1 }))).bind
    (fun buf =>
      let i := rbaIndex st.limits src
      (st.regions[i]?).bind (fun r => (regPlusAssign 1 r buf).bind (fun r' =>
        rbaSplit M maxSize { st with regions := st.regions.set i r' } i)))

/-- `getNeighbors` (regionbasedadjacency.h:86-100): what is appended to `neighbors`. -/
def rbaNeighbors (st : RBA) (node : Int) : Option (List Int) :=
  (st.regions[rbaIndex st.limits node]?).bind (fun r =>
    (determineGeometry 1 r).bind (fun g =>
      let minX := g.2.origin 0
      let maxX := minX + g.2.dims 0
      (onAfter 1 r (xy minX node)).bind (fun a => (onAfter 1 r (xy maxX node)).bind (fun b =>
        (rangeLoop 1 r b (numStreaks r + 1) a).map (fun l => l.flatMap xsOf)))))

/-- `size` (regionbasedadjacency.h:105-113). -/
def rbaSize : List Idx → Option Int
  | [] => some 0
  | r :: rs => (determineGeometry 1 r).bind (fun g => (rbaSize rs).map (fun s => g.1 + s))

end LGD
