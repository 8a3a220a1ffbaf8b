import Verif.Part.HilbertModel

/-!
# `HIndexingPartition`

Coordinates are pairs here.
-/

namespace LGD

abbrev P2 := Int × Int

/-- `HIndexingPartition::Triangle` (hindexingpartition.h:71-100). The counter is an `unsigned` in the code, where the
initial value -1 wraps around; the only operations on it are `++` and comparison with 4. -/
structure Tri where
  counter : Int
  type : Nat
  dims : P2
  origin : P2

/-- `hasTrivialDimensions` for `DIM = 2` (spacefillingcurve.h:53-58). -/
def triv2 (d : P2) : Bool := decide (d.1 * d.2 = 0) || decide (d.1 * d.2 = d.1 + d.2 - 2 + 1)

/-- `triangleTransitions` (hindexingpartition.cpp:5-10). -/
def triNext : Nat → Nat → Nat
  | 0, 0 => 0 | 0, 1 => 1 | 0, 2 => 2 | 0, 3 => 0
  | 1, 0 => 1 | 1, 1 => 3 | 1, 2 => 0 | 1, 3 => 1
  | 2, 0 => 2 | 2, 1 => 0 | 2, 2 => 3 | 2, 3 => 2
  | 3, 0 => 3 | 3, 1 => 2 | 3, 2 => 1 | 3, 3 => 3
  | t, _ => t

/-- `newOrigin` (hindexingpartition.h:426-475); the exception for bad arguments is not modelled (types are below 4 and
counters between 0 and 4). -/
def triOrigin (type counter : Nat) (left right upper lower x y : Int) : P2 :=
  match counter with
  | 0 => (0, 0)
  | 2 => (match type with
    | 0 => (0, -y)
    | 1 => (-x, 0)
    | 2 => (x, 0)
    | _ => (0, y))
  | 4 => (match type with
    | 0 => (x, -y)
    | 1 => (-x, -y)
    | 2 => (x, y)
    | _ => (-x, y))
  | _ => (match type with
    | 0 => (left, -lower)
    | 1 => (-right, -lower)
    | 2 => (left, upper)
    | _ => (-right, upper))

/-- `nextSubTriangle`, `newOriginAndDimensions` (hindexingpartition.h:374-424). -/
def triSub (t : Tri) : Tri :=
  let left := t.dims.1.tdiv 2
  let right := t.dims.1 - left
  let upper := t.dims.2.tdiv 2
  let lower := t.dims.2 - upper
  let c := t.counter.toNat
  let o0 := triOrigin t.type c left right upper lower t.dims.1 t.dims.2
  let o1 := triOrigin t.type (c + 1) left right upper lower t.dims.1 t.dims.2
  { counter := 0, type := triNext t.type c, dims := (((o1.1 - o0.1).natAbs : Int), ((o1.2 - o0.2).natAbs : Int)),
    origin := (t.origin.1 + o0.1, t.origin.2 + o0.2) }

/-- number of levels granted to recursions over a triangle -/
def triFuel (d : P2) : Nat := (d.1 + d.2).toNat + 1

/-- `triangleLength` (hindexingpartition.h:484-516); memoisation in `triangleLengthCache` is left out. -/
def triLenF : Nat → Tri → Int
  | 0, _ => 0
  | f + 1, t =>
    if triv2 t.dims then (if t.type = 1 ∨ t.type = 3 then 0 else t.dims.1 * t.dims.2)
    else triLenF f (triSub { t with counter := 0 }) + triLenF f (triSub { t with counter := 1 }) +
      triLenF f (triSub { t with counter := 2 }) + triLenF f (triSub { t with counter := 3 })

def triLen (t : Tri) : Int := triLenF (triFuel t.dims) t

/-- `triangleCoordsCache`: width, height, type -/
abbrev TCache := Int → Int → Nat → List P2

/-- current sublevel: a trivial triangle, or the origin and the remaining coordinates of a cached one -/
inductive TriLevel where
  | triv (type : Nat) (counter : Int) (dir : P2) (length : Int)
  | cached (origin : P2) (rest : List P2)

structure HxIter where
  origin : P2
  cursor : P2
  endReached : Bool
  /-- top of the stack first -/
  stack : List Tri
  sub : TriLevel

/-- `isCached` (hindexingpartition.h:518-521). -/
def triCached (maxC : Int) (d : P2) : Bool := decide (d.1 < maxC ∧ d.2 < maxC)

/-- triangles which are not subdivided further -/
def triLeaf (maxC : Int) (d : P2) : Bool := triv2 d || triCached maxC d

/-- `digDownTrivial`, `digDownCached` (hindexingpartition.h:257-287). -/
def triEnter (cache : TCache) (it : HxIter) (t : Tri) (counter : Nat) : Option HxIter :=
  if triv2 t.dims then
    some { it with
      cursor := t.origin
      sub := if t.dims.1 > 1 then .triv t.type counter (1, 0) t.dims.1
             else .triv t.type counter (0, if t.type = 0 then -1 else 1) t.dims.2 }
  else
    match (cache t.dims.1 t.dims.2 t.type).drop counter with
    | [] => none
    | c :: r => some { it with sub := .cached t.origin (c :: r) }

/-- loop in `digDown` (hindexingpartition.h:240-256): leaf triangle and new stack -/
def triDown (maxC : Int) : Nat → Tri → List Tri → Option (Tri × List Tri)
  | 0, _, _ => none
  | f + 1, t, st => if triLeaf maxC t.dims then some (t, st) else triDown maxC f (triSub t) (t :: st)

/-- `triangleStack.back().counter++; digUp()` (hindexingpartition.h:198-199, 224-238); empty: end reached. -/
def triUp : List Tri → List Tri
  | [] => []
  | t :: st => if t.counter + 1 = 4 then triUp st else { t with counter := t.counter + 1 } :: st

/-- `sublevelTriangleFinished` (hindexingpartition.h:352-372). -/
def triDone : TriLevel → Bool
  | .triv type counter _ length => decide (type % 2 = 1) || decide (counter ≥ length)
  | .cached _ rest => rest.isEmpty

/-- `nextSublevel` (hindexingpartition.h:325-350). -/
def triStep (it : HxIter) : HxIter :=
  match it.sub with
  | .triv type counter dir length =>
    { it with
      cursor := if counter = 0 then (if type = 0 then (it.cursor.1, it.cursor.2 - 1) else it.cursor)
                else (it.cursor.1 + dir.1, it.cursor.2 + dir.2)
      sub := .triv type (counter + 1) dir length }
  | .cached o rest =>
    match rest with
    | [] => it
    | c :: r => { it with cursor := (o.1 + c.1, o.2 + c.2), sub := .cached o r }

def hxFinish (it : HxIter) : HxIter := { it with endReached := true, cursor := it.origin, stack := [] }

/-- loop in `operator++` (hindexingpartition.h:186-210) -/
def hxLoop (cache : TCache) (maxC : Int) : Nat → HxIter → Option HxIter
  | 0, _ => none
  | f + 1, it =>
    if triDone it.sub then
      match triUp it.stack with
      | [] => some (hxFinish it)
      | t :: st => (triDown maxC (triFuel t.dims) t st).bind (fun p =>
          (triEnter cache { it with stack := p.2 } p.1 0).bind (fun it' => hxLoop cache maxC f it'))
    else some (triStep it)

/-- `operator++` (hindexingpartition.h:186-210); `fuel` bounds the number of triangles inspected. -/
def hxNext (cache : TCache) (maxC : Int) (fuel : Nat) (it : HxIter) : Option HxIter :=
  if it.endReached then some it else hxLoop cache maxC fuel it

/-- `skipSubTriangles` (hindexingpartition.h:308-323) from counter `i` on, with `k` iterations left: new stack and remainder -/
def triSkip (t : Tri) (st : List Tri) : Nat → Nat → Int → List Tri × Int
  | 0, i, r => ({ t with counter := (i : Int) - 1 } :: st, r)
  | k + 1, i, r =>
    let s := triSub { t with counter := i }
    if triLen s ≤ r then triSkip t st k (i + 1) (r - triLen s) else (s :: { t with counter := i } :: st, r)

/-- loop in the constructor with position (hindexingpartition.h:141-156). -/
def hxSeek (cache : TCache) (maxC : Int) : Nat → HxIter → List Tri → Int → Option HxIter
  | 0, _, _, _ => none
  | _ + 1, _, [], _ => none
  | f + 1, it, t :: st, r =>
    if triLen t ≤ r then
      (match st with
       | [] => some (hxFinish it)
       | t' :: st' => hxSeek cache maxC f it (t' :: st') (r - triLen t))
    else if triLeaf maxC t.dims then triEnter cache { it with stack := st } t r.toNat
    else hxSeek cache maxC f it (triSkip t st 4 0 r).1 (triSkip t st 4 0 r).2

def hxInit (o : P2) : HxIter := { origin := o, cursor := o, endReached := false, stack := [], sub := .triv 0 0 (0, 0) 0 }

/-- Constructor with position, `operator[]` (hindexingpartition.h:135-159, 289-306, 551-554). -/
def hxStart (cache : TCache) (maxC : Int) (fuel : Nat) (o d : P2) (pos : Nat) : Option HxIter :=
  (hxSeek cache maxC fuel (hxInit o)
    [{ counter := 0, type := 2, dims := d, origin := o }, { counter := -1, type := 1, dims := d, origin := (o.1 + d.1, o.2 + d.2) }] pos).bind
    (fun it => hxNext cache maxC fuel it)

/-- Constructor for a single triangle (hindexingpartition.h:165-175). -/
def hxTri (cache : TCache) (maxC : Int) (fuel : Nat) (o : P2) (type : Nat) (d : P2) : Option HxIter :=
  (triDown maxC (triFuel d) { counter := 0, type := type, dims := d, origin := o } []).bind (fun p =>
    (triEnter cache { hxInit o with stack := p.2 } p.1 0).bind (fun it => hxNext cache maxC fuel it))

/-- `operator==` (spacefillingcurve.h:33-36). -/
def hxEq (a b : HxIter) : Bool := (a.endReached == b.endReached) && decide (a.cursor = b.cursor)

/-- `end()` -/
def hxEnd (o : P2) : HxIter := { hxInit o with endReached := true }

/-- coordinates from `it` to the end -/
def hxCollect (cache : TCache) (maxC : Int) (fuel : Nat) (stop : HxIter) : Nat → HxIter → Option (List P2)
  | 0, _ => none
  | m + 1, it =>
    if hxEq it stop then some []
    else (hxNext cache maxC fuel it).bind (fun it' => (hxCollect cache maxC fuel stop m it').map (fun l => it.cursor :: l))

/-- all coordinates from `begin()` to `end()` -/
def hxAll (cache : TCache) (maxC : Int) (fuel : Nat) (o d : P2) : Option (List P2) :=
  (hxStart cache maxC fuel o d 0).bind (fun it => hxCollect cache maxC fuel (hxEnd o) fuel it)

def tPut (cache : TCache) (x y : Int) (t : Nat) (l : List P2) : TCache :=
  fun x' y' t' => if x' = x ∧ y' = y ∧ t' = t then l else cache x' y' t'

/-- loops over `x` and `t` in `fillCaches` (hindexingpartition.h:573-586), for the given pairs -/
def tFillRow (fuel : Nat) (y : Int) : List (Int × Nat) → TCache → Option TCache
  | [], cache => some cache
  | (x, t) :: l, cache =>
    ((hxTri cache y fuel (0, 0) t (x, y)).bind (fun it => hxCollect cache y fuel (hxEnd (0, 0)) fuel it)).bind (fun coords =>
      tFillRow fuel y l (tPut cache x y t coords))

def tFillRows (fuel maxDim : Nat) : List Int → TCache → Option TCache
  | [], cache => some cache
  | y :: ys, cache => (tFillRow fuel y (hPairs maxDim) cache).bind (fun cache' => tFillRows fuel maxDim ys cache')

/-- `fillCaches` (hindexingpartition.h:562-591); there `maxDim = 17`. -/
def tFill (fuel maxDim : Nat) : Option TCache := tFillRows fuel maxDim (from2 maxDim) (fun _ _ _ => [])

def hxOps (cache : TCache) (maxC : Int) (fuel : Nat) : IterOps HxIter where
  eq := hxEq
  next := hxNext cache maxC fuel
  deref := fun it => xyc it.cursor.1 it.cursor.2

/-- `getRegion` (hindexingpartition.h:544-549). -/
def hxRegion (cache : TCache) (maxC : Int) (fuel : Nat) (o d : P2) (offset : Nat) (weights : List Nat) (node : Nat) : Option Idx :=
  curveRegion 1 (hxOps cache maxC fuel) (hxStart cache maxC fuel o d) offset weights fuel node

end LGD
