/-!
# Region: index-vector level model

Follows `src/libgeodecomp/geometry/region.h` function by function. A region stores one vector of pairs per axis:
level 0 holds `(startX, endX)` streaks, level `d ≥ 1` holds `(coordinate on axis d, offset of first child in level d-1)`.

Every vector access that would be out of bounds in C++ is `none` here (undefined behaviour), as is a loop that runs out
of fuel (non-termination); the refinement theorems show that `none` never occurs.
-/

namespace LGD

/-- Coordinates: `Coord<DIM>` (geometry/coord.h). Axis ↦ component; axes ≥ DIM are never looked at. -/
abbrev Crd := Nat → Int

/-- `Streak<DIM>` (geometry/streak.h:15-84): the coordinates `origin.x() .. endX-1` in one row. -/
structure Streak where
  origin : Crd
  endX : Int

/-- `IntPair` (region.h:91, `std::pair<int, int>`). -/
abbrev IPair := Int × Int

/-- `IndexVectorType` (region.h:92, `std::vector<IntPair>`). -/
abbrev IVec := List IPair

/-- `Region::indices` (one vector per axis). -/
abbrev Idx := Nat → IVec

/-- Overwrite the vector of one level (assignment to `region->indices[k]`). -/
def Idx.set (idx : Idx) (k : Nat) (v : IVec) : Idx := fun j => if j = k then v else idx j

/-- An `int` offset used as an iterator position; negative values would be out of bounds. -/
def toPos (x : Int) : Option Nat := if 0 ≤ x then some x.toNat else none

/-- `RegionHelpers::upperBound` (region.h:27-47) on the range `[s, e)` of `v`, comparing `key`. The final
`std::upper_bound` is modelled by its specification: skip all leading elements which are not greater than `c`. -/
def upperBound (key : IPair → Int) (v : IVec) (s e : Nat) (c : Int) : Option Nat :=
  if s = e then some e
  else do
    let a ← v[s]?
    if c < key a then some s
    else do
      let b ← v[e - 1]?
      if key b < c then some e
      else some (s + (((v.take e).drop s).takeWhile (fun p => decide (key p ≤ c))).length)

/-- `RegionCommonHelper::incRemainder` (region.h:94-107): add `inserts` to the second component of all entries from
`pos` to the end of the vector. -/
def incRemainder (v : IVec) (pos : Nat) (inserts : Int) : IVec :=
  if inserts = 0 then v
  else v.take pos ++ (v.drop pos).map (fun p => (p.1, p.2 + inserts))

/-- `RegionInsertHelper<0>::intersectOrTouch` (region.h:2006-2011). -/
def intersectOrTouch (a b : IPair) : Bool :=
  (decide (a.1 ≤ b.1) && decide (b.1 ≤ a.2)) || (decide (b.1 ≤ a.1) && decide (a.1 ≤ b.2))

/-- `RegionInsertHelper<0>::fuse` (region.h:2013-2019). -/
def fuse (a b : IPair) : IPair := (min a.1 b.1, max a.2 b.2)

/-- State of the loop in `RegionInsertHelper<0>` (region.h:1982-1999). -/
structure InsState where
  v : IVec
  cursor : Nat
  stop : Nat
  cur : IPair
  inserts : Int

/-- The `while` loop of `RegionInsertHelper<0>::operator()` (region.h:1984-1999). -/
def insLoop : Nat → InsState → Option InsState
  | 0, _ => none
  | fuel + 1, st =>
    if st.cursor = st.stop then some st
    else do
      let p ← st.v[st.cursor]?
      if st.cur.2 ≥ p.1 then do
        let st' : InsState :=
          if intersectOrTouch p st.cur then
            { v := st.v.eraseIdx st.cursor, cursor := st.cursor, stop := st.stop - 1,
              cur := fuse p st.cur, inserts := st.inserts - 1 }
          else { st with cursor := st.cursor + 1 }
        if st'.cursor = st'.stop then some st'
        else do
          let q ← st'.v[st'.cursor]?
          if intersectOrTouch q st'.cur then insLoop fuel st' else some st'
      else some st

/-- `RegionInsertHelper<0>::operator()` (region.h:1961-2003). -/
def insert0 (v : IVec) (x endX : Int) (start stop : Nat) : Option (IVec × Int) := do
  let ub ← upperBound Prod.fst v start stop x
  let cursor := if ub = start then ub else ub - 1
  let st ← insLoop (v.length + 1) { v := v, cursor := cursor, stop := stop, cur := (x, endX), inserts := 1 }
  if st.cursor ≤ st.v.length then
    some (st.v.insertIdx st.cursor st.cur, st.inserts)
  else none

/-- The test shared by all helpers on levels ≥ 1: does the entry before position `i` hold coordinate `c`?
(region.h:1794-1799, 1896-1901, 2056-2066) -/
def entryBefore (v : IVec) (start i : Nat) (c : Int) : Option (Option IPair) :=
  if i = start then some none
  else (v[i - 1]?).map (fun entry => if entry.1 = c then some entry else none)

/-- First child position belonging to entry `i` of level `d + 1`, or the size of level `d` if `i` is the end
(region.h:1801-1804, 1903-1906, 1918-1922, 2069-2072). -/
def nextLevel (idx : Idx) (d i : Nat) : Option Nat :=
  if i = (idx (d + 1)).length then some (idx d).length
  else ((idx (d + 1))[i]?).bind (fun e => toPos e.2)

/-- `RegionInsertHelper<DIM>::operator()` (region.h:1881-1940, and 1961-2003 for level 0): insert streak `s` below the
entries `[start, stop)` of level `d`; yields the new vectors and the number of entries added on level `d`. -/
def insertHelper : (d : Nat) → Idx → Streak → Nat → Nat → Option (Idx × Int)
  | 0, idx, s, start, stop => do
    let (v, n) ← insert0 (idx 0) (s.origin 0) s.endX start stop
    some (idx.set 0 v, n)
  | d + 1, idx, s, start, stop => do
    let c := s.origin (d + 1)
    let i ← upperBound Prod.fst (idx (d + 1)) start stop c
    let found ← entryBefore (idx (d + 1)) start i c
    match found with
    | some entry => do
      let nextStart ← toPos entry.2
      let nextEnd ← nextLevel idx d i
      let (idx', inserts) ← insertHelper d idx s nextStart nextEnd
      some (idx'.set (d + 1) (incRemainder (idx' (d + 1)) i inserts), 0)
    | none => do
      let nextStart ← nextLevel idx d i
      let idx1 := idx.set (d + 1) ((idx (d + 1)).insertIdx i (c, (nextStart : Int)))
      let (idx', inserts) ← insertHelper d idx1 s nextStart nextStart
      some (idx'.set (d + 1) (incRemainder (idx' (d + 1)) (i + 1) inserts), 1)

/-- `RegionRemoveHelper<0>::intersect` (region.h:2163-2168). -/
def intersectP (a b : IPair) : Bool :=
  (decide (a.1 ≤ b.1) && decide (b.1 < a.2)) || (decide (b.1 ≤ a.1) && decide (a.1 < b.2))

/-- `RegionRemoveHelper<0>::substract` (region.h:2170-2187). -/
def substract (base minuend : IPair) : IVec :=
  if !intersectP base minuend then [base]
  else
    (if minuend.1 > base.1 then [(base.1, minuend.1)] else []) ++
    (if base.2 > minuend.2 then [(minuend.2, base.2)] else [])

/-- State of the loop in `RegionRemoveHelper<0>` (region.h:2117-2157). -/
structure RemState where
  v : IVec
  cursor : Nat
  stop : Nat
  inserts : Int

/-- The `while` loop of `RegionRemoveHelper<0>::operator()` (region.h:2138-2157). Inserting the new pieces one by one
at the cursor is written as one splice. -/
def remLoop (cur : IPair) : Nat → RemState → Option RemState
  | 0, _ => none
  | fuel + 1, st =>
    if st.cursor = st.stop then some st
    else do
      let p ← st.v[st.cursor]?
      let st' : RemState :=
        if intersectP cur p then
          let pieces := substract p cur
          { v := st.v.take st.cursor ++ pieces ++ st.v.drop (st.cursor + 1),
            cursor := st.cursor + pieces.length,
            stop := st.stop + pieces.length - 1,
            inserts := st.inserts + ((pieces.length : Int) - 1) }
        else { st with cursor := st.cursor + 1 }
      if st'.cursor = st'.stop then some st'
      else do
        let q ← st'.v[st'.cursor]?
        if intersectP q cur then remLoop cur fuel st' else some st'

/-- `RegionRemoveHelper<0>::operator()` (region.h:2113-2160). -/
def remove0 (v : IVec) (x endX : Int) (start stop : Nat) : Option (IVec × Int) := do
  let ub ← upperBound Prod.fst v start stop x
  let cursor := if ub = start then ub else ub - 1
  let st ← remLoop (x, endX) (v.length + 1) { v := v, cursor := cursor, stop := stop, inserts := 0 }
  some (st.v, st.inserts)

/-- `RegionRemoveHelper<DIM>::operator()` (region.h:2043-2092, 2113-2160). -/
def removeHelper : (d : Nat) → Idx → Streak → Nat → Nat → Option (Idx × Int)
  | 0, idx, s, start, stop => do
    let (v, n) ← remove0 (idx 0) (s.origin 0) s.endX start stop
    some (idx.set 0 v, n)
  | d + 1, idx, s, start, stop => do
    let c := s.origin (d + 1)
    let i ← upperBound Prod.fst (idx (d + 1)) start stop c
    let found ← entryBefore (idx (d + 1)) start i c
    match found with
    | none => some (idx, 0)
    | some entry => do
      let nextStart ← toPos entry.2
      let nextEnd ← nextLevel idx d i
      let (idx', inserts) ← removeHelper d idx s nextStart nextEnd
      if (nextStart : Int) - nextEnd = inserts then
        some (idx'.set (d + 1) (incRemainder ((idx' (d + 1)).eraseIdx (i - 1)) (i - 1) inserts), -1)
      else
        some (idx'.set (d + 1) (incRemainder (idx' (d + 1)) i inserts), 0)

/-- `RegionLookupHelper<DIM>::operator()` (region.h:1779-1815, 1835-1860). -/
def lookupHelper : (d : Nat) → Idx → Streak → Nat → Nat → Option Bool
  | 0, idx, s, start, stop =>
    if (idx 0).isEmpty then some false
    else do
      let ub ← upperBound Prod.fst (idx 0) start stop (s.origin 0)
      let cursor := if ub = start then ub else ub - 1
      let p ← (idx 0)[cursor]?
      some (decide (p.1 ≤ s.origin 0) && decide (p.2 ≥ s.endX))
  | d + 1, idx, s, start, stop => do
    let c := s.origin (d + 1)
    let i ← upperBound Prod.fst (idx (d + 1)) start stop c
    let found ← entryBefore (idx (d + 1)) start i c
    match found with
    | none => some false
    | some entry => do
      let nextStart ← toPos entry.2
      let nextEnd ← nextLevel idx d i
      lookupHelper d idx s nextStart nextEnd

/-- A default-constructed `Region` (region.h:646-649): all vectors empty. -/
def emptyIdx : Idx := fun _ => []

/-- `Region<n+1>::operator<<(Streak)` (region.h:945-970); `n = DIM - 1`. -/
def regInsert (n : Nat) (idx : Idx) (s : Streak) : Option Idx :=
  if s.endX ≤ s.origin 0 then some idx
  else (insertHelper n idx s 0 (idx n).length).map Prod.fst

/-- `Region<n+1>::operator>>(Streak)` (region.h:999-1009). `empty()` (1278) tests `indices[0]`. -/
def regRemove (n : Nat) (idx : Idx) (s : Streak) : Option Idx :=
  if s.endX ≤ s.origin 0 ∨ (idx 0).length = 0 then some idx
  else (removeHelper n idx s 0 (idx n).length).map Prod.fst

/-- `Region<n+1>::count(Streak)` (region.h:920-923). -/
def regCount (n : Nat) (idx : Idx) (s : Streak) : Option Bool :=
  lookupHelper n idx s 0 (idx n).length

/-- `Region::count(Coord)` (region.h:928-931). -/
def regCountCoord (n : Nat) (idx : Idx) (c : Crd) : Option Bool :=
  regCount n idx { origin := c, endX := c 0 + 1 }

/-- `Region::operator==` (region.h:906-915). -/
def regEq (n : Nat) (a b : Idx) : Bool := (List.range (n + 1)).all (fun i => decide (a i = b i))

end LGD
