import Verif.Region.Model

/-!
# Region: streak and coordinate iterators

Model of `regionstreakiterator.h` and of the iterator related parts of `region.h`.
-/

namespace LGD

/-- Assignment to one component of a coordinate. -/
def upd (c : Crd) (k : Nat) (x : Int) : Crd := fun j => if j = k then x else c j

/-- `RegionStreakIterator` (regionstreakiterator.h:159-162): one position per level plus the current streak. `offset` and
`additionalLength` never change during iteration and are passed separately. -/
structure SIter where
  pos : Nat → Nat
  streak : Streak

/-- Default-constructed `Streak` (streak.h:23-28). -/
def zeroStreak : Streak := { origin := fun _ => 0, endX := 0 }

/-- `ConstructStreakFromIterators<DIM>` (region.h:113-153). -/
def construct (idx : Idx) (off : Crd) (al : Int) (pos : Nat → Nat) : Nat → Streak → Option Streak
  | 0, s => do
    let p ← (idx 0)[pos 0]?
    some { origin := upd s.origin 0 (p.1 + off 0), endX := p.2 + off 0 + al }
  | d + 1, s => do
    let s' ← construct idx off al pos d s
    let p ← (idx (d + 1))[pos (d + 1)]?
    some { s' with origin := upd s'.origin (d + 1) (p.1 + off (d + 1)) }

/-- `Region::beginStreak` (region.h:1283-1286) via `StreakIteratorInitBegin` (401-445). -/
def siBegin (n : Nat) (idx : Idx) (off : Crd) (al : Int) : Option SIter :=
  if 0 < (idx 0).length then
    (construct idx off al (fun _ => 0) n zeroStreak).map (fun s => { pos := fun _ => 0, streak := s })
  else some { pos := fun _ => 0, streak := zeroStreak }

/-- `Region::endStreak` (region.h:1288-1291) via `StreakIteratorInitEnd` (450-490). -/
def siEnd (idx : Idx) : SIter := { pos := fun k => (idx k).length, streak := zeroStreak }

/-- The loop over levels in `RegionStreakIterator::operator++` (regionstreakiterator.h:103-121): `r` levels remain, level
`i` is next. -/
def siUp (idx : Idx) (off : Crd) : Nat → Nat → SIter → Option SIter
  | 0, _, it => some it
  | r + 1, i, it =>
    if it.pos i + 1 = (idx i).length then some it
    else ((idx i)[it.pos i + 1]?).bind (fun e => (toPos e.2).bind (fun q =>
      if it.pos (i - 1) ≠ q then some it
      else siUp idx off r (i + 1)
        { pos := fun k => if k = i then it.pos i + 1 else it.pos k,
          streak := { it.streak with origin := upd it.streak.origin i (e.1 + off i) } }))

/-- `RegionStreakIterator::operator++` (regionstreakiterator.h:90-122); `n = DIM - 1`. -/
def siNext (n : Nat) (idx : Idx) (off : Crd) (al : Int) (it : SIter) : Option SIter :=
  if it.pos 0 + 1 = (idx 0).length then
    some { it with pos := fun k => if k = 0 then it.pos 0 + 1 else (idx k).length }
  else ((idx 0)[it.pos 0 + 1]?).bind (fun e =>
    siUp idx off n 1
      { pos := fun k => if k = 0 then it.pos 0 + 1 else it.pos k,
        streak := { origin := upd it.streak.origin 0 (e.1 + off 0), endX := e.2 + off 0 + al } })

/-- `RegionStreakIterator::operator==` (regionstreakiterator.h:124-127, 17-49). -/
def siEq (n : Nat) (a b : SIter) : Bool := (List.range (n + 1)).all (fun k => decide (a.pos k = b.pos k))

/-- The canonical loop `for (i = it; i != endStreak(); ++i)`, collecting `*i`. `none` = undefined behaviour or
more than `fuel` steps. -/
def streakLoop (n : Nat) (idx : Idx) (off : Crd) (al : Int) : Nat → SIter → Option (List Streak)
  | 0, _ => none
  | fuel + 1, it =>
    if siEq n it (siEnd idx) then some []
    else do
      let it' ← siNext n idx off al it
      let rest ← streakLoop n idx off al fuel it'
      some (it.streak :: rest)

/-- All streaks between `beginStreak(off, al)` and `endStreak(off, al)`. -/
def allStreaks (n : Nat) (idx : Idx) (off : Crd) (al : Int) : Option (List Streak) :=
  (siBegin n idx off al).bind (streakLoop n idx off al ((idx 0).length + 1))

/-- `Region::toVector` (region.h:1219-1224). -/
def toVector (n : Nat) (idx : Idx) : Option (List Streak) := allStreaks n idx (fun _ => 0) 0

/-- `Region::numStreaks` (region.h:738-741). -/
def numStreaks (idx : Idx) : Nat := (idx 0).length

/-- `Region::Iterator` (region.h:602-643). -/
structure CIter where
  it : SIter
  cursor : Crd

/-- `Region::Iterator(StreakIterator)` (region.h:604-608). -/
def ciOf (it : SIter) : CIter := { it := it, cursor := it.streak.origin }

/-- `Region::Iterator::operator++` (region.h:610-617). -/
def ciNext (n : Nat) (idx : Idx) (c : CIter) : Option CIter :=
  let cur := upd c.cursor 0 (c.cursor 0 + 1)
  if cur 0 ≥ c.it.streak.endX then (siNext n idx (fun _ => 0) 0 c.it).map ciOf
  else some { c with cursor := cur }

/-- `Region::Iterator::operator==` (region.h:619-623), `endReached` (regionstreakiterator.h:144-147). -/
def ciEq (n : Nat) (idx : Idx) (a b : CIter) : Bool :=
  siEq n a.it b.it &&
    (decide (a.it.pos 0 = (idx 0).length) || (List.range (n + 1)).all (fun k => decide (a.cursor k = b.cursor k)))

/-- The canonical loop `for (i = begin(); i != end(); ++i)`. -/
def coordLoop (n : Nat) (idx : Idx) : Nat → CIter → Option (List Crd)
  | 0, _ => none
  | fuel + 1, c =>
    if ciEq n idx c (ciOf (siEnd idx)) then some []
    else do
      let c' ← ciNext n idx c
      let rest ← coordLoop n idx fuel c'
      some (c.cursor :: rest)

/-- Coordinates visited by iterating from `begin()` to `end()` (region.h:1342-1350). -/
def allCoords (n : Nat) (idx : Idx) (fuel : Nat) : Option (List Crd) :=
  (siBegin n idx (fun _ => 0) 0).bind (fun it => coordLoop n idx fuel (ciOf it))

/-- `RegionHelpers::StreakIteratorInitSingleOffset<DIM>` (region.h:200-290): yields positions of all levels, and the
position on level `d`. -/
def singleOffset (idx : Idx) (i : Nat) : Nat → Option ((Nat → Nat) × Nat)
  | 0 => some (fun _ => i, i)
  | d + 1 => do
    let (pos, o) ← singleOffset idx i d
    let ub ← upperBound Prod.snd (idx (d + 1)) 0 (idx (d + 1)).length (o : Int)
    let p ← toPos ((ub : Int) - 1)
    some (fun k => if k = d + 1 then p else pos k, p)

/-- `Region::operator[](std::size_t)` (region.h:1307-1316). -/
def siAt (n : Nat) (idx : Idx) (i : Nat) : Option SIter :=
  if i = 0 then siBegin n idx (fun _ => 0) 0
  else if numStreaks idx ≤ i then some (siEnd idx)
  else do
    let (pos, _) ← singleOffset idx i n
    let s ← construct idx (fun _ => 0) 0 pos n zeroStreak
    some { pos := pos, streak := s }

/-- The loop of `StreakIteratorInitPlaneOffset<DIM>` (region.h:188-194): descend to the first child. -/
def planeDown (idx : Idx) : Nat → (Nat → Nat) → Option (Nat → Nat)
  | 0, pos => some pos
  | d + 1, pos => do
    let e ← (idx (d + 1))[pos (d + 1)]?
    let p ← toPos e.2
    planeDown idx d (fun k => if k = d then p else pos k)

/-- `Region::planeStreakIterator` (region.h:1325-1335) with `numPlanes` (1337). -/
def planeIt (n : Nat) (idx : Idx) (i : Nat) : Option SIter :=
  if i = 0 then siBegin n idx (fun _ => 0) 0
  else if (idx n).length ≤ i then some (siEnd idx)
  else do
    let pos ← planeDown idx n (fun _ => i)
    let s ← construct idx (fun _ => 0) 0 pos n zeroStreak
    some { pos := pos, streak := s }

/-- `Region::operator[](Coord)` (region.h:1298-1301) via `StreakIteratorInitOffsets` (338-388). -/
def siOffsets (n : Nat) (idx : Idx) (offs : Nat → Nat) : Option SIter :=
  if offs 0 < (idx 0).length then do
    let s ← construct idx (fun _ => 0) 0 offs n zeroStreak
    some { pos := offs, streak := s }
  else some { pos := offs, streak := zeroStreak }

end LGD
