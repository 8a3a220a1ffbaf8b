import Verif.Region.IterModel

/-!
# Region: `streakIteratorOnOrAfter`
-/

namespace LGD

/-- `RegionHelpers::lowerBound` (region.h:52-72) on the range `[s, e)` of `v`, comparing first components. The final
`std::lower_bound` is modelled by its specification: skip all leading elements which are less than `c`. -/
def lowerBound (v : IVec) (s e : Nat) (c : Int) : Option Nat :=
  if s = e then some e
  else do
    let a ← v[s]?
    if c < a.1 then some s
    else do
      let b ← v[e - 1]?
      if b.1 < c then some e
      else some (s + (((v.take e).drop s).takeWhile (fun p => decide (p.1 < c))).length)

/-- Assignment to one component of `offsets`. -/
def setPos (o : Nat → Nat) (k p : Nat) : Nat → Nat := fun j => if j = k then p else o j

/-- Loop region.h:1427-1431: descend to the first children, from level `d - 1` on. -/
def descendFirst (idx : Idx) : Nat → IPair → (Nat → Nat) → Option (Nat → Nat)
  | 0, _, o => some o
  | d + 1, e, o =>
    (toPos e.2).bind (fun p =>
      if d = 0 then some (setPos o 0 p)
      else ((idx d)[p]?).bind (fun e' => descendFirst idx d e' (setPos o d p)))

/-- Loop region.h:1405-1408: note that the offset is set to the *coordinate* `cursor->first`. -/
def descendPast (idx : Idx) : Nat → IPair → (Nat → Nat) → Option (Nat → Nat)
  | 0, _, o => some o
  | d + 1, e, o =>
    (toPos e.1).bind (fun p =>
      if d = 0 then some (setPos o 0 p)
      else (toPos (e.2 - 1)).bind (fun q => ((idx d)[q]?).bind (fun e' => descendPast idx d e' (setPos o d p))))

/-- End of the children of entry `i` on level `d + 1` (region.h:1434-1440). -/
def childEnd (idx : Idx) (d i : Nat) : Option Nat :=
  if i + 1 = (idx (d + 1)).length then some (idx d).length
  else ((idx (d + 1))[i + 1]?).bind (fun e => toPos e.2)

/-- `(*this)[offsets]` followed by `++ret` (region.h:1410-1412). -/
def offsetsNext (n : Nat) (idx : Idx) (o : Nat → Nat) : Option SIter :=
  (siOffsets n idx o).bind (siNext n idx (fun _ => 0) 0)

/-- The loop of `Region::streakIteratorOnOrAfter` (region.h:1384-1445) on levels `d .. 0`; `[a, b)` is
`[iter1, iter2)`. -/
def onAfterLoop (n : Nat) (idx : Idx) (c : Crd) : Nat → Nat → Nat → (Nat → Nat) → Option SIter
  | 0, a, b, o =>
    (lowerBound (idx 0) a b (c 0)).bind (fun cur =>
      if cur = (idx 0).length then some (siEnd idx)
      else if cur = b then (toPos ((cur : Int) - 1)).bind (fun q => offsetsNext n idx (setPos o 0 q))
      else siOffsets n idx (setPos o 0 cur))
  | d + 1, a, b, o =>
    (lowerBound (idx (d + 1)) a b (c (d + 1))).bind (fun cur =>
      if cur = (idx (d + 1)).length then some (siEnd idx)
      else ((idx (d + 1))[cur]?).bind (fun e =>
        if cur = b then (toPos ((cur : Int) - 1)).bind (fun q =>
          (descendPast idx (d + 1) e (setPos o (d + 1) q)).bind (offsetsNext n idx))
        else if e.1 ≠ c (d + 1) then
          (descendFirst idx (d + 1) e (setPos o (d + 1) cur)).bind (siOffsets n idx)
        else (toPos e.2).bind (fun a' => (childEnd idx d cur).bind (fun b' =>
          onAfterLoop n idx c d a' b' (setPos o (d + 1) cur)))))

/-- `Region::streakIteratorOnOrAfter` (region.h:1377-1446). -/
def onAfter (n : Nat) (idx : Idx) (c : Crd) : Option SIter :=
  onAfterLoop n idx c n 0 (idx n).length (fun _ => 0)

end LGD
