import Verif.Region.IterModel

/-!
# Region: set operations and merges

A `StreakIterator` moving from some position to `endStreak()` is represented by the list of streaks it still has to
visit; `Verif.Props.C05`/`C06` show that the iterators deliver exactly these lists.
-/

namespace LGD

/-- `RegionIntersectHelper<DIM>::intersects` (region.h:499-508, 529-535). -/
def sIntersects : Nat → Streak → Streak → Bool
  | 0, s1, s2 =>
    (decide (s1.origin 0 ≤ s2.origin 0) && decide (s2.origin 0 < s1.endX)) ||
      (decide (s2.origin 0 ≤ s1.origin 0) && decide (s1.origin 0 < s2.endX))
  | d + 1, s1, s2 => if s1.origin (d + 1) ≠ s2.origin (d + 1) then false else sIntersects d s1 s2

/-- `RegionIntersectHelper<DIM>::lessThan` (region.h:510-521, 537-541). -/
def sLess : Nat → Streak → Streak → Bool
  | 0, s1, s2 => decide (s1.endX < s2.endX)
  | d + 1, s1, s2 =>
    if s1.origin (d + 1) < s2.origin (d + 1) then true
    else if s1.origin (d + 1) > s2.origin (d + 1) then false
    else sLess d s1 s2

/-- `Streak::operator==` (streak.h:37-42). -/
def sEq (n : Nat) (a b : Streak) : Bool :=
  (List.range (n + 1)).all (fun k => decide (a.origin k = b.origin k)) && decide (a.endX = b.endX)

/-- `for (; i != end; ++i) ret << *i;` -/
def insAll (n : Nat) : Idx → List Streak → Option Idx
  | ret, [] => some ret
  | ret, s :: ss => (regInsert n ret s).bind (fun r => insAll n r ss)

/-- Loop of `Region::operator-` (region.h:1063-1086) and the code after it (1088-1096). `cursor`/`my` are the current
(possibly shortened) streak and those after it; `o`/`other` likewise for the other region. -/
def diffLoop (n : Nat) : Nat → Streak → List Streak → Streak → List Streak → Idx → Option Idx
  | 0, _, _, _, _, _ => none
  | fuel + 1, cursor, my, o, other, ret =>
    let hit := sIntersects n cursor o
    let oldCursor := cursor
    let cursor := if hit then { oldCursor with origin := upd oldCursor.origin 0 (min oldCursor.endX o.endX) } else oldCursor
    (if hit then regInsert n ret { origin := oldCursor.origin, endX := max (oldCursor.origin 0) (o.origin 0) } else some ret).bind
      (fun ret =>
        if sLess n cursor o then
          (regInsert n ret cursor).bind (fun ret =>
            match my with
            | [] => regInsert n ret cursor
            | c' :: my' => diffLoop n fuel c' my' o other ret)
        else
          match other with
          | [] => (regInsert n ret cursor).bind (fun ret => insAll n ret my)
          | o' :: other' => diffLoop n fuel cursor my o' other' ret)

/-- `Region::operator-` (region.h:1041-1099). -/
def regMinus (n : Nat) (a b : Idx) : Option Idx :=
  if (a 0).length = 0 then some emptyIdx
  else if (b 0).length = 0 then some a
  else (toVector n a).bind (fun la => (toVector n b).bind (fun lb =>
    match la, lb with
    | c :: la', o :: lb' => diffLoop n (la.length + lb.length) c la' o lb' emptyIdx
    | _, _ => none))

/-- Loop of `Region::operator&` (region.h:1121-1139). -/
def andLoop (n : Nat) : Nat → List Streak → List Streak → Idx → Option Idx
  | _, [], _, ret => some ret
  | _, _, [], ret => some ret
  | 0, _, _, _ => none
  | fuel + 1, a :: as, b :: bs, ret =>
    (if sIntersects n a b then
        regInsert n ret { origin := upd a.origin 0 (max (a.origin 0) (b.origin 0)), endX := min a.endX b.endX }
      else some ret).bind
      (fun ret => if sLess n a b then andLoop n fuel as (b :: bs) ret else andLoop n fuel (a :: as) bs ret)

/-- `Region::operator&` (region.h:1110-1142). -/
def regAnd (n : Nat) (a b : Idx) : Option Idx :=
  (toVector n a).bind (fun la => (toVector n b).bind (fun lb => andLoop n (la.length + lb.length) la lb emptyIdx))

/-- Macro `LIBGEODECOMP_REGION_ADVANCE_ITERATOR` (region.h:1454-1462), insertion part: skip duplicates. -/
def advIns (n : Nat) (s last : Streak) (ret : Idx) : Option (Idx × Streak) :=
  if !sEq n s last then (regInsert n ret s).map (fun r => (r, s)) else some (ret, last)

/-- Loop of `merge2way` (region.h:1504-1510); yields the region and what is left of both lists. -/
def merge2Loop (n : Nat) : Nat → List Streak → List Streak → Streak → Idx → Option (Idx × List Streak × List Streak)
  | fuel + 1, a :: as, b :: bs, last, ret =>
    if sLess n a b then
      (advIns n a last ret).bind (fun (ret, last) =>
        if as.isEmpty then some (ret, as, b :: bs) else merge2Loop n fuel as (b :: bs) last ret)
    else
      (advIns n b last ret).bind (fun (ret, last) =>
        if bs.isEmpty then some (ret, a :: as, bs) else merge2Loop n fuel (a :: as) bs last ret)
  | _, _, _, _, _ => none

/-- `Region::merge2way` (region.h:1482-1518). -/
def merge2 (n : Nat) (ret : Idx) (la lb : List Streak) : Option Idx :=
  if la.isEmpty then insAll n ret lb
  else if lb.isEmpty then insAll n ret la
  else (merge2Loop n (la.length + lb.length) la lb zeroStreak ret).bind
    (fun (ret, la', lb') => (insAll n ret la').bind (fun ret => insAll n ret lb'))

/-- Loop of `merge3way` (region.h:1555-1569). -/
def merge3Loop (n : Nat) : Nat → List Streak → List Streak → List Streak → Streak → Idx →
    Option (Idx × List Streak × List Streak × List Streak)
  | fuel + 1, a :: as, b :: bs, c :: cs, last, ret =>
    if sLess n a b then
      if sLess n a c then
        (advIns n a last ret).bind (fun (ret, last) =>
          if as.isEmpty then some (ret, as, b :: bs, c :: cs) else merge3Loop n fuel as (b :: bs) (c :: cs) last ret)
      else
        (advIns n c last ret).bind (fun (ret, last) =>
          if cs.isEmpty then some (ret, a :: as, b :: bs, cs) else merge3Loop n fuel (a :: as) (b :: bs) cs last ret)
    else
      if sLess n b c then
        (advIns n b last ret).bind (fun (ret, last) =>
          if bs.isEmpty then some (ret, a :: as, bs, c :: cs) else merge3Loop n fuel (a :: as) bs (c :: cs) last ret)
      else
        (advIns n c last ret).bind (fun (ret, last) =>
          if cs.isEmpty then some (ret, a :: as, b :: bs, cs) else merge3Loop n fuel (a :: as) (b :: bs) cs last ret)
  | _, _, _, _, _, _ => none

/-- `Region::merge3way` (region.h:1520-1595). -/
def merge3 (n : Nat) (ret : Idx) (la lb lc : List Streak) : Option Idx :=
  if la.isEmpty then merge2 n ret lb lc
  else if lb.isEmpty then merge2 n ret la lc
  else if lc.isEmpty then merge2 n ret la lb
  else (merge3Loop n (la.length + lb.length + lc.length) la lb lc zeroStreak ret).bind
    (fun (ret, la', lb', lc') =>
      if la'.isEmpty then merge2 n ret lb' lc'
      else if lb'.isEmpty then merge2 n ret la' lc'
      else if lc'.isEmpty then merge2 n ret la' lb'
      else some ret)

/-- `Region::isAppendable` (region.h:1468-1480). -/
def isAppendable (n : Nat) (a b : Idx) : Option Bool :=
  if (b 0).length = 0 ∨ (a 0).length = 0 then some true
  else (siOffsets n a (fun k => (a k).length - 1)).bind (fun lastIt =>
    (siBegin n b (fun _ => 0) 0).map (fun first => sLess n lastIt.streak first.streak))

/-- `Region::operator+` (region.h:1180-1217). -/
def regPlus (n : Nat) (a b : Idx) : Option Idx :=
  if (b 0).length = 0 then some a
  else if (a 0).length = 0 then some b
  else (isAppendable n a b).bind (fun app1 =>
    if app1 then (toVector n b).bind (insAll n a)
    else (isAppendable n b a).bind (fun app2 =>
      if app2 then (toVector n a).bind (insAll n b)
      else (toVector n a).bind (fun la => (toVector n b).bind (fun lb => merge2 n emptyIdx la lb))))

/-- `Region::operator+=` (region.h:1144-1178). -/
def regPlusAssign (n : Nat) (a b : Idx) : Option Idx :=
  if (b 0).length = 0 then some a
  else if (a 0).length = 0 then some b
  else (isAppendable n a b).bind (fun app1 =>
    if app1 then (toVector n b).bind (insAll n a)
    else (isAppendable n b a).bind (fun app2 =>
      if app2 then (toVector n a).bind (insAll n b)
      else regPlus n a b))

/-- `Region::operator-=` (region.h:1030-1035). -/
def regMinusAssign (n : Nat) (a b : Idx) : Option Idx := regMinus n a b

/-- `Region::operator&=` (region.h:1101-1105): computes `other & *this`. -/
def regAndAssign (n : Nat) (a b : Idx) : Option Idx := regAnd n b a

end LGD
