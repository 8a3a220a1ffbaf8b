import Verif.Part.CurveModel

/-!
# Iterators of space-filling curves which subdivide squares recursively

`ZCurvePartition::Iterator` and `HilbertPartition::Iterator` share their control flow (stack of squares with the number of
the current quadrant, `digDown`, `digUp`, trivial and cached sublevels). What differs is collected in `Subdiv`.
-/

namespace LGD

structure Subdiv (Q : Type) where
  /-- number of quadrants -/
  K : Nat
  /-- `dimensions.prod()` -/
  size : Q → Int
  /-- `hasTrivialDimensions(dimensions)` -/
  triv : Q → Bool
  org : Q → Crd
  /-- axis along which a trivial square is traversed -/
  dir : Q → Nat
  /-- extent of a trivial square along that axis -/
  len : Q → Int
  /-- the square of a quadrant -/
  kid : Q → Nat → Q
  /-- `accuSizes` -/
  accu : Q → Nat → Int
  /-- quadrant which contains a position -/
  select : Q → Int → Nat
  /-- coordinates of a square relative to its origin, if `isCached(dimensions)` -/
  cached : Q → Option (List Crd)
  /-- effect of `digUp` on the stack -/
  up : List (Q × Nat) → List (Q × Nat)

/-- sublevel state: a trivial square (axis, remaining cells including the current one), or a cached one (its origin and the
remaining coordinates; in the code a pair of pointers into the cached vector). -/
inductive SubLevel where
  | triv (dir : Nat) (counter : Int)
  | cached (origin : Crd) (rest : List Crd)

structure SqIter (Q : Type) where
  origin : Crd
  cursor : Crd
  endReached : Bool
  /-- top of stack first; every square with its `quadrant` -/
  stack : List (Q × Nat)
  sub : SubLevel

variable {Q : Type}

/-- `digDown`, `digDownTrivial`, `digDownCached`, `digDownRecursion` (zcurvepartition.h:127-243, hilbertpartition.h:135-284).
`none`: exception, invalid access, or more than `fuel` levels. -/
def digDown (G : Subdiv Q) : Nat → SqIter Q → Int → Option (SqIter Q)
  | 0, _, _ => none
  | fuel + 1, it, offset =>
    match it.stack with
    | [] => none
    | (q, quad) :: st =>
      if offset ≥ G.size q then some { it with stack := st, endReached := true, cursor := G.org q }
      else if G.triv q then
        some { it with stack := st, cursor := upd (G.org q) (G.dir q) (G.org q (G.dir q) + offset),
                       sub := .triv (G.dir q) (G.len q - offset) }
      else match G.cached q with
        | some l =>
          match l.drop offset.toNat with
          | [] => none
          | c :: r => some { it with stack := st, cursor := fun k => G.org q k + c k, sub := .cached (G.org q) (c :: r) }
        | none =>
          let pos := offset + G.accu q quad
          let i := G.select q pos
          if i < G.K then digDown G fuel { it with stack := (G.kid q i, 0) :: (q, i) :: st } (pos - G.accu q i) else none

/-- number of levels granted to `digDown` -/
def digFuel (G : Subdiv Q) (st : List (Q × Nat)) : Nat :=
  match st with
  | [] => 1
  | (q, _) :: _ => (G.size q).toNat + 1

/-- `digUpDown` (zcurvepartition.h:245-268, hilbertpartition.h:126-133, 286-297). -/
def digUpDown (G : Subdiv Q) (it : SqIter Q) : Option (SqIter Q) :=
  match G.up it.stack with
  | [] => some { it with stack := [], endReached := true, cursor := it.origin }
  | f :: st => digDown G (digFuel G (f :: st)) { it with stack := f :: st } 0

/-- `operator++` (zcurvepartition.h:87-125, hilbertpartition.h:82-124). -/
def sqNext (G : Subdiv Q) (it : SqIter Q) : Option (SqIter Q) :=
  if it.endReached then some it
  else match it.sub with
    | .triv d counter =>
      if counter - 1 > 0 then some { it with cursor := upd it.cursor d (it.cursor d + 1), sub := .triv d (counter - 1) }
      else digUpDown G it
    | .cached _ [] => none
    | .cached o (_ :: r) =>
      match r with
      | [] => digUpDown G it
      | c :: r => some { it with cursor := fun k => o k + c k, sub := .cached o (c :: r) }

/-- Constructor with position (zcurvepartition.h:73-81, hilbertpartition.h:67-76). -/
def sqStart (G : Subdiv Q) (q : Q) (pos : Int) : Option (SqIter Q) :=
  digDown G (digFuel G [(q, 0)]) { origin := G.org q, cursor := G.org q, endReached := false, stack := [(q, 0)], sub := .triv 0 0 } pos

/-- `operator==` (spacefillingcurve.h:33-36). -/
def sqEq (n : Nat) (a b : SqIter Q) : Bool := (a.endReached == b.endReached) && crdEq n a.cursor b.cursor

def sqOps (n : Nat) (G : Subdiv Q) : IterOps (SqIter Q) where
  eq := sqEq n
  next := sqNext G
  deref := fun it => it.cursor

end LGD
