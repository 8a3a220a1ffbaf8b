import Mathlib.Data.Nat.Bitwise

/-!
# Loop peeling for vectorized updates of unstructured grids

Counters are natural numbers (IDs of cells; no overflow). The update body given by the user is modelled as the loop which the documentation of `UnstructuredUpdateFunctor` and its tests use: process `ARITY`
cells at the counter with the current neighborhood, then advance both. What the body does with the cells is left open; the model yields the list of the executed passes.
-/

namespace LGD.Peel

/-- members of `UnstructuredSoANeighborhood` which change (unstructuredsoaneighborhood.h:263-272) -/
structure Hood where
  chunk : Nat
  intra : Nat
deriving DecidableEq, Repr

/-- constructor (unstructuredsoaneighborhood.h:163-170) with the arguments given by the update functor (unstructuredupdatefunctor.h:68-73) -/
def hoodMake (C x : Nat) : Hood := ⟨x / C, x % C⟩

/-- `operator++` (unstructuredsoaneighborhood.h:172-177) -/
def incChunk (h : Hood) : Hood := { h with chunk := h.chunk + 1 }

/-- `incIntraChunkOffset` (unstructuredsoaneighborhood.h:230-238), called by `WrappedNeighborhood::operator++` (unstructuredlooppeeler.h:37-41) -/
def incIntra (C : Nat) (h : Hood) : Hood :=
  let i := (h.intra + 1) % C
  if i = 0 then incChunk { h with intra := i } else { h with intra := i }

/-- one execution of the body: cells `index`, ..., `index + arity - 1` -/
structure Pass where
  index : Nat
  arity : Nat
  hood : Hood
deriving DecidableEq, Repr

/-- the loop given by the user (test/unit/unstructuredupdatefunctortest.h:115-131): the passes, counter and neighborhood afterwards; `none` if the fuel does not suffice -/
def lambda (arity : Nat) (inc : Hood → Hood) (stop : Nat) : Nat → Nat → Hood → Option (List Pass × Nat × Hood)
  | 0, _, _ => none
  | fuel + 1, counter, h =>
    if counter < stop then (lambda arity inc stop fuel (counter + arity) (inc h)).map fun r => (⟨counter, arity, h⟩ :: r.1, r.2) else some ([], counter, h)

/-- `unstructuredLoopPeeler` (unstructuredlooppeeler.h:75-96), also as a macro (102-123): `C` is `SHORT_VEC_TYPE::ARITY`, which has to match the chunk size of the neighborhood -/
def peel (C counter stop : Nat) (h : Hood) : Option (List Pass × Nat × Hood) :=
  let remainder := counter &&& (C - 1)
  let nextStop := if remainder ≠ 0 then counter + (C - remainder) else counter
  let lastStop := stop - (stop &&& (C - 1))
  (lambda 1 (incIntra C) nextStop (nextStop + 1) counter h).bind fun a =>
    (lambda C incChunk lastStop (lastStop + 1) a.2.1 a.2.2).bind fun b =>
      (lambda 1 (incIntra C) stop (stop + 1) b.2.1 b.2.2).map fun c => (a.1 ++ b.1 ++ c.1, c.2)

end LGD.Peel
