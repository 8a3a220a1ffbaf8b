import Mathlib.Data.Int.Basic

/-!
# `LIBFLATARRAY_LOOP_PEELER` and `loop_peeler`

Counters are signed (`long` or `int`, without overflow). The function given by the user is modelled as the loop which the documentation demands and which all users in the repository contain: it processes
`ARITY` elements at the counter and advances the counter while it is less than the given end (test/loop_peeler_test.cpp:24-33, examples/smoothed_particle_hydrodynamics/kernels.hpp:67-75).
-/

namespace LGD.LoopPeel

/-- elements `index`, ..., `index + arity - 1` are processed at once -/
structure Pass where
  index : Int
  arity : Nat
deriving DecidableEq, Repr

/-- the function given by the user: passes and counter afterwards -/
def body (arity : Nat) (stop : Int) : Nat → Int → Option (List Pass × Int)
  | 0, _ => none
  | fuel + 1, x => if x < stop then (body arity stop fuel (x + arity)).map fun r => (⟨x, arity⟩ :: r.1, r.2) else some ([], x)

/-- end of the first loop (loop_peeler.hpp:85-89, 108-111) -/
def nextStop (A : Nat) (x : Int) : Int :=
  let remainder := x.tmod A
  if remainder ≠ 0 then x + A - remainder else x

/-- end of the second loop (loop_peeler.hpp:90-91, 112) -/
def lastStop (A : Nat) (stop : Int) : Int := stop - stop.tmod A

/-- `LIBFLATARRAY_LOOP_PEELER_IMPLEMENTATION` (loop_peeler.hpp:76-96), `loop_peeler` (loop_peeler.hpp:100-117) -/
def peel (A : Nat) (x stop : Int) : Option (List Pass × Int) :=
  let next := nextStop A x
  let last := lastStop A stop
  (body 1 next ((next - x).toNat + 1) x).bind fun a => (body A last ((last - a.2).toNat + 1) a.2).bind fun b => (body 1 stop ((stop - b.2).toNat + 1) b.2).map fun c => (a.1 ++ b.1 ++ c.1, c.2)

/-- the elements which are processed -/
def visited (ps : List Pass) : List Int := ps.flatMap fun p => (List.range p.arity).map fun i : Nat => p.index + i

/-- the pairs of particles in `compute_density_lfa` (examples/smoothed_particle_hydrodynamics/kernels.hpp:86-92): for each particle `i` the loop starts at `i + 1` -/
def partners (A n i : Nat) : Option (List Int) := (peel A (i + 1) n).map fun r => visited r.1

end LGD.LoopPeel
