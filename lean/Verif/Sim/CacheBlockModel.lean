import Verif.Geom.TopoModel

/-!
# `CacheBlockingSimulator`

The schedule of the wavefronts (cacheblockingsimulator.h). `P` is `pipelineLength` (at least 1), `D` the extent of the grid along the last axis. A stage is one nano step; stage `0` reads the grid, stage
`P - 1` writes the new grid, all others use a ring buffer. Planes are slices of constant `z`. Which cells of a plane are updated depends on the frame (`inFrame`).
-/

namespace LGD.CacheBlock

/-- arguments of one iteration in `pipelinedUpdate`: `globalIndex` (always equal to `localIndex`), `i`, `firstStage` -/
structure Task where
  index : Nat
  stage : Nat
  first : Nat
deriving DecidableEq, Repr

/-- the loop in `pipelinedUpdate` (cacheblockingsimulator.h:262) -/
def pipelined (index firstStage lastStage : Nat) : List Task := (List.range' firstStage (lastStage - firstStage)).map fun i => ⟨index, i, firstStage⟩

/-- first loop in `updateWavefront` (cacheblockingsimulator.h:223-227) -/
def fill (P : Nat) : List Task := (List.range (2 * P - 2)).flatMap fun g => pipelined g 0 (g / 2 + 1)

/-- second loop (cacheblockingsimulator.h:229-232); `index` continues where the first loop ended -/
def normal (P D : Nat) : List Task := (List.range' (2 * P - 2) (D - (2 * P - 2))).flatMap fun g => pipelined g 0 P

/-- third loop (cacheblockingsimulator.h:234-238) -/
def drain (P D : Nat) : List Task :=
  (List.range' (max (2 * P - 2) D) (D + 2 * P - 2 - max (2 * P - 2) D)).flatMap fun g => pipelined g ((g - D + 1) / 2) P

/-- `updateWavefront` (cacheblockingsimulator.h:212-239) -/
def tasks (P D : Nat) : List Task := fill P ++ normal P D ++ drain P D

/-- extent of the buffer along the last axis (cacheblockingsimulator.h:56) -/
def bufferSize (P : Nat) : Int := P * 4 - 4

/-- `normalizeIndex` (cacheblockingsimulator.h:330-334); C++ remainders truncate -/
def normalizeIndex (P : Nat) (l : Int) : Int := (l + bufferSize P).tmod (bufferSize P)

/-- the grid which is accessed, and the offset which is passed to the update functor -/
inductive Where
  | grid (z : Int)
  | buffer (z : Int)
deriving DecidableEq, Repr

/-- one call of `frameUpdate` -/
inductive Act
  | flush
  | update (stage : Nat) (plane : Int) (src tgt : Where)
deriving DecidableEq, Repr

/-- one iteration in `pipelinedUpdate` and `frameUpdate` (cacheblockingsimulator.h:262-326): `none` if `frames` (cacheblockingsimulator.h:167-168: `D + 1` entries) is accessed beyond its end. Flushing does nothing. -/
def act (P D : Nat) (t : Task) : Option Act :=
  let plane : Int := t.index - 2 * t.stage
  if 0 ≤ plane ∧ plane < D + 1 then
    if t.stage = t.first ∧ D ≤ plane then some .flush
    else some (.update t.stage plane (if t.stage = 0 then .grid plane else .buffer (normalizeIndex P (t.index + 2 - 4 * t.stage)))
      (if t.stage = P - 1 then .grid plane else .buffer (normalizeIndex P (t.index - 4 * t.stage))))
  else none

/-- all calls of `frameUpdate` for one wavefront -/
def trace (P D : Nat) : Option (List Act) := (tasks P D).mapM (act P D)

/-- the plane in the target grid: the update functor adds the offset to the coordinates of the region (updatefunctor.h:204-208), which already contain the plane (cacheblockingsimulator.h:170-182) -/
def realTarget : Act → Option Where
  | .flush => none
  | .update _ plane _ (.grid z) => some (.grid (plane + z))
  | .update _ plane _ (.buffer z) => some (.buffer (plane + z))

/-- the plane at the center of the neighborhoods which are read, likewise -/
def realSource : Act → Option Where
  | .flush => none
  | .update _ plane (.grid z) _ => some (.grid (plane + z))
  | .update _ plane (.buffer z) _ => some (.buffer (plane + z))

/-- number of frames along an axis (cacheblockingsimulator.h:128-134) -/
def framesDim (dim w : Nat) : Nat := if dim % w ≠ 0 then dim / w + 1 else dim / w

/-- coordinate `x` of an axis is updated in frame `f` by stage `i` (cacheblockingsimulator.h:137-165): the tile, expanded once per remaining stage, without cells outside of the grid -/
def inFrame (P dim w f i : Nat) (x : Int) : Prop := 0 ≤ x ∧ x < dim ∧ (f * w : Int) - (P - 1 - i : Nat) ≤ x ∧ x < f * w + w + (P - 1 - i : Nat)

/-- origin and extent of the buffer along an axis (cacheblockingsimulator.h:53-55, 241-250) -/
def bufferOrigin (P w f : Nat) : Int := max 0 (f * w - P + 1)
def bufferDim (P w : Nat) : Int := w + 2 * P - 2

/-- end of `hop` (cacheblockingsimulator.h:207-209): `stepNum` and `nanoStep` -/
def hop (P N : Nat) (s : Nat × Nat) : Nat × Nat := (s.1 + (s.2 + P) / N, (s.2 + P) % N)

/-- the loop in `run` (cacheblockingsimulator.h:91-94) with at most `fuel` iterations; `none` if it takes more. The result includes the number of hops. -/
def runLoop (P N max : Nat) : Nat → Nat → Nat × Nat → Option (Nat × (Nat × Nat))
  | 0, k, s => if s.1 < max then none else some (k, s)
  | fuel + 1, k, s => if s.1 < max then runLoop P N max fuel (k + 1) (hop P N s) else some (k, s)

end LGD.CacheBlock
