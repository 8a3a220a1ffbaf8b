import Verif.Tune.SimplexModel

/-!
# AutoTuningSimulator, factories and the initializer with a variable number of steps

parallelization/autotuningsimulator.h, misc/simulationfactory.h, io/varstepinitializerproxy.h. Execution times are given by a function of the number of steps, the simulator and its parameters.
-/

namespace LGD.Tune

/-! ## VarStepInitializerProxy -/

/-- `VarStepInitializerProxy`: `startStep()` and `maxSteps()` of the wrapped initializer, and `newMaxSteps` (varstepinitializerproxy.h:101-102) -/
structure Proxy where
  start : BitVec 32
  max : BitVec 32
  steps : BitVec 32

/-- constructor (lines 30-35) -/
def Proxy.make (start max : BitVec 32) : Proxy := ⟨start, max, max⟩

/-- `resetMaxSteps` (lines 41-44) -/
def Proxy.reset (p : Proxy) : Proxy := { p with steps := p.max - p.start }

/-- `setMaxSteps` (lines 49-51) -/
def Proxy.set (p : Proxy) (n : BitVec 32) : Proxy := { p with steps := n }

/-- `maxSteps` (lines 78-81) -/
def Proxy.maxSteps (p : Proxy) : BitVec 32 := p.start + p.steps

/-! ## AutoTuningSimulator -/

/-- `Simulation` (autotuningsimulator.h:28-46) -/
structure Entry where
  params : List Param
  fitness : ℚ

/-- the registry: a map from names, in their order -/
abbrev Registry := List (String × Entry)

/-- what the constructor registers (lines 129-144): names and parameters of the factories (serialsimulationfactory.h:28-31, cacheblockingsimulationfactory.h:26-28, 31-34, cudasimulationfactory.h:30-33, 53-56) -/
def registry (threads cuda : Bool) : Registry :=
  (if cuda then [("CUDASimulator", ⟨[Ival.make .int 1 128 1, Ival.make .int 1 8 1, Ival.make .int 1 8 1], dblMax⟩)] else []) ++
  (if threads then [("CacheBlockingSimulator", ⟨[Ival.make .int 10 1000 1, Ival.make .int 10 1000 1, Ival.make .int 1 30 1], dblMax⟩)] else []) ++
  [("SerialSimulator", ⟨[], dblMax⟩)]

/-- `getSimulation` (lines 119-126); `none` is `std::invalid_argument` -/
def Registry.get (r : Registry) (name : String) : Option Entry := r.lookup name

/-- outcome of `run` -/
inductive Outcome where
  | threw
  | unfinished
  | completed (name : String) (params : List Param)

/-- loop in `normalizeSteps` (lines 226-239): `time` yields the fitness for a number of steps; yields the number of steps -/
def normalizeLoop (time : Nat → ℚ) (goal variance : ℚ) : Nat → Nat → Option Nat
  | 0, _ => none
  | fuel + 1, steps =>
    let f := time steps
    let next := (trunc ((steps : ℚ) / f * goal)).toNat
    let next := if next < 1 then 1 else next
    if (f > goal + variance ∧ f < goal - variance) ∨ (steps ≤ 1 ∧ f > goal) then some steps else normalizeLoop time goal variance fuel next

/-- the optimizers -/
inductive Opt where
  | pattern
  | simplex

/-- `OPTIMIZER_TYPE optimizer(params); optimizer(steps, factory)` and `getFitness()` (lines 250-254) -/
def Opt.run (o : Opt) (ps : List Param) (eval : List Param → ℚ) (k : Nat) : Option (List Param × ℚ) :=
  match o with
  | .pattern => (Pattern.make ps [] []).map fun p => ((p.search eval k).middle, (p.search eval k).fit)
  | .simplex => (simplexSearch ps (-1) 8 [] eval k).map fun t => (t.result.pt, t.result.fit)

/-- `runTest` (lines 244-262) -/
def runTest (o : Opt) (eval : String → List Param → ℚ) (k : Nat) : Registry → Option Registry
  | [] => some []
  | (n, e) :: r => do
    let (ps, f) ← o.run e.params (eval n) k
    let r' ← runTest o eval k r
    return (n, ⟨ps, f⟩) :: r'

/-- `getBestSim` (lines 185-201) -/
def bestSim (r : Registry) : String := (r.foldl (fun b e => if b.1 < e.2.fitness then (e.2.fitness, e.1) else b) (dblMin, "")).2

/-- `run` (lines 165-183), `normalizeSteps` (lines 210-242) and `runToCompletion` (lines 203-208); `serial` is the name `normalizeSteps` looks up (line 218), at most `fuel` rounds of its loop.
`normalizeSteps` never yields 0. Exceptions of `runTest` can't occur. -/
def run (serial : String) (o : Opt) (eval : Nat → String → List Param → ℚ) (k fuel : Nat) (r : Registry) : Outcome :=
  match r.get serial with
  | none => .threw
  | some e =>
    match normalizeLoop (fun n => eval n serial e.params) (-1) (eval 1 serial e.params) fuel 5 with
    | none => .unfinished
    | some n =>
      match runTest o (eval n) k r with
      | none => .threw
      | some r' =>
        match r'.get (bestSim r') with
        | none => .threw
        | some e => .completed (bestSim r') e.params

/-! ## Ownership of writers -/

/-- objects which exist -/
abbrev Objects := Nat → Bool

/-- `delete`; deleting something which doesn't exist is undefined -/
def del (h : Objects) (w : Nat) : Option Objects := if h w then some (Function.update h w false) else none

/-- calling a writer which doesn't exist is undefined -/
def touch (h : Objects) (w : Nat) : Option Unit := if h w then some () else none

/-- `SimulationFactory::operator()` for a monolithic simulator (simulationfactory.h:61-72, 97-103; monolithicsimulator.h:39-42): the simulator gets the pointers, calls the writers, and deletes them in the end -/
def factoryCall (writers : List Nat) (h : Objects) : Option Objects := do
  writers.forM (touch h)
  writers.foldlM del h

/-- destructor of the factory: its pointers own the writers, too (lines 33-34, 41-44, 83) -/
def factoryEnd (writers : List Nat) (h : Objects) : Option Objects := writers.foldlM del h

end LGD.Tune
