import Mathlib.Data.Rat.Floor

/-!
# Parameters for auto-tuning and pattern search

misc/simulationparameters.h and misc/patternoptimizer.cpp. `double` is modelled by rational numbers (no rounding, no overflow, no NaN), casts to `int` and `long` truncate towards zero and
don't overflow. An evaluator is a function of the parameters.
-/

namespace LGD.Tune

/-- `VALUE_TYPE` of an interval -/
inductive Ty where
  | int
  | dbl
deriving DecidableEq

/-- cast of a floating point number to an integer -/
def trunc (q : ℚ) : Int := if 0 ≤ q then ⌊q⌋ else ⌈q⌉

/-- assignment of a floating point number to a `VALUE_TYPE` -/
def conv : Ty → ℚ → ℚ
  | .int, q => trunc q
  | .dbl, q => q

/-- `Interval<VALUE_TYPE>` (simulationparameters.h:222-300) -/
structure Ival where
  ty : Ty
  minimum : ℚ
  maximum : ℚ
  gran : ℚ
  index : ℚ
  current : ℚ
deriving DecidableEq

/-- `DiscreteSet` (simulationparameters.h:308-372); `current` is the position in `elements` the value was taken from, `none` if it was read from outside of the vector -/
structure DSet where
  size : Nat
  index : Int
  current : Option Nat
deriving DecidableEq

/-- A parameter -/
inductive Param where
  | ival (p : Ival)
  | dset (p : DSet)
deriving DecidableEq

/-- constructor (lines 229-235) -/
def Ival.make (ty : Ty) (minimum maximum gran : ℚ) : Param := .ival ⟨ty, minimum, maximum, gran, 0, minimum⟩

/-- constructor (lines 315-319); `front()` of an empty vector is undefined -/
def DSet.make (size : Nat) : Param := .dset ⟨size, 0, if 0 < size then some 0 else none⟩

/-- `getMax` (lines 247-250, 331-334); `getMin` is 0 (lines 242-245, 326-329) -/
def Param.max : Param → ℚ
  | .ival p => p.maximum - p.minimum
  | .dset p => p.size

/-- `getGranularity` (lines 270-273, 347-350) -/
def Param.gran : Param → ℚ
  | .ival p => p.gran
  | .dset _ => 1

/-- `getValue` (lines 252-255, 336-339) -/
def Param.value : Param → ℚ
  | .ival p => p.index
  | .dset p => p.index

/-- `sanitizeIndex` (lines 166-176) -/
def Param.sanitize (p : Param) (x : ℚ) : ℚ :=
  let x := if x < 0 then 0 else x
  if p.max ≤ x then p.max - p.gran else x

/-- the common part of `setValue` and `operator+=`: `x` is the new index (lines 259-267, 277-286) -/
def Ival.place (p : Ival) (x : ℚ) : Ival :=
  let i := if 0 < p.gran then conv p.ty ((Param.ival p).sanitize (conv p.ty (trunc (conv p.ty x / p.gran) * p.gran))) else conv p.ty ((Param.ival p).sanitize x)
  { p with index := i, current := p.minimum + i }

/-- `elements[i]` -/
def DSet.read (p : DSet) (i : Int) : Option Nat := if 0 ≤ i ∧ i < p.size then some i.toNat else none

/-- `setValue` (lines 257-268, 341-345): `DiscreteSet` doesn't use its argument -/
def Param.setValue : Param → ℚ → Param
  | .ival p, x => .ival (p.place x)
  | .dset p, _ =>
    let i := trunc ((Param.dset p).sanitize p.index)
    .dset { p with index := i, current := p.read i }

/-- `operator+=` (lines 275-287, 352-358): with granularity 0 the sum is stored as `VALUE_TYPE` before it is sanitized -/
def Param.add : Param → ℚ → Param
  | .ival p, s => .ival (p.place (if 0 < p.gran then p.index + s else conv p.ty (p.index + s)))
  | .dset p, s =>
    let i := trunc ((Param.dset p).sanitize (trunc (p.index + s)))
    .dset { p with index := i, current := p.read i }

/-! ## Objects and references

`SimulationParameters` holds shared pointers to its parameters. -/

/-- parameters in memory -/
structure Heap where
  cells : Nat → Param
  next : Nat

/-- copy constructor (simulationparameters.h:387-393): clones -/
def Heap.copy (h : Heap) (a : List Nat) : Heap × List Nat :=
  (⟨fun k => if h.next ≤ k ∧ k < h.next + a.length then h.cells (a.getD (k - h.next) 0) else h.cells k, h.next + a.length⟩, (List.range a.length).map (h.next + ·))

/-- the implicit assignment operator: copies the pointers -/
def Heap.assign (h : Heap) (a : List Nat) : Heap × List Nat := (h, a)

/-- `a[i] += s` -/
def Heap.add (h : Heap) (a : List Nat) (i : Nat) (s : ℚ) : Heap :=
  { h with cells := fun k => if i < a.length ∧ k = a.getD i 0 then (h.cells k).add s else h.cells k }

/-- what `a[i]` refers to -/
def Heap.get (h : Heap) (a : List Nat) (i : Nat) : Param := h.cells (a.getD i 0)

/-- `SimulationParameters`: the parameters and the map from names to positions -/
structure Named where
  names : String → Option Nat
  params : List Param

/-- `addParameter` (lines 395-411) -/
def Named.push (s : Named) (name : String) (p : Param) : Named := ⟨Function.update s.names name (some s.params.length), s.params ++ [p]⟩

/-- `operator[](name)` for objects which may be changed (lines 427-430): `std::map::operator[]` inserts 0 for a name it doesn't know; yields the position -/
def Named.ref (s : Named) (name : String) : Named × Nat :=
  match s.names name with
  | some i => (s, i)
  | none => (⟨Function.update s.names name (some 0), s.params⟩, 0)

/-- `operator[](name)` for constant objects (lines 432-439); `none` is `std::invalid_argument` -/
def Named.at (s : Named) (name : String) : Option Nat := s.names name

/-! ## Pattern search -/

/-- `tmp[i] += s` on a copy -/
def bump (m : List Param) (i : Nat) (s : ℚ) : List Param := m.modify i (·.add s)

/-- `PatternOptimizer`: members -/
structure Pattern where
  params : List Param
  stepwidth : List ℚ
  minStep : List ℚ
deriving DecidableEq

/-- constructor (patternoptimizer.cpp:10-49); `none` is `std::invalid_argument` -/
def Pattern.make (params : List Param) (stepwidth minStep : List ℚ) : Option Pattern :=
  let r : Pattern :=
    if stepwidth = [] ∧ minStep = [] then
      ⟨params.map fun p => p.setValue (p.max / 2), params.map fun p => if 1 ≤ p.max / 4 then p.max / 4 else p.gran, params.map Param.gran⟩
    else ⟨params, stepwidth, minStep⟩
  let r := if minStep = [] ∧ stepwidth.length = params.length then { r with minStep := r.minStep ++ params.map Param.gran } else r
  if r.stepwidth.length = r.params.length ∧ r.minStep.length = r.params.length then some r else none

/-- `genPattern` (lines 78-92): the point number `i` -/
def point (middle : List Param) (sw : List ℚ) (i : Nat) : List Param :=
  if i = 0 then middle else bump middle ((i - 1) / 2) (if i % 2 = 1 then sw.getD ((i - 1) / 2) 0 else sw.getD ((i - 1) / 2) 0 * -1)

/-- coordinate `(i - 1) / 2` of point `i` differs from the middle -/
def moved (middle : List Param) (sw : List ℚ) (i : Nat) : Bool :=
  (middle[(i - 1) / 2]?.map Param.value) != ((point middle sw i)[(i - 1) / 2]?.map Param.value)

/-- state of `getMaxPos`: position and fitness of the best point, points evaluated so far -/
structure Best where
  pos : Nat
  fit : ℚ
  seen : List (List Param)

/-- body of the loop in `getMaxPos` (lines 103-120) -/
def visit (eval : List Param → ℚ) (middle : List Param) (sw : List ℚ) (oldMiddle : Nat) (b : Best) (i : Nat) : Best :=
  if moved middle sw i = false ∨ (i % 2 = 0 ∧ i - 1 = oldMiddle) ∨ (i % 2 ≠ 0 ∧ i + 1 = oldMiddle) then b
  else
    let f := eval (point middle sw i)
    let seen := b.seen ++ [point middle sw i]
    if b.fit ≤ f then ⟨i, f, seen⟩ else { b with seen := seen }

/-- `getMaxPos` (lines 94-123) -/
def maxPos (eval : List Param → ℚ) (middle : List Param) (sw : List ℚ) (oldMiddle : Nat) (fit : ℚ) (seen : List (List Param)) : Best :=
  ((List.range (2 * middle.length)).map (· + 1)).foldl (visit eval middle sw oldMiddle) ⟨0, fit, seen⟩

/-- one dimension in `reduceStepwidth` (lines 61-72) -/
def reduce1 (s m : ℚ) : ℚ := if s ≤ m then m else if s / 2 ≤ m then m else s / 2

/-- `reduceStepwidth` (lines 54-76): new step widths, and whether anything was above its minimum -/
def reduceSW (sw ms : List ℚ) : List ℚ × Bool := (List.zipWith reduce1 sw ms, (List.zipWith (fun s m => decide (m < s)) sw ms).any id)

/-- state of the loop in `operator()` -/
structure PSt where
  middle : List Param
  sw : List ℚ
  old : Nat
  fit : ℚ
  seen : List (List Param)
  done : Bool

/-- body of the loop in `operator()` (lines 131-144) -/
def patIter (eval : List Param → ℚ) (ms : List ℚ) (t : PSt) : PSt :=
  let b := maxPos eval t.middle t.sw t.old t.fit t.seen
  if b.pos = 0 then
    if (reduceSW t.sw ms).2 then { t with sw := (reduceSW t.sw ms).1, old := 0, fit := b.fit, seen := b.seen }
    else { t with sw := (reduceSW t.sw ms).1, old := 0, fit := b.fit, seen := b.seen, done := true }
  else { t with middle := point t.middle t.sw b.pos, old := b.pos, fit := b.fit, seen := b.seen }

/-- at most `k` iterations -/
def patLoop (eval : List Param → ℚ) (ms : List ℚ) : Nat → PSt → PSt
  | 0, t => t
  | k + 1, t => let t' := patIter eval ms t; if t'.done then t' else patLoop eval ms k t'

/-- `operator()` (lines 125-147): final state; `middle` is the result, `fit` what `getFitness()` returns, `seen` all points which were evaluated, `done` tells whether the search stopped by itself -/
def Pattern.search (o : Pattern) (eval : List Param → ℚ) (steps : Nat) : PSt :=
  patLoop eval o.minStep steps ⟨o.params, o.stepwidth, 0, eval o.params, [o.params], false⟩

end LGD.Tune
