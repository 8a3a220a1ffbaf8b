import Verif.Patch.PatchModel

/-!
# `ParallelWriterAdapter` and `SteererAdapter`

Step numbers and periods are unbounded (`std::size_t` and `unsigned` in the code). `γ` is whatever else is handed over
with a call (grid, region, dimensions, rank).
-/

namespace LGD.Adapter
open LGD.Patch

/-- `WriterEvent` (writer.h:16-20) and `SteererEvent` (steerer.h:11-15) -/
inductive Event where
  | initialized
  | regular
  | allDone
  deriving DecidableEq

/-- one call of `ParallelWriter::stepFinished` or `Steerer::nextStep` -/
structure Call (γ : Type) where
  step : Nat
  event : Event
  lastCall : Bool
  arg : γ

/-- `ParallelWriterAdapter` (parallelwriteradapter.h:91-97, patchaccepter.h:75); `calls` is the history of calls of
`stepFinished` -/
structure WAd (γ : Type) where
  firstNano : Nat
  lastNano : Nat
  stride : Nat
  lastCall : Bool
  req : List Nat
  calls : List (Call γ)

variable {γ : Type}

/-- constructor (parallelwriteradapter.h:31-45) -/
def WAd.make (nanoSteps period firstStep lastStep : Nat) (lastCall : Bool) : WAd γ where
  firstNano := firstStep * nanoSteps
  lastNano := lastStep * nanoSteps
  stride := period * nanoSteps
  lastCall := lastCall
  req := setInsert (lastStep * nanoSteps) (setInsert (firstStep * nanoSteps) [])
  calls := []

/-- the event for a nano step (parallelwriteradapter.h:63-69, steereradapter.h:69-75) -/
def eventAt (firstNano lastNano s : Nat) : Event :=
  if s = lastNano then .allDone else if s = firstNano then .initialized else .regular

/-- `put` (parallelwriteradapter.h:51-89); `none` is the exception of `checkNanoStepPut` -/
def WAd.put (nanoSteps : Nat) (a : WAd γ) (g : γ) (s : Nat) : Option (WAd γ) :=
  match checkNanoStepPut a.req s with
  | none => none
  | some false => some a
  | some true =>
    if s > a.lastNano then some a
    else
      let next := s + a.stride
      some { a with calls := a.calls ++ [⟨s / nanoSteps, eventAt a.firstNano a.lastNano s, a.lastCall, g⟩]
                    req := setInsert (next - next % a.stride) a.req.tail }

/-- `notifyPatchAccepters` for one accepter (commonstepper.h:120-132) -/
def WAd.notify (nanoSteps inf : Nat) (a : WAd γ) (p : Nat × γ) : Option (WAd γ) :=
  if p.1 = nextNanoStep inf a.req then a.put nanoSteps p.2 p.1 else some a

/-- a sequence of notifications -/
def WAd.run (nanoSteps inf : Nat) : WAd γ → List (Nat × γ) → Option (WAd γ)
  | a, [] => some a
  | a, p :: l => (a.notify nanoSteps inf p).bind fun a' => WAd.run nanoSteps inf a' l

/-- `SteererAdapter` (steereradapter.h:111-116, patchprovider.h:74); `calls` is the history of calls of `nextStep` -/
structure SAd (γ : Type) where
  firstNano : Nat
  lastNano : Nat
  period : Nat
  lastCall : Bool
  stored : List Nat
  calls : List (Call γ)

/-- constructor (steereradapter.h:28-46) -/
def SAd.make (nanoSteps period firstStep lastStep : Nat) (lastCall : Bool) : SAd γ where
  firstNano := firstStep * nanoSteps
  lastNano := lastStep * nanoSteps
  period := period
  lastCall := lastCall
  stored := setInsert (lastStep * nanoSteps) (setInsert ((firstStep + period - firstStep % period) * nanoSteps)
    (setInsert (firstStep * nanoSteps) []))
  calls := []

/-- `get` with `remove = true` (steereradapter.h:53-109); `none` stands for the two exceptions. The steerer's effect
on the grid is part of the caller's model; its feedback is ignored by the code. -/
def SAd.get (nanoSteps : Nat) (a : SAd γ) (g : γ) (s : Nat) : Option (SAd γ) :=
  if s % nanoSteps ≠ 0 then none
  else
    let step := s / nanoSteps
    let event := eventAt a.firstNano a.lastNano s
    if s > a.lastNano then some a
    else if event = .regular ∧ step % a.period ≠ 0 then none
    else
      let stride := nanoSteps * a.period
      let next := s + stride
      some { a with calls := a.calls ++ [⟨step, event, a.lastCall, g⟩]
                    stored := setInsert (next - next % stride) (a.stored.erase s) }

/-- `notifyPatchProviders` for one provider (commonstepper.h:142-155) -/
def SAd.notify (nanoSteps inf : Nat) (a : SAd γ) (p : Nat × γ) : Option (SAd γ) :=
  if p.1 = nextNanoStep inf a.stored then a.get nanoSteps p.2 p.1 else some a

/-- a sequence of notifications -/
def SAd.run (nanoSteps inf : Nat) : SAd γ → List (Nat × γ) → Option (SAd γ)
  | a, [] => some a
  | a, p :: l => (a.notify nanoSteps inf p).bind fun a' => SAd.run nanoSteps inf a' l

end LGD.Adapter
