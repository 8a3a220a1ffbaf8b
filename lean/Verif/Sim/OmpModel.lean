import Verif.Sim.SerialModel
import Mathlib.Logic.Relation

/-!
# `OpenMPSimulator`

Derived from `SerialSimulator` (openmpsimulator.h:20-108). Executions are relations, as threads may be scheduled in any way.
`nanoStep` is virtual (serialsimulator.h:132), so `step` and `run` call the parallel one. `handleInput` and `handleOutput` are not
(serialsimulator.h:144, 162): `step` and `run` call those of `SerialSimulator`, and the parallel ones are only available to derived
classes and friends. In these, steerers are programs which access the grid cell by cell; writers don't modify the grid, so
their calls are single events. Exceptions thrown in parallel regions (which terminate the process) are left out.
-/

namespace LGD.Omp
open LGD.Adapter LGD.Serial

variable {κ α : Type} [DecidableEq κ]

/-- what a steerer does to the grid and to the feedback object (steerer.h:27-130) -/
inductive Prog (κ α : Type) where
  | done
  | read (c : κ) (k : α → Prog κ α)
  | write (c : κ) (v : α) (p : Prog κ α)
  | stop (p : Prog κ α)

/-- the effect of a program which runs alone; the boolean is `feedback->simulationEnd` -/
def exec : Prog κ α → (κ → α) → Bool → (κ → α) × Bool
  | .done, g, fb => (g, fb)
  | .read c k, g, fb => exec (k (g c)) g fb
  | .write c v p, g, fb => exec p (fun x => if x = c then v else g x) fb
  | .stop p, g, _ => exec p g true

/-- a steerer which accesses the grid cell by cell -/
structure Steerer (κ α : Type) where
  period : Nat
  pos : 0 < period
  prog : Nat → Event → Prog κ α

/-- as seen by `SerialSimulator` -/
def Steerer.serial (s : Steerer κ α) : Serial.Steerer κ α := ⟨s.period, s.pos, fun t ev g => exec (s.prog t ev) g false⟩

/-- a parallel loop: grid, feedback, and what the threads still have to do -/
structure Conf (κ α : Type) where
  grid : κ → α
  fb : Bool
  progs : List (Prog κ α)

/-- one thread performs its next access -/
inductive Access : Conf κ α → Conf κ α → Prop where
  | read {g fb ps i c k} (h : ps[i]? = some (.read c k)) : Access ⟨g, fb, ps⟩ ⟨g, fb, ps.set i (k (g c))⟩
  | write {g fb ps i c v p} (h : ps[i]? = some (.write c v p)) : Access ⟨g, fb, ps⟩ ⟨fun x => if x = c then v else g x, fb, ps.set i p⟩
  | stop {g fb ps i p} (h : ps[i]? = some (.stop p)) : Access ⟨g, fb, ps⟩ ⟨g, true, ps.set i p⟩

/-- the parallel loop ends once all programs have ended -/
def Conf.ended (c : Conf κ α) : Prop := ∀ p ∈ c.progs, p = .done

/-- two accesses to the same object, one of which modifies it -/
def conflict : Prog κ α → Prog κ α → Prop
  | .read c _, .write d _ _ => c = d
  | .write c _ _, .read d _ => c = d
  | .write c _ _, .write d _ _ => c = d
  | .stop _, .stop _ => True
  | _, _ => False

/-- a data race (undefined behaviour): two threads may perform conflicting accesses now -/
def Conf.race (c : Conf κ α) : Prop := ∃ (i j : Nat) (p q : Prog κ α), i ≠ j ∧ c.progs[i]? = some p ∧ c.progs[j]? = some q ∧ conflict p q

/-- steerers called for an event (openmpsimulator.h:102-103) -/
def due (steerers : List (Steerer κ α)) (event : Event) (t : Nat) : List (Steerer κ α × Nat) :=
  steerers.zipIdx.filter fun p => decide (event ≠ .regular ∨ t % p.1.period = 0)

/-- the parallel `handleInput` (openmpsimulator.h:96-107): the calls of steerers interleave -/
def Input (steerers : List (Steerer κ α)) (event : Event) (st : St κ α) (fb : Bool) (st' : St κ α) (fb' : Bool) : Prop :=
  ∃ c calls, Relation.ReflTransGen Access ⟨st.cur, fb, (due steerers event st.step).map fun p => p.1.prog st.step event⟩ c ∧ c.ended ∧
    calls.Perm ((due steerers event st.step).map fun p => (⟨p.2, st.step, event⟩ : SCall)) ∧
    st' = { st with cur := c.grid, input := st.input ++ calls } ∧ fb' = c.fb

variable (E : Env κ α)

/-- the parallel `handleOutput` (openmpsimulator.h:77-91): the writers are called in any order -/
def Output (event : Event) (st st' : St κ α) : Prop :=
  ∃ calls, calls.Perm (E.writers.zipIdx.filterMap fun p =>
      if event ≠ .regular ∨ st.step % p.1.1 = 0 then some (⟨p.2, st.step, event, st.cur⟩ : WCall κ α) else none) ∧
    st' = { st with output := st.output ++ calls }

/-- `nanoStep` (openmpsimulator.h:58-72): the cells of the simulation area are updated in any order (C49), then the grids are swapped -/
def Nano (i : Nat) (st st' : St κ α) : Prop :=
  ∃ order : List κ, order.Perm E.area ∧
    st' = { st with cur := order.foldl (fun g c => fun x => if x = c then E.upd i st.cur c else g x) st.new, new := st.cur }

/-- the loop over nano steps in `step` (serialsimulator.h:82-84) -/
inductive Nanos : Nat → St κ α → St κ α → Prop where
  | zero {st} : Nanos 0 st st
  | succ {n st st1 st2} (h : Nanos n st st1) (h' : Nano E n st1 st2) : Nanos (n + 1) st st2

/-- `step(feedback)` (serialsimulator.h:76-93) -/
def Step (st : St κ α) (fb : Bool) (st' : St κ α) (fb' : Bool) : Prop :=
  ∃ st2, Nanos E E.nanoSteps (handleInput E .regular st fb).1 st2 ∧ fb' = (handleInput E .regular st fb).2 ∧
    st' = handleOutput E (if st2.step + 1 = E.maxSteps then .allDone else .regular) { st2 with step := st2.step + 1 }

/-- the loop in `run` (serialsimulator.h:108-114) -/
inductive Loop : St κ α → Bool → St κ α → Bool → Prop where
  | halt {st fb} (h : ¬ st.step < E.maxSteps ∨ fb = true) : Loop st fb st fb
  | next {st st1 fb1 st2 fb2} (h : st.step < E.maxSteps) (h1 : Step E st false st1 fb1) (h2 : Loop st1 fb1 st2 fb2) : Loop st false st2 fb2

/-- `run` (serialsimulator.h:98-117) -/
def Run (st st' : St κ α) : Prop :=
  ∃ st3 fb3, Loop E (handleOutput E .initialized (handleInput E .initialized { st with cur := E.initial, step := E.startStep } false).1)
      (handleInput E .initialized { st with cur := E.initial, step := E.startStep } false).2 st3 fb3 ∧
    st' = (handleInput E .allDone st3 fb3).1

end LGD.Omp
