import Verif.Props.C30
import Verif.Props.C31

/-!
# C44: `run()` starts over

Proved for `SerialSimulator`, for any history of calls of `step()` and `run()`; violated by `StripingSimulator` (`C31.second_run_differs`).
-/

namespace LGD.C44
open LGD.Adapter LGD.Serial LGD.C30

variable {κ α : Type} [DecidableEq κ] {E : Env κ α}

/-- the calls a user can make -/
inductive Call where
  | step
  | run

/-- the effect of a call on the simulator -/
def call (E : Env κ α) (st : St κ α) : Call → St κ α
  | .step => (Serial.step E st false).1
  | .run => Serial.run E st

/-- a simulator after a history of calls -/
def after (E : Env κ α) (h : List Call) : St κ α := h.foldl (call E) (make E)

/-- cells outside of the simulation area are never changed, in neither of the two grids -/
structure Good (E : Env κ α) (st : St κ α) : Prop where
  cur : ∀ c, c ∉ E.area → st.cur c = E.initial c
  new : ∀ c, c ∉ E.area → st.new c = E.initial c

omit [DecidableEq κ] in
theorem good_input (hI : Inside E) (ev : Event) (st : St κ α) (fb : Bool) (h : Good E st) : Good E (handleInput E ev st fb).1 := by
  rw [handleInput_eq]
  exact ⟨fun c hc => (steered_outside hI _ _ _ _ hc).trans (h.cur c hc), h.new⟩

theorem good_nano (n : Nat) : ∀ (st : St κ α), Good E st → Good E ((List.range n).foldl (fun st i => nanoStep E i st) st) := by
  induction n with
  | zero => intro st h; exact h
  | succ n ih =>
    intro st h
    rw [List.range_succ, List.foldl_append]
    have := ih st h
    refine ⟨fun c hc => ?_, this.cur⟩
    simp only [List.foldl_cons, List.foldl_nil, nanoStep]
    rw [if_neg hc]
    exact this.new c hc

theorem good_step (hI : Inside E) (st : St κ α) (fb : Bool) (h : Good E st) : Good E (Serial.step E st fb).1 := by
  have := good_nano E.nanoSteps _ (good_input hI .regular st fb h)
  exact ⟨this.cur, this.new⟩

theorem good_loop (hI : Inside E) (n : Nat) : ∀ (st : St κ α) (fb : Bool), Good E st → Good E (loop E n st fb).1 := by
  induction n with
  | zero => intro st fb h; exact h
  | succ n ih =>
    intro st fb h
    rw [loop]
    split
    · split
      · exact h
      · exact ih _ _ (good_step hI st fb h)
    · exact h

theorem good_run (hI : Inside E) (st : St κ α) (h : Good E st) : Good E (Serial.run E st) := by
  have h0 : Good E { st with cur := E.initial, step := E.startStep } := ⟨fun _ _ => rfl, h.new⟩
  have h1 := good_input hI .initialized _ false h0
  have h2 : Good E (handleOutput E .initialized (handleInput E .initialized { st with cur := E.initial, step := E.startStep } false).1) := ⟨h1.cur, h1.new⟩
  exact good_input hI .allDone _ _ (good_loop hI (E.maxSteps + 1) _ _ h2)

theorem good_after (hI : Inside E) (h : List Call) : ∀ st, Good E st → Good E (h.foldl (call E) st) := by
  induction h with
  | nil => intro st hs; exact hs
  | cons k h ih =>
    intro st hs
    refine ih _ ?_
    cases k with
    | step => exact good_step hI st false hs
    | run => exact good_run hI st hs

/-- **C44 for the serial simulator.** Whatever calls of `step()` and `run()` came before, `run()` ends with the grid and the step number a fresh
simulator ends with; writers and steerers are notified in the same way as by a fresh simulator. -/
theorem rerun_partial (hI : Inside E) (h : List Call) :
    (after E (h ++ [.run])).cur = (after E [.run]).cur ∧ (after E (h ++ [.run])).step = (after E [.run]).step ∧
      (after E (h ++ [.run])).output = (after E h).output ++ (after E [.run]).output ∧
      (after E (h ++ [.run])).input = (after E h).input ++ (after E [.run]).input := by
  have hg := good_after hI h (make E) ⟨fun _ _ => rfl, fun _ _ => rfl⟩
  have e : after E (h ++ [.run]) = Serial.run E (after E h) := by simp [after, call]
  have e' : after E [.run] = Serial.run E (make E) := rfl
  rw [e, e']
  obtain ⟨m, a1, a2, a3, a4, a5, a6, a7⟩ := run_serial hI (after E h) hg.new
  obtain ⟨m', b1, b2, b3, b4, b5, b6, b7⟩ := run_serial hI (make E) (fun _ _ => rfl)
  have : m = m' := by
    rcases Nat.lt_trichotomy m m' with h | h | h
    · have := b2 m h
      rcases a3 with a3 | a3
      · omega
      · rw [this] at a3; cases a3
    · exact h
    · have := a2 m' h
      rcases b3 with b3 | b3
      · omega
      · rw [this] at b3; cases b3
  subst this
  refine ⟨by rw [a5, b5], by rw [a4, b4], by rw [a6, b6]; rfl, by rw [a7, b7]; rfl⟩

/-! Non-vacuity: `C30.exE` after two steps, a run and another step. -/

example : (after exE [.step, .step, .run, .step, .run]).cur 0 = (after exE [.run]).cur 0 ∧ (after exE [.step, .step]).cur 0 ≠ (after exE [.run]).cur 0 := by
  decide +kernel

end LGD.C44
