import Verif.Sim.SerialModel
import Mathlib.Tactic.SplitIfs
import Mathlib.Tactic.Ring

/-!
# C30: `SerialSimulator` computes synchronous updates and notifies writers and steerers on schedule

Specification: the grid evolves by synchronous updates, steerers act in the order of registration.
-/

namespace LGD.C30
open LGD.Adapter LGD.Serial

variable {κ α : Type} [DecidableEq κ]

/-- What the steerers due at step `t` for event `ev` do to a grid, and whether one of them ends the simulation. `INITIALIZED` and
`ALL_DONE` reach all steerers, regular steps those whose period divides the step. -/
def steered (E : Env κ α) (ev : Event) (t : Nat) (g : κ → α) : (κ → α) × Bool :=
  E.steerers.foldl (fun a s => if ev ≠ .regular ∨ t % s.period = 0 then ((s.nextStep t ev a.1).1, a.2 || (s.nextStep t ev a.1).2) else a) (g, false)

/-- synchronous update of all cells of the simulation area -/
def synchronous (E : Env κ α) (g : κ → α) (i : Nat) : κ → α := fun c => if c ∈ E.area then E.upd i g c else g c

/-- one time step: `NANO_STEPS` synchronous updates -/
def timeStep (E : Env κ α) (g : κ → α) : κ → α := (List.range E.nanoSteps).foldl (synchronous E) g

/-- the serial simulation `k` steps after the start: grid (as writers see it), and whether a steerer has asked to end the simulation -/
def state (E : Env κ α) : Nat → (κ → α) × Bool
  | 0 => steered E .initialized E.startStep E.initial
  | k + 1 =>
    let s := steered E .regular (E.startStep + k) (state E k).1
    (timeStep E s.1, (state E k).2 || s.2)

/-- writers to be called at step `t` -/
def writersAt (E : Env κ α) (ev : Event) (t : Nat) (g : κ → α) : List (WCall κ α) :=
  E.writers.zipIdx.filterMap fun p => if ev ≠ .regular ∨ t % p.1.1 = 0 then some ⟨p.2, t, ev, g⟩ else none

/-- steerers to be called at step `t` -/
def steerersAt (E : Env κ α) (ev : Event) (t : Nat) : List SCall :=
  E.steerers.zipIdx.filterMap fun p => if ev ≠ .regular ∨ t % p.1.period = 0 then some ⟨p.2, t, ev⟩ else none

/-- event of a finished step -/
def finished (E : Env κ α) (t : Nat) : Event := if t = E.maxSteps then .allDone else .regular

/-- the output of a simulation of `m` steps -/
def outputs (E : Env κ α) (m : Nat) : List (WCall κ α) :=
  writersAt E .initialized E.startStep (state E 0).1 ++
    (List.range m).flatMap fun k => writersAt E (finished E (E.startStep + k + 1)) (E.startStep + k + 1) (state E (k + 1)).1

/-- the steerer calls of a simulation of `m` steps -/
def inputs (E : Env κ α) (m : Nat) : List SCall :=
  steerersAt E .initialized E.startStep ++ (List.range m).flatMap (fun k => steerersAt E .regular (E.startStep + k)) ++
    steerersAt E .allDone (E.startStep + m)

/-- steerers do not write outside of the simulation area -/
def Inside (E : Env κ α) : Prop := ∀ s ∈ E.steerers, ∀ t ev g c, c ∉ E.area → (s.nextStep t ev g).1 c = g c

variable {E : Env κ α}

omit [DecidableEq κ] in
theorem handleInput_eq (ev : Event) (st : St κ α) (fb : Bool) :
    handleInput E ev st fb = ({ st with cur := (steered E ev st.step st.cur).1, input := st.input ++ steerersAt E ev st.step },
      fb || (steered E ev st.step st.cur).2) := by
  unfold handleInput steered steerersAt
  have e : ∀ (g : κ → α), E.steerers.foldl (fun a s => if ev ≠ .regular ∨ st.step % s.period = 0 then ((s.nextStep st.step ev a.1).1, a.2 || (s.nextStep st.step ev a.1).2) else a) (g, false)
      = E.steerers.zipIdx.foldl (fun a p => if ev ≠ .regular ∨ st.step % p.1.period = 0 then ((p.1.nextStep st.step ev a.1).1, a.2 || (p.1.nextStep st.step ev a.1).2) else a) (g, false) := by
    intro g
    conv_lhs => rw [← List.zipIdx_map_fst 0 E.steerers]
    rw [List.foldl_map]
  rw [e]
  generalize E.steerers.zipIdx = l
  have key : ∀ (l : List (Steerer κ α × Nat)) (g : κ → α) (inp : List SCall) (fb b : Bool),
      l.foldl (fun (a : St κ α × Bool) p =>
        if ev ≠ .regular ∨ a.1.step % p.1.period = 0 then
          let r := p.1.nextStep a.1.step ev a.1.cur
          ({ a.1 with cur := r.1, input := a.1.input ++ [⟨p.2, a.1.step, ev⟩] }, a.2 || r.2)
        else a) ({ st with cur := g, input := inp }, fb || b) =
      let r := l.foldl (fun a p => if ev ≠ .regular ∨ st.step % p.1.period = 0 then ((p.1.nextStep st.step ev a.1).1, a.2 || (p.1.nextStep st.step ev a.1).2) else a) (g, b)
      ({ st with cur := r.1, input := inp ++ l.filterMap fun p => if ev ≠ .regular ∨ st.step % p.1.period = 0 then some ⟨p.2, st.step, ev⟩ else none },
        fb || r.2) := by
    intro l
    induction l with
    | nil => intro g inp fb b; simp
    | cons p l ih =>
      intro g inp fb b
      simp only [List.foldl_cons, List.filterMap_cons]
      by_cases h : ev ≠ .regular ∨ st.step % p.1.period = 0
      · rw [if_pos h, if_pos h, if_pos h, Bool.or_assoc]
        refine (ih _ _ fb _).trans ?_
        simp
      · rw [if_neg h, if_neg h, if_neg h]
        exact ih _ _ fb b
  have := key l st.cur st.input fb false
  simpa using this

omit [DecidableEq κ] in
theorem steered_outside (h : Inside E) (ev : Event) (t : Nat) (g : κ → α) (c : κ) (hc : c ∉ E.area) : (steered E ev t g).1 c = g c := by
  unfold steered
  have key : ∀ (l : List (Steerer κ α)), (∀ s ∈ l, s ∈ E.steerers) → ∀ (a : (κ → α) × Bool),
      (l.foldl (fun a s => if ev ≠ .regular ∨ t % s.period = 0 then ((s.nextStep t ev a.1).1, a.2 || (s.nextStep t ev a.1).2) else a) a).1 c = a.1 c := by
    intro l
    induction l with
    | nil => intro _ a; rfl
    | cons s l ih =>
      intro hl a
      rw [List.foldl_cons, ih (fun s hs => hl s (List.mem_cons_of_mem _ hs))]
      split
      · exact h s (hl s (List.mem_cons_self ..)) t ev a.1 c hc
      · rfl
  exact key _ (fun _ h => h) _

/-- double buffering: the nano steps compute synchronous updates, whatever the second grid contains in the simulation area -/
theorem nanoSteps_eq (st : St κ α) (h : ∀ c, c ∉ E.area → st.new c = st.cur c) (n : Nat) :
    ∃ new, (List.range n).foldl (fun st i => nanoStep E i st) st = { st with cur := (List.range n).foldl (synchronous E) st.cur, new := new } ∧
      ∀ c, c ∉ E.area → new c = ((List.range n).foldl (synchronous E) st.cur) c := by
  induction n with
  | zero => exact ⟨st.new, rfl, h⟩
  | succ n ih =>
    obtain ⟨new, e1, e2⟩ := ih
    refine ⟨(List.range n).foldl (synchronous E) st.cur, ?_, ?_⟩
    · rw [List.range_succ, List.foldl_append, e1, List.foldl_append]
      simp only [List.foldl_cons, List.foldl_nil]
      unfold nanoStep
      simp only [St.mk.injEq, and_true]
      funext c
      unfold synchronous
      split
      · rfl
      · rename_i hc; exact e2 c hc
    · intro c hc
      rw [List.range_succ, List.foldl_append]
      simp only [List.foldl_cons, List.foldl_nil]
      unfold synchronous
      rw [if_neg hc]

theorem step_eq (hI : Inside E) (st : St κ α) (fb : Bool) (h : ∀ c, c ∉ E.area → st.new c = st.cur c) :
    ∃ new, (∀ c, c ∉ E.area → new c = (timeStep E (steered E .regular st.step st.cur).1) c) ∧
      Serial.step E st fb =
      ({ cur := timeStep E (steered E .regular st.step st.cur).1, new := new, step := st.step + 1
         output := st.output ++ writersAt E (finished E (st.step + 1)) (st.step + 1) (timeStep E (steered E .regular st.step st.cur).1)
         input := st.input ++ steerersAt E .regular st.step }, fb || (steered E .regular st.step st.cur).2) := by
  unfold Serial.step
  rw [handleInput_eq]
  obtain ⟨new, e1, e2⟩ := nanoSteps_eq { st with cur := (steered E .regular st.step st.cur).1, input := st.input ++ steerersAt E .regular st.step }
    (by intro c hc; simp only; rw [steered_outside hI _ _ _ _ hc]; exact h c hc) E.nanoSteps
  refine ⟨new, e2, ?_⟩
  simp only
  rw [e1]
  rfl

/-- the state of the simulator `k` steps after the start of `run` -/
structure At (E : Env κ α) (o : List (WCall κ α)) (i : List SCall) (k : Nat) (st : St κ α) : Prop where
  cur : st.cur = (state E k).1
  new : ∀ c, c ∉ E.area → st.new c = st.cur c
  step : st.step = E.startStep + k
  output : st.output = o ++ outputs E k
  input : st.input = i ++ (steerersAt E .initialized E.startStep ++ (List.range k).flatMap (fun k => steerersAt E .regular (E.startStep + k)))

theorem loop_at (hI : Inside E) (o : List (WCall κ α)) (i : List SCall) (n : Nat) : ∀ (k : Nat) (st : St κ α), At E o i k st →
    E.maxSteps < E.startStep + k + n → E.startStep + k ≤ E.maxSteps ∨ k = 0 →
    ∃ m st', loop E n st (state E k).2 = (st', (state E m).2) ∧ At E o i m st' ∧ k ≤ m ∧ (∀ j, k ≤ j → j < m → (state E j).2 = false) ∧
      (m = k ∧ E.maxSteps ≤ E.startStep + k ∨ E.startStep + m ≤ E.maxSteps ∧ (E.startStep + m = E.maxSteps ∨ (state E m).2 = true)) := by
  induction n with
  | zero =>
    intro k st h hn hk
    exact ⟨k, st, rfl, h, le_refl _, fun j h1 h2 => by omega, Or.inl ⟨rfl, by omega⟩⟩
  | succ n ih =>
    intro k st h hn hk
    rw [loop, h.step]
    by_cases hlt : E.startStep + k < E.maxSteps
    · rw [if_pos hlt]
      cases hfb : (state E k).2 with
      | true => exact ⟨k, st, by rw [hfb]; rfl, h, le_refl _, fun j h1 h2 => by omega, Or.inr ⟨by omega, Or.inr hfb⟩⟩
      | false =>
        simp only [Bool.false_eq_true, if_false]
        obtain ⟨new, e1, e2⟩ := step_eq hI st false h.new
        rw [e2]
        simp only
        have hst : At E o i (k + 1) { cur := timeStep E (steered E .regular st.step st.cur).1, new := new, step := st.step + 1
                                      output := st.output ++ writersAt E (finished E (st.step + 1)) (st.step + 1) (timeStep E (steered E .regular st.step st.cur).1)
                                      input := st.input ++ steerersAt E .regular st.step } := by
          have hc : timeStep E (steered E .regular st.step st.cur).1 = (state E (k + 1)).1 := by rw [h.step, h.cur]; rfl
          refine ⟨hc, e1, by rw [h.step]; rfl, ?_, ?_⟩
          · simp only
            rw [hc, h.output, h.step]
            unfold outputs
            rw [List.range_succ, List.flatMap_append]
            simp
          · simp only
            rw [h.input, h.step, List.range_succ, List.flatMap_append]
            simp
        have hf : (false || (steered E .regular st.step st.cur).2) = (state E (k + 1)).2 := by
          rw [h.step, h.cur]
          change _ = ((state E k).2 || _)
          rw [hfb]
        rw [hf]
        obtain ⟨m, st', a1, a2, a3, a4, a5⟩ := ih (k + 1) _ hst (by omega) (by omega)
        refine ⟨m, st', a1, a2, by omega, ?_, Or.inr ?_⟩
        · intro j h1 h2
          by_cases hj : j = k
          · rw [hj]; exact hfb
          · exact a4 j (by omega) h2
        · rcases a5 with ⟨rfl, h2⟩ | h2
          · exact ⟨by omega, Or.inl (by omega)⟩
          · exact h2
    · rw [if_neg hlt]
      exact ⟨k, st, rfl, h, le_refl _, fun j h1 h2 => by omega, Or.inl ⟨rfl, by omega⟩⟩

/-- **C30, run.** From any state of the simulator (whose second grid agrees with the initializer outside of the area), `run` executes
`m` steps, where `m` is the first number of steps after which a steerer has asked to end the simulation, at most `maxSteps - startStep`.
The final grid, the calls of writers and of steerers are exactly those of the specification. -/
theorem run_serial (hI : Inside E) (st : St κ α) (hnew : ∀ c, c ∉ E.area → st.new c = E.initial c) :
    ∃ m, m ≤ E.maxSteps - E.startStep ∧ (∀ j, j < m → (state E j).2 = false) ∧ (m = E.maxSteps - E.startStep ∨ (state E m).2 = true) ∧
      (run E st).step = E.startStep + m ∧ (run E st).cur = (steered E .allDone (E.startStep + m) (state E m).1).1 ∧
      (run E st).output = st.output ++ outputs E m ∧ (run E st).input = st.input ++ inputs E m := by
  have h0 : At E st.output st.input 0 (handleOutput E .initialized (handleInput E .initialized { st with cur := E.initial, step := E.startStep } false).1) := by
    rw [handleInput_eq]
    refine ⟨rfl, ?_, rfl, ?_, ?_⟩
    · intro c hc
      change st.new c = (steered E .initialized E.startStep E.initial).1 c
      rw [steered_outside hI _ _ _ _ hc, hnew c hc]
    · change st.output ++ writersAt E .initialized E.startStep (steered E .initialized E.startStep E.initial).1 = _
      simp [outputs, state]
    · change st.input ++ steerersAt E .initialized E.startStep = _
      simp
  obtain ⟨m, st', a1, a2, _, a4, a5⟩ := loop_at hI st.output st.input (E.maxSteps + 1) 0 _ h0 (by omega) (Or.inr rfl)
  have hfb : (handleInput E .initialized { st with cur := E.initial, step := E.startStep } false).2 = (state E 0).2 := by
    rw [handleInput_eq]; simp [state]
  have hrun : run E st = (handleInput E .allDone st' (state E m).2).1 := by
    unfold run
    simp only
    rw [hfb, a1]
  rw [handleInput_eq, a2.step, a2.cur] at hrun
  refine ⟨m, by omega, fun j hj => a4 j (by omega) hj, ?_, ?_⟩
  · rcases a5 with ⟨h1, h2⟩ | ⟨h1, h2 | h2⟩
    · exact Or.inl (by omega)
    · exact Or.inl (by omega)
    · exact Or.inr h2
  · rw [hrun]
    refine ⟨rfl, rfl, a2.output, ?_⟩
    simp only
    rw [a2.input]
    unfold inputs
    simp [List.append_assoc]

/-- **C30, steps.** `k` calls of `step()` after construction: as many synchronous time steps, each preceded by the due steerers. -/
def stepwise (E : Env κ α) : Nat → κ → α
  | 0 => E.initial
  | k + 1 => timeStep E (steered E .regular (E.startStep + k) (stepwise E k)).1

/-- `k` calls of `step()` -/
def steps (E : Env κ α) : Nat → St κ α
  | 0 => make E
  | k + 1 => (Serial.step E (steps E k) false).1

theorem step_serial (hI : Inside E) (k : Nat) :
    (steps E k).cur = stepwise E k ∧ (steps E k).step = E.startStep + k ∧ (∀ c, c ∉ E.area → (steps E k).new c = E.initial c) ∧
      (steps E k).output = (List.range k).flatMap (fun k => writersAt E (finished E (E.startStep + k + 1)) (E.startStep + k + 1) (stepwise E (k + 1))) ∧
      (steps E k).input = (List.range k).flatMap (fun k => steerersAt E .regular (E.startStep + k)) := by
  have hout : ∀ k c, c ∉ E.area → stepwise E k c = E.initial c := by
    intro k
    induction k with
    | zero => intro c _; rfl
    | succ k ih =>
      intro c hc
      rw [stepwise, timeStep]
      have : ∀ n (g : κ → α), ((List.range n).foldl (synchronous E) g) c = g c := by
        intro n
        induction n with
        | zero => intro g; rfl
        | succ n ihn =>
          intro g
          rw [List.range_succ, List.foldl_append]
          simp only [List.foldl_cons, List.foldl_nil]
          rw [synchronous, if_neg hc, ihn]
      rw [this, steered_outside hI _ _ _ _ hc, ih c hc]
  induction k with
  | zero => exact ⟨rfl, rfl, fun _ _ => rfl, rfl, rfl⟩
  | succ k ih =>
    obtain ⟨h1, h2, h3, h4, h5⟩ := ih
    obtain ⟨new, e1, e2⟩ := step_eq hI (steps E k) false (fun c hc => by rw [h3 c hc, h1, hout k c hc])
    rw [steps, e2]
    simp only
    have hc : timeStep E (steered E .regular (steps E k).step (steps E k).cur).1 = stepwise E (k + 1) := by rw [h1, h2]; rfl
    refine ⟨hc, by rw [h2]; rfl, ?_, ?_, ?_⟩
    · intro c hcc
      rw [e1 c hcc, hc, hout _ c hcc]
    · rw [hc, h4, h2, List.range_succ, List.flatMap_append]; simp
    · rw [h5, h2, List.range_succ, List.flatMap_append]; simp

/-- `run` after any number of calls of `step()` does the same as on a fresh simulator. -/
theorem run_after_steps (hI : Inside E) (k : Nat) : (run E (steps E k)).cur = (run E (make E)).cur := by
  obtain ⟨m, a1, a2, a3, _, a5, _⟩ := run_serial hI (steps E k) (step_serial hI k).2.2.1
  obtain ⟨m', b1, b2, b3, _, b5, _⟩ := run_serial hI (make E) (fun _ _ => rfl)
  have : m = m' := by
    rcases Nat.lt_trichotomy m m' with h | h | h
    · have := b2 m h
      rcases a3 with a3 | a3
      · omega
      · rw [this] at a3; cases a3
    · exact h
    · have := a2 m' h
      rcases b3 with b3 | b3
      · omega
      · rw [this] at b3; cases b3
  rw [a5, b5, this]

/-- **C30, violated at the end.** If a steerer ends the simulation before `maxSteps`, or if there is nothing to simulate, no writer ever
learns that the simulation is done. -/
theorem no_allDone (hI : Inside E) (st : St κ α) (hnew : ∀ c, c ∉ E.area → st.new c = E.initial c) (ho : st.output = [])
    (h : E.maxSteps ≤ E.startStep ∨ ∃ k, k < E.maxSteps - E.startStep ∧ (state E k).2 = true) :
    ∀ w ∈ (run E st).output, w.event ≠ .allDone := by
  obtain ⟨m, a1, a2, a3, _, _, a6, _⟩ := run_serial hI st hnew
  have hm : ∀ k, k < m → E.startStep + k + 1 ≠ E.maxSteps := by
    intro k hk
    rcases h with h | ⟨j, hj, hs⟩
    · omega
    · have : m ≤ j := by
        by_contra hh
        rw [a2 j (by omega)] at hs; cases hs
      omega
  intro w hw
  rw [a6, ho, List.nil_append] at hw
  unfold outputs at hw
  rcases List.mem_append.mp hw with hw | hw
  · unfold writersAt at hw
    obtain ⟨p, _, hp⟩ := List.mem_filterMap.mp hw
    simp at hp
    rw [← hp]; simp
  · obtain ⟨k, hk, hw⟩ := List.mem_flatMap.mp hw
    unfold writersAt finished at hw
    obtain ⟨p, _, hp⟩ := List.mem_filterMap.mp hw
    rw [if_neg (hm k (List.mem_range.mp hk))] at hp
    split at hp
    · obtain rfl := Option.some.inj hp
      simp
    · cases hp

/-! Non-vacuity: two cells which exchange their values and count; a steerer adds 10 to cell 0 every second step; two writers. -/

/-- the example -/
def exE : Env Nat Nat where
  nanoSteps := 2
  startStep := 1
  maxSteps := 5
  area := [0, 1]
  initial c := c
  upd i g c := g (1 - c) + i
  steerers := [⟨2, by decide, fun t _ g => (fun c => if c = 0 then g 0 + 10 else g c, t = 8)⟩]
  writers := [⟨1, by decide⟩, ⟨3, by decide⟩]

example : Inside exE := by
  intro s hs t ev g c hc
  obtain rfl := List.mem_singleton.mp hs
  have : c ≠ 0 := by rintro rfl; simp [exE] at hc
  simp [this]

example : (run exE (make exE)).output.map (fun w => (w.writer, w.step, w.event, w.grid 0, w.grid 1)) =
    [(0, 1, .initialized, 10, 1), (1, 1, .initialized, 10, 1), (0, 2, .regular, 11, 2), (0, 3, .regular, 22, 3), (1, 3, .regular, 22, 3),
     (0, 4, .regular, 23, 4), (0, 5, .allDone, 34, 5), (1, 5, .allDone, 34, 5)] ∧
    (run exE (make exE)).input = [⟨0, 1, .initialized⟩, ⟨0, 2, .regular⟩, ⟨0, 4, .regular⟩, ⟨0, 5, .allDone⟩] := by
  decide +kernel

end LGD.C30
