import Verif.Chrono.ChronoModel

/-!
# C68: chronometers account for time where it was spent

`trace` is what happened: which pieces of work were executed, how long they took, and which timers were open meanwhile.
-/

namespace LGD.C68
open LGD.Chrono

/-- an event and its ancestors -/
def family : Event → List Nat
  | .basic => []
  | .derived id p => id :: family p

variable (δ : Nat → ℚ × Bool)

/-- the pieces of work executed by a program if the timers `o` are open at its beginning: open timers and duration each; then the number of work items used so far, and whether an exception
was thrown -/
def trace : Prog → List Event → Nat → List (List Event × ℚ) × Nat × Bool
  | .skip, _, k => ([], k, false)
  | .work, o, k => ([(o, (δ k).1)], k + 1, (δ k).2)
  | .seq a b, o, k =>
    let ra := trace a o k
    if ra.2.2 then ra else
      let rb := trace b o ra.2.1
      (ra.1 ++ rb.1, rb.2)
  | .scope e body, o, k => trace body (e :: o) k

/-- number of open timers which count for `i` -/
def depth (i : Nat) (o : List Event) : Nat := (o.map fun e => (family e).count i).sum

/-- the time `i` should be charged for -/
def charge (i : Nat) (t : List (List Event × ℚ)) : ℚ := (t.map fun x => x.2 * (depth i x.1 : ℚ)).sum

/-- how long all of it took -/
def elapsed (t : List (List Event × ℚ)) : ℚ := (t.map fun x => x.2).sum

/-! ## Accounting -/

theorem destroy_eq (e : Event) (t : ℚ) (c : Totals) (i : Nat) : destroy e t c i = c i + t * ((family e).count i : ℕ) := by
  induction e generalizing c with
  | basic => simp [destroy, family]
  | derived id p ih =>
    rw [destroy, ih, family, List.count_cons]
    by_cases h : i = id
    · subst h
      simp
      ring
    · have : (id == i) = false := by simpa using fun h' => h h'.symm
      simp [h, this]

theorem elapsed_append (a b : List (List Event × ℚ)) : elapsed (a ++ b) = elapsed a + elapsed b := by simp [elapsed]

theorem charge_append (i : Nat) (a b : List (List Event × ℚ)) : charge i (a ++ b) = charge i a + charge i b := by simp [charge]

/-- opening one more timer around everything -/
theorem trace_open (p : Prog) : ∀ (o : List Event) (k : Nat), ∃ l, trace δ p o k = (l.map fun x => (x.1 ++ o, x.2), (trace δ p [] k).2) ∧ (trace δ p [] k).1 = l := by
  induction p with
  | skip => intro o k; exact ⟨[], rfl, rfl⟩
  | work => intro o k; exact ⟨[([], (δ k).1)], rfl, rfl⟩
  | seq a b iha ihb =>
    intro o k
    obtain ⟨la, ha1, ha2⟩ := iha o k
    obtain ⟨lb, hb1, hb2⟩ := ihb o (trace δ a [] k).2.1
    simp only [trace]
    rw [ha1]
    by_cases h : (trace δ a [] k).2.2
    · simp only [h, if_true]
      exact ⟨la, rfl, ha2⟩
    · simp only [h, Bool.false_eq_true, if_false, hb1]
      exact ⟨la ++ lb, by simp, by simp [ha2, hb2]⟩
  | scope e body ih =>
    intro o k
    obtain ⟨l, h1, h2⟩ := ih (e :: o) k
    obtain ⟨l', h1', h2'⟩ := ih [e] k
    rw [h2] at h2'
    subst h2'
    refine ⟨l.map fun x => (x.1 ++ [e], x.2), ?_, ?_⟩
    · simp only [trace]
      rw [h1, h1']
      simp
    · simp only [trace]
      rw [h1']

theorem depth_append (i : Nat) (a b : List Event) : depth i (a ++ b) = depth i a + depth i b := by simp [depth]

theorem charge_open (i : Nat) (l : List (List Event × ℚ)) (o : List Event) : charge i (l.map fun x => (x.1 ++ o, x.2)) = charge i l + elapsed l * depth i o := by
  induction l with
  | nil => simp [charge, elapsed]
  | cons x l ih =>
    simp only [charge, elapsed, List.map_cons, List.sum_cons] at ih ⊢
    rw [ih, depth_append]
    push_cast
    ring

theorem elapsed_open (l : List (List Event × ℚ)) (o : List Event) : elapsed (l.map fun x => (x.1 ++ o, x.2)) = elapsed l := by simp [elapsed, Function.comp_def]

/-- **C68, accounting.** Whatever a program does, each total grows by the time spent while timers of the event or of its descendants were open – once for each of these timers. That holds for work
ended by an exception, too. -/
theorem accounts (p : Prog) : ∀ s : St, (exec δ p s).2 = (trace δ p [] s.tick).2.2 ∧ (exec δ p s).1.tick = (trace δ p [] s.tick).2.1 ∧
    (exec δ p s).1.now = s.now + elapsed (trace δ p [] s.tick).1 ∧ ∀ i, (exec δ p s).1.tot i = s.tot i + charge i (trace δ p [] s.tick).1 := by
  induction p with
  | skip => intro s; simp [exec, trace, elapsed, charge]
  | work => intro s; simp [exec, trace, elapsed, charge, depth]
  | seq a b iha ihb =>
    intro s
    obtain ⟨a1, a2, a3, a4⟩ := iha s
    simp only [exec, trace]
    by_cases h : (trace δ a [] s.tick).2.2
    · simp only [a1, h, if_true]
      exact ⟨trivial, a2, a3, a4⟩
    · simp only [a1, h, Bool.false_eq_true, if_false]
      obtain ⟨b1, b2, b3, b4⟩ := ihb (exec δ a s).1
      rw [a2] at b1 b2 b3 b4
      refine ⟨b1, b2, ?_, fun i => ?_⟩
      · rw [b3, a3, elapsed_append]; ring
      · rw [b4, a4, charge_append]; ring
  | scope e body ih =>
    intro s
    obtain ⟨b1, b2, b3, b4⟩ := ih s
    obtain ⟨l, h1, h2⟩ := trace_open δ body [e] s.tick
    simp only [exec, trace]
    rw [h1]
    refine ⟨b1, b2, ?_, fun i => ?_⟩
    · rw [elapsed_open, b3, h2]
    · rw [destroy_eq, b4, b3, charge_open, h2]
      simp [depth]
      ring

/-- the amount by which a total grows -/
def gain (p : Prog) (s : St) (i : Nat) : ℚ := (exec δ p s).1.tot i - s.tot i

theorem gain_eq (p : Prog) (s : St) (i : Nat) : gain δ p s i = charge i (trace δ p [] s.tick).1 := by
  unfold gain
  rw [(accounts δ p s).2.2.2 i]
  ring

/-! ## Bounds -/

/-- all work of `p` happens with timers open for which `Q` holds -/
def Always (Q : List Event → Prop) : Prog → List Event → Prop
  | .skip, _ => True
  | .work, o => Q o
  | .seq a b, o => Always Q a o ∧ Always Q b o
  | .scope e body, o => Always Q body (e :: o)

instance decAlways (Q : List Event → Prop) [DecidablePred Q] : ∀ (p : Prog) (o : List Event), Decidable (Always Q p o)
  | .skip, _ => isTrue trivial
  | .work, o => inferInstanceAs (Decidable (Q o))
  | .seq a b, o => @instDecidableAnd _ _ (decAlways Q a o) (decAlways Q b o)
  | .scope e body, o => decAlways Q body (e :: o)

theorem always_rep {Q : List Event → Prop} {p : Prog} {o : List Event} (h : Always Q p o) : ∀ k, Always Q (rep k p) o
  | 0 => trivial
  | k + 1 => ⟨h, always_rep h k⟩

variable {δ}

theorem always_trace {Q : List Event → Prop} (p : Prog) : ∀ {o : List Event} (k : Nat), Always Q p o → ∀ x ∈ (trace δ p o k).1, Q x.1 := by
  induction p with
  | skip => intro o k _ x hx; simp [trace] at hx
  | work => intro o k h x hx; simp only [trace, List.mem_singleton] at hx; rw [hx]; exact h
  | seq a b iha ihb =>
    intro o k h x hx
    simp only [trace] at hx
    split at hx
    · exact iha k h.1 x hx
    · rcases List.mem_append.1 hx with hx | hx
      · exact iha k h.1 x hx
      · exact ihb _ h.2 x hx
  | scope e body ih => intro o k h x hx; exact ih (o := e :: o) k h x hx

theorem dur_nonneg (hδ : ∀ k, 0 ≤ (δ k).1) (p : Prog) : ∀ (o : List Event) (k : Nat), ∀ x ∈ (trace δ p o k).1, 0 ≤ x.2 := by
  induction p with
  | skip => intro o k x hx; simp [trace] at hx
  | work => intro o k x hx; simp only [trace, List.mem_singleton] at hx; rw [hx]; exact hδ k
  | seq a b iha ihb =>
    intro o k x hx
    simp only [trace] at hx
    split at hx
    · exact iha o k x hx
    · rcases List.mem_append.1 hx with hx | hx
      · exact iha o k x hx
      · exact ihb o _ x hx
  | scope e body ih => intro o k x hx; exact ih (e :: o) k x hx

/-- linear inequalities between the numbers of open timers carry over to the totals -/
theorem charge_le (A : List Nat) (j : Nat) (t : List (List Event × ℚ)) (h0 : ∀ x ∈ t, 0 ≤ x.2) (hA : ∀ x ∈ t, (A.map fun i => depth i x.1).sum ≤ depth j x.1) :
    (A.map fun i => charge i t).sum ≤ charge j t := by
  induction t with
  | nil => simp [charge]
  | cons x t ih =>
    have h1 := ih (fun y hy => h0 y (by simp [hy])) (fun y hy => hA y (by simp [hy]))
    have h2 := hA x (by simp)
    have h3 := h0 x (by simp)
    have hs : ∀ A : List Nat, (A.map fun i => charge i (x :: t)).sum = x.2 * ((A.map fun i => depth i x.1).sum : ℕ) + (A.map fun i => charge i t).sum := by
      intro A
      induction A with
      | nil => simp
      | cons a A ih =>
        rw [List.map_cons, List.sum_cons, ih, List.map_cons, List.sum_cons, List.map_cons, List.sum_cons]
        simp only [charge, List.map_cons, List.sum_cons]
        push_cast
        ring
    rw [hs]
    have hj : charge j (x :: t) = x.2 * depth j x.1 + charge j t := by simp [charge]
    rw [hj]
    have : x.2 * ((A.map fun i => depth i x.1).sum : ℕ) ≤ x.2 * (depth j x.1 : ℕ) := mul_le_mul_of_nonneg_left (by exact_mod_cast h2) h3
    linarith

theorem gain_le {A : List Nat} {j : Nat} {p : Prog} (hδ : ∀ k, 0 ≤ (δ k).1) (h : Always (fun o => (A.map fun i => depth i o).sum ≤ depth j o) p []) (s : St) :
    (A.map fun i => gain δ p s i).sum ≤ gain δ p s j := by
  simp only [gain_eq]
  exact charge_le A j _ (dur_nonneg hδ p [] _) (always_trace p _ h)

theorem sum_nonneg {l : List ℚ} (h : ∀ x ∈ l, 0 ≤ x) : 0 ≤ l.sum := by
  induction l with
  | nil => simp
  | cons a l ih =>
    rw [List.sum_cons]
    have := h a (by simp)
    have := ih fun x hx => h x (by simp [hx])
    linarith

theorem gain_nonneg (hδ : ∀ k, 0 ≤ (δ k).1) (p : Prog) (s : St) (i : Nat) : 0 ≤ gain δ p s i := by
  rw [gain_eq]
  unfold charge
  apply sum_nonneg
  intro y hy
  obtain ⟨x, hx, rfl⟩ := List.mem_map.1 hy
  exact mul_nonneg (dur_nonneg hδ p [] _ x hx) (by positivity)

theorem gain_le_elapsed (hδ : ∀ k, 0 ≤ (δ k).1) {i : Nat} {p : Prog} (h : Always (fun o => depth i o ≤ 1) p []) (s : St) : gain δ p s i ≤ (exec δ p s).1.now - s.now := by
  rw [gain_eq, (accounts δ p s).2.2.1, add_sub_cancel_left]
  have h0 := dur_nonneg hδ p [] s.tick
  have h1 := always_trace (δ := δ) p s.tick h
  generalize (trace δ p [] s.tick).1 = t at h0 h1
  induction t with
  | nil => simp [charge, elapsed]
  | cons x t ih =>
    have := ih (fun y hy => h0 y (by simp [hy])) (fun y hy => h1 y (by simp [hy]))
    simp only [charge, elapsed, List.map_cons, List.sum_cons] at this ⊢
    have h2 : (depth i x.1 : ℚ) ≤ 1 := by exact_mod_cast h1 x (by simp)
    have := mul_le_of_le_one_right (h0 x (by simp)) h2
    linarith

/-- the events of the library -/
def Library (e : Event) : Prop :=
  e ∈ [timeTotal, timeCompute, timeComputeInner, timeComputeGhost, timePatchAccepters, timePatchProviders, timeCommunication, timeInput, timeOutput]

/-- all timers of `p` are for events of the library -/
def UsesLibrary : Prog → Prop
  | .skip => True
  | .work => True
  | .seq a b => UsesLibrary a ∧ UsesLibrary b
  | .scope e body => Library e ∧ UsesLibrary body

/-- **C68, hierarchy.** Whatever a program does with the events of the library, the time for computation grows at least as much as the ones for the inner set and the ghost zones together. -/
theorem compute_covers_parts (hδ : ∀ k, 0 ≤ (δ k).1) {p : Prog} (hp : UsesLibrary p) (s : St) : gain δ p s 2 + gain δ p s 3 ≤ gain δ p s 1 := by
  have key : ∀ (p : Prog) (o : List Event), UsesLibrary p → (∀ e ∈ o, Library e) → Always (fun o => (([2, 3] : List Nat).map fun i => depth i o).sum ≤ depth 1 o) p o := by
    intro p
    induction p with
    | skip => intros; trivial
    | work =>
      intro o _ ho
      change _ ≤ _
      induction o with
      | nil => simp [depth]
      | cons e o ih =>
        have h1 := ih fun e' he' => ho e' (by simp [he'])
        have h2 : (family e).count 2 + (family e).count 3 ≤ (family e).count 1 := by
          have h := ho e (by simp)
          simp only [Library, List.mem_cons, List.not_mem_nil, or_false] at h
          rcases h with rfl | rfl | rfl | rfl | rfl | rfl | rfl | rfl | rfl <;> decide
        simp only [List.map_cons, List.map_nil, List.sum_cons, List.sum_nil, depth] at h1 ⊢
        omega
    | seq a b iha ihb => intro o hp ho; exact ⟨iha o hp.1 ho, ihb o hp.2 ho⟩
    | scope e body ih =>
      intro o hp ho
      refine ih (e :: o) hp.2 fun e' he' => ?_
      rcases List.mem_cons.1 he' with rfl | he'
      · exact hp.1
      · exact ho e' he'
  have := gain_le hδ (key p [] hp (by simp)) s
  simpa using this

/-! ## Simulators -/

/-- **C68, serial.** In each step of the `SerialSimulator`, input, computation, and output are parts of the total, and nothing is counted twice. -/
theorem serial_step (hδ : ∀ k, 0 ≤ (δ k).1) (nanoSteps : Nat) (s : St) :
    gain δ (serialStep nanoSteps) s 7 + gain δ (serialStep nanoSteps) s 1 + gain δ (serialStep nanoSteps) s 8 ≤ gain δ (serialStep nanoSteps) s 0 ∧
      gain δ (serialStep nanoSteps) s 0 = (exec δ (serialStep nanoSteps) s).1.now - s.now := by
  constructor
  · have h : Always (fun o => (([7, 1, 8] : List Nat).map fun i => depth i o).sum ≤ depth 0 o) (serialStep nanoSteps) [] := by
      exact ⟨by decide, by decide, always_rep (p := .seq .work serialNanoStep) (by decide) _, by decide, by decide, by decide⟩
    have := gain_le hδ h s
    simp only [List.map_cons, List.map_nil, List.sum_cons, List.sum_nil] at this
    linarith
  · apply le_antisymm
    · refine gain_le_elapsed hδ ?_ s
      exact ⟨by decide, by decide, always_rep (p := .seq .work serialNanoStep) (by decide) _, by decide, by decide, by decide⟩
    · rw [gain_eq, (accounts δ _ s).2.2.1, add_sub_cancel_left]
      obtain ⟨l, h1, h2⟩ := trace_open δ (match serialStep nanoSteps with | .scope _ b => b | p => p) [timeTotal] s.tick
      have e : trace δ (serialStep nanoSteps) [] s.tick = trace δ (match serialStep nanoSteps with | .scope _ b => b | p => p) [timeTotal] s.tick := rfl
      rw [e, h1, charge_open, elapsed_open]
      have hd : depth 0 [timeTotal] = 1 := by decide
      rw [hd]
      have : 0 ≤ charge 0 l := by
        unfold charge
        apply sum_nonneg
        intro y hy
        obtain ⟨x, hx, rfl⟩ := List.mem_map.1 hy
        exact mul_nonneg (dur_nonneg hδ _ [] s.tick x (by rw [h2]; exact hx)) (by positivity)
      simp
      exact this

/-- Over a whole run, computation is a part of the total. -/
theorem serial_run (hδ : ∀ k, 0 ≤ (δ k).1) (nanoSteps steps : Nat) (s : St) : gain δ (serialRun nanoSteps steps) s 1 ≤ gain δ (serialRun nanoSteps steps) s 0 := by
  have h : Always (fun o => (([1] : List Nat).map fun i => depth i o).sum ≤ depth 0 o) (serialRun nanoSteps steps) [] := by
    refine ⟨by decide, by decide, by decide, always_rep (p := .seq .work (serialStep nanoSteps)) ⟨by decide, ?_⟩ _, by decide⟩
    exact ⟨by decide, by decide, always_rep (p := .seq .work serialNanoStep) (by decide) _, by decide, by decide, by decide⟩
  simpa using gain_le hδ h s

/-- **C68, striping.** In each step of the `StripingSimulator`, computation and communication are parts of the total; computation consists of the inner part and the ghost zones. -/
theorem striping_step (hδ : ∀ k, 0 ≤ (δ k).1) (nanoSteps : Nat) (s : St) :
    gain δ (stripingStep nanoSteps) s 1 + gain δ (stripingStep nanoSteps) s 6 ≤ gain δ (stripingStep nanoSteps) s 0 ∧
      gain δ (stripingStep nanoSteps) s 1 = gain δ (stripingStep nanoSteps) s 2 + gain δ (stripingStep nanoSteps) s 3 := by
  have ha : ∀ {Q : List Event → Prop}, Q [] → Q [timeTotal] → Q [timeCommunication, timeTotal] → Q [timeComputeGhost, timeTotal] → Q [timeComputeInner, timeTotal] →
      Always Q (stripingStep nanoSteps) [] := by
    intro Q h0 h1 h2 h3 h4
    exact ⟨h0, always_rep (p := stripingNanoStep) ⟨h1, h2, h2, h3, h2, h4, h1⟩ _, h0⟩
  refine ⟨?_, le_antisymm ?_ ?_⟩
  · have := gain_le (A := [1, 6]) (j := 0) hδ (ha (by decide) (by decide) (by decide) (by decide) (by decide)) s
    simpa using this
  · -- each unit of time charged to 1 is charged to 2 or 3
    rw [gain_eq, gain_eq, gain_eq]
    have h := always_trace (δ := δ) (stripingStep nanoSteps) s.tick (ha (Q := fun o => depth 1 o = depth 2 o + depth 3 o) (by decide) (by decide) (by decide) (by decide) (by decide))
    generalize (trace δ (stripingStep nanoSteps) [] s.tick).1 = t at h
    induction t with
    | nil => simp [charge]
    | cons x t ih =>
      have h1 := ih fun y hy => h y (by simp [hy])
      have h2 : (depth 1 x.1 : ℚ) = depth 2 x.1 + depth 3 x.1 := by exact_mod_cast h x (by simp)
      simp only [charge, List.map_cons, List.sum_cons] at h1 ⊢
      rw [h2]
      linarith
  · have := gain_le (A := [2, 3]) (j := 1) hδ (ha (by decide) (by decide) (by decide) (by decide) (by decide)) s
    simpa using this

theorem ratio_bounds {c : Totals} {i j : Nat} (h0 : 0 ≤ c i) (h1 : c i ≤ c j) : 0 ≤ ratio i j c ∧ ratio i j c ≤ 1 := by
  unfold ratio
  split
  · constructor <;> norm_num
  · rename_i h
    have hj : 0 < c j := lt_of_le_of_ne (le_trans h0 h1) (Ne.symm h)
    exact ⟨div_nonneg h0 hj.le, by rw [div_le_iff₀ hj]; linarith⟩

/-- **C68, loads.** All loads which a rank of the `StripingSimulator` reports to its balancer are between 0 and 1. -/
theorem striping_loads (hδ : ∀ k, 0 ≤ (δ k).1) (nanoSteps period : Nat) : ∀ (k step : Nat) (s : St), 0 ≤ s.tot 1 → s.tot 1 ≤ s.tot 0 →
    ∀ l ∈ stripingRun δ nanoSteps period k step s, 0 ≤ l ∧ l ≤ 1
  | 0, _, _, _, _ => by simp [stripingRun]
  | k + 1, step, s, h0, h1 => by
    intro l hl
    simp only [stripingRun] at hl
    have hb : 0 ≤ (stripingBalance period step s.tot).2 1 ∧ (stripingBalance period step s.tot).2 1 ≤ (stripingBalance period step s.tot).2 0 := by
      unfold stripingBalance
      split
      · exact ⟨h0, h1⟩
      · constructor <;> simp [reset, numIntervals, eventCounter]
    rcases List.mem_append.1 hl with hl | hl
    · unfold stripingBalance at hl
      split at hl
      · simp at hl
      · simp only [Option.toList_some, List.mem_singleton] at hl
        rw [hl]
        exact ratio_bounds h0 h1
    · split at hl
      · simp at hl
      · obtain ⟨g1, _⟩ := striping_step hδ nanoSteps { s with tot := (stripingBalance period step s.tot).2 }
        have g0 := gain_nonneg hδ (stripingStep nanoSteps) { s with tot := (stripingBalance period step s.tot).2 } 1
        have g6 := gain_nonneg hδ (stripingStep nanoSteps) { s with tot := (stripingBalance period step s.tot).2 } 6
        refine striping_loads hδ nanoSteps period k (step + 1) _ ?_ ?_ l hl
        · unfold gain at g0
          simp only at g0
          linarith [hb.1]
        · unfold gain at g1 g6
          simp only at g1 g6
          linarith [hb.2]

/-- **C68, steppers.** While a `VanillaStepper` updates, computation and the notification of patch accepters and providers are parts of the total. -/
theorem vanilla_updates (hδ : ∀ k, 0 ≤ (δ k).1) (width : Nat) (gs : List Bool) (s : St) :
    gain δ (vanillaUpdates width gs) s 1 + gain δ (vanillaUpdates width gs) s 4 + gain δ (vanillaUpdates width gs) s 5 ≤ gain δ (vanillaUpdates width gs) s 0 := by
  have h : ∀ gs, Always (fun o => (([1, 4, 5] : List Nat).map fun i => depth i o).sum ≤ depth 0 o) (vanillaUpdates width gs) [] := by
    intro gs
    induction gs with
    | nil => trivial
    | cons g gs ih =>
      refine ⟨?_, ?_, ih⟩
      · refine ⟨?_, ?_, ?_, ?_, ?_, ?_⟩
        · exact (by decide)
        · exact (by decide)
        · exact (by decide)
        · cases g
          · trivial
          · exact ⟨by decide, by decide, always_rep (p := .seq notifyProviders (.seq notifyProviders (.seq (.scope timeComputeGhost .work) notifyAccepters))) (by decide) _,
              by decide⟩
        · exact (by decide)
        · exact (by decide)
      · exact (by decide)
  have := gain_le hδ (h gs) s
  simp only [List.map_cons, List.map_nil, List.sum_cons, List.sum_nil] at this
  linarith

/-- **Violation**: the constructor of the stepper computes ghost zones, too. This isn't covered by the total, so that computation can exceed it. -/
theorem vanilla_startup : ∃ δ : Nat → ℚ × Bool, (∀ k, 0 ≤ (δ k).1) ∧ ∀ now c, gain δ (Prog.seq (vanillaInit 1) (vanillaUpdates 1 [true])) ⟨now, 0, c⟩ 0 <
    gain δ (Prog.seq (vanillaInit 1) (vanillaUpdates 1 [true])) ⟨now, 0, c⟩ 1 := by
  refine ⟨fun k => (if k = 4 then 100 else 1, false), fun k => by dsimp only; split <;> norm_num, fun now c => ?_⟩
  rw [gain_eq, gain_eq]
  dsimp only
  decide +kernel

/-- **Violation**: the first output and the first input of a run happen outside of the total. -/
theorem serial_startup : ∃ δ : Nat → ℚ × Bool, (∀ k, 0 ≤ (δ k).1) ∧ ∀ now c, gain δ (serialRun 1 1) ⟨now, 0, c⟩ 0 < gain δ (serialRun 1 1) ⟨now, 0, c⟩ 8 := by
  refine ⟨fun k => (if k = 2 then 100 else 1, false), fun k => by dsimp only; split <;> norm_num, fun now c => ?_⟩
  rw [gain_eq, gain_eq]
  dsimp only
  decide +kernel

/-- **Violation**: a `CUDAStepper` doesn't measure the total at all: it computes, but its total remains as it is. -/
theorem cuda_without_total (width : Nat) (ghost : Bool) (s : St) : gain δ (cudaUpdate width ghost) s 0 = 0 ∧
    ((δ (s.tick + 1)).2 = false → (δ s.tick).2 = false → (∀ k, 0 ≤ (δ k).1) → (δ (s.tick + 1)).1 ≤ gain δ (cudaUpdate width ghost) s 1) := by
  constructor
  · have h : Always (fun o => depth 0 o = 0) (cudaUpdate width ghost) [] := by
      refine ⟨by decide, by decide, by decide, ?_, by decide⟩
      cases ghost
      · trivial
      · exact ⟨by decide, by decide, always_rep (p := .seq notifyProviders (.seq notifyProviders (.seq (.scope timeComputeGhost .work) notifyAccepters))) (by decide) _, by decide⟩
    have h' := always_trace (δ := δ) _ s.tick h
    rw [gain_eq]
    generalize (trace δ (cudaUpdate width ghost) [] s.tick).1 = t at h'
    induction t with
    | nil => simp [charge]
    | cons x t ih =>
      have h1 := ih fun y hy => h' y (by simp [hy])
      have h2 : depth 0 x.1 = 0 := h' x (by simp)
      simp only [charge, List.map_cons, List.sum_cons, h2] at h1 ⊢
      push_cast
      linarith
  · intro h1 h0 hδ
    rw [gain_eq]
    obtain ⟨r, hr⟩ : ∃ r, cudaUpdate width ghost = .seq .work (.seq (.scope timeComputeInner .work) r) := ⟨_, rfl⟩
    rw [hr]
    simp only [trace, h0, h1, Bool.false_eq_true, if_false]
    have hn := dur_nonneg hδ r [] (s.tick + 1 + 1)
    rw [charge_append, charge_append]
    have hc : 0 ≤ charge 1 (trace δ r [] (s.tick + 1 + 1)).1 := by
      unfold charge
      apply sum_nonneg
      intro y hy
      obtain ⟨x, hx, rfl⟩ := List.mem_map.1 hy
      exact mul_nonneg (hn x hx) (by positivity)
    have e1 : charge 1 [([timeComputeInner], (δ (s.tick + 1)).1)] = (δ (s.tick + 1)).1 := by
      simp only [charge, List.map_cons, List.map_nil, List.sum_cons, List.sum_nil]
      rw [show depth 1 [timeComputeInner] = 1 by decide]
      push_cast
      ring
    have e0 : charge 1 [([], (δ s.tick).1)] = 0 := by simp [charge, depth]
    rw [e0, e1]
    linarith

/-- **Violation**: a timer for a part within a timer for its whole counts twice. -/
theorem nested_counts_twice (s : St) : gain δ (.scope timeCompute (.scope timeComputeInner .work)) s 1 = 2 * (δ s.tick).1 ∧
    (exec δ (.scope timeCompute (.scope timeComputeInner .work)) s).1.now - s.now = (δ s.tick).1 := by
  constructor
  · rw [gain_eq]
    simp only [trace, charge, List.map_cons, List.map_nil, List.sum_cons, List.sum_nil]
    rw [show depth 1 [timeComputeInner, timeCompute] = 2 by decide]
    push_cast
    ring
  · simp [exec]

/-! ## Chronometers -/

/-- There are nine intervals, all events of the library are within bounds, and `report` names all of them, without duplicates. -/
theorem intervals : numIntervals = 9 ∧ (∀ e, Library e → ∀ i ∈ family e, i < numIntervals) ∧
    ∀ c, ∃ l, report c = some l ∧ l.map (·.2) = (List.range 9).map c ∧ (l.map (·.1)).Nodup ∧ "unknown event" ∉ l.map (·.1) := by
  refine ⟨by decide, ?_, ?_⟩
  · intro e h
    simp only [Library, List.mem_cons, List.not_mem_nil, or_false] at h
    rcases h with rfl | rfl | rfl | rfl | rfl | rfl | rfl | rfl | rfl <;> decide
  · intro c
    have h9 : numIntervals = 9 := by decide
    refine ⟨(List.range 9).map fun i => (eventName i, c i), ?_, ?_, ?_, ?_⟩
    · unfold report
      rw [h9]
      rfl
    · rw [List.map_map]; rfl
    · rw [List.map_map]
      have : ((fun x : String × ℚ => x.1) ∘ fun i => (eventName i, c i)) = eventName := rfl
      rw [this]
      decide
    · rw [List.map_map]
      have : ((fun x : String × ℚ => x.1) ∘ fun i => (eventName i, c i)) = eventName := rfl
      rw [this]
      decide

/-- Merging adds the totals, so that it doesn't matter in which order chronometers are merged; a reset one is neutral. -/
theorem merging (a b c : Totals) (i : Nat) (h : i < 9) :
    plus a b i = a i + b i ∧ plus a b i = plus b a i ∧ plus (plus a b) c i = plus a (plus b c) i ∧ plus a (reset b) i = a i := by
  have h9 : numIntervals = 9 := by decide
  simp only [plus, reset, h9, h, if_true]
  refine ⟨trivial, by ring, by ring, by ring⟩

/-- `addTime` charges the event and all of its ancestors once. -/
theorem addTime_spec (t : ℚ) (c : Totals) (i : Nat) : addTime timeComputeGhost t c i = (if i = 3 ∨ i = 1 then c i + t else c i) ∧
    ∀ e, Library e → addTime e t c i = if i ∈ family e then c i + t else c i := by
  have key : ∀ e, Library e → addTime e t c i = if i ∈ family e then c i + t else c i := by
    intro e h
    unfold addTime
    rw [destroy_eq]
    have hn : (family e).Nodup := by
      simp only [Library, List.mem_cons, List.not_mem_nil, or_false] at h
      rcases h with rfl | rfl | rfl | rfl | rfl | rfl | rfl | rfl | rfl <;> decide
    by_cases hi : i ∈ family e
    · rw [if_pos hi, hn.count, if_pos hi]
      push_cast
      ring
    · rw [if_neg hi, List.count_eq_zero_of_not_mem hi]
      push_cast
      ring
  refine ⟨?_, key⟩
  rw [key _ (by simp [Library])]
  simp [family, timeComputeGhost, timeCompute]

/-! ## Non-vacuity -/

/-- two nano steps of the `StripingSimulator`, one second per work item; an exception ends the second one -/
example : (exec (fun k => (1, k == 12)) (stripingStep 2) ⟨0, 0, fun _ => 0⟩).1.tot 0 = 12 ∧
    (exec (fun k => (1, k == 12)) (stripingStep 2) ⟨0, 0, fun _ => 0⟩).1.tot 6 = 6 ∧
    (exec (fun k => (1, k == 12)) (stripingStep 2) ⟨0, 0, fun _ => 0⟩).2 = true := by decide +kernel

/-- four steps with load balancing every second step -/
example : stripingRun (fun _ => (1, false)) 1 2 4 0 ⟨0, 0, fun _ => 0⟩ = [1 / 2, 2 / 7] := by decide +kernel

example : UsesLibrary (stripingStep 3) := by
  refine ⟨trivial, ⟨?_, ?_, ?_, trivial⟩, trivial⟩ <;> simp [UsesLibrary, stripingNanoStep, Library]

end LGD.C68
