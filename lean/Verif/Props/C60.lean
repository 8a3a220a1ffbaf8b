import Verif.Tune.AutoModel
import Verif.Tune.Simplex
import Verif.Props.C58

/-!
# C60: auto-tuning
-/

namespace LGD.C60
open LGD.Tune

/-- **C60, steps.** After `resetMaxSteps()` the proxy reports the original number of steps, after `setMaxSteps(n)` it ends `n` steps after the start, whatever has been called before. -/
theorem proxy_steps (p : Proxy) (n : BitVec 32) : p.reset.maxSteps = p.max ∧ (p.set n).maxSteps = p.start + n ∧ (p.set n).reset.maxSteps = p.max ∧ (p.reset.set n).maxSteps = p.start + n := by
  have key : ∀ a b : BitVec 32, a + (b - a) = b := fun a b => by rw [BitVec.add_comm, BitVec.sub_add_cancel]
  exact ⟨key _ _, rfl, key _ _, rfl⟩

example : ((Proxy.make 10 100).set 5).maxSteps = 15 ∧ ((Proxy.make 10 100).set 5).reset.maxSteps = 100 := by decide

/-- **C60, negation.** A new proxy exceeds the original number of steps by the number of the first step. -/
theorem proxy_overshoots (start max : BitVec 32) : (Proxy.make start max).maxSteps = start + max ∧ (start ≠ 0 → (Proxy.make start max).maxSteps ≠ max) := by
  refine ⟨rfl, fun h e => h ?_⟩
  have e : start + max = max := e
  have : start + max - max = max - max := by rw [e]
  rwa [BitVec.add_sub_cancel, BitVec.sub_self] at this

example : (Proxy.make 10 100).maxSteps = 110 := by decide

/-- **C60, negation.** `AutoTuningSimulator::run()` always throws: it looks for a factory called `SerialSimulation`, but the one which is registered is called `SerialSimulator`. -/
theorem run_throws (threads cuda : Bool) (o : Opt) (eval : Nat → String → List Param → ℚ) (k fuel : Nat) : run "SerialSimulation" o eval k fuel (registry threads cuda) = .threw := by
  have : (registry threads cuda).get "SerialSimulation" = none := by cases threads <;> cases cuda <;> rfl
  unfold run
  rw [this]

/-! ## Fitness -/
theorem dblMin_pos : (0 : ℚ) < dblMin := by unfold dblMin; positivity

theorem minus_le : (-1 : ℚ) ≤ dblMin := by linarith [dblMin_pos]


theorem visit_nonpos {eval : List Param → ℚ} (h : ∀ x, eval x ≤ dblMin) (m : List Param) (sw : List ℚ) (old : Nat) (b : Best) (hb : b.fit ≤ dblMin) (i : Nat) : (visit eval m sw old b i).fit ≤ dblMin := by
  unfold visit
  split
  · exact hb
  · dsimp only
    split
    · exact h _
    · exact hb

theorem maxPos_nonpos {eval : List Param → ℚ} (h : ∀ x, eval x ≤ dblMin) (m : List Param) (sw : List ℚ) (old : Nat) (f : ℚ) (hf : f ≤ dblMin) (seen : List (List Param)) : (maxPos eval m sw old f seen).fit ≤ dblMin := by
  unfold maxPos
  generalize (List.range (2 * m.length)).map (· + 1) = l
  have : ∀ (l : List Nat) (b : Best), b.fit ≤ dblMin → (l.foldl (visit eval m sw old) b).fit ≤ dblMin := by
    intro l
    induction l with
    | nil => exact fun b hb => hb
    | cons a l ih => exact fun b hb => ih _ (visit_nonpos h m sw old b hb a)
  exact this l _ hf

theorem pattern_nonpos {eval : List Param → ℚ} (h : ∀ x, eval x ≤ dblMin) (ms : List ℚ) (k : Nat) : ∀ t : PSt, t.fit ≤ dblMin → (patLoop eval ms k t).fit ≤ dblMin := by
  induction k with
  | zero => exact fun t ht => ht
  | succ k ih =>
    intro t ht
    have : (patIter eval ms t).fit ≤ dblMin := by
      have := maxPos_nonpos h t.middle t.sw t.old t.fit ht t.seen
      unfold patIter
      dsimp only
      split
      · split <;> exact this
      · exact this
    unfold patLoop
    dsimp only
    split
    · exact this
    · exact ih _ this

/-- no vertex is fitter than the smallest positive number -/
def Low (s : List Vertex) : Prop := ∀ v ∈ s, v.fit ≤ dblMin

theorem low_evalAll {eval : List Param → ℚ} (h : ∀ x, eval x ≤ dblMin) (t : XSt) (ht : Low t.simplex) : Low (evalAll eval t).simplex := by
  intro v hv
  obtain ⟨u, hu, rfl⟩ := List.mem_map.1 hv
  split
  · exact h _
  · exact ht u hu

theorem low_put {t : XSt} (ht : Low t.simplex) (v : Vertex) (hv : v.fit ≤ dblMin) : Low (put t v).simplex := by
  intro u hu
  rcases List.mem_or_eq_of_mem_set hu with hu | rfl
  · exact ht u hu
  · exact hv

theorem low_new (s : List Vertex) (h : ∀ v ∈ s, v.fit = -1) : Low s := fun v hv => by rw [h v hv]; linarith [dblMin_pos]

theorem low_init (x : List Param) (m : ℚ) (st : List ℚ) : Low (initSimplex x m st) := by
  refine low_new _ fun v hv => ?_
  rcases List.mem_cons.1 hv with rfl | hv
  · rfl
  · obtain ⟨i, -, rfl⟩ := List.mem_map.1 hv
    rfl

theorem low_move {eval : List Param → ℚ} (h : ∀ x, eval x ≤ dblMin) (t : XSt) (ht : Low t.simplex) : Low (xMove eval t).simplex := by
  unfold xMove
  dsimp only
  split
  · split
    · exact low_put (t := { t with seen := _ }) ht _ (h _)
    · exact low_put (t := { t with seen := _ }) ht _ (h _)
  · split
    · split
      · exact low_put (t := { t with seen := _ }) ht _ (h _)
      · refine low_evalAll h _ (low_new _ fun v hv => ?_)
        obtain ⟨u, -, rfl⟩ := List.mem_map.1 hv
        rfl
    · split
      · split
        · exact low_put (t := { t with seen := _ }) ht _ (h _)
        · exact ht
      · split
        · exact low_put (t := { t with seen := _ }) ht _ (h _)
        · exact ht

theorem low_iter {eval : List Param → ℚ} (h : ∀ x, eval x ≤ dblMin) (eps : ℚ) (st : List ℚ) (t : XSt) (ht : Low t.simplex) : Low (xIter eval eps st t).simplex := by
  have h1 := low_move h t ht
  unfold xIter
  dsimp only
  split
  · split
    · have : Low (restart eval st (xMove eval t)).simplex := low_evalAll h _ (low_init _ _ _)
      split <;> exact this
    · exact h1
  · split
    · split
      · exact low_evalAll h _ (low_init _ _ _)
      · exact h1
    · exact h1

theorem simplex_nonpos {eval : List Param → ℚ} (h : ∀ x, eval x ≤ dblMin) (eps : ℚ) (st : List ℚ) (k : Nat) : ∀ t : XSt, Low t.simplex → Low (xLoop eval eps st k t).simplex := by
  induction k with
  | zero => exact fun t ht => ht
  | succ k ih =>
    intro t ht
    have := low_iter h eps st t ht
    unfold xLoop
    dsimp only
    split
    · exact this
    · exact ih _ this

theorem opt_nonpos {eval : List Param → ℚ} (h : ∀ x, eval x ≤ dblMin) (o : Opt) (ps : List Param) (k : Nat) (r : List Param × ℚ) (hr : o.run ps eval k = some r) : r.2 ≤ dblMin := by
  cases o with
  | pattern =>
    unfold Opt.run at hr
    dsimp only at hr
    rw [Option.map_eq_some_iff] at hr
    obtain ⟨p, -, rfl⟩ := hr
    exact pattern_nonpos h _ _ _ (h _)
  | simplex =>
    unfold Opt.run at hr
    dsimp only at hr
    rw [Option.map_eq_some_iff] at hr
    obtain ⟨t, ht, rfl⟩ := hr
    unfold simplexSearch at ht
    dsimp only at ht
    rw [Option.ite_none_right_eq_some] at ht
    have hl : Low t.simplex := by
      rw [← Option.some.inj ht.2]
      exact simplex_nonpos h _ _ _ _ (low_evalAll h _ (low_init _ _ _))
    dsimp only
    unfold XSt.result vtx
    rw [List.getD_eq_getElem?_getD]
    by_cases hi : maxIdx t.simplex < t.simplex.length
    · rw [List.getElem?_eq_getElem hi]
      exact hl _ (List.getElem_mem hi)
    · rw [List.getElem?_eq_none (not_lt.1 hi)]
      exact minus_le

theorem test_nonpos {eval : String → List Param → ℚ} (h : ∀ n x, eval n x ≤ dblMin) (o : Opt) (k : Nat) (r : Registry) : ∀ r', runTest o eval k r = some r' → (∀ e ∈ r', e.2.fitness ≤ dblMin) ∧ r'.map Prod.fst = r.map Prod.fst := by
  induction r with
  | nil => intro r' hr; cases hr; simp
  | cons e r ih =>
    intro r' hr
    obtain ⟨n, e⟩ := e
    unfold runTest at hr
    cases h1 : o.run e.params (eval n) k with
    | none => rw [h1] at hr; cases hr
    | some q =>
      cases h2 : runTest o eval k r with
      | none => rw [h1, h2] at hr; cases hr
      | some r1 =>
        rw [h1, h2] at hr
        cases hr
        obtain ⟨i1, i2⟩ := ih r1 h2
        refine ⟨fun x hx => ?_, by simp [i2]⟩
        rcases List.mem_cons.1 hx with rfl | hx
        · exact opt_nonpos (h n) o _ k q h1
        · exact i1 x hx

theorem best_none {r : Registry} (h : ∀ e ∈ r, e.2.fitness ≤ dblMin) : bestSim r = "" := by
  have key : ∀ r : Registry, (∀ e ∈ r, e.2.fitness ≤ dblMin) → r.foldl (fun b e => if b.1 < e.2.fitness then (e.2.fitness, e.1) else b) (dblMin, "") = (dblMin, "") := by
    intro r
    induction r with
    | nil => intro _; rfl
    | cons e r ih =>
      intro h
      have : ¬ dblMin < e.2.fitness := not_lt.2 (h e (by simp))
      rw [List.foldl_cons, if_neg this]
      exact ih fun x hx => h x (List.mem_cons_of_mem _ hx)
  unfold bestSim
  rw [key r h]

theorem lookup_none {r : Registry} {n : String} (h : n ∉ r.map Prod.fst) : r.get n = none := by
  unfold Registry.get
  induction r with
  | nil => rfl
  | cons e r ih =>
    obtain ⟨a, e⟩ := e
    simp only [List.map_cons, List.mem_cons, not_or] at h
    rw [List.lookup_cons]
    have : (n == a) = false := by simpa using h.1
    rw [this]
    exact ih h.2

/-- **C60, negation.** Even if it looked for the right factory: fitness is the negative execution time, or the smallest positive number for failures, so none is above that number, and the best simulator is said to be the one without a name. `run()`
never completes a simulation, for both optimizers, all execution times and numbers of steps. -/
theorem run_never (serial : String) (threads cuda : Bool) (o : Opt) (eval : Nat → String → List Param → ℚ) (h : ∀ n s x, eval n s x ≤ dblMin) (k fuel : Nat) (name : String) (ps : List Param) :
    run serial o eval k fuel (registry threads cuda) ≠ .completed name ps := by
  unfold run
  split
  · exact fun e => Outcome.noConfusion e
  · next e _ =>
    split
    · exact fun e => Outcome.noConfusion e
    · next n _ =>
      split
      · exact fun e => Outcome.noConfusion e
      · next r' hr =>
        obtain ⟨h1, h2⟩ := test_nonpos (h n) o k _ r' hr
        have hn : r'.get (bestSim r') = none := by
          rw [best_none h1]
          refine lookup_none ?_
          rw [h2]
          cases threads <;> cases cuda <;> decide
        rw [hn]
        exact fun e => Outcome.noConfusion e

/-- in the model simulations could be completed: if fitness was positive -/
example : run "SerialSimulator" .pattern (fun _ _ _ => 1) 0 3 (registry false false) = .completed "SerialSimulator" [] := by
  have h1 : normalizeLoop (fun _ => 1) (-1) 1 3 5 = some 1 := by decide +kernel
  have h2 : (dblMin : ℚ) < 1 := by decide +kernel
  have h3 : runTest .pattern (fun _ _ => 1) 0 (registry false false) = some [("SerialSimulator", ⟨[], 1⟩)] := rfl
  have h4 : bestSim [("SerialSimulator", ⟨[], 1⟩)] = "SerialSimulator" := by
    unfold bestSim
    simp only [List.foldl_cons, List.foldl_nil]
    rw [if_pos h2]
  have h0 : (registry false false).get "SerialSimulator" = some ⟨[], dblMax⟩ := rfl
  unfold run
  rw [h0]
  dsimp only
  rw [h1]
  dsimp only
  rw [h3]
  dsimp only
  rw [h4]
  rfl

/-- with the right name the measurements do take place: three steps, a quarter of a second per step -/
example : ∃ n, normalizeLoop (fun n => -(n : ℚ) / 4) (-1) (-1 / 4) 3 5 = some n ∧ n = 4 := ⟨_, by decide +kernel, rfl⟩

/-- **C60, negation.** CUDASimulationFactory reports the smallest positive number if a configuration fails (cudasimulationfactory.h:45-47). That's better than all negative execution times: once a configuration which fails
has been tried, pattern search returns one which fails. -/
theorem failures_win {ps : List Param} {o : Pattern} (h : Pattern.make ps [] [] = some o) (hok : ∀ p ∈ ps, Ok p) (hw : ∀ p ∈ ps, Within p) (fails : List Param → Prop) [DecidablePred fails] (time : List Param → ℚ)
    (ht : ∀ x, 0 ≤ time x) (k : Nat) (x : List Param) (hx : x ∈ (o.search (fun x => if fails x then dblMin else -time x) k).seen) (hf : fails x) : fails (o.search (fun x => if fails x then dblMin else -time x) k).middle := by
  obtain ⟨-, -, h3, h4, -, -⟩ := C58.pattern_search h hok hw (fun x => if fails x then dblMin else -time x) k
  have := h4 x hx
  rw [h3] at this
  rw [if_pos hf] at this
  by_contra hn
  rw [if_neg hn] at this
  linarith [dblMin_pos, ht (o.search (fun x => if fails x then dblMin else -time x) k).middle]

/-- a parameter from 0 to 8: values above 5 fail, the others take a second -/
example : (Pattern.make [Ival.make .int 0 8 1] [] []).map (fun o => (o.search (fun x => if 5 < at' x 0 then dblMin else -1) 2).middle.map Param.value) = some [7] := by decide +kernel

/-! ## Writers -/

theorem del_all (ws : List Nat) (hn : ws.Nodup) : ∀ h : Objects, (∀ w ∈ ws, h w = true) → ∃ h', ws.foldlM del h = some h' ∧ ∀ w ∈ ws, h' w = false := by
  induction ws with
  | nil => exact fun h _ => ⟨h, rfl, by simp⟩
  | cons w ws ih =>
    intro h hw
    rw [List.nodup_cons] at hn
    obtain ⟨h', e, hd⟩ := ih hn.2 (Function.update h w false) (fun v hv => by
      have : v ≠ w := fun e => hn.1 (e ▸ hv)
      rw [Function.update_of_ne this]
      exact hw v (List.mem_cons_of_mem _ hv))
    have hdel : del h w = some (Function.update h w false) := if_pos (hw w (by simp))
    have stay : ∀ (ws : List Nat) (h h' : Objects), h w = false → ws.foldlM del h = some h' → h' w = false := by
      intro ws
      induction ws with
      | nil => intro h h' h0 e; cases e; exact h0
      | cons v ws ih =>
        intro h h' h0 e
        rw [List.foldlM_cons] at e
        unfold del at e
        split at e
        · refine ih (Function.update h v false) h' ?_ e
          by_cases hv : w = v
          · subst hv; simp
          · rw [Function.update_of_ne hv]; exact h0
        · cases e
    refine ⟨h', ?_, fun v hv => ?_⟩
    · rw [List.foldlM_cons, hdel]
      exact e
    · rcases List.mem_cons.1 hv with rfl | hv
      · exact stay ws _ h' (by simp) e
      · exact hd v hv

/-- **C60, negation.** A factory with a writer can be used only once: the simulator deletes the writers which belong to the factory. A second simulation calls writers which don't exist anymore, and the destructor of the
factory deletes them again. -/
theorem writers_deleted (w : Nat) (ws : List Nat) (hn : (w :: ws).Nodup) (h : Objects) (ha : ∀ v ∈ w :: ws, h v = true) :
    ∃ h', factoryCall (w :: ws) h = some h' ∧ factoryCall (w :: ws) h' = none ∧ factoryEnd (w :: ws) h' = none := by
  obtain ⟨h', e, hd⟩ := del_all (w :: ws) hn h ha
  have ht : ∀ ws : List Nat, (∀ v ∈ ws, h v = true) → ws.forM (touch h) = some () := by
    intro ws
    induction ws with
    | nil => exact fun _ => rfl
    | cons v ws ih =>
      intro hv
      have : touch h v = some () := if_pos (hv v (by simp))
      rw [List.forM_eq_forM, List.forM_cons, this]
      exact ih fun x hx => hv x (List.mem_cons_of_mem _ hx)
  have h0 : h' w = false := hd w (by simp)
  refine ⟨h', ?_, ?_, ?_⟩
  · unfold factoryCall
    rw [ht _ ha]
    exact e
  · unfold factoryCall
    have : touch h' w = none := by unfold touch; rw [h0]; rfl
    rw [List.forM_eq_forM, List.forM_cons, this]
    rfl
  · unfold factoryEnd
    have : del h' w = none := by unfold del; rw [h0]; rfl
    rw [List.foldlM_cons, this]
    rfl

example : ∃ h', factoryCall [3, 7] (fun _ => true) = some h' ∧ factoryCall [3, 7] h' = none ∧ factoryEnd [3, 7] h' = none := writers_deleted 3 [7] (by decide) _ fun _ _ => rfl

end LGD.C60
