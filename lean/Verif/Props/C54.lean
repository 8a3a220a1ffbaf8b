import Verif.Hpx.DataflowProgress

/-!
# C54: the dataflow simulator

`HPXDataflowSimulator::run()` computes the synchronous message passing simulation `Sim.ref` for
every schedule of tasks and every order of messages: all executions are finite, none of them
gets stuck, and when `run()` returns on a locality, all cells of that locality were updated exactly
`maxSteps * NANO_STEPS` times, each time with the messages their neighbors sent in the preceding
step.

The one thing that may go wrong for valid simulations is the lifetime of the semaphore
(`dangling_semaphore`), hence the suffix `_partial`. What happens if the assumptions don't hold
is shown by the remaining theorems: an asymmetric adjacency and a chunk size of 0 keep `run()` from
returning, a locality without cells is undefined behaviour, and a cell which sends two messages to
the same neighbor in one step makes the receiver throw.
-/

namespace LGD.C54

open LGD.Dataflow

variable {C M : Type} {P : Sim C M}

/-- **Every execution computes the synchronous simulation.** -/
theorem dataflow_partial (hv : P.Valid) :
    -- no execution is longer than some limit
    (∃ B, ∀ n s, P.Exec n s → n ≤ B) ∧
    (∀ n s, P.Exec n s →
      -- no exceptions, no undefined behaviour except for the semaphore
      (s.bad = none ∨ s.bad = some .dangling) ∧
      -- executions end when `run()` has returned everywhere, never earlier
      (s.bad = none → (∀ s', ¬ P.Step s s') → ∀ l < P.L, ∃ q, s.main l = .ret q) ∧
      -- when `run()` has returned, the cells of the locality have their final state
      (∀ l < P.L, ∀ q, s.main l = .ret q → ∀ i ∈ P.own l,
        s.cell i = (P.ref (P.maxSteps * P.ns)).1 i ∧
        ∀ t, s.ran i t = true ↔ t < P.maxSteps * P.ns) ∧
      -- at any time cells are in the state of the synchronous simulation that belongs to the
      -- number of their updates, which run in order
      (∀ i ∈ P.cells, ∃ m, s.cell i = (P.ref m).1 i ∧ ∀ t, s.ran i t = true ↔ t < m)) := by
  refine ⟨⟨P.size P.start, fun n s h => ?_⟩, fun n s h => ?_⟩
  · have := Sim.exec_bound hv h
    omega
  · obtain ⟨G, hI⟩ := Sim.inv_exec hv h
    refine ⟨hI.bad, ?_, ?_, ?_⟩
    · intro hb hstuck
      by_contra hnot
      obtain ⟨s', hs, _⟩ := Sim.progress hv hI hb hnot
      exact hstuck s' hs
    · intro l hl q hq i hi
      have hic := Sim.own_mem_cells hl hi
      have hn : G.n i = P.maxSteps * P.ns := hI.retDone l hl q hq i hi
      refine ⟨?_, ?_⟩
      · rw [hI.cell i hic, hn]
      · intro t
        rw [hI.ran i hic t, hn]
    · exact fun i hi => ⟨G.n i, hI.cell i hi, hI.ran i hi⟩

/-! ## The semaphore -/

/-- localities return after the last call of `setupDataflow` has ended -/
theorem ret_setup (hv : P.Valid) {n : Nat} {s : St C M} (h : P.Exec n s) :
    ∀ l < P.L, ∀ p, s.main l = .ret (p + 1) → ∀ i ∈ P.own l, s.setup i p = .done := by
  induction h with
  | start => intro l _ p h; simp [Sim.start] at h
  | @step n s s' he hs ih =>
    have keep : ∀ (i' : Int) (q' : Nat) (pc : SPc), s.setup i' q' ≠ .done →
        ∀ l < P.L, ∀ p, s.main l = .ret (p + 1) → ∀ i ∈ P.own l,
        put2 s.setup i' q' pc i p = .done := by
      intro i' q' pc hne l hl p hm i hi
      have hd := ih l hl p hm i hi
      rw [put2_ne]
      · exact hd
      · rintro ⟨rfl, rfl⟩
        exact hne hd
    have move : ∀ (l' : Nat) (pc : MPc), (∀ q, pc ≠ .ret q) → ∀ l < P.L, ∀ p,
        Function.update s.main l' pc l = .ret (p + 1) → ∀ i ∈ P.own l, s.setup i p = .done := by
      intro l' pc hpc l hl p hm
      by_cases e : l = l'
      · subst e; rw [Function.update_self] at hm; exact absurd hm (hpc _)
      · rw [Function.update_of_ne e] at hm; exact ih l hl p hm
    cases hs with
    | construct i hb hi h => exact ih
    | enter l q hb hl h hm => exact move l _ (by simp)
    | leave l q hb hl h hm => exact move l _ (by simp)
    | launch l q k i hb hl h hk =>
      intro l' hl' p hm i' hi'
      by_cases e : l' = l
      · subst e
        simp at hm
      · simp only [Function.update_of_ne e] at hm
        have hd := ih l' hl' p hm i' hi'
        simp only
        rw [put2_ne]
        · exact hd
        · rintro ⟨rfl, rfl⟩
          obtain ⟨k', hk'⟩ := List.getElem?_of_mem hi'
          exact e (Sim.own_unique hv hl' hl hk' hk).1
    | attach l q k hb hl h hk hne => exact move l _ (by simp)
    | attachEmpty l q k hb hl h hne => exact ih
    | pass l q hb hl h hs => exact move l _ (by simp)
    | finish l q hb hl h hr =>
      intro l' hl' p hm
      by_cases e : l' = l
      · subst e
        simp only [Function.update_self, MPc.ret.injEq] at hm
        subst hm
        intro i hi
        have := hr i hi p rfl
        cases p with
        | zero => exact this.1
        | succ p => exact this.1
      · simp only [Function.update_of_ne e] at hm
        exact ih l' hl' p hm
    | signal l q i hb hl ha hs hi hr hm => exact ih
    | signalLate l q q' i hb hl ha hs hi hr hm => exact ih
    | begin i q hb hi h hc hf => exact keep i q _ (by simp [h])
    | get i j q t k hb hi h ht hj =>
      have := keep i q (.run t (k + 1)) (by simp [h])
      unfold Sim.request Sim.bufGet
      split
      · split <;> exact this
      · exact this
    | arm i q t k hb hi h ht hk => exact keep i q _ (by simp [h])
    | done i q t k hb hi h ht => exact keep i q _ (by simp [h])
    | update i q t hb hi hq ha hr hf hp hs => exact ih
    | updateThrows i q t hb hi hq ha hr hf hp hs => exact ih
    | deliver a b m hb h =>
      unfold Sim.bufStore
      split <;> exact ih

/-- **Negation.** Each simulation with at least one step has an execution in which the continuation
of the last chunk signals the semaphore after `run()` has returned and destroyed it. -/
theorem dangling_semaphore (hv : P.Valid) (hL : 0 < P.L) (hm : 0 < P.maxSteps) :
    ∃ n s, P.Exec n s ∧ s.bad = some .dangling := by
  have key : ∀ B n s, P.Exec n s → P.size s ≤ B → s.bad = none →
      (∀ l q, ¬ P.more (q + 1) → s.sig l q = false) → ∃ n s, P.Exec n s ∧ s.bad = some .dangling := by
    intro B
    induction B with
    | zero =>
      intro n s _ hB hb _
      simp [Sim.size, hb] at hB
    | succ B ih =>
      intro n s he hB hb hsig
      obtain ⟨G, hI⟩ := Sim.inv_exec hv he
      by_cases hall : ∀ l < P.L, ∃ q, s.main l = .ret q
      · obtain ⟨q, hq⟩ := hall 0 hL
        have hok := hI.mainOK 0 hL
        rw [hq] at hok
        cases q with
        | zero => exact absurd (by simpa [Sim.more] using hm) hok.1
        | succ p =>
          have hmp := hok.2 p (by omega)
          have hlen : 0 < (P.own 0).length := List.length_pos_iff.2 (hv.ne 0 hL)
          have hi0 : (P.own 0)[0]? = some (P.own 0)[0] := List.getElem?_eq_getElem hlen
          have hmem : (P.own 0)[0] ∈ P.own 0 := List.getElem_mem hlen
          have hcell := Sim.own_mem_cells hL hmem
          refine ⟨n + 1, _, .step he (.signalLate 0 p _ _ hb hL ?_ (hsig 0 p hok.1) hi0 ?_ hq), rfl⟩
          · rw [hI.att 0 hL p, hq]; simp [Sim.Att]
          · rw [Sim.chunkReady_iff hv hmp]
            refine ⟨ret_setup hv he 0 hL p hq _ hmem, (hI.ran _ hcell _).2 ?_⟩
            rw [hI.retDone 0 hL _ hq _ hmem]
            have := Sim.chunk_pos hv hmp
            have := Sim.endT_le_T (P := P) p
            omega
      · obtain ⟨s', hs, hsame⟩ := Sim.progress hv hI hb hall
        obtain ⟨G', hI'⟩ := Sim.inv_step hv hI hs
        rcases hI'.bad with h | h
        · refine ih (n + 1) s' (.step he hs) ?_ h ?_
          · have := Sim.size_decreases hv hI hs
            omega
          · intro l q hq
            rw [hsame l q hq]; exact hsig l q hq
        · exact ⟨n + 1, s', .step he hs, h⟩
  exact key _ 0 P.start .start (le_refl _) rfl fun _ _ _ => rfl

/-! ## What the assumptions are needed for -/

/-- **Negation.** If the adjacency has an edge `(i, j)` without its reverse, then the locality of
`i` never returns from `run()`: it waits for an endpoint which nobody registers. -/
theorem asymmetric_never_returns {i j : Int} {l : Nat} (hL : l < P.L) (hi : i ∈ P.own l)
    (hj : j ∈ P.nbr i) (hn : i ∉ P.nbr j) (hc : 0 < P.c) (hns : 0 < P.ns) (hm : 0 < P.maxSteps)
    {n : Nat} {s : St C M} (h : P.Exec n s) : ∀ q, s.main l ≠ .ret q := by
  have hpos : ∀ q, P.more q → P.startT q < P.endT q := by
    intro q h
    unfold Sim.startT Sim.endT; unfold Sim.more at h
    exact Nat.mul_lt_mul_of_pos_right (by omega) hns
  have hm0 : P.more 0 := by simpa [Sim.more] using hm
  have cr : ∀ (s : St C M), (∀ t, s.ran i t = false) → ∀ q, ¬ (P.more q ∧ P.chunkReady s i q) := by
    intro s hs q ⟨hq, hcr⟩
    cases q with
    | zero => exact absurd (hcr.2 (hpos 0 hq)) (by simp [hs])
    | succ q =>
      have := hcr.2
      rw [if_pos (hpos _ hq)] at this
      simp [hs] at this
  have inv : (s.setup i 0 = .idle ∨ s.setup i 0 = .launched) ∧
      (∀ t, t < P.endT 0 → s.armed i t = false) ∧ (∀ t, s.ran i t = false) ∧
      (∀ q, s.main l ≠ .ret q) ∧
      (∀ l' q, (s.main l' = .head q ∨ s.main l' = .wait q) → ∀ q' < q, P.more q') ∧
      (∀ l' q k, (s.main l' = .launch q k ∨ s.main l' = .sem q) → P.more q) ∧
      (∀ q, s.main l = .wait q → ¬ P.more q) ∧
      (∀ i' q t k, s.setup i' q = .run t k → P.startT q ≤ t) := by
    induction h with
    | start => simp [Sim.start]
    | @step n s s' he hs ih =>
      obtain ⟨i1, i2, i3, i4, i5, i6, i7, i8⟩ := ih
      have main : ∀ (l' : Nat) (pc : MPc) (setup : Int → Nat → SPc) (att : Nat → Nat → Bool),
          (setup i 0 = .idle ∨ setup i 0 = .launched) →
          (∀ i' q t k, setup i' q = .run t k → P.startT q ≤ t) →
          (∀ q, l' = l → pc ≠ .ret q) →
          (∀ q, (pc = .head q ∨ pc = .wait q) → ∀ q' < q, P.more q') →
          (∀ q k, (pc = .launch q k ∨ pc = .sem q) → P.more q) →
          (∀ q, pc = .wait q → ¬ P.more q) →
          (setup i 0 = .idle ∨ setup i 0 = .launched) ∧
            (∀ t, t < P.endT 0 → s.armed i t = false) ∧ (∀ t, s.ran i t = false) ∧
            (∀ q, Function.update s.main l' pc l ≠ .ret q) ∧
            (∀ l'' q, (Function.update s.main l' pc l'' = .head q ∨
              Function.update s.main l' pc l'' = .wait q) → ∀ q' < q, P.more q') ∧
            (∀ l'' q k, (Function.update s.main l' pc l'' = .launch q k ∨
              Function.update s.main l' pc l'' = .sem q) → P.more q) ∧
            (∀ q, Function.update s.main l' pc l = .wait q → ¬ P.more q) ∧
            (∀ i' q t k, setup i' q = .run t k → P.startT q ≤ t) := by
        intro l' pc setup att a1 a2 a3 a4 a5 a6
        refine ⟨a1, i2, i3, ?_, ?_, ?_, ?_, a2⟩
        · intro q
          by_cases e : l = l'
          · subst e; rw [Function.update_self]; exact a3 q rfl
          · rw [Function.update_of_ne e]; exact i4 q
        · intro l'' q
          by_cases e : l'' = l'
          · subst e; rw [Function.update_self]; exact a4 q
          · rw [Function.update_of_ne e]; exact i5 l'' q
        · intro l'' q k
          by_cases e : l'' = l'
          · subst e; rw [Function.update_self]; exact a5 q k
          · rw [Function.update_of_ne e]; exact i6 l'' q k
        · intro q
          by_cases e : l = l'
          · subst e; rw [Function.update_self]; exact a6 q
          · rw [Function.update_of_ne e]; exact i7 q
      have setup : ∀ (i' : Int) (q' : Nat) (pc : SPc),
          (i' = i → q' = 0 → pc = .idle ∨ pc = .launched) →
          (∀ t k, pc = .run t k → P.startT q' ≤ t) →
          (put2 s.setup i' q' pc i 0 = .idle ∨ put2 s.setup i' q' pc i 0 = .launched) ∧
          (∀ i'' q t k, put2 s.setup i' q' pc i'' q = .run t k → P.startT q ≤ t) := by
        intro i' q' pc h1 h2
        constructor
        · by_cases e : i = i' ∧ 0 = q'
          · obtain ⟨rfl, rfl⟩ := e; rw [put2_self]; exact h1 rfl rfl
          · rw [put2_ne _ e]; exact i1
        · intro i'' q t k
          by_cases e : i'' = i' ∧ q = q'
          · obtain ⟨rfl, rfl⟩ := e; rw [put2_self]; exact h2 t k
          · rw [put2_ne _ e]; exact i8 i'' q t k
      cases hs with
      | construct _ hb hi h => exact ⟨i1, i2, i3, i4, i5, i6, i7, i8⟩
      | enter l' q hb hl h hm =>
        exact main l' _ _ (fun _ _ => false) i1 i8 (by simp) (by simp)
          (by rintro q' k (e | e) <;> simp at e; rw [← e.1]; exact hm) (by simp)
      | leave l' q hb hl h hm =>
        refine main l' _ _ (fun _ _ => false) i1 i8 (by simp) ?_ (by simp) ?_
        · rintro q' (e | e) <;> simp at e
          subst e; exact i5 l' _ (Or.inl h)
        · intro q' e; simp at e; subst e; exact hm
      | launch l' q k i' hb hl h hk =>
        obtain ⟨b1, b2⟩ := setup i' q .launched (by simp) (by simp)
        refine main l' _ _ (fun _ _ => false) b1 b2 (by simp) (by simp) ?_ (by simp)
        rintro q' k' (e | e) <;> simp at e
        rw [← e.1]; exact i6 l' q k (Or.inl h)
      | attach l' q k hb hl h hk hne =>
        refine main l' _ _ (fun _ _ => false) i1 i8 (by simp) (by simp) ?_ (by simp)
        rintro q' k' (e | e) <;> simp at e
        rw [← e]; exact i6 l' q k (Or.inl h)
      | attachEmpty l' q k hb hl h hne => exact ⟨i1, i2, i3, i4, i5, i6, i7, i8⟩
      | pass l' q hb hl h hs =>
        refine main l' _ _ (fun _ _ => false) i1 i8 (by simp) ?_ (by simp) (by simp)
        rintro q' (e | e) <;> simp at e
        subst e
        intro q'' hq''
        exact Sim.more_mono (i6 l' q 0 (Or.inr h)) (by omega)
      | finish l' q hb hl h hr =>
        refine main l' _ _ (fun _ _ => false) i1 i8 ?_ (by simp) (by simp) (by simp)
        rintro q' rfl
        exfalso
        have hnm := i7 q h
        cases q with
        | zero => exact hnm hm0
        | succ p => exact cr s i3 p ⟨i5 l' _ (Or.inr h) p (by omega), hr i hi p rfl⟩
      | signal l' q i' hb hl ha hs hi hr hm => exact ⟨i1, i2, i3, i4, i5, i6, i7, i8⟩
      | signalLate l' q q' i' hb hl ha hs hi hr hm => exact ⟨i1, i2, i3, i4, i5, i6, i7, i8⟩
      | begin i' q hb hi' h hc' hf =>
        obtain ⟨b1, b2⟩ := setup i' q (.run (P.startT q) 0) (by
          rintro rfl rfl
          exfalso
          obtain ⟨k, _, hk⟩ := hf (by simp) j hj
          exact hn (List.mem_of_getElem? hk)) (by
          intro t k e
          simp at e
          omega)
        exact ⟨b1, i2, i3, i4, i5, i6, i7, b2⟩
      | get i' j' q t k hb hi' h ht hj' =>
        obtain ⟨b1, b2⟩ := setup i' q (.run t (k + 1)) (by
          rintro rfl rfl
          rw [h] at i1; simp at i1) (by
          intro t' k' e
          simp at e
          have := i8 _ _ _ _ h
          omega)
        unfold Sim.request Sim.bufGet
        split
        · split <;> exact ⟨b1, i2, i3, i4, i5, i6, i7, b2⟩
        · exact ⟨b1, i2, i3, i4, i5, i6, i7, b2⟩
      | arm i' q t k hb hi' h ht hk =>
        obtain ⟨b1, b2⟩ := setup i' q (.run (t + 1) 0) (by
          rintro rfl rfl
          rw [h] at i1; simp at i1) (by
          intro t' k' e
          simp at e
          have := i8 _ _ _ _ h
          omega)
        refine ⟨b1, ?_, i3, i4, i5, i6, i7, b2⟩
        intro t' ht'
        simp only
        rw [put2_ne]
        · exact i2 t' ht'
        · rintro ⟨rfl, rfl⟩
          have h1 := i8 _ _ _ _ h
          have : q = 0 := Sim.chunk_unique h1 ht (by simp [Sim.startT]) ht'
          subst this
          rw [h] at i1; simp at i1
      | done i' q t k hb hi' h ht =>
        obtain ⟨b1, b2⟩ := setup i' q .done (by
          rintro rfl rfl
          rw [h] at i1; simp at i1) (by simp)
        exact ⟨b1, i2, i3, i4, i5, i6, i7, b2⟩
      | update i' q t hb hi' hq ha hr hf hp hs =>
        refine ⟨i1, i2, ?_, i4, i5, i6, i7, i8⟩
        intro t'
        simp only
        rw [put2_ne]
        · exact i3 t'
        · rintro ⟨rfl, rfl⟩
          unfold Sim.prevReady at hp
          split at hp
          · cases q with
            | zero => rw [i2 t' hq.2] at ha; simp at ha
            | succ p =>
              exact cr s i3 p ⟨Sim.more_mono (Sim.more_of_chunk hq.1 hq.2) (by omega), hp⟩
          · simp [i3] at hp
      | updateThrows i' q t hb hi' hq ha hr hf hp hs => exact ⟨i1, i2, i3, i4, i5, i6, i7, i8⟩
      | deliver a b m hb h =>
        unfold Sim.bufStore
        split <;> exact ⟨i1, i2, i3, i4, i5, i6, i7, i8⟩
  exact inv.2.2.2.1

/-- **Negation.** A locality without cells accesses the first element of an empty vector. -/
theorem empty_locality_undefined {l : Nat} (hl : l < P.L) (he : P.own l = [])
    (hm : 0 < P.maxSteps) : ∃ s, P.Exec 2 s ∧ s.bad = some .emptyFutures := by
  have h1 : P.Exec 1 { P.start with main := Function.update P.start.main l (.launch 0 0) } :=
    .step .start (.enter l 0 rfl hl rfl (by simpa [Sim.more] using hm))
  exact ⟨_, .step h1 (.attachEmpty l 0 0 rfl hl (by simp) he), rfl⟩

/-- **Negation.** With a chunk size of 0, `run()` never returns. -/
theorem zero_chunk_never_returns (hc : P.c = 0) (hm : 0 < P.maxSteps) {n : Nat} {s : St C M}
    (h : P.Exec n s) (l q : Nat) : s.main l ≠ .ret q := by
  have hmore : ∀ q, P.more q := fun q => by simpa [Sim.more, hc] using hm
  have inv : ∀ l q, s.main l ≠ .ret q ∧ s.main l ≠ .wait q := by
    induction h with
    | start => intro l q; simp [Sim.start]
    | @step n s s' he hs ih =>
      have move : ∀ (l' : Nat) (pc : MPc), (∀ q, pc ≠ .ret q ∧ pc ≠ .wait q) → ∀ l q,
          Function.update s.main l' pc l ≠ .ret q ∧ Function.update s.main l' pc l ≠ .wait q := by
        intro l' pc hpc l q
        by_cases e : l = l'
        · subst e; rw [Function.update_self]; exact hpc q
        · rw [Function.update_of_ne e]; exact ih l q
      cases hs with
      | enter l q hb hl h hm => exact move l _ (by simp)
      | leave l q hb hl h hm => exact absurd (hmore q) hm
      | launch l q k i hb hl h hk => exact move l _ (by simp)
      | attach l q k hb hl h hk hne => exact move l _ (by simp)
      | pass l q hb hl h hs => exact move l _ (by simp)
      | finish l q hb hl h hr => exact absurd h (ih l q).2
      | get i j q t k hb hi h ht hj =>
        unfold Sim.request Sim.bufGet
        split
        · split <;> exact ih
        · exact ih
      | deliver a b m hb h =>
        unfold Sim.bufStore
        split <;> exact ih
      | _ => exact ih
  exact (inv l q).1

/-! ## Examples -/

/-- Three cells in a row on two localities, two nano steps per step, three steps in chunks of two.
Cells add up what they receive, and speak only in the first nano step of each step. -/
def row : Sim Int Int where
  L := 2
  own := fun l => if l = 0 then [0, 1] else [2]
  nbr := fun i => if i = 0 then [1] else if i = 1 then [0, 2] else if i = 2 then [1] else []
  ns := 2
  maxSteps := 3
  c := 2
  init := fun i => i + 1
  dflt := 10
  upd := fun i nano step old msg =>
    (old + (msg (i - 1)).getD 0 + (msg (i + 1)).getD 0 + step,
      if nano = 0 then (if i = 0 then [(1, old)] else if i = 1 then [(2, old), (0, -old)] else [])
      else [])

theorem row_valid : row.Valid where
  hc := by decide
  hns := by decide
  nodup := by decide
  ne := by decide
  sym := by decide
  nnd := by decide
  send := by
    intro i hi t _ p hp
    have hi : i = 0 ∨ i = 1 ∨ i = 2 := by
      have : i ∈ [(0 : Int), 1, 2] := hi
      simpa using this
    rcases hi with rfl | rfl | rfl <;> rcases Nat.mod_two_eq_zero_or_one t with h | h <;>
      simp [Sim.refResult, row, h] at hp <;> (try rcases hp with hp | hp) <;>
      (try subst hp) <;> simp_all [row]
  once := by
    intro i hi t _
    have hi : i = 0 ∨ i = 1 ∨ i = 2 := by
      have : i ∈ [(0 : Int), 1, 2] := hi
      simpa using this
    rcases hi with rfl | rfl | rfl <;> rcases Nat.mod_two_eq_zero_or_one t with h | h <;>
      simp [Sim.refResult, row, h]

/-- what all executions of `row` compute -/
example : ((row.ref 6).1 0, (row.ref 6).1 1, (row.ref 6).1 2) = (-72, 96, 148) := by decide +kernel

/-- and one of them runs into the destroyed semaphore -/
example : ∃ n s, row.Exec n s ∧ s.bad = some .dangling :=
  dangling_semaphore row_valid (by decide) (by decide)

/-- Two cells which send two messages per step -/
def twice : Sim Int Int where
  L := 1
  own := fun _ => [0, 1]
  nbr := fun i => if i = 0 then [1] else [0]
  ns := 1
  maxSteps := 2
  c := 1
  init := fun i => i
  dflt := 0
  upd := fun i _ _ old _ => (old, [(1 - i, 7), (1 - i, 8)])

/-- **Negation.** Two messages to the same neighbor in one step may make the receiver throw. -/
theorem double_send_throws : ∃ n s, twice.Exec n s ∧ s.bad = some .bufferThrows := by
  have h1 := Sim.Exec.step (P := twice) .start (.construct 0 rfl (by decide) (by decide))
  have h2 := Sim.Exec.step h1 (.construct 1 rfl (by decide) (by decide))
  have h3 := Sim.Exec.step h2 (.enter 0 0 rfl (by decide) rfl (by decide))
  have h4 := Sim.Exec.step h3 (.launch 0 0 0 0 rfl (by decide) rfl rfl)
  have h5 := Sim.Exec.step h4 (.begin 0 0 rfl (by decide) rfl rfl (by
    intro _ j hj
    have : j = 1 := by simpa [twice] using hj
    subst this
    exact ⟨0, by decide, by decide⟩))
  have h6 := Sim.Exec.step h5 (.get 0 1 0 0 0 rfl (by decide) rfl (by decide) rfl)
  have h7 := Sim.Exec.step h6 (.arm 0 0 0 1 rfl (by decide) rfl (by decide) rfl)
  have h8 := Sim.Exec.step h7 (.update 0 0 0 rfl (by decide) (by decide) rfl rfl (by
    intro j hj
    have : j = 1 := by simpa [twice] using hj
    subst this
    exact ⟨0, rfl⟩) (by simp [Sim.prevReady, Sim.startT]) (by
    intro p hp
    have : p = (1, 7) ∨ p = (1, 8) := by simpa [Sim.result, twice] using hp
    rcases this with rfl | rfl <;> decide))
  have h9 := Sim.Exec.step h8 (.deliver [] _ _ rfl rfl)
  exact ⟨_, _, Sim.Exec.step h9 (.deliver [] _ _ rfl rfl), rfl⟩

/-- two cells with an edge in one direction only -/
example {n : Nat} {s : St Int Int} (h : Sim.Exec { twice with nbr := fun i => if i = 0 then [1] else [] } n s)
    (q : Nat) : s.main 0 ≠ .ret q :=
  asymmetric_never_returns (i := 0) (j := 1) (by decide) (by decide) (by decide) (by decide)
    (by decide) (by decide) (by decide) h q

end LGD.C54
