import Verif.Sim.OmpModel
import Verif.Props.C30

/-!
# C70: `OpenMPSimulator` computes what `SerialSimulator` computes

For every schedule of the threads, `step` and `run` end up in the very state of `SerialSimulator`, including the order in which
writers and steerers are called. The parallel versions of `handleInput` and `handleOutput` are never called by these, as they
don't override anything; were they called, then writers would get the same sequence of calls each, but steerers would have to
access disjoint sets of cells.
-/

namespace LGD.C70
open LGD.Adapter LGD.Serial LGD.Omp

variable {κ α : Type} [DecidableEq κ] {E : Env κ α}

/-! ## Simulations -/

theorem nano_eq {i : Nat} {st st' : St κ α} : Nano E i st st' → st' = nanoStep E i st := by
  rintro ⟨order, hp, rfl⟩
  unfold nanoStep
  congr 1
  have key : ∀ (l : List κ) (g : κ → α) (x : κ),
      l.foldl (fun g c => fun x => if x = c then E.upd i st.cur c else g x) g x = if x ∈ l then E.upd i st.cur x else g x := by
    intro l
    induction l with
    | nil => intro g x; simp
    | cons c l ih =>
      intro g x
      rw [List.foldl_cons, ih]
      by_cases h1 : x ∈ l
      · simp [h1]
      · by_cases h2 : x = c
        · subst h2; simp
        · simp [h1, h2]
  funext x
  rw [key]
  simp only [hp.mem_iff]

theorem nano_exists (i : Nat) (st : St κ α) : Nano E i st (nanoStep E i st) := by
  have h : Nano E i st _ := ⟨E.area, List.Perm.refl _, rfl⟩
  have := nano_eq h
  rw [this] at h
  exact h

theorem nanos_iff (n : Nat) : ∀ (st st' : St κ α), Nanos E n st st' ↔ st' = (List.range n).foldl (fun st i => nanoStep E i st) st := by
  induction n with
  | zero =>
    intro st st'
    constructor
    · intro h; cases h; rfl
    · intro h; rw [h]; exact Nanos.zero
  | succ n ih =>
    intro st st'
    rw [List.range_succ, List.foldl_append]
    constructor
    · intro h
      cases h with
      | succ h h' => rw [nano_eq h', (ih _ _).1 h]; rfl
    · intro h
      rw [h]
      exact Nanos.succ ((ih _ _).2 rfl) (nano_exists n _)

/-- **C70 (step).** Each execution of a step yields the state which `SerialSimulator` yields, and there is one. -/
theorem step_iff (st : St κ α) (fb : Bool) (st' : St κ α) (fb' : Bool) : Step E st fb st' fb' ↔ (st', fb') = Serial.step E st fb := by
  unfold Step Serial.step
  constructor
  · rintro ⟨st2, h1, rfl, rfl⟩
    rw [(nanos_iff _ _ _).1 h1]
  · intro h
    refine ⟨_, (nanos_iff _ _ _).2 rfl, ?_, ?_⟩
    · exact (Prod.mk.inj h).2
    · exact (Prod.mk.inj h).1

theorem handleInput_step (E : Env κ α) (ev : Event) (st : St κ α) (fb : Bool) : (handleInput E ev st fb).1.step = st.step := by
  rw [C30.handleInput_eq]

theorem nanos_step (E : Env κ α) (l : List Nat) : ∀ st : St κ α, (l.foldl (fun st i => nanoStep E i st) st).step = st.step := by
  induction l with
  | nil => intro st; rfl
  | cons i l ih => intro st; rw [List.foldl_cons, ih]; rfl

theorem step_step (E : Env κ α) (st : St κ α) (fb : Bool) : (Serial.step E st fb).1.step = st.step + 1 := by
  unfold Serial.step
  simp only [handleOutput, nanos_step, handleInput_step]

theorem loop_eq {st st' : St κ α} {fb fb' : Bool} (h : Loop E st fb st' fb') : ∀ n, E.maxSteps < st.step + n → (st', fb') = Serial.loop E n st fb := by
  induction h with
  | @halt st fb h =>
    intro n hn
    cases n with
    | zero => rfl
    | succ n =>
      rw [Serial.loop]
      rcases h with h | h
      · rw [if_neg h]
      · subst h
        split <;> rfl
  | @next st st1 fb1 st2 fb2 h h1 h2 ih =>
    intro n hn
    cases n with
    | zero => omega
    | succ n =>
      have h1 := (step_iff _ _ _ _).1 h1
      rw [Serial.loop, if_pos h]
      simp only [Bool.false_eq_true, if_false]
      rw [← h1]
      refine ih n ?_
      have := congrArg (fun p => p.1.step) h1
      simp only [step_step] at this
      omega

theorem loop_exists (n : Nat) : ∀ (st : St κ α) (fb : Bool), E.maxSteps < st.step + n → Loop E st fb (Serial.loop E n st fb).1 (Serial.loop E n st fb).2 := by
  induction n with
  | zero => intro st fb h; exact Loop.halt (Or.inl (by omega))
  | succ n ih =>
    intro st fb h
    rw [Serial.loop]
    by_cases h1 : st.step < E.maxSteps
    · rw [if_pos h1]
      cases fb with
      | true => exact Loop.halt (Or.inr rfl)
      | false =>
        simp only [Bool.false_eq_true, if_false]
        exact Loop.next h1 ((step_iff st false (Serial.step E st false).1 (Serial.step E st false).2).2 rfl) (ih _ _ (by rw [step_step]; omega))
    · rw [if_neg h1]
      exact Loop.halt (Or.inl h1)

/-- **C70 (run).** Each execution of `run`, from whatever state and for whatever schedule of the threads, yields the state which
`SerialSimulator` yields: grids, step, and the sequences of calls of writers and steerers. There is such an execution, too. -/
theorem run_iff (st st' : St κ α) : Run E st st' ↔ st' = Serial.run E st := by
  have hs : E.maxSteps < (handleOutput E .initialized (handleInput E .initialized { st with cur := E.initial, step := E.startStep } false).1).step + (E.maxSteps + 1) := by omega
  unfold Run Serial.run
  constructor
  · rintro ⟨st3, fb3, h, rfl⟩
    have := loop_eq h _ hs
    simp only
    rw [← this]
  · intro h
    exact ⟨_, _, loop_exists _ _ _ hs, h⟩

/-- **C70 (results).** Thus runs end with the synchronous updates of C30, whatever the threads do. -/
theorem results (hI : C30.Inside E) (st' : St κ α) (h : Run E (make E) st') : st' = Serial.run E (make E) ∧ st'.cur = (Serial.run E (C30.steps E 0)).cur := by
  have h1 := (run_iff _ _).1 h
  exact ⟨h1, by rw [h1, C30.run_after_steps hI 0]⟩

/-! ## Parallel output -/

theorem filter_le_one {β : Type} (f : β → Nat) (w : Nat) : ∀ l : List β, (l.map f).Nodup → (l.filter (fun b => decide (f b = w))).length ≤ 1 := by
  intro l
  induction l with
  | nil => simp
  | cons b l ih =>
    intro h
    rw [List.map_cons, List.nodup_cons] at h
    by_cases e : f b = w
    · rw [List.filter_cons_of_pos (by simpa using e)]
      have : l.filter (fun b => decide (f b = w)) = [] := by
        rw [List.filter_eq_nil_iff]
        intro x hx he
        simp only [decide_eq_true_eq] at he
        exact h.1 (List.mem_map.2 ⟨x, hx, by rw [he, e]⟩)
      rw [this]; simp
    · rw [List.filter_cons_of_neg (by simpa using e)]
      exact ih h.2

theorem perm_le_one {β : Type} {l l' : List β} (h : l.Perm l') (h1 : l'.length ≤ 1) : l = l' := by
  cases l' with
  | nil => exact h.eq_nil
  | cons b l' =>
    cases l' with
    | nil => exact List.perm_singleton.1 h
    | cons c l' => simp at h1

theorem filter_perm_eq {β : Type} (f : β → Nat) (w : Nat) {l l' : List β} (h : l.Perm l') (hn : (l'.map f).Nodup) :
    l.filter (fun b => decide (f b = w)) = l'.filter (fun b => decide (f b = w)) :=
  perm_le_one (h.filter _) (filter_le_one f w l' hn)

theorem filterMap_sublist {β γ : Type} (f : β × Nat → Option γ) (g : γ → Nat) (hf : ∀ p c, f p = some c → g c = p.2) :
    ∀ l : List (β × Nat), ((l.filterMap f).map g).Sublist (l.map Prod.snd) := by
  intro l
  induction l with
  | nil => simp
  | cons p l ih =>
    rw [List.filterMap_cons]
    cases e : f p with
    | none => exact ih.cons _
    | some c =>
      simp only [List.map_cons, hf p c e]
      exact ih.cons_cons _

theorem zipIdx_nodup {β : Type} (l : List β) : (l.zipIdx.map Prod.snd).Nodup := by
  have : l.zipIdx.map Prod.snd = List.range' 0 l.length := List.zipIdx_map_snd 0 l
  rw [this]
  exact List.nodup_range'

/-- **C70 (parallel output).** In each execution of the parallel `handleOutput`, each writer gets the calls it gets from the serial one,
and nothing else changes. -/
theorem parallel_output (ev : Event) (st st' : St κ α) (h : Output E ev st st') :
    (∀ w, st'.output.filter (fun c => decide (c.writer = w)) = (handleOutput E ev st).output.filter (fun c => decide (c.writer = w))) ∧
      st'.cur = st.cur ∧ st'.new = st.new ∧ st'.step = st.step ∧ st'.input = st.input := by
  obtain ⟨calls, hp, rfl⟩ := h
  refine ⟨fun w => ?_, rfl, rfl, rfl, rfl⟩
  unfold handleOutput
  simp only [List.filter_append]
  congr 1
  refine filter_perm_eq (fun c : WCall κ α => c.writer) w hp ?_
  refine (filterMap_sublist _ _ ?_ _).nodup (zipIdx_nodup E.writers)
  intro p c hc
  split at hc
  · simp only [Option.some.injEq] at hc
    rw [← hc]
  · cases hc

/-! ## Parallel input -/

/-- the cells a steerer reads and writes, and whether it ends simulations -/
structure Foot (κ : Type) where
  reads : κ → Prop
  writes : κ → Prop
  stops : Prop

/-- a program accesses nothing else -/
def Within (F : Foot κ) : Prog κ α → Prop
  | .done => True
  | .read c k => F.reads c ∧ ∀ v, Within F (k v)
  | .write c _ p => F.writes c ∧ Within F p
  | .stop p => F.stops ∧ Within F p

/-- two footprints without conflicts -/
def Apart (F G : Foot κ) : Prop :=
  (∀ c, F.writes c → ¬ G.reads c ∧ ¬ G.writes c) ∧ (∀ c, G.writes c → ¬ F.reads c) ∧ ¬ (F.stops ∧ G.stops)

theorem exec_fb (p : Prog κ α) : ∀ (g : κ → α) (fb : Bool), exec p g fb = ((exec p g false).1, fb || (exec p g false).2) := by
  induction p with
  | done => intro g fb; simp [exec]
  | read c k ih => intro g fb; simp only [exec]; exact ih _ g fb
  | write c v p ih => intro g fb; simp only [exec]; exact ih _ fb
  | stop p ih =>
    intro g fb
    simp only [exec]
    rw [ih g true]
    simp

theorem exec_frame (F : Foot κ) (c : κ) (hc : ¬ F.writes c) (p : Prog κ α) : Within F p → ∀ (g : κ → α) (fb : Bool), (exec p g fb).1 c = g c := by
  induction p with
  | done => intro _ g fb; rfl
  | read d k ih => intro h g fb; exact ih _ (h.2 _) g fb
  | write d v p ih =>
    intro h g fb
    simp only [exec]
    rw [ih h.2]
    have : c ≠ d := fun e => hc (e ▸ h.1)
    rw [if_neg this]
  | stop p ih => intro h g fb; exact ih h.2 g true

theorem exec_update (F : Foot κ) (c : κ) (v : α) (hr : ¬ F.reads c) (hw : ¬ F.writes c) (p : Prog κ α) : Within F p → ∀ (g : κ → α) (fb : Bool),
    exec p (fun x => if x = c then v else g x) fb = (fun x => if x = c then v else (exec p g fb).1 x, (exec p g fb).2) := by
  induction p with
  | done => intro _ g fb; rfl
  | read d k ih =>
    intro h g fb
    have : d ≠ c := fun e => hr (e ▸ h.1)
    simp only [exec, if_neg this]
    exact ih _ (h.2 _) g fb
  | write d u p ih =>
    intro h g fb
    have hd : d ≠ c := fun e => hw (e ▸ h.1)
    simp only [exec]
    rw [← ih h.2]
    congr 1
    funext x
    by_cases h1 : x = d
    · subst h1; simp [hd]
    · by_cases h2 : x = c
      · subst h2; simp [h1]
      · simp [h1, h2]
  | stop p ih => intro h g fb; exact ih h.2 g true

/-- programs one after the other -/
def inOrder (ps : List (Prog κ α)) (g : κ → α) (fb : Bool) : (κ → α) × Bool := ps.foldl (fun a p => exec p a.1 a.2) (g, fb)

theorem inOrder_append (ps qs : List (Prog κ α)) (g : κ → α) (fb : Bool) :
    inOrder (ps ++ qs) g fb = inOrder qs (inOrder ps g fb).1 (inOrder ps g fb).2 := by
  unfold inOrder; rw [List.foldl_append]

theorem inOrder_cons (p : Prog κ α) (ps : List (Prog κ α)) (g : κ → α) (fb : Bool) : inOrder (p :: ps) g fb = inOrder ps (exec p g fb).1 (exec p g fb).2 := rfl

theorem inOrder_frame (c : κ) (ps : List (Prog κ α)) (h : ∀ p ∈ ps, ∃ F, Within F p ∧ ¬ F.writes c) : ∀ g fb, (inOrder ps g fb).1 c = g c := by
  induction ps with
  | nil => intro g fb; rfl
  | cons p ps ih =>
    intro g fb
    obtain ⟨F, h1, h2⟩ := h p (by simp)
    rw [inOrder_cons, ih (fun q hq => h q (by simp [hq])), exec_frame F c h2 p h1]

theorem inOrder_update (c : κ) (v : α) (ps : List (Prog κ α)) (h : ∀ p ∈ ps, ∃ F, Within F p ∧ ¬ F.writes c ∧ ¬ F.reads c) : ∀ g fb,
    inOrder ps (fun x => if x = c then v else g x) fb = (fun x => if x = c then v else (inOrder ps g fb).1 x, (inOrder ps g fb).2) := by
  induction ps with
  | nil => intro g fb; rfl
  | cons p ps ih =>
    intro g fb
    obtain ⟨F, h1, h2, h3⟩ := h p (by simp)
    rw [inOrder_cons, exec_update F c v h3 h2 p h1, ih (fun q hq => h q (by simp [hq])), inOrder_cons]

theorem inOrder_fb (ps : List (Prog κ α)) : ∀ g fb, inOrder ps g fb = ((inOrder ps g false).1, fb || (inOrder ps g false).2) := by
  induction ps with
  | nil => intro g fb; simp [inOrder]
  | cons p ps ih =>
    intro g fb
    rw [inOrder_cons, inOrder_cons, exec_fb p g fb, ih, ih _ (exec p g false).2]
    simp [Bool.or_assoc]

/-- all programs stay within footprints which are pairwise apart -/
def Separate (F : Nat → Foot κ) (ps : List (Prog κ α)) : Prop :=
  (∀ i p, ps[i]? = some p → Within (F i) p) ∧ ∀ i j, i ≠ j → i < ps.length → j < ps.length → Apart (F i) (F j)

omit [DecidableEq κ] in
theorem separate_set {F : Nat → Foot κ} {ps : List (Prog κ α)} (h : Separate F ps) (i : Nat) (p : Prog κ α) (hp : Within (F i) p) : Separate F (ps.set i p) := by
  refine ⟨fun j q hq => ?_, by simpa using h.2⟩
  rw [List.getElem?_set] at hq
  split at hq
  · rename_i e
    split at hq
    · simp only [Option.some.injEq] at hq
      rw [← e, ← hq]; exact hp
    · cases hq
  · exact h.1 j q hq

theorem split_at {ps : List (Prog κ α)} {i : Nat} {p : Prog κ α} (h : ps[i]? = some p) (q : Prog κ α) :
    ps = ps.take i ++ p :: ps.drop (i + 1) ∧ ps.set i q = ps.take i ++ q :: ps.drop (i + 1) := by
  have hi : i < ps.length := by
    by_contra hge
    rw [List.getElem?_eq_none (by omega)] at h; cases h
  rw [List.getElem?_eq_getElem hi, Option.some.injEq] at h
  refine ⟨?_, ?_⟩
  · rw [← h]; simp
  · rw [List.set_eq_take_append_cons_drop, if_pos hi]

theorem mem_take_index {ps : List (Prog κ α)} {i : Nat} {q : Prog κ α} (h : q ∈ ps.take i) : ∃ j, j < i ∧ ps[j]? = some q := by
  obtain ⟨j, hj⟩ := List.mem_iff_getElem?.1 h
  rw [List.getElem?_take] at hj
  split at hj
  · exact ⟨j, by assumption, hj⟩
  · cases hj

/-- an access doesn't change what the programs yield one after the other -/
theorem access_inOrder {F : Nat → Foot κ} {c d : Conf κ α} (ha : Access c d) (h : Separate F c.progs) :
    Separate F d.progs ∧ inOrder d.progs d.grid d.fb = inOrder c.progs c.grid c.fb := by
  have before : ∀ (ps : List (Prog κ α)) (i : Nat) (p : Prog κ α), Separate F ps → ps[i]? = some p → ∀ q ∈ ps.take i, ∃ G, Within G q ∧ Apart (F i) G := by
    intro ps i p hs hp q hq
    obtain ⟨j, hj, hq⟩ := mem_take_index hq
    have hi : i < ps.length := by
      by_contra hge
      rw [List.getElem?_eq_none (by omega)] at hp; cases hp
    exact ⟨F j, hs.1 j q hq, hs.2 i j (by omega) hi (by omega)⟩
  cases ha with
  | @read g fb ps i x k hp =>
    have hw := h.1 i _ hp
    refine ⟨separate_set h i _ (hw.2 _), ?_⟩
    obtain ⟨e1, e2⟩ := split_at hp (k (g x))
    simp only
    rw [e2]
    conv_rhs => rw [e1]
    rw [inOrder_append, inOrder_append, inOrder_cons, inOrder_cons]
    have hx : (inOrder (ps.take i) g fb).1 x = g x := inOrder_frame x _ (fun q hq => by
      obtain ⟨G, h1, h2⟩ := before ps i _ h hp q hq
      exact ⟨G, h1, fun hG => h2.2.1 x hG hw.1⟩) g fb
    simp only [exec, hx]
  | @write g fb ps i x v p hp =>
    have hw := h.1 i _ hp
    refine ⟨separate_set h i _ hw.2, ?_⟩
    obtain ⟨e1, e2⟩ := split_at hp p
    simp only
    rw [e2]
    conv_rhs => rw [e1]
    rw [inOrder_append, inOrder_append, inOrder_cons, inOrder_cons]
    rw [inOrder_update x v _ (fun q hq => by
      obtain ⟨G, h1, h2⟩ := before ps i _ h hp q hq
      exact ⟨G, h1, (h2.1 x hw.1).2, (h2.1 x hw.1).1⟩) g fb]
    simp only [exec]
  | @stop g fb ps i p hp =>
    have hw := h.1 i _ hp
    refine ⟨separate_set h i _ hw.2, ?_⟩
    obtain ⟨e1, e2⟩ := split_at hp p
    simp only
    rw [e2]
    conv_rhs => rw [e1]
    rw [inOrder_append, inOrder_append, inOrder_cons, inOrder_cons]
    rw [inOrder_fb _ g true, inOrder_fb _ g fb]
    simp only [exec, Bool.true_or]

omit [DecidableEq κ] in
theorem separate_no_race {F : Nat → Foot κ} {c : Conf κ α} (h : Separate F c.progs) : ¬ c.race := by
  rintro ⟨i, j, p, q, hij, hp, hq, hc⟩
  have lt : ∀ {i p}, c.progs[i]? = some p → i < c.progs.length := by
    intro i p hp
    by_contra hge
    rw [List.getElem?_eq_none (by omega)] at hp; cases hp
  have wp := h.1 i p hp
  have wq := h.1 j q hq
  have ha := h.2 i j hij (lt hp) (lt hq)
  cases p <;> cases q <;> simp only [conflict] at hc <;> simp only [Within] at wp wq
  · subst hc; exact ha.2.1 _ wq.1 wp.1
  · subst hc; exact (ha.1 _ wp.1).1 wq.1
  · subst hc; exact (ha.1 _ wp.1).2 wq.1
  · exact ha.2.2 ⟨wp.1, wq.1⟩

omit [DecidableEq κ] in
theorem inOrder_done [DecidableEq κ] (ps : List (Prog κ α)) (h : ∀ p ∈ ps, p = .done) (g : κ → α) (fb : Bool) : inOrder ps g fb = (g, fb) := by
  induction ps with
  | nil => rfl
  | cons p ps ih =>
    rw [inOrder_cons, h p (by simp)]
    exact ih (fun q hq => h q (by simp [hq]))

/-- **C70 (parallel loops).** Programs with separate footprints never race, and whatever the interleaving, they yield what they yield one
after the other. -/
theorem interleavings (F : Nat → Foot κ) (c d : Conf κ α) (h : Separate F c.progs) (hr : Relation.ReflTransGen Access c d) :
    ¬ d.race ∧ (d.ended → (d.grid, d.fb) = inOrder c.progs c.grid c.fb) := by
  have : Separate F d.progs ∧ inOrder d.progs d.grid d.fb = inOrder c.progs c.grid c.fb := by
    induction hr with
    | refl => exact ⟨h, rfl⟩
    | tail _ ha ih =>
      obtain ⟨h1, h2⟩ := access_inOrder ha ih.1
      exact ⟨h1, h2.trans ih.2⟩
  refine ⟨separate_no_race this.1, fun he => ?_⟩
  rw [← this.2, inOrder_done _ he]

/-- **C70 (parallel input).** If the steerers called for an event access separate sets of cells and at most one of them may end the
simulation, then each execution of the parallel `handleInput` does what the serial one does; each steerer is called
alike. -/
theorem parallel_input_partial (steerers : List (Omp.Steerer κ α)) (hE : E.steerers = steerers.map Omp.Steerer.serial) (ev : Event) (st : St κ α) (fb : Bool) (st' : St κ α) (fb' : Bool)
    (F : Nat → Foot κ) (hF : Separate F ((due steerers ev st.step).map fun p => p.1.prog st.step ev)) (h : Input steerers ev st fb st' fb') :
    st'.cur = (handleInput E ev st fb).1.cur ∧ fb' = (handleInput E ev st fb).2 ∧ st'.new = st.new ∧ st'.step = st.step ∧ st'.output = st.output ∧
      ∀ s, st'.input.filter (fun c => decide (c.steerer = s)) = (handleInput E ev st fb).1.input.filter (fun c => decide (c.steerer = s)) := by
  obtain ⟨c, calls, h1, h2, h3, rfl, rfl⟩ := h
  have hi := (interleavings F _ c hF h1).2 h2
  have hser : inOrder ((due steerers ev st.step).map fun p => p.1.prog st.step ev) st.cur fb =
      ((C30.steered E ev st.step st.cur).1, fb || (C30.steered E ev st.step st.cur).2) := by
    rw [inOrder_fb]
    have key : ∀ (l : List (Omp.Steerer κ α)) (n : Nat) (g : κ → α) (b : Bool),
        inOrder (((l.zipIdx n).filter fun p => decide (ev ≠ .regular ∨ st.step % p.1.period = 0)).map fun p => p.1.prog st.step ev) g b =
          (l.map Omp.Steerer.serial).foldl (fun a s => if ev ≠ .regular ∨ st.step % s.period = 0 then ((s.nextStep st.step ev a.1).1, a.2 || (s.nextStep st.step ev a.1).2) else a) (g, b) := by
      intro l
      induction l with
      | nil => intro n g b; rfl
      | cons s l ih =>
        intro n g b
        rw [List.zipIdx_cons, List.map_cons, List.foldl_cons]
        by_cases hd : ev ≠ .regular ∨ st.step % s.period = 0
        · rw [List.filter_cons_of_pos (by simpa using hd), List.map_cons, inOrder_cons, ih]
          have : (ev ≠ .regular ∨ st.step % (Omp.Steerer.serial s).period = 0) := hd
          rw [if_pos this, exec_fb]
          rfl
        · rw [List.filter_cons_of_neg (by simpa using hd), ih]
          have : ¬ (ev ≠ .regular ∨ st.step % (Omp.Steerer.serial s).period = 0) := hd
          rw [if_neg this]
    have := key steerers 0 st.cur false
    unfold due C30.steered
    rw [this, hE]
  simp only at hi
  rw [hser] at hi
  rw [C30.handleInput_eq]
  refine ⟨(Prod.mk.inj hi).1, (Prod.mk.inj hi).2, rfl, rfl, rfl, fun s => ?_⟩
  simp only [List.filter_append]
  congr 1
  have hcalls : (due steerers ev st.step).map (fun p => (⟨p.2, st.step, ev⟩ : SCall)) = C30.steerersAt E ev st.step := by
    unfold due C30.steerersAt
    rw [hE, List.zipIdx_map, List.filterMap_map]
    generalize steerers.zipIdx = l
    induction l with
    | nil => rfl
    | cons p l ih =>
      by_cases hd : ev ≠ .regular ∨ st.step % p.1.period = 0
      · rw [List.filter_cons_of_pos (by simpa using hd), List.map_cons, ih, List.filterMap_cons]
        have : (ev ≠ .regular ∨ st.step % (Omp.Steerer.serial p.1).period = 0) := hd
        simp only [Function.comp, Prod.map, if_pos this]
        rfl
      · rw [List.filter_cons_of_neg (by simpa using hd), ih, List.filterMap_cons]
        have : ¬ (ev ≠ .regular ∨ st.step % (Omp.Steerer.serial p.1).period = 0) := hd
        simp only [Function.comp, Prod.map, if_neg this]
  rw [hcalls] at h3
  refine filter_perm_eq (fun c : SCall => c.steerer) s h3 ?_
  refine (filterMap_sublist _ _ ?_ _).nodup (zipIdx_nodup E.steerers)
  intro p c hc
  split at hc
  · simp only [Option.some.injEq] at hc
    rw [← hc]
  · cases hc

/-- increments a cell -/
def incr : Prog Nat Nat := .read 0 fun v => .write 0 (v + 1) .done

/-- **C70, violated.** Two steerers which increment a cell race in the parallel `handleInput`: an increment may be lost. -/
theorem parallel_input_race : ∃ c d : Conf Nat Nat, Relation.ReflTransGen Access ⟨fun _ => 0, false, [incr, incr]⟩ c ∧ c.race ∧
    Relation.ReflTransGen Access c d ∧ d.ended ∧ d.grid 0 = 1 ∧ (inOrder [incr, incr] (fun _ => 0) false).1 0 = 2 := by
  have s1 : Access (⟨fun _ => 0, false, [incr, incr]⟩ : Conf Nat Nat) ⟨fun _ => 0, false, [.write 0 1 .done, incr]⟩ := Access.read (i := 0) (c := 0) (k := fun v => .write 0 (v + 1) .done) rfl
  have s2 : Access (⟨fun _ => 0, false, [.write 0 1 .done, incr]⟩ : Conf Nat Nat) ⟨fun _ => 0, false, [.write 0 1 .done, .write 0 1 .done]⟩ := Access.read (i := 1) (c := 0) (k := fun v => .write 0 (v + 1) .done) rfl
  refine ⟨_, _, (Relation.ReflTransGen.single s1).tail s2, ⟨0, 1, _, _, by decide, rfl, rfl, rfl⟩,
    (Relation.ReflTransGen.single (Access.write (i := 0) rfl)).tail (Access.write (i := 1) rfl), ?_, rfl, rfl⟩
  intro p hp
  simp only [List.set_cons_zero, List.set_cons_succ, List.mem_cons, List.not_mem_nil, or_false, or_self] at hp
  exact hp

/-! ## Examples -/

/-- two steerers with disjoint cells: cell 0 is incremented, cell 1 is set -/
example (d : Conf Nat Nat) (h : Relation.ReflTransGen Access ⟨fun _ => 7, false, [incr, .write 1 3 (.stop .done)]⟩ d) (he : d.ended) :
    d.grid 0 = 8 ∧ d.grid 1 = 3 ∧ d.fb = true ∧ ¬ d.race := by
  have := interleavings (fun i => if i = 0 then ⟨fun c => c = 0, fun c => c = 0, False⟩ else ⟨fun _ => False, fun c => c = 1, True⟩) _ d (by
    refine ⟨fun i p hp => ?_, fun i j hij hi hj => ?_⟩
    · match i with
      | 0 => cases hp; simp [incr, Within]
      | 1 => cases hp; simp [Within]
      | _ + 2 => simp at hp
    · simp only [List.length_cons, List.length_nil] at hi hj
      match i, j with
      | 0, 0 => exact absurd rfl hij
      | 0, 1 => refine ⟨?_, ?_, ?_⟩ <;> simp
      | 1, 0 => exact ⟨by simp, by simp, by simp⟩
      | 1, 1 => exact absurd rfl hij
      | _ + 2, _ => omega
      | _, _ + 2 => omega) h
  obtain ⟨h1, h2⟩ := this
  have h2 := Prod.mk.inj (h2 he)
  refine ⟨(congrFun h2.1 _), (congrFun h2.1 _), h2.2, h1⟩

/-- three cells, each becomes the sum of itself and its left neighbour; two steps, a writer with period 2 -/
def ex : Env Nat Nat where
  nanoSteps := 1
  startStep := 0
  maxSteps := 2
  area := [0, 1, 2]
  initial := fun c => c
  upd := fun _ g c => g c + g (c - 1)
  steerers := []
  writers := [⟨2, by decide⟩]

/-- updates from right to left -/
example (st : St Nat Nat) (h : Run ex (make ex) st) : (st.cur 0, st.cur 1, st.cur 2) = (0, 1, 4) := by
  rw [(run_iff _ _).1 h]; rfl
example : ∃ st, Nano ex 0 (make ex) st ∧ st.cur 2 = 3 := ⟨_, ⟨[2, 1, 0], by decide, rfl⟩, by decide⟩

end LGD.C70
