import Verif.Cuda.Kernel
import Verif.Cuda.SimModel

/-!
# C61: CUDASimulator
-/

namespace LGD.C61
open LGD.Cuda

variable {α : Type}

/-! ## One launch -/

/-- the memory of the device contains the grid, padded with edge cells -/
def Holds (c : Cfg) (mem : Int → α) (g : P → α) (edge : α) : Prop := ∀ p, c.Padded p → mem (c.addr p) = if c.Inside p then g p else edge

/-- all cells are updated synchronously; neighbors beyond the boundaries are taken from the opposite side, or are the edge cell -/
def update (c : Cfg) (S : List P) (f : List α → α) (edge : α) (g : P → α) : P → α := fun p => f (S.map fun o => c.look g edge ⟨p.x + o.x, p.y + o.y, p.z + o.z⟩)

theorem turn_range (w : Bool) {d k : Int} {pad : Nat} (hd : 0 < d) (hw : w = true ∨ (-(pad : Int) ≤ k ∧ k < d + pad)) : -(pad : Int) ≤ turn w d k ∧ turn w d k < d + pad := by
  unfold turn
  cases w with
  | false =>
    rcases hw with hw | hw
    · cases hw
    · exact hw
  | true =>
    have := Int.emod_nonneg k (show d ≠ 0 by omega)
    have := Int.emod_lt_of_pos k hd
    simp only [if_true]
    constructor <;> omega

/-- an axis of length `d`, periodic or with padding, or not used -/
theorem axis_range (w : Bool) {d k o : Int} {pad : Nat} (h0 : 0 ≤ k) (h1 : k < d) (h2 : -1 ≤ o) (h3 : o ≤ 1) (h : w = true ∨ pad = 1 ∨ o = 0) : -(pad : Int) ≤ turn w d (k + o) ∧ turn w d (k + o) < d + pad := by
  refine turn_range w (by omega) ?_
  rcases h with h | h | h
  · exact Or.inl h
  · right; subst h; constructor <;> push_cast <;> omega
  · right; subst h; constructor <;> omega

/-- what the cell reads is its neighbor -/
theorem reads {c : Cfg} (hs : Sane c) {old : Int → α} {g : P → α} {edge : α} (hold : Holds c old g edge) {p o : P} (hp : c.Inside p) (ho : Near c o) :
    c.Valid (hood c (evOf c p) o) ∧ old (hood c (evOf c p) o) = c.look g edge ⟨p.x + o.x, p.y + o.y, p.z + o.z⟩ := by
  rw [hood_eq hs hp ho]
  have hD := hs.D1
  obtain ⟨⟨h1, h2⟩, ⟨h3, h4⟩, ⟨h5, h6⟩⟩ := hp
  obtain ⟨⟨o1, o2⟩, ⟨o3, o4⟩, ⟨o5, o6⟩, o7, o8⟩ := ho
  have ax : c.wx = true ∨ c.px = 1 ∨ o.x = 0 := by
    unfold Cfg.px
    cases c.wx <;> simp
  have ay : c.wy = true ∨ c.py = 1 ∨ o.y = 0 := by
    unfold Cfg.py
    by_cases h : c.D < 2
    · exact Or.inr (Or.inr (o7 h))
    · cases c.wy <;> simp [h]
  have az : c.wz = true ∨ c.pz = 1 ∨ o.z = 0 := by
    unfold Cfg.pz
    by_cases h : c.D < 3
    · exact Or.inr (Or.inr (o8 h))
    · cases c.wz <;> simp [h]
  have hpad : c.Padded ⟨turn c.wx c.dx (p.x + o.x), turn c.wy c.dy (p.y + o.y), turn c.wz c.dz (p.z + o.z)⟩ := ⟨axis_range _ h1 h2 o1 o2 ax, axis_range _ h3 h4 o3 o4 ay, axis_range _ h5 h6 o5 o6 az⟩
  refine ⟨addr_valid c hpad, ?_⟩
  rw [hold _ hpad]
  have key : ∀ (w : Bool) (d : Nat) (k : Int), 0 < d → ((0 ≤ turn w d k ∧ turn w d k < d) ↔ ¬ (w = false ∧ ¬ (0 ≤ k ∧ k < d))) := by
    intro w d k hd
    cases w with
    | false => simp [turn]
    | true =>
      have := Int.emod_nonneg k (show (d : Int) ≠ 0 by omega)
      have := Int.emod_lt_of_pos k (show (0 : Int) < d by omega)
      simp [turn, *]
  unfold Cfg.look
  have iff : c.Inside ⟨turn c.wx c.dx (p.x + o.x), turn c.wy c.dy (p.y + o.y), turn c.wz c.dz (p.z + o.z)⟩ ↔ ¬ c.Outside ⟨p.x + o.x, p.y + o.y, p.z + o.z⟩ := by
    unfold Cfg.Inside Cfg.Outside
    rw [not_or, not_or]
    exact and_congr (key _ _ _ hs.x) (and_congr (key _ _ _ hs.y) (key _ _ _ hs.z))
  by_cases hO : c.Outside ⟨p.x + o.x, p.y + o.y, p.z + o.z⟩
  · rw [if_pos hO, if_neg (fun h => iff.1 h hO)]
  · rw [if_neg hO, if_pos (iff.2 hO)]

theorem exec_all {c : Cfg} (hs : Sane c) {S : List P} (hS : ∀ o ∈ S, Near c o) (f : List α → α) {old : Int → α} {g : P → α} {edge : α} (hold : Holds c old g edge) (ps : List P) (hps : ∀ p ∈ ps, c.Inside p) :
    ∀ new : Int → α, ∃ new', execAll c S f old (ps.map (evOf c)) new = some new' ∧ ∀ p, c.Padded p → new' (c.addr p) = if p ∈ ps then update c S f edge g p else new (c.addr p) := by
  induction ps with
  | nil => exact fun new => ⟨new, rfl, fun p _ => by simp⟩
  | cons q ps ih =>
    intro new
    have hq := hps q (by simp)
    have hr := fun o ho => reads hs hold hq (hS o ho)
    have e1 : exec c S f old new (evOf c q) = some (Function.update new (c.addr q) (update c S f edge g q)) := by
      unfold exec
      rw [if_pos ⟨addr_valid c hq.padded, fun o ho => (hr o ho).1⟩]
      congr 2
      unfold update
      congr 1
      exact List.map_congr_left fun o ho => (hr o ho).2
    obtain ⟨n', e2, h⟩ := ih (fun p hp => hps p (List.mem_cons_of_mem _ hp)) (Function.update new (c.addr q) (update c S f edge g q))
    refine ⟨n', ?_, fun p hp => ?_⟩
    · unfold execAll at e2 ⊢
      rw [List.map_cons, List.foldlM_cons, e1]
      exact e2
    · rw [h p hp]
      by_cases hm : p ∈ ps
      · rw [if_pos hm, if_pos (List.mem_cons_of_mem _ hm)]
      · rw [if_neg hm]
        by_cases hpq : p = q
        · subst hpq
          rw [Function.update_self, if_pos (by simp)]
        · rw [Function.update_of_ne (fun e => hpq (addr_inj c hp hq.padded e)), if_neg (by simp [hpq, hm])]

theorem preimage {β γ : Type} {f : β → γ} {Q : β → Prop} (l : List γ) (h : ∀ e ∈ l, ∃ p, Q p ∧ f p = e) : ∃ ps : List β, l = ps.map f ∧ ∀ p ∈ ps, Q p := by
  induction l with
  | nil => exact ⟨[], rfl, by simp⟩
  | cons a l ih =>
    obtain ⟨ps, rfl, h1⟩ := ih fun e he => h e (List.mem_cons_of_mem _ he)
    obtain ⟨p, hp, rfl⟩ := h a (by simp)
    exact ⟨p :: ps, rfl, fun q hq => by rcases List.mem_cons.1 hq with rfl | hq <;> [exact hp; exact h1 q hq]⟩

/-- **C61, kernels.** For every number of dimensions, topology, size of the grid and of the blocks – if the last axis is periodic: at least two cells, and no idle threads –, and all neighbors at distance 1: whatever the order
in which the updates of all threads take place, a launch doesn't access memory beyond the grids, and computes the synchronous update of all cells; padding remains unchanged. -/
theorem kernel_update {c : Cfg} (hs : Sane c) (hf : Fits c) {S : List P} (hS : ∀ o ∈ S, Near c o) (f : List α → α) {old new : Int → α} {g h : P → α} {edge : α} (hold : Holds c old g edge) (hnew : Holds c new h edge)
    (evs : List Ev) (hp : evs.Perm (launch c)) : ∃ new', execAll c S f old evs new = some new' ∧ Holds c new' (update c S f edge g) edge := by
  rw [launch_eq hs hf] at hp
  obtain ⟨ps, rfl, hps⟩ := preimage (f := evOf c) (Q := c.Inside) evs fun e he => by
    obtain ⟨p, hp, e⟩ := List.mem_map.1 (hp.mem_iff.1 he)
    exact ⟨p, (mem_cells hs p).1 hp, e⟩
  have hm : ∀ p, p ∈ ps ↔ c.Inside p := by
    refine fun p => ⟨hps p, fun hi => ?_⟩
    obtain ⟨q, hq, e⟩ := List.mem_map.1 (hp.mem_iff.2 (List.mem_map.2 ⟨p, (mem_cells hs p).2 hi, rfl⟩))
    exact addr_inj c (hps q hq).padded hi.padded (congrArg Ev.idx e) ▸ hq
  obtain ⟨n', e, hn⟩ := exec_all hs hS f hold ps (fun p h => (hm p).1 h) new
  refine ⟨n', e, fun p hpad => ?_⟩
  rw [hn p hpad]
  by_cases hi : c.Inside p
  · rw [if_pos ((hm p).2 hi), if_pos hi]
  · rw [if_neg (fun h => hi ((hm p).1 h)), if_neg hi, hnew p hpad, if_neg hi]

/-- **C61, no races.** No cell is updated by two threads (one- and two-dimensional blocks for one- and two-dimensional models). -/
theorem kernel_once {c : Cfg} (hs : Sane c) (hf : Fits c) (hb : c.D = 3 ∨ c.bz = 1) : ((launch c).map Ev.idx).Nodup := by
  rw [launch_eq hs hf, List.map_map]
  refine List.Nodup.map_on (fun p hp q hq e => ?_) (cells_nodup hb)
  exact addr_inj c ((mem_cells hs p).1 hp).padded ((mem_cells hs q).1 hq).padded e

/-! ## Simulation -/

/-- all nano steps of one step -/
def wholeStep (E : Env α) (edge : α) (g : P → α) : P → α := (List.range E.nanoSteps).foldl (fun g i => update E.cfg E.stencil (E.upd i) edge g) g

/-- the grid after some steps; steerers are ignored -/
def reference (E : Env α) (edge : α) (g : P → α) : Nat → P → α
  | 0 => g
  | k + 1 => wholeStep E edge (reference E edge g k)

/-- calls of writers after `k` steps: index, step, event -/
def calls (E : Env α) (k : Nat) : List (Nat × Nat × WEvent) :=
  (E.writers.zipIdx.filter fun w => decide ((E.start + k) % w.1 = 0 ∨ E.start + k = E.stop)).map fun w => (w.2, E.start + k, if E.start + k = E.stop then .done else .finished)

/-- conditions for a simulation -/
structure Runs (E : Env α) (σ : Sched) (g : P → α) (edge : α) : Prop where
  sane : Sane E.cfg
  fits : Fits E.cfg
  near : ∀ o ∈ E.stencil, Near E.cfg o
  init : Holds E.cfg E.init g edge
  nano : 0 < E.nanoSteps
  sched : ∀ t i, (σ t i).Perm (launch E.cfg)
  aos : E.soa = false

/-- state after `k` steps -/
structure Inv (E : Env α) (g : P → α) (edge : α) (k : Nat) (s : St α) : Prop where
  step : s.step = E.start + k
  old : Holds E.cfg s.old (reference E edge g k) edge
  new : ∃ h, Holds E.cfg s.new h edge
  log : ∀ l ∈ s.log, ∃ j, l.2.1 = E.start + j ∧ Holds E.cfg l.2.2.2 (reference E edge g j) edge
  calls : s.log.map (fun l => (l.1, l.2.1, l.2.2.1)) = E.writers.zipIdx.map (fun w => (w.2, E.start, WEvent.initialized)) ++ (List.range k).flatMap fun j => C61.calls E (j + 1)

theorem steer_same (E : Env α) (s : St α) (b : Bool) : (steer E s b).1.old = s.old ∧ (steer E s b).1.new = s.new ∧ (steer E s b).1.step = s.step ∧ (steer E s b).1.log = s.log := by
  unfold steer
  generalize E.steerers = l
  induction l generalizing s b with
  | nil => exact ⟨rfl, rfl, rfl, rfl⟩
  | cons t l ih =>
    rw [List.foldl_cons]
    dsimp only
    split
    · exact ih _ _
    · exact ih _ _

theorem nano_steps {E : Env α} {σ : Sched} {g : P → α} {edge : α} (hr : Runs E σ g edge) (k : Nat) : ∀ (s : St α) (q : P → α), Holds E.cfg s.old q edge → (∃ h, Holds E.cfg s.new h edge) →
    ∃ s', (List.range k).foldlM (nanoStep E σ) s = some s' ∧ Holds E.cfg s'.old ((List.range k).foldl (fun g i => update E.cfg E.stencil (E.upd i) edge g) q) edge ∧ (∃ h, Holds E.cfg s'.new h edge) ∧
      s'.step = s.step ∧ s'.log = s.log ∧ (0 < k → s'.fresh = false) := by
  induction k with
  | zero => exact fun s q h1 h2 => ⟨s, rfl, h1, h2, rfl, rfl, fun h => absurd h (Nat.lt_irrefl _)⟩
  | succ k ih =>
    intro s q h1 h2
    obtain ⟨s1, e1, o1, n1, t1, l1, -⟩ := ih s q h1 h2
    obtain ⟨h, hn⟩ := n1
    obtain ⟨m, em, hm⟩ := kernel_update hr.sane hr.fits hr.near (E.upd k) o1 hn (σ s1.step k) (hr.sched _ _)
    refine ⟨{ s1 with old := m, new := s1.old, fresh := false }, ?_, ?_, ⟨_, o1⟩, t1, l1, fun _ => rfl⟩
    · rw [List.range_succ, List.foldlM_append, e1]
      show (List.foldlM (nanoStep E σ) s1 [k]) = _
      rw [List.foldlM_cons]
      unfold nanoStep
      rw [hr.aos, em]
      rfl
    · rw [List.range_succ, List.foldl_append]
      exact hm

/-- writers get the grid of the device -/
theorem write_spec (E : Env α) (s : St α) (h : s.fresh = false ∨ s.host = s.old) :
    (write E s).old = s.old ∧ (write E s).new = s.new ∧ (write E s).step = s.step ∧ ∃ ls, (write E s).log = s.log ++ ls ∧ (∀ l ∈ ls, l.2.1 = s.step ∧ l.2.2.2 = s.old) ∧
      ls.map (fun l => (l.1, l.2.1, l.2.2.1)) = (E.writers.zipIdx.filter fun w => decide (s.step % w.1 = 0 ∨ s.step = E.stop)).map fun w => (w.2, s.step, if s.step = E.stop then .done else .finished) := by
  unfold write
  dsimp only
  generalize E.writers.zipIdx = ws
  have key : ∀ (ws : List (Nat × Nat)) (t : St α), t.step = s.step → t.old = s.old → t.new = s.new → (t.fresh = false ∨ t.host = t.old) →
      let r := ws.foldl (fun t w => if t.step % w.1 = 0 ∨ s.step = E.stop then let t := getGrid t; { t with log := t.log ++ [(w.2, t.step, (if s.step = E.stop then WEvent.done else .finished), t.host)] } else t) t
      r.old = s.old ∧ r.new = s.new ∧ r.step = s.step ∧ ∃ ls, r.log = t.log ++ ls ∧ (∀ l ∈ ls, l.2.1 = s.step ∧ l.2.2.2 = s.old) ∧
        ls.map (fun l => (l.1, l.2.1, l.2.2.1)) = (ws.filter fun w => decide (s.step % w.1 = 0 ∨ s.step = E.stop)).map fun w => (w.2, s.step, if s.step = E.stop then .done else .finished) := by
    intro ws
    induction ws with
    | nil => exact fun t h1 h2 h3 _ => ⟨h2, h3, h1, [], by simp, by simp, rfl⟩
    | cons w ws ih =>
      intro t h1 h2 h3 h4
      dsimp only
      rw [List.foldl_cons]
      have hg : (getGrid t).host = t.old ∧ (getGrid t).old = t.old ∧ (getGrid t).new = t.new ∧ (getGrid t).step = t.step ∧ (getGrid t).log = t.log := by
        unfold getGrid
        rcases h4 with h4 | h4
        · rw [h4]; exact ⟨rfl, rfl, rfl, rfl, rfl⟩
        · split
          · exact ⟨h4, rfl, rfl, rfl, rfl⟩
          · exact ⟨rfl, rfl, rfl, rfl, rfl⟩
      obtain ⟨g1, g2, g3, g4, g5⟩ := hg
      by_cases hc : t.step % w.1 = 0 ∨ s.step = E.stop
      · rw [if_pos hc]
        obtain ⟨r1, r2, r3, ls, e1, e2, e3⟩ := ih { getGrid t with log := (getGrid t).log ++ [(w.2, (getGrid t).step, (if s.step = E.stop then WEvent.done else .finished), (getGrid t).host)] }
          (g4.trans h1) (g2.trans h2) (g3.trans h3) (Or.inr (g1.trans g2.symm))
        refine ⟨r1, r2, r3, (w.2, (getGrid t).step, (if s.step = E.stop then WEvent.done else .finished), (getGrid t).host) :: ls, ?_, ?_, ?_⟩
        · rw [e1, g5]; simp
        · intro l hl
          rcases List.mem_cons.1 hl with rfl | hl
          · exact ⟨g4.trans h1, g1.trans h2⟩
          · exact e2 l hl
        · rw [h1] at hc
          rw [List.map_cons, e3, List.filter_cons_of_pos (by simpa using hc), List.map_cons, g4, h1]
      · rw [if_neg hc]
        obtain ⟨r1, r2, r3, ls, e1, e2, e3⟩ := ih t h1 h2 h3 h4
        refine ⟨r1, r2, r3, ls, e1, e2, ?_⟩
        rw [h1] at hc
        rw [e3, List.filter_cons_of_neg (by simpa using hc)]
  exact key ws s rfl rfl rfl h

theorem step_inv {E : Env α} {σ : Sched} {g : P → α} {edge : α} (hr : Runs E σ g edge) {k : Nat} {s : St α} (h : Inv E g edge k s) (b : Bool) :
    ∃ r, step E σ s b = some r ∧ Inv E g edge (k + 1) r.1 := by
  obtain ⟨t1, t2, t3, t4⟩ := steer_same E s b
  obtain ⟨s', e, o, n, st, lg, fr⟩ := nano_steps hr E.nanoSteps (steer E s b).1 (reference E edge g k) (t1 ▸ h.old) (t2 ▸ h.new)
  obtain ⟨w1, w2, w3, ls, w4, w5, w6⟩ := write_spec E { s' with step := s'.step + 1 } (Or.inl (fr hr.nano))
  have hst : s'.step + 1 = E.start + (k + 1) := by rw [st, t3, h.step]; omega
  refine ⟨(write E { s' with step := s'.step + 1 }, (steer E s b).2), ?_, ⟨w3.trans hst, ?_, ?_, ?_, ?_⟩⟩
  · unfold step
    dsimp only
    rw [e]
    rfl
  · rw [w1]; exact o
  · rw [w2]; exact n
  · rw [w4]
    intro l hl
    rcases List.mem_append.1 hl with hl | hl
    · refine h.log l ?_
      have : l ∈ s'.log := hl
      rwa [lg, t4] at this
    · obtain ⟨a, b⟩ := w5 l hl
      refine ⟨k + 1, a.trans hst, ?_⟩
      rw [b]
      exact o
  · rw [w4, List.map_append, w6]
    show List.map _ s'.log ++ _ = _
    rw [lg, t4, h.calls, List.range_succ, List.flatMap_append, ← List.append_assoc]
    congr 1
    simp only [List.flatMap_cons, List.flatMap_nil, List.append_nil]
    unfold C61.calls
    rw [← hst]

theorem loop_inv {E : Env α} {σ : Sched} {g : P → α} {edge : α} (hr : Runs E σ g edge) : ∀ (n k : Nat) (s : St α) (b : Bool), Inv E g edge k s → E.start + k + n = max E.start E.stop →
    ∃ s' m, loop E σ n s b = some s' ∧ Inv E g edge m s' ∧ (E.steerers = [] → b = false → E.start + m = max E.start E.stop) := by
  intro n
  induction n with
  | zero => exact fun k s b h e => ⟨s, k, rfl, h, fun _ _ => by omega⟩
  | succ n ih =>
    intro k s b h e
    unfold loop
    by_cases hc : s.step < E.stop ∧ b = false
    · rw [if_pos hc]
      obtain ⟨r, e1, i1⟩ := step_inv hr h b
      obtain ⟨s', m, e2, i2, f⟩ := ih (k + 1) r.1 r.2 i1 (by omega)
      refine ⟨s', m, ?_, i2, fun hs hb => f hs ?_⟩
      · rw [e1]; exact e2
      · have : r.2 = (steer E s b).2 := by
          unfold step at e1
          dsimp only at e1
          cases hx : (List.range E.nanoSteps).foldlM (nanoStep E σ) (steer E s b).1 with
          | none => rw [hx] at e1; cases e1
          | some x => rw [hx] at e1; cases e1; rfl
        rw [this]
        unfold steer
        rw [hs]
        exact hb
    · rw [if_neg hc]
      refine ⟨s, k, rfl, h, fun _ hb => ?_⟩
      have h1 := h.step
      have : ¬ s.step < E.stop := fun h' => hc ⟨h', hb⟩
      omega

theorem run_inv {E : Env α} {σ : Sched} {g : P → α} {edge : α} (hr : Runs E σ g edge) : ∃ s m, run E σ = some s ∧ Inv E g edge m s ∧ (E.steerers = [] → E.start + m = max E.start E.stop) := by
  unfold run
  dsimp only
  have h0 : Inv E g edge 0 ⟨E.init, E.init, E.init, true, E.start, E.writers.zipIdx.map fun w => (w.2, E.start, .initialized, E.init)⟩ := by
    refine ⟨rfl, hr.init, ⟨g, hr.init⟩, ?_, ?_⟩
    · intro l hl
      obtain ⟨w, -, rfl⟩ := List.mem_map.1 hl
      exact ⟨0, rfl, hr.init⟩
    · simp only [List.map_map, List.range_zero, List.flatMap_nil, List.append_nil]
      rfl
  obtain ⟨s', m, e, i, f⟩ := loop_inv hr (E.stop - E.start) 0 _ false h0 (by omega)
  exact ⟨s', m, e, i, fun hs => f hs rfl⟩

/-- **C61, simulation.** For all models with neighbors at distance 1, topologies, sizes of grids and blocks as above, numbers of nano steps, and all orders of the threads: without steerers the simulation ends after the last
step, without accesses beyond the grids. The grid contains the result of the synchronous simulation. Writers are called in order, at multiples of their periods and in the end, with the grid of their step. -/
theorem simulation {E : Env α} {σ : Sched} {g : P → α} {edge : α} (hr : Runs E σ g edge) (hs : E.steerers = []) : ∃ s, run E σ = some s ∧ s.step = max E.start E.stop ∧
    (∀ p, E.cfg.Inside p → s.old (E.cfg.addr p) = reference E edge g (E.stop - E.start) p) ∧
    (∀ l ∈ s.log, ∃ j, l.2.1 = E.start + j ∧ ∀ p, E.cfg.Inside p → l.2.2.2 (E.cfg.addr p) = reference E edge g j p) ∧
    s.log.map (fun l => (l.1, l.2.1, l.2.2.1)) = E.writers.zipIdx.map (fun w => (w.2, E.start, WEvent.initialized)) ++ (List.range (E.stop - E.start)).flatMap fun j => calls E (j + 1) := by
  obtain ⟨s, m, e, i, f⟩ := run_inv hr
  have hm : m = E.stop - E.start := by have := f hs; omega
  subst hm
  refine ⟨s, e, ?_, fun p hp => ?_, fun l hl => ?_, i.calls⟩
  · have := i.step
    have := f hs
    omega
  · rw [i.old p hp.padded, if_pos hp]
  · obtain ⟨j, h1, h2⟩ := i.log l hl
    exact ⟨j, h1, fun p hp => by rw [h2 p hp.padded, if_pos hp]⟩

/-- **C61, negation.** What steerers do to the grid they get has no influence on the simulation: whatever they do, writers get the grids of the simulation without steerers. All they can do is to end the simulation. -/
theorem steering_ignored {E : Env α} {σ : Sched} {g : P → α} {edge : α} (hr : Runs E σ g edge) : ∃ s m, run E σ = some s ∧ s.step = E.start + m ∧
    (∀ p, E.cfg.Inside p → s.old (E.cfg.addr p) = reference E edge g m p) ∧ ∀ l ∈ s.log, ∃ j, l.2.1 = E.start + j ∧ ∀ p, E.cfg.Inside p → l.2.2.2 (E.cfg.addr p) = reference E edge g j p := by
  obtain ⟨s, m, e, i, -⟩ := run_inv hr
  refine ⟨s, m, e, i.step, fun p hp => by rw [i.old p hp.padded, if_pos hp], fun l hl => ?_⟩
  obtain ⟨j, h1, h2⟩ := i.log l hl
  exact ⟨j, h1, fun p hp => by rw [h2 p hp.padded, if_pos hp]⟩

theorem soa_loop (E : Env α) (σ : Sched) (h : E.soa = true) : ∀ (n : Nat) (s : St α) (b : Bool), s.old = E.init → s.new = E.init → ∃ s', loop E σ n s b = some s' ∧ s'.old = E.init := by
  have nano : ∀ (l : List Nat) (s : St α), s.old = E.init → s.new = E.init → ∃ s', l.foldlM (nanoStep E σ) s = some s' ∧ s'.old = E.init ∧ s'.new = E.init ∧ (l ≠ [] → s'.fresh = false) ∧ (l = [] → s' = s) := by
    intro l
    induction l with
    | nil => exact fun s h1 h2 => ⟨s, rfl, h1, h2, fun h => absurd rfl h, fun _ => rfl⟩
    | cons i l ih =>
      intro s h1 h2
      obtain ⟨s', e, o, n, f, f'⟩ := ih { s with old := s.new, new := s.old, fresh := false } h2 h1
      refine ⟨s', ?_, o, n, fun _ => ?_, fun h => by cases h⟩
      · rw [List.foldlM_cons]
        unfold nanoStep at e ⊢
        rw [if_pos h]
        exact e
      · by_cases hl : l = []
        · rw [f' hl]
        · exact f hl
  have wr : ∀ s : St α, (write E s).old = s.old ∧ (write E s).new = s.new := by
    intro s
    unfold write
    dsimp only
    generalize (if s.step = E.stop then WEvent.done else .finished) = ev
    have key : ∀ (ws : List (Nat × Nat)) (t : St α),
        let r := ws.foldl (fun t w => if t.step % w.1 = 0 ∨ s.step = E.stop then let t := getGrid t; { t with log := t.log ++ [(w.2, t.step, ev, t.host)] } else t) t
        r.old = t.old ∧ r.new = t.new := by
      intro ws
      induction ws with
      | nil => exact fun t => ⟨rfl, rfl⟩
      | cons w ws ih =>
        intro t
        dsimp only
        rw [List.foldl_cons]
        have hg : (getGrid t).old = t.old ∧ (getGrid t).new = t.new := by unfold getGrid; split <;> exact ⟨rfl, rfl⟩
        split
        · obtain ⟨a, b⟩ := ih { getGrid t with log := (getGrid t).log ++ [(w.2, (getGrid t).step, ev, (getGrid t).host)] }
          exact ⟨a.trans hg.1, b.trans hg.2⟩
        · exact ih t
    exact key _ s
  intro n
  induction n with
  | zero => exact fun s b h1 _ => ⟨s, rfl, h1⟩
  | succ n ih =>
    intro s b h1 h2
    unfold loop
    split
    · obtain ⟨t1, t2, -, -⟩ := steer_same E s b
      obtain ⟨s1, e, o, nw, -, -⟩ := nano (List.range E.nanoSteps) (steer E s b).1 (t1.trans h1) (t2.trans h2)
      have hst : step E σ s b = some (write E { s1 with step := s1.step + 1 }, (steer E s b).2) := by
        unfold step
        dsimp only
        rw [e]
        rfl
      obtain ⟨w1, w2⟩ := wr { s1 with step := s1.step + 1 }
      obtain ⟨s', e', o'⟩ := ih (write E { s1 with step := s1.step + 1 }) (steer E s b).2 (w1.trans o) (w2.trans nw)
      exact ⟨s', by rw [hst]; exact e', o'⟩
    · exact ⟨s, rfl, h1⟩

/-- **C61, negation.** Models with struct of arrays layout aren't simulated: `run()` ends with the initial grid. -/
theorem soa_frozen (E : Env α) (σ : Sched) (h : E.soa = true) : ∃ s, run E σ = some s ∧ s.old = E.init := soa_loop E σ h _ _ _ rfl rfl

/-! ## Accesses beyond the grids -/

theorem exec_bad (c : Cfg) (S : List P) (f : List α → α) (old : Int → α) (evs : List Ev) (e : Ev) (he : e ∈ evs) (hb : ¬ (c.Valid e.idx ∧ ∀ o ∈ S, c.Valid (hood c e o))) : ∀ new, execAll c S f old evs new = none := by
  unfold execAll
  induction evs with
  | nil => cases he
  | cons a evs ih =>
    intro new
    rw [List.foldlM_cons]
    rcases List.mem_cons.1 he with rfl | he
    · have : exec c S f old new e = none := if_neg hb
      rw [this]
      rfl
    · cases hx : exec c S f old new a with
      | none => rfl
      | some n => exact ih he n

theorem mem_launch3 {c : Cfg} (h3 : c.D = 3) {lx ly lz : Nat} (hx : lx < c.nx * c.bx) (hy : ly < c.ny * c.bY) (hz : lz < c.bz) {e : Ev} (he : e ∈ kernel3D c lx ly lz) : e ∈ launch c := by
  unfold launch
  rw [if_pos h3]
  simp only [ids_eq, Nat.one_mul, List.mem_flatMap, List.mem_range]
  exact ⟨lz, hz, ly, hy, lx, hx, he⟩

theorem mem_launch2 {c : Cfg} (h3 : c.D ≠ 3) (hbz : 0 < c.bz) {lx ly : Nat} (hx : lx < c.nx * c.bx) (hy : ly < c.bY) {e : Ev} (he : e ∈ kernel2D c lx ly) : e ∈ launch c := by
  unfold launch
  rw [if_neg h3]
  simp only [ids_eq, Nat.one_mul, List.mem_flatMap, List.mem_range]
  exact ⟨0, hbz, ly, hy, lx, hx, he⟩

/-- some column starts with an update beyond the grid -/
theorem launch_bad {c : Cfg} (hs : Sane c) (hw : c.wLast = true) (l : Nat) (hl : l < c.bLast) (h : c.dLast ≤ l * c.wl ∨ (c.dLast = 1 ∧ l = 0)) : ∃ e ∈ launch c, ¬ c.Valid e.idx := by
  have hx : 0 < c.nx * c.bx := lt_of_lt_of_le hs.x (ceil_cover hs.bx)
  have hwl := wl_pos c
  have hcol : ∀ (d : Nat) (off aw idx : Int), c.dLast = d → 0 < d → 0 ≤ idx - (l * c.wl : Nat) * off → 0 ≤ off →
      ∃ u ∈ column true (l * c.wl) (min ((l + 1) * c.wl) d) d off aw idx, (d : Int) * off ≤ u.1 := by
    intro d off aw idx hd hd0 hi ho
    have e1 : ((l : Int) + 1) * c.wl = (l * c.wl : Nat) + c.wl := by push_cast; ring
    have e2 : (l : Int) * c.wl = (l * c.wl : Nat) := by push_cast; ring
    rcases h with h | ⟨h1, h2⟩
    · rw [hd] at h
      refine ⟨_, column_idle _ _ _ _ _ _ (by rw [e2]; omega) (by rw [e1, e2]; omega) (by rw [e1]; omega), ?_⟩
      have : (d : Int) * off ≤ (l * c.wl : Nat) * off := mul_le_mul_of_nonneg_right (by exact_mod_cast h) ho
      show (d : Int) * off ≤ idx
      linarith
    · subst h2
      rw [hd] at h1
      subst h1
      have : column true ((0 : Nat) * c.wl) (min (((0 : Nat) + 1) * c.wl) (1 : Nat)) (1 : Nat) off aw idx = column true 0 1 1 off aw idx := by
        congr 1
        · push_cast; ring
        · push_cast; omega
      refine ⟨_, this ▸ column_single off aw idx, ?_⟩
      push_cast at hi ⊢
      linarith
  by_cases h3 : c.D = 3
  · unfold Cfg.wLast at hw
    unfold Cfg.bLast at hl
    rw [if_pos h3] at hw hl
    have hd : c.dLast = c.dz := if_pos h3
    have hp := pad_z hw
    have hoff : 0 ≤ c.offZ := by unfold Cfg.offZ; positivity
    have hoffY : 0 ≤ c.offY := by unfold Cfg.offY; positivity
    have hmul : 0 ≤ (c.py : Int) * c.offY := mul_nonneg (by omega) hoffY
    obtain ⟨u, hu, hb⟩ := hcol c.dz c.offZ c.awz (l * c.wl * c.offZ + ((0 : Nat) + c.py) * c.offY + ((0 : Nat) + c.px)) hd hs.z (by push_cast; linarith) hoff
    have hy : 0 < c.ny * c.bY := by unfold Cfg.ny; rw [if_pos h3]; exact lt_of_lt_of_le hs.y (ceil_cover hs.bY)
    have hmem : ∃ e ∈ kernel3D c 0 0 l, e.idx = u.1 := by
      unfold kernel3D
      dsimp only
      rw [if_neg (by have := hs.x; have := hs.y; omega), hp]
      refine ⟨_, List.mem_map.2 ⟨u, ?_, rfl⟩, rfl⟩
      simp only [Nat.cast_zero, add_zero] at hu ⊢
      rw [hw]
      exact hu
    obtain ⟨e, he, hi⟩ := hmem
    refine ⟨e, mem_launch3 h3 hx hy hl he, fun hv => ?_⟩
    have : c.size = c.dz * c.offZ := by unfold Cfg.size Cfg.offZ; rw [hp]; push_cast; ring
    have := hv.2
    rw [hi] at this
    omega
  · unfold Cfg.wLast at hw
    unfold Cfg.bLast at hl
    rw [if_neg h3] at hw hl
    have hd : c.dLast = c.dy := if_neg h3
    have hp := pad_y hw
    have hoffY : 0 ≤ c.offY := by unfold Cfg.offY; positivity
    have hD : c.D < 3 := by have := hs.D3; omega
    have hpz : c.pz = 0 := if_pos (Or.inl hD)
    obtain ⟨u, hu, hb⟩ := hcol c.dy c.offY c.awy (l * c.wl * c.offY + ((0 : Nat) + c.px)) hd hs.y (by push_cast; linarith) hoffY
    have hmem : ∃ e ∈ kernel2D c 0 l, e.idx = u.1 := by
      unfold kernel2D
      dsimp only
      rw [if_neg (by have := hs.x; omega), hp]
      refine ⟨_, List.mem_map.2 ⟨u, ?_, rfl⟩, rfl⟩
      simp only [Nat.cast_zero, add_zero] at hu ⊢
      rw [hw]
      exact hu
    obtain ⟨e, he, hi⟩ := hmem
    refine ⟨e, mem_launch2 h3 hs.bz hx hl he, fun hv => ?_⟩
    have : c.size = c.dy * c.offY := by unfold Cfg.size Cfg.offY; rw [hp, hpz, hs.z1 hD]; push_cast; ring
    have := hv.2
    rw [hi] at this
    omega

/-- **C61, negation.** If the last axis is periodic and some thread along it has no cell, that thread writes beyond the grid. -/
theorem idle_threads {c : Cfg} (hs : Sane c) (hw : c.wLast = true) (hi : c.dLast ≤ (c.bLast - 1) * c.wl) (S : List P) (f : List α → α) (old new : Int → α) (evs : List Ev) (hp : evs.Perm (launch c)) :
    execAll c S f old evs new = none := by
  have hb : 0 < c.bLast := by
    unfold Cfg.bLast
    split
    · exact hs.bz
    · exact hs.bY
  obtain ⟨e, he, hv⟩ := launch_bad hs hw (c.bLast - 1) (by omega) (Or.inl hi)
  exact exec_bad c S f old evs e (hp.mem_iff.2 he) (fun h => hv h.1) new

/-- **C61, negation.** If the last axis is periodic and has only one cell, each column writes beyond the grid. -/
theorem single_layer {c : Cfg} (hs : Sane c) (hw : c.wLast = true) (h1 : c.dLast = 1) (S : List P) (f : List α → α) (old new : Int → α) (evs : List Ev) (hp : evs.Perm (launch c)) : execAll c S f old evs new = none := by
  have hb : 0 < c.bLast := by
    unfold Cfg.bLast
    split
    · exact hs.bz
    · exact hs.bY
  obtain ⟨e, he, hv⟩ := launch_bad hs hw 0 hb (Or.inr ⟨h1, rfl⟩)
  exact exec_bad c S f old evs e (hp.mem_iff.2 he) (fun h => hv h.1) new

/-- **C61, negation.** That's the case for all one-dimensional models on `Topologies::Torus<1>`, whose unused axes count as periodic: the simulation writes beyond the grid, whatever its size, and that of the blocks. -/
theorem torus1 {c : Cfg} (hs : Sane c) (hD : c.D = 1) (hw : c.wy = true) (S : List P) (f : List α → α) (old new : Int → α) (evs : List Ev) (hp : evs.Perm (launch c)) : execAll c S f old evs new = none := by
  refine single_layer hs ?_ ?_ S f old new evs hp
  · unfold Cfg.wLast; rw [if_neg (by omega)]; exact hw
  · unfold Cfg.dLast; rw [if_neg (by omega)]; exact hs.y1 (by omega)

/-- **C61, negation.** Neighbors at distance 2 can't be used: on a torus the second cell of the grid reads beyond the grid. -/
theorem distance_two {c : Cfg} (hs : Sane c) (hf : Fits c) (hx : c.wx = true) (hy : c.wy = true) (hz : c.wz = true) (h2 : 2 ≤ c.dx) (S : List P) (h : (⟨-2, 0, 0⟩ : P) ∈ S) (f : List α → α) (old new : Int → α)
    (evs : List Ev) (hp : evs.Perm (launch c)) : execAll c S f old evs new = none := by
  have hi : c.Inside ⟨1, 0, 0⟩ := by
    have := hs.y
    have := hs.z
    refine ⟨?_, ?_, ?_⟩ <;> dsimp only <;> constructor <;> omega
  have he : evOf c ⟨1, 0, 0⟩ ∈ evs := by
    rw [hp.mem_iff, launch_eq hs hf]
    exact List.mem_map.2 ⟨_, (mem_cells hs _).2 hi, rfl⟩
  refine exec_bad c S f old evs _ he (fun hv => ?_) new
  have := (hv.2 _ h).1
  have hpx : c.px = 0 := if_pos hx
  have hpy := pad_y hy
  have hpz := pad_z hz
  simp only [hood, evOf, Cfg.addr, hpx, hpy, hpz] at this
  rw [below_neg (by decide)] at this
  norm_num at this

/-! ## CUDAStepper -/

theorem load (r : List P) (i : Nat) (h : i < r.length) : loadCoord (regionBuffer r) r.length i = r[i] := by
  unfold loadCoord regionBuffer
  simp only [List.getD_eq_getElem?_getD]
  have e1 : (r.map P.x ++ r.map P.y ++ r.map P.z)[i]? = some r[i].x := by
    rw [List.append_assoc, List.getElem?_append_left (by simpa using h)]
    simp [h]
  have e2 : (r.map P.x ++ r.map P.y ++ r.map P.z)[i + r.length]? = some r[i].y := by
    rw [List.append_assoc, List.getElem?_append_right (by simp), List.getElem?_append_left (by simpa using h)]
    simp [h]
  have e3 : (r.map P.x ++ r.map P.y ++ r.map P.z)[i + 2 * r.length]? = some r[i].z := by
    rw [List.getElem?_append_right (by simp; omega)]
    have : i + 2 * r.length - (r.map P.x ++ r.map P.y).length = i := by simp; omega
    rw [this]
    simp [h]
  rw [e1, e2, e3]
  rfl

theorem stepper_fold (r : List P) (cell new : P → α) (n : Nat) (p : P) :
    (List.range n).foldl (fun g i => if r.length ≤ i then g else Function.update g (loadCoord (regionBuffer r) r.length i) (cell (loadCoord (regionBuffer r) r.length i))) new p =
      if p ∈ r.take n then cell p else new p := by
  induction n with
  | zero => simp
  | succ n ih =>
    rw [List.range_succ, List.foldl_append]
    simp only [List.foldl_cons, List.foldl_nil]
    by_cases hn : r.length ≤ n
    · rw [if_pos hn, ih, List.take_of_length_le hn, List.take_of_length_le (by omega)]
    · have ht : r.take (n + 1) = r.take n ++ [r[n]] := by rw [List.take_add_one, List.getElem?_eq_getElem (by omega)]; rfl
      rw [if_neg hn, load r n (by omega), ht]
      by_cases hp : p = r[n]
      · subst hp
        rw [Function.update_self, if_pos (List.mem_append_right _ (List.mem_singleton_self _))]
      · have : p ∈ r.take n ++ [r[n]] ↔ p ∈ r.take n := by rw [List.mem_append, List.mem_singleton]; exact or_iff_left hp
        rw [Function.update_of_ne hp, ih, if_congr this rfl rfl]

/-- **C61, CUDAStepper.** Regions of up to 200 cells are updated completely, and only they are. -/
theorem stepper_small (r : List P) (h : r.length ≤ 200) (cell new : P → α) (p : P) : stepperKernel r cell new p = if p ∈ r then cell p else new p := by
  have := stepper_fold r cell new stepperBlocks p
  rw [List.take_of_length_le (show r.length ≤ stepperBlocks from h)] at this
  exact this

/-- **C61, negation.** Of larger regions only the first 200 cells are updated. -/
theorem stepper_large (r : List P) (hn : r.Nodup) (cell new : P → α) (i : Nat) (h : i < r.length) (hi : 200 ≤ i) : stepperKernel r cell new r[i] = new r[i] := by
  have := stepper_fold r cell new stepperBlocks r[i]
  rw [if_neg] at this
  · exact this
  · intro hm
    obtain ⟨j, hj, e⟩ := List.mem_iff_getElem.1 hm
    rw [List.getElem_take] at e
    have : j < 200 := by
      rw [List.length_take] at hj
      exact lt_of_lt_of_le hj (min_le_left _ _)
    have := (List.Nodup.getElem_inj_iff hn).1 e
    omega

/-! ## Examples -/

/-- torus of 5 × 4 cells, blocks of 2 × 2 threads -/
def torus : Cfg := ⟨2, true, true, true, 5, 4, 1, 2, 2, 1⟩

def wind : List P := [⟨-1, 0, 0⟩, ⟨0, 1, 0⟩]

theorem torus_sane : Sane torus := by constructor <;> decide

theorem torus_fits : Fits torus := by intro _; decide

theorem torus_near : ∀ o ∈ wind, Near torus o := by
  intro o ho
  simp only [wind, List.mem_cons, List.not_mem_nil, or_false] at ho
  rcases ho with rfl | rfl <;> (unfold Near; decide)

theorem torus_holds : Holds torus (fun i => i) (fun p => p.y * 5 + p.x) 0 := by
  intro p hp
  have h1 : torus.px = 0 := rfl
  have h2 : torus.py = 0 := rfl
  have h3 : torus.pz = 0 := rfl
  obtain ⟨⟨a, b⟩, ⟨c, d⟩, ⟨e, f⟩⟩ := hp
  rw [h1] at a b
  rw [h2] at c d
  rw [h3] at e f
  have i : torus.Inside p := by
    refine ⟨⟨by omega, by omega⟩, ⟨by omega, by omega⟩, ⟨by omega, by omega⟩⟩
  have hz : (torus.dz : Int) = 1 := rfl
  have hy : torus.offY = 5 := rfl
  rw [if_pos i]
  unfold Cfg.addr
  rw [h1, h2, h3, hy]
  have : p.z = 0 := by omega
  rw [this]
  push_cast
  ring

example (evs : List Ev) (hp : evs.Perm (launch torus)) : ∃ new, execAll torus wind List.sum (fun i => i) evs (fun i => i) = some new ∧ Holds torus new (update torus wind List.sum 0 fun p => p.y * 5 + p.x) 0 :=
  kernel_update torus_sane torus_fits torus_near _ torus_holds torus_holds evs hp

/-- the first cell gets values from the end of its row, and from the next row; the last one from its row, and from the first row -/
example : ((execAll torus wind List.sum (fun i => i) (launch torus) (fun i => i)).map fun g => (g 0, g 19)) = some (4 + 5, 18 + 4) := by decide +kernel

def sim : Env Int where
  cfg := torus
  stencil := wind
  upd := fun _ => List.sum
  nanoSteps := 1
  init := fun i => i
  start := 3
  stop := 6
  writers := [2, 5]
  steerers := []
  soa := false

theorem sim_runs : Runs sim (fun _ _ => (launch torus).reverse) (fun p => p.y * 5 + p.x) 0 := ⟨torus_sane, torus_fits, torus_near, torus_holds, by decide, fun _ _ => List.reverse_perm _, rfl⟩

example : ∃ s, run sim (fun _ _ => (launch torus).reverse) = some s ∧ s.step = 6 ∧
    s.log.map (fun l => (l.1, l.2.1, l.2.2.1)) = [(0, 3, .initialized), (1, 3, .initialized), (0, 4, .finished), (1, 5, .finished), (0, 6, .done), (1, 6, .done)] := by
  obtain ⟨s, h1, h2, -, -, h3⟩ := simulation sim_runs rfl
  exact ⟨s, h1, h2, h3.trans (by decide +kernel)⟩

/-- a steerer which clears the grid doesn't change anything -/
example : ∃ s m, run { sim with steerers := [⟨1, fun _ _ => (fun _ => 0, false)⟩] } (fun _ _ => (launch torus).reverse) = some s ∧ s.step = 3 + m ∧
    (∀ p, torus.Inside p → s.old (torus.addr p) = reference sim 0 (fun p => p.y * 5 + p.x) m p) := by
  obtain ⟨s, m, h1, h2, h3, -⟩ := steering_ignored (E := { sim with steerers := [⟨1, fun _ _ => (fun _ => 0, false)⟩] })
    (σ := fun _ _ => (launch torus).reverse) (g := fun p => p.y * 5 + p.x) (edge := 0) ⟨torus_sane, torus_fits, torus_near, torus_holds, by decide, fun _ _ => List.reverse_perm _, rfl⟩
  refine ⟨s, m, h1, h2, fun p hp => (h3 p hp).trans ?_⟩
  clear h1 h2 h3
  have : ∀ k, reference { sim with steerers := [⟨1, fun _ _ => (fun _ => 0, false)⟩] } 0 (fun p => p.y * 5 + p.x) k = reference sim 0 (fun p => p.y * 5 + p.x) k := by
    intro k
    induction k with
    | zero => rfl
    | succ k ih => unfold reference; rw [ih]; rfl
  rw [this]

example : ∃ s, run { sim with soa := true } (fun _ _ => []) = some s ∧ s.old 7 = 7 := by
  obtain ⟨s, h1, h2⟩ := soa_frozen { sim with soa := true } (fun _ _ => []) rfl
  exact ⟨s, h1, by rw [h2]; rfl⟩

/-- 5 rows, 4 threads for 2 rows each: the last one is idle, and writes beyond the grid -/
example : execAll ⟨2, true, true, true, 5, 5, 1, 5, 4, 1⟩ [] List.sum (fun i => i) (launch ⟨2, true, true, true, 5, 5, 1, 5, 4, 1⟩) (fun i => i) = none :=
  idle_threads (by constructor <;> decide) rfl (by decide) _ _ _ _ _ (List.Perm.refl _)

/-- ring of 8 cells -/
example : execAll ⟨1, true, true, true, 8, 1, 1, 4, 1, 1⟩ [⟨-1, 0, 0⟩] List.sum (fun i => i) (launch ⟨1, true, true, true, 8, 1, 1, 4, 1, 1⟩) (fun i => i) = none :=
  torus1 (by constructor <;> decide) rfl rfl _ _ _ _ _ (List.Perm.refl _)

example : execAll torus [⟨-2, 0, 0⟩] List.sum (fun i => i) (launch torus) (fun i => i) = none :=
  distance_two torus_sane torus_fits rfl rfl rfl (by decide) _ (by simp) _ _ _ _ (List.Perm.refl _)

/-- a region of 3 cells, and a row of 300 cells -/
example : stepperKernel [⟨1, 0, 0⟩, ⟨2, 0, 0⟩, ⟨7, 0, 0⟩] (fun p => p.x) (fun _ => 0) ⟨7, 0, 0⟩ = 7 := (stepper_small _ (by decide) _ _ _).trans (by decide)

def row : List P := (List.range 300).map fun i : Nat => ⟨i, 0, 0⟩

example : stepperKernel row (fun _ => true) (fun _ => false) (row[250]'(by simp [row])) = false := by
  refine stepper_large row ?_ _ _ 250 _ (by decide)
  refine List.Nodup.map (fun a b e => ?_) List.nodup_range
  have := congrArg P.x e
  simpa using this

end LGD.C61
