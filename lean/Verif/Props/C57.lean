import Verif.Hpx.GroupStep
import Verif.Props.C43Inst

/-!
# C57: simulations on top of HPX end, and compute what the serial simulation computes
-/

namespace LGD.C57
open LGD.Step LGD.Patch LGD.C26 LGD.C43 LGD.HpxGroup

section
variable {κ α : Type} [DecidableEq κ] {C : Cluster κ α} {W : Nat} {S : Sim κ α} {own outer : Nat → κ → Prop} {nb : κ → κ → Prop}

/-- **C57.** `HpxSimulator` with cooperating update groups and at most one steerer: whatever the order in which groups are set up and proceed and in which parcels arrive, at most
`4 N + N total + N² (total / W + 1)` things happen, none of which is an exception, and if nothing more can happen, then no parcel is underway and each group is at nano step `total`; its accepters (writers) were
shown each own cell for each nano step exactly as in the serial simulation; its grid agrees with the serial simulation on its inner set, and without steerers at synchronisation points on the
whole own region. -/
theorem hpx_simulation (h : ClusterOK C W S own outer nb) (hl : ∀ n (g h : κ → α) c, (∀ d, nb c d → g d = h d) → S.upd n g c = S.upd n h c)
    (hst : S.steerers.length ≤ 1) (b1 b2 : Nat → Nat → List α) (total : Nat) (nodes : Nat → St κ α) (n : Nat) (t : HSt κ α)
    (hr : HRun C b1 b2 total n (start C nodes) t) :
    t.err = false ∧ n ≤ C.N * 4 + C.N * total + C.N * (C.N * (total / W + 1)) ∧
    ((∀ u, ¬ HStep C b1 b2 total t u) → (∀ i j, t.fly i j = []) ∧
      ∀ i, i < C.N → t.phase i = 4 ∧
        (t.nodes i).step = (S.first + total) / S.nanoSteps ∧ (t.nodes i).nano = (S.first + total) % S.nanoSteps ∧
        (∀ c, own i c → ∀ s, s ≤ total → ∃ g, (Ev.ghost (S.first + s) g ∈ (t.nodes i).log ∧ c ∈ (C.env i).rim W ∨ Ev.inner (S.first + s) g ∈ (t.nodes i).log ∧ c ∈ (C.env i).inner W) ∧
          g c = shown S s c) ∧
        (∀ p ∈ ghosts (t.nodes i).log, ∀ c ∈ (C.env i).rim W, p.2 c = shown S (p.1 - S.first) c) ∧
        (∀ p ∈ inners (t.nodes i).log, ∀ c ∈ (C.env i).inner W, p.2 c = shown S (p.1 - S.first) c) ∧
        (∀ c ∈ (C.env i).inner (total % W), (t.nodes i).old c = S.steer total (serial S total) c) ∧
        (S.steerers = [] → W ∣ total → ∀ c, own i c → (t.nodes i).old c = serial S total c)) := by
  obtain ⟨ini, hini⟩ := ini_exists h hl b1 b2
  obtain ⟨k, hI⟩ := inv_run h hl hst hini nodes hr
  refine ⟨hI.err, inv_bound hI, fun hs => ?_⟩
  obtain ⟨p1, p2⟩ := progress h hl hst hini hI hs
  refine ⟨p2, fun i hi => ⟨(p1 i hi).1, ?_⟩⟩
  have e : steps C i (absNodes ini t i) = k i := steps_eq hI.inv i hi
  have hser := inv_serial h hI.inv i hi
  have hshow := inv_shown h hI.inv i hi
  rw [e, (p1 i hi).2, show absNodes ini t i = t.nodes i from if_pos (p1 i hi).1] at hser hshow
  obtain ⟨a1, a2, a3, a4, a5, a6, -, -⟩ := hser
  exact ⟨a1, a2, fun c hc s hs => hshow c hc s hs, a5, a6, a3, a4⟩

/-- Such an execution can always be continued until nothing more can happen. -/
theorem hpx_ends (h : ClusterOK C W S own outer nb) (hl : ∀ n (g h : κ → α) c, (∀ d, nb c d → g d = h d) → S.upd n g c = S.upd n h c)
    (hst : S.steerers.length ≤ 1) (b1 b2 : Nat → Nat → List α) (total : Nat) (nodes : Nat → St κ α) (n : Nat) (t : HSt κ α)
    (hr : HRun C b1 b2 total n (start C nodes) t) : ∃ m u, HRun C b1 b2 total m (start C nodes) u ∧ n ≤ m ∧ ∀ v, ¬ HStep C b1 b2 total u v := by
  have key : ∀ d n t, HRun C b1 b2 total n (start C nodes) t → C.N * 4 + C.N * total + C.N * (C.N * (total / W + 1)) - n = d →
      ∃ m u, HRun C b1 b2 total m (start C nodes) u ∧ n ≤ m ∧ ∀ v, ¬ HStep C b1 b2 total u v := by
    intro d
    induction d with
    | zero =>
      intro n t hr hd
      refine ⟨n, t, hr, Nat.le_refl _, fun v hv => ?_⟩
      have := (hpx_simulation h hl hst b1 b2 total nodes _ v (HRun.snoc _ _ _ _ hr hv)).2.1
      omega
    | succ d ih =>
      intro n t hr hd
      by_cases hs : ∃ v, HStep C b1 b2 total t v
      · obtain ⟨v, hv⟩ := hs
        obtain ⟨m, u, r1, r2, r3⟩ := ih (n + 1) v (HRun.snoc _ _ _ _ hr hv) (by omega)
        exact ⟨m, u, r1, by omega, r3⟩
      · exact ⟨n, t, hr, Nat.le_refl _, fun v hv => hs ⟨v, hv⟩⟩
  exact key _ n t hr rfl

end

/-- **C57 for structured grids.** Any decomposition of an n-dimensional grid with any combination of periodic and constant boundaries, any ghost zone width up to the periodic extents, at most one
steerer and any update function which reads the Moore neighborhood. -/
theorem hpx_structured {α : Type} (n : Nat) (part : Nat → Option Idx) (dim : Crd) (wraps : Nat → Bool) (gw N inf : Nat) (S : Sim (Vec n) α) (P : Nat → Crd → Prop)
    (hw : ∀ k, k ≤ n → wraps k = true → 1 ≤ dim k ∧ (gw : Int) ≤ dim k) (hgw : 0 < gw) (hns : 0 < S.nanoSteps)
    (hS : ∀ f ∈ S.steerers, 0 < f.period ∧ S.startStep ≤ S.lastStep) (hst : S.steerers.length ≤ 1)
    (hp : PartOK (structuredEnv n part dim wraps) (C14.InDim n dim) N P)
    (hdis : ∀ i j c, i < N → j < N → P i c → P j c → i = j) (hcov : ∀ c, C14.InDim n dim c → ∃ i, i < N ∧ P i c)
    (hl : ∀ m (g h : Vec n → α) c, (∀ d, VNb (MooreNb n wraps dim) c d → g d = h d) → S.upd m g c = S.upd m h c)
    (b1 b2 : Nat → Nat → List α) (total : Nat) (nodes : Nat → St (Vec n) α) (m : Nat) (t : HSt (Vec n) α)
    (hr : HRun (pmCluster (structuredEnv n part dim wraps) gw N inf S) b1 b2 total m (start (pmCluster (structuredEnv n part dim wraps) gw N inf S) nodes) t) :
    t.err = false ∧ m ≤ N * 4 + N * total + N * (N * (total / gw + 1)) ∧
    ((∀ u, ¬ HStep (pmCluster (structuredEnv n part dim wraps) gw N inf S) b1 b2 total t u) →
      ∀ i, i < N → (t.nodes i).step = (S.first + total) / S.nanoSteps ∧ (t.nodes i).nano = (S.first + total) % S.nanoSteps ∧
        ∀ c, P i (ext c) →
          (∀ s, s ≤ total → ∃ g, (Ev.ghost (S.first + s) g ∈ (t.nodes i).log ∨ Ev.inner (S.first + s) g ∈ (t.nodes i).log) ∧ g c = shown S s c) ∧
          (S.steerers = [] → gw ∣ total → (t.nodes i).old c = serial S total c)) := by
  have hok := structured_ok n part dim wraps gw hw
  have hC := pmCluster_ok hok hp hdis hcov (mooreNb_symm n wraps dim) hgw inf S hns hS
  obtain ⟨h1, h2, h3⟩ := hpx_simulation hC hl hst b1 b2 total nodes m t hr
  refine ⟨h1, h2, fun hs i hi => ?_⟩
  obtain ⟨-, a2, a3, a4, -, -, -, a5⟩ := (h3 hs).2 i hi
  refine ⟨a2, a3, fun c hc => ⟨fun s hs => ?_, fun h0 hd => a5 h0 hd c hc⟩⟩
  obtain ⟨g, g1, g2⟩ := a4 c hc s hs
  exact ⟨g, g1.imp (fun h => h.1) (fun h => h.1), g2⟩

/-- Three groups on a torus of 12 cells, ghost zone width 2, eight nano steps: executions which can't be continued exist, and they end with the serial result. -/
example (upd : Nat → (Vec 0 → Int) → Vec 0 → Int)
    (hl : ∀ m (g h : Vec 0 → Int) c, (∀ d, VNb (MooreNb 0 (fun _ => true) (fun _ => 12)) c d → g d = h d) → upd m g c = upd m h c)
    (initial : Vec 0 → Int) (S : Sim (Vec 0) Int) (hS : S = ⟨3, 0, 5, upd, initial, []⟩) (nodes : Nat → St (Vec 0) Int) :
    ∃ m t, HRun (pmCluster C21.env3 2 3 1000 S) (fun _ _ => []) (fun _ _ => []) 8 m (start (pmCluster C21.env3 2 3 1000 S) nodes) t ∧ m ≤ 81 ∧
      ∀ i, i < 3 → (t.nodes i).step = 2 ∧ (t.nodes i).nano = 2 ∧ ∀ c : Vec 0, C21.P3 i (ext c) → (t.nodes i).old c = serial S 8 c := by
  have hw : ∀ k, k ≤ 0 → (fun _ : Nat => true) k = true → 1 ≤ (fun _ : Nat => (12 : Int)) k ∧ ((2 : Nat) : Int) ≤ (fun _ : Nat => (12 : Int)) k := by
    intro k _ _; simp only; omega
  have hdis : ∀ i j c, i < 3 → j < 3 → C21.P3 i c → C21.P3 j c → i = j := by
    intro i j c hi hj h1 h2
    have a : i = 0 ∨ i = 1 ∨ i = 2 := by omega
    have b : j = 0 ∨ j = 1 ∨ j = 2 := by omega
    rcases a with rfl | rfl | rfl <;> rcases b with rfl | rfl | rfl <;> first | rfl | (unfold C21.P3 at h1 h2; simp at h1 h2; omega)
  have hcov : ∀ c, C14.InDim 0 (fun _ => 12) c → ∃ i, i < 3 ∧ C21.P3 i c := by
    intro c hc
    have := hc 0 (by omega)
    simp only at this
    by_cases h1 : c 0 < 5
    · exact ⟨0, by omega, by unfold C21.P3; simp; omega⟩
    · by_cases h2 : c 0 < 8
      · exact ⟨1, by omega, by unfold C21.P3; simp; omega⟩
      · exact ⟨2, by omega, by unfold C21.P3; simp; omega⟩
  have hns : 0 < S.nanoSteps := by rw [hS]; exact Nat.succ_pos _
  have hSs : ∀ f ∈ S.steerers, 0 < f.period ∧ S.startStep ≤ S.lastStep := by intro f hf; rw [hS] at hf; simp at hf
  have hC := pmCluster_ok (structured_ok 0 C21.part3 (fun _ => 12) (fun _ => true) 2 hw) part3_ok hdis hcov (mooreNb_symm 0 (fun _ => true) (fun _ => 12)) (by omega) 1000 S hns hSs
  obtain ⟨m, t, r1, -, r2⟩ := hpx_ends hC (by rw [hS]; exact hl) (by rw [hS]; exact Nat.zero_le _) (fun _ _ => []) (fun _ _ => []) 8 nodes 0 _ (HRun.nil _)
  obtain ⟨-, h2, h3⟩ := hpx_structured 0 C21.part3 (fun _ => 12) (fun _ => true) 2 3 1000 S C21.P3 hw (by omega) hns hSs (by rw [hS]; exact Nat.zero_le _) part3_ok hdis hcov (by rw [hS]; exact hl)
    (fun _ _ => []) (fun _ _ => []) 8 nodes m t r1
  refine ⟨m, t, r1, h2, fun i hi => ?_⟩
  obtain ⟨a2, a3, a4⟩ := h3 r2 i hi
  refine ⟨?_, ?_, fun c hc => (a4 c hc).2 (by rw [hS]) ⟨4, rfl⟩⟩
  · rw [a2, hS]; simp [Sim.first]
  · rw [a3, hS]; simp [Sim.first]

/-! ## Two steerers -/

/-- one cell, two steerers: the first doubles the cell in each step, the second increments it -/
def sim2 : Sim Unit Int where
  nanoSteps := 1
  startStep := 0
  lastStep := 5
  upd := fun _ g c => g c
  initial := fun _ => 0
  steerers := [⟨1, fun _ _ _ x => 2 * x⟩, ⟨1, fun _ _ _ x => x + 1⟩]

/-- its environment -/
def env2 : Env Unit Int where
  W := 1
  nanoSteps := 1
  startStep := 0
  initial := fun _ => 0
  rim := fun _ => []
  inner := fun _ => [()]
  volatileKernel := []
  upd := fun _ g c => g c
  prov := fun _ g => g
  ownRegion := [()]
  steerers := [⟨1, fun _ _ _ x => 2 * x⟩, ⟨1, fun _ _ _ x => x + 1⟩]
  lastStep := 5
  inf := 1000

/-- one group -/
def solo : Cluster Unit Int where
  N := 1
  env := fun _ => env2
  recvRegion := fun _ _ => []
  sendRegion := fun _ _ => []

theorem solo_ok : ClusterOK solo 1 sim2 (fun _ _ => True) (fun _ _ => False) (fun _ _ => True) where
  width := fun _ _ => rfl
  nano := fun _ _ => rfl
  start := fun _ _ => rfl
  last := fun _ _ => rfl
  sameSteerers := fun _ _ => rfl
  period := by
    intro f hf
    simp only [sim2, List.mem_cons, List.not_mem_nil, or_false] at hf
    rcases hf with rfl | rfl <;> exact ⟨Nat.succ_pos _, Nat.zero_le _⟩
  sameUpd := fun _ _ => rfl
  sameInit := fun _ _ _ _ => rfl
  fit := fun _ _ => by
    constructor <;> simp [solo, env2]
  agree := fun _ _ _ _ => rfl
  nodup := fun _ _ _ _ => List.nodup_nil
  inRim := fun _ _ _ _ c hc => by cases hc
  cover := fun _ _ _ h => h.elim
  only := fun _ _ _ _ c hc => by cases hc

/-- one execution for each order of the steerers -/
theorem solo_run (nodes : Nat → St Unit Int) (o : List Nat) (ho : o.Perm (List.range 2)) (v : Int)
    (hv : ∀ st0, initGrids { solo.env 0 with prov := fun _ g => g } (fun _ => []) (fun _ => []) = some st0 →
      ∃ st, update1 { solo.env 0 with prov := bufProv solo (fun _ => []) 0, steerers := reorder o sim2.steerers } { st0 with sg := reorder o st0.sg, si := reorder o st0.si } = some st ∧ st.step = 1 ∧ st.nano = 0 ∧ st.old () = v) :
    ∃ t, HRun solo (fun _ _ => []) (fun _ _ => []) 1 5 (start solo nodes) t ∧ (∀ u, ¬ HStep solo (fun _ _ => []) (fun _ _ => []) 1 t u) ∧ (t.nodes 0).old () = v := by
  obtain ⟨st0, h0, hs0, hn0⟩ : ∃ st0, initGrids { solo.env 0 with prov := fun _ g => g } (fun _ => []) (fun _ => []) = some st0 ∧ st0.step = 0 ∧ st0.nano = 0 := ⟨_, rfl, rfl, rfl⟩
  obtain ⟨st, h1, hs, hn, hold⟩ := hv st0 h0
  have hN : solo.N = 1 := rfl
  have h01 : ∀ j, j < solo.N → j = 0 := fun j hj => by rw [hN] at hj; omega
  have r0 := HRun.nil (C := solo) (b1 := fun _ _ => []) (b2 := fun _ _ => []) (total := 1) (start solo nodes)
  have r1 := HRun.snoc _ _ _ _ r0 (HStep.advance _ 0 (by decide) (by simp [start]) (fun j hj => by rw [h01 j hj]))
  have r2 := HRun.snoc _ _ _ _ r1 (HStep.advance _ 0 (by decide) (by simp [start]) (fun j hj => by rw [h01 j hj]))
  have r3 := HRun.snoc _ _ _ _ r2 (HStep.advance _ 0 (by decide) (by simp [start]) (fun j hj => by rw [h01 j hj]))
  have r4 := HRun.snoc _ _ _ _ r3 (HStep.create _ 0 st0 (by decide) (by simp [start]) (fun a _ hs => absurd rfl hs) h0)
  have r5 := HRun.snoc _ _ _ _ r4 (HStep.update _ 0 o st (by decide) (by simp)
    (by simp [glob, hs0, hn0, solo, env2]) (fun _ j _ hr => absurd rfl hr) (by simpa [start, solo, env2] using ho) (by
      rw [← h1]
      unfold envOf before
      simp only [Function.update_self]
      rfl))
  refine ⟨_, r5, ?_, by simpa using hold⟩
  intro u hu
  cases hu with
  | advance i hi h3 _ => obtain rfl := h01 i hi; simp at h3
  | create i st hi h3 _ hc => obtain rfl := h01 i hi; simp at h3
  | createFail i hi h3 _ hc => obtain rfl := h01 i hi; simp at h3
  | deliver i j l p r hf _ => simp [emit, solo, start] at hf
  | deliverTwice i j l p r hf hq => simp [emit, solo, start] at hf
  | update i o st hi h4 hlt ha ho hu => obtain rfl := h01 i hi; simp [glob, hs, hn, solo, env2] at hlt
  | updateFail i o hi h4 hlt ha ho hu => obtain rfl := h01 i hi; simp [glob, hs, hn, solo, env2] at hlt

/-- **C57, negation.** With two steerers the result depends on the schedule, even on a single node: two complete executions, with the serial result 3 and with 4. -/
theorem steerers_race (nodes : Nat → St Unit Int) :
    (∃ t, HRun solo (fun _ _ => []) (fun _ _ => []) 1 5 (start solo nodes) t ∧ (∀ u, ¬ HStep solo (fun _ _ => []) (fun _ _ => []) 1 t u) ∧
      (t.nodes 0).old () = 3 ∧ sim2.steer 1 (serial sim2 1) () = 3) ∧
    (∃ t, HRun solo (fun _ _ => []) (fun _ _ => []) 1 5 (start solo nodes) t ∧ (∀ u, ¬ HStep solo (fun _ _ => []) (fun _ _ => []) 1 t u) ∧
      (t.nodes 0).old () = 4) := by
  constructor
  · obtain ⟨t, h1, h2, h3⟩ := solo_run nodes [0, 1] (by decide) 3 (by
      intro st0 h0
      obtain rfl : _ = st0 := Option.some.inj h0
      exact ⟨_, rfl, rfl, rfl, rfl⟩)
    exact ⟨t, h1, h2, h3, by decide⟩
  · obtain ⟨t, h1, h2, h3⟩ := solo_run nodes [1, 0] (by decide) 4 (by
      intro st0 h0
      obtain rfl : _ = st0 := Option.some.inj h0
      exact ⟨_, rfl, rfl, rfl, rfl⟩)
    exact ⟨t, h1, h2, h3⟩

end LGD.C57
