import Verif.Comm.LinkSim
import Verif.Props.C43Inst
import Verif.Props.C52

/-!
# C56: distributed simulations on top of MPI end, and compute what the serial simulation computes
-/

namespace LGD.C56
open LGD.Mpi LGD.Step LGD.Patch LGD.C26 LGD.C43 LGD.LinkProg LGD.C52

/-- **C56, patch links.** Ranks which exchange patches via `PatchLink`, whatever they compute in between: if the synchronous exchange doesn't fail (`X m r` is the state of rank `r` when it sends
its patches number `m`), then every execution ends, without deadlocks, races on buffers, truncated messages or messages which are never received, and rank `r` ends in state `Z r`. -/
theorem links_always_end {σ β : Type} (T : Net σ β) (hT : NetOK T) (hrep : T.fixed = true ∨ T.repaired = true) (eager : Ch → Nat → Bool) (K : Nat)
    (X : Nat → Nat → σ) (Z X0 : Nat → σ) (mem : Nat → Loc → Val σ β) (hm : ∀ r, mem r .st = .st (X0 r))
    (hsize : ∀ m, m ≤ K → ∀ a b, b ∈ T.dst a → T.fixed = true → (T.save a b (X m a)).length = T.len a b)
    (h0 : ∀ r, r < T.N → T.comp r 0 (X0 r) = some (X 0 r))
    (hc : ∀ m, m < K → ∀ r, r < T.N →
      T.comp r (m + 1) ((T.src r).foldl (fun x q => T.load r q (T.save q r (X m q)) x) (X m r)) = some (X (m + 1) r))
    (hz : ∀ r, r < T.N → T.comp r (K + 1) (X K r) = some (Z r)) :
    ∃ f, AlwaysEnds eager (start (rankP T K) mem) f ∧ ∀ r, r < T.N → (f.ranks r).mem .st = .st (Z r) := by
  have hmix : ∀ m r, r < T.N → mix T.N (X m) X0 r = X m r := fun m r hr => if_pos hr
  obtain ⟨f, h1, h2, h3⟩ := LinkProg.run_all (eager := eager) hT hrep (X := X) (Z := Z) (K := K) hm h0
    (fun m hm' a b hab => by rw [hmix m a (hT.lt a b hab).1]; exact hsize m hm' a b hab)
    (fun m hm' r hr => by
      rw [← hc m hm' r hr]
      congr 1
      unfold loaded
      rw [hmix m r hr]
      have : ∀ (l : List Nat) (x : σ), (∀ q ∈ l, q < T.N) → l.foldl (fun x q => T.load r q (T.save q r (mix T.N (X m) X0 q)) x) x =
          l.foldl (fun x q => T.load r q (T.save q r (X m q)) x) x := by
        intro l
        induction l with
        | nil => intro x _; rfl
        | cons q l ih =>
          intro x hl
          rw [List.foldl_cons, List.foldl_cons, hmix m q (hl q (List.mem_cons_self ..)), ih _ fun y hy => hl y (List.mem_cons_of_mem _ hy)]
      exact this _ _ fun q hq => (hT.lt q r ((hT.sym q r).1 hq)).1) hz
  exact ⟨f, alwaysEnds_of_run (wf_start _ _) h1 h2, fun r hr => by rw [h3 r, mix, if_pos hr]⟩

section
variable {κ α β : Type} [DecidableEq κ] {C : Cluster κ α} {W : Nat} {S : Sim κ α} {own outer : Nat → κ → Prop} {nb : κ → κ → Prop}

/-- **C56.** A distributed simulation of `total` nano steps, started on cooperating nodes: whatever the order in which ranks proceed and messages are copied and delivered, all ranks return after
a fixed number of moves, without deadlock, without touching buffers MPI owns, and with all messages received. All executions end in the same state. In it each node is at nano step `total`; its accepters (writers) were
shown each own cell for each nano step exactly as in the serial simulation; its grid agrees with the serial simulation on its inner set, and without steerers at synchronisation points on the
whole own region. -/
theorem mpi_simulation (h : ClusterOK C W S own outer nb) (hl : ∀ n (g h : κ → α) c, (∀ d, nb c d → g d = h d) → S.upd n g c = S.upd n h c)
    (cd : Codec α β) (b1 b2 : Nat → Nat → List α) (fixed repaired : Bool) (hcd : fixed = true → ∀ l, (cd.enc l).length = cd.width * l.length)
    (hrep : fixed = true ∨ repaired = true) (hW : 0 < W) (total : Nat) (eager : Ch → Nat → Bool)
    (mem : Nat → Loc → Val (Option (Node κ α)) β) (hm : ∀ r, mem r .st = .st none) :
    ∃ f, AlwaysEnds eager (start (rankP (simNet C cd b1 b2 fixed repaired total) (total / W)) mem) f ∧
      ∀ i, i < C.N → ∃ st got, (f.ranks i).mem .st = .st (some ⟨st, got⟩) ∧
        st.step = (S.first + total) / S.nanoSteps ∧ st.nano = (S.first + total) % S.nanoSteps ∧
        (∀ c, own i c → ∀ s, s ≤ total → ∃ g, (Ev.ghost (S.first + s) g ∈ st.log ∧ c ∈ (C.env i).rim W ∨ Ev.inner (S.first + s) g ∈ st.log ∧ c ∈ (C.env i).inner W) ∧
          g c = shown S s c) ∧
        (∀ p ∈ ghosts st.log, ∀ c ∈ (C.env i).rim W, p.2 c = shown S (p.1 - S.first) c) ∧
        (∀ p ∈ inners st.log, ∀ c ∈ (C.env i).inner W, p.2 c = shown S (p.1 - S.first) c) ∧
        (∀ c ∈ (C.env i).inner (total % W), st.old c = S.steer total (serial S total) c) ∧
        (S.steerers = [] → W ∣ total → ∀ c, own i c → st.old c = serial S total c) := by
  set T := simNet C cd b1 b2 fixed repaired total with hT
  set K := total / W with hK
  have hinv : ∀ m, m ≤ K → ∃ st got, RInv C W S own m (syncX T m) st got := by
    intro m
    induction m with
    | zero => intro _; obtain ⟨st, got, h1, -⟩ := sync_init (cd := cd) (fixed := fixed) (repaired := repaired) (total := total) h hl b1 b2; exact ⟨st, got, h1⟩
    | succ m ih =>
      intro hm'
      obtain ⟨st, got, h1⟩ := ih (by omega)
      obtain ⟨st', got', h2, -⟩ := sync_step h hl hW (Nat.le_trans (Nat.mul_le_mul_right W hm') (Nat.div_mul_le_self total W)) h1
      exact ⟨st', got', h2⟩
  obtain ⟨stK, gotK, hRK⟩ := hinv K (Nat.le_refl _)
  obtain ⟨st', hI, hz⟩ := sync_last h hl hW hRK
  obtain ⟨f, h1, h2, h3⟩ := LinkProg.run_all (T := T) (eager := eager) (simNet_ok h) hrep (X := syncX T) (Z := fun i => some ⟨st' i, gotK i⟩) (X0 := fun _ => none) (K := K)
    (mem := mem) hm
    (by
      obtain ⟨-, -, -, h4⟩ := sync_init (cd := cd) (fixed := fixed) (repaired := repaired) (total := total) h hl b1 b2
      exact h4)
    (fun m hm' => by
      obtain ⟨st, got, hR⟩ := hinv m hm'
      exact sized h hW hcd hR)
    (fun m hm' => by
      obtain ⟨st, got, hR⟩ := hinv m (by omega)
      obtain ⟨-, -, -, h4⟩ := sync_step h hl hW (Nat.le_trans (Nat.mul_le_mul_right W hm') (Nat.div_mul_le_self total W)) hR
      exact h4) hz
  refine ⟨f, alwaysEnds_of_run (wf_start _ _) h1 h2, fun i hi => ⟨st' i, gotK i, ?_, ?_⟩⟩
  · have hi' : i < T.N := hi
    rw [h3 i, mix, if_pos hi']
  · have e := steps_eq hI i hi
    have hser := inv_serial h hI i hi
    rw [e] at hser
    obtain ⟨a1, a2, a3, a4, a5, a6, -, -⟩ := hser
    exact ⟨a1, a2, fun c hc s hs => inv_shown h hI i hi c hc s (by rw [e]; exact hs), a5, a6, a3, a4⟩

end

/-- **C56 for structured grids.** Any decomposition of an n-dimensional grid with any combination of periodic and constant boundaries, any ghost zone width up to the periodic extents, any
steerers and any update function which reads the Moore neighborhood. -/
theorem mpi_structured {α β : Type} (n : Nat) (part : Nat → Option Idx) (dim : Crd) (wraps : Nat → Bool) (gw N inf : Nat) (S : Sim (Vec n) α) (P : Nat → Crd → Prop)
    (hw : ∀ k, k ≤ n → wraps k = true → 1 ≤ dim k ∧ (gw : Int) ≤ dim k) (hgw : 0 < gw) (hns : 0 < S.nanoSteps)
    (hS : ∀ f ∈ S.steerers, 0 < f.period ∧ S.startStep ≤ S.lastStep)
    (hp : PartOK (structuredEnv n part dim wraps) (C14.InDim n dim) N P)
    (hdis : ∀ i j c, i < N → j < N → P i c → P j c → i = j) (hcov : ∀ c, C14.InDim n dim c → ∃ i, i < N ∧ P i c)
    (hl : ∀ m (g h : Vec n → α) c, (∀ d, VNb (MooreNb n wraps dim) c d → g d = h d) → S.upd m g c = S.upd m h c)
    (cd : Codec α β) (b1 b2 : Nat → Nat → List α) (fixed repaired : Bool) (hcd : fixed = true → ∀ l, (cd.enc l).length = cd.width * l.length)
    (hrep : fixed = true ∨ repaired = true) (total : Nat) (eager : Ch → Nat → Bool)
    (mem : Nat → Loc → Val (Option (Node (Vec n) α)) β) (hm : ∀ r, mem r .st = .st none) :
    ∃ f, AlwaysEnds eager (start (rankP (simNet (pmCluster (structuredEnv n part dim wraps) gw N inf S) cd b1 b2 fixed repaired total) (total / gw)) mem) f ∧
      ∀ i, i < N → ∃ st got, (f.ranks i).mem .st = .st (some ⟨st, got⟩) ∧
        st.step = (S.first + total) / S.nanoSteps ∧ st.nano = (S.first + total) % S.nanoSteps ∧
        ∀ c, P i (ext c) →
          (∀ s, s ≤ total → ∃ g, (Ev.ghost (S.first + s) g ∈ st.log ∨ Ev.inner (S.first + s) g ∈ st.log) ∧ g c = shown S s c) ∧
          (S.steerers = [] → gw ∣ total → st.old c = serial S total c) := by
  have hok := structured_ok n part dim wraps gw hw
  have hC := pmCluster_ok hok hp hdis hcov (mooreNb_symm n wraps dim) hgw inf S hns hS
  obtain ⟨f, h1, h2⟩ := mpi_simulation hC hl cd b1 b2 fixed repaired hcd hrep hgw total eager mem hm
  refine ⟨f, h1, fun i hi => ?_⟩
  obtain ⟨st, got, a1, a2, a3, a4, -, -, -, a5⟩ := h2 i hi
  refine ⟨st, got, a1, a2, a3, fun c hc => ⟨fun s hs => ?_, fun h0 hd => a5 h0 hd c hc⟩⟩
  obtain ⟨g, g1, g2⟩ := a4 c hc s hs
  exact ⟨g, g1.imp (fun h => h.1) (fun h => h.1), g2⟩

/-- Three nodes on a torus of 12 cells, ghost zone width 2, eight nano steps, patches as vectors of cells: -/
example (upd : Nat → (Vec 0 → Int) → Vec 0 → Int)
    (hl : ∀ m (g h : Vec 0 → Int) c, (∀ d, VNb (MooreNb 0 (fun _ => true) (fun _ => 12)) c d → g d = h d) → upd m g c = upd m h c)
    (initial : Vec 0 → Int) (S : Sim (Vec 0) Int) (hS : S = ⟨3, 0, 5, upd, initial, []⟩) (eager : Ch → Nat → Bool) :
    ∃ f, AlwaysEnds eager (start (rankP (simNet (pmCluster C21.env3 2 3 1000 S) (⟨id, id, 1, fun _ => rfl⟩ : Codec Int Int) (fun _ _ => []) (fun _ _ => []) true false 8) 4)
        fun _ _ => .st none) f ∧
      ∀ i, i < 3 → ∃ st got, (f.ranks i).mem .st = .st (some ⟨st, got⟩) ∧ st.step = 2 ∧ st.nano = 2 ∧
        ∀ c : Vec 0, C21.P3 i (ext c) → st.old c = serial S 8 c := by
  have hw : ∀ k, k ≤ 0 → (fun _ : Nat => true) k = true → 1 ≤ (fun _ : Nat => (12 : Int)) k ∧ ((2 : Nat) : Int) ≤ (fun _ : Nat => (12 : Int)) k := by
    intro k _ _; simp only; omega
  have hdis : ∀ i j c, i < 3 → j < 3 → C21.P3 i c → C21.P3 j c → i = j := by
    intro i j c hi hj h1 h2
    have a : i = 0 ∨ i = 1 ∨ i = 2 := by omega
    have b : j = 0 ∨ j = 1 ∨ j = 2 := by omega
    rcases a with rfl | rfl | rfl <;> rcases b with rfl | rfl | rfl <;> first | rfl | (unfold C21.P3 at h1 h2; simp at h1 h2; omega)
  have hcov : ∀ c, C14.InDim 0 (fun _ => 12) c → ∃ i, i < 3 ∧ C21.P3 i c := by
    intro c hc
    have := hc 0 (by omega)
    simp only at this
    by_cases h1 : c 0 < 5
    · exact ⟨0, by omega, by unfold C21.P3; simp; omega⟩
    · by_cases h2 : c 0 < 8
      · exact ⟨1, by omega, by unfold C21.P3; simp; omega⟩
      · exact ⟨2, by omega, by unfold C21.P3; simp; omega⟩
  obtain ⟨f, h1, h2⟩ := mpi_structured 0 C21.part3 (fun _ => 12) (fun _ => true) 2 3 1000 S C21.P3 hw (by omega) (by rw [hS]; exact Nat.succ_pos _)
    (by intro f hf; rw [hS] at hf; simp at hf) part3_ok hdis hcov (by rw [hS]; exact hl) (⟨id, id, 1, fun _ => rfl⟩ : Codec Int Int) (fun _ _ => []) (fun _ _ => []) true false
    (fun _ l => by simp) (Or.inl rfl) 8 eager (fun _ _ => .st none) fun _ => rfl
  refine ⟨f, h1, fun i hi => ?_⟩
  obtain ⟨st, got, a1, a2, a3, a4⟩ := h2 i hi
  refine ⟨st, got, a1, ?_, ?_, fun c hc => (a4 c hc).2 (by rw [hS]) ⟨4, rfl⟩⟩
  · rw [a2, hS]; simp [Sim.first]
  · rw [a3, hS]; simp [Sim.first]

/-! ## Patches of variable size

The code corresponds to `repaired = false`. Then `cleanup()` reads `dataSize` while the header is being received (patchlink.h:205-210 calls 274-279 without a preceding `wait()`). -/

/-- two ranks which exchange one element -/
def pairNet : Net Unit Unit where
  N := 2
  src := fun r => if r < 2 then [1 - r] else []
  dst := fun r => if r < 2 then [1 - r] else []
  fixed := false
  repaired := false
  len := fun _ _ => 1
  save := fun _ _ _ => [()]
  load := fun _ _ _ x => x
  comp := fun _ _ x => some x

/-- **C56, negation.** With patches of variable size rank 0 may reach the end of the simulation before rank 1 has done anything: it reads the size of the last patch while MPI may be writing it, and posts
a receive which is too small for the patch rank 1 is going to send. -/
theorem cleanup_races (eager : Ch → Nat → Bool) :
    ∃ k t, Run eager k (start (rankP pairNet 0) fun _ l => match l with | .st => .st () | _ => .size 0) t ∧ t.err = true ∧
      (t.recvs ⟨1, 0, tag⟩).map Rcv.ls = [some [.rs 1], some []] := by
  obtain ⟨t, ht, h1, h2⟩ : ∃ t, runLabels eager (start (rankP pairNet 0) fun _ l => match l with | .st => .st () | _ => .size 0)
      ((List.range 13).map fun _ => Label.loc 0) = some t ∧ t.err = true ∧ (t.recvs ⟨1, 0, tag⟩).map Rcv.ls = [some [.rs 1], some []] := ⟨_, rfl, rfl, rfl⟩
  exact ⟨_, t, run_of_labels _ ht, h1, h2⟩

/-- With the missing `wait()` every execution ends. -/
example (eager : Ch → Nat → Bool) : ∃ f, AlwaysEnds eager (start (rankP { pairNet with repaired := true } 0) fun _ l => match l with | .st => .st () | _ => .size 0) f := by
  have hT : NetOK ({ pairNet with repaired := true } : Net Unit Unit) := by
    refine ⟨?_, ?_, ?_, ?_, ?_⟩ <;> intro a <;> (try intro b) <;> simp only [pairNet] <;> (try split) <;> (try split) <;> simp <;> omega
  obtain ⟨f, h1, -⟩ := links_always_end _ hT (Or.inr rfl) eager 0 (fun _ _ => ()) (fun _ => ()) (fun _ => ()) (fun _ l => match l with | .st => .st () | _ => .size 0) (fun _ => rfl)
    (fun _ _ _ _ _ h => by cases h) (fun _ _ => rfl) (fun _ h => by omega) (fun _ _ => rfl)
  exact ⟨f, h1⟩

end LGD.C56
