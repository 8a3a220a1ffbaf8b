import Verif.Comm.Pmw
import Verif.Comm.Confluence
import Verif.Region.Literal

/-!
# C52: `ParallelMemoryWriter` assembles the global grid on every rank

All ranks call `stepFinished` for the same sequence of steps and events, with valid regions which don't overlap. However the ranks run, whichever
messages the MPI library buffers, and whenever it moves data: no rank gets stuck, no operation touches memory which belongs to a pending one, no message gets
lost or is cut off, and in the end the grids of all ranks hold the cells of all valid regions, default cells elsewhere, and the edge cell.
-/

namespace LGD.C52
open LGD.Mpi LGD.Gather LGD.C14

variable {α : Type} {n : Nat} {wraps : Nat → Bool} {dim : Crd}

/-- Every execution which starts in `s` is free of errors, ends after at most a fixed number of moves, and ends in `f`
(it can't get stuck elsewhere); there all ranks have returned, all requests were waited for, and everything which was sent has been received. -/
def AlwaysEnds {L V M E : Type} [DecidableEq L] [Wire V M] (eager : Ch → Nat → Bool) (s f : St L V M E) : Prop :=
  Final f ∧ ∃ n, Run eager n s f ∧ ∀ k t, Run eager k s t →
    k ≤ n ∧ t.err = false ∧ Run eager (n - k) t f ∧ ((∀ u, ¬ Step eager t u) → t = f)

theorem alwaysEnds_of_run {L V M E : Type} [DecidableEq L] [Wire V M] {eager : Ch → Nat → Bool} {s f : St L V M E} (hw : WF s)
    (hr : RunTo eager s f) (hf : Final f) : AlwaysEnds eager s f := by
  obtain ⟨n, hr⟩ := hr
  refine ⟨hf, n, hr, fun k t ht => ?_⟩
  obtain ⟨m, e, h1, h2, -, h4⟩ := one_for_all hw hr hf ht
  subst e
  exact ⟨by omega, h2, by rwa [Nat.add_sub_cancel_left], h4⟩

/-- calls which don't return at once -/
def Due (period : Nat) (c : Call α) : Prop := ¬ (c.event = .regular ∧ c.step % period ≠ 0)

/-- What the ranks `0 … N - 1` are called with: the same steps and events, regions in the simulation area which don't overlap those of other ranks in
the same call, and cells which agree with `ref`, edge cells which agree with `edge`. -/
structure Sched (n : Nat) (dim : Crd) (N : Nat) (calls : Nat → List (Call α)) (ref : Nat → Crd → α) (edge : Nat → α) : Prop where
  same : ∀ r r', r < N → r' < N → (calls r).map (fun c => (c.step, c.event)) = (calls r').map (fun c => (c.step, c.event))
  reg : ∀ r, r < N → ∀ c ∈ calls r, RegOK n c.idx
  box : ∀ r, r < N → ∀ c ∈ calls r, ∀ p, RMem n c.idx p → InDim n dim p
  val : ∀ r, r < N → ∀ c ∈ calls r, ∀ p, RMem n c.idx p → c.val p = ref c.step p
  edge : ∀ r, r < N → ∀ c ∈ calls r, c.edge = edge c.step
  disj : ∀ r r', r < N → r' < N → r ≠ r' → ∀ (j : Nat) (c c' : Call α), (calls r)[j]? = some c → (calls r')[j]? = some c' →
    ∀ p, ¬ (RMem n c.idx p ∧ RMem n c'.idx p)
  crd : ∀ g c d, (∀ k, k ≤ n → c k = d k) → ref g c = ref g d

/-- a cell which some rank delivers for step `g` -/
def Cov (n N period : Nat) (calls : Nat → List (Call α)) (g : Nat) (p : Crd) : Prop :=
  ∃ x, x < N ∧ ∃ c ∈ calls x, Due period c ∧ c.step = g ∧ RMem n c.idx p

/-- the same for addresses -/
def CovAt (n : Nat) (dim : Crd) (N period : Nat) (calls : Nat → List (Call α)) (g : Nat) (i : Int) : Prop :=
  ∃ x, x < N ∧ ∃ c ∈ calls x, Due period c ∧ c.step = g ∧ Gather.At n dim g c.idx (.cell g i)

theorem Sched.tail {N : Nat} {calls : Nat → List (Call α)} {ref : Nat → Crd → α} {edge : Nat → α} {c : Nat → Call α} {cs : Nat → List (Call α)}
    (h : Sched n dim N calls ref edge) (hc : ∀ r, r < N → calls r = c r :: cs r) : Sched n dim N cs ref edge where
  same r r' hr hr' := by
    have := h.same r r' hr hr'
    rw [hc r hr, hc r' hr', List.map_cons, List.map_cons] at this
    exact (List.cons.inj this).2
  reg r hr d hd := h.reg r hr d (by rw [hc r hr]; simp [hd])
  box r hr d hd := h.box r hr d (by rw [hc r hr]; simp [hd])
  val r hr d hd := h.val r hr d (by rw [hc r hr]; simp [hd])
  edge r hr d hd := h.edge r hr d (by rw [hc r hr]; simp [hd])
  disj r r' hr hr' hne j d d' hd hd' := h.disj r r' hr hr' hne (j + 1) d d' (by rw [hc r hr]; simpa using hd) (by rw [hc r' hr']; simpa using hd')
  crd := h.crd

theorem run_pmw (hn : n ≤ 2) {eager : Ch → Nat → Bool} {dflt : α} {N period : Nat} {ref : Nat → Crd → α} {edge : Nat → α} (hN : 0 < N) :
    ∀ (K : Nat) (calls : Nat → List (Call α)) (seen : List Nat) (s : St Loc α (Msg α) (Shot α)),
    Sched n dim N calls ref edge → (∀ r, r < N → (calls r).length = K) → Quiet s →
    (∀ r, r < N → (s.ranks r).proc = pmwRun n wraps dim dflt N r period seen (calls r) ∧ (s.ranks r).reqs = []) →
    ∃ t, RunTo eager s t ∧ Quiet t ∧ (∀ r, N ≤ r → t.ranks r = s.ranks r) ∧ ∀ r, r < N →
      ((t.ranks r).proc = .done ∧ (t.ranks r).reqs = []) ∧
      (∀ g p, Cov n N period calls g p → (t.ranks r).mem (.cell g (lin dim n 0 p)) = ref g p) ∧
      (∀ g i, g ∈ seen → ¬ CovAt n dim N period calls g i → (t.ranks r).mem (.cell g i) = (s.ranks r).mem (.cell g i)) ∧
      (∀ g i, g ∉ seen → (∃ c ∈ calls r, Due period c ∧ c.step = g) → 0 ≤ i → i < crdProd n dim →
        ¬ CovAt n dim N period calls g i → (t.ranks r).mem (.cell g i) = dflt) ∧
      (∀ g, (∃ c ∈ calls r, Due period c ∧ c.step = g) → (t.ranks r).mem (.edge g) = edge g) ∧
      (∀ g, (¬ ∃ c ∈ calls r, Due period c ∧ c.step = g) → (t.ranks r).mem (.edge g) = (s.ranks r).mem (.edge g))
  | 0, calls, seen, s, _, hlen, hq, hp => by
    have hnil : ∀ r, r < N → calls r = [] := fun r hr => List.eq_nil_of_length_eq_zero (hlen r hr)
    refine ⟨s, RunTo.refl _, hq, fun _ _ => rfl, fun r hr => ⟨?_, ?_, fun _ _ _ _ => rfl, ?_, ?_, fun _ _ => rfl⟩⟩
    · rw [(hp r hr).1, (hp r hr).2, hnil r hr, pmwRun]
      exact ⟨rfl, rfl⟩
    · rintro g p ⟨x, hx, c, hc, -⟩
      rw [hnil x hx] at hc
      cases hc
    · rintro g i - ⟨c, hc, -⟩
      rw [hnil r hr] at hc
      cases hc
    · rintro g ⟨c, hc, -⟩
      rw [hnil r hr] at hc
      cases hc
  | K + 1, calls, seen, s, hs, hlen, hq, hp => by
    have hcons : ∃ (c : Nat → Call α) (cs : Nat → List (Call α)), ∀ r, r < N → calls r = c r :: cs r := by
      have : ∀ r, ∃ (d : Call α) (ds : List (Call α)), r < N → calls r = d :: ds := by
        intro r
        by_cases hr : r < N
        · cases h : calls r with
          | nil => have := hlen r hr; rw [h] at this; simp at this
          | cons d ds => exact ⟨d, ds, fun _ => rfl⟩
        · cases h : calls 0 with
          | nil => have := hlen 0 hN; rw [h] at this; simp at this
          | cons d ds => exact ⟨d, ds, fun h => absurd h hr⟩
      choose c cs h using this
      exact ⟨c, cs, h⟩
    obtain ⟨c, cs, hc⟩ := hcons
    have hs' := hs.tail hc
    have hlen' : ∀ r, r < N → (cs r).length = K := fun r hr => by
      have := hlen r hr
      rw [hc r hr] at this
      simpa using this
    have hhead : ∀ r, r < N → (c r).step = (c 0).step ∧ (c r).event = (c 0).event := by
      intro r hr
      have := hs.same r 0 hr hN
      rw [hc r hr, hc 0 hN, List.map_cons, List.map_cons] at this
      have := (List.cons.inj this).1
      simpa using this
    have hmemc : ∀ r, r < N → c r ∈ calls r := fun r hr => by rw [hc r hr]; simp
    have hdue : ∀ r, r < N → (Due period (c r) ↔ Due period (c 0)) := fun r hr => by
      unfold Due
      rw [(hhead r hr).1, (hhead r hr).2]
    by_cases hd : Due period (c 0)
    · have hvec : ∀ r, ∃ l, r < N → InBox n dim (c r).idx l := by
        intro r
        by_cases hr : r < N
        · obtain ⟨l, hl, -⟩ := toVector_spec (hs.reg r hr _ (hmemc r hr))
          exact ⟨l, fun _ => ⟨hs.reg r hr _ (hmemc r hr), hl, hs.box r hr _ (hmemc r hr)⟩⟩
        · exact ⟨[], fun h => absurd h hr⟩
      choose ls hls using hvec
      set g0 := (c 0).step with hg0
      obtain ⟨s1, r1, q1, o1, h1⟩ := run_call (eager := eager) (wraps := wraps) (dflt := dflt) (fresh := !seen.contains g0)
        (K := fun r => pmwRun n wraps dim dflt N r period (g0 :: seen) (cs r)) hn
        (fun r hr => (hhead r hr).1) hls
        (fun r r' hr hr' hne => hs.disj r r' hr hr' hne 0 _ _ (by rw [hc r hr]; rfl) (by rw [hc r' hr']; rfl))
        (ref := ref g0) (hs.crd g0)
        (fun r hr p hp => by rw [hs.val r hr _ (hmemc r hr) p hp, (hhead r hr).1])
        hq (fun r hr => by
          have := hp r hr
          rw [hc r hr, pmwRun, if_neg ((hdue r hr).2 hd), (hhead r hr).1] at this
          exact this)
      obtain ⟨t, r2, q2, o2, h2⟩ := run_pmw hn hN K cs (g0 :: seen) s1 hs' hlen' q1 (fun r hr => ⟨(h1 r hr).1, (h1 r hr).2.1⟩)
      -- what is delivered by the first call, and by the rest
      have covAt_iff : ∀ g i, CovAt n dim N period calls g i ↔
          (g = g0 ∧ ∃ x, x < N ∧ Gather.At n dim g0 (c x).idx (.cell g0 i)) ∨ CovAt n dim N period cs g i := by
        intro g i
        constructor
        · rintro ⟨x, hx, d, hd', h3, h4, h5⟩
          rw [hc x hx] at hd'
          rcases List.mem_cons.1 hd' with rfl | hd'
          · rw [(hhead x hx).1] at h4
            subst h4
            exact Or.inl ⟨rfl, x, hx, h5⟩
          · exact Or.inr ⟨x, hx, d, hd', h3, h4, h5⟩
        · rintro (⟨rfl, x, hx, h5⟩ | ⟨x, hx, d, hd', h3, h4, h5⟩)
          · exact ⟨x, hx, c x, hmemc x hx, (hdue x hx).2 hd, (hhead x hx).1, h5⟩
          · exact ⟨x, hx, d, by rw [hc x hx]; simp [hd'], h3, h4, h5⟩
      have cov_at : ∀ {r g p}, r < N → CovAt n dim N period cs g (lin dim n 0 p) → InDim n dim p →
          (t.ranks r).mem (.cell g (lin dim n 0 p)) = ref g p := by
        intro r g p hr hcv hin
        obtain ⟨x, hx, d, hd', h3, h4, q, hq1, hq2⟩ := hcv
        have hinq := hs'.box x hx d hd' q hq1
        have := lin_inj hin hinq (by simpa using hq2)
        rw [show lin dim n 0 p = lin dim n 0 q from by simpa using hq2, hs.crd g p q this]
        exact (h2 r hr).2.1 g q ⟨x, hx, d, hd', h3, h4, hq1⟩
      refine ⟨t, r1.trans r2, q2, fun r hr => by rw [o2 r hr, o1 r hr], fun r hr => ?_⟩
      obtain ⟨-, -, -, a1, a2, a3, a4, a5⟩ := h1 r hr
      obtain ⟨b0, b1, b2, b3, b4, b5⟩ := h2 r hr
      have mcalls : ∀ g, (∃ d ∈ calls r, Due period d ∧ d.step = g) ↔ g = g0 ∨ ∃ d ∈ cs r, Due period d ∧ d.step = g := by
        intro g
        constructor
        · rintro ⟨d, hd', h3, h4⟩
          rw [hc r hr] at hd'
          rcases List.mem_cons.1 hd' with rfl | hd'
          · exact Or.inl (by rw [← h4, (hhead r hr).1])
          · exact Or.inr ⟨d, hd', h3, h4⟩
        · rintro (rfl | ⟨d, hd', h3, h4⟩)
          · exact ⟨c r, hmemc r hr, (hdue r hr).2 hd, (hhead r hr).1⟩
          · exact ⟨d, by rw [hc r hr]; simp [hd'], h3, h4⟩
      refine ⟨b0, ?_, ?_, ?_, ?_, ?_⟩
      · rintro g p ⟨x, hx, d, hd', h3, h4, h5⟩
        rw [hc x hx] at hd'
        rcases List.mem_cons.1 hd' with rfl | hd'
        · rw [(hhead x hx).1] at h4
          subst h4
          by_cases hcv : CovAt n dim N period cs g0 (lin dim n 0 p)
          · exact cov_at hr hcv (hs.box x hx _ (hmemc x hx) p h5)
          · rw [b2 g0 _ (by simp) hcv]
            exact a1 x hx p h5
        · exact b1 g p ⟨x, hx, d, hd', h3, h4, h5⟩
      · intro g i hg hcv
        rw [covAt_iff] at hcv
        rw [b2 g i (by simp [hg]) fun h => hcv (Or.inr h)]
        by_cases he : g = g0
        · subst he
          exact a4 (by simpa using hg) i fun x hx h => hcv (Or.inl ⟨rfl, x, hx, h⟩)
        · exact a3 _ (fun i' h => he (by simpa using (Loc.cell.inj h).1)) (by simp)
      · intro g i hg hdue' hi1 hi2 hcv
        rw [covAt_iff] at hcv
        by_cases he : g = g0
        · subst he
          rw [b2 g0 i (by simp) fun h => hcv (Or.inr h)]
          exact a5 (by simpa using hg) i hi1 hi2 fun x hx h => hcv (Or.inl ⟨rfl, x, hx, h⟩)
        · rw [mcalls] at hdue'
          rcases hdue' with h | h
          · exact absurd h he
          · exact b3 g i (by simp [he, hg]) h hi1 hi2 fun h => hcv (Or.inr h)
      · intro g hg
        rw [mcalls] at hg
        by_cases h : ∃ d ∈ cs r, Due period d ∧ d.step = g
        · exact b4 g h
        · rcases hg with rfl | hg
          · rw [b5 g0 h, a2, hs.edge r hr _ (hmemc r hr), (hhead r hr).1]
          · exact absurd hg h
      · intro g hg
        rw [mcalls] at hg
        rw [b5 g fun h => hg (Or.inr h)]
        exact a3 _ (by simp) fun h => hg (Or.inl (by simpa using (Loc.edge.inj h)))
    · obtain ⟨t, r2, q2, o2, h2⟩ := run_pmw hn hN K cs seen s hs' hlen' hq (fun r hr => by
        have := hp r hr
        rw [hc r hr, pmwRun, if_pos (by
          have := (hdue r hr).not.2 hd
          unfold Due at this
          exact Classical.not_not.1 this)] at this
        exact this)
      have cov_iff : ∀ {P : Call α → Prop} {r}, r < N → ((∃ d ∈ calls r, Due period d ∧ P d) ↔ ∃ d ∈ cs r, Due period d ∧ P d) := by
        intro P r hr
        constructor
        · rintro ⟨d, hd', h3, h4⟩
          rw [hc r hr] at hd'
          rcases List.mem_cons.1 hd' with rfl | hd'
          · exact absurd ((hdue r hr).1 h3) hd
          · exact ⟨d, hd', h3, h4⟩
        · rintro ⟨d, hd', h3⟩
          exact ⟨d, by rw [hc r hr]; simp [hd'], h3⟩
      have covAt_iff : ∀ g i, CovAt n dim N period calls g i ↔ CovAt n dim N period cs g i := by
        intro g i
        unfold CovAt
        exact exists_congr fun x => and_congr_right fun hx => cov_iff hx
      refine ⟨t, r2, q2, o2, fun r hr => ?_⟩
      obtain ⟨b0, b1, b2, b3, b4, b5⟩ := h2 r hr
      refine ⟨b0, ?_, ?_, ?_, ?_, ?_⟩
      · rintro g p ⟨x, hx, h⟩
        exact b1 g p ⟨x, hx, (cov_iff hx).1 h⟩
      · intro g i hg hcv
        exact b2 g i hg fun h => hcv ((covAt_iff g i).2 h)
      · intro g i hg hd' hi1 hi2 hcv
        exact b3 g i hg ((cov_iff hr).1 hd') hi1 hi2 fun h => hcv ((covAt_iff g i).2 h)
      · intro g hg
        exact b4 g ((cov_iff hr).1 hg)
      · intro g hg
        exact b5 g fun h => hg ((cov_iff hr).2 h)

/-- All ranks run `stepFinished` of their `ParallelMemoryWriter`s for all calls. -/
def pmwStart (n : Nat) (wraps : Nat → Bool) (dim : Crd) (dflt : α) (N period : Nat) (calls : Nat → List (Call α)) (mem : Nat → Loc → α) :
    St Loc α (Msg α) (Shot α) :=
  start (fun r => if r < N then pmwRun n wraps dim dflt N r period [] (calls r) else .done) mem

/-- **C52.** Whatever the schedule, whichever messages are buffered: the run is free of deadlocks, races and truncated messages, and ends in one and the same state.
There, for each rank `r`, `getGrid(g)[p]` is the cell which some rank delivered for `p` in step `g`, a default cell if none did, and the edge cell is the simulation's. -/
theorem parallelMemoryWriter_gathers (hn : n ≤ 2) (eager : Ch → Nat → Bool) (dflt : α) (N period : Nat) (calls : Nat → List (Call α))
    (ref : Nat → Crd → α) (edge : Nat → α) (hs : Sched n dim N calls ref edge) (mem : Nat → Loc → α) :
    ∃ f, AlwaysEnds eager (pmwStart n wraps dim dflt N period calls mem) f ∧
      ∀ r, r < N → ∀ g, (∃ c ∈ calls r, Due period c ∧ c.step = g) →
        (∀ p, Cov n N period calls g p → (f.ranks r).mem (cellAddr n wraps dim g p) = ref g p) ∧
        (∀ p, InDim n dim p → ¬ Cov n N period calls g p → (f.ranks r).mem (cellAddr n wraps dim g p) = dflt) ∧
        (f.ranks r).mem (.edge g) = edge g := by
  by_cases hN : 0 < N
  · have hlen : ∀ r, r < N → (calls r).length = (calls 0).length := fun r hr => by
      have := congrArg List.length (hs.same r 0 hr hN)
      simpa using this
    obtain ⟨f, r1, q1, o1, h1⟩ := run_pmw (eager := eager) (wraps := wraps) (dflt := dflt) (period := period) hn hN (calls 0).length calls []
      (pmwStart n wraps dim dflt N period calls mem) hs hlen (quiet_start _ _)
      (fun r hr => by simp [pmwStart, start, hr])
    refine ⟨f, alwaysEnds_of_run (wf_start _ _) r1 (q1.final fun r => ?_), fun r hr g hg => ?_⟩
    · by_cases hr : r < N
      · exact (h1 r hr).1
      · rw [o1 r (by omega)]
        simp [pmwStart, start, hr]
    · obtain ⟨-, b1, -, b3, b4, -⟩ := h1 r hr
      refine ⟨fun p hp => ?_, fun p hin hp => ?_, b4 g hg⟩
      · have hin : InDim n dim p := by
          obtain ⟨x, hx, c, hc, -, -, h⟩ := hp
          exact hs.box x hx c hc p h
        rw [cellAddr_in hn hin]
        exact b1 g p hp
      · rw [cellAddr_in hn hin]
        have l1 := lin_nonneg dim n 0 p (fun j _ hj => (hin j (by omega)).1) (fun j _ hj => by have := hin j (by omega); omega)
        have l2 := lin_lt_vol dim n 0 p (fun j _ hj => hin j (by omega))
        rw [vol_prod] at l2
        refine b3 g _ (by simp) hg l1 l2 ?_
        rintro ⟨x, hx, c, hc, h3, h4, q, hq1, hq2⟩
        have := lin_inj hin (hs.box x hx c hc q hq1) (by simpa using hq2)
        exact hp ⟨x, hx, c, hc, h3, h4, (RMem_congr (hs.reg x hx c hc) this).2 hq1⟩
  · refine ⟨_, alwaysEnds_of_run (wf_start _ _) (RunTo.refl _) ((quiet_start _ _).final fun r => ?_), fun r hr => by omega⟩
    have : ¬ r < N := by omega
    simp [start, this]

/-! ## Examples -/

/-- moves one after the other -/
def runLabels {L V M E : Type} [DecidableEq L] [Wire V M] (eager : Ch → Nat → Bool) : St L V M E → List Label → Option (St L V M E)
  | s, [] => some s
  | s, a :: as => (next eager s a).bind fun t => runLabels eager t as

theorem run_of_labels {L V M E : Type} [DecidableEq L] [Wire V M] {eager : Ch → Nat → Bool} : ∀ (as : List Label) {s t : St L V M E},
    runLabels eager s as = some t → Run eager as.length s t
  | [], s, t, h => by
    cases h
    exact .refl _
  | a :: as, s, t, h => by
    rw [runLabels, Option.bind_eq_some_iff] at h
    obtain ⟨u, h1, h2⟩ := h
    exact .step ⟨a, h1⟩ (run_of_labels as h2)

/-- a region with the given streaks -/
def mk (n : Nat) (l : List Streak) : Idx := (insAll n emptyIdx l).getD emptyIdx

theorem mk_spec (n : Nat) (l : List Streak) : RegOK n (mk n l) ∧ ∀ c, RMem n (mk n l) c ↔ U n l c := by
  obtain ⟨r, e, hr, hm⟩ := insAll_spec n l emptyIdx (regOK_empty n)
  unfold mk
  rw [e]
  refine ⟨hr, fun c => ?_⟩
  show RMem n r c ↔ _
  rw [hm]
  exact ⟨fun h => h.elim (fun h => (regEmpty_mem n c h).elim) id, Or.inr⟩

def xy (x y : Int) : Crd := fun k => if k = 0 then x else if k = 1 then y else 0

def refEx (g : Nat) (c : Crd) : Int := 100 * g + 10 * c 1 + c 0

def callEx (g : Nat) (e : Adapter.Event) (l : List Streak) : Call Int := ⟨g, e, mk 1 l, refEx g, -1 - g, true⟩

/-- a grid of 4x2 cells; three ranks; rank 2 has no cells at first; step 1 is skipped, cell (3, 1) is missing in step 2 -/
def callsEx : Nat → List (Call Int)
  | 0 => [callEx 0 .initialized [⟨xy 0 0, 2⟩], callEx 1 .regular [⟨xy 0 0, 4⟩], callEx 2 .regular [⟨xy 1 0, 3⟩]]
  | 1 => [callEx 0 .initialized [⟨xy 2 0, 4⟩, ⟨xy 0 1, 4⟩], callEx 1 .regular [⟨xy 0 1, 4⟩], callEx 2 .regular [⟨xy 0 0, 1⟩, ⟨xy 0 1, 3⟩]]
  | _ => [callEx 0 .initialized [], callEx 1 .regular [], callEx 2 .regular [⟨xy 3 0, 4⟩]]

def dimEx : Crd := xy 4 2

theorem mem_callEx (g : Nat) (e : Adapter.Event) (l : List Streak) (p : Crd) : RMem 1 (callEx g e l).idx p ↔ ∃ s ∈ l, SMem 1 s p := (mk_spec 1 l).2 p

theorem reg_callEx (g : Nat) (e : Adapter.Event) (l : List Streak) : RegOK 1 (callEx g e l).idx := (mk_spec 1 l).1

theorem smem_row (x y e : Int) (p : Crd) : SMem 1 ⟨xy x y, e⟩ p ↔ p 1 = y ∧ x ≤ p 0 ∧ p 0 < e := by
  unfold SMem
  constructor
  · rintro ⟨h1, h2⟩
    exact ⟨h1 1 (by omega) (by omega), h2⟩
  · rintro ⟨h1, h2⟩
    refine ⟨fun k k1 k2 => ?_, h2⟩
    have : k = 1 := by omega
    subst this
    exact h1

theorem schedEx : Sched 1 dimEx 3 callsEx refEx (fun g => -1 - g) where
  same := by
    intro r r' hr hr'
    have : ∀ r, r < 3 → (callsEx r).map (fun c => (c.step, c.event)) = [(0, .initialized), (1, .regular), (2, .regular)] := by
      intro r hr
      rcases (by omega : r = 0 ∨ r = 1 ∨ r = 2) with rfl | rfl | rfl <;> rfl
    rw [this r hr, this r' hr']
  reg := by
    intro r hr c hc
    rcases (by omega : r = 0 ∨ r = 1 ∨ r = 2) with rfl | rfl | rfl <;>
      simp only [callsEx, List.mem_cons, List.not_mem_nil, or_false] at hc <;>
      rcases hc with rfl | rfl | rfl <;> exact reg_callEx _ _ _
  box := by
    intro r hr c hc p hp k hk
    have hd : dimEx 0 = 4 ∧ dimEx 1 = 2 := ⟨rfl, rfl⟩
    rcases (by omega : r = 0 ∨ r = 1 ∨ r = 2) with rfl | rfl | rfl <;>
      simp only [callsEx, List.mem_cons, List.not_mem_nil, or_false] at hc <;>
      rcases hc with rfl | rfl | rfl <;> rw [mem_callEx] at hp <;>
      rcases (by omega : k = 0 ∨ k = 1) with rfl | rfl <;> simp [smem_row] at hp <;> omega
  val := by
    intro r hr c hc p hp
    rcases (by omega : r = 0 ∨ r = 1 ∨ r = 2) with rfl | rfl | rfl <;>
      simp only [callsEx, List.mem_cons, List.not_mem_nil, or_false] at hc <;>
      rcases hc with rfl | rfl | rfl <;> rfl
  edge := by
    intro r hr c hc
    rcases (by omega : r = 0 ∨ r = 1 ∨ r = 2) with rfl | rfl | rfl <;>
      simp only [callsEx, List.mem_cons, List.not_mem_nil, or_false] at hc <;>
      rcases hc with rfl | rfl | rfl <;> rfl
  disj := by
    intro r r' hr hr' hne j c c' hc hc' p ⟨hp, hp'⟩
    have hj : j < 3 := by
      have := (List.getElem?_eq_some_iff.1 hc).1
      rcases (by omega : r = 0 ∨ r = 1 ∨ r = 2) with rfl | rfl | rfl <;> exact this
    rcases (by omega : j = 0 ∨ j = 1 ∨ j = 2) with rfl | rfl | rfl <;>
      rcases (by omega : r = 0 ∨ r = 1 ∨ r = 2) with rfl | rfl | rfl <;>
      rcases (by omega : r' = 0 ∨ r' = 1 ∨ r' = 2) with rfl | rfl | rfl <;>
      first
      | exact absurd rfl hne
      | (simp only [callsEx, List.getElem?_cons_zero, List.getElem?_cons_succ, Option.some.injEq] at hc hc'
         subst hc hc'
         rw [mem_callEx] at hp hp'
         simp [smem_row] at hp hp' <;> omega)
  crd := by
    intro g c d h
    unfold refEx
    rw [h 0 (by omega), h 1 (by omega)]

/-- After the last call, rank 2 knows the cells of the others, as well as which one is missing; nobody has a grid for step 1. -/
example (eager : Ch → Nat → Bool) (wraps : Nat → Bool) :
    ∃ f, AlwaysEnds eager (pmwStart 1 wraps dimEx (0 : Int) 3 2 callsEx fun _ _ => 7) f ∧
      (f.ranks 2).mem (cellAddr 1 wraps dimEx 0 (xy 3 1)) = 13 ∧ (f.ranks 2).mem (cellAddr 1 wraps dimEx 2 (xy 1 0)) = 201 ∧
      (f.ranks 0).mem (cellAddr 1 wraps dimEx 2 (xy 3 0)) = 203 ∧ (f.ranks 0).mem (cellAddr 1 wraps dimEx 2 (xy 3 1)) = 0 ∧
      (f.ranks 1).mem (.edge 2) = -3 := by
  obtain ⟨f, h1, h2⟩ := parallelMemoryWriter_gathers (wraps := wraps) (by omega) eager (0 : Int) 3 2 callsEx refEx (fun g => -1 - g) schedEx (fun _ _ => 7)
  have due2 : ∀ l, Due 2 (callEx 2 .regular l) := by
    rintro l ⟨-, h⟩
    exact h (by simp [callEx])
  have due0 : ∀ l, Due 2 (callEx 0 .initialized l) := by
    rintro l ⟨h, -⟩
    cases h
  refine ⟨f, h1, ?_, ?_, ?_, ?_, ?_⟩
  · refine (h2 2 (by omega) 0 ⟨callEx 0 .initialized [], by simp [callsEx], due0 _, rfl⟩).1 (xy 3 1) ⟨1, by omega, callEx 0 .initialized [⟨xy 2 0, 4⟩, ⟨xy 0 1, 4⟩], by simp [callsEx], due0 _, rfl, ?_⟩
    rw [mem_callEx]
    simp [smem_row, xy]
  · refine (h2 2 (by omega) 2 ⟨callEx 2 .regular [⟨xy 3 0, 4⟩], by simp [callsEx], due2 _, rfl⟩).1 (xy 1 0) ⟨0, by omega, callEx 2 .regular [⟨xy 1 0, 3⟩], by simp [callsEx], due2 _, rfl, ?_⟩
    rw [mem_callEx]
    simp [smem_row, xy]
  · refine (h2 0 (by omega) 2 ⟨callEx 2 .regular [⟨xy 1 0, 3⟩], by simp [callsEx], due2 _, rfl⟩).1 (xy 3 0) ⟨2, by omega, callEx 2 .regular [⟨xy 3 0, 4⟩], by simp [callsEx], due2 _, rfl, ?_⟩
    rw [mem_callEx]
    simp [smem_row, xy]
  · refine (h2 0 (by omega) 2 ⟨callEx 2 .regular [⟨xy 1 0, 3⟩], by simp [callsEx], due2 _, rfl⟩).2.1 (xy 3 1) ?_ ?_
    · intro k hk
      rcases (by omega : k = 0 ∨ k = 1) with rfl | rfl <;> simp [xy, dimEx]
    · rintro ⟨x, hx, c, hc, -, hg, hp⟩
      rcases (by omega : x = 0 ∨ x = 1 ∨ x = 2) with rfl | rfl | rfl <;>
        simp only [callsEx, List.mem_cons, List.not_mem_nil, or_false] at hc <;>
        rcases hc with rfl | rfl | rfl <;> simp [callEx] at hg <;> rw [mem_callEx] at hp <;> simp [smem_row, xy] at hp
  · exact (h2 1 (by omega) 2 ⟨callEx 2 .regular [⟨xy 0 0, 1⟩, ⟨xy 0 1, 3⟩], by simp [callsEx], due2 _, rfl⟩).2.2

/-! ### What the hypotheses are good for -/

/-- Two ranks which both deliver the only cell of a grid: … -/
def callsRace (_r : Nat) : List (Call Int) := [⟨0, .initialized, mk 0 [⟨fun _ => 0, 1⟩], fun _ => 5, 0, true⟩]

/-- … the second one sends the cell while it may still be receiving it. -/
theorem overlapping_regions_race (eager : Ch → Nat → Bool) :
    ∃ k t, Run eager k (pmwStart 0 (fun _ => false) (fun _ => 1) (0 : Int) 2 1 callsRace fun _ _ => 7) t ∧ t.err = true := by
  set c0 : Call Int := ⟨0, .initialized, mk 0 [⟨fun _ => 0, 1⟩], fun _ => 5, 0, true⟩ with hc0
  have hbox : ∃ u, InBox 0 (fun _ => 1) c0.idx [u] := by
    obtain ⟨l, h1, h2, h3⟩ := toVector_spec (mk_spec 0 [⟨fun _ => 0, 1⟩]).1
    have h : (toVector 0 (mk 0 [⟨fun _ => 0, 1⟩])).map List.length = some 1 := by decide
    rw [h1] at h
    simp only [Option.map_some, Option.some.injEq] at h
    obtain ⟨u, rfl⟩ := List.length_eq_one_iff.1 h
    refine ⟨u, (mk_spec 0 [⟨fun _ => 0, 1⟩]).1, h1, fun c hc => ?_⟩
    have := ((mk_spec 0 [⟨fun _ => 0, 1⟩]).2 c).1 hc
    obtain ⟨s, hs, h4⟩ := this
    simp only [List.mem_singleton] at hs
    subst hs
    intro k hk
    have : k = 0 := by omega
    subst this
    exact h4.2
  obtain ⟨u, hb⟩ := hbox
  obtain ⟨m, hm, -⟩ : ∃ m : Nat → Loc → Int, (∀ r, r < 2 → ∀ s : St Loc Int (Msg Int) (Shot Int), Quiet s →
      s.ranks r = ⟨pmwCall 0 (fun _ => false) (fun _ => 1) (0 : Int) 2 r true c0 .done, fun _ => 7, [], []⟩ →
      ∃ t, RunTo eager s t ∧ Quiet t ∧
        t.ranks r = ⟨pmwPairs 0 (fun _ => false) (fun _ => 1) r 0 c0.idx (pairs 2) (.wait pmwTag .done), m r, [], []⟩ ∧
        ∀ z, z ≠ r → t.ranks z = s.ranks z) ∧ True := by
    have := fun r => run_local (n := 0) (wraps := fun _ => false) (by omega) (eager := eager) (dflt := (0 : Int)) (N := 2) (r := r) (fresh := true) hb
      (ref := fun _ => 5) (fun _ _ _ => rfl) (fun _ _ => rfl) (k := .done) (mem := fun _ => 7) (out := [])
    choose m hm using this
    exact ⟨m, fun r _ s hq hp => (hm r).1 s hq hp, trivial⟩
  obtain ⟨s1, r1, q1, p1, -⟩ := run_all (eager := eager)
    (fun r => ⟨pmwPairs 0 (fun _ => false) (fun _ => 1) r 0 c0.idx (pairs 2) (.wait pmwTag .done), m r, [], []⟩) 2
    (pmwStart 0 (fun _ => false) (fun _ => 1) (0 : Int) 2 1 callsRace fun _ _ => 7) (quiet_start _ _) fun r hr t hq ht => by
      refine hm r hr t hq ?_
      rw [ht]
      simp [pmwStart, start, hr, callsRace, pmwRun, hc0]
  have x1 := p1 0 (by omega)
  have y1 := p1 1 (by omega)
  rw [show pairs 2 = [(0, 1), (1, 0)] from rfl] at x1 y1
  have hpx := congrArg Rank.proc x1
  have hpy := congrArg Rank.proc y1
  simp only [pmwPairs, pmwPair, if_true] at hpx hpy
  obtain ⟨s2, rg, r2, q2, hrg, x2, y2, z2⟩ := run_region (eager := eager) q1 (x := 0) (y := 1) (by omega) hb.ok hb.vec hpx hpy
    (by rw [x1]; simp)
  have haddr := streakAddrs_eq (wraps := fun _ => false) (g := 0) (by omega : 0 ≤ 2) (hb.sin (s := u) (by simp))
  simp only [forStreaks, hb.vec, hrg, sendCells, recvCells, haddr] at x2 y2
  obtain ⟨s3, i, j, r3, q3, x3, y3, z3⟩ := run_cells (eager := eager) q2 (x := 0) (y := 1) (by omega) (by rw [x2]) (by rw [y2])
    (by rw [x2, x1]; rfl) (by rw [y2, y1]; rfl) (Nat.le_refl _)
  have hpx := congrArg Rank.proc x3
  have hpy := congrArg Rank.proc y3
  simp only [one_ne_zero, zero_ne_one, if_false] at hpx hpy
  obtain ⟨s4, rg', r4, q4, hrg', x4, y4, z4⟩ := run_region (eager := eager) q3 (x := 1) (y := 0) (by omega) hb.ok hb.vec hpy hpx
    (by rw [y3, y2, y1]; simp [pmwTag])
  have hbusy : busyRead (s4.ranks 1).reqs (addr 0 (fun _ => 1) 0 u) = true := by
    rw [x4, y3]
    simp only [busyRead, List.any_cons, Bool.not_false, Bool.true_and, Bool.or_eq_true]
    left
    have hne : addr 0 (fun _ => 1) 0 u ≠ [] := by
      have := (hb.sin (s := u) (by simp)).2.1
      intro h
      have h := congrArg List.length h
      simp only [addr, List.length_map, Store.coordsOf_length, List.length_nil] at h
      omega
    obtain ⟨a, as, ha⟩ := List.exists_cons_of_ne_nil hne
    rw [ha]
    simp [overlap]
  have hlast : ∃ t, next eager s4 (.loc 1) = some t ∧ t.err = true := by
    simp only [next, locStep, x4]
    refine ⟨_, rfl, ?_⟩
    rw [x4] at hbusy
    simp only [Payload.ls, hbusy, Bool.or_true]
  obtain ⟨t, h1, h2⟩ := hlast
  obtain ⟨k, hk⟩ := r1.trans (r2.trans (r3.trans (r4.trans (RunTo.head h1 (RunTo.refl t)))))
  exact ⟨k, t, hk, h2⟩

end LGD.C52
