import Verif.Comm.Cw
import Verif.Props.C52

/-!
# C53: `CollectingWriter` shows the global grid to its delegate

All ranks call `stepFinished` equally often. However the ranks run, whichever messages the MPI library buffers, and whenever it moves data: no rank gets stuck,
no operation touches memory which belongs to a pending one, and the delegate on the root sees, once per last call, all cells delivered so far – those of the current step
if the ranks' regions cover the simulation area.
-/

namespace LGD.C53
open LGD.Mpi LGD.Gather LGD.C14 LGD.C52

variable {α : Type} {n : Nat} {wraps : Nat → Bool} {dim : Crd}

/-- Rounds of calls: every rank's arguments of its `j`-th call. Regions lie in the simulation area; they may overlap. -/
structure Rounds (n : Nat) (dim : Crd) (N : Nat) (rounds : List (Nat → Call α)) : Prop where
  reg : ∀ c ∈ rounds, ∀ r, r < N → RegOK n (c r).idx
  box : ∀ c ∈ rounds, ∀ r, r < N → ∀ p, RMem n (c r).idx p → InDim n dim p
  crd : ∀ c ∈ rounds, ∀ r, r < N → ∀ p q, (∀ k, k ≤ n → p k = q k) → (c r).val p = (c r).val q

/-- what the delegate should get to see: `G` are the cells which were collected so far -/
noncomputable def shots (n : Nat) (dim : Crd) (N root : Nat) : (Crd → α) → List (Nat → Call α) → List (Shot α)
  | _, [] => []
  | G, c :: cs =>
    (if (c root).last then [⟨(c root).step, (c root).event, rowMajor n dim (painted n N root c G), (c root).edge⟩] else []) ++
      shots n dim N root (painted n N root c G) cs

theorem run_cw (hn : n ≤ 2) (hdim : ∀ k, k ≤ n → 0 < dim k) {eager : Ch → Nat → Bool} {dflt : α} {N root : Nat} (hroot : root < N) :
    ∀ (rounds : List (Nat → Call α)) (fresh : Bool) (G : Crd → α) (s : St Loc α (Msg α) (Shot α)),
    Rounds n dim N rounds → Quiet s →
    (∀ r, r < N → (s.ranks r).proc = cwRun n wraps dim dflt N root r fresh (rounds.map fun c => c r) ∧ (s.ranks r).reqs = []) →
    (if fresh then G = fun _ => dflt else Gather.Holds n dim (s.ranks root).mem G) →
    ∃ t, RunTo eager s t ∧ Quiet t ∧ (∀ r, N ≤ r → t.ranks r = s.ranks r) ∧
      (∀ r, r < N → ((t.ranks r).proc = .done ∧ (t.ranks r).reqs = []) ∧ (r ≠ root → (t.ranks r).out = (s.ranks r).out)) ∧
      (t.ranks root).out = (s.ranks root).out ++ shots n dim N root G rounds
  | [], fresh, G, s, _, hq, hp, _ => by
    refine ⟨s, RunTo.refl _, hq, fun _ _ => rfl, fun r hr => ⟨?_, fun _ => rfl⟩, by simp [shots]⟩
    rw [(hp r hr).1, (hp r hr).2]
    exact ⟨rfl, rfl⟩
  | c :: cs, fresh, G, s, hs, hq, hp, hG => by
    have hvec : ∀ r, ∃ l, r < N → InBox n dim (c r).idx l := by
      intro r
      by_cases hr : r < N
      · obtain ⟨l, hl, -⟩ := toVector_spec (hs.reg c (by simp) r hr)
        exact ⟨l, fun _ => ⟨hs.reg c (by simp) r hr, hl, hs.box c (by simp) r hr⟩⟩
      · exact ⟨[], fun h => absurd h hr⟩
    choose ls hls using hvec
    obtain ⟨s1, r1, q1, o1, p1, hG1, out1⟩ := run_cwCall (eager := eager) (wraps := wraps) (dflt := dflt) (fresh := fresh)
      (K := fun r => cwRun n wraps dim dflt N root r false (cs.map fun c => c r)) hn hdim hroot hls (hs.crd c (by simp)) hq
      (fun r hr => by
        have := hp r hr
        rw [List.map_cons, cwRun] at this
        exact this) hG
    obtain ⟨t, r2, q2, o2, p2, out2⟩ := run_cw hn hdim hroot cs false (painted n N root c G) s1
      ⟨fun d hd => hs.reg d (by simp [hd]), fun d hd => hs.box d (by simp [hd]), fun d hd => hs.crd d (by simp [hd])⟩ q1
      (fun r hr => ⟨(p1 r hr).1, (p1 r hr).2.1⟩) (by simpa using hG1)
    refine ⟨t, r1.trans r2, q2, fun r hr => by rw [o2 r hr, o1 r hr], fun r hr => ⟨(p2 r hr).1, fun h => ?_⟩, ?_⟩
    · rw [(p2 r hr).2 h, (p1 r hr).2.2 h]
    · rw [out2, out1, shots, List.append_assoc]

/-- All ranks run `stepFinished` of their `CollectingWriter`s. -/
def cwStart (n : Nat) (wraps : Nat → Bool) (dim : Crd) (dflt : α) (N root : Nat) (rounds : List (Nat → Call α)) (mem : Nat → Loc → α) :
    St Loc α (Msg α) (Shot α) :=
  start (fun r => if r < N then cwRun n wraps dim dflt N root r true (rounds.map fun c => c r) else .done) mem

/-- **C53.** Whatever the schedule, whichever messages are buffered: the run is free of deadlocks, races and truncated messages, and ends in one and the same state. The delegate on the root
was called once per last call; it saw, for each cell, what was delivered most recently (default cells before that; in one call, later ranks override earlier ones, and all override the root), and the root's edge cell.
Nothing is shown to anybody on other ranks. -/
theorem collectingWriter_collects (hn : n ≤ 2) (hdim : ∀ k, k ≤ n → 0 < dim k) (eager : Ch → Nat → Bool) (dflt : α) (N root : Nat) (hroot : root < N)
    (rounds : List (Nat → Call α)) (hs : Rounds n dim N rounds) (mem : Nat → Loc → α) :
    ∃ f, AlwaysEnds eager (cwStart n wraps dim dflt N root rounds mem) f ∧
      (f.ranks root).out = shots n dim N root (fun _ => dflt) rounds ∧ ∀ r, r ≠ root → (f.ranks r).out = [] := by
  obtain ⟨f, r1, q1, o1, p1, out1⟩ := run_cw (eager := eager) (wraps := wraps) (dflt := dflt) hn hdim hroot rounds true (fun _ => dflt)
    (cwStart n wraps dim dflt N root rounds mem) hs (quiet_start _ _) (fun r hr => by simp [cwStart, start, hr]) (by simp)
  refine ⟨f, alwaysEnds_of_run (wf_start _ _) r1 (q1.final fun r => ?_), ?_, fun r hr => ?_⟩
  · by_cases hr : r < N
    · exact (p1 r hr).1
    · rw [o1 r (by omega)]
      simp [cwStart, start, hr]
  · rw [out1]
    simp [cwStart, start]
  · by_cases hr' : r < N
    · rw [(p1 r hr').2 hr]
      rfl
    · rw [o1 r (by omega)]
      rfl

/-! ## When the regions cover the simulation area -/

/-- The `j`-th round is complete: it's a last call, and every cell was delivered in this round or one before it, with only rounds of the same step in between. All delivered cells
agree with the reference of their step. -/
structure Complete (n : Nat) (dim : Crd) (N root : Nat) (rounds : List (Nat → Call α)) (ref : Nat → Crd → α) : Prop where
  val : ∀ c ∈ rounds, ∀ r, r < N → ∀ p, RMem n (c r).idx p → (c r).val p = ref (c root).step p
  cover : ∀ j (hj : j < rounds.length), (rounds[j] root).last = true → ∀ p, InDim n dim p →
    ∃ i, ∃ hi : i ≤ j, (∃ r, r < N ∧ RMem n ((rounds[i]'(by omega)) r).idx p) ∧
      ∀ m (_ : i ≤ m) (hm' : m ≤ j), ((rounds[m]'(by omega)) root).step = (rounds[j] root).step

theorem painted_cov {N root : Nat} {c : Nat → Call α} {v : Crd → α} (hroot : root < N)
    (hv : ∀ r, r < N → ∀ p, RMem n (c r).idx p → (c r).val p = v p) (G : Crd → α) (p : Crd) :
    ((∃ r, r < N ∧ RMem n (c r).idx p) → painted n N root c G p = v p) ∧
    ((¬ ∃ r, r < N ∧ RMem n (c r).idx p) → painted n N root c G p = G p) := by
  have key : ∀ (xs : List Nat) (G : Crd → α), (∀ x ∈ xs, x < N) →
      ((∃ x ∈ xs, RMem n (c x).idx p) → xs.foldl (fun G x => paint n (c x) G) G p = v p) ∧
      ((¬ ∃ x ∈ xs, RMem n (c x).idx p) → xs.foldl (fun G x => paint n (c x) G) G p = G p) := by
    intro xs
    induction xs with
    | nil => intro G _; simp
    | cons x xs ih =>
      intro G hlt
      obtain ⟨i1, i2⟩ := ih (paint n (c x) G) fun y hy => hlt y (by simp [hy])
      rw [List.foldl_cons]
      constructor
      · rintro ⟨y, hy, hm⟩
        by_cases h : ∃ x ∈ xs, RMem n (c x).idx p
        · exact i1 h
        · rcases List.mem_cons.1 hy with rfl | hy
          · rw [i2 h]
            unfold paint
            rw [if_pos hm]
            exact hv y (hlt y (by simp)) p hm
          · exact absurd ⟨y, hy, hm⟩ h
      · intro h
        rw [i2 fun ⟨y, hy, hm⟩ => h ⟨y, by simp [hy], hm⟩]
        unfold paint
        rw [if_neg fun hm => h ⟨x, by simp, hm⟩]
  have hlt : ∀ x ∈ root :: (List.range N).filter (· ≠ root), x < N := by
    intro x hx
    rcases List.mem_cons.1 hx with rfl | hx
    · exact hroot
    · exact List.mem_range.1 (List.mem_filter.1 hx).1
  obtain ⟨k1, k2⟩ := key _ G hlt
  have hiff : (∃ x ∈ root :: (List.range N).filter (· ≠ root), RMem n (c x).idx p) ↔ ∃ r, r < N ∧ RMem n (c r).idx p := by
    constructor
    · rintro ⟨x, hx, hm⟩
      exact ⟨x, hlt x hx, hm⟩
    · rintro ⟨x, hx, hm⟩
      refine ⟨x, ?_, hm⟩
      by_cases e : x = root
      · simp [e]
      · simp [e, hx]
  rw [hiff] at k1 k2
  exact ⟨k1, k2⟩

theorem shots_complete {N root : Nat} (hroot : root < N) (hdim : ∀ k, k ≤ n → 0 < dim k) {ref : Nat → Crd → α} :
    ∀ (rounds : List (Nat → Call α)) (G : Crd → α),
    (∀ c ∈ rounds, ∀ r, r < N → ∀ p, RMem n (c r).idx p → (c r).val p = ref (c root).step p) →
    (∀ j (hj : j < rounds.length), (rounds[j] root).last = true → ∀ p, InDim n dim p →
      (∃ i, ∃ hi : i ≤ j, (∃ r, r < N ∧ RMem n ((rounds[i]'(by omega)) r).idx p) ∧
        ∀ m (_ : i ≤ m) (hm' : m ≤ j), ((rounds[m]'(by omega)) root).step = (rounds[j] root).step) ∨
      (G p = ref (rounds[j] root).step p ∧ ∀ m (hm : m ≤ j), ((rounds[m]'(by omega)) root).step = (rounds[j] root).step)) →
    shots n dim N root G rounds = (rounds.filter fun c => (c root).last).map fun c =>
      ⟨(c root).step, (c root).event, rowMajor n dim (ref (c root).step), (c root).edge⟩
  | [], _, _, _ => rfl
  | c :: cs, G, hv, hc => by
    have hp := fun p => painted_cov (n := n) (c := c) hroot (hv c (by simp)) G p
    rw [shots, shots_complete hroot hdim cs _ (fun d hd => hv d (by simp [hd]))]
    · by_cases hl : (c root).last = true
      · rw [if_pos hl, List.filter_cons_of_pos (p := fun c : Nat → Call α => (c root).last) hl, List.map_cons, List.singleton_append]
        congr 2
        unfold rowMajor
        refine List.map_congr_left fun i hi => ?_
        rw [List.mem_range] at hi
        have hin : InDim n dim (unlin dim n 0 (i : Int)) := fun j hj =>
          unlin_range dim n 0 i (fun j _ hj => hdim j (by omega)) (by omega) (by rw [vol_prod]; omega) j (by omega) (by omega)
        rcases hc 0 (by simp) hl _ hin with ⟨j, hj, h1, -⟩ | ⟨h1, -⟩
        · have : j = 0 := by omega
          subst this
          exact (hp _).1 h1
        · by_cases h : ∃ r, r < N ∧ RMem n (c r).idx (unlin dim n 0 (i : Int))
          · exact (hp _).1 h
          · rw [(hp _).2 h]
            exact h1
      · rw [if_neg hl, List.filter_cons_of_neg (p := fun c : Nat → Call α => (c root).last) hl, List.nil_append]
    · intro j hj hl p hin
      rcases hc (j + 1) (by simpa using hj) hl p hin with ⟨i, hi, h1, h2⟩ | ⟨h1, h2⟩
      · cases i with
        | zero =>
          right
          constructor
          · rw [(hp p).1 h1]
            congr 1
            exact h2 0 (by omega) (by omega)
          · intro m hm
            exact h2 (m + 1) (by omega) (by omega)
        | succ i =>
          left
          exact ⟨i, by omega, h1, fun m hm hm' => h2 (m + 1) (by omega) (by omega)⟩
      · right
        constructor
        · by_cases h : ∃ r, r < N ∧ RMem n (c r).idx p
          · rw [(hp p).1 h]
            congr 1
            exact h2 0 (by omega)
          · rw [(hp p).2 h]
            exact h1
        · intro m hm
          exact h2 (m + 1) (by omega)

/-- **C53, complete rounds.** The delegate sees the whole grid of the step it is called for. -/
theorem collectingWriter_complete (hn : n ≤ 2) (hdim : ∀ k, k ≤ n → 0 < dim k) (eager : Ch → Nat → Bool) (dflt : α) (N root : Nat) (hroot : root < N)
    (rounds : List (Nat → Call α)) (hs : Rounds n dim N rounds) (ref : Nat → Crd → α) (hc : Complete n dim N root rounds ref) (mem : Nat → Loc → α) :
    ∃ f, AlwaysEnds eager (cwStart n wraps dim dflt N root rounds mem) f ∧
      (f.ranks root).out = ((rounds.filter fun c => (c root).last).map fun c =>
        ⟨(c root).step, (c root).event, rowMajor n dim (ref (c root).step), (c root).edge⟩) ∧
      ∀ r, r ≠ root → (f.ranks r).out = [] := by
  obtain ⟨f, h1, h2, h3⟩ := collectingWriter_collects (wraps := wraps) hn hdim eager dflt N root hroot rounds hs mem
  refine ⟨f, h1, ?_, h3⟩
  rw [h2]
  exact shots_complete hroot hdim rounds _ hc.val fun j hj hl p hin => Or.inl (hc.cover j hj hl p hin)

/-! ## Example -/

def callEx (g : Nat) (last : Bool) (l : List Streak) : Call Int := ⟨g, .regular, mk 1 l, refEx g, -1 - g, last⟩

/-- A grid of 4x2 cells, two ranks, the root is rank 1. Step 3 is delivered in two rounds: rank 0 sends its inner cells first. -/
def roundsEx : List (Nat → Call Int) :=
  [fun r => if r = 0 then callEx 3 false [⟨xy 0 0, 2⟩] else callEx 3 false [⟨xy 0 1, 4⟩],
   fun r => if r = 0 then callEx 3 true [⟨xy 2 0, 4⟩, ⟨xy 0 1, 1⟩] else callEx 3 true []]

theorem mem_callEx (g : Nat) (b : Bool) (l : List Streak) (p : Crd) : RMem 1 (callEx g b l).idx p ↔ ∃ s ∈ l, SMem 1 s p := (mk_spec 1 l).2 p

theorem reg_callEx (g : Nat) (b : Bool) (l : List Streak) : RegOK 1 (callEx g b l).idx := (mk_spec 1 l).1

theorem roundsEx_ok : Rounds 1 dimEx 2 roundsEx where
  reg := by
    intro c hc r hr
    simp only [roundsEx, List.mem_cons, List.not_mem_nil, or_false] at hc
    rcases hc with rfl | rfl <;> (show RegOK 1 (ite _ _ _ : Call Int).idx; split <;> exact reg_callEx _ _ _)
  box := by
    intro c hc r hr p hp k hk
    have hd : dimEx 0 = 4 ∧ dimEx 1 = 2 := ⟨rfl, rfl⟩
    simp only [roundsEx, List.mem_cons, List.not_mem_nil, or_false] at hc
    rcases hc with rfl | rfl <;> rcases (by omega : r = 0 ∨ r = 1) with rfl | rfl <;> simp [mem_callEx, smem_row] at hp <;>
      rcases (by omega : k = 0 ∨ k = 1) with rfl | rfl <;> omega
  crd := by
    intro c hc r hr p q h
    have : (c r).val = refEx 3 := by
      simp only [roundsEx, List.mem_cons, List.not_mem_nil, or_false] at hc
      rcases hc with rfl | rfl <;> (show (ite _ _ _ : Call Int).val = _; split <;> rfl)
    rw [this]
    unfold refEx
    rw [h 0 (by omega), h 1 (by omega)]

theorem roundsEx_complete : Complete 1 dimEx 2 1 roundsEx refEx where
  val := by
    intro c hc r hr p hp
    simp only [roundsEx, List.mem_cons, List.not_mem_nil, or_false] at hc
    rcases hc with rfl | rfl <;> rcases (by omega : r = 0 ∨ r = 1) with rfl | rfl <;> rfl
  cover := by
    intro j hj hl p hp
    have hd : dimEx 0 = 4 ∧ dimEx 1 = 2 := ⟨rfl, rfl⟩
    have p0 := hp 0 (by omega)
    have p1 := hp 1 (by omega)
    have hj' : j < 2 := hj
    have hstep : ∀ m, (hm : m < 2) → ((roundsEx[m]'hm) 1).step = 3 := by
      intro m hm
      rcases (by omega : m = 0 ∨ m = 1) with rfl | rfl <;> rfl
    rcases (by omega : j = 0 ∨ j = 1) with rfl | rfl
    · cases hl
    · by_cases h : p 1 = 1
      · refine ⟨0, by omega, ⟨1, by omega, (mem_callEx 3 false [⟨xy 0 1, 4⟩] p).2 ?_⟩, fun m _ hm => (hstep m (by omega)).trans (hstep 1 (by omega)).symm⟩
        simp [smem_row]
        omega
      · by_cases h' : p 0 < 2
        · refine ⟨0, by omega, ⟨0, by omega, (mem_callEx 3 false [⟨xy 0 0, 2⟩] p).2 ?_⟩, fun m _ hm => (hstep m (by omega)).trans (hstep 1 (by omega)).symm⟩
          simp [smem_row]
          omega
        · refine ⟨1, by omega, ⟨0, by omega, (mem_callEx 3 true [⟨xy 2 0, 4⟩, ⟨xy 0 1, 1⟩] p).2 ?_⟩, fun m _ hm => (hstep m (by omega)).trans (hstep 1 (by omega)).symm⟩
          simp [smem_row]
          omega

/-- The delegate is called once and sees all eight cells. -/
example (eager : Ch → Nat → Bool) (wraps : Nat → Bool) :
    ∃ f, AlwaysEnds eager (cwStart 1 wraps dimEx (0 : Int) 2 1 roundsEx fun _ _ => 7) f ∧
      (f.ranks 1).out = [⟨3, .regular, [300, 301, 302, 303, 310, 311, 312, 313], -4⟩] ∧ (f.ranks 0).out = [] := by
  obtain ⟨f, h1, h2, h3⟩ := collectingWriter_complete (wraps := wraps) (by omega) (dim := dimEx) (by
    intro k hk
    rcases (by omega : k = 0 ∨ k = 1) with rfl | rfl <;> decide) eager (0 : Int) 2 1 (by omega) roundsEx roundsEx_ok refEx roundsEx_complete (fun _ _ => 7)
  refine ⟨f, h1, ?_, h3 0 (by omega)⟩
  rw [h2]
  rfl

/-- If only the first of these rounds had been a last call, the delegate would have seen default cells where nothing was delivered so far (both ranks' cells are there). -/
example (eager : Ch → Nat → Bool) (wraps : Nat → Bool) :
    ∃ f G, AlwaysEnds eager (cwStart 1 wraps dimEx (0 : Int) 2 1
        [fun r => if r = 0 then callEx 3 true [⟨xy 0 0, 2⟩] else callEx 3 true [⟨xy 0 1, 4⟩]] fun _ _ => 7) f ∧
      (f.ranks 1).out = [⟨3, .regular, rowMajor 1 dimEx G, -4⟩] ∧ G (xy 1 0) = 301 ∧ G (xy 2 1) = 312 ∧ G (xy 3 0) = 0 := by
  have hr : Rounds 1 dimEx 2 [fun r => if r = 0 then callEx 3 true [⟨xy 0 0, 2⟩] else callEx 3 true [⟨xy 0 1, 4⟩]] := by
    refine ⟨?_, ?_, ?_⟩
    · intro c hc r hr
      simp only [List.mem_cons, List.not_mem_nil, or_false] at hc
      subst hc
      show RegOK 1 (ite _ _ _ : Call Int).idx
      split <;> exact reg_callEx _ _ _
    · intro c hc r hr p hp k hk
      have hd : dimEx 0 = 4 ∧ dimEx 1 = 2 := ⟨rfl, rfl⟩
      simp only [List.mem_cons, List.not_mem_nil, or_false] at hc
      subst hc
      rcases (by omega : r = 0 ∨ r = 1) with rfl | rfl <;> simp [mem_callEx, smem_row] at hp <;>
        rcases (by omega : k = 0 ∨ k = 1) with rfl | rfl <;> omega
    · intro c hc r hr p q h
      simp only [List.mem_cons, List.not_mem_nil, or_false] at hc
      subst hc
      have : (ite (r = 0) (callEx 3 true [⟨xy 0 0, 2⟩]) (callEx 3 true [⟨xy 0 1, 4⟩]) : Call Int).val = refEx 3 := by split <;> rfl
      show (ite _ _ _ : Call Int).val p = (ite _ _ _ : Call Int).val q
      rw [this]
      unfold refEx
      rw [h 0 (by omega), h 1 (by omega)]
  obtain ⟨f, h1, h2, -⟩ := collectingWriter_collects (wraps := wraps) (by omega) (dim := dimEx) (by
    intro k hk
    rcases (by omega : k = 0 ∨ k = 1) with rfl | rfl <;> decide) eager (0 : Int) 2 1 (by omega) _ hr (fun _ _ => 7)
  refine ⟨f, _, h1, h2.trans rfl, ?_, ?_, ?_⟩
  · refine (painted_cov (n := 1) (v := refEx 3) (by omega) ?_ _ _).1 ⟨0, by omega, ?_⟩
    · intro r hr p _
      rcases (by omega : r = 0 ∨ r = 1) with rfl | rfl <;> rfl
    · simp [mem_callEx, smem_row, xy]
  · refine (painted_cov (n := 1) (v := refEx 3) (by omega) ?_ _ _).1 ⟨1, by omega, ?_⟩
    · intro r hr p _
      rcases (by omega : r = 0 ∨ r = 1) with rfl | rfl <;> rfl
    · simp [mem_callEx, smem_row, xy]
  · refine (painted_cov (n := 1) (v := refEx 3) (by omega) ?_ _ _).2 ?_
    · intro r hr p _
      rcases (by omega : r = 0 ∨ r = 1) with rfl | rfl <;> rfl
    · rintro ⟨r, hr, h⟩
      rcases (by omega : r = 0 ∨ r = 1) with rfl | rfl <;> simp [mem_callEx, smem_row, xy] at h

end LGD.C53
