import Verif.Comm.GatherLemmas

/-!
# One run of `ParallelMemoryWriter::stepFinished` on all ranks

A schedule in which the pairs of sender and receiver take turns, along with what it leaves in memory.
-/

namespace LGD.Gather
open LGD.Mpi LGD.Adapter LGD.C14

variable {α : Type} {n : Nat} {wraps : Nat → Bool} {dim : Crd}

/-- one pair -/
theorem run_pair (hn : n ≤ 2) {eager : Ch → Nat → Bool} {g N : Nat} {idx : Nat → Idx} {ls : Nat → List Streak}
    (hbox : ∀ r, r < N → InBox n dim (idx r) (ls r))
    (hdis : ∀ r r', r < N → r' < N → r ≠ r' → ∀ c, ¬ (RMem n (idx r) c ∧ RMem n (idx r') c))
    {x y : Nat} (hx : x < N) (hy : y < N) (hxy : x ≠ y) {ps : List (Nat × Nat)}
    (hps : (x, y) ∉ ps)
    {s : St Loc α (Msg α) (Shot α)} (hq : Quiet s) {K : Nat → P α}
    (hproc : ∀ r, r < N → (s.ranks r).proc = pmwPairs n wraps dim r g (idx r) ((x, y) :: ps) (K r))
    (hpend : ∀ r, r < N → ∀ q ∈ (s.ranks r).reqs, q.h = pmwTag ∧
      (q.snd = true → ∀ l ∈ q.ls, At n dim g (idx r) l) ∧
      (q.snd = false → ∃ x', x' < N ∧ x' ≠ r ∧ (x', r) ∉ (x, y) :: ps ∧ ∀ l ∈ q.ls, At n dim g (idx x') l)) :
    ∃ t, RunTo eager s t ∧ Quiet t ∧
      (∀ r, r < N → (t.ranks r).proc = pmwPairs n wraps dim r g (idx r) ps (K r) ∧
        (t.ranks r).out = (s.ranks r).out) ∧
      (∀ r, r < N → ∀ q ∈ (t.ranks r).reqs, q.h = pmwTag ∧
        (q.snd = true → ∀ l ∈ q.ls, At n dim g (idx r) l) ∧
        (q.snd = false → ∃ x', x' < N ∧ x' ≠ r ∧ (x', r) ∉ ps ∧ ∀ l ∈ q.ls, At n dim g (idx x') l)) ∧
      (∀ l, At n dim g (idx x) l → (t.ranks y).mem l = (s.ranks x).mem l) ∧
      (∀ r l, ¬ (r = y ∧ At n dim g (idx x) l) → (t.ranks r).mem l = (s.ranks r).mem l) ∧
      (∀ r, N ≤ r → t.ranks r = s.ranks r) := by
  have bx := hbox x hx
  have disAt : ∀ r r', r < N → r' < N → r ≠ r' → ∀ l, At n dim g (idx r) l → ¬ At n dim g (idx r') l :=
    fun r r' h1 h2 h3 l => at_disjoint (hbox r h1).box (hbox r' h2).ok (hbox r' h2).box (hdis r r' h1 h2 h3)
  have px := hproc x hx
  have py := hproc y hy
  simp only [pmwPairs, pmwPair, if_true, if_neg hxy, if_neg (Ne.symm hxy)] at px py
  obtain ⟨s1, rg, r1, q1, hrg, x1, y1, z1⟩ := run_region (eager := eager) hq hxy bx.ok bx.vec px py
    (fun q h => by rw [(hpend x hx q h).1]; decide)
  simp only [forStreaks, bx.vec, hrg] at x1 y1
  obtain ⟨t, rx, ry, m, r2, q2, x2, y2, z2, hrx, hry, hm1, hm2⟩ := run_streaks (eager := eager) hn hxy (ls x) s1
    q1 (by rw [x1]) (by rw [y1]) (fun u hu => bx.sin hu) (bx.pw g)
    (by
      intro u hu
      rw [x1]
      simp only [busyRead, List.any_eq_false, Bool.and_eq_true, not_and, Bool.not_eq_true, Bool.not_eq_true']
      intro q hq' hs
      rw [overlap_false]
      intro l h1 h2
      obtain ⟨x', e1, e2, -, e3⟩ := (hpend x hx q hq').2.2 hs
      first
        | exact disAt x' x e1 hx e2 l (e3 l h1) (bx.at_iff.2 ⟨u, hu, h2⟩)
        | exact disAt x' x e1 hx e2 l (e3 l h2) (bx.at_iff.2 ⟨u, hu, h1⟩))
    (by
      intro u hu
      rw [y1]
      simp only [busyWrite, List.any_eq_false, Bool.not_eq_true]
      intro q hq'
      rw [overlap_false]
      intro l h1 h2
      have key : ∀ l, l ∈ q.ls → l ∈ addr n dim g u → False := by
        intro l h1 h2
        have ha := bx.at_iff.2 ⟨u, hu, h2⟩
        cases hs : q.snd
        · obtain ⟨x', e1, e2, e3, e4⟩ := (hpend y hy q hq').2.2 hs
          have : x' ≠ x := by
            rintro rfl
            simp at e3
          exact disAt x' x e1 hx this l (e4 l h1) ha
        · exact disAt y x hy hx (Ne.symm hxy) l ((hpend y hy q hq').2.1 hs l h1) ha
      first
        | exact key l h1 h2
        | exact key l h2 h1)
  refine ⟨t, r1.trans r2, q2, ?_, ?_, ?_, ?_, ?_⟩
  · intro r hr
    by_cases e1 : r = x
    · subst e1
      rw [x2, x1]
      exact ⟨rfl, rfl⟩
    by_cases e2 : r = y
    · subst e2
      rw [y2, y1]
      exact ⟨rfl, rfl⟩
    rw [z2 r e1 e2, z1 r e1 e2]
    have := hproc r hr
    simp only [pmwPairs, pmwPair, if_neg (Ne.symm e1), if_neg (Ne.symm e2)] at this
    exact ⟨this, rfl⟩
  · intro r hr q hq'
    have old : q ∈ (s.ranks r).reqs → q.h = pmwTag ∧
        (q.snd = true → ∀ l ∈ q.ls, At n dim g (idx r) l) ∧
        (q.snd = false → ∃ x', x' < N ∧ x' ≠ r ∧ (x', r) ∉ ps ∧ ∀ l ∈ q.ls, At n dim g (idx x') l) := by
      intro h
      obtain ⟨h1, h2, h3⟩ := hpend r hr q h
      refine ⟨h1, h2, fun hs => ?_⟩
      obtain ⟨x', e1, e2, e3, e4⟩ := h3 hs
      exact ⟨x', e1, e2, fun h => e3 (List.mem_cons_of_mem _ h), e4⟩
    by_cases e1 : r = x
    · subst e1
      rw [x2] at hq'
      rcases hrx q hq' with h | ⟨h1, h2, u, hu, h3⟩
      · rw [x1] at h
        exact old h
      · refine ⟨h2, fun _ l hl => bx.at_iff.2 ⟨u, hu, h3 ▸ hl⟩, fun h => ?_⟩
        rw [h1] at h
        cases h
    by_cases e2 : r = y
    · subst e2
      rw [y2] at hq'
      rcases hry q hq' with h | ⟨h1, h2, u, hu, h3⟩
      · rw [y1] at h
        exact old h
      · refine ⟨h2, fun h => ?_, fun _ => ⟨x, hx, hxy, hps, fun l hl => bx.at_iff.2 ⟨u, hu, h3 ▸ hl⟩⟩⟩
        rw [h1] at h
        cases h
    rw [z2 r e1 e2, z1 r e1 e2] at hq'
    exact old hq'
  · intro l hl
    rw [y2]
    show m l = _
    rw [hm1 l (bx.at_iff.1 hl), x1]
  · intro r l hl
    by_cases e1 : r = x
    · subst e1
      rw [x2, x1]
    by_cases e2 : r = y
    · subst e2
      rw [y2]
      show m l = _
      rw [hm2 l (fun h => hl ⟨rfl, bx.at_iff.2 h⟩), y1]
    rw [z2 r e1 e2, z1 r e1 e2]
  · intro r hr
    rw [z2 r (by omega) (by omega), z1 r (by omega) (by omega)]

/-- all pairs -/
theorem run_pairs (hn : n ≤ 2) {eager : Ch → Nat → Bool} {g N : Nat} {idx : Nat → Idx} {ls : Nat → List Streak}
    (hbox : ∀ r, r < N → InBox n dim (idx r) (ls r))
    (hdis : ∀ r r', r < N → r' < N → r ≠ r' → ∀ c, ¬ (RMem n (idx r) c ∧ RMem n (idx r') c)) {K : Nat → P α} :
    ∀ (ps : List (Nat × Nat)), ps.Nodup → (∀ p ∈ ps, p.1 < N ∧ p.2 < N ∧ p.1 ≠ p.2) →
    ∀ (s : St Loc α (Msg α) (Shot α)), Quiet s →
    (∀ r, r < N → (s.ranks r).proc = pmwPairs n wraps dim r g (idx r) ps (K r)) →
    (∀ r, r < N → ∀ q ∈ (s.ranks r).reqs, q.h = pmwTag ∧
      (q.snd = true → ∀ l ∈ q.ls, At n dim g (idx r) l) ∧
      (q.snd = false → ∃ x', x' < N ∧ x' ≠ r ∧ (x', r) ∉ ps ∧ ∀ l ∈ q.ls, At n dim g (idx x') l)) →
    ∃ t, RunTo eager s t ∧ Quiet t ∧
      (∀ r, r < N → (t.ranks r).proc = K r ∧ (t.ranks r).out = (s.ranks r).out) ∧
      (∀ r, r < N → ∀ q ∈ (t.ranks r).reqs, q.h = pmwTag) ∧
      (∀ x r l, (x, r) ∈ ps → At n dim g (idx x) l → (t.ranks r).mem l = (s.ranks x).mem l) ∧
      (∀ r l, (∀ x, (x, r) ∈ ps → ¬ At n dim g (idx x) l) → (t.ranks r).mem l = (s.ranks r).mem l) ∧
      (∀ r, N ≤ r → t.ranks r = s.ranks r)
  | [], _, _, s, hq, hproc, hpend =>
    ⟨s, RunTo.refl _, hq, fun r hr => ⟨hproc r hr, rfl⟩, fun r hr q h => (hpend r hr q h).1, by simp,
      fun _ _ _ => rfl, fun _ _ => rfl⟩
  | (x, y) :: ps, hnd, hlt, s, hq, hproc, hpend => by
    rw [List.nodup_cons] at hnd
    obtain ⟨hx, hy, hxy⟩ := hlt (x, y) (by simp)
    obtain ⟨s1, r1, q1, p1, w1, m1, m1', o1⟩ := run_pair (eager := eager) hn hbox hdis hx hy hxy hnd.1 hq hproc hpend
    obtain ⟨t, r2, q2, p2, w2, m2, m2', o2⟩ := run_pairs hn hbox hdis ps hnd.2 (fun p hp => hlt p (by simp [hp])) s1 q1
      (fun r hr => (p1 r hr).1) w1
    have disAt : ∀ r r', r < N → r' < N → r ≠ r' → ∀ l, At n dim g (idx r) l → ¬ At n dim g (idx r') l :=
      fun r r' h1 h2 h3 l => at_disjoint (hbox r h1).box (hbox r' h2).ok (hbox r' h2).box (hdis r r' h1 h2 h3)
    refine ⟨t, r1.trans r2, q2, fun r hr => ⟨(p2 r hr).1, by rw [(p2 r hr).2, (p1 r hr).2]⟩, w2, ?_, ?_,
      fun r hr => by rw [o2 r hr, o1 r hr]⟩
    · intro x' r l hp hl
      rcases List.mem_cons.1 hp with he | hp'
      · cases he
        rw [m2' y l, m1 l hl]
        intro x' hp' hl'
        have hne : x ≠ x' := by
          rintro rfl
          exact hnd.1 hp'
        exact disAt x x' hx (hlt _ (List.mem_cons_of_mem _ hp')).1 hne l hl hl'
      · rw [m2 x' r l hp' hl, m1']
        rintro ⟨rfl, hl'⟩
        exact disAt x x' hx (hlt _ (List.mem_cons_of_mem _ hp')).1 hxy l hl' hl
    · intro r l h
      rw [m2' r l fun x' hp => h x' (List.mem_cons_of_mem _ hp), m1']
      rintro ⟨rfl, hl⟩
      exact h x (by simp) hl

theorem mem_pairs {N x y : Nat} : (x, y) ∈ pairs N ↔ x < N ∧ y < N ∧ x ≠ y := by
  simp [pairs]

theorem pairs_nodup (N : Nat) : (pairs N).Nodup := by
  unfold pairs
  rw [List.nodup_flatMap]
  refine ⟨fun x _ => ?_, ?_⟩
  · refine List.Nodup.map (fun a b h => by simpa using h) (List.Nodup.filter _ List.nodup_range)
  · refine List.Pairwise.imp ?_ List.nodup_range
    intro a b hab
    simp only [Function.onFun, List.Disjoint, List.mem_map]
    rintro ⟨p, q⟩ ⟨u, -, hu⟩ ⟨v, -, hv⟩
    cases hu
    cases hv
    exact hab rfl

/-! ## Local part -/

/-- memory after `set(Streak)` for some streaks -/
theorem run_put (hn : n ≤ 2) {eager : Ch → Nat → Bool} {g r : Nat} {val : Crd → α} {k : P α} {out : List (Shot α)} : ∀ (ss : List Streak)
    (s : St Loc α (Msg α) (Shot α)), Quiet s → (∀ u ∈ ss, SIn n dim u) → ∀ (mem : Loc → α),
    s.ranks r = ⟨putStreaks n wraps dim g val ss k, mem, [], out⟩ →
    ∃ t, RunTo eager s t ∧ Quiet t ∧ t.ranks r = ⟨k, ss.foldl (fun m u => store (addr n dim g u) ((coordsOf u).map val) m) mem, [], out⟩ ∧
      ∀ z, z ≠ r → t.ranks z = s.ranks z
  | [], s, hq, _, mem, hp => ⟨s, RunTo.refl _, hq, by rw [hp]; rfl, fun _ _ => rfl⟩
  | u :: us, s, hq, hin, mem, hp => by
    rw [putStreaks] at hp
    obtain ⟨s1, r1, q1, h1, z1⟩ := step_write (eager := eager) hq hp
    obtain ⟨t, r2, q2, h2, z2⟩ := run_put hn us s1 q1 (fun v hv => hin v (by simp [hv])) _ h1
    refine ⟨t, r1.trans r2, q2, ?_, fun z hz => by rw [z2 z hz, z1 z hz]⟩
    rw [h2, List.foldl_cons, ← addr_eq (wraps := wraps) hn (hin u (by simp))]
    simp [List.map_map, Function.comp_def]

theorem store_addr {g : Nat} {u : Streak} (hu : SIn n dim u) {val : Crd → α} (hv : ∀ c d, (∀ k, k ≤ n → c k = d k) → val c = val d)
    {mem : Loc → α} {c : Crd} (hc : SMem n u c) :
    store (addr n dim g u) ((coordsOf u).map val) mem (.cell g (lin dim n 0 c)) = val c := by
  have hcrd : ∀ (ds : List Crd) (mem : Loc → α), (∀ d ∈ ds, InDim n dim d) → (∃ d ∈ ds, ∀ k, k ≤ n → d k = c k) →
      store (ds.map fun c => Loc.cell g (lin dim n 0 c)) (ds.map val) mem (.cell g (lin dim n 0 c)) = val c := by
    intro ds
    induction ds with
    | nil => simp
    | cons d ds ih =>
      intro mem hd he
      rw [List.map_cons, List.map_cons, store]
      by_cases h : ∃ d ∈ ds, ∀ k, k ≤ n → d k = c k
      · exact ih _ (fun d hd' => hd d (by simp [hd'])) h
      · obtain ⟨e, he, hk⟩ := he
        rcases List.mem_cons.1 he with rfl | he
        · have : Loc.cell g (lin dim n 0 c) = Loc.cell g (lin dim n 0 e) := by
            congr 1
            exact lin_congr _ _ _ _ _ fun j _ hj => (hk j (by omega)).symm
          rw [store_of_not_mem, this, Function.update_self]
          · exact hv _ _ hk
          · simp only [List.mem_map, not_exists, not_and]
            intro f hf he
            refine h ⟨f, hf, ?_⟩
            rw [this] at he
            intro k hk'
            rw [← hk k hk']
            exact lin_inj (hd f (by simp [hf])) (hd e (by simp)) (by simpa using he) k hk'
        · exact absurd ⟨e, he, hk⟩ h
  refine hcrd _ _ (fun d hd => hu.coord hd) ?_
  refine ⟨upd u.origin 0 (c 0), (mem_coordsOf u _ hu.2.1).2 ⟨c 0, hc.2.1, hc.2.2, rfl⟩, ?_⟩
  intro k hk
  unfold upd
  split
  · rename_i e; subst e; rfl
  · exact (hc.1 k (by omega) hk).symm

theorem put_mem {g : Nat} {idx : Idx} {ss : List Streak} (h : InBox n dim idx ss) {val : Crd → α}
    (hv : ∀ c d, (∀ k, k ≤ n → c k = d k) → val c = val d) (mem : Loc → α) :
    (∀ c, RMem n idx c → ss.foldl (fun m u => store (addr n dim g u) ((coordsOf u).map val) m) mem (.cell g (lin dim n 0 c)) = val c) ∧
    ∀ l, ¬ At n dim g idx l → ss.foldl (fun m u => store (addr n dim g u) ((coordsOf u).map val) m) mem l = mem l := by
  have key : ∀ (ts : List Streak) (mem : Loc → α), (∀ u ∈ ts, SIn n dim u) →
      (∀ c, (∃ u ∈ ts, SMem n u c) → ts.foldl (fun m u => store (addr n dim g u) ((coordsOf u).map val) m) mem (.cell g (lin dim n 0 c)) = val c) ∧
      ∀ l, (¬ ∃ u ∈ ts, l ∈ addr n dim g u) → ts.foldl (fun m u => store (addr n dim g u) ((coordsOf u).map val) m) mem l = mem l := by
    intro ts
    induction ts with
    | nil => intro mem _; simp
    | cons u us ih =>
      intro mem hin
      obtain ⟨i1, i2⟩ := ih (store (addr n dim g u) ((coordsOf u).map val) mem) fun v hv => hin v (by simp [hv])
      constructor
      · rintro c ⟨v, hv', hm⟩
        rw [List.foldl_cons]
        by_cases he : ∃ u ∈ us, SMem n u c
        · exact i1 c he
        · rcases List.mem_cons.1 hv' with rfl | hv'
          · have hu := hin v (by simp)
            rw [i2]
            · exact store_addr hu hv hm
            · rintro ⟨w, hw, hl⟩
              have hw' := hin w (by simp [hw])
              obtain ⟨d, hd, hl⟩ := (mem_addr hw').1 hl
              have hinC : ∀ {u : Streak} {c : Crd}, SIn n dim u → SMem n u c → InDim n dim c := by
                intro u c hu hm k hk
                by_cases h0 : k = 0
                · subst h0
                  have := hm.2
                  have := hu.1 0 (by omega)
                  have := hu.2.2
                  omega
                · rw [hm.1 k (by omega) hk]
                  exact hu.1 k hk
              have := lin_inj (hinC hu hm) (hinC hw' hd) (by simpa using hl)
              refine he ⟨w, hw, fun k h1 h2 => by rw [this k h2]; exact hd.1 k h1 h2, ?_⟩
              rw [this 0 (by omega)]
              exact hd.2
          · exact absurd ⟨v, hv', hm⟩ he
      · intro l hl
        rw [List.foldl_cons, i2 l fun ⟨v, h1, h2⟩ => hl ⟨v, by simp [h1], h2⟩]
        exact store_of_not_mem fun h => hl ⟨u, by simp, h⟩
  obtain ⟨k1, k2⟩ := key ss mem fun u hu => h.sin hu
  refine ⟨fun c hc => k1 c ((h.canon.mem c).1 hc), fun l hl => k2 l fun he => hl (h.at_iff.2 he)⟩

theorem store_blank {dflt : α} {g : Nat} {mem : Loc → α} :
    (∀ i : Int, 0 ≤ i → i < crdProd n dim → store ((blank n dim dflt g).map Prod.fst) ((blank n dim dflt g).map Prod.snd) mem (.cell g i) = dflt) ∧
    ∀ l, (∀ i, l ≠ .cell g i) → l ≠ .edge g → store ((blank n dim dflt g).map Prod.fst) ((blank n dim dflt g).map Prod.snd) mem l = mem l := by
  have e : (blank n dim dflt g).map Prod.snd = ((blank n dim dflt g).map Prod.fst).map fun _ => dflt := by
    simp [blank, List.map_map, Function.comp_def]
  rw [e]
  constructor
  · intro i h1 h2
    refine store_map (f := fun _ => dflt) ?_
    simp only [blank, List.map_cons, List.map_map, Function.comp_def, List.mem_cons, List.mem_map, List.mem_range]
    exact Or.inr ⟨i.toNat, by omega, by congr 1; omega⟩
  · intro l h1 h2
    refine store_of_not_mem ?_
    simp only [blank, List.map_cons, List.map_map, Function.comp_def, List.mem_cons, List.mem_map, List.mem_range]
    rintro (h | ⟨j, -, h⟩)
    · exact h2 h
    · exact h1 _ h.symm

/-- what a rank leaves in memory before it communicates -/
theorem run_local (hn : n ≤ 2) {eager : Ch → Nat → Bool} {dflt : α} {N r : Nat} {fresh : Bool} {c : Call α} {ss : List Streak}
    (hb : InBox n dim c.idx ss) {ref : Crd → α} (hv : ∀ c d, (∀ k, k ≤ n → c k = d k) → ref c = ref d)
    (hr : ∀ p, RMem n c.idx p → c.val p = ref p) {k : P α} {mem : Loc → α} {out : List (Shot α)} :
    ∃ m, (∀ s : St Loc α (Msg α) (Shot α), Quiet s → s.ranks r = ⟨pmwCall n wraps dim dflt N r fresh c k, mem, [], out⟩ →
      ∃ t, RunTo eager s t ∧ Quiet t ∧
        t.ranks r = ⟨pmwPairs n wraps dim r c.step c.idx (pairs N) (.wait pmwTag k), m, [], out⟩ ∧ ∀ z, z ≠ r → t.ranks z = s.ranks z) ∧
      (∀ p, RMem n c.idx p → m (.cell c.step (lin dim n 0 p)) = ref p) ∧
      m (.edge c.step) = c.edge ∧
      (∀ l, (∀ i, l ≠ .cell c.step i) → l ≠ .edge c.step → m l = mem l) ∧
      (fresh = false → ∀ i, ¬ At n dim c.step c.idx (.cell c.step i) → m (.cell c.step i) = mem (.cell c.step i)) ∧
      (fresh = true → ∀ i, 0 ≤ i → i < crdProd n dim → ¬ At n dim c.step c.idx (.cell c.step i) → m (.cell c.step i) = dflt) := by
  have hval : ∀ u ∈ ss, (coordsOf u).map c.val = (coordsOf u).map ref := by
    intro u hu
    refine List.map_congr_left fun p hp => hr p ((hb.canon.mem p).2 ⟨u, hu, ?_⟩)
    have hs := hb.sin hu
    rw [mem_coordsOf u p hs.2.1] at hp
    obtain ⟨y, h1, h2, rfl⟩ := hp
    exact ⟨fun k hk _ => by unfold upd; rw [if_neg (by omega)], by simpa [upd] using ⟨h1, h2⟩⟩
  have hfold : ∀ (us : List Streak) (m : Loc → α), (∀ u ∈ us, u ∈ ss) →
      us.foldl (fun m u => store (addr n dim c.step u) ((coordsOf u).map c.val) m) m =
      us.foldl (fun m u => store (addr n dim c.step u) ((coordsOf u).map ref) m) m := by
    intro us
    induction us with
    | nil => intros; rfl
    | cons u us ih =>
      intro m h
      rw [List.foldl_cons, List.foldl_cons, hval u (h u (by simp)), ih _ fun v hv => h v (by simp [hv])]
  let m0 : Loc → α := if fresh then store ((blank n dim dflt c.step).map Prod.fst) ((blank n dim dflt c.step).map Prod.snd) mem else mem
  let m1 : Loc → α := ss.foldl (fun m u => store (addr n dim c.step u) ((coordsOf u).map c.val) m) m0
  obtain ⟨pm1, pm2⟩ := put_mem (g := c.step) hb hv m0
  rw [← hfold ss m0 fun _ h => h] at pm1 pm2
  refine ⟨store [.edge c.step] [c.edge] m1, ?_, ?_, ?_, ?_, ?_, ?_⟩
  · intro s hq hp
    have s1 : ∃ t, RunTo eager s t ∧ Quiet t ∧ t.ranks r = ⟨putStreaks n wraps dim c.step c.val ss <|
        .write [(.edge c.step, c.edge)] <| pmwPairs n wraps dim r c.step c.idx (pairs N) <| .wait pmwTag k, m0, [], out⟩ ∧
        ∀ z, z ≠ r → t.ranks z = s.ranks z := by
      simp only [pmwCall, forStreaks, hb.vec] at hp
      cases fresh
      · exact ⟨s, RunTo.refl _, hq, hp, fun _ _ => rfl⟩
      · exact step_write hq hp
    obtain ⟨t1, r1, q1, p1, z1⟩ := s1
    obtain ⟨t2, r2, q2, p2, z2⟩ := run_put (eager := eager) hn ss t1 q1 (fun u hu => hb.sin hu) _ p1
    obtain ⟨t3, r3, q3, p3, z3⟩ := step_write (eager := eager) q2 p2
    exact ⟨t3, r1.trans (r2.trans r3), q3, p3, fun z hz => by rw [z3 z hz, z2 z hz, z1 z hz]⟩
  · intro p hp
    rw [store_of_not_mem (by simp)]
    exact pm1 p hp
  · simp [store]
  · intro l h1 h2
    rw [store_of_not_mem (by simpa using h2)]
    refine (pm2 l fun ⟨d, _, e⟩ => h1 _ e).trans ?_
    simp only [m0]
    split
    · exact store_blank.2 l h1 h2
    · rfl
  · intro hf i hi
    rw [store_of_not_mem (by simp)]
    refine (pm2 _ hi).trans ?_
    simp [m0, hf]
  · intro hf i h1 h2 hi
    rw [store_of_not_mem (by simp)]
    refine (pm2 _ hi).trans ?_
    simp only [m0, hf, if_true]
    exact store_blank.1 i h1 h2

/-- one call on all ranks -/
theorem run_call (hn : n ≤ 2) {eager : Ch → Nat → Bool} {dflt : α} {N g : Nat} {fresh : Bool} {c : Nat → Call α}
    (hstep : ∀ r, r < N → (c r).step = g) {ls : Nat → List Streak} (hbox : ∀ r, r < N → InBox n dim (c r).idx (ls r))
    (hdis : ∀ r r', r < N → r' < N → r ≠ r' → ∀ p, ¬ (RMem n (c r).idx p ∧ RMem n (c r').idx p))
    {ref : Crd → α} (hv : ∀ c d, (∀ k, k ≤ n → c k = d k) → ref c = ref d)
    (hr : ∀ r, r < N → ∀ p, RMem n (c r).idx p → (c r).val p = ref p) {K : Nat → P α}
    {s : St Loc α (Msg α) (Shot α)} (hq : Quiet s)
    (hproc : ∀ r, r < N → (s.ranks r).proc = pmwCall n wraps dim dflt N r fresh (c r) (K r) ∧ (s.ranks r).reqs = []) :
    ∃ t, RunTo eager s t ∧ Quiet t ∧ (∀ r, N ≤ r → t.ranks r = s.ranks r) ∧
      ∀ r, r < N → (t.ranks r).proc = K r ∧ (t.ranks r).reqs = [] ∧ (t.ranks r).out = (s.ranks r).out ∧
        (∀ x, x < N → ∀ p, RMem n (c x).idx p → (t.ranks r).mem (.cell g (lin dim n 0 p)) = ref p) ∧
        (t.ranks r).mem (.edge g) = (c r).edge ∧
        (∀ l, (∀ i, l ≠ .cell g i) → l ≠ .edge g → (t.ranks r).mem l = (s.ranks r).mem l) ∧
        (fresh = false → ∀ i, (∀ x, x < N → ¬ At n dim g (c x).idx (.cell g i)) →
          (t.ranks r).mem (.cell g i) = (s.ranks r).mem (.cell g i)) ∧
        (fresh = true → ∀ i, 0 ≤ i → i < crdProd n dim → (∀ x, x < N → ¬ At n dim g (c x).idx (.cell g i)) →
          (t.ranks r).mem (.cell g i) = dflt) := by
  have hloc : ∀ r, ∃ m, r < N → (∀ s' : St Loc α (Msg α) (Shot α), Quiet s' → s'.ranks r = s.ranks r →
      ∃ t, RunTo eager s' t ∧ Quiet t ∧
        t.ranks r = ⟨pmwPairs n wraps dim r g (c r).idx (pairs N) (.wait pmwTag (K r)), m, [], (s.ranks r).out⟩ ∧
        ∀ z, z ≠ r → t.ranks z = s'.ranks z) ∧
      (∀ p, RMem n (c r).idx p → m (.cell g (lin dim n 0 p)) = ref p) ∧
      m (.edge g) = (c r).edge ∧
      (∀ l, (∀ i, l ≠ .cell g i) → l ≠ .edge g → m l = (s.ranks r).mem l) ∧
      (fresh = false → ∀ i, ¬ At n dim g (c r).idx (.cell g i) → m (.cell g i) = (s.ranks r).mem (.cell g i)) ∧
      (fresh = true → ∀ i, 0 ≤ i → i < crdProd n dim → ¬ At n dim g (c r).idx (.cell g i) → m (.cell g i) = dflt) := by
    intro r
    by_cases hrN : r < N
    · obtain ⟨m, h1, h2⟩ := run_local (eager := eager) (wraps := wraps) (dflt := dflt) (N := N) (r := r) (fresh := fresh) hn (hbox r hrN) hv (hr r hrN)
        (k := K r) (mem := (s.ranks r).mem) (out := (s.ranks r).out)
      rw [hstep r hrN] at h1 h2
      refine ⟨m, fun _ => ⟨fun s' hq' he => h1 s' hq' ?_, h2⟩⟩
      rw [he]
      obtain ⟨e1, e2⟩ := hproc r hrN
      rw [← e1, ← e2]
    · exact ⟨(s.ranks r).mem, fun h => absurd h hrN⟩
  choose m hm using hloc
  obtain ⟨s1, r1, q1, p1, o1⟩ := run_all (eager := eager)
    (fun r => ⟨pmwPairs n wraps dim r g (c r).idx (pairs N) (.wait pmwTag (K r)), m r, [], (s.ranks r).out⟩) N s hq
    fun r hrN u hu he => (hm r hrN).1 u hu he
  obtain ⟨s2, r2, q2, p2, w2, m2, m2', o2⟩ := run_pairs (eager := eager) (wraps := wraps) (K := fun r => .wait pmwTag (K r)) hn hbox hdis (pairs N) (pairs_nodup N)
    (fun p hp => mem_pairs.1 hp) s1 q1 (fun r hrN => by rw [p1 r hrN]) (fun r hrN q hq' => by
      rw [p1 r hrN] at hq'
      cases hq')
  obtain ⟨t, r3, q3, p3, o3⟩ := run_all (eager := eager)
    (fun r => ⟨K r, (s2.ranks r).mem, [], (s2.ranks r).out⟩) N s2 q2
    fun r hrN u hu he => step_wait (w := pmwTag) (reqs := (s2.ranks r).reqs) hu (by rw [he, ← (p2 r hrN).1]) (w2 r hrN)
  refine ⟨t, r1.trans (r2.trans r3), q3, fun r hrN => by rw [o3 r hrN, o2 r hrN, o1 r hrN], ?_⟩
  intro r hrN
  obtain ⟨-, l1, l2, l3, l4, l5⟩ := hm r hrN
  have keep : ∀ l, (∀ x, x < N → x ≠ r → ¬ At n dim g (c x).idx l) → (t.ranks r).mem l = m r l := by
    intro l h
    rw [p3 r hrN]
    show (s2.ranks r).mem l = _
    rw [m2' r l fun x hp => h x (mem_pairs.1 hp).1 (mem_pairs.1 hp).2.2, p1 r hrN]
  have own : ∀ x, x < N → x ≠ r → ∀ p, RMem n (c r).idx p → ¬ At n dim g (c x).idx (.cell g (lin dim n 0 p)) := by
    intro x hx hne p hp
    exact at_disjoint (hbox r hrN).box (hbox x hx).ok (hbox x hx).box (hdis r x hrN hx (Ne.symm hne)) ⟨p, hp, rfl⟩
  refine ⟨by rw [p3 r hrN], by rw [p3 r hrN], by rw [p3 r hrN]; show (s2.ranks r).out = _; rw [(p2 r hrN).2, p1 r hrN], ?_, ?_, ?_, ?_, ?_⟩
  · intro x hx p hp
    by_cases he : x = r
    · subst he
      rw [keep _ fun y hy hne => own y hy hne p hp]
      exact l1 p hp
    · rw [p3 r hrN]
      show (s2.ranks r).mem _ = _
      rw [m2 x r _ (mem_pairs.2 ⟨hx, hrN, he⟩) ⟨p, hp, rfl⟩, p1 x hx]
      exact (hm x hx).2.1 p hp
  · rw [keep _ fun x _ _ h => by obtain ⟨d, -, e⟩ := h; cases e]
    exact l2
  · intro l h1 h2
    rw [keep l fun x _ _ h => by obtain ⟨d, -, e⟩ := h; exact h1 _ e]
    exact l3 l h1 h2
  · intro hf i hi
    rw [keep _ fun x hx _ => hi x hx]
    exact l4 hf i (hi r hrN)
  · intro hf i h1 h2 hi
    rw [keep _ fun x hx _ => hi x hx]
    exact l5 hf i h1 h2 (hi r hrN)

end LGD.Gather
