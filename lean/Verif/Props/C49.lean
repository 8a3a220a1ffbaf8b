import Verif.Store.ThreadLemmas

/-!
# C49: threaded updates of a region

Whatever tasks the build and the concurrency specifications select, and in whatever order their steps are interleaved: the target grid ends up with the cells which the serial loop yields.
-/

namespace LGD.C49
open LGD.C13 LGD.C14 LGD.Store LGD.C33 LGD.Line LGD.C34 LGD.Thread

variable {α : Type} {n : Nat} {wraps : Nat → Bool}

/-! ## the steps are those of the code modelled in C34 -/

/-- **C49, steps.** The body of the loop over streaks performs the steps of a streak in order, a task those of its streaks. -/
theorem body_steps (st : Stencil) (upd' : Nat → α → List α → α) (nano : Nat) (srcOff tgtOff : Crd) (v : View α) (loc' : Crd → Option Int) (t : List Streak) (g : Grid α) :
    t.foldlM (fun g s => vanStreak st upd' nano srcOff tgtOff v loc' s g) g =
      run (vanPath st upd' nano srcOff tgtOff v loc') (steps (vanPath st upd' nano srcOff tgtOff v loc') t) g ∧
    t.foldlM (fun g s => lineStreak n wraps st upd' nano srcOff tgtOff v loc' s g) g =
      run (linePath n wraps st upd' nano srcOff tgtOff v loc') (steps (linePath n wraps st upd' nano srcOff tgtOff v loc') t) g := by
  rw [run_task, run_task]
  simp only [vanStreak_run, lineStreak_run, and_self]

/-! ## tasks -/

/-- **C49, tasks.** For any build and any concurrency specification, the tasks are created without undefined behaviour, and together they visit each cell of the region exactly once and no other cell.
Fine grained parallelism needs a positive granularity and coordinates which aren't negative on the x axis. -/
theorem tasks_partial (sp : Spec) (region : Idx) (hr : RegOK n region) (hf : sp.preferFine = true → 0 < sp.gran ∧ ∀ c, RMem n region c → 0 ≤ c 0) :
    ∃ ts, tasks n sp region = some ts ∧ (∀ c ∈ ts.flatten.flatMap coordsOf, RMem n region c) ∧
      (∀ c, RMem n region c → ∃ d ∈ ts.flatten.flatMap coordsOf, ∀ k, k ≤ n → d k = c k) ∧ (ts.flatten.flatMap coordsOf).Pairwise (fun a b => ∃ k, k ≤ n ∧ a k ≠ b k) ∧
      (∀ t ∈ ts, ∀ s ∈ t, s.origin 0 < s.endX) := by
  obtain ⟨ss, e, h1, h2, h3, h4⟩ := visited region hr
  obtain ⟨ts, t1, t2, t3⟩ := tasks_spec sp region hr ss e h1 fun hp => ⟨(hf hp).1, fun s hs => by
    have := (hf hp).2 _ (h2 _ (List.mem_flatMap.mpr ⟨s, hs, coordsOf_cells s (s.origin 0) (le_refl _) (h1 s hs)⟩))
    simpa [upd] using this⟩
  refine ⟨ts, t1, by rw [t2]; exact h2, by rw [t2]; exact h3, ?_, fun t ht s hs => ?_⟩
  · rw [t2]
    rw [List.Nodup, List.pairwise_map] at h4
    refine h4.imp fun {a b} hne => ?_
    by_contra hcon
    refine hne ?_
    funext k
    by_contra hk
    exact hcon ⟨k, by omega, hk⟩
  · obtain ⟨_, _, h⟩ := t3 s (List.mem_flatten.mpr ⟨t, ht, hs⟩)
    exact h.pos

/-- the parts into which fine grained parallelism cuts a streak have at most `granularity` cells -/
theorem granularity (gran : Int) (hg : 0 < gran) (s : Streak) (h0 : 0 ≤ s.origin 0) (h1 : s.origin 0 < s.endX) :
    ∃ l, tranches gran ((s.endX - s.origin 0).toNat + 1) s = some l ∧ l.flatMap coordsOf = coordsOf s ∧ ∀ t ∈ l, 0 < t.endX - t.origin 0 ∧ t.endX - t.origin 0 ≤ gran := by
  obtain ⟨l, a, b, c⟩ := tranches_spec gran hg _ s h0 h1 (Nat.lt_succ_self _)
  exact ⟨l, a, b, fun t ht => ⟨by have := (c t ht).1.pos; omega, (c t ht).2⟩⟩

/-! ## results -/

/-- **C49, `Grid`.** Any interleaving of the tasks yields the grid which the serial loop yields; no two steps update the same cell of the target. -/
theorem threads_grid_partial (hn : n ≤ 2) {st : Stencil} (hst : StencilOK n st) (upd' : Nat → α → List α → α) (nano : Nat) (old new : Grid α) (ho : GridOK n old)
    (hnew : GridOK n new) (srcOff tgtOff : Crd) (region : Idx) (hr : RegOK n region) (hsrc : ∀ c, RMem n region c → InDim n old.dim (fun k => c k + srcOff k))
    (htgt : ∀ c, RMem n region c → InDim n new.dim (fun k => c k + tgtOff k)) (sp : Spec)
    (hf : sp.preferFine = true → 0 < sp.gran ∧ ∀ c, RMem n region c → 0 ≤ c 0) :
    ∃ ts g', tasks n sp region = some ts ∧
      (∀ body, C34.IsPath n wraps st upd' nano srcOff tgtOff (gridView n wraps old) (gridView n wraps new).loc body → updateRegion n body region new = some g') ∧
      (∀ p, Thread.IsPath n wraps st upd' nano srcOff tgtOff (gridView n wraps old) (gridView n wraps new).loc p → ∀ l, Interleave (ts.map (steps p)) l → run p l new = some g') ∧
      (ts.flatten.flatMap coordsOf).Pairwise fun a b => ¬ Same n wraps new.dim (fun k => a k + tgtOff k) (fun k => b k + tgtOff k) := by
  obtain ⟨ss, e, h1, h2, h3, h4⟩ := visited region hr
  obtain ⟨ts, t1, t2, t3⟩ := tasks_spec sp region hr ss e h1 fun hp => ⟨(hf hp).1, fun s hs => by
    have := (hf hp).2 _ (h2 _ (List.mem_flatMap.mpr ⟨s, hs, coordsOf_cells s (s.origin 0) (le_refl _) (h1 s hs)⟩))
    simpa [upd] using this⟩
  have hready := ready_grid (wraps := wraps) hn hst old new ho hnew srcOff tgtOff region hsrc htgt ss h1 h2 h4
  obtain ⟨g', r1, r2⟩ := threads_view hst upd' nano _ _ new srcOff tgtOff region ss e _ hready ts t2 t3
  refine ⟨ts, g', t1, r1, r2, ?_⟩
  rw [t2]
  have hd := hready.dist
  rw [List.Nodup, List.pairwise_map] at hd
  refine hd.imp_of_mem fun {a b} ha hb hne hs => hne ?_
  have hl := (same_locate hn hnew.pos (onePeriod_of_inDim (htgt a (h2 a ha))) (onePeriod_of_inDim (htgt b (h2 b hb)))).1 hs
  exact Option.some.inj ((hready.tgt a ha).1.symm.trans (hl.trans (hready.tgt b hb).1))

/-- **C49, `DisplacedGrid`.** -/
theorem threads_displaced_partial (hn : n ≤ 2) {st : Stencil} (hst : StencilOK n st) (upd' : Nat → α → List α → α) (nano : Nat) (old new : DGrid α) (ho : DGridOK n wraps old)
    (hnew : DGridOK n wraps new) (srcOff tgtOff : Crd) (region : Idx) (hr : RegOK n region) (hsrc : Covers n wraps old region srcOff st.coords)
    (htgt : Covers n wraps new region tgtOff []) (hdist : Distinct n wraps new region tgtOff)
    (hseam : NoSeam n wraps old region srcOff ∧ NoSeam n wraps new region tgtOff) (sp : Spec)
    (hf : sp.preferFine = true → 0 < sp.gran ∧ ∀ c, RMem n region c → 0 ≤ c 0) :
    ∃ ts g', tasks n sp region = some ts ∧
      (∀ body, C34.IsPath n wraps st upd' nano srcOff tgtOff (dispView n wraps old) (dispView n wraps new).loc body → updateRegion n body region new.delegate = some g') ∧
      (∀ p, Thread.IsPath n wraps st upd' nano srcOff tgtOff (dispView n wraps old) (dispView n wraps new).loc p → ∀ l, Interleave (ts.map (steps p)) l →
        run p l new.delegate = some g') ∧
      (ts.flatten.flatMap coordsOf).Pairwise fun a b => ¬ DSame n wraps new (fun k => a k + tgtOff k) (fun k => b k + tgtOff k) := by
  obtain ⟨ss, e, h1, h2, h3, h4⟩ := visited region hr
  obtain ⟨ts, t1, t2, t3⟩ := tasks_spec sp region hr ss e h1 fun hp => ⟨(hf hp).1, fun s hs => by
    have := (hf hp).2 _ (h2 _ (List.mem_flatMap.mpr ⟨s, hs, coordsOf_cells s (s.origin 0) (le_refl _) (h1 s hs)⟩))
    simpa [upd] using this⟩
  have hready := ready_disp (wraps := wraps) hn hst old new ho hnew srcOff tgtOff region hsrc htgt hdist hseam ss h1 h2 h4
  obtain ⟨g', r1, r2⟩ := threads_view hst upd' nano _ _ new.delegate srcOff tgtOff region ss e _ hready ts t2 t3
  refine ⟨ts, g', t1, r1, r2, ?_⟩
  rw [t2]
  rw [List.Nodup, List.pairwise_map] at h4
  refine h4.imp_of_mem fun {a b} ha hb hne hs => hne ?_
  have := hdist a b (h2 a ha) (h2 b hb) hs
  funext k
  exact this k (by omega)

/-! ## negative coordinates -/

/-- the cells -3 to 4 of a row -/
def row : Idx := fun k => if k = 0 then [(-3, 5)] else []

theorem row_ok : RegOK 0 row ∧ ∀ c, RMem 0 row c ↔ -3 ≤ c 0 ∧ c 0 < 5 := by
  obtain ⟨h1, h2⟩ := regLit 0 [⟨fun _ => -3, 5⟩] row (by decide +kernel)
  refine ⟨h1, fun c => ?_⟩
  rw [h2]
  simp only [U, List.mem_cons, List.not_mem_nil, or_false, exists_eq_left, SMem]
  constructor
  · rintro ⟨_, a, b⟩; exact ⟨a, b⟩
  · rintro ⟨a, b⟩; exact ⟨fun k a b => by omega, a, b⟩

/-- the cells -4 to 9 of a row -/
def shelf : DGrid Int := ⟨⟨fun _ => 14, List.replicate 14 1, 0⟩, fun _ => -4, fun _ => 14⟩

def fineOMP (gran : Int) : Spec := ⟨true, false, true, false, false, true, false, false, gran⟩

/-- **C49, deviation.** If the x coordinate is negative, fine grained parallelism updates cells outside of the region: `%` rounds towards zero, so that the first part ends behind the streak. -/
theorem fine_negation :
    ∃ (d : DGrid Int) (region : Idx) (gran : Int), 0 < gran ∧ DGridOK 0 (fun _ => false) d ∧ RegOK 0 region ∧ Covers 0 (fun _ => false) d region (fun _ => 0) (moore 0).coords ∧
      Covers 0 (fun _ => false) d region (fun _ => 0) [] ∧ Distinct 0 (fun _ => false) d region (fun _ => 0) ∧ NoSeam 0 (fun _ => false) d region (fun _ => 0) ∧
      (tasks 0 (fineOMP gran) region).map (fun ts => ts.map fun t => t.map fun s => (s.origin 0, s.endX)) = some [[(-3, 7)], [(7, 5)]] ∧
      (updateRegion 0 (vanStreak (moore 0) (fun _ _ _ => 2) 0 (fun _ => 0) (fun _ => 0) (dispView 0 (fun _ => false) d) (dispView 0 (fun _ => false) d).loc) region d.delegate).map
        (fun g => g.cells) = some [1, 2, 2, 2, 2, 2, 2, 2, 2, 1, 1, 1, 1, 1] ∧
      (((tasks 0 (fineOMP gran) region).bind fun ts => run (vanPath (moore 0) (fun _ _ _ => 2) 0 (fun _ => 0) (fun _ => 0) (dispView 0 (fun _ => false) d) (dispView 0 (fun _ => false) d).loc)
        (ts.flatMap (steps (vanPath (moore 0) (fun _ _ _ => (2 : Int)) 0 (fun _ => 0) (fun _ => 0) (dispView 0 (fun _ => false) d) (dispView 0 (fun _ => false) d).loc))) d.delegate).map
        fun g => g.cells) = some [1, 2, 2, 2, 2, 2, 2, 2, 2, 2, 2, 1, 1, 1] ∧
      (((tasks 0 (fineOMP gran) region).bind fun ts => run (linePath 0 (fun _ => false) (moore 0) (fun _ _ _ => 2) 0 (fun _ => 0) (fun _ => 0) (dispView 0 (fun _ => false) d)
        (dispView 0 (fun _ => false) d).loc)
        (ts.flatMap (steps (linePath 0 (fun _ => false) (moore 0) (fun _ _ _ => (2 : Int)) 0 (fun _ => 0) (fun _ => 0) (dispView 0 (fun _ => false) d) (dispView 0 (fun _ => false) d).loc)))
        d.delegate).map fun g => g.cells) = some [1, 2, 2, 2, 2, 2, 2, 2, 2, 2, 2, 2, 1, 1] := by
  have hcov : ∀ c, RMem 0 row c → ¬ DOutside 0 (fun _ => false) shelf (fun k => c k + 0) := by
    rintro c hc ⟨k, hk, _, h⟩
    have := (row_ok.2 c).1 hc
    obtain rfl : k = 0 := by omega
    simp only [shelf] at h
    omega
  refine ⟨shelf, row, 7, by omega, ⟨⟨fun _ _ => by simp [shelf], by decide⟩, fun _ _ => by simp [shelf], fun _ _ h => by cases h⟩, row_ok.1,
    fun c hc => ⟨hcov c hc, fun _ _ h => (by cases h), fun _ _ _ _ h => (by cases h)⟩, fun c hc => ⟨hcov c hc, fun _ _ h => (by cases h), fun _ _ _ _ h => (by cases h)⟩, ?_,
    fun h => (by cases h), by decide +kernel, by decide +kernel, by decide +kernel, by decide +kernel⟩
  intro a b ha hb hs k hk
  obtain rfl : k = 0 := by omega
  rcases hs with ⟨h, _⟩ | ⟨_, _, h⟩
  · exact (hcov a ha h).elim
  · have := h 0 (le_refl _)
    simpa using this

/-! ## examples -/

/-- the example grid of C34, with a region of two planes (here: rows); a granularity of two cells yields three tasks -/
example : (tasks 1 (fineOMP 2) patch).map (fun ts => ts.map fun t => t.map fun s => (s.origin 0, s.endX, s.origin 1)) = some [[(0, 2, 0)], [(2, 4, 0)], [(1, 3, 2)]] ∧
    (tasks 1 { fineOMP 2 with preferFine := false } patch).map (fun ts => ts.map fun t => t.map fun s => (s.origin 0, s.endX, s.origin 1)) = some [[(0, 4, 0)], [(1, 3, 2)]] ∧
    (tasks 1 ⟨false, true, false, true, false, false, false, false, 0⟩ patch).map (fun ts => ts.map fun t => t.map fun s => (s.origin 0, s.endX, s.origin 1)) =
      some [[(0, 4, 0)], [(1, 3, 2)]] := by
  decide +kernel

/-- an interleaving of two tasks which isn't serial, and its result -/
example : Interleave [[1, 2], [3, 4]] [3, 1, 4, 2] := by
  refine Interleave.step [[1, 2]] 3 [4] [] _ (Interleave.step [] 1 [2] [[4]] _ (Interleave.step [[2]] 4 [] [] _ (Interleave.step [] 2 [] [[]] _ (Interleave.done _ ?_))))
  simp

example : GridOK 1 sheet ∧ RegOK 1 patch ∧ (∀ c, RMem 1 patch c → InDim 1 sheet.dim (fun k => c k + 0)) ∧ (∀ c, RMem 1 patch c → 0 ≤ c 0) ∧
    (((tasks 1 (fineOMP 2) patch).bind fun ts => run (linePath 1 (fun k => decide (k = 0)) (vonNeumann 1) (fun _ self hood => hood.foldl (fun a b => 100 * a + b) self) 0 (fun _ => 0) (fun _ => 0)
      (gridView 1 (fun k => decide (k = 0)) sheet) (gridView 1 (fun k => decide (k = 0)) { sheet with cells := List.replicate 12 0 }).loc)
      (ts.flatMap (steps (linePath 1 (fun k => decide (k = 0)) (vonNeumann 1) (fun _ self hood => hood.foldl (fun a b => 100 * a + b) (self : Int)) 0 (fun _ => 0) (fun _ => 0)
        (gridView 1 (fun k => decide (k = 0)) sheet) (gridView 1 (fun k => decide (k = 0)) { sheet with cells := List.replicate 12 0 }).loc))).reverse
      { sheet with cells := List.replicate 12 0 }).map fun g => g.cells) = some [-96999890, -99989789, -98979688, -97969987, 0, 0, 0, 0, 0, 1120212199, 1221222299, 0] := by
  refine ⟨⟨fun k hk => by simp only [sheet]; split <;> omega, by decide⟩, patch_ok.1, fun c hc => by simpa using patch_ok.2 c hc, fun c hc => (patch_ok.2 c hc 0 (by omega)).1,
    by decide +kernel⟩

end LGD.C49
