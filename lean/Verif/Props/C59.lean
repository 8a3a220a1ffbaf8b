import Verif.Tune.Simplex

/-!
# C59: the simplex algorithm
-/

namespace LGD.C59
open LGD.Tune

/-- **C59.** For evaluators with values between the smallest positive and the largest number, and parameters on a grid: all points handed to the evaluator lie in the domain, the result is one of them, `getFitness()` is the
fitness of the result and at least that of the point the search started from. Only points of reflection which were given up for an expansion may be better than the result. -/
theorem simplex_search {ps : List Param} (hn : 1 ≤ ps.length) (hp : ∀ p ∈ ps, Aligned p) {eval : List Param → ℚ} (hb : ∀ x, dblMin ≤ eval x ∧ eval x ≤ dblMax)
    {eps mult : ℚ} {steps : List ℚ} {k : Nat} {t : XSt} (h : simplexSearch ps eps mult steps eval k = some t) :
    (∀ x ∈ t.seen, InDomain ps x) ∧ t.result.pt ∈ t.seen ∧ t.result.fit = eval t.result.pt ∧ ps ∈ t.seen ∧ eval ps ≤ t.result.fit ∧
      (∀ x ∈ t.seen, x ∈ t.dropped ∨ eval x ≤ t.result.fit) ∧ t.seen.length ≤ ps.length + 1 + k * (2 * ps.length + 4) := by
  have hg : Grid ps ps := ⟨rfl, fun i hi _ => ⟨Same.refl _, hp _ (List.getElem_mem hi), fun _ _ => rfl⟩⟩
  unfold simplexSearch at h
  dsimp only at h
  rw [Option.ite_none_right_eq_some] at h
  have h := Option.some.inj h.2
  obtain ⟨s1, s2⟩ := start_inv (eval := eval) hg mult (if steps = [] then defaultSteps ps else steps)
  obtain ⟨l1, l2⟩ := xloop_inv hb hn eps (if steps = [] then defaultSteps ps else steps) k _ s1
  have l3 := xloop_len hb hn eps (if steps = [] then defaultSteps ps else steps) k _ s1
  have l4 : (evalAll eval ⟨initSimplex ps mult (if steps = [] then defaultSteps ps else steps), mult, [], [], false⟩).seen.length ≤ ps.length + 1 := by
    refine le_trans (evalAll_len _) ?_
    dsimp only
    rw [(init_new hg mult _).1]
    simp
  rw [h] at l1 l2 l3
  obtain ⟨hmx, hmax⟩ := maxIdx_ge l1.ne (l1.min hb)
  have best : ∀ x ∈ t.seen, x ∈ t.dropped ∨ eval x ≤ t.result.fit := fun x hx => (l1.best x hx).imp id fun ⟨v, hv, hx⟩ => le_trans hx (hmax v hv)
  exact ⟨fun x hx => (l1.dom x hx).domain, l1.seen _ hmx, l1.fit _ hmx, l2 _ s2, (by obtain ⟨v, hv, hs⟩ := l1.start; exact le_trans hs (hmax v hv)), best, by omega⟩

/-- **C59, negation.** Discrete parameters never change: every point which is evaluated has the original values. -/
theorem discrete_stuck {ps : List Param} (hn : 1 ≤ ps.length) (hp : ∀ p ∈ ps, Aligned p) {eval : List Param → ℚ} (hb : ∀ x, dblMin ≤ eval x ∧ eval x ≤ dblMax)
    {eps mult : ℚ} {steps : List ℚ} {k : Nat} {t : XSt} (h : simplexSearch ps eps mult steps eval k = some t) (i : Nat) (q : DSet) (hq : ps[i]? = some (.dset q)) :
    ∀ x ∈ t.seen, x[i]? = some (.dset q) := by
  have hg : Grid ps ps := ⟨rfl, fun i hi _ => ⟨Same.refl _, hp _ (List.getElem_mem hi), fun _ _ => rfl⟩⟩
  unfold simplexSearch at h
  dsimp only at h
  rw [Option.ite_none_right_eq_some] at h
  have h := Option.some.inj h.2
  obtain ⟨s1, s2⟩ := start_inv (eval := eval) hg mult (if steps = [] then defaultSteps ps else steps)
  obtain ⟨l1, l2⟩ := xloop_inv hb hn eps (if steps = [] then defaultSteps ps else steps) k _ s1
  rw [h] at l1
  intro x hx
  have hx := l1.dom x hx
  obtain ⟨hi, e⟩ := List.getElem?_eq_some_iff.1 hq
  have hi' : i < x.length := by rw [hx.1]; exact hi
  rw [List.getElem?_eq_getElem hi', (hx.2 i hi hi').2.2 q e, e]

/-! ## An example -/

/-- an interval of 20 integers -/
def line : List Param := [Ival.make .int 0 20 1]

/-- a hill with its top at 13 -/
def hill (x : List Param) : ℚ := max 1 (400 - (at' x 0 - 13) * (at' x 0 - 13))

/-- the premises hold -/
example : ∀ p ∈ line, Aligned p := by
  intro p hp
  rw [List.mem_singleton.1 hp]
  exact ⟨⟨by norm_num, by norm_num, by norm_num, by norm_num⟩, by change (0 : ℚ) < 1; norm_num, 20, by norm_num, by change (20 : ℚ) - 0 = (20 : Nat) * 1; norm_num, 0, by norm_num,
    by change (0 : ℚ) = (0 : Nat) * 1; norm_num, fun _ => ⟨1, rfl⟩⟩

/-- the top is found after 19 steps -/
example : (simplexSearch line (-1) 4 [] hill 19).map (fun t => (t.done, t.result.fit, at' t.result.pt 0)) = some (true, 400, 13) := by decide +kernel

/-! ## What goes wrong -/

/-- fitness by value -/
def table (l : List (Int × ℚ)) (d : ℚ) (x : List Param) : ℚ := (l.lookup ⌊at' x 0⌋).getD d

/-- **C59, negation.** The search gives up a better point for its expansion and doesn't come back: it ends by itself with fitness 6 although it has evaluated a point with fitness 9. -/
theorem better_dropped : ∃ t, simplexSearch line (-1) 4 [] (table [(4, 2), (8, 9), (12, 5), (19, 6)] 1) 20 = some t ∧ t.done = true ∧ t.result.fit = 6 ∧
    ∃ x ∈ t.seen, table [(4, 2), (8, 9), (12, 5), (19, 6)] 1 x = 9 := by
  refine ⟨_, rfl, ?_⟩
  decide +kernel

/-- an interval of 8 integers -/
def short : List Param := [Ival.make .int 0 8 1]

/-- negative fitness, as in auto-tuning where it's the negative execution time -/
def times : List Param → ℚ := table [(0, -4), (1, -3), (2, -1), (3, -3), (4, -5), (5, -1), (6, -2), (7, -3)] (-9)

/-- **C59, negation.** With negative fitness the search ends by itself with the worst of all points: fitness -5 although it started with -4 and has evaluated points with -1. -/
theorem negative_worst : ∃ t, simplexSearch short (-1) 1 [] times 12 = some t ∧ t.done = true ∧ t.result.fit = -5 ∧ times short = -4 ∧ (∀ x ∈ t.seen, -5 ≤ times x) ∧ ∃ x ∈ t.seen, times x = -1 := by
  refine ⟨_, rfl, ?_⟩
  decide +kernel

/-- **C59, negation.** The reason: if no vertex has positive fitness, then the first one counts as the best. -/
theorem negative_first (t : XSt) (h : ∀ v ∈ t.simplex, v.fit < dblMin) : t.result = vtx t.simplex 0 := by
  unfold XSt.result
  rw [maxIdx_neg h]

end LGD.C59
