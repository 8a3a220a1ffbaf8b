import Verif.Tune.Param
import Mathlib.Data.Finset.Card
import Mathlib.Algebra.Order.Ring.Pow

/-!
# Pattern search: what its loops maintain
-/

namespace LGD.Tune

/-- points of the domain the parameters `ps` span -/
def InDomain (ps m : List Param) : Prop := m.length = ps.length ∧ ∀ (i : Nat) (h : i < ps.length) (h' : i < m.length), Same ps[i] m[i] ∧ Within m[i]

theorem bump_length (m : List Param) (i : Nat) (s : ℚ) : (bump m i s).length = m.length := List.length_modify ..

theorem bump_get (m : List Param) (i : Nat) (s : ℚ) (k : Nat) (h : k < m.length) :
    (bump m i s)[k]'(by rw [bump_length]; exact h) = if i = k then m[k].add s else m[k] := by
  unfold bump
  rw [List.getElem_modify]

theorem bump_domain {ps m : List Param} (hok : ∀ p ∈ ps, Ok p) (h : InDomain ps m) (i : Nat) (s : ℚ) : InDomain ps (bump m i s) := by
  refine ⟨by rw [bump_length]; exact h.1, fun k hk hk' => ?_⟩
  have hkm : k < m.length := by rw [h.1]; exact hk
  rw [bump_get m i s k hkm]
  obtain ⟨h1, h2⟩ := h.2 k hk hkm
  split
  · exact ⟨h1.trans (same_add _ _), add_within (h1.ok (hok _ (List.getElem_mem hk))) s⟩
  · exact ⟨h1, h2⟩

theorem point_domain {ps m : List Param} (hok : ∀ p ∈ ps, Ok p) (h : InDomain ps m) (sw : List ℚ) (i : Nat) : InDomain ps (point m sw i) := by
  unfold point
  split
  · exact h
  · exact bump_domain hok h _ _

/-- what holds while `getMaxPos` runs -/
structure VInv (eval : List Param → ℚ) (m : List Param) (sw : List ℚ) (fit0 : ℚ) (b : Best) : Prop where
  zero : b.pos = 0 → b.fit = fit0
  some : b.pos ≠ 0 → b.fit = eval (point m sw b.pos) ∧ point m sw b.pos ∈ b.seen ∧ moved m sw b.pos = true ∧ b.pos ≤ 2 * m.length
  le : fit0 ≤ b.fit
  best : ∀ x ∈ b.seen, eval x ≤ b.fit

/-- `getMaxPos` leaves the point out -/
def skips (m : List Param) (sw : List ℚ) (old i : Nat) : Prop := moved m sw i = false ∨ (i % 2 = 0 ∧ i - 1 = old) ∨ (i % 2 ≠ 0 ∧ i + 1 = old)

theorem visit_inv {eval : List Param → ℚ} {m : List Param} {sw : List ℚ} {fit0 : ℚ} {old : Nat} {b : Best} (h : VInv eval m sw fit0 b) {i : Nat} (hi : 0 < i) (hi' : i ≤ 2 * m.length) :
    VInv eval m sw fit0 (visit eval m sw old b i) ∧ b.fit ≤ (visit eval m sw old b i).fit ∧ b.seen ⊆ (visit eval m sw old b i).seen ∧
      (visit eval m sw old b i).seen ⊆ b.seen ++ [point m sw i] ∧ (visit eval m sw old b i).seen.length ≤ b.seen.length + 1 ∧
      (skips m sw old i ∨ eval (point m sw i) ≤ (visit eval m sw old b i).fit) := by
  unfold visit
  by_cases hs : skips m sw old i
  · have hs' := hs
    unfold skips at hs'
    rw [if_pos hs']
    exact ⟨h, le_refl _, fun _ hx => hx, fun _ hx => List.mem_append_left _ hx, Nat.le_succ _, Or.inl hs⟩
  · have hs' := hs
    unfold skips at hs'
    rw [if_neg hs']
    dsimp only
    have hmv : moved m sw i = true := by
      by_contra hc
      exact hs (Or.inl (by simpa using hc))
    split
    · next hf =>
      refine ⟨⟨fun e => by dsimp only at e; omega, fun _ => ⟨rfl, by simp, hmv, hi'⟩, le_trans h.le hf, ?_⟩, hf, fun _ hx => List.mem_append_left _ hx, fun _ hx => hx, by simp, Or.inr (le_refl _)⟩
      intro x hx
      dsimp only at hx
      rcases List.mem_append.1 hx with hx | hx
      · exact le_trans (h.best x hx) hf
      · rw [List.mem_singleton.1 hx]
    · next hf =>
      refine ⟨⟨h.zero, fun hp => ?_, h.le, ?_⟩, le_refl _, fun _ hx => List.mem_append_left _ hx, fun _ hx => hx, by simp, Or.inr (not_le.1 hf).le⟩
      · obtain ⟨a, b', c, d⟩ := h.some hp
        exact ⟨a, List.mem_append_left _ b', c, d⟩
      · intro x hx
        dsimp only at hx
        rcases List.mem_append.1 hx with hx | hx
        · exact h.best x hx
        · rw [List.mem_singleton.1 hx]; exact (not_le.1 hf).le

theorem fold_inv {eval : List Param → ℚ} {m : List Param} {sw : List ℚ} {fit0 : ℚ} {old : Nat} (l : List Nat) (hl : ∀ i ∈ l, 0 < i ∧ i ≤ 2 * m.length) :
    ∀ b, VInv eval m sw fit0 b →
    VInv eval m sw fit0 (l.foldl (visit eval m sw old) b) ∧ b.fit ≤ (l.foldl (visit eval m sw old) b).fit ∧ b.seen ⊆ (l.foldl (visit eval m sw old) b).seen ∧
      (l.foldl (visit eval m sw old) b).seen ⊆ b.seen ++ l.map (point m sw) ∧ (l.foldl (visit eval m sw old) b).seen.length ≤ b.seen.length + l.length ∧
      ∀ i ∈ l, skips m sw old i ∨ eval (point m sw i) ≤ (l.foldl (visit eval m sw old) b).fit := by
  induction l with
  | nil => intro b h; exact ⟨h, le_refl _, fun _ hx => hx, fun _ hx => by simpa using hx, by simp, by simp⟩
  | cons a l ih =>
    intro b h
    obtain ⟨v1, v2, v3, v4, v5, v6⟩ := visit_inv (old := old) h (hl a (by simp)).1 (hl a (by simp)).2
    obtain ⟨w1, w2, w3, w4, w5, w6⟩ := ih (fun i hi => hl i (List.mem_cons_of_mem _ hi)) (visit eval m sw old b a) v1
    refine ⟨w1, le_trans v2 w2, fun x hx => w3 (v3 hx), ?_, ?_, ?_⟩
    · intro x hx
      rcases List.mem_append.1 (w4 hx) with hx | hx
      · rcases List.mem_append.1 (v4 hx) with hx | hx
        · exact List.mem_append_left _ hx
        · rw [List.mem_singleton.1 hx]; simp
      · refine List.mem_append_right _ ?_
        rw [List.map_cons]
        exact List.mem_cons_of_mem _ hx
    · rw [List.length_cons]; simp only [List.foldl_cons]; omega
    · intro i hi
      rcases List.mem_cons.1 hi with rfl | hi
      · exact v6.imp id fun hx => le_trans hx w2
      · exact w6 i hi

theorem maxPos_inv {eval : List Param → ℚ} {m : List Param} {sw : List ℚ} {fit : ℚ} {old : Nat} {seen : List (List Param)} (hb : ∀ x ∈ seen, eval x ≤ fit) :
    VInv eval m sw fit (maxPos eval m sw old fit seen) ∧ seen ⊆ (maxPos eval m sw old fit seen).seen ∧
      (∀ x ∈ (maxPos eval m sw old fit seen).seen, x ∈ seen ∨ ∃ i, x = point m sw i) ∧
      (maxPos eval m sw old fit seen).seen.length ≤ seen.length + 2 * m.length ∧
      ∀ i, 0 < i → i ≤ 2 * m.length → skips m sw old i ∨ eval (point m sw i) ≤ (maxPos eval m sw old fit seen).fit := by
  have hl : ∀ i ∈ (List.range (2 * m.length)).map (· + 1), 0 < i ∧ i ≤ 2 * m.length := by
    intro i hi
    obtain ⟨j, hj, rfl⟩ := List.mem_map.1 hi
    rw [List.mem_range] at hj
    omega
  obtain ⟨v1, v2, v3, v4, v5, v6⟩ := fold_inv (eval := eval) (m := m) (sw := sw) (fit0 := fit) (old := old) _ hl ⟨0, fit, seen⟩
    ⟨fun _ => rfl, fun h => absurd rfl h, le_refl _, hb⟩
  refine ⟨v1, v3, ?_, ?_, ?_⟩
  · intro x hx
    rcases List.mem_append.1 (v4 hx) with hx | hx
    · exact Or.inl hx
    · obtain ⟨i, -, rfl⟩ := List.mem_map.1 hx
      exact Or.inr ⟨i, rfl⟩
  · simpa [maxPos] using v5
  · intro i h0 h1
    refine v6 i (List.mem_map.2 ⟨i - 1, List.mem_range.2 (by omega), by omega⟩)

/-! ## The loop -/

/-- what holds between iterations -/
structure SInv (eval : List Param → ℚ) (ps : List Param) (t : PSt) : Prop where
  mid : t.middle ∈ t.seen
  fit : t.fit = eval t.middle
  best : ∀ x ∈ t.seen, eval x ≤ t.fit
  dom : ∀ x ∈ t.seen, InDomain ps x
  start : ps ∈ t.seen

theorem iter_inv {eval : List Param → ℚ} {ps : List Param} (hok : ∀ p ∈ ps, Ok p) (ms : List ℚ) {t : PSt} (h : SInv eval ps t) :
    SInv eval ps (patIter eval ms t) ∧ (patIter eval ms t).seen.length ≤ t.seen.length + 2 * ps.length := by
  obtain ⟨v, hsub, hdom, hlen, -⟩ := maxPos_inv (eval := eval) (m := t.middle) (sw := t.sw) (fit := t.fit) (old := t.old) h.best
  have hml : t.middle.length = ps.length := (h.dom _ h.mid).1
  rw [hml] at hlen
  have hd : ∀ x ∈ (maxPos eval t.middle t.sw t.old t.fit t.seen).seen, InDomain ps x := by
    intro x hx
    rcases hdom x hx with hx | ⟨i, rfl⟩
    · exact h.dom x hx
    · exact point_domain hok (h.dom _ h.mid) _ _
  unfold patIter
  dsimp only
  split
  · next h0 =>
    have hf : (maxPos eval t.middle t.sw t.old t.fit t.seen).fit = eval t.middle := by rw [v.zero h0, h.fit]
    split <;> exact ⟨⟨hsub h.mid, hf, v.best, hd, hsub h.start⟩, hlen⟩
  · next h0 =>
    obtain ⟨a, b, -, -⟩ := v.some h0
    exact ⟨⟨b, a, v.best, hd, hsub h.start⟩, hlen⟩

theorem loop_inv {eval : List Param → ℚ} {ps : List Param} (hok : ∀ p ∈ ps, Ok p) (ms : List ℚ) (k : Nat) : ∀ t, SInv eval ps t →
    SInv eval ps (patLoop eval ms k t) ∧ (patLoop eval ms k t).seen.length ≤ t.seen.length + k * (2 * ps.length) := by
  induction k with
  | zero => intro t h; exact ⟨h, by simp [patLoop]⟩
  | succ k ih =>
    intro t h
    obtain ⟨h1, h2⟩ := iter_inv hok ms h
    unfold patLoop
    dsimp only
    split
    · refine ⟨h1, ?_⟩
      rw [Nat.succ_mul]; omega
    · obtain ⟨h3, h4⟩ := ih _ h1
      refine ⟨h3, ?_⟩
      rw [Nat.succ_mul]; omega

/-! ## Local optima -/

/-- every parameter lives on a grid, and the smallest step is its spacing -/
def Regular (m : List Param) (ms : List ℚ) : Prop :=
  ms.length = m.length ∧ ∀ (i : Nat) (h : i < m.length) (h' : i < ms.length), Aligned m[i] ∧ ms[i] = m[i].gran

theorem add_gran_same (p : Param) (s : ℚ) : (p.add s).gran = p.gran := by cases p <;> rfl

theorem bump_regular {m : List Param} {ms : List ℚ} (h : Regular m ms) (i : Nat) (s : ℚ) : Regular (bump m i s) ms := by
  refine ⟨by rw [bump_length]; exact h.1, fun k hk hk' => ?_⟩
  have hkm : k < m.length := by rw [← bump_length m i s]; exact hk
  obtain ⟨h1, h2⟩ := h.2 k hkm hk'
  rw [bump_get m i s k hkm]
  split
  · exact ⟨add_aligned h1 s, by rw [add_gran_same]; exact h2⟩
  · exact ⟨h1, h2⟩

theorem point_regular {m : List Param} {ms : List ℚ} (h : Regular m ms) (sw : List ℚ) (i : Nat) : Regular (point m sw i) ms := by
  unfold point
  split
  · exact h
  · exact bump_regular h _ _

/-- sign of the step in point `i` -/
def sgn (i : Nat) : Int := if i % 2 = 1 then 1 else -1

theorem point_eq (m : List Param) (sw : List ℚ) {i : Nat} (hi : 0 < i) : point m sw i = bump m ((i - 1) / 2) (sgn i * sw.getD ((i - 1) / 2) 0) := by
  unfold point sgn
  rw [if_neg (by omega)]
  congr 1
  split <;> push_cast <;> ring

theorem bump_id {m : List Param} {i : Nat} {s : ℚ} (h : ∀ h : i < m.length, m[i].add s = m[i]) : bump m i s = m := by
  refine List.ext_getElem (bump_length _ _ _) fun k hk hk' => ?_
  rw [bump_get m i s k hk']
  split
  · next e => subst e; exact h hk'
  · rfl

/-- neither of the two neighbours which are left out is better -/
theorem skip_le {m : List Param} {ms : List ℚ} (h : Regular m ms) {i : Nat} (hi : 0 < i) (hi' : i ≤ 2 * m.length) (hs : moved m ms i = false) :
    point m ms i = m := by
  have hk : (i - 1) / 2 < m.length := by omega
  unfold moved at hs
  rw [point_eq m ms hi] at hs ⊢
  refine bump_id fun _ => ?_
  obtain ⟨h1, h2⟩ := h.2 _ hk (by rw [h.1]; exact hk)
  have hk' : (i - 1) / 2 < (bump m ((i - 1) / 2) (sgn i * ms.getD ((i - 1) / 2) 0)).length := by rw [bump_length]; exact hk
  rw [List.getElem?_eq_getElem hk, List.getElem?_eq_getElem hk', bump_get _ _ _ _ hk, if_pos rfl] at hs
  simp only [Option.map_some, bne_eq_false_iff_eq, Option.some.injEq] at hs
  exact add_same h1 _ hs.symm

/-- the opposite point leads back -/
theorem point_back {m : List Param} {ms : List ℚ} (h : Regular m ms) {i j : Nat} (hi : 0 < i) (hi' : i ≤ 2 * m.length) (hmv : moved m ms i = true)
    (hj : 0 < j) (hk : (j - 1) / 2 = (i - 1) / 2) (hne : i ≠ j) : point (point m ms i) ms j = m := by
  have hkm : (i - 1) / 2 < m.length := by omega
  have hpar : i % 2 ≠ j % 2 := by omega
  unfold moved at hmv
  rw [point_eq _ ms hj, hk, point_eq m ms hi] at *
  obtain ⟨h1, h2⟩ := h.2 _ hkm (by rw [h.1]; exact hkm)
  have hg : ms.getD ((i - 1) / 2) 0 = m[(i - 1) / 2].gran := by
    rw [List.getD_eq_getElem?_getD, List.getElem?_eq_getElem (by rw [h.1]; exact hkm)]
    exact h2
  rw [hg] at hmv ⊢
  have hsg : sgn j = -sgn i := by
    unfold sgn
    split <;> split <;> omega
  have hd : sgn i = 1 ∨ sgn i = -1 := by unfold sgn; split <;> simp
  have hk' : (i - 1) / 2 < (bump m ((i - 1) / 2) (sgn i * m[(i - 1) / 2].gran)).length := by rw [bump_length]; exact hkm
  rw [List.getElem?_eq_getElem hkm, List.getElem?_eq_getElem hk', bump_get _ _ _ _ hkm, if_pos rfl] at hmv
  simp only [Option.map_some, bne_iff_ne, ne_eq, Option.some.injEq] at hmv
  have hu := add_undo h1 (sgn i) hd (fun e => hmv e.symm)
  refine List.ext_getElem (by rw [bump_length, bump_length]) fun k hk1 hk2 => ?_
  rw [bump_get _ _ _ _ (by rw [bump_length]; exact hk2), bump_get _ _ _ _ hk2]
  split
  · next e =>
    subst e
    rw [hsg]
    exact_mod_cast hu
  · rfl

/-- no step of the smallest size leads to something better -/
def LocalMax (eval : List Param → ℚ) (m : List Param) (ms : List ℚ) (fit : ℚ) : Prop :=
  ∀ (i : Nat) (h : i < ms.length), eval (bump m i ms[i]) ≤ fit ∧ eval (bump m i (-ms[i])) ≤ fit

/-- what the loop knows about step widths and the last move -/
structure LInv (eval : List Param → ℚ) (ms : List ℚ) (t : PSt) : Prop where
  reg : Regular t.middle ms
  swl : t.sw.length = ms.length
  sw : ∀ (i : Nat) (h : i < ms.length) (h' : i < t.sw.length), ms[i] ≤ t.sw[i]
  fit : t.fit = eval t.middle
  best : ∀ x ∈ t.seen, eval x ≤ t.fit
  old : t.old ≠ 0 → ∃ q, Regular q ms ∧ t.middle = point q t.sw t.old ∧ moved q t.sw t.old = true ∧ eval q ≤ t.fit ∧ t.old ≤ 2 * q.length

theorem reduce1_ge (s m : ℚ) : m ≤ reduce1 s m := by
  unfold reduce1
  split
  · exact le_refl _
  · split
    · exact le_refl _
    · linarith

theorem reduceSW_stop {sw ms : List ℚ} (hl : sw.length = ms.length) (h : ∀ (i : Nat) (h : i < ms.length) (h' : i < sw.length), ms[i] ≤ sw[i]) (hs : (reduceSW sw ms).2 = false) : sw = ms := by
  refine List.ext_getElem hl fun i h1 h2 => le_antisymm ?_ (h i h2 h1)
  unfold reduceSW at hs
  rw [List.any_eq_false] at hs
  have hlz : i < (List.zipWith (fun s m : ℚ => decide (m < s)) sw ms).length := by rw [List.length_zipWith]; omega
  have := hs _ (List.getElem_mem hlz)
  rw [List.getElem_zipWith] at this
  simpa using this

theorem iter_linv {eval : List Param → ℚ} {ms : List ℚ} {t : PSt} (h : LInv eval ms t) :
    LInv eval ms (patIter eval ms t) ∧ ((patIter eval ms t).done = true → t.done = false → LocalMax eval (patIter eval ms t).middle ms (patIter eval ms t).fit) := by
  obtain ⟨v, -, -, -, hall⟩ := maxPos_inv (eval := eval) (m := t.middle) (sw := t.sw) (fit := t.fit) (old := t.old) h.best
  have hred : ∀ (i : Nat) (h : i < ms.length) (h' : i < (reduceSW t.sw ms).1.length), ms[i] ≤ (reduceSW t.sw ms).1[i] := by
    intro i hi hi'
    simp only [reduceSW, List.getElem_zipWith]
    exact reduce1_ge _ _
  have hredl : (reduceSW t.sw ms).1.length = ms.length := by
    simp only [reduceSW, List.length_zipWith, h.swl, Nat.min_self]
  unfold patIter
  dsimp only
  split
  · next h0 =>
    have hf : (maxPos eval t.middle t.sw t.old t.fit t.seen).fit = eval t.middle := by rw [v.zero h0, h.fit]
    split
    · exact ⟨⟨h.reg, hredl, hred, hf, v.best, fun h => absurd rfl h⟩, fun hd hd' => by dsimp only at hd; rw [hd'] at hd; cases hd⟩
    · next hs =>
      refine ⟨⟨h.reg, hredl, hred, hf, v.best, fun h => absurd rfl h⟩, fun _ _ => ?_⟩
      have hsw : t.sw = ms := reduceSW_stop h.swl h.sw (by simpa using hs)
      dsimp only
      rw [v.zero h0]
      rw [v.zero h0] at hall
      rw [hsw] at hall
      have key : ∀ i, 0 < i → i ≤ 2 * t.middle.length → eval (point t.middle ms i) ≤ t.fit := by
        intro i hi hi'
        rcases hall i hi hi' with hs | hs
        · rcases hs with hs | hs
          · rw [skip_le h.reg hi hi' hs, h.fit]
          · have ho : t.old ≠ 0 := by omega
            obtain ⟨q, q1, q2, q3, q4, q5⟩ := h.old ho
            rw [hsw] at q2 q3
            rw [q2, point_back q1 (by omega) q5 q3 hi (by omega) (by omega)]
            exact q4
        · exact hs
      intro i hi
      have him : i < t.middle.length := by rw [← h.reg.1]; exact hi
      have hg : ms.getD i 0 = ms[i] := by simp [hi]
      constructor
      · have := key (2 * i + 1) (by omega) (by omega)
        rw [point_eq _ _ (by omega)] at this
        have e1 : (2 * i + 1 - 1) / 2 = i := by omega
        have e2 : sgn (2 * i + 1) = 1 := by unfold sgn; rw [if_pos (by omega)]
        rw [e1, e2, hg] at this
        simpa using this
      · have := key (2 * i + 2) (by omega) (by omega)
        rw [point_eq _ _ (by omega)] at this
        have e1 : (2 * i + 2 - 1) / 2 = i := by omega
        have e2 : sgn (2 * i + 2) = -1 := by unfold sgn; rw [if_neg (by omega)]
        rw [e1, e2, hg] at this
        simpa using this
  · next h0 =>
    obtain ⟨a, b, c, d⟩ := v.some h0
    refine ⟨⟨point_regular h.reg _ _, h.swl, h.sw, a, v.best, fun _ => ⟨t.middle, h.reg, rfl, c, ?_, d⟩⟩, fun hd hd' => by dsimp only at hd; rw [hd'] at hd; cases hd⟩
    rw [← h.fit]
    exact v.le

theorem loop_local {eval : List Param → ℚ} {ms : List ℚ} (k : Nat) : ∀ t, LInv eval ms t → t.done = false → (patLoop eval ms k t).done = true → LocalMax eval (patLoop eval ms k t).middle ms (patLoop eval ms k t).fit := by
  induction k with
  | zero => intro t _ hd hd'; rw [patLoop] at hd'; rw [hd] at hd'; cases hd'
  | succ k ih =>
    intro t h hd
    obtain ⟨h1, h2⟩ := iter_linv h
    unfold patLoop
    dsimp only
    by_cases hc : (patIter eval ms t).done = true
    · rw [if_pos hc]
      exact fun _ => h2 hc hd
    · rw [if_neg hc]
      exact ih _ h1 (by simpa using hc)

/-! ## The end -/

/-- values above the current one -/
def above (F : Finset ℚ) (f : ℚ) : Nat := (F.filter (f < ·)).card

theorem above_lt {F : Finset ℚ} {f g : ℚ} (h : f < g) (hg : g ∈ F) : above F g < above F f := by
  refine Finset.card_lt_card ((Finset.ssubset_iff_of_subset ?_).2 ⟨g, ?_, ?_⟩)
  · intro x hx
    rw [Finset.mem_filter] at hx ⊢
    exact ⟨hx.1, lt_trans h hx.2⟩
  · rw [Finset.mem_filter]; exact ⟨hg, h⟩
  · rw [Finset.mem_filter]; exact fun hx => lt_irrefl _ hx.2

theorem moved_ne {m : List Param} {sw : List ℚ} {i : Nat} (h : moved m sw i = true) : point m sw i ≠ m := by
  intro e
  unfold moved at h
  rw [e] at h
  simp at h

/-- how often step widths can be halved -/
def Halvings (sw ms : List ℚ) (K : Nat) : Prop := ∀ (i : Nat) (h : i < ms.length) (h' : i < sw.length), sw[i] ≤ 2 ^ K * ms[i]

theorem halvings_stop {sw ms : List ℚ} (h : Halvings sw ms 0) : (reduceSW sw ms).2 = false := by
  unfold reduceSW
  rw [List.any_eq_false]
  intro b hb
  obtain ⟨i, hi, rfl⟩ := List.mem_iff_getElem.1 hb
  rw [List.length_zipWith] at hi
  rw [List.getElem_zipWith]
  have := h i (by omega) (by omega)
  simpa using this

theorem halvings_step {sw ms : List ℚ} {K : Nat} (hms : ∀ m ∈ ms, 0 < m) (h : Halvings sw ms (K + 1)) : Halvings (reduceSW sw ms).1 ms K := by
  intro i hi hi'
  simp only [reduceSW, List.length_zipWith] at hi'
  simp only [reduceSW, List.getElem_zipWith]
  have h1 := h i hi (by omega)
  have hp := hms _ (List.getElem_mem hi)
  have h2 : (1 : ℚ) ≤ 2 ^ K := one_le_pow₀ (by norm_num)
  have h3 : ms[i] ≤ 2 ^ K * ms[i] := by
    have := mul_le_mul_of_nonneg_right h2 hp.le
    linarith
  rw [pow_succ] at h1
  unfold reduce1
  split
  · exact h3
  · split
    · exact h3
    · linarith

theorem loop_ends {eval : List Param → ℚ} {ps : List Param} (hok : ∀ p ∈ ps, Ok p) {ms : List ℚ} (hms : ∀ m ∈ ms, 0 < m) {F : Finset ℚ}
    {P : List Param → Prop} (hP : ∀ x i s, P x → P (bump x i s)) (hF : ∀ x, P x → eval x ∈ F) (hne : ∀ x, P x → ∀ i s, bump x i s ≠ x → eval (bump x i s) ≠ eval x) (k : Nat) :
    ∀ t K, SInv eval ps t → P t.middle → Halvings t.sw ms K → above F t.fit + K < k → (patLoop eval ms k t).done = true := by
  induction k with
  | zero => intro t K _ _ _ h; omega
  | succ k ih =>
    intro t K h hPm hK hk
    have h1 := (iter_inv hok ms h).1
    unfold patLoop
    dsimp only
    by_cases hc : (patIter eval ms t).done = true
    · rw [if_pos hc]; exact hc
    · rw [if_neg hc]
      obtain ⟨v, -⟩ := maxPos_inv (eval := eval) (m := t.middle) (sw := t.sw) (fit := t.fit) (old := t.old) h.best
      by_cases h0 : (maxPos eval t.middle t.sw t.old t.fit t.seen).pos = 0
      · by_cases hr : (reduceSW t.sw ms).2 = true
        · have e : patIter eval ms t = { t with sw := (reduceSW t.sw ms).1, old := 0, fit := (maxPos eval t.middle t.sw t.old t.fit t.seen).fit, seen := (maxPos eval t.middle t.sw t.old t.fit t.seen).seen } := by
            unfold patIter; simp [h0, hr]
          cases K with
          | zero => rw [halvings_stop hK] at hr; cases hr
          | succ K =>
            refine ih _ K h1 (by rw [e]; exact hPm) ?_ ?_
            · rw [e]; exact halvings_step hms hK
            · rw [e]; dsimp only; rw [v.zero h0]; omega
        · exfalso
          apply hc
          unfold patIter; simp [h0, hr]
      · have e : patIter eval ms t = { t with middle := point t.middle t.sw (maxPos eval t.middle t.sw t.old t.fit t.seen).pos, old := (maxPos eval t.middle t.sw t.old t.fit t.seen).pos, fit := (maxPos eval t.middle t.sw t.old t.fit t.seen).fit, seen := (maxPos eval t.middle t.sw t.old t.fit t.seen).seen } := by
          unfold patIter; simp [h0]
        have hPp : ∀ i, P (point t.middle t.sw i) := by
          intro i
          unfold point
          split
          · exact hPm
          · exact hP _ _ _ hPm
        refine ih _ K h1 (by rw [e]; exact hPp _) ?_ ?_
        · rw [e]; exact hK
        · obtain ⟨a, b, c, d⟩ := v.some h0
          have hlt : t.fit < (maxPos eval t.middle t.sw t.old t.fit t.seen).fit := by
            refine lt_of_le_of_ne v.le ?_
            have hm := moved_ne c
            rw [point_eq _ _ (by omega)] at hm a
            rw [a]
            intro hh
            rw [h.fit] at hh
            refine hne _ hPm _ _ hm ?_
            rw [← a, ← h.fit]
            rw [← h.fit, ← a] at hh
            exact hh.symm
          have hin : (maxPos eval t.middle t.sw t.old t.fit t.seen).fit ∈ F := by
            rw [a]; exact hF _ (hPp _)
          have := above_lt hlt hin
          rw [e]
          dsimp only
          omega

end LGD.Tune
