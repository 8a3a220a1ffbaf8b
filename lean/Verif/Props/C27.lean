import Verif.Step.AdapterModel
import Mathlib.Tactic.Ring
import Mathlib.Tactic.Linarith

/-!
# C27: writers are called at the right steps

`due` says which call belongs to a nano step: none within a time step, `ALL_DONE` at the last step, `INITIALIZED` at
the first one, and a regular call at the multiples of the period in between. If first and last step coincide, there
is only the `ALL_DONE` call.
-/

namespace LGD.C27
open LGD.Patch LGD.Adapter

variable {γ : Type}

/-- the call that belongs to nano step `s` -/
def due (nanoSteps period first last s : Nat) : Option (Nat × Event) :=
  if s % nanoSteps ≠ 0 then none
  else if s / nanoSteps = last then some (last, .allDone)
  else if s / nanoSteps = first then some (first, .initialized)
  else if first < s / nanoSteps ∧ s / nanoSteps < last ∧ period ∣ s / nanoSteps then some (s / nanoSteps, .regular)
  else none

/-- `x` is the next multiple of the stride, seen from `n` -/
def Pend (stride n x : Nat) : Prop := stride ∣ x ∧ n ≤ x ∧ x < n + stride

theorem pend_next {stride s : Nat} (h : 0 < stride) : Pend stride (s + 1) (s + stride - (s + stride) % stride) := by
  have h1 := Nat.mod_lt (s + stride) h
  refine ⟨Nat.dvd_sub_mod _, by omega, by omega⟩

theorem pend_unique {stride n x y : Nat} (hx : Pend stride n x) (hy : Pend stride n y) : x = y := by
  obtain ⟨⟨a, rfl⟩, h1, h2⟩ := hx
  obtain ⟨⟨b, rfl⟩, h3, h4⟩ := hy
  have : a = b := by
    rcases Nat.lt_trichotomy a b with h | h | h
    · have := Nat.mul_le_mul_left stride (Nat.succ_le_of_lt h)
      rw [Nat.mul_succ] at this; omega
    · exact h
    · have := Nat.mul_le_mul_left stride (Nat.succ_le_of_lt h)
      rw [Nat.mul_succ] at this; omega
  rw [this]

theorem pend_step {stride n x : Nat} (h : Pend stride n x) (hn : x ≠ n) : Pend stride (n + 1) x := by
  obtain ⟨h1, h2, h3⟩ := h
  exact ⟨h1, by omega, by omega⟩

/-- the pending requests before nano step `n` -/
def ReqInv (stride fN lN n : Nat) (l : List Nat) : Prop :=
  if n ≤ fN then n = fN ∧ l = setInsert lN [fN]
  else if n ≤ lN then ∃ x, Pend stride n x ∧ l = setInsert lN [x]
  else ∃ x, stride ∣ x ∧ lN < x ∧ l = [x]

/-- invariant of the adapter before nano step `n` -/
structure WInv (N period first last : Nat) (lc : Bool) (n : Nat) (a : WAd γ) : Prop where
  firstNano : a.firstNano = first * N
  lastNano : a.lastNano = last * N
  stride : a.stride = period * N
  lastCall : a.lastCall = lc
  req : ReqInv (period * N) (first * N) (last * N) n a.req

theorem setInsert_pair (a b : Nat) : setInsert a [b] = if a < b then [a, b] else if a = b then [b] else [b, a] := by
  simp [setInsert]

theorem due_none_of {N period first last s : Nat} (hN : 0 < N) (h1 : s ≠ first * N) (h2 : s ≠ last * N)
    (h3 : first * N < s → s < last * N → ¬ (period * N) ∣ s) : due N period first last s = none := by
  unfold due
  split
  · rfl
  · rename_i hm
    have hm : s % N = 0 := by simpa using hm
    have e : s / N * N = s := Nat.div_mul_cancel (Nat.dvd_of_mod_eq_zero hm)
    rw [if_neg (by intro hx; rw [hx] at e; exact h2 e.symm), if_neg (by intro hx; rw [hx] at e; exact h1 e.symm), if_neg]
    rintro ⟨a, b, c⟩
    refine h3 ?_ ?_ ?_
    · rw [← e]; exact Nat.mul_lt_mul_of_pos_right a hN
    · rw [← e]; exact Nat.mul_lt_mul_of_pos_right b hN
    · rw [← e]; exact Nat.mul_dvd_mul_right c N

theorem due_last {N period first last : Nat} (hN : 0 < N) : due N period first last (last * N) = some (last, .allDone) := by
  unfold due
  rw [if_neg (by simp), if_pos (Nat.mul_div_cancel _ hN)]

theorem due_first {N period first last : Nat} (hN : 0 < N) (h : first ≠ last) :
    due N period first last (first * N) = some (first, .initialized) := by
  unfold due
  rw [if_neg (by simp), Nat.mul_div_cancel _ hN, if_neg h, if_pos rfl]

theorem due_mid {N period first last s : Nat} (hN : 0 < N) (h1 : first * N < s) (h2 : s < last * N) (h3 : (period * N) ∣ s) :
    due N period first last s = some (s / N, .regular) := by
  obtain ⟨k, rfl⟩ := h3
  have e : period * N * k = (period * k) * N := by ring
  rw [e] at h1 h2
  rw [e]
  unfold due
  have h1' : first < period * k := Nat.lt_of_mul_lt_mul_right h1
  have h2' : period * k < last := Nat.lt_of_mul_lt_mul_right h2
  rw [if_neg (by simp), Nat.mul_div_cancel _ hN, if_neg (by omega), if_neg (by omega), if_pos ⟨h1', h2', Nat.dvd_mul_right _ _⟩]

/-- what happens to the pending requests at nano step `n` -/
theorem reqInv_step {stride fN lN n : Nat} {l : List Nat} (hs : 0 < stride) (hf : fN ≤ lN) (h : ReqInv stride fN lN n l) (inf : Nat) :
    (n = nextNanoStep inf l ∧ n ≤ lN ∧ checkNanoStepPut l n = some true ∧ l.erase n = l.tail ∧
        (n = fN ∨ n = lN ∨ (fN < n ∧ n < lN ∧ stride ∣ n)) ∧
        ReqInv stride fN lN (n + 1) (setInsert (n + stride - (n + stride) % stride) l.tail)) ∨
      (n = nextNanoStep inf l ∧ lN < n ∧ stride ∣ n ∧ checkNanoStepPut l n = some true ∧ ReqInv stride fN lN (n + 1) l) ∨
      (n ≠ nextNanoStep inf l ∧ n ≠ fN ∧ n ≠ lN ∧ (fN < n → n < lN → ¬ stride ∣ n) ∧ ReqInv stride fN lN (n + 1) l) := by
  have hp := pend_next (s := n) hs
  set x' := n + stride - (n + stride) % stride with hx'
  have hgt : n < x' := hp.2.1
  unfold ReqInv at h
  split at h
  · -- first nano step
    obtain ⟨rfl, rfl⟩ := h
    left
    rw [setInsert_pair]
    by_cases e : lN = n
    · subst e
      rw [if_neg (lt_irrefl _), if_pos rfl]
      refine ⟨rfl, le_refl _, by simp [checkNanoStepPut], by simp, Or.inl rfl, ?_⟩
      unfold ReqInv
      rw [if_neg (by omega), if_neg (by omega)]
      exact ⟨x', hp.1, hgt, by simp [setInsert]⟩
    · rw [if_neg (by omega), if_neg e]
      refine ⟨rfl, hf, by simp [checkNanoStepPut], by simp, Or.inl rfl, ?_⟩
      unfold ReqInv
      rw [if_neg (by omega), if_pos (by omega)]
      refine ⟨x', hp, ?_⟩
      simp only [List.tail_cons]
      rw [setInsert_pair, setInsert_pair]
      split_ifs <;> first | rfl | omega | (simp; omega)
  · split at h
    · obtain ⟨x, hx, rfl⟩ := h
      rename_i hfn hln
      rw [setInsert_pair]
      by_cases e1 : n = lN
      · -- last nano step
        left
        subst e1
        by_cases e2 : n = x
        · subst e2
          rw [if_neg (lt_irrefl _), if_pos rfl]
          refine ⟨rfl, le_refl _, by simp [checkNanoStepPut], by simp, Or.inr (Or.inl rfl), ?_⟩
          unfold ReqInv
          rw [if_neg (by omega), if_neg (by omega)]
          exact ⟨x', hp.1, hgt, by simp [setInsert]⟩
        · have hlt : n < x := by have := hx.2.1; omega
          rw [if_pos hlt]
          refine ⟨rfl, le_refl _, by simp [checkNanoStepPut], by simp, Or.inr (Or.inl rfl), ?_⟩
          have e3 : x' = x := pend_unique hp (pend_step hx (Ne.symm e2))
          unfold ReqInv
          rw [if_neg (by omega), if_neg (by omega)]
          refine ⟨x, hx.1, hlt, ?_⟩
          rw [e3]
          simp [setInsert]
      · by_cases e2 : n = x
        · left
          subst e2
          rw [if_neg (by omega), if_neg (by omega)]
          refine ⟨rfl, hln, by simp [checkNanoStepPut], by simp, Or.inr (Or.inr ⟨by omega, by omega, hx.1⟩), ?_⟩
          unfold ReqInv
          rw [if_neg (by omega), if_pos (by omega)]
          refine ⟨x', hp, ?_⟩
          simp only [List.tail_cons]
          rw [setInsert_pair, setInsert_pair]
          split_ifs <;> first | rfl | omega | (simp; omega)
        · right; right
          have hxn := hx.2.1
          refine ⟨?_, by omega, e1, ?_, ?_⟩
          · split_ifs <;> simp only [nextNanoStep] <;> omega
          · intro _ _ hd
            exact e2 (pend_unique ⟨hd, le_refl _, by omega⟩ hx)
          · unfold ReqInv
            rw [if_neg (by omega), if_pos (by omega)]
            exact ⟨x, pend_step hx (Ne.symm e2), by rw [setInsert_pair]⟩
    · obtain ⟨x, hd, hx, rfl⟩ := h
      rename_i hfn hln
      right
      have hnext : ReqInv stride fN lN (n + 1) [x] := by
        unfold ReqInv
        rw [if_neg (by omega), if_neg (by omega)]
        exact ⟨x, hd, hx, rfl⟩
      by_cases e : n = x
      · left
        subst e
        exact ⟨rfl, by omega, hd, by simp [checkNanoStepPut], hnext⟩
      · right
        exact ⟨by simpa [nextNanoStep] using e, by omega, by omega, by intros; omega, hnext⟩

theorem reqInv_past {stride fN lN n : Nat} {l : List Nat} (hf : fN ≤ lN) (h : ReqInv stride fN lN n l) (inf m : Nat) (hm : m < n)
    (hn : n ≤ lN + 1) : m ≠ nextNanoStep inf l := by
  unfold ReqInv at h
  split at h
  · obtain ⟨rfl, rfl⟩ := h
    rw [setInsert_pair]
    split_ifs <;> simp only [nextNanoStep] <;> omega
  · split at h
    · obtain ⟨x, hx, rfl⟩ := h
      have := hx.2.1
      rw [setInsert_pair]
      split_ifs <;> simp only [nextNanoStep] <;> omega
    · obtain ⟨x, hd, hx, rfl⟩ := h
      simp only [nextNanoStep]
      omega

variable {N period first last : Nat} {lc : Bool}

theorem eventAt_due (hN : 0 < N) {n : Nat}
    (h : n = first * N ∨ n = last * N ∨ (first * N < n ∧ n < last * N ∧ (period * N) ∣ n)) :
    due N period first last n = some (n / N, eventAt (first * N) (last * N) n) := by
  unfold eventAt
  by_cases e : n = last * N
  · subst e
    rw [due_last hN, if_pos rfl, Nat.mul_div_cancel _ hN]
  · rw [if_neg e]
    by_cases e2 : n = first * N
    · subst e2
      have : first ≠ last := by rintro rfl; exact e rfl
      rw [due_first hN this, if_pos rfl, Nat.mul_div_cancel _ hN]
    · rw [if_neg e2]
      rcases h with h | h | h
      · exact absurd h e2
      · exact absurd h e
      · exact due_mid hN h.1 h.2.1 h.2.2

theorem due_after (hN : 0 < N) (hfl : first ≤ last) {n : Nat} (h : last * N < n) : due N period first last n = none := by
  have := Nat.mul_le_mul_right N hfl
  exact due_none_of hN (by omega) (by omega) (by intros; omega)

theorem notify_at (hN : 0 < N) (hper : 0 < period) (hfl : first ≤ last) (inf n : Nat) (g : γ) (a : WAd γ)
    (h : WInv N period first last lc n a) :
    ∃ a', a.notify N inf (n, g) = some a' ∧ WInv N period first last lc (n + 1) a' ∧
      a'.calls = a.calls ++ ((due N period first last n).map fun p => (⟨p.1, p.2, lc, g⟩ : Call γ)).toList := by
  have hst : 0 < period * N := Nat.mul_pos hper hN
  have hfl' := Nat.mul_le_mul_right N hfl
  obtain ⟨h1, h2, h3, h4, h5⟩ := h
  rcases reqInv_step hst hfl' h5 inf with ⟨e1, e2, e3, -, e4, e5⟩ | ⟨e1, e2, -, e3, e4⟩ | ⟨e1, e2, e3, e4, e5⟩
  · refine ⟨{ a with
        calls := a.calls ++ [⟨n / N, eventAt a.firstNano a.lastNano n, a.lastCall, g⟩]
        req := setInsert (n + period * N - (n + period * N) % (period * N)) a.req.tail }, ?_, ⟨h1, h2, h3, h4, e5⟩, ?_⟩
    · unfold WAd.notify
      rw [if_pos e1]
      unfold WAd.put
      simp only [e3]
      rw [if_neg (by omega), h3]
    · rw [eventAt_due hN e4]
      simp [h1, h2, h4]
  · refine ⟨a, ?_, ⟨h1, h2, h3, h4, e4⟩, ?_⟩
    · unfold WAd.notify
      rw [if_pos e1]
      unfold WAd.put
      simp only [e3]
      rw [if_pos (by omega)]
    · rw [due_after hN hfl e2]; simp
  · refine ⟨a, ?_, ⟨h1, h2, h3, h4, e5⟩, ?_⟩
    · unfold WAd.notify
      rw [if_neg e1]
    · rw [due_none_of hN e2 e3 e4]; simp

theorem make_inv (hfl : first ≤ last) : WInv N period first last lc (first * N) (WAd.make N period first last lc : WAd γ) := by
  refine ⟨rfl, rfl, rfl, rfl, ?_⟩
  unfold ReqInv
  rw [if_pos (le_refl _)]
  exact ⟨rfl, rfl⟩

theorem run_inv (hN : 0 < N) (hper : 0 < period) (hfl : first ≤ last) (inf : Nat) (l : List (Nat × γ)) :
    ∀ (n : Nat) (a : WAd γ), WInv N period first last lc n a → l.map (·.1) = (List.range l.length).map (n + ·) →
    ∃ a', WAd.run N inf a l = some a' ∧ WInv N period first last lc (n + l.length) a' ∧
      a'.calls = a.calls ++ l.filterMap fun p => (due N period first last p.1).map fun q => (⟨q.1, q.2, lc, p.2⟩ : Call γ) := by
  induction l with
  | nil => intro n a h _; exact ⟨a, rfl, h, by simp⟩
  | cons p l ih =>
    intro n a h hl
    rw [List.length_cons, List.range_succ_eq_map, List.map_cons, List.map_cons, List.map_map] at hl
    injection hl with hl1 hl2
    rw [Nat.add_zero] at hl1
    obtain ⟨m, g⟩ := p
    simp only at hl1
    subst hl1
    obtain ⟨a1, e1, i1, c1⟩ := notify_at hN hper hfl inf m g a h
    have hl3 : l.map (·.1) = (List.range l.length).map (m + 1 + ·) := by
      rw [hl2]
      apply List.map_congr_left
      intro x _
      simp only [Function.comp, Nat.succ_eq_add_one]
      omega
    obtain ⟨a2, e2, i2, c2⟩ := ih (m + 1) a1 i1 hl3
    refine ⟨a2, ?_, ?_, ?_⟩
    · unfold WAd.run
      rw [e1]
      exact e2
    · rw [List.length_cons]
      have : m + (l.length + 1) = m + 1 + l.length := by omega
      rw [this]; exact i2
    · rw [c2, c1, List.append_assoc]
      congr 1
      simp only [List.filterMap_cons]
      cases due N period first last m <;> simp

/-- **C27**: if an adapter is notified about the nano steps `first * NANO_STEPS, first * NANO_STEPS + 1, …` (which C26
proves of the stepper, for rim and kernel each), then no exception is thrown and the writer gets exactly the calls
that are due, in this order, with the right step number, event and grid. -/
theorem writer_calls (hN : 0 < N) (hper : 0 < period) (hfl : first ≤ last) (inf : Nat) (l : List (Nat × γ))
    (hl : l.map (·.1) = (List.range l.length).map (first * N + ·)) :
    ∃ a, WAd.run N inf (WAd.make N period first last lc) l = some a ∧
      a.calls = l.filterMap fun p => (due N period first last p.1).map fun q => (⟨q.1, q.2, lc, p.2⟩ : Call γ) := by
  obtain ⟨a, h1, -, h3⟩ := run_inv hN hper hfl inf l (first * N) (WAd.make N period first last lc) (make_inv hfl) hl
  exact ⟨a, h1, by simpa [WAd.make] using h3⟩

/-- A simulation that starts after its last step never calls the writer. -/
theorem writer_silent (hfl : last * N < first * N) (inf : Nat) (l : List (Nat × γ))
    (hl : ∀ p ∈ l, first * N ≤ p.1) :
    WAd.run N inf (WAd.make N period first last lc) l = some (WAd.make N period first last lc) := by
  induction l with
  | nil => rfl
  | cons p l ih =>
    unfold WAd.run
    have h1 := hl p (List.mem_cons_self)
    have : WAd.notify N inf (WAd.make N period first last lc : WAd γ) p = some (WAd.make N period first last lc) := by
      unfold WAd.notify
      rw [if_neg]
      have : (WAd.make N period first last lc : WAd γ).req = [last * N, first * N] := by
        unfold WAd.make
        simp [setInsert, hfl]
      rw [this]
      simp only [nextNanoStep]
      omega
    rw [this]
    exact ih (fun q hq => hl q (List.mem_cons_of_mem _ hq))

/-- start step 3, end 11, period 4, two nano steps per step: calls at 3, 4, 8, 11 -/
example : (List.range 30).filterMap (fun i => due 2 4 3 11 (6 + i)) =
    [(3, .initialized), (4, .regular), (8, .regular), (11, .allDone)] := by decide +kernel

/-- such notifications exist -/
example : ∃ a : WAd Nat, WAd.run 2 1000 (WAd.make 2 4 3 11 true) ((List.range 30).map fun i => (6 + i, 6 + i)) = some a ∧
    a.calls.map (fun c => (c.step, c.event, c.arg)) = [(3, .initialized, 6), (4, .regular, 8), (8, .regular, 16), (11, .allDone, 22)] := by
  obtain ⟨a, h1, h2⟩ := writer_calls (N := 2) (period := 4) (first := 3) (last := 11) (lc := true) (by decide) (by decide) (by decide)
    1000 ((List.range 30).map fun i => (6 + i, 6 + i)) (by decide +kernel)
  refine ⟨a, h1, ?_⟩
  rw [h2]
  decide +kernel

end LGD.C27
