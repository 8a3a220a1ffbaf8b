import Verif.Props.C27

/-!
# C28: steerers are called at the right steps

Specification as for writers (`C27.due`). A stepper may notify a provider about the same nano step more than once
(`initGrids` and `updateGhost` both do for the first one), so notifications are only required not to leave a gap.
-/

namespace LGD.C28
open LGD.Patch LGD.Adapter LGD.C27

variable {γ : Type}

/-- The sequence visits the nano steps `a, a + 1, …, b - 1` in this order, but may also return to earlier ones. -/
inductive Covers : Nat → Nat → List Nat → Prop where
  | nil (a : Nat) : Covers a a []
  | next {a b : Nat} {l : List Nat} : Covers (a + 1) b l → Covers a b (a :: l)
  | again {a b m : Nat} {l : List Nat} : m < a → Covers a b l → Covers a b (m :: l)

/-- invariant of the adapter before nano step `n` -/
structure SInv (N period first last : Nat) (lc : Bool) (n : Nat) (a : SAd γ) : Prop where
  firstNano : a.firstNano = first * N
  lastNano : a.lastNano = last * N
  per : a.period = period
  lastCall : a.lastCall = lc
  req : n ≠ first * N → ReqInv (period * N) (first * N) (last * N) n a.stored
  init : n = first * N →
    a.stored = setInsert (last * N) (setInsert ((first + period - first % period) * N) (setInsert (first * N) []))
  start : first * N ≤ n

variable {N period first last : Nat} {lc : Bool}

theorem make_inv : SInv N period first last lc (first * N) (SAd.make N period first last lc : SAd γ) :=
  ⟨rfl, rfl, rfl, rfl, fun h => absurd rfl h, fun _ => rfl, le_refl _⟩

theorem first_regular (hN : 0 < N) (hper : 0 < period) :
    Pend (period * N) (first * N + 1) ((first + period - first % period) * N) := by
  have h1 := Nat.mod_lt first hper
  have h2 : first % period ≤ first := Nat.mod_le _ _
  obtain ⟨k, hk⟩ : period ∣ first - first % period := Nat.dvd_sub_mod _
  have e : first + period - first % period = first - first % period + period := by omega
  rw [e, hk]
  have hk' : first = period * k + first % period := by omega
  set r := first % period
  refine ⟨⟨k + 1, by ring⟩, ?_, ?_⟩
  · rw [hk']
    have : (period * k + period) * N = (period * k + r) * N + (period - r) * N := by
      rw [← Nat.add_mul]; congr 1; omega
    have : 0 < (period - r) * N := Nat.mul_pos (by omega) hN
    omega
  · have h3 : period * k ≤ first := by omega
    have : (period * k + period) * N = period * k * N + period * N := Nat.add_mul _ _ _
    have := Nat.mul_le_mul_right N h3
    omega

/-- the first call -/
theorem notify_first (hN : 0 < N) (hper : 0 < period) (hfl : first ≤ last) (inf : Nat) (g : γ) (a : SAd γ)
    (h : SInv N period first last lc (first * N) a) :
    ∃ a', a.notify N inf (first * N, g) = some a' ∧ SInv N period first last lc (first * N + 1) a' ∧
      a'.calls = a.calls ++ ((due N period first last (first * N)).map fun p => (⟨p.1, p.2, lc, g⟩ : Call γ)).toList := by
  obtain ⟨h1, h2, h3, h4, -, h6, -⟩ := h
  have h6 := h6 rfl
  have hst : 0 < period * N := Nat.mul_pos hper hN
  have hfl' := Nat.mul_le_mul_right N hfl
  have hR := first_regular (first := first) hN hper
  have hp := pend_next (s := first * N) hst
  have eR := pend_unique hp hR
  set R := (first + period - first % period) * N with hRdef
  have hgt : first * N < R := hR.2.1
  have e1 : setInsert R (setInsert (first * N) []) = [first * N, R] := by
    simp [setInsert, Nat.not_lt_of_gt hgt, Nat.ne_of_gt hgt]
  rw [e1] at h6
  have e2 : setInsert (last * N) [first * N, R] = if last * N = first * N then [first * N, R] else first * N :: setInsert (last * N) [R] := by
    rw [show setInsert (last * N) [first * N, R] = if last * N < first * N then last * N :: first * N :: [R] else if last * N = first * N then first * N :: [R] else first * N :: setInsert (last * N) [R] from rfl,
      if_neg (by omega)]
  have hnext : nextNanoStep inf a.stored = first * N := by
    rw [h6, e2]; split <;> rfl
  have herase : a.stored.erase (first * N) = if last * N = first * N then [R] else setInsert (last * N) [R] := by
    rw [h6, e2]; split <;> simp
  have hev : ¬ (eventAt (first * N) (last * N) (first * N) = .regular ∧ first * N / N % period ≠ 0) := by
    rintro ⟨x, -⟩
    unfold eventAt at x
    split_ifs at x
    exact absurd rfl ‹¬ first * N = first * N›
  refine ⟨{ a with
      calls := a.calls ++ [⟨first * N / N, eventAt a.firstNano a.lastNano (first * N), a.lastCall, g⟩]
      stored := setInsert R (a.stored.erase (first * N)) }, ?_, ⟨h1, h2, h3, h4, ?_, ?_, ?_⟩, ?_⟩
  · unfold SAd.notify
    rw [if_pos hnext.symm]
    unfold SAd.get
    simp only
    rw [if_neg (by simp), if_neg (by omega), h1, h2, h3, if_neg hev, Nat.mul_comm N period, eR]
  · intro _
    simp only
    rw [herase]
    unfold ReqInv
    rw [if_neg (by omega)]
    by_cases e : last * N = first * N
    · rw [if_pos e, if_neg (by omega)]
      exact ⟨R, hR.1, by omega, by simp [setInsert]⟩
    · rw [if_neg e, if_pos (by omega)]
      refine ⟨R, hR, ?_⟩
      rw [setInsert_pair]
      split_ifs with x y
      · simp only [setInsert]
        rw [if_neg (by omega), if_neg (by omega)]; simp
      · simp [setInsert]
      · simp [setInsert]
  · intro x; omega
  · omega
  · rw [eventAt_due hN (Or.inl rfl)]
    simp [h1, h2, h4]

theorem notify_at (hN : 0 < N) (hper : 0 < period) (hfl : first ≤ last) (inf n : Nat) (g : γ) (a : SAd γ)
    (h : SInv N period first last lc n a) :
    ∃ a', a.notify N inf (n, g) = some a' ∧ SInv N period first last lc (n + 1) a' ∧
      a'.calls = a.calls ++ ((due N period first last n).map fun p => (⟨p.1, p.2, lc, g⟩ : Call γ)).toList := by
  by_cases e : n = first * N
  · subst e; exact notify_first hN hper hfl inf g a h
  have hst : 0 < period * N := Nat.mul_pos hper hN
  have hfl' := Nat.mul_le_mul_right N hfl
  obtain ⟨h1, h2, h3, h4, h5, -, h7⟩ := h
  have mkInv : ∀ b : SAd γ, b.firstNano = first * N → b.lastNano = last * N → b.period = period → b.lastCall = lc →
      ReqInv (period * N) (first * N) (last * N) (n + 1) b.stored → SInv N period first last lc (n + 1) b :=
    fun b x1 x2 x3 x4 x5 => ⟨x1, x2, x3, x4, fun _ => x5, fun x => by omega, by omega⟩
  rcases reqInv_step hst hfl' (h5 e) inf with ⟨e1, e2, e3, e6, e4, e5⟩ | ⟨e1, e2, e6, e3, e4⟩ | ⟨e1, e2, e3, e4, e5⟩
  · have hdiv : n % N = 0 := by
      rcases e4 with x | x | x
      · rw [x]; simp
      · rw [x]; simp
      · obtain ⟨k, hk⟩ := x.2.2
        rw [hk, show period * N * k = period * k * N by ring]; simp
    have hev : ¬ (eventAt (first * N) (last * N) n = .regular ∧ n / N % period ≠ 0) := by
      rintro ⟨x, y⟩
      rcases e4 with z | z | z
      · exact e z
      · rw [z] at x; simp [eventAt] at x
      · obtain ⟨k, hk⟩ := z.2.2
        rw [hk, show period * N * k = period * k * N by ring, Nat.mul_div_cancel _ hN] at y
        simp at y
    refine ⟨{ a with
        calls := a.calls ++ [⟨n / N, eventAt a.firstNano a.lastNano n, a.lastCall, g⟩]
        stored := setInsert (n + period * N - (n + period * N) % (period * N)) a.stored.tail }, ?_, mkInv _ h1 h2 h3 h4 e5, ?_⟩
    · unfold SAd.notify
      rw [if_pos e1]
      unfold SAd.get
      simp only
      rw [if_neg (by simp [hdiv]), if_neg (by omega), h1, h2, h3, if_neg hev, Nat.mul_comm N period, e6]
    · rw [eventAt_due hN e4]
      simp [h1, h2, h4]
  · refine ⟨a, ?_, mkInv _ h1 h2 h3 h4 e4, ?_⟩
    · have hdiv : n % N = 0 := by
        obtain ⟨k, hk⟩ := e6
        rw [hk, show period * N * k = period * k * N by ring]; simp
      unfold SAd.notify
      rw [if_pos e1]
      unfold SAd.get
      simp only
      rw [if_neg (by simp [hdiv]), if_pos (by omega)]
    · rw [due_after hN hfl e2]; simp
  · refine ⟨a, ?_, mkInv _ h1 h2 h3 h4 e5, ?_⟩
    · unfold SAd.notify
      rw [if_neg e1]
    · rw [due_none_of hN e2 e3 e4]; simp

theorem notify_past (hN : 0 < N) (hper : 0 < period) (hfl : first ≤ last) (inf n m : Nat) (hm : m < n) (g : γ) (a : SAd γ)
    (h : SInv N period first last lc n a) : a.notify N inf (m, g) = some a := by
  have hfl' := Nat.mul_le_mul_right N hfl
  obtain ⟨h1, h2, h3, h4, h5, h6, h7⟩ := h
  unfold SAd.notify
  by_cases e : n = first * N
  · have hR := first_regular (first := first) hN hper
    set R := (first + period - first % period) * N with hRdef
    have hgt : first * N < R := hR.2.1
    have e1 : setInsert R (setInsert (first * N) []) = [first * N, R] := by
      simp [setInsert, Nat.not_lt_of_gt hgt, Nat.ne_of_gt hgt]
    have : nextNanoStep inf a.stored = first * N := by
      rw [h6 e, e1]
      simp only [setInsert]
      rw [if_neg (by omega)]
      split <;> rfl
    rw [if_neg]
    simp only
    omega
  · have h5 := h5 e
    by_cases hl : n ≤ last * N + 1
    · rw [if_neg (reqInv_past hfl' h5 inf m hm hl)]
    · unfold ReqInv at h5
      rw [if_neg (by omega), if_neg (by omega)] at h5
      obtain ⟨x, ⟨k, hk⟩, hx, hs⟩ := h5
      split
      · rename_i hmx
        rw [hs] at hmx
        simp only [nextNanoStep] at hmx
        unfold SAd.get
        simp only
        rw [if_neg, if_pos (by omega)]
        rw [hmx, hk, show period * N * k = period * k * N by ring]; simp
      · rfl

theorem run_inv (hN : 0 < N) (hper : 0 < period) (hfl : first ≤ last) (inf : Nat) (l : List (Nat × γ)) :
    ∀ (n m : Nat) (a : SAd γ), SInv N period first last lc n a → Covers n m (l.map (·.1)) →
    n ≤ m ∧ ∃ a', SAd.run N inf a l = some a' ∧ SInv N period first last lc m a' ∧ ∃ cs, a'.calls = a.calls ++ cs ∧
      cs.map (fun c => (c.step, c.event)) = (List.range (m - n)).filterMap (fun i => due N period first last (n + i)) ∧
      ∀ c ∈ cs, c.lastCall = lc ∧ (c.step * N, c.arg) ∈ l := by
  induction l with
  | nil =>
    intro n m a h hc
    cases hc
    exact ⟨le_refl _, a, rfl, h, [], by simp, by simp, by simp⟩
  | cons p l ih =>
    intro n m a h hc
    obtain ⟨s, g⟩ := p
    rw [List.map_cons] at hc
    cases hc with
    | next hc =>
      obtain ⟨a1, e1, i1, c1⟩ := notify_at hN hper hfl inf s g a h
      obtain ⟨hle, a2, e2, i2, cs, c2, c3, c4⟩ := ih (s + 1) m a1 i1 hc
      refine ⟨by omega, a2, ?_, i2, ((due N period first last s).map fun p => (⟨p.1, p.2, lc, g⟩ : Call γ)).toList ++ cs, ?_, ?_, ?_⟩
      · unfold SAd.run
        rw [e1]; exact e2
      · rw [c2, c1, List.append_assoc]
      · rw [List.map_append, c3]
        rw [show m - s = (m - (s + 1)) + 1 by omega, List.range_succ_eq_map, List.filterMap_cons, List.filterMap_map]
        have : ((fun i => due N period first last (s + i)) ∘ Nat.succ) = fun i => due N period first last (s + 1 + i) := by
          funext i; simp only [Function.comp, Nat.succ_eq_add_one]; congr 1; omega
        rw [this, Nat.add_zero]
        cases due N period first last s <;> simp
      · intro c hcm
        rcases List.mem_append.mp hcm with hx | hx
        · cases hd : due N period first last s with
          | none => rw [hd] at hx; simp at hx
          | some q =>
            rw [hd] at hx
            simp at hx
            subst hx
            refine ⟨rfl, ?_⟩
            have : q.1 * N = s := by
              unfold due at hd
              have hdm := Nat.div_add_mod s N
              split_ifs at hd with y1 y2 y3 y4
              all_goals
                obtain rfl := Option.some.inj hd
                simp only
                have y1 : s % N = 0 := by simpa using y1
                rw [Nat.mul_comm]
                first
                  | (rw [y2] at hdm; omega)
                  | (rw [y3] at hdm; omega)
                  | omega
            simp [this]
        · exact ⟨(c4 c hx).1, List.mem_cons_of_mem _ (c4 c hx).2⟩
    | again hlt hc =>
      obtain ⟨hle, a2, e2, i2, cs, c2, c3, c4⟩ := ih n m a h hc
      refine ⟨hle, a2, ?_, i2, cs, c2, c3, ?_⟩
      · unfold SAd.run
        rw [notify_past hN hper hfl inf n s hlt g a h]
        exact e2
      · exact fun c hc => ⟨(c4 c hc).1, List.mem_cons_of_mem _ (c4 c hc).2⟩

/-- **C28**: if an adapter is notified about the nano steps from the first one on, without a gap, then none of the
exceptions is thrown and the steerer gets exactly the calls that are due, each once and in order, with the right step
number and event, and with the arguments of a notification for that step. -/
theorem steerer_calls (hN : 0 < N) (hper : 0 < period) (hfl : first ≤ last) (inf : Nat) (l : List (Nat × γ)) (m : Nat)
    (hl : Covers (first * N) m (l.map (·.1))) :
    ∃ a, SAd.run N inf (SAd.make N period first last lc) l = some a ∧
      a.calls.map (fun c => (c.step, c.event)) = (List.range (m - first * N)).filterMap (fun i => due N period first last (first * N + i)) ∧
      ∀ c ∈ a.calls, c.lastCall = lc ∧ (c.step * N, c.arg) ∈ l := by
  obtain ⟨-, a, h1, -, cs, h2, h3, h4⟩ := run_inv hN hper hfl inf l (first * N) m (SAd.make N period first last lc) make_inv hl
  have : a.calls = cs := by simpa [SAd.make] using h2
  subst this
  exact ⟨a, h1, h3, h4⟩

/-- notifications for 6, 6, 7, 8, … 29 -/
theorem covers_range (a n : Nat) : Covers a (a + n) ((List.range n).map (a + ·)) := by
  induction n generalizing a with
  | zero => exact Covers.nil a
  | succ n ih =>
    rw [List.range_succ_eq_map, List.map_cons, List.map_map]
    have h := ih (a + 1)
    rw [show a + 1 + n = a + (n + 1) by omega] at h
    have e : ((a + ·) ∘ Nat.succ : Nat → Nat) = (a + 1 + ·) := by funext i; simp only [Function.comp, Nat.succ_eq_add_one]; omega
    rw [e]
    exact Covers.next h

/-- start step 3, end 11, period 4, two nano steps per step, first nano step notified twice: calls at 3, 4, 8, 11 -/
example : ∃ a : SAd Unit, SAd.run 2 1000 (SAd.make 2 4 3 11 true) ([6, 6, 7, 8, 9, 10, 11, 12, 13, 14, 15, 16, 17, 18, 19, 20, 21, 22, 23, 24].map fun i => (i, ())) = some a ∧
    a.calls.map (fun c => (c.step, c.event)) = [(3, .initialized), (4, .regular), (8, .regular), (11, .allDone)] := by
  obtain ⟨a, h1, h2, -⟩ := steerer_calls (N := 2) (period := 4) (first := 3) (last := 11) (lc := true) (by decide) (by decide) (by decide)
    1000 ([6, 6, 7, 8, 9, 10, 11, 12, 13, 14, 15, 16, 17, 18, 19, 20, 21, 22, 23, 24].map fun i => (i, ())) 25 (by
      simp only [List.map_cons, List.map_nil]
      refine Covers.next (Covers.again (by decide) ?_)
      exact covers_range 7 18)
  exact ⟨a, h1, by rw [h2]; decide +kernel⟩

end LGD.C28
