import Verif.Sim.EventModel
import Mathlib.Tactic.Ring
import Mathlib.Tactic.Linarith
import Mathlib.Tactic.SplitIfs

/-!
# C29: the event loop ends exactly at `maxSteps` and balances the load at the multiples of the period
-/

namespace LGD.C29
open LGD.Sim

/-- first nano step -/
def first (C : Cfg) : Nat := C.startStep * C.nanoSteps

/-- last nano step -/
def last (C : Cfg) : Nat := C.maxSteps * C.nanoSteps

/-- The nano steps up to `t` at which the load has to be balanced: multiples of the period counted from the start. A period of 0 means
once, at the beginning. -/
def balancing (C : Cfg) (t : Nat) : List Nat :=
  if C.lbPeriod = 0 then (if first C < t then [first C] else [])
  else (List.range ((t - first C) / C.lbPeriod)).map fun j => first C + (j + 1) * C.lbPeriod

/-- the events if the next load balancing is at `x` -/
def evs (L x : Nat) : List (Nat × List EP) :=
  if x < L then [(x, [.loadBalancing]), (L, [.finish])] else if x = L then [(L, [.finish, .loadBalancing])] else [(L, [.finish])]

theorem insertNext_evs (C : Cfg) (st : St) (h : st.events = evAdd (last C) .finish []) :
    (insertNext C st).events = evs (last C) (st.cur + C.lbPeriod) ∧ (insertNext C st).cur = st.cur ∧ (insertNext C st).balanced = st.balanced := by
  unfold insertNext evs
  change (if st.cur + C.lbPeriod ≤ last C then _ else _ : St).events = _ ∧ (if st.cur + C.lbPeriod ≤ last C then _ else _ : St).cur = _ ∧ (if st.cur + C.lbPeriod ≤ last C then _ else _ : St).balanced = _
  rcases Nat.lt_trichotomy (st.cur + C.lbPeriod) (last C) with h1 | h1 | h1
  · rw [if_pos (by omega), if_pos h1, h]
    simp [evAdd, h1]
  · rw [if_pos (by omega), if_neg (by omega), if_pos h1, h]
    simp [evAdd, h1]
  · rw [if_neg (by omega), if_neg (by omega), if_neg (by omega), h]
    simp [evAdd]

theorem start_evs (C : Cfg) : (Sim.start C).events = evs (last C) (first C + C.lbPeriod) ∧ (Sim.start C).cur = first C ∧ (Sim.start C).balanced = [] :=
  insertNext_evs C _ rfl

/-- the simulation has not reached the end, the next load balancing is at `x` -/
structure Running (C : Cfg) (x : Nat) (st : St) : Prop where
  events : st.events = evs (last C) x
  cur : st.cur < last C
  next : st.cur < x

/-- at the end -/
structure Ended (C : Cfg) (st : St) : Prop where
  events : st.events = []
  cur : st.cur = last C

/-- one iteration of the loop -/
theorem iter (C : Cfg) (x rem f : Nat) (st : St) (h : Running C x st) (hr : 0 < rem) (hl : st.cur + rem ≤ last C) (hx : last C < x ∨ 0 < C.lbPeriod) :
    ∃ hop, 0 < hop ∧ hop ≤ rem ∧ ∃ st', nanoStep C (f + 1) rem st = nanoStep C f (rem - hop) st' ∧ st'.cur = st.cur + hop ∧
      ((st'.cur < x ∧ st'.balanced = st.balanced ∧ (Running C x st' ∨ Ended C st')) ∨
       (st'.cur = x ∧ st'.balanced = st.balanced ++ [x] ∧ (Running C (x + C.lbPeriod) st' ∨ Ended C st'))) := by
  have hc := h.cur
  have hn := h.next
  have hev := h.events
  set t := min x (last C) with ht
  have hhead : ∃ s r, st.events = (t, s) :: r := by
    rw [hev]; unfold evs
    split_ifs
    · exact ⟨_, _, by rw [show t = x by omega]⟩
    · exact ⟨_, _, by rw [show t = last C by omega]⟩
    · exact ⟨_, _, by rw [show t = last C by omega]⟩
  obtain ⟨s, r, hs⟩ := hhead
  set hop := min rem (t - st.cur) with hhop
  have hdef : nanoStep C (f + 1) rem st = (handleEvents C { st with cur := st.cur + hop }).bind (nanoStep C f (rem - hop)) := by
    conv_lhs => rw [nanoStep]
    rw [if_neg (by omega), hs]
    simp only
    rw [if_neg (by omega)]
  refine ⟨hop, by omega, by omega, ?_⟩
  by_cases hlt : st.cur + hop < t
  · refine ⟨{ st with cur := st.cur + hop }, ?_, rfl, Or.inl ⟨by simp only; omega, rfl, Or.inl ⟨hev, by simp only; omega, by simp only; omega⟩⟩⟩
    rw [hdef]
    unfold handleEvents
    simp only [hs]
    rw [if_neg (by omega), if_pos hlt]
    rfl
  · have heq : st.cur + hop = t := by omega
    have hh : ∀ s r, st.events = (t, s) :: r → handleEvents C { st with cur := st.cur + hop } =
        (let st' := s.foldl (fun st e => if e = .loadBalancing then insertNext C { st with balanced := st.balanced ++ [st.cur] } else st)
            { st with cur := st.cur + hop }
         .ok { st' with events := st'.events.tail }) := by
      intro s r hs
      unfold handleEvents
      simp only [hs]
      rw [if_neg (by omega), if_neg (by omega)]
    rcases Nat.lt_trichotomy x (last C) with h1 | h1 | h1
    · have hP : 0 < C.lbPeriod := by omega
      have e : st.events = (t, [.loadBalancing]) :: [(last C, [.finish])] := by
        rw [hev]; unfold evs; rw [if_pos h1, show t = x by omega]
      set st' : St := { events := evs (last C) (x + C.lbPeriod), cur := st.cur + hop, balanced := st.balanced ++ [x] } with hst'
      refine ⟨st', ?_, rfl, Or.inr ⟨by rw [hst']; simp only; omega, rfl, Or.inl ⟨rfl, by rw [hst']; simp only; omega, by rw [hst']; simp only; omega⟩⟩⟩
      rw [hdef, hh _ _ e]
      simp only [List.foldl_cons, List.foldl_nil, if_true]
      change (R.ok _ : R St).bind _ = _
      simp only [R.bind]
      congr 1
      unfold insertNext
      simp only
      change St.mk (List.tail (if st.cur + hop + C.lbPeriod ≤ last C then _ else _ : St).events) _ _ = _
      rw [hst', e, heq, show t = x by omega]
      unfold evs
      rcases Nat.lt_trichotomy (x + C.lbPeriod) (last C) with h2 | h2 | h2
      · rw [if_pos (by omega), if_pos (show x + C.lbPeriod ≤ C.maxSteps * C.nanoSteps by unfold last at h2; omega), if_pos h2]
        simp only [evAdd]
        rw [if_neg (by omega), if_neg (by omega), if_pos h2]
        rfl
      · rw [if_pos (by omega), if_pos (show x + C.lbPeriod ≤ C.maxSteps * C.nanoSteps by unfold last at h2; omega), if_neg (by omega), if_pos h2]
        simp only [evAdd]
        rw [if_neg (by omega), if_neg (by omega), if_neg (by omega), if_pos h2]
        simp
      · rw [if_neg (by omega), if_neg (show ¬ x + C.lbPeriod ≤ C.maxSteps * C.nanoSteps by unfold last at h2; omega), if_neg (by omega), if_neg (by omega)]
        rfl
    · have hP : 0 < C.lbPeriod := by omega
      have e : st.events = (t, [.finish, .loadBalancing]) :: [] := by
        rw [hev]; unfold evs; rw [if_neg (by omega), if_pos h1, show t = last C by omega]
      set st' : St := { events := [], cur := st.cur + hop, balanced := st.balanced ++ [x] } with hst'
      refine ⟨st', ?_, rfl, Or.inr ⟨by rw [hst']; simp only; omega, rfl, Or.inr ⟨rfl, by rw [hst']; simp only; omega⟩⟩⟩
      rw [hdef, hh _ _ e]
      simp only [List.foldl_cons, List.foldl_nil, if_true]
      rw [if_neg (by decide)]
      simp only [R.bind]
      congr 1
      unfold insertNext
      simp only
      rw [if_neg (show ¬ st.cur + hop + C.lbPeriod ≤ C.maxSteps * C.nanoSteps by unfold last at *; omega)]
      rw [hst', e, show st.cur + hop = x by omega]
      rfl
    · have e : st.events = (t, [.finish]) :: [] := by
        rw [hev]; unfold evs; rw [if_neg (by omega), if_neg (by omega), show t = last C by omega]
      set st' : St := { events := [], cur := st.cur + hop, balanced := st.balanced } with hst'
      refine ⟨st', ?_, rfl, Or.inl ⟨by rw [hst']; simp only; omega, rfl, Or.inr ⟨rfl, by rw [hst']; simp only; omega⟩⟩⟩
      rw [hdef, hh _ _ e]
      simp only [List.foldl_cons, List.foldl_nil]
      rw [if_neg (by decide)]
      simp only [R.bind]
      rw [hst', e]
      rfl

/-- number of load balancings until `t` if the next one is at `x` -/
def count (P x t : Nat) : Nat := if t < x then 0 else (t - x) / P + 1

theorem loop (C : Cfg) (rem : Nat) : ∀ (x : Nat) (st : St) (f : Nat), Running C x st → st.cur + rem ≤ last C → rem < f →
    (last C < x ∨ 0 < C.lbPeriod) → ∃ st', nanoStep C f rem st = .ok st' ∧ st'.cur = st.cur + rem ∧
      st'.balanced = st.balanced ++ (List.range (count C.lbPeriod x (st.cur + rem))).map (fun j => x + j * C.lbPeriod) ∧
      (Ended C st' ∨ Running C (x + count C.lbPeriod x (st.cur + rem) * C.lbPeriod) st') := by
  induction rem using Nat.strong_induction_on with
  | _ rem ih =>
    intro x st f h hl hf hx
    obtain ⟨f, rfl⟩ : ∃ f', f = f' + 1 := ⟨f - 1, by omega⟩
    by_cases hr : rem = 0
    · subst hr
      refine ⟨st, by rw [nanoStep]; rfl, by omega, ?_, Or.inr ?_⟩
      · have := h.next
        simp [count, this]
      · have := h.next
        simpa [count, this] using h
    · obtain ⟨hop, h1, h2, st', e, hc, hcase⟩ := iter C x rem f st h (by omega) hl hx
      have hend : ∀ st' : St, Ended C st' → st'.cur = st.cur + hop → rem - hop = 0 := by
        intro st' he hc
        have := he.cur
        omega
      rcases hcase with ⟨a1, a2, a3 | a3⟩ | ⟨a1, a2, a3 | a3⟩
      · obtain ⟨s2, b1, b2, b3, b4⟩ := ih (rem - hop) (by omega) x st' f a3 (by omega) (by omega) hx
        rw [show st'.cur + (rem - hop) = st.cur + rem by omega] at b2 b3 b4
        exact ⟨s2, by rw [e, b1], b2, by rw [b3, a2], b4⟩
      · have hz := hend st' a3 hc
        refine ⟨st', by rw [e, hz]; cases f with | zero => omega | succ f => rw [nanoStep]; rfl, by omega, ?_, Or.inl a3⟩
        rw [a2, count, if_pos (by omega)]; simp
      · obtain ⟨s2, b1, b2, b3, b4⟩ := ih (rem - hop) (by omega) (x + C.lbPeriod) st' f a3 (by omega) (by omega) (by omega)
        rw [show st'.cur + (rem - hop) = st.cur + rem by omega] at b2 b3 b4
        have hP : 0 < C.lbPeriod := by
          rcases hx with hx | hx
          · have := a3.cur; omega
          · exact hx
        have hk : count C.lbPeriod x (st.cur + rem) = count C.lbPeriod (x + C.lbPeriod) (st.cur + rem) + 1 := by
          unfold count
          rw [if_neg (by omega : ¬ st.cur + rem < x)]
          by_cases hh : st.cur + rem < x + C.lbPeriod
          · rw [if_pos hh, Nat.div_eq_of_lt (by omega)]
          · rw [if_neg hh, show st.cur + rem - x = (st.cur + rem - (x + C.lbPeriod)) + C.lbPeriod by omega, Nat.add_div_right _ hP]
        refine ⟨s2, by rw [e, b1], b2, ?_, ?_⟩
        · rw [b3, a2, hk, List.range_succ_eq_map, List.map_cons, List.map_map, List.append_assoc]
          simp only [List.singleton_append, Nat.zero_mul, Nat.add_zero]
          congr 2
          apply List.map_congr_left
          intro j _
          simp only [Function.comp]
          rw [Nat.succ_mul]; omega
        · rw [hk, Nat.succ_mul]
          convert b4 using 2
          omega
      · have hz := hend st' a3 hc
        refine ⟨st', by rw [e, hz]; cases f with | zero => omega | succ f => rw [nanoStep]; rfl, by omega, ?_, Or.inl a3⟩
        have : st.cur + rem = x := by omega
        rw [a2, count, if_neg (by omega), this]; simp

/-- state of a simulation after `n` nano steps -/
structure At (C : Cfg) (n : Nat) (st : St) : Prop where
  cur : st.cur = first C + n
  balanced : st.balanced = balancing C (first C + n)
  phase : (n = 0 ∧ st.events = evs (last C) (first C + C.lbPeriod)) ∨ Ended C st ∨
    (0 < n ∧ Running C (if C.lbPeriod = 0 then last C + 1 else first C + (n / C.lbPeriod + 1) * C.lbPeriod) st)

theorem at_start (C : Cfg) : At C 0 (Sim.start C) := by
  obtain ⟨h1, h2, h3⟩ := start_evs C
  refine ⟨h2, ?_, Or.inl ⟨rfl, h1⟩⟩
  rw [h3]; unfold balancing; simp

/-- advancing by `m` nano steps, not beyond the end -/
theorem advance (C : Cfg) (n m : Nat) (st : St) (h : At C n st) (hm : first C + n + m ≤ last C) (f : Nat) (hf : m + 1 < f) :
    ∃ st', nanoStep C f m st = .ok st' ∧ At C (n + m) st' := by
  obtain ⟨f, rfl⟩ : ∃ f', f = f' + 1 := ⟨f - 1, by omega⟩
  by_cases hm0 : m = 0
  · subst hm0
    exact ⟨st, by rw [nanoStep]; rfl, h⟩
  by_cases hP : C.lbPeriod = 0
  · -- the load is balanced once
    have key : ∀ (st : St) (f' : Nat), m < f' → Running C (last C + 1) st → st.cur = first C + n → st.balanced = [first C] →
        ∃ st', nanoStep C f' m st = .ok st' ∧ At C (n + m) st' := by
      intro st f' hf' hr hc hb
      obtain ⟨s2, b1, b2, b3, b4⟩ := loop C m (last C + 1) st f' hr (by omega) hf' (Or.inl (by omega))
      rw [show count C.lbPeriod (last C + 1) (st.cur + m) = 0 by unfold count; rw [if_pos (by omega)]] at b3 b4
      refine ⟨s2, b1, by omega, ?_, ?_⟩
      · rw [b3, hb]; unfold balancing; rw [if_pos hP, if_pos (by omega)]; simp
      · rcases b4 with b4 | b4
        · exact Or.inr (Or.inl b4)
        · refine Or.inr (Or.inr ⟨by omega, ?_⟩)
          rw [if_pos hP]; simpa using b4
    rcases h.phase with ⟨h0, he⟩ | he | ⟨h1, h2⟩
    · subst h0
      have hc := h.cur
      have hb := h.balanced
      unfold balancing at hb
      rw [if_pos hP, if_neg (by omega)] at hb
      rw [hP, Nat.add_zero] at he
      unfold evs at he
      rw [if_pos (by omega)] at he
      set st1 : St := { events := evs (last C) (last C + 1), cur := first C, balanced := [first C] } with hst1
      have e : nanoStep C (f + 1) m st = nanoStep C f m st1 := by
        conv_lhs => rw [nanoStep]
        rw [if_neg hm0, he]
        simp only
        rw [if_neg (by omega), show min m (first C - st.cur) = 0 by omega]
        unfold handleEvents
        simp only [he]
        rw [if_neg (by omega), if_neg (by omega)]
        simp only [List.foldl_cons, List.foldl_nil, if_true, R.bind, Nat.sub_zero, Nat.add_zero]
        congr 1
        unfold insertNext
        simp only
        rw [if_pos (show st.cur + C.lbPeriod ≤ C.maxSteps * C.nanoSteps by unfold last at hm; omega), hst1, hb, hc]
        unfold evs
        rw [if_neg (by omega), if_neg (by omega)]
        simp [evAdd, hP]
      rw [e]
      exact key st1 f (by omega) ⟨rfl, by rw [hst1]; simp only; omega, by rw [hst1]; simp only; omega⟩ (by rw [hst1]; rfl) rfl
    · have := he.cur; have := h.cur; omega
    · rw [if_pos hP] at h2
      have hb := h.balanced
      refine key st (f + 1) (by omega) h2 h.cur ?_
      rw [hb]; unfold balancing; rw [if_pos hP, if_pos (by omega)]
  · have hP' : 0 < C.lbPeriod := Nat.pos_of_ne_zero hP
    have hrun : Running C (first C + (n / C.lbPeriod + 1) * C.lbPeriod) st := by
      rcases h.phase with ⟨h0, he⟩ | he | ⟨h1, h2⟩
      · subst h0
        have hc := h.cur
        rw [Nat.zero_div, Nat.zero_add, Nat.one_mul]
        exact ⟨he, by omega, by omega⟩
      · have := he.cur; have := h.cur; omega
      · rw [if_neg hP] at h2; exact h2
    obtain ⟨s2, b1, b2, b3, b4⟩ := loop C m _ st (f + 1) hrun (by have := h.cur; omega) (by omega) (Or.inr hP')
    have hc := h.cur
    have hk : (n + m) / C.lbPeriod = n / C.lbPeriod + count C.lbPeriod (first C + (n / C.lbPeriod + 1) * C.lbPeriod) (st.cur + m) := by
      unfold count
      have hd := Nat.div_add_mod n C.lbPeriod
      have hml := Nat.mod_lt n hP'
      set q := n / C.lbPeriod with hq
      have e : (q + 1) * C.lbPeriod = C.lbPeriod * q + C.lbPeriod := by ring
      by_cases hlt : st.cur + m < first C + (q + 1) * C.lbPeriod
      · rw [if_pos hlt, Nat.add_zero]
        exact Nat.div_eq_of_lt_le (by rw [Nat.mul_comm]; omega) (by omega)
      · rw [if_neg hlt]
        have e2 : n + m = (st.cur + m - (first C + (q + 1) * C.lbPeriod)) + C.lbPeriod * (q + 1) := by
          rw [Nat.mul_comm C.lbPeriod (q + 1)]; omega
        rw [e2, Nat.add_mul_div_left _ _ hP']; omega
    refine ⟨s2, b1, by omega, ?_, ?_⟩
    · rw [b3, h.balanced]
      unfold balancing
      rw [if_neg hP, if_neg hP, Nat.add_sub_cancel_left, Nat.add_sub_cancel_left, hk, List.range_add, List.map_append, List.map_map]
      congr 1
      apply List.map_congr_left
      intro j _
      simp only [Function.comp]
      ring
    · rcases b4 with b4 | b4
      · exact Or.inr (Or.inl b4)
      · refine Or.inr (Or.inr ⟨by omega, ?_⟩)
        rw [if_neg hP, hk]
        convert b4 using 1
        ring

/-- `k` calls of `step()`, each with enough iterations -/
def steps (C : Cfg) (f : Nat) : Nat → R St
  | 0 => .ok (Sim.start C)
  | k + 1 => (steps C f k).bind (Sim.step C f)

theorem at_steps (C : Cfg) (k f : Nat) (hk : C.startStep + k ≤ C.maxSteps) (hf : C.nanoSteps + 1 < f) :
    ∃ st, steps C f k = .ok st ∧ At C (k * C.nanoSteps) st := by
  induction k with
  | zero => exact ⟨_, rfl, by simpa using at_start C⟩
  | succ k ih =>
    obtain ⟨st, e, h⟩ := ih (by omega)
    obtain ⟨st', e', h'⟩ := advance C (k * C.nanoSteps) C.nanoSteps st h (by
      unfold first last
      have := Nat.mul_le_mul_right C.nanoSteps hk
      have e : (C.startStep + (k + 1)) * C.nanoSteps = C.startStep * C.nanoSteps + k * C.nanoSteps + C.nanoSteps := by ring
      omega) f hf
    refine ⟨st', by rw [steps, e]; exact e', ?_⟩
    rw [Nat.succ_mul]; exact h'

/-- **C29, steps.** After `k` calls of `step()` (up to `maxSteps`), the simulation is at step `startStep + k`, and the load was balanced
exactly at the nano steps so far which are multiples of the period, counted from the start. No stale event is found. -/
theorem step_events (C : Cfg) (k f : Nat) (hk : C.startStep + k ≤ C.maxSteps) (hf : C.nanoSteps + 1 < f) :
    ∃ st, steps C f k = .ok st ∧ st.cur = (C.startStep + k) * C.nanoSteps ∧ st.balanced = balancing C st.cur := by
  obtain ⟨st, e, h⟩ := at_steps C k f hk hf
  have hc : st.cur = (C.startStep + k) * C.nanoSteps := by rw [h.cur, Nat.add_mul]; rfl
  exact ⟨st, e, hc, by rw [h.balanced, h.cur]⟩

/-- **C29, run.** `run()`, possibly after some calls of `step()`, stops exactly at `maxSteps`; all load balancings up to there were done. -/
theorem run_events (C : Cfg) (k f f' : Nat) (hk : C.startStep + k < C.maxSteps) (hN : 0 < C.nanoSteps) (hf : C.nanoSteps + 1 < f)
    (hf' : C.maxSteps * C.nanoSteps + 1 < f') :
    ∃ st, (steps C f k).bind (Sim.run C f') = .ok st ∧ st.cur = C.maxSteps * C.nanoSteps ∧ st.balanced = balancing C st.cur := by
  obtain ⟨st, e, h⟩ := at_steps C k f (by omega) hf
  have hlt : (C.startStep + k) * C.nanoSteps < last C := Nat.mul_lt_mul_of_pos_right hk hN
  have hc : st.cur = (C.startStep + k) * C.nanoSteps := by rw [h.cur, Nat.add_mul]; rfl
  have hlast : ∃ s, st.events.getLast? = some (last C, s) := by
    have key : ∀ x, ∃ s, (evs (last C) x).getLast? = some (last C, s) := by
      intro x; unfold evs; split_ifs <;> exact ⟨_, rfl⟩
    rcases h.phase with ⟨_, he⟩ | he | ⟨_, h2⟩
    · rw [he]; exact key _
    · have := he.cur; omega
    · rw [h2.events]; exact key _
  obtain ⟨s, hs⟩ := hlast
  have hcur := h.cur
  obtain ⟨st', e', h'⟩ := advance C (k * C.nanoSteps) (last C - st.cur) st h (by omega) f' (by unfold last; omega)
  have hc' : st'.cur = C.maxSteps * C.nanoSteps := by
    rw [h'.cur]; change _ = last C; omega
  refine ⟨st', ?_, hc', by rw [h'.balanced, h'.cur]⟩
  rw [e]
  simp only [R.bind, Sim.run, hs]
  exact e'

/-- `run()` on a simulation which starts at `maxSteps` does nothing. -/
theorem run_nothing (C : Cfg) (h : C.startStep = C.maxSteps) (f : Nat) : Sim.run C (f + 1) (Sim.start C) = .ok (Sim.start C) := by
  obtain ⟨h1, h2, h3⟩ := start_evs C
  have : ∃ s, (Sim.start C).events.getLast? = some (last C, s) := by
    rw [h1]; unfold evs; split_ifs <;> exact ⟨_, rfl⟩
  obtain ⟨s, hs⟩ := this
  unfold Sim.run
  rw [hs]
  simp only
  rw [h2, show last C - first C = 0 by unfold first last; rw [h]; omega, nanoStep, if_pos rfl]

/-- **C29, violated after the end.** Once the simulation has reached `maxSteps`, another `step()` or `run()` reads an element of the
now empty event map: undefined behavior. -/
theorem after_end_undefined (C : Cfg) (k f g : Nat) (hk : C.startStep + k = C.maxSteps) (h0 : 0 < k) (hN : 0 < C.nanoSteps)
    (hf : C.nanoSteps + 1 < f) :
    (steps C f k).bind (Sim.step C (g + 1)) = .undefined ∧ (steps C f k).bind (Sim.run C (g + 1)) = .undefined := by
  obtain ⟨st, e, h⟩ := at_steps C k f (by omega) hf
  have hc : st.cur = last C := by
    rw [h.cur]; unfold first last; rw [← hk, Nat.add_mul]
  have hev : st.events = [] := by
    rcases h.phase with ⟨hz, _⟩ | he | ⟨_, h2⟩
    · have := Nat.mul_pos h0 hN; omega
    · exact he.events
    · have := h2.cur; omega
  rw [e]
  simp only [R.bind, Sim.step, Sim.run, hev, List.getLast?_nil, and_true]
  rw [nanoStep, if_neg (by omega), hev]

/-! Non-vacuity: 3 nano steps per step, steps 2 to 9, load balancing every 2 steps; period 0. -/

example : steps ⟨3, 2, 9, 6⟩ 10 4 = .ok ⟨[(24, [.loadBalancing]), (27, [.finish])], 18, [12, 18]⟩ ∧
    (steps ⟨3, 2, 9, 6⟩ 10 4).bind (Sim.run ⟨3, 2, 9, 6⟩ 40) = .ok ⟨[], 27, [12, 18, 24]⟩ ∧
    (steps ⟨3, 2, 9, 0⟩ 10 4).bind (Sim.run ⟨3, 2, 9, 0⟩ 40) = .ok ⟨[], 27, [6]⟩ := by
  refine ⟨?_, ?_, ?_⟩ <;> rfl

end LGD.C29
