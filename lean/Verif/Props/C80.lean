import Verif.Hpx.StartModel
import Mathlib.Algebra.BigOperators.Group.List.Basic
import Mathlib.Algebra.Order.BigOperators.Group.Finset
import Mathlib.Tactic.Linarith

/-!
# C80: all localities of an `HpxSimulator` agree on the update groups
-/

namespace LGD.C80
open LGD.HpxStart

variable {S : Type} (L : Nat) (corr : S → S) (speeds : Nat → List S)

/-- index of the first update group of locality `r` -/
def first (r : Nat) : Nat := ((List.range r).map fun q => (speeds q).length).sum

/-- speeds of all groups, by locality -/
def allSpeeds : List S := ((List.range L).map fun q => (speeds q).map corr).flatten

/-- first indices of all localities, and the total -/
def allIndices : List Nat := (List.range (L + 1)).map (first speeds)

theorem corrected_eq (l : List S) : corrected corr l = l.map corr := by
  induction l with
  | nil => rfl
  | cons x xs ih => simp only [corrected, ih, List.map_cons]

theorem gatherLoop_eq : ∀ (vecs : List (List S)) (f : List S) (ix : List Nat) (k : Nat),
    gatherLoop vecs (f, ix, k) = (f ++ vecs.flatten, ix ++ (List.range vecs.length).map (fun r => k + ((vecs.take r).map List.length).sum), k + (vecs.map List.length).sum) := by
  intro vecs
  induction vecs with
  | nil => intro f ix k; simp [gatherLoop]
  | cons v vs ih =>
    intro f ix k
    rw [gatherLoop, ih]
    refine Prod.ext (by simp) (Prod.ext ?_ (by simp; omega))
    simp only [List.length_cons, List.range_succ_eq_map, List.map_cons, List.map_map, List.take_zero, List.map_nil, List.sum_nil, Nat.add_zero, List.append_assoc, List.singleton_append]
    congr 2
    apply List.map_congr_left
    intro r _
    simp only [Function.comp, List.take_succ_cons, List.map_cons, List.sum_cons]
    omega

theorem gather_eq : gather ((List.range L).map fun q => (speeds q).map corr) = (allSpeeds L corr speeds, allIndices L speeds) := by
  unfold gather
  rw [gatherLoop_eq]
  refine Prod.ext (by simp [allSpeeds]) ?_
  simp only [List.nil_append, List.length_map, List.length_range, Nat.zero_add]
  unfold allIndices
  rw [List.range_succ, List.map_append]
  congr 1
  · apply List.map_congr_left
    intro r hr
    rw [← List.map_take, List.take_range, min_eq_left (Nat.le_of_lt (List.mem_range.1 hr)), List.map_map]
    unfold first
    congr 1
    apply List.map_congr_left
    intro q _
    simp
  · simp only [List.map_cons, List.map_nil, first, List.map_map]
    congr 2
    apply List.map_congr_left
    intro q _
    simp

/-- what holds on locality `r` whenever locality 0 has (`b5`) asked for speeds and (`b6`) sent the results -/
structure Ok (b5 b6 : Prop) (r : Nat) (l : Loc S) : Prop where
  pcle : l.pc ≤ 8
  pc5 : l.pc = 5 → r = 0
  sp0 : l.pc = 0 → l.speeds = none
  sp1 : 0 < l.pc → l.speeds = some ((speeds r).map corr)
  init : l.init = true ↔ 4 ≤ l.pc
  get : 0 < l.get ↔ b5
  getle : l.get ≤ 2
  rep : l.get ≠ 2 → l.reply = none
  rep2 : l.get = 2 → l.reply = some ((speeds r).map corr)
  all : b6 → l.get = 2
  set : 0 < l.set ↔ b6
  setle : l.set ≤ 3
  glob : l.set < 2 → l.glob = none
  glob2 : 2 ≤ l.set → l.glob = some (allSpeeds L corr speeds)
  idx : l.set < 3 → l.idx = none
  idx3 : l.set = 3 → l.idx = some (allIndices L speeds)
  pc7 : 7 ≤ l.pc → 2 ≤ l.set ∧ l.outG = some (allSpeeds L corr speeds)
  pc8 : l.pc = 8 → l.set = 3 ∧ l.outI = some (allIndices L speeds)
  fault : l.fault = false

def Inv (s : St S) : Prop := ∀ r, r < L → Ok L corr speeds (5 ≤ (s 0).pc) (6 ≤ (s 0).pc) r (s r)

theorem inv_start : Inv L corr speeds (start : St S) := by
  intro r _
  constructor <;> simp [start]

theorem Ok.congr {b5 b6 c5 c6 : Prop} {r : Nat} {l : Loc S} (h : Ok L corr speeds b5 b6 r l) (h5 : b5 ↔ c5) (h6 : b6 ↔ c6) : Ok L corr speeds c5 c6 r l := by
  have e5 := propext h5
  have e6 := propext h6
  subst e5 e6
  exact h

/-- a step which changes locality `r` only, and keeps the phase of locality 0 -/
theorem inv_update {s : St S} (h : Inv L corr speeds s) {r : Nat} (l : Loc S) (h5 : r = 0 → (5 ≤ (s 0).pc ↔ 5 ≤ l.pc)) (h6 : r = 0 → (6 ≤ (s 0).pc ↔ 6 ≤ l.pc))
    (hl : Ok L corr speeds (5 ≤ (s 0).pc) (6 ≤ (s 0).pc) r l) : Inv L corr speeds (Function.update s r l) := by
  intro q hq
  have e5 : 5 ≤ (s 0).pc ↔ 5 ≤ (Function.update s r l 0).pc := by
    by_cases h0 : r = 0
    · subst h0; rw [Function.update_self]; exact h5 rfl
    · rw [Function.update_of_ne (Ne.symm h0)]
  have e6 : 6 ≤ (s 0).pc ↔ 6 ≤ (Function.update s r l 0).pc := by
    by_cases h0 : r = 0
    · subst h0; rw [Function.update_self]; exact h6 rfl
    · rw [Function.update_of_ne (Ne.symm h0)]
  by_cases hqr : q = r
  · subst hqr; rw [Function.update_self]; exact hl.congr L corr speeds e5 e6
  · rw [Function.update_of_ne hqr]; exact (h q hq).congr L corr speeds e5 e6

theorem sent_eq {s : St S} (h : Inv L corr speeds s) (h6 : 6 ≤ (s 0).pc) : sent L s = (allSpeeds L corr speeds, allIndices L speeds) := by
  rw [← gather_eq]
  unfold sent
  congr 1
  apply List.map_congr_left
  intro q hq
  have o := h q (List.mem_range.1 hq)
  rw [o.rep2 (o.all h6)]; rfl

/-- closes the conditions for a changed locality -/
local macro "loc" : tactic => `(tactic| (constructor <;> (try simp only) <;> first | assumption | (intros; omega) | (intros; assumption) | simp_all))

theorem inv_main {s t : St S} (h : Inv L corr speeds s) {r : Nat} (hr : r < L) (hs : mainStep L corr speeds s r = some t) : Inv L corr speeds t := by
  have o := h r hr
  obtain ⟨o1, o2, o3, o4, o5, o6, o7, o8, o9, o10, o11, o12, o13, o14, o15, o16, o17, o18, o19⟩ := o
  unfold mainStep at hs
  simp only at hs
  split at hs
  · rename_i hp
    rw [o3 hp] at hs
    simp only [Option.isSome_none, Bool.false_eq_true, if_false, Option.some.injEq] at hs
    subst hs
    apply inv_update L corr speeds h
    · rintro rfl; simp only [hp]; omega
    · rintro rfl; simp only [hp]; omega
    · have := corrected_eq corr (speeds r); loc
  · rename_i hp
    simp only [Option.some.injEq] at hs
    subst hs
    apply inv_update L corr speeds h
    · rintro rfl; simp only [hp]; omega
    · rintro rfl; simp only [hp]; omega
    · loc
  · rename_i hp
    simp only [Option.some.injEq] at hs
    subst hs
    apply inv_update L corr speeds h
    · rintro rfl; simp only [hp]; omega
    · rintro rfl; simp only [hp]; omega
    · loc
  · rename_i hp
    have hi : (s r).init = false := by
      cases hb : (s r).init with
      | false => rfl
      | true => exact absurd (o5.1 hb) (by omega)
    rw [hi] at hs
    simp only [Bool.false_eq_true, if_false, Option.some.injEq] at hs
    subst hs
    apply inv_update L corr speeds h
    · rintro rfl; simp only [hp]; omega
    · rintro rfl; simp only [hp]; omega
    · loc
  · rename_i hp
    split at hs
    · rename_i h0
      subst h0
      simp only [Option.some.injEq] at hs
      subst hs
      intro q hq
      obtain ⟨q1, q2, q3, q4, q5, q6, q7, q8, q9, q10, q11, q12, q13, q14, q15, q16, q17, q18, q19⟩ := h q hq
      have hg : (s q).get = 0 := by rcases Nat.eq_zero_or_pos (s q).get with h | h; exact h; exact absurd (q6.1 h) (by omega)
      have hse : (s q).set = 0 := by rcases Nat.eq_zero_or_pos (s q).set with h | h; exact h; exact absurd (q11.1 h) (by omega)
      by_cases hq0 : q = 0
      · subst hq0
        simp only [if_pos hr, if_true]
        loc
      · simp only [if_pos hr, if_pos hq, if_neg hq0, if_true]
        loc
    · rename_i h0
      simp only [Option.some.injEq] at hs
      subst hs
      apply inv_update L corr speeds h
      · intro h; exact absurd h h0
      · intro h; exact absurd h h0
      · loc
  · rename_i hp
    have h0 := o2 hp
    subst h0
    split at hs
    · rename_i hall
      simp only [Option.some.injEq] at hs
      subst hs
      intro q hq
      obtain ⟨q1, q2, q3, q4, q5, q6, q7, q8, q9, q10, q11, q12, q13, q14, q15, q16, q17, q18, q19⟩ := h q hq
      have hre := List.all_eq_true.1 hall q (List.mem_range.2 hq)
      have hg : (s q).get = 2 := by
        by_contra hne
        rw [q8 hne] at hre
        exact absurd hre (by simp)
      have hse : (s q).set = 0 := by rcases Nat.eq_zero_or_pos (s q).set with h | h; exact h; exact absurd (q11.1 h) (by omega)
      by_cases hq0 : q = 0
      · subst hq0
        simp only [if_pos hr, if_true]
        loc
      · simp only [if_pos hr, if_pos hq, if_neg hq0, if_true]
        loc
    · exact absurd hs (by simp)
  · rename_i hp
    have hge : 2 ≤ (s r).set := by
      by_contra hlt
      rw [o13 (by omega)] at hs
      exact absurd hs (by simp)
    rw [o14 hge] at hs
    simp only [Option.map_some, Option.some.injEq] at hs
    subst hs
    apply inv_update L corr speeds h
    · rintro rfl; simp only [hp]; omega
    · rintro rfl; simp only [hp]; omega
    · loc
  · rename_i hp
    have hge : (s r).set = 3 := by
      by_contra hlt
      rw [o15 (by omega)] at hs
      exact absurd hs (by simp)
    rw [o16 hge] at hs
    simp only [Option.map_some, Option.some.injEq] at hs
    subst hs
    apply inv_update L corr speeds h
    · rintro rfl; simp only [hp]; omega
    · rintro rfl; simp only [hp]; omega
    · loc
  · exact absurd hs (by simp)

theorem inv_step {s t : St S} (h : Inv L corr speeds s) {a : Act} (hs : step L corr speeds s a = some t) : Inv L corr speeds t := by
  cases a with
  | main r =>
    simp only [step] at hs
    split at hs
    · rename_i hr; exact inv_main L corr speeds h hr hs
    · exact absurd hs (by simp)
  | reply r =>
    simp only [step] at hs
    split at hs
    · rename_i hc
      obtain ⟨hr, hg, hi⟩ := hc
      obtain ⟨o1, o2, o3, o4, o5, o6, o7, o8, o9, o10, o11, o12, o13, o14, o15, o16, o17, o18, o19⟩ := h r hr
      have hi4 := o5.1 hi
      rw [o4 (by omega)] at hs
      simp only [Option.map_some, Option.some.injEq] at hs
      subst hs
      apply inv_update L corr speeds h
      · rintro rfl; exact Iff.rfl
      · rintro rfl; exact Iff.rfl
      · loc
    · exact absurd hs (by simp)
  | setG r =>
    simp only [step] at hs
    split at hs
    · rename_i hc
      obtain ⟨hr, hg⟩ := hc
      obtain ⟨o1, o2, o3, o4, o5, o6, o7, o8, o9, o10, o11, o12, o13, o14, o15, o16, o17, o18, o19⟩ := h r hr
      rw [o13 (by omega), sent_eq L corr speeds h (o11.1 (by omega))] at hs
      simp only [Option.isSome_none, Bool.false_eq_true, if_false, Option.some.injEq] at hs
      subst hs
      apply inv_update L corr speeds h
      · rintro rfl; exact Iff.rfl
      · rintro rfl; exact Iff.rfl
      · loc
    · exact absurd hs (by simp)
  | setI r =>
    simp only [step] at hs
    split at hs
    · rename_i hc
      obtain ⟨hr, hg⟩ := hc
      obtain ⟨o1, o2, o3, o4, o5, o6, o7, o8, o9, o10, o11, o12, o13, o14, o15, o16, o17, o18, o19⟩ := h r hr
      rw [o15 (by omega), sent_eq L corr speeds h (o11.1 (by omega))] at hs
      simp only [Option.isSome_none, Bool.false_eq_true, if_false, Option.some.injEq] at hs
      subst hs
      apply inv_update L corr speeds h
      · rintro rfl; exact Iff.rfl
      · rintro rfl; exact Iff.rfl
      · loc
    · exact absurd hs (by simp)

theorem inv_exec {as : List Act} : ∀ {s t : St S}, Inv L corr speeds s → exec L corr speeds s as = some t → Inv L corr speeds t := by
  induction as with
  | nil => intro s t h hs; simp only [exec, Option.some.injEq] at hs; rw [← hs]; exact h
  | cons a as ih =>
    intro s t h hs
    simp only [exec] at hs
    obtain ⟨u, hu, hs⟩ := Option.bind_eq_some_iff.1 hs
    exact ih (inv_step L corr speeds h hu) hs

/-- however the localities and their actions are scheduled: nothing throws, and a locality which is done has the speeds of all groups and the indices of all localities -/
theorem agreement {as : List Act} {s : St S} (hs : exec L corr speeds start as = some s) {r : Nat} (hr : r < L) :
    (s r).fault = false ∧ ((s r).pc = 8 → (s r).outG = some (allSpeeds L corr speeds) ∧ (s r).outI = some (allIndices L speeds)) := by
  have o := inv_exec L corr speeds (inv_start L corr speeds) hs r hr
  exact ⟨o.fault, fun h => ⟨(o.pc7 (by omega)).2, (o.pc8 h).2⟩⟩

/-- no deadlock: unless all localities are done, something can happen -/
theorem progress (hL : 0 < L) {as : List Act} {s : St S} (hs : exec L corr speeds start as = some s) (hn : ∃ r, r < L ∧ (s r).pc ≠ 8) : ∃ a, (step L corr speeds s a).isSome := by
  have h := inv_exec L corr speeds (inv_start L corr speeds) hs
  have hmain : ∀ r, r < L → (s r).pc ≤ 4 → ∃ a, (step L corr speeds s a).isSome := by
    intro r hr hp
    refine ⟨.main r, ?_⟩
    simp only [step, if_pos hr, mainStep]
    have : (s r).pc = 0 ∨ (s r).pc = 1 ∨ (s r).pc = 2 ∨ (s r).pc = 3 ∨ (s r).pc = 4 := by omega
    rcases this with hp | hp | hp | hp | hp <;> rw [hp] <;> simp only [Option.isSome_some]
    split <;> rfl
  have h0 := h 0 hL
  by_cases hp4 : (s 0).pc ≤ 4
  · exact hmain 0 hL hp4
  by_cases hp5 : (s 0).pc = 5
  · by_cases hall : ∀ q, q < L → (s q).get = 2
    · refine ⟨.main 0, ?_⟩
      simp only [step, if_pos hL, mainStep, hp5]
      rw [if_pos]
      · rfl
      · apply List.all_eq_true.2
        intro q hq
        have hq := List.mem_range.1 hq
        rw [(h q hq).rep2 (hall q hq)]; rfl
    · obtain ⟨q, hq⟩ := not_forall.1 hall
      obtain ⟨hq, hg⟩ := Classical.not_imp.1 hq
      have oq := h q hq
      by_cases hp : (s q).pc ≤ 4
      · exact hmain q hq hp
      · refine ⟨.reply q, ?_⟩
        simp only [step]
        rw [if_pos ⟨hq, by have := oq.get.2 (by omega); have := oq.getle; omega, oq.init.2 (by omega)⟩, oq.sp1 (by omega)]
        rfl
  · obtain ⟨r, hr, hpr⟩ := hn
    have o := h r hr
    have hset := o.set.2 (by omega)
    by_cases hp : (s r).pc ≤ 4
    · exact hmain r hr hp
    have hn5 : (s r).pc ≠ 5 := fun h5 => hp5 (by rw [← o.pc5 h5]; exact h5)
    have hle := o.pcle
    have hsle := o.setle
    by_cases h1 : (s r).set = 1
    · exact ⟨.setG r, by simp only [step]; rw [if_pos ⟨hr, h1⟩]; rfl⟩
    by_cases h2 : (s r).set = 2
    · exact ⟨.setI r, by simp only [step]; rw [if_pos ⟨hr, h2⟩]; rfl⟩
    refine ⟨.main r, ?_⟩
    simp only [step, if_pos hr, mainStep]
    have : (s r).pc = 6 ∨ (s r).pc = 7 := by omega
    rcases this with hp | hp <;> rw [hp] <;> simp only
    · rw [o.glob2 (by omega)]; rfl
    · rw [o.idx3 (by omega)]; rfl

/-- progress of a locality -/
def rank (l : Loc S) : Nat := l.pc + l.get + l.set

theorem rank_step {s t : St S} (h : Inv L corr speeds s) {a : Act} (hs : step L corr speeds s a = some t) :
    (∀ q, rank (s q) ≤ rank (t q)) ∧ ∃ q, q < L ∧ rank (s q) < rank (t q) := by
  have upd : ∀ {r : Nat} (l : Loc S), r < L → rank (s r) < rank l → (∀ q, rank (s q) ≤ rank (Function.update s r l q)) ∧ ∃ q, q < L ∧ rank (s q) < rank (Function.update s r l q) := by
    intro r l hr hlt
    refine ⟨fun q => ?_, r, hr, by rw [Function.update_self]; exact hlt⟩
    by_cases hq : q = r
    · subst hq; rw [Function.update_self]; exact Nat.le_of_lt hlt
    · rw [Function.update_of_ne hq]
  cases a with
  | main r =>
    simp only [step] at hs
    split at hs
    · rename_i hr
      have o := h r hr
      unfold mainStep at hs
      simp only at hs
      split at hs
      · rename_i hp
        rw [o.sp0 hp] at hs
        simp only [Option.isSome_none, Bool.false_eq_true, if_false, Option.some.injEq] at hs
        subst hs
        exact upd _ hr (by simp only [rank]; omega)
      · rename_i hp
        simp only [Option.some.injEq] at hs
        subst hs
        exact upd _ hr (by simp only [rank]; omega)
      · rename_i hp
        simp only [Option.some.injEq] at hs
        subst hs
        exact upd _ hr (by simp only [rank]; omega)
      · rename_i hp
        have hi : (s r).init = false := by
          cases hb : (s r).init with
          | false => rfl
          | true => exact absurd (o.init.1 hb) (by omega)
        rw [hi] at hs
        simp only [Bool.false_eq_true, if_false, Option.some.injEq] at hs
        subst hs
        exact upd _ hr (by simp only [rank]; omega)
      · rename_i hp
        split at hs
        · rename_i h0
          subst h0
          simp only [Option.some.injEq] at hs
          subst hs
          have hg : ∀ q, q < L → (s q).get = 0 := fun q hq => by
            rcases Nat.eq_zero_or_pos (s q).get with h' | h'
            · exact h'
            · exact absurd ((h q hq).get.1 h') (by omega)
          refine ⟨fun q => ?_, 0, hr, ?_⟩
          · by_cases hq : q < L
            · have := hg q hq
              simp only [if_pos hq, rank]
              by_cases hq0 : q = 0
              · subst hq0; simp only [if_true]; omega
              · simp only [if_neg hq0]; omega
            · simp only [if_neg hq]; exact Nat.le_refl _
          · have := hg 0 hr
            simp only [if_pos hr, rank, if_true]; omega
        · simp only [Option.some.injEq] at hs
          subst hs
          exact upd _ hr (by simp only [rank]; omega)
      · rename_i hp
        have h0 := o.pc5 hp
        subst h0
        split at hs
        · simp only [Option.some.injEq] at hs
          subst hs
          have hg : ∀ q, q < L → (s q).set = 0 := fun q hq => by
            rcases Nat.eq_zero_or_pos (s q).set with h' | h'
            · exact h'
            · exact absurd ((h q hq).set.1 h') (by omega)
          refine ⟨fun q => ?_, 0, hr, ?_⟩
          · by_cases hq : q < L
            · have := hg q hq
              simp only [if_pos hq, rank]
              by_cases hq0 : q = 0
              · subst hq0; simp only [if_true]; omega
              · simp only [if_neg hq0]; omega
            · simp only [if_neg hq]; exact Nat.le_refl _
          · have := hg 0 hr
            simp only [if_pos hr, rank, if_true]; omega
        · exact absurd hs (by simp)
      · rename_i hp
        obtain ⟨g, _, hs⟩ := Option.map_eq_some_iff.1 hs
        subst hs
        exact upd _ hr (by simp only [rank]; omega)
      · rename_i hp
        obtain ⟨g, _, hs⟩ := Option.map_eq_some_iff.1 hs
        subst hs
        exact upd _ hr (by simp only [rank]; omega)
      · exact absurd hs (by simp)
    · exact absurd hs (by simp)
  | reply r =>
    simp only [step] at hs
    split at hs
    · rename_i hc
      obtain ⟨g, _, hs⟩ := Option.map_eq_some_iff.1 hs
      subst hs
      exact upd _ hc.1 (by simp only [rank]; omega)
    · exact absurd hs (by simp)
  | setG r =>
    simp only [step] at hs
    split at hs
    · rename_i hc
      rw [(h r hc.1).glob (by omega)] at hs
      simp only [Option.isSome_none, Bool.false_eq_true, if_false, Option.some.injEq] at hs
      subst hs
      exact upd _ hc.1 (by simp only [rank]; omega)
    · exact absurd hs (by simp)
  | setI r =>
    simp only [step] at hs
    split at hs
    · rename_i hc
      rw [(h r hc.1).idx (by omega)] at hs
      simp only [Option.isSome_none, Bool.false_eq_true, if_false, Option.some.injEq] at hs
      subst hs
      exact upd _ hc.1 (by simp only [rank]; omega)
    · exact absurd hs (by simp)

theorem exec_length {as : List Act} : ∀ {s t : St S}, Inv L corr speeds s → exec L corr speeds s as = some t →
    (∑ q ∈ Finset.range L, rank (s q)) + as.length ≤ ∑ q ∈ Finset.range L, rank (t q) := by
  induction as with
  | nil => intro s t _ hs; simp only [exec, Option.some.injEq] at hs; rw [hs]; simp
  | cons a as ih =>
    intro s t h hs
    simp only [exec] at hs
    obtain ⟨u, hu, hs⟩ := Option.bind_eq_some_iff.1 hs
    obtain ⟨h1, q, hq, h2⟩ := rank_step L corr speeds h hu
    have h3 := ih (inv_step L corr speeds h hu) hs
    have h4 : ∑ q ∈ Finset.range L, rank (s q) < ∑ q ∈ Finset.range L, rank (u q) := Finset.sum_lt_sum (fun q _ => h1 q) ⟨q, Finset.mem_range.2 hq, h2⟩
    rw [List.length_cons]; omega

/-- no livelock: there are at most 13 steps per locality, whatever the schedule -/
theorem terminates {as : List Act} {s : St S} (hs : exec L corr speeds start as = some s) : as.length ≤ 13 * L := by
  have h := exec_length L corr speeds (inv_start L corr speeds) hs
  have hi := inv_exec L corr speeds (inv_start L corr speeds) hs
  have hb : ∑ q ∈ Finset.range L, rank (s q) ≤ ∑ _q ∈ Finset.range L, 13 := Finset.sum_le_sum fun q hq => by
    have o := hi q (Finset.mem_range.1 hq)
    have := o.pcle; have := o.getle; have := o.setle
    unfold rank; omega
  rw [Finset.sum_const, Finset.card_range, nsmul_eq_mul] at hb; simp only [Nat.cast_id] at hb
  omega

/-! ### the groups of the localities -/

theorem first_succ (r : Nat) : first speeds (r + 1) = first speeds r + (speeds r).length := by
  unfold first; rw [List.range_succ, List.map_append, List.sum_append]; simp

theorem first_mono {p q : Nat} (h : p ≤ q) : first speeds p ≤ first speeds q := by
  induction q with
  | zero => rw [Nat.le_zero.1 h]
  | succ q ih =>
    by_cases hp : p = q + 1
    · rw [hp]
    · rw [first_succ]; have := ih (by omega); omega

theorem indices_get {r : Nat} (h : r ≤ L) : (allIndices L speeds)[r]? = some (first speeds r) := by
  unfold allIndices; rw [List.getElem?_map, List.getElem?_range (by omega)]; rfl

theorem indices_length : (allIndices L speeds).length = L + 1 := by unfold allIndices; simp

theorem speeds_length : (allSpeeds L corr speeds).length = first speeds L := by
  unfold allSpeeds first
  rw [List.length_flatten, List.map_map]
  congr 1
  apply List.map_congr_left
  intro q _
  simp

/-- each group belongs to exactly one locality (the loops run from `localityIndices[rank]` to `localityIndices[rank + 1]`) -/
theorem owner {g : Nat} (hg : g < first speeds L) : ∃ r, (r < L ∧ first speeds r ≤ g ∧ g < first speeds (r + 1)) ∧ ∀ q, first speeds q ≤ g → g < first speeds (q + 1) → q = r := by
  have uniq : ∀ p q, first speeds p ≤ g → g < first speeds (p + 1) → first speeds q ≤ g → g < first speeds (q + 1) → q = p := by
    intro p q h1 h2 h3 h4
    rcases Nat.lt_trichotomy p q with h | h | h
    · have := first_mono speeds (Nat.succ_le_of_lt h); simp only [Nat.succ_eq_add_one] at this; omega
    · exact h.symm
    · have := first_mono speeds (Nat.succ_le_of_lt h); simp only [Nat.succ_eq_add_one] at this; omega
  have ex : ∀ M, g < first speeds M → ∃ r, r < M ∧ first speeds r ≤ g ∧ g < first speeds (r + 1) := by
    intro M
    induction M with
    | zero => intro h; exact absurd h (by simp [first])
    | succ M ih =>
      intro h
      by_cases hM : g < first speeds M
      · obtain ⟨r, hr, h⟩ := ih hM; exact ⟨r, by omega, h⟩
      · exact ⟨M, by omega, by omega, h⟩
  obtain ⟨r, hr⟩ := ex L hg
  exact ⟨r, hr, fun q h1 h2 => uniq r q hr.2.1 hr.2.2 h1 h2⟩

/-- the speed which the `i`-th group of locality `r` has in the vector for the load balancer is its own -/
theorem speed_of_group : ∀ (M : Nat) {r : Nat}, r < M → ∀ {i : Nat}, i < (speeds r).length → (allSpeeds M corr speeds)[first speeds r + i]? = (speeds r)[i]?.map corr := by
  intro M
  induction M with
  | zero => intro r h; exact absurd h (by omega)
  | succ M ih =>
    intro r hr i hi
    have e : allSpeeds (M + 1) corr speeds = allSpeeds M corr speeds ++ (speeds M).map corr := by unfold allSpeeds; rw [List.range_succ, List.map_append, List.flatten_append]; simp
    rw [e, List.getElem?_append, speeds_length]
    by_cases h : r = M
    · subst h
      rw [if_neg (by omega), Nat.add_sub_cancel_left, List.getElem?_map]
    · have h1 := first_mono speeds (show r + 1 ≤ M by omega)
      rw [first_succ] at h1
      rw [if_pos (by omega)]
      exact ih (by omega) hi

/-- negation: another simulator with the same `basename` (it has a default) can't be constructed, the promises of the first one are satisfied already -/
theorem same_basename_throws {as : List Act} {s : St S} (hs : exec L corr speeds start as = some s) {r : Nat} (hr : r < L) (h8 : (s r).pc = 8) :
    ∃ t, step L corr speeds (again s r) (.main r) = some t ∧ (t r).fault = true := by
  have o := inv_exec L corr speeds (inv_start L corr speeds) hs r hr
  refine ⟨Function.update (again s r) r { (again s r) r with fault := true }, ?_, by rw [Function.update_self]⟩
  have e : again s r r = { s r with pc := 0 } := by unfold again; rw [Function.update_self]
  simp only [step, if_pos hr, mainStep, e]
  rw [o.sp1 (by omega)]
  rfl

/-! ### examples -/

/-- the example in the code (hpxsimulator.cpp:62-66): 8, 10 and 2 groups -/
example : gather [List.replicate 8 1, List.replicate 10 2, List.replicate 2 3] = (List.replicate 8 1 ++ List.replicate 10 2 ++ List.replicate 2 3, [0, 8, 18, 20]) := by decide

/-- two localities; the actions arrive on locality 1 before it is ready, and have to wait -/
def sched : List Act := [.main 0, .main 0, .main 0, .main 0, .main 0, .reply 0, .main 1, .main 1, .main 1, .main 1, .reply 1, .main 0, .setG 1, .main 1, .main 1, .setI 1, .setG 0, .main 1, .setI 0, .main 0, .main 0]

example : (exec 2 (fun x : Nat => 10 * x) (fun r : Nat => if r = 0 then [1, 2] else [3]) start sched).map (fun s : St Nat => ((s 0).pc, (s 1).pc, (s 0).outG, (s 1).outG, (s 0).outI, (s 1).outI)) =
    some (8, 8, some [10, 20, 30], some [10, 20, 30], some [0, 2, 3], some [0, 2, 3]) := by rfl

/-- before locality 1 has set its promise, there is no reply -/
example : exec 2 (fun x : Nat => 10 * x) (fun r : Nat => if r = 0 then [1, 2] else [3]) start [.main 0, .main 0, .main 0, .main 0, .main 0, .main 1, .reply 1] |>.isNone := by decide

end LGD.C80
