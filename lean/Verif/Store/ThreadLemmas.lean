import Verif.Store.ThreadModel
import Verif.Props.C34
import Verif.Region.Access

/-!
# Lemmas on threaded updates
-/

namespace LGD.Thread
open LGD.C13 LGD.C14 LGD.Store LGD.C33 LGD.Line LGD.C34

variable {α : Type} {n : Nat} {wraps : Nat → Bool}

/-! ## the bodies of the loops consist of the steps -/

theorem wrapper_steps {st : Stencil} {fl : Flags} {upd' : Nat → α → List α → α} {nano : Nat} {old : Grid α} {ptrs : List Ptr} {p : Ptr} (m : Nat) : ∀ (j : Nat) (g : Grid α),
    wrapper st fl upd' nano old ptrs p m j g = (List.range' j m).foldlM (fun g (i : Nat) => (lineHood st fl old ptrs i).bind fun hood => (load g p i).bind fun self =>
      store g p i (upd' nano self hood)) g := by
  induction m with
  | zero => intro j g; rfl
  | succ m ih =>
    intro j g
    rw [wrapper, List.range'_succ, List.foldlM_cons]
    cases lineHood st fl old ptrs j with
    | none => rfl
    | some hood =>
      simp only [Option.bind_some, Option.bind_eq_bind]
      cases load g p j with
      | none => rfl
      | some self =>
        simp only [Option.bind_some]
        cases store g p j (upd' nano self hood) with
        | none => rfl
        | some g' =>
          simp only [Option.bind_some]
          have := ih (j + 1) g'
          push_cast at this
          rw [this]

theorem vanLoop_steps {st : Stencil} {upd' : Nat → α → List α → α} {nano : Nat} {v : View α} {loc' : Crd → Option Int} (c t : Crd) (m : Nat) : ∀ (j : Nat) (g : Grid α),
    vanLoop st upd' nano v loc' m (upd c 0 (c 0 + j)) (upd t 0 (t 0 + j)) g = (List.range' j m).foldlM (fun g (i : Nat) => (vanHood st v (upd c 0 (c 0 + i))).bind fun hood =>
      (addr g (loc' (upd t 0 (t 0 + i)))).bind fun p => (load g p 0).bind fun self => store g p 0 (upd' nano self hood)) g := by
  induction m with
  | zero => intro j g; rfl
  | succ m ih =>
    intro j g
    rw [vanLoop, List.range'_succ, List.foldlM_cons]
    cases vanHood st v (upd c 0 (c 0 + j)) with
    | none => rfl
    | some hood =>
      simp only [Option.bind_some, Option.bind_eq_bind]
      cases addr g (loc' (upd t 0 (t 0 + j))) with
      | none => rfl
      | some p =>
        simp only [Option.bind_some]
        cases load g p 0 with
        | none => rfl
        | some self =>
          simp only [Option.bind_some]
          cases store g p 0 (upd' nano self hood) with
          | none => rfl
          | some g' =>
            simp only [Option.bind_some]
            have := ih (j + 1) g'
            push_cast at this
            rw [← this, upd_upd, upd_upd]
            simp only [upd, if_true]
            rw [show c 0 + (j : Int) + 1 = c 0 + ((j : Int) + 1) by ring, show t 0 + (j : Int) + 1 = t 0 + ((j : Int) + 1) by ring]

theorem run_single (p : Path α) (s : Streak) (g : Grid α) : run p (steps p [s]) g = (List.range (p.count s)).foldlM (fun g j => p.cell s j g) g := by
  unfold run steps
  rw [List.flatMap_singleton, List.foldlM_map]

theorem vanStreak_run (st : Stencil) (upd' : Nat → α → List α → α) (nano : Nat) (srcOff tgtOff : Crd) (v : View α) (loc' : Crd → Option Int) (s : Streak) (g : Grid α) :
    vanStreak st upd' nano srcOff tgtOff v loc' s g = run (vanPath st upd' nano srcOff tgtOff v loc') (steps (vanPath st upd' nano srcOff tgtOff v loc') [s]) g := by
  rw [run_single]
  unfold vanStreak vanPath vanCount
  have := vanLoop_steps (st := st) (upd' := upd') (nano := nano) (v := v) (loc' := loc') (fun k => s.origin k + srcOff k) (fun k => s.origin k + tgtOff k)
    (s.endX - s.origin 0).toNat 0 g
  rw [Nat.cast_zero, add_zero, add_zero, upd_self, upd_self] at this
  rw [show s.endX + srcOff 0 - (s.origin 0 + srcOff 0) = s.endX - s.origin 0 by ring, this, List.range_eq_range']
  rfl

theorem foldlM_congr_inv {β γ : Type} (I : γ → Prop) (f f' : γ → β → Option γ) (l : List β) : ∀ g, I g → (∀ b ∈ l, ∀ g, I g → f g b = f' g b ∧ ∀ g', f' g b = some g' → I g') →
    l.foldlM f g = l.foldlM f' g := by
  induction l with
  | nil => intro g _ _; rfl
  | cons b l ih =>
    intro g hg h
    obtain ⟨h1, h2⟩ := h b (List.mem_cons_self ..) g hg
    rw [List.foldlM_cons, List.foldlM_cons, h1]
    cases e : f' g b with
    | none => rfl
    | some g' => exact ih g' (h2 g' e) fun b' hb' => h b' (List.mem_cons_of_mem _ hb')

theorem bind_foldlM_append {β γ : Type} (f : γ → β → Option γ) (a b : List β) (g : γ) : ((a ++ b).foldlM f g) = (a.foldlM f g).bind fun g => b.foldlM f g := by
  rw [List.foldlM_append]; rfl

theorem addr_len {g g' : Grid α} (h : g'.cells.length = g.cells.length) (l : Option Int) : addr g' l = addr g l := by
  cases l with
  | none => rfl
  | some i => simp only [addr, h]

/-- the functor for a row performs the steps of the line pointer path -/
theorem lineFunctor_steps {st : Stencil} {fl : Flags} {upd' : Nat → α → List α → α} {nano : Nat} {s : Streak} {old : Grid α} {ptrs : List Ptr} {p : Ptr} (g : Grid α) :
    lineFunctor st fl upd' nano s old ptrs p g = (List.range (max 1 (s.endX - s.origin 0).toNat)).foldlM (fun g (j : Nat) =>
      (lineHood st { fl with west := decide (j = 0), east := decide ((j : Int) + 1 = s.endX - s.origin 0) } old ptrs j).bind fun hood => (load g p j).bind fun self =>
        store g p j (upd' nano self hood)) g := by
  have key : ∀ (w e : Bool) (a m : Nat) (g : Grid α), (∀ j, a ≤ j → j < a + m → decide (j = 0) = w ∧ decide ((j : Int) + 1 = s.endX - s.origin 0) = e) →
      wrapper st { fl with west := w, east := e } upd' nano old ptrs p m a g = (List.range' a m).foldlM (fun g (j : Nat) =>
        (lineHood st { fl with west := decide (j = 0), east := decide ((j : Int) + 1 = s.endX - s.origin 0) } old ptrs j).bind fun hood => (load g p j).bind fun self =>
          store g p j (upd' nano self hood)) g := by
    intro w e a m g h
    rw [wrapper_steps]
    refine foldlM_congr_inv (fun _ => True) _ _ _ g trivial fun j hj g _ => ⟨?_, fun _ _ => trivial⟩
    have hj := List.mem_range'_1.mp hj
    obtain ⟨h1, h2⟩ := h j hj.1 hj.2
    rw [h1, h2]
  unfold lineFunctor
  rw [List.range_eq_range']
  by_cases h1 : s.endX = s.origin 0 + 1
  · rw [if_pos h1]
    have := key true true 0 (s.endX - s.origin 0).toNat g (fun j a b => by simp; omega)
    rw [Nat.cast_zero] at this
    rw [this, show max 1 (s.endX - s.origin 0).toNat = (s.endX - s.origin 0).toNat by omega]
  · rw [if_neg h1]
    have k0 := key true false 0 1 g (fun j a b => by simp; omega)
    rw [Nat.cast_zero] at k0
    by_cases h2 : s.endX - s.origin 0 ≤ 0
    · rw [k0, show max 1 (s.endX - s.origin 0).toNat = 1 by omega, show (s.endX - s.origin 0 - 1 - 1).toNat = 0 by omega,
        show (s.endX - s.origin 0 - max 1 (s.endX - s.origin 0 - 1)).toNat = 0 by omega]
      simp only [wrapper]
      cases ((List.range' 0 1).foldlM (fun g (j : Nat) =>
        (lineHood st { fl with west := decide (j = 0), east := decide ((j : Int) + 1 = s.endX - s.origin 0) } old ptrs j).bind fun hood => (load g p j).bind fun self =>
          store g p j (upd' nano self hood)) g) <;> rfl
    · obtain ⟨m, hm⟩ : ∃ m : Nat, s.endX - s.origin 0 = m + 2 := ⟨(s.endX - s.origin 0 - 2).toNat, by omega⟩
      have k1 := fun g => key false false 1 m g (fun j a b => by simp; omega)
      have k2 := fun g => key false true (m + 1) 1 g (fun j a b => by simp; omega)
      rw [Nat.cast_one] at k1
      push_cast at k2
      rw [k0, show (s.endX - s.origin 0 - 1 - 1).toNat = m by omega, show max 1 (s.endX - s.origin 0 - 1) = (m : Int) + 1 by omega,
        show (s.endX - s.origin 0 - ((m : Int) + 1)).toNat = 1 by omega, show max 1 (s.endX - s.origin 0).toNat = 1 + m + 1 by omega]
      simp only [k1, k2]
      rw [← List.range'_append_1 (s := 0) (m := 1 + m) (n := 1), bind_foldlM_append, ← List.range'_append_1 (s := 0) (m := 1) (n := m), bind_foldlM_append, Option.bind_assoc]
      rw [show 0 + (1 + m) = m + 1 by omega]

theorem lineStreak_run (st : Stencil) (upd' : Nat → α → List α → α) (nano : Nat) (srcOff tgtOff : Crd) (v : View α) (loc' : Crd → Option Int) (s : Streak) (g : Grid α) :
    lineStreak n wraps st upd' nano srcOff tgtOff v loc' s g =
      run (linePath n wraps st upd' nano srcOff tgtOff v loc') (steps (linePath n wraps st upd' nano srcOff tgtOff v loc') [s]) g := by
  rw [run_single]
  unfold lineStreak linePath lineCount
  simp only
  have hcount : ∃ m, max 1 (s.endX - s.origin 0).toNat = m + 1 := ⟨max 1 (s.endX - s.origin 0).toNat - 1, by omega⟩
  obtain ⟨m, hm⟩ := hcount
  cases e1 : assemble st v s with
  | none =>
    rw [hm, List.range_succ_eq_map, List.foldlM_cons]
    unfold lineCell
    rw [e1]
    rfl
  | some ptrs =>
    cases e2 : addr g (loc' fun k => s.origin k + tgtOff k) with
    | none =>
      rw [hm, List.range_succ_eq_map, List.foldlM_cons]
      unfold lineCell
      simp only [e1, e2]
      rfl
    | some p =>
      simp only [Option.bind_some]
      rw [lineFunctor_steps]
      simp only [show s.endX + srcOff 0 - (s.origin 0 + srcOff 0) = s.endX - s.origin 0 by ring]
      refine foldlM_congr_inv (fun g1 => g1.cells.length = g.cells.length) _ _ _ g rfl fun j _ g1 hg1 => ⟨?_, fun g2 h2 => ?_⟩
      · unfold lineCell
        simp only [e1, Option.bind_some]
        rw [addr_len hg1, e2, Option.bind_some]
      · unfold lineCell at h2
        obtain ⟨_, _, h2⟩ := Option.bind_eq_some_iff.mp h2
        obtain ⟨_, _, h2⟩ := Option.bind_eq_some_iff.mp h2
        obtain ⟨_, _, h2⟩ := Option.bind_eq_some_iff.mp h2
        obtain ⟨_, _, h2⟩ := Option.bind_eq_some_iff.mp h2
        rw [store_len h2, hg1]

/-- a task performs the bodies of its streaks, one after the other -/
theorem run_task (p : Path α) (t : List Streak) (g : Grid α) : run p (steps p t) g = t.foldlM (fun g s => run p (steps p [s]) g) g := by
  induction t generalizing g with
  | nil => rfl
  | cons s t ih =>
    have : steps p (s :: t) = steps p [s] ++ steps p t := by simp [steps]
    rw [this, List.foldlM_cons]
    unfold run at ih ⊢
    rw [List.foldlM_append]
    congr 1
    funext g
    exact ih g

/-! ## interleavings -/

theorem Interleave.perm {β : Type} {ts : List (List β)} {l : List β} (h : Interleave ts l) : l.Perm ts.flatten := by
  induction h with
  | done ts h =>
    have : ts.flatten = [] := by
      rw [List.flatten_eq_nil_iff]
      exact h
    rw [this]
  | step ts₁ a t ts₂ l h ih =>
    rw [List.flatten_append, List.flatten_cons] at ih ⊢
    rw [List.cons_append]
    exact (ih.cons a).trans List.perm_middle.symm

/-- the tasks may be executed one after the other -/
theorem Interleave.serial {β : Type} (ts : List (List β)) : Interleave ts ts.flatten := by
  have : ∀ (ts₁ ts : List (List β)), (∀ t ∈ ts₁, t = []) → Interleave (ts₁ ++ ts) ts.flatten := by
    intro ts₁ ts
    induction ts generalizing ts₁ with
    | nil => intro h; simpa using Interleave.done ts₁ h
    | cons t ts ih =>
      intro h
      rw [List.flatten_cons]
      induction t with
      | nil =>
        have := ih (ts₁ ++ [[]]) (fun t ht => by
          rcases List.mem_append.mp ht with h' | h'
          · exact h t h'
          · simpa using h')
        simpa using this
      | cons a t iht => exact Interleave.step ts₁ a t ts _ iht
  simpa using this [] ts (by simp)

/-! ## planes -/

/-- an iterator denotes streak `i`, or the end of the region -/
def Here (n : Nat) (idx : Idx) (i : Nat) (it : SIter) : Prop := (i < (idx 0).length → At n idx (fun _ => 0) 0 i it) ∧ (i = (idx 0).length → siEq n it (siEnd idx) = true)

theorem here_pos {idx : Idx} {i : Nat} {it : SIter} (hi : i ≤ (idx 0).length) (h : Here n idx i it) : it.pos 0 = i := by
  by_cases h1 : i < (idx 0).length
  · rw [(h.1 h1).pos 0 (by omega)]; rfl
  · have h2 := h.2 (by omega)
    unfold siEq at h2
    rw [List.all_eq_true] at h2
    have := h2 0 (by simp)
    rw [decide_eq_true_eq] at this
    have e : (siEnd idx).pos 0 = (idx 0).length := rfl
    omega

theorem here_eq {idx : Idx} {i : Nat} {a b : SIter} (hi : i ≤ (idx 0).length) (ha : Here n idx i a) (hb : Here n idx i b) : siEq n a b = true := by
  unfold siEq
  rw [List.all_eq_true]
  intro k hk
  have hk : k ≤ n := by have := List.mem_range.mp hk; omega
  rw [decide_eq_true_eq]
  by_cases h1 : i < (idx 0).length
  · rw [(ha.1 h1).pos k hk, (hb.1 h1).pos k hk]
  · have h2 := ha.2 (by omega)
    have h3 := hb.2 (by omega)
    unfold siEq at h2 h3
    rw [List.all_eq_true] at h2 h3
    have h2 := h2 k (by simp; omega)
    have h3 := h3 k (by simp; omega)
    rw [decide_eq_true_eq] at h2 h3
    rw [h2, h3]

theorem untilIt_spec {idx : Idx} {t : Tree n} (h : Rep n idx t) (j : Nat) (e : SIter) (hj : j ≤ (idx 0).length) (he : Here n idx j e) : ∀ (m i : Nat) (it : SIter) (fuel : Nat),
    i + m = j → m < fuel → Here n idx i it → untilIt n idx e fuel it = some ((List.range' i m).map (streakAt n idx)) := by
  intro m
  induction m with
  | zero =>
    intro i it fuel hij hf hit
    obtain ⟨fuel, rfl⟩ : ∃ f, fuel = f + 1 := ⟨fuel - 1, by omega⟩
    rw [untilIt, here_eq (i := j) hj (by rw [← hij]; exact hit) he]
    rfl
  | succ m ih =>
    intro i it fuel hij hf hit
    obtain ⟨fuel, rfl⟩ : ∃ f, fuel = f + 1 := ⟨fuel - 1, by omega⟩
    have hat := hit.1 (by omega)
    obtain ⟨it', h1, h2, h3⟩ := siNext_spec h (fun _ => 0) 0 i it (by omega) hat
    have hne : siEq n it e = false := siEq_false_of_pos (by rw [here_pos (by omega) hit, here_pos hj he]; omega)
    rw [untilIt, hne, h1]
    simp only [Bool.false_eq_true, if_false, Option.bind_some]
    rw [ih (i + 1) it' fuel (by omega) (by omega) ⟨h2, fun h => (h3 h).1⟩, List.range'_succ, List.map_cons, hat.streak, shiftS_zero]
    rfl

/-- index of the first streak of plane `c` -/
def first (n : Nat) (idx : Idx) (c : Nat) : Nat := (List.range (idx 0).length).countP fun j => decide (P idx j n < c)

theorem countP_lt (N i : Nat) (hi : i ≤ N) : (List.range N).countP (fun j => decide (j < i)) = i := by
  induction N generalizing i with
  | zero => have : i = 0 := by omega
            subst this; rfl
  | succ N ih =>
    rw [List.range_succ, List.countP_append]
    by_cases h : i ≤ N
    · rw [ih i h]
      simp; omega
    · have : i = N + 1 := by omega
      subst this
      have e : (List.range N).countP (fun j => decide (j < N + 1)) = (List.range N).length := by
        rw [List.countP_eq_length]
        intro a ha
        have := List.mem_range.mp ha
        simp; omega
      rw [e]
      simp

theorem first_le (idx : Idx) (c : Nat) : first n idx c ≤ (idx 0).length := by
  unfold first
  exact (List.countP_le_length).trans (by simp)

theorem first_mono (idx : Idx) (c : Nat) : first n idx c ≤ first n idx (c + 1) := by
  unfold first
  refine List.countP_mono_left fun j _ hj => ?_
  simp only [decide_eq_true_eq] at hj ⊢
  omega

theorem first_zero (idx : Idx) : first n idx 0 = 0 := by
  unfold first
  rw [List.countP_eq_zero]
  intro a _
  simp

theorem first_end {idx : Idx} {t : Tree n} (h : Rep n idx t) (c : Nat) (hc : (idx n).length ≤ c) : first n idx c = (idx 0).length := by
  unfold first
  have : (List.range (idx 0).length).countP (fun j => decide (P idx j n < c)) = (List.range (idx 0).length).length := by
    rw [List.countP_eq_length]
    intro a ha
    have := P_lt h (List.mem_range.mp ha) n (le_refl _)
    simp; omega
  rw [this, List.length_range]

theorem planeIt_here {idx : Idx} {t : Tree n} (h : Rep n idx t) (c : Nat) : ∃ it, planeIt n idx c = some it ∧ Here n idx (first n idx c) it := by
  by_cases hc : c < (idx n).length
  · obtain ⟨it, i, h1, h2, h3, h4, h5⟩ := planeIt_spec h c hc
    refine ⟨it, h1, ?_⟩
    have : first n idx c = i := by
      unfold first
      rw [← countP_lt (idx 0).length i (by omega)]
      refine List.countP_congr fun j hj => ?_
      rw [decide_eq_true_eq, decide_eq_true_eq]
      exact h4 j (List.mem_range.mp hj)
    rw [this]
    exact ⟨fun _ => h3, fun hh => by omega⟩
  · rw [first_end h c (by omega)]
    unfold planeIt
    by_cases h0 : c = 0
    · obtain ⟨it, i1, i2, i3⟩ := siBegin_spec h (fun _ => 0) 0
      have hn : (idx n).length = 0 := by omega
      have h00 : (idx 0).length = 0 := by
        have := h.empty_iff
        rw [h.len] at hn
        exact this.2 ((topLen_eq_zero n t).1 hn)
      exact ⟨it, by rw [if_pos h0, i1], fun hh => by omega, fun _ => i3 h00⟩
    · exact ⟨siEnd idx, by rw [if_neg h0, if_pos (by omega)], fun hh => by omega, fun _ => siEq_end_refl n idx⟩

/-- the streaks of a plane -/
def planeOf (n : Nat) (idx : Idx) (c : Nat) : List Streak := (List.range' (first n idx c) (first n idx (c + 1) - first n idx c)).map (streakAt n idx)

theorem plane_eq {idx : Idx} {t : Tree n} (h : Rep n idx t) (c : Nat) : plane n idx c = some (planeOf n idx c) := by
  obtain ⟨e, h1, h2⟩ := planeIt_here h (c + 1)
  obtain ⟨it, h3, h4⟩ := planeIt_here h c
  unfold plane
  rw [h1, h3, Option.bind_some, Option.bind_some]
  have hm := first_mono (n := n) idx c
  have hl := first_le (n := n) idx (c + 1)
  exact untilIt_spec h (first n idx (c + 1)) e hl h2 _ (first n idx c) it _ (by omega) (by omega) h4

theorem mapM_eq_map {β γ : Type} (f : β → Option γ) (f' : β → γ) (l : List β) (h : ∀ b ∈ l, f b = some (f' b)) : l.mapM f = some (l.map f') := by
  induction l with
  | nil => rfl
  | cons a l ih => rw [List.mapM_cons, h a (List.mem_cons_self ..), ih fun b hb => h b (List.mem_cons_of_mem _ hb)]; rfl

theorem hpxLoop_eq {idx : Idx} {t : Tree n} (h : Rep n idx t) (r : Nat) : ∀ (i : Nat) (last : SIter), Here n idx (first n idx i) last →
    hpxLoop n idx r i last = some ((List.range' i r).map (planeOf n idx)) := by
  induction r with
  | zero => intro i last _; rfl
  | succ r ih =>
    intro i last hl
    obtain ⟨e, h1, h2⟩ := planeIt_here h (i + 1)
    have hm := first_mono (n := n) idx i
    have hle := first_le (n := n) idx (i + 1)
    rw [hpxLoop, h1, Option.bind_some, untilIt_spec h (first n idx (i + 1)) e hle h2 (first n idx (i + 1) - first n idx i) (first n idx i) last _ (by omega) (by omega) hl, Option.bind_some, ih (i + 1) e h2]
    rfl

/-- all planes, one after the other, are all streaks -/
theorem planes_flatten {idx : Idx} {t : Tree n} (h : Rep n idx t) : ((List.range (idx n).length).map (planeOf n idx)).flatten = (List.range (idx 0).length).map (streakAt n idx) := by
  have : ∀ m, ((List.range m).map (planeOf n idx)).flatten = (List.range (first n idx m)).map (streakAt n idx) := by
    intro m
    induction m with
    | zero => rw [first_zero]; rfl
    | succ m ih =>
      rw [List.range_succ, List.map_append, List.flatten_append, ih]
      simp only [List.map_cons, List.map_nil, List.flatten_cons, List.flatten_nil, List.append_nil, planeOf]
      rw [← List.map_append, List.range_eq_range', List.range_eq_range']
      congr 1
      have hm := first_mono (n := n) idx m
      have e := List.range'_append_1 (s := 0) (m := first n idx m) (n := first n idx (m + 1) - first n idx m)
      rw [Nat.zero_add] at e
      rw [e]
      congr 1
      omega
  rw [this, first_end h _ (le_refl _)]

/-! ## tranches -/

/-- a part of a streak -/
structure Sub (t s : Streak) : Prop where
  lo : s.origin 0 ≤ t.origin 0
  pos : t.origin 0 < t.endX
  hi : t.endX ≤ s.endX
  rest : ∀ k, k ≠ 0 → t.origin k = s.origin k

theorem coordsFrom_congr (s t : Streak) (h : ∀ k, k ≠ 0 → t.origin k = s.origin k) (m : Nat) : ∀ x, coordsFrom t m x = coordsFrom s m x := by
  induction m with
  | zero => intro x; rfl
  | succ m ih =>
    intro x
    rw [coordsFrom, coordsFrom, ih]
    congr 1
    funext k
    unfold upd
    split
    · rfl
    · exact h k ‹_›

theorem coordsFrom_append (s : Streak) (a b : Nat) : ∀ x, coordsFrom s (a + b) x = coordsFrom s a x ++ coordsFrom s b (x + a) := by
  induction a with
  | zero => intro x; simp [coordsFrom]
  | succ a ih =>
    intro x
    rw [show a + 1 + b = (a + b) + 1 by omega, coordsFrom, coordsFrom, ih, List.cons_append]
    congr 3
    push_cast
    ring

theorem tranches_spec (gran : Int) (hg : 0 < gran) : ∀ (fuel : Nat) (s : Streak), 0 ≤ s.origin 0 → s.origin 0 < s.endX → (s.endX - s.origin 0).toNat < fuel →
    ∃ l, tranches gran fuel s = some l ∧ l.flatMap coordsOf = coordsOf s ∧ ∀ t ∈ l, Sub t s ∧ t.endX - t.origin 0 ≤ gran := by
  intro fuel
  induction fuel with
  | zero => intro s _ _ h; omega
  | succ fuel ih =>
    intro s h0 h1 hf
    rw [tranches]
    by_cases hlen : s.endX - s.origin 0 > gran
    · rw [if_pos hlen, if_neg (by omega)]
      simp only
      have hm : (s.origin 0).tmod gran = s.origin 0 % gran := Int.tmod_eq_emod_of_nonneg h0
      have hr1 := Int.emod_lt_of_pos (s.origin 0) hg
      have hr2 := Int.emod_nonneg (s.origin 0) (b := gran) (by omega)
      rw [hm]
      obtain ⟨e, he⟩ : ∃ e, e = s.origin 0 + gran - s.origin 0 % gran := ⟨_, rfl⟩
      rw [← he]
      have hu : upd s.origin 0 e 0 = e := by simp [upd]
      obtain ⟨l, l1, l2, l3⟩ := ih { s with origin := upd s.origin 0 e } (by simp only [hu]; omega) (by simp only [hu]; omega) (by simp only [hu]; omega)
      refine ⟨{ s with endX := e } :: l, by rw [l1]; rfl, ?_, ?_⟩
      · rw [List.flatMap_cons, l2]
        unfold coordsOf
        simp only [hu]
        rw [coordsFrom_congr s { s with endX := e } (fun _ _ => rfl),
          coordsFrom_congr s { s with origin := upd s.origin 0 e } (fun k hk => by simp [upd, hk]),
          show (s.endX - s.origin 0).toNat = (e - s.origin 0).toNat + (s.endX - e).toNat by omega, coordsFrom_append,
          show s.origin 0 + ((e - s.origin 0).toNat : Int) = e by omega]
      · intro t ht
        rcases List.mem_cons.mp ht with rfl | ht
        · exact ⟨⟨le_refl _, by simp only; omega, by simp only; omega, fun _ _ => rfl⟩, by simp only; omega⟩
        · obtain ⟨⟨a, b, c, d⟩, f⟩ := l3 t ht
          simp only [hu] at a c d
          exact ⟨⟨by omega, b, c, fun k hk => by rw [d k hk]; simp [upd, hk]⟩, f⟩
    · rw [if_neg hlen]
      exact ⟨[s], rfl, by simp, fun t ht => by
        rw [List.mem_singleton] at ht
        subst ht
        exact ⟨⟨le_refl _, h1, le_refl _, fun _ _ => rfl⟩, by omega⟩⟩

theorem sub_refl (s : Streak) (h : s.origin 0 < s.endX) : Sub s s := ⟨le_refl _, h, le_refl _, fun _ _ => rfl⟩

/-- **the tasks cover the streaks of the region, in order** -/
theorem tasks_spec (sp : Spec) (region : Idx) (hr : RegOK n region) (ss : List Streak) (hss : allStreaks n region (fun _ => 0) 0 = some ss) (hlen : ∀ s ∈ ss, s.origin 0 < s.endX)
    (hf : sp.preferFine = true → 0 < sp.gran ∧ ∀ s ∈ ss, 0 ≤ s.origin 0) :
    ∃ ts, tasks n sp region = some ts ∧ ts.flatten.flatMap coordsOf = ss.flatMap coordsOf ∧ ∀ t ∈ ts.flatten, ∃ s ∈ ss, Sub t s := by
  obtain ⟨t, ht⟩ := hr
  have hss' : ss = (List.range (region 0).length).map (streakAt n region) := by
    have := allStreaks_eq ht (fun _ => 0) 0
    rw [hss] at this
    simp only [shiftS_zero] at this
    exact Option.some.inj this
  have hcoarse : ∀ ts, ts = (List.range (region n).length).map (planeOf n region) → ts.flatten.flatMap coordsOf = ss.flatMap coordsOf ∧ ∀ t ∈ ts.flatten, ∃ s ∈ ss, Sub t s := by
    rintro ts rfl
    rw [planes_flatten ht, ← hss']
    exact ⟨rfl, fun t ht => ⟨t, ht, sub_refl t (hlen t ht)⟩⟩
  have homp : ompPlanes n region = some ((List.range (region n).length).map (planeOf n region)) := mapM_eq_map _ _ _ fun c _ => plane_eq ht c
  have hhpx : hpxPlanes n region = some ((List.range (region n).length).map (planeOf n region)) := by
    obtain ⟨it, i1, i2⟩ := planeIt_here ht 0
    unfold hpxPlanes
    have : siBegin n region (fun _ => 0) 0 = some it := by
      rw [← i1]
      rfl
    rw [this, Option.bind_some, hpxLoop_eq ht _ 0 it i2, List.range_eq_range']
  have hfine : sp.preferFine = true → ∃ ts, fine n region sp.gran = some ts ∧ ts.flatten.flatMap coordsOf = ss.flatMap coordsOf ∧ ∀ t ∈ ts.flatten, ∃ s ∈ ss, Sub t s := by
    intro hp
    obtain ⟨hg, h0⟩ := hf hp
    have hall : ∀ l : List Streak, (∀ s ∈ l, s ∈ ss) → ∃ ls, (l.mapM fun s => tranches sp.gran ((s.endX - s.origin 0).toNat + 1) s) = some ls ∧
        ls.flatten.flatMap coordsOf = l.flatMap coordsOf ∧ ∀ t ∈ ls.flatten, ∃ s ∈ ss, Sub t s := by
      intro l
      induction l with
      | nil => intro _; exact ⟨[], rfl, rfl, fun t ht => by simp at ht⟩
      | cons s l ih =>
        intro hl
        obtain ⟨ls, e1, e2, e3⟩ := ih fun s' hs' => hl s' (List.mem_cons_of_mem _ hs')
        have hs := hl s (List.mem_cons_self ..)
        obtain ⟨tr, t1, t2, t3⟩ := tranches_spec sp.gran hg ((s.endX - s.origin 0).toNat + 1) s (h0 s hs) (hlen s hs) (by omega)
        refine ⟨tr :: ls, by rw [List.mapM_cons, t1, e1]; rfl, ?_, ?_⟩
        · rw [List.flatten_cons, List.flatMap_append, e2, t2, List.flatMap_cons]
        · intro t ht
          rw [List.flatten_cons] at ht
          rcases List.mem_append.mp ht with ht | ht
          · exact ⟨s, hs, (t3 t ht).1⟩
          · exact e3 t ht
    obtain ⟨ls, e1, e2, e3⟩ := hall ss fun _ h => h
    have hflat : (ls.flatten.map fun s => [s]).flatten = ls.flatten := by
      generalize ls.flatten = l
      induction l with
      | nil => rfl
      | cons a l ih => rw [List.map_cons, List.flatten_cons, ih]; rfl
    refine ⟨ls.flatten.map fun s => [s], ?_, by rw [hflat, e2], by rw [hflat]; exact e3⟩
    unfold fine
    rw [hss, Option.bind_some, e1]
    rfl
  unfold tasks
  split
  · split
    · exact ⟨_, homp, hcoarse _ rfl⟩
    · split
      · exact ⟨_, homp, hcoarse _ rfl⟩
      · rename_i hp
        exact hfine (by simpa using hp)
  · split
    · split
      · exact ⟨_, hhpx, hcoarse _ rfl⟩
      · rename_i hp
        exact hfine (by simpa using hp)
    · refine ⟨[ss], by rw [hss]; rfl, by simp, fun t ht => ?_⟩
      simp only [List.flatten_cons, List.flatten_nil, List.append_nil] at ht
      exact ⟨t, ht, sub_refl t (hlen t ht)⟩

/-! ## steps update single cells -/

/-- the coordinate of a step -/
def cellOf (a : Streak × Nat) : Crd := upd a.1.origin 0 (a.1.origin 0 + a.2)

theorem vanCell_eq (st : Stencil) (upd' : Nat → α → List α → α) (nano : Nat) (srcOff tgtOff : Crd) (v : View α) (loc' : Crd → Option Int) (a : Streak × Nat) (g : Grid α) :
    vanCell st upd' nano srcOff tgtOff v loc' a.1 a.2 g = cellStep st upd' nano v loc' srcOff tgtOff (cellOf a) g := by
  unfold vanCell cellStep cellOf
  rw [upd_add, upd_add, show a.1.origin 0 + srcOff 0 + (a.2 : Int) = a.1.origin 0 + a.2 + srcOff 0 by ring,
    show a.1.origin 0 + tgtOff 0 + (a.2 : Int) = a.1.origin 0 + a.2 + tgtOff 0 by ring]

theorem rowAt_sub {t s : Streak} (h : Sub t s) (r : Rel) (x : Int) : rowAt t r x = rowAt s r x := by
  funext k
  unfold rowAt
  split
  · rfl
  · rw [h.rest k ‹_›]

/-- parts of streaks have rows -/
theorem rows_sub {st : Stencil} (hst : StencilOK n st) {fl : Flags} {v : View α} {s t : Streak} (hr : RowsOK st fl v s) (h : Sub t s) : RowsOK st fl v t := by
  have h1 := h.lo
  have h2 := h.pos
  have h3 := h.hi
  refine ⟨fun r hrr => ?_, fun r hrr c hc => ?_⟩
  · rcases hr.row r hrr with ⟨a, b⟩ | ⟨a, i, b⟩
    · exact Or.inl ⟨a, fun x x1 x2 => by rw [rowAt_sub h]; exact b x (by omega) (by omega)⟩
    · refine Or.inr ⟨a, i + (t.origin 0 - s.origin 0), fun x x1 x2 => ?_⟩
      rw [rowAt_sub h, show i + (t.origin 0 - s.origin 0) + (x - t.origin 0) = i + (x - s.origin 0) by ring]
      exact b x (by omega) (by omega)
  · have hmid : ∀ x, s.origin 0 ≤ x → x < s.endX → ∃ p, addr v.mem (v.loc (rowAt s r x)) = some p := by
      intro x x1 x2
      rcases hr.row r hrr with ⟨a, b⟩ | ⟨a, i, b⟩
      · rw [b x x1 x2]; exact ⟨_, rfl⟩
      · obtain ⟨c1, c2, c3⟩ := b x x1 x2
        rw [c1]
        simp only [addr]
        rw [if_pos ⟨c2, c3⟩]
        exact ⟨_, rfl⟩
    have hends := hr.ends r hrr _ (lineCoord_eq s r (hst.x r hrr))
    rw [lineCoord_eq t r (hst.x r hrr)] at hc
    cases hc
    rw [rowAt_sub h]
    split
    · rename_i hx
      rw [if_pos hx] at hends
      by_cases e : t.origin 0 = s.origin 0
      · rw [e]; exact hends
      · exact hmid _ (by omega) (by omega)
    · rename_i hx
      rw [if_neg hx] at hends
      split
      · exact hmid _ (by omega) (by omega)
      · rename_i hx2
        rw [if_neg hx2] at hends
        by_cases e : t.endX = s.endX
        · rw [e]; exact hends
        · exact hmid _ (by omega) (by omega)

theorem rowFlags_congr (v : View α) (a b : Crd) (h : ∀ k, k ≠ 0 → a k = b k) : rowFlags n wraps v a = rowFlags n wraps v b := by
  unfold rowFlags
  rw [h 1 (by omega), h 2 (by omega)]

/-- a step of the line pointer path is the update of one cell -/
theorem lineCell_eq {st : Stencil} (hst : StencilOK n st) (upd' : Nat → α → List α → α) (nano : Nat) (tgtOff : Crd) (v : View α) (loc' : Crd → Option Int) (t : Streak) (j : Nat)
    (hj : (j : Int) < t.endX - t.origin 0) (hr : RowsOK st (rowFlags n wraps v t.origin) v t) (i : Int) (g : Grid α)
    (hi : ∀ j, 0 ≤ j → j < t.endX - t.origin 0 → loc' (upd (fun k => t.origin k + tgtOff k) 0 (t.origin 0 + tgtOff 0 + j)) = some (i + j) ∧ 0 ≤ i + j ∧ i + j < g.cells.length)
    (hv : vanHood st v (cellOf (t, j)) = st.coords.mapM fun r => rd v (fun k => cellOf (t, j) k + relCrd r k)) :
    lineCell n wraps st upd' nano (fun _ => 0) tgtOff v loc' t j g = cellStep st upd' nano v loc' (fun _ => 0) tgtOff (cellOf (t, j)) g := by
  obtain ⟨ptrs, e1, hp⟩ := assemble_ok hst hr
  obtain ⟨i1, i2, i3⟩ := hi 0 (le_refl _) (by omega)
  obtain ⟨j1, j2, j3⟩ := hi j (by omega) hj
  have e3 : loc' (fun k => t.origin k + tgtOff k) = some i := by
    rw [add_zero, add_zero] at i1
    rw [← i1]
    congr 1
    exact (upd_self _ _).symm
  have hh := lineHood_eq hst hr hp (t.origin 0 + j) (by omega) (by omega) (decide (j = 0)) (decide ((j : Int) + 1 = t.endX - t.origin 0)) (by simp) (by simp; omega)
  rw [show t.origin 0 + (j : Int) - t.origin 0 = j by ring] at hh
  unfold lineCell cellStep
  simp only [add_zero]
  have e4 : loc' (fun k => cellOf (t, j) k + tgtOff k) = some (i + j) := by
    unfold cellOf
    rw [upd_add, show t.origin 0 + (j : Int) + tgtOff 0 = t.origin 0 + tgtOff 0 + j by ring]
    exact j1
  have e5 : vanHood st v (fun k => cellOf (t, j) k) = lineHood st { rowFlags n wraps v t.origin with west := decide (j = 0), east := decide ((j : Int) + 1 = t.endX - t.origin 0) } v.mem ptrs j := by
    rw [hh]
    exact hv
  rw [e1, e3, e4, e5]
  have a1 : addr g (some i) = some (.cell i) := by simp only [addr]; rw [if_pos (by omega)]
  have a2 : addr g (some (i + (j : Int))) = some (.cell (i + j)) := by simp only [addr]; rw [if_pos ⟨j2, j3⟩]
  rw [a1, a2]
  simp only [Option.bind_some]
  have l1 : load g (.cell (i + j)) 0 = load g (.cell i) j := by simp only [load, add_zero]
  have l2 : ∀ v, store g (.cell (i + j)) 0 v = store g (.cell i) j v := by intro v; simp only [store, add_zero]
  simp only [l1, l2]

/-! ## any interleaving -/

/-- the two paths of the update functor; the line pointer path only without source offset -/
inductive IsPath (n : Nat) (wraps : Nat → Bool) (st : Stencil) (upd' : Nat → α → List α → α) (nano : Nat) (srcOff tgtOff : Crd) (v : View α) (loc' : Crd → Option Int) : Path α → Prop
  | vanilla : IsPath n wraps st upd' nano srcOff tgtOff v loc' (vanPath st upd' nano srcOff tgtOff v loc')
  | line (h : srcOff = fun _ => 0) : IsPath n wraps st upd' nano srcOff tgtOff v loc' (linePath n wraps st upd' nano srcOff tgtOff v loc')

theorem grid_ext {a b : Grid α} (h1 : a.dim = b.dim) (h2 : a.edge = b.edge) (h3 : a.cells = b.cells) : a = b := by
  cases a; cases b; simp_all

theorem steps_cells {p : Path α} (t : List Streak) (hc : ∀ s ∈ t, p.count s = (s.endX - s.origin 0).toNat) : (steps p t).map cellOf = t.flatMap coordsOf := by
  induction t with
  | nil => rfl
  | cons s t ih =>
    have : steps p (s :: t) = ((List.range (p.count s)).map fun j => (s, j)) ++ steps p t := by simp [steps]
    rw [this, List.map_append, ih fun s' hs' => hc s' (List.mem_cons_of_mem _ hs'), List.flatMap_cons]
    congr 1
    rw [hc s (List.mem_cons_self ..), List.map_map]
    unfold coordsOf
    have : ∀ (m : Nat) (x : Int), coordsFrom s m x = (List.range m).map fun j => upd s.origin 0 (x + (j : Nat)) := by
      intro m
      induction m with
      | zero => intro x; rfl
      | succ m ih =>
        intro x
        rw [coordsFrom, ih, List.range_succ_eq_map, List.map_cons, List.map_map]
        congr 1
        · simp
        · refine List.map_congr_left fun j _ => ?_
          simp only [Function.comp]
          congr 1
          push_cast
          ring
    rw [this]
    rfl

theorem flatten_steps (p : Path α) (ts : List (List Streak)) : (ts.map (steps p)).flatten = steps p ts.flatten := by
  induction ts with
  | nil => rfl
  | cons t ts ih =>
    rw [List.map_cons, List.flatten_cons, List.flatten_cons, ih]
    simp [steps]

/-- **Any interleaving of tasks which cover the streaks yields the result of the serial loop.** -/
theorem threads_view {st : Stencil} (hst : StencilOK n st) (upd' : Nat → α → List α → α) (nano : Nat) (v : View α) (loc' : Crd → Option Int) (g : Grid α) (srcOff tgtOff : Crd)
    (region : Idx) (ss : List Streak) (hss : allStreaks n region (fun _ => 0) 0 = some ss) (T : Crd → Int) (h : Ready n wraps st v loc' g srcOff tgtOff ss T) (ts : List (List Streak))
    (hts : ts.flatten.flatMap coordsOf = ss.flatMap coordsOf) (hsub : ∀ t ∈ ts.flatten, ∃ s ∈ ss, Sub t s) :
    ∃ g', (∀ body, C34.IsPath n wraps st upd' nano srcOff tgtOff v loc' body → updateRegion n body region g = some g') ∧
      ∀ p, IsPath n wraps st upd' nano srcOff tgtOff v loc' p → ∀ l, Interleave (ts.map (steps p)) l → run p l g = some g' := by
  obtain ⟨g', e1, e2, e3, e4, e5, e6⟩ := update_view hst upd' nano v loc' g srcOff tgtOff region ss hss h.len h.line h.src T h.tgt h.dist
  refine ⟨g', e1, fun p hp l hl => ?_⟩
  have hcount : ∀ t ∈ ts.flatten, p.count t = (t.endX - t.origin 0).toNat := by
    intro t ht
    obtain ⟨s, _, hs⟩ := hsub t ht
    have := hs.pos
    rcases hp with _ | h0
    · rfl
    · show lineCount t = _
      unfold lineCount
      omega
  have hperm : l.Perm (steps p ts.flatten) := by
    rw [← flatten_steps]
    exact hl.perm
  have hcs : (l.map cellOf).Perm (ss.flatMap coordsOf) := by
    rw [← hts, ← steps_cells ts.flatten hcount]
    exact hperm.map cellOf
  -- each step updates its cell
  have hrun : run p l g = (l.map cellOf).foldlM (fun g c => cellStep st upd' nano v loc' srcOff tgtOff c g) g := by
    unfold run
    rw [List.foldlM_map]
    refine foldlM_congr_inv (fun g1 => g1.cells.length = g.cells.length) _ _ _ g rfl fun a ha g1 hg1 => ⟨?_, fun g2 h2 => ?_⟩
    · rcases hp with _ | h0
      · exact vanCell_eq st upd' nano srcOff tgtOff v loc' a g1
      · have hmem := hperm.mem_iff.mp ha
        unfold steps at hmem
        obtain ⟨t, ht, hm⟩ := List.mem_flatMap.mp hmem
        obtain ⟨j, hj, rfl⟩ := List.mem_map.mp hm
        have hj := List.mem_range.mp hj
        rw [hcount t ht] at hj
        obtain ⟨s, hs, hst'⟩ := hsub t ht
        obtain ⟨hr, i, hi⟩ := h.line h0 s hs
        have hc : cellOf (t, j) ∈ ss.flatMap coordsOf := hcs.mem_iff.mp (List.mem_map.mpr ⟨_, ha, rfl⟩)
        have hsrc := h.src _ hc
        have q1 := hst'.lo
        have q2 := hst'.pos
        have q3 := hst'.hi
        subst h0
        refine lineCell_eq hst upd' nano tgtOff v loc' t j (by omega) ?_ (i + (t.origin 0 - s.origin 0)) g1 ?_ ?_
        · rw [rowFlags_congr v t.origin s.origin hst'.rest]
          exact rows_sub hst hr hst'
        · intro j' a1 a2
          have := hi (t.origin 0 - s.origin 0 + j') (by omega) (by omega)
          rw [hg1, show i + (t.origin 0 - s.origin 0) + j' = i + (t.origin 0 - s.origin 0 + j') by ring]
          have e : upd (fun k => t.origin k + tgtOff k) 0 (t.origin 0 + tgtOff 0 + j') = upd (fun k => s.origin k + tgtOff k) 0 (s.origin 0 + tgtOff 0 + (t.origin 0 - s.origin 0 + j')) := by
            funext k
            unfold upd
            split
            · ring
            · simp only
              rw [hst'.rest k ‹_›]
          rw [e]
          exact this
        · simp only [add_zero] at hsrc
          unfold vanHood
          refine mapM_congr _ _ _ fun r hr => ?_
          rw [(hsrc r hr).1]
          rfl
    · unfold cellStep at h2
      obtain ⟨_, _, h2⟩ := Option.bind_eq_some_iff.mp h2
      obtain ⟨_, _, h2⟩ := Option.bind_eq_some_iff.mp h2
      obtain ⟨_, _, h2⟩ := Option.bind_eq_some_iff.mp h2
      rw [store_len h2, hg1]
  -- the result doesn't depend on the order
  have hhood : ∀ c, ∃ hood, c ∈ ss.flatMap coordsOf → vanHood st v (fun k => c k + srcOff k) = some hood := by
    intro c
    by_cases hc : c ∈ ss.flatMap coordsOf
    · obtain ⟨hood, h1, _⟩ := hood_some (st := st) (v := v) (c := fun k => c k + srcOff k) (h.src c hc)
      exact ⟨hood, fun _ => h1⟩
    · exact ⟨[], fun h => (hc h).elim⟩
  choose hood hh using hhood
  obtain ⟨a, a1, a2, a3, a4, a5, a6⟩ := cells_spec (st := st) (upd' := upd') (nano := nano) (v := v) (loc' := loc') srcOff tgtOff T hood (ss.flatMap coordsOf) g hh h.tgt h.dist
  obtain ⟨b, b1, b2, b3, b4, b5, b6⟩ := cells_spec (st := st) (upd' := upd') (nano := nano) (v := v) (loc' := loc') srcOff tgtOff T hood (l.map cellOf) g
    (fun c hc => hh c (hcs.mem_iff.mp hc)) (fun c hc => h.tgt c (hcs.mem_iff.mp hc)) ((hcs.map T).nodup_iff.mpr h.dist)
  have hvan : updateRegion n (vanStreak st upd' nano srcOff tgtOff v loc') region g = some a := by
    unfold updateRegion
    rw [hss, Option.bind_some, ← a1, foldlM_flatMap]
    congr 1
    funext g s
    exact vanStreak_cells srcOff tgtOff s g
  have hag : a = g' := by
    have := e1 _ C34.IsPath.vanilla
    rw [hvan] at this
    exact Option.some.inj this
  rw [hrun, b1, ← hag]
  congr 1
  refine grid_ext (b2.trans a2.symm) (b3.trans a3.symm) (List.ext_getElem? fun i => ?_)
  by_cases hi : ∃ c ∈ ss.flatMap coordsOf, (T c).toNat = i
  · obtain ⟨c, hc, rfl⟩ := hi
    rw [a5 c hc, b5 c (hcs.mem_iff.mpr hc)]
  · have hi' : ∀ c ∈ ss.flatMap coordsOf, (T c).toNat ≠ i := fun c hc e => hi ⟨c, hc, e⟩
    rw [a6 i hi', b6 i fun c hc => hi' c (hcs.mem_iff.mp hc)]

end LGD.Thread
