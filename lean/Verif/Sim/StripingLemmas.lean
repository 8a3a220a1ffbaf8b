import Verif.Sim.StripingModel
import Verif.Sim.NetLemmas
import Verif.Props.C30
import Verif.Props.C43
import Mathlib.Data.List.Sort

/-!
# Lemmas on the striping simulator: partitions, ghost zones, redistribution
-/

namespace LGD.Striping
open LGD.Adapter LGD.Patch

variable {κ α : Type} [DecidableEq κ]

/-- `p` divides `height` rows into `N` stripes -/
structure PartsOK (N height : Nat) (p : List Nat) : Prop where
  len : p.length = N + 1
  first : p.getD 0 0 = 0
  last : p.getD N 0 = height
  mono : ∀ i, i < N → p.getD i 0 ≤ p.getD (i + 1) 0

theorem PartsOK.le {N h : Nat} {p : List Nat} (hp : PartsOK N h p) : ∀ (i j : Nat), i ≤ j → j ≤ N → p.getD i 0 ≤ p.getD j 0 := by
  intro i j hij
  induction j, hij using Nat.le_induction with
  | base => intro _; exact le_refl _
  | succ j _ ih => intro hj; exact le_trans (ih (by omega)) (hp.mono j (by omega))

theorem PartsOK.bound {N h : Nat} {p : List Nat} (hp : PartsOK N h p) (i : Nat) : p.getD i 0 ≤ h := by
  by_cases hi : i ≤ N
  · have := hp.le i N hi (le_refl _)
    rwa [hp.last] at this
  · rw [List.getD_eq_getElem?_getD, List.getElem?_eq_none (by rw [hp.len]; omega)]
    exact Nat.zero_le _

/-- every row belongs to a stripe -/
theorem PartsOK.cover {N h : Nat} {p : List Nat} (hp : PartsOK N h p) (r : Nat) (hr : r < h) : ∃ i, i < N ∧ p.getD i 0 ≤ r ∧ r < p.getD (i + 1) 0 := by
  have key : ∀ n, n ≤ N → r < p.getD n 0 → ∃ i, i < n ∧ p.getD i 0 ≤ r ∧ r < p.getD (i + 1) 0 := by
    intro n
    induction n with
    | zero => intro _ h0; rw [hp.first] at h0; omega
    | succ n ih =>
      intro hn h1
      by_cases hlt : r < p.getD n 0
      · obtain ⟨i, h2, h3⟩ := ih (by omega) hlt
        exact ⟨i, by omega, h3⟩
      · exact ⟨n, by omega, by omega, h1⟩
  obtain ⟨i, h1, h2⟩ := key N (le_refl _) (by rw [hp.last]; exact hr)
  exact ⟨i, h1, h2⟩

/-- stripes are disjoint -/
theorem PartsOK.disj {N h : Nat} {p : List Nat} (hp : PartsOK N h p) (r i j : Nat) (hi : i < N) (hj : j < N) (h1 : p.getD i 0 ≤ r) (h2 : r < p.getD (i + 1) 0)
    (h3 : p.getD j 0 ≤ r) (h4 : r < p.getD (j + 1) 0) : i = j := by
  rcases Nat.lt_trichotomy i j with h | h | h
  · have := hp.le (i + 1) j (by omega) (by omega); omega
  · exact h
  · have := hp.le (j + 1) i (by omega) (by omega); omega

theorem partition_ok (N h : Nat) (hN : 0 < N) : PartsOK N h (partition h N) := by
  have hg : ∀ i, i < N → (partition h N).getD i 0 = h * i / N := by
    intro i hi
    unfold partition
    rw [List.getD_eq_getElem?_getD, List.getElem?_append_left (by simpa using hi), List.getElem?_map, List.getElem?_range hi]
    rfl
  have hl : (partition h N).getD N 0 = h := by
    unfold partition
    rw [List.getD_eq_getElem?_getD, List.getElem?_append_right (by simp)]
    simp
  refine ⟨by simp [partition], by rw [hg 0 hN]; simp, hl, fun i hi => ?_⟩
  rw [hg i hi]
  by_cases h1 : i + 1 < N
  · rw [hg _ h1]
    exact Nat.div_le_div_right (Nat.mul_le_mul_left _ (by omega))
  · rw [show i + 1 = N by omega, hl]
    have : h * i ≤ h * N := Nat.mul_le_mul_left _ (by omega)
    calc h * i / N ≤ h * N / N := Nat.div_le_div_right this
      _ = h := Nat.mul_div_cancel _ hN

theorem sums_getD (l : List Nat) : ∀ (a i : Nat), i ≤ l.length → (sums a l).getD i 0 = a + (l.take i).sum := by
  induction l with
  | nil => intro a i hi; rw [Nat.le_zero.mp hi]; rfl
  | cons x l ih =>
    intro a i hi
    cases i with
    | zero => simp [sums]
    | succ i =>
      rw [sums, List.getD_cons_succ, ih _ _ (by simpa using hi), List.take_succ_cons, List.sum_cons]
      omega

theorem sums_length (l : List Nat) : ∀ (a : Nat), (sums a l).length = l.length + 1 := by
  induction l with
  | nil => intro a; rfl
  | cons x l ih => intro a; simp [sums, ih]

theorem workloads_ok (w : List Nat) : PartsOK w.length w.sum (workloadsToPartitions w) := by
  unfold workloadsToPartitions
  refine ⟨sums_length w 0, by rw [sums_getD _ _ _ (by omega)]; simp, by rw [sums_getD _ _ _ (le_refl _)]; simp, fun i hi => ?_⟩
  rw [sums_getD _ _ _ (by omega), sums_getD _ _ _ (by omega), List.take_succ, List.sum_append]
  omega

theorem partitionsToWorkloads_ok {N h : Nat} {p : List Nat} (hp : PartsOK N h p) :
    (partitionsToWorkloads p).length = N ∧ (partitionsToWorkloads p).sum = h := by
  unfold partitionsToWorkloads
  rw [hp.len]
  refine ⟨by simp, ?_⟩
  have key : ∀ n, n ≤ N → ((List.range n).map fun i => p.getD (i + 1) 0 - p.getD i 0).sum = p.getD n 0 := by
    intro n
    induction n with
    | zero => intro _; rw [hp.first]; rfl
    | succ n ih =>
      intro hn
      rw [List.range_succ, List.map_append, List.sum_append, ih (by omega)]
      have := hp.mono n (by omega)
      simp only [List.map_cons, List.map_nil, List.sum_cons, List.sum_nil]
      omega
  have := key N (le_refl _)
  rw [hp.last] at this
  exact this

/-- What is assumed of the topology, the cell class and the initializer: regions list coordinates in one order, without duplicates;
stripes consist of the coordinates of their rows; expanded stripes contain the neighborhoods and do not leave the grid; a cell update
reads its neighborhood only (plus constants such as the edge cell). -/
structure EnvOK (E : Env κ α) (row : κ → Nat) (area : κ → Prop) (nb : κ → κ → Prop) (lt : κ → κ → Prop) : Prop where
  ranks : 0 < E.N
  nano : 0 < E.nanoSteps
  period : 0 < E.lbPeriod
  order : ∀ x y, lt x y → ¬ lt y x
  rows : ∀ a b, b ≤ E.height → ∀ c, c ∈ E.rows a b ↔ area c ∧ a ≤ row c ∧ row c < b
  height : ∀ c, area c → row c < E.height
  sorted : ∀ a b, b ≤ E.height → (E.rows a b).Pairwise lt
  expand_sorted : ∀ a b, b ≤ E.height → (E.expand a b).Pairwise lt
  inside : ∀ a b, b ≤ E.height → ∀ c, c ∈ E.expand a b → area c
  self : ∀ a b, b ≤ E.height → ∀ c, c ∈ E.rows a b → c ∈ E.expand a b
  neighbors : ∀ a b, b ≤ E.height → ∀ c d, c ∈ E.rows a b → nb c d → area d → d ∈ E.expand a b
  localUpd : ∀ n (g h : κ → α) c, area c → (∀ d, nb c d → area d → g d = h d) → E.upd n g c = E.upd n h c

/-- the load balancer keeps the number of stripes and of rows -/
def Balanced (E : Env κ α) : Prop := ∀ t w, (E.balancer t w).length = w.length ∧ (E.balancer t w).sum = w.sum

variable {E : Env κ α} {row : κ → Nat} {area : κ → Prop} {nb lt : κ → κ → Prop}

theorem EnvOK.irrefl (h : EnvOK E row area nb lt) (x : κ) : ¬ lt x x := fun hx => h.order x x hx hx

theorem EnvOK.nodup (h : EnvOK E row area nb lt) {l : List κ} (hl : l.Pairwise lt) : l.Nodup := by
  refine hl.imp ?_
  rintro a b hab rfl
  exact h.irrefl a hab

theorem EnvOK.ext (h : EnvOK E row area nb lt) {a b : List κ} (ha : a.Pairwise lt) (hb : b.Pairwise lt) (hm : ∀ c, c ∈ a ↔ c ∈ b) : a = b := by
  have : Std.Irrefl lt := ⟨h.irrefl⟩
  have : Std.Antisymm lt := ⟨fun x y h1 h2 => absurd h2 (h.order x y h1)⟩
  exact ha.eq_of_mem_iff hb hm

theorem mem_region (h : EnvOK E row area nb lt) {p : List Nat} (hp : PartsOK E.N E.height p) (i : Nat) (c : κ) :
    c ∈ region E p i ↔ area c ∧ p.getD i 0 ≤ row c ∧ row c < p.getD (i + 1) 0 := h.rows _ _ (hp.bound _) _

theorem mem_outer (p : List Nat) (i j : Nat) (c : κ) : c ∈ outerGhost E p i j ↔ i ≠ j ∧ c ∈ withGhosts E p i ∧ c ∈ region E p j := by
  unfold outerGhost inter
  split
  · rename_i h; simp [h]
  · rename_i h; simp [h]

theorem mem_inner (p : List Nat) (i j : Nat) (c : κ) : c ∈ innerGhost E p i j ↔ i ≠ j ∧ c ∈ region E p i ∧ c ∈ withGhosts E p j := by
  unfold innerGhost inter
  split
  · rename_i h; simp [h]
  · rename_i h; simp [h]

theorem outer_sorted (h : EnvOK E row area nb lt) {p : List Nat} (hp : PartsOK E.N E.height p) (i j : Nat) : (outerGhost E p i j).Pairwise lt := by
  unfold outerGhost inter
  split
  · exact List.Pairwise.nil
  · exact (h.expand_sorted _ _ (hp.bound _)).filter _

/-- what rank `j` sends to rank `i` is what rank `i` expects from rank `j` -/
theorem inner_eq_outer (h : EnvOK E row area nb lt) {p : List Nat} (hp : PartsOK E.N E.height p) (i j : Nat) : innerGhost E p j i = outerGhost E p i j := by
  refine h.ext ?_ (outer_sorted h hp i j) (fun c => ?_)
  · unfold innerGhost inter
    split
    · exact List.Pairwise.nil
    · exact (h.sorted _ _ (hp.bound _)).filter _
  · rw [mem_inner, mem_outer]
    constructor
    · rintro ⟨a, b, c⟩; exact ⟨fun e => a e.symm, c, b⟩
    · rintro ⟨a, b, c⟩; exact ⟨fun e => a e.symm, c, b⟩

/-- own stripe and ghost zones cover the expanded stripe -/
theorem ghosts_cover (h : EnvOK E row area nb lt) {p : List Nat} (hp : PartsOK E.N E.height p) (i : Nat) (c : κ) (hc : c ∈ withGhosts E p i) :
    c ∈ region E p i ∨ ∃ j, j < E.N ∧ c ∈ outerGhost E p i j := by
  have ha := h.inside _ _ (hp.bound _) c hc
  obtain ⟨j, h1, h2, h3⟩ := hp.cover (row c) (h.height c ha)
  have hj : c ∈ region E p j := (mem_region h hp j c).mpr ⟨ha, h2, h3⟩
  by_cases hij : i = j
  · rw [hij]; exact Or.inl hj
  · exact Or.inr ⟨j, h1, (mem_outer p i j c).mpr ⟨hij, hc, hj⟩⟩

theorem waitForGhosts_ok (h : EnvOK E row area nb lt) {p : List Nat} (hp : PartsOK E.N E.height p) (i : Nat) (r : Tag → Nat → Option (Msg α)) (st : St κ α) (W : κ → α)
    (hparts : st.parts = p) (hown : ∀ c ∈ region E p i, st.cur c = W c) (hgh : st.pend = false → ∀ c ∈ withGhosts E p i, st.cur c = W c)
    (hr : st.pend = true → ∀ j, j < E.N → innerGhost E p j i ≠ [] → r .ghost j = some (.cells (saveRegion (innerGhost E p j i) W))) :
    ∃ cur, waitForGhosts E i r st = { st with cur := cur, pend := false } ∧ ∀ c ∈ withGhosts E p i, cur c = W c := by
  unfold waitForGhosts
  cases hpd : st.pend with
  | false =>
    refine ⟨st.cur, ?_, hgh hpd⟩
    simp only [Bool.false_eq_true, if_false]
    cases st
    simp at hpd
    simp [hpd]
  | true =>
    simp only [if_true]
    refine ⟨_, rfl, fun c hc => ?_⟩
    rw [hparts, C43.loadAll W (fun j => outerGhost E p i j) (fun j => cells (r .ghost j)) (List.range E.N) (fun j _ => h.nodup (outer_sorted h hp i j)) ?_ st.cur c]
    · split
      · rfl
      · rename_i hno
        rcases ghosts_cover h hp i c hc with h1 | ⟨j, h1, h2⟩
        · exact hown c h1
        · exact absurd ⟨j, List.mem_range.mpr h1, h2⟩ hno
    · intro j hj hne
      rw [← inner_eq_outer h hp] at hne ⊢
      rw [hr hpd j (List.mem_range.mp hj) hne]
      rfl

theorem region_split (p : List Nat) (i : Nat) (c : κ) : c ∈ region E p i ↔ c ∈ innerRegion E p i ∨ c ∈ innerGhosts E p i := by
  unfold innerRegion innerGhosts
  by_cases h : ∃ j ∈ List.range E.N, c ∈ innerGhost E p i j
  · simp only [List.mem_filter, decide_eq_true_eq, h]
    simp
  · simp only [List.mem_filter, decide_eq_true_eq, h]
    simp

theorem inner_sub (p : List Nat) (i j : Nat) (hj : j < E.N) (c : κ) (hc : c ∈ innerGhost E p i j) : c ∈ innerGhosts E p i := by
  unfold innerGhosts
  simp only [List.mem_filter, decide_eq_true_eq]
  exact ⟨((mem_inner p i j c).mp hc).2.1, j, List.mem_range.mpr hj, hc⟩

theorem save_congr' {l : List κ} {g h : κ → α} (hc : ∀ c ∈ l, g c = h c) : saveRegion l g = saveRegion l h := by
  unfold saveRegion
  exact List.map_congr_left hc

/-- messages for one destination -/
theorem sent_to (tg t : Tag) (n d : Nat) (S : Nat → Bool) (f : Nat → Msg α) :
    (((List.range n).filter S).map fun j => (tg, j, f j)).filterMap (fun m => if m.1 = t ∧ m.2.1 = d then some m.2.2 else none) =
      (if tg = t ∧ d < n ∧ S d = true then some (f d) else none).toList := by
  induction n with
  | zero => simp
  | succ n ih =>
    rw [List.range_succ, List.filter_append, List.map_append, List.filterMap_append, ih]
    by_cases ht : tg = t
    · by_cases hnd : n = d
      · subst hnd
        cases hS : S n <;> simp [hS, ht]
      · have : (d < n + 1 ↔ d < n) := by omega
        simp only [this]
        cases hS : S n <;> simp [hS, ht, hnd]
    · cases hS : S n <;> simp [hS, ht]

theorem sendGhosts_ok (i : Nat) (p : List Nat) (g W : κ → α) (hg : ∀ c ∈ innerGhosts E p i, g c = W c) (t : Tag) (d : Nat) (hd : d < E.N) :
    (sendGhosts E i p g).filterMap (fun m => if m.1 = t ∧ m.2.1 = d then some m.2.2 else none) =
      (if t = .ghost ∧ innerGhost E p i d ≠ [] then some (Msg.cells (saveRegion (innerGhost E p i d) W)) else none).toList := by
  unfold sendGhosts
  rw [sent_to .ghost t E.N d (fun j => innerGhost E p i j ≠ []) (fun j => .cells (saveRegion (innerGhost E p i j) g))]
  rw [save_congr' (fun c hc => hg c (inner_sub p i d hd c hc))]
  congr 1
  have : (Tag.ghost = t ∧ d < E.N ∧ decide (innerGhost E p i d ≠ []) = true) ↔ (t = .ghost ∧ innerGhost E p i d ≠ []) := by
    rw [decide_eq_true_iff]
    constructor
    · rintro ⟨a, _, c⟩; exact ⟨a.symm, c⟩
    · rintro ⟨a, c⟩; exact ⟨a.symm, hd, c⟩
  simp only [this]

end LGD.Striping
