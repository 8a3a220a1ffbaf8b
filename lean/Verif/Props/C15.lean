import Verif.Part.Curve
import Verif.Part.StripingModel
import Verif.Geom.Box
import Verif.Props.C14

/-!
# C15 – `StripingPartition`, `UnstructuredStripingPartition`
-/

namespace LGD.C15
open LGD.C12 LGD.C04

theorem boxAt_inj (n : Nat) (o d : Crd) (p q : Int) (h : CEq n (boxAt n o d p) (boxAt n o d q)) : p = q := by
  rw [← lin_unlin d n 0 p, ← lin_unlin d n 0 q]
  apply lin_congr
  intro j _ hj
  have := h j (by omega)
  unfold boxAt at this
  omega

theorem stripStart_at (n : Nat) (hn : n ≤ 2) (b : Box) (hd : ∀ k, k < n → 0 < stripDims n b.dims k) (p : Nat) :
    stripStart n b p = some (boxAt n b.origin (stripDims n b.dims) p) := by
  unfold stripStart boxAt
  congr 1
  funext k
  by_cases hk : k ≤ n
  · rw [C14.indexToCoord_unlin n hn _ _ hd (by omega) k hk]; omega
  · rw [unlin_below _ _ _ _ _ (by omega)]
    have : n = 0 ∨ n = 1 ∨ n = 2 := by omega
    rcases this with rfl | rfl | rfl
    · simp [indexToCoord]; omega
    · simp [indexToCoord]; rw [if_neg (by omega), if_neg (by omega)]
    · simp [indexToCoord]; rw [if_neg (by omega), if_neg (by omega), if_neg (by omega)]

theorem strip_curve (n : Nat) (b : Box) (hd : ∀ k, k < n → 0 < stripDims n b.dims k) (m : Nat) :
    IsCurve n (stripIter n b) ((List.range m).map (fun k : Nat => boxAt n b.origin (stripDims n b.dims) (k : Int)))
      (fun p s => s = boxAt n b.origin (stripDims n b.dims) (p : Int)) := by
  refine ⟨?_, ?_, ?_⟩
  · rintro p s x rfl hx
    obtain ⟨h1, h2⟩ := List.getElem?_eq_some_iff.1 hx
    simp at h2
    subst h2
    exact fun _ _ => rfl
  · rintro p s rfl _
    refine ⟨_, rfl, ?_⟩
    unfold boxAt
    rw [boxIncr_at _ (stripDims n b.dims) _ n 0 p (fun j _ _ => rfl) (fun j _ h => hd j (by omega))]
    simp
  · rintro p q s t rfl rfl _ _
    rw [show (stripIter n b).eq = crdEq n from rfl, crdEq_iff]
    constructor
    · intro h
      have := boxAt_inj n _ _ _ _ h
      omega
    · rintro rfl; exact fun _ _ => rfl

/-- **C15.** 1D to 3D, every box with non-negative extents (also empty ones), every offset and every weights vector that
fits into the grid: the regions are inside the grid, pairwise disjoint, have exactly the prescribed sizes, and cover the
grid if the weights sum up to its volume. -/
theorem striping_partition (n : Nat) (hn : n ≤ 2) (b : Box) (hb : ∀ k, k ≤ n → 0 ≤ b.dims k) (offset : Nat) (ws : List Nat)
    (hfit : (offset : Int) + ws.sum ≤ Volume n b.dims) (fuel : Nat) (hf : Volume n b.dims < fuel) :
    IsPartition n b offset ws (stripRegion n b offset ws fuel) := by
  by_cases h0 : crdProd n b.dims = 0
  · -- empty grid
    have hv : Volume n b.dims = 0 := by rw [volume_eq, h0]
    have hsd : stripDims n b.dims = fun k => if k = n then 0 else 1 := by unfold stripDims; rw [if_pos h0]
    have hd : ∀ k, k < n → 0 < stripDims n b.dims k := by intro k hk; rw [hsd]; simp only; rw [if_neg (by omega)]; decide
    refine curve_partition (strip_curve n b hd 0) b (stripStart n b) offset ws fuel ?_ ?_ ?_ ?_ ?_
    · simp
    · intro c
      simp
      intro hc
      have : 0 < Volume n b.dims := by
        rw [volume_eq, ← vol_prod]
        apply vol_pos
        intro j _ hj
        have := hc j (by omega); omega
      omega
    · simp [hv]
    · intro p hp
      have : p = 0 := by omega
      subst this
      exact ⟨_, stripStart_at n hn b hd 0, by simp⟩
    · simp; omega
  · have hsd : stripDims n b.dims = b.dims := by unfold stripDims; rw [if_neg h0]
    have hpos : ∀ k, k ≤ n → 0 < b.dims k := by
      intro k hk
      have h1 := hb k hk
      by_cases e : b.dims k = 0
      · refine (h0 ?_).elim
        clear h0 hfit hf hsd h1 hb
        induction n with
        | zero => have : k = 0 := by omega
                  subst this; exact e
        | succ n ih =>
          rw [crdProd]
          by_cases e2 : k = n + 1
          · subst e2; rw [e]; simp
          · rw [ih (by omega) (by omega)]; simp
      · omega
    have hd : ∀ k, k < n → 0 < stripDims n b.dims k := by rw [hsd]; exact fun k hk => hpos k (by omega)
    have hvp : 0 ≤ Volume n b.dims := by omega
    refine curve_partition (strip_curve n b hd (Volume n b.dims).toNat) b (stripStart n b) offset ws fuel ?_ ?_ ?_ ?_ ?_
    · rw [List.pairwise_map]
      refine List.Pairwise.imp ?_ List.pairwise_lt_range
      intro i j hij hc
      have := boxAt_inj n _ _ _ _ hc
      omega
    · intro c
      have hm := boxAt_mem n b.origin b.dims (fun k hk => hpos k (by omega)) c
      rw [vol_prod, ← volume_eq] at hm
      rw [show InBox n b c ↔ _ from hm.symm, hsd]
      constructor
      · rintro ⟨c', h1, h2⟩
        obtain ⟨i, hi, rfl⟩ := List.mem_map.1 h1
        exact ⟨i, List.mem_range.1 hi, h2⟩
      · rintro ⟨i, hi, h2⟩
        exact ⟨_, List.mem_map.2 ⟨i, List.mem_range.2 hi, rfl⟩, h2⟩
    · simp; exact hvp
    · intro p hp
      refine ⟨_, stripStart_at n hn b hd p, ?_⟩
      simp only [List.length_map, List.length_range]
      rw [Nat.min_eq_left (by omega)]
    · simp; omega

/-- `UnstructuredStripingPartition`: node `i` owns exactly the IDs from the sum of the previous weights on. -/
theorem unstructured_striping (start : Nat) (ws : List Nat) :
    ∀ i w, ws[i]? = some w → ∃ r, ustripRegion start ws i = some r ∧ RegOK 0 r ∧
      (∀ c, RMem 0 r c ↔ (start + (ws.take i).sum : Nat) ≤ c 0 ∧ c 0 < (start + (ws.take i).sum + w : Nat)) ∧ Card 0 (RMem 0 r) w := by
  intro i w hw
  have hi := (List.getElem?_eq_some_iff.1 hw).1
  unfold ustripRegion
  rw [startOffsets_get start ws i (by omega), startOffsets_get start ws (i + 1) (by omega), sum_take_succ ws i w hw, Option.bind_some,
    Option.bind_some]
  obtain ⟨r, h1, h2, h3⟩ := regInsert_spec 0 emptyIdx
    (Streak.mk (fun _ => ((start + (ws.take i).sum : Nat) : Int)) ((start + ((ws.take i).sum + w) : Nat) : Int)) (regOK_empty 0)
  have h4 : ∀ c, RMem 0 r c ↔ (start + (ws.take i).sum : Nat) ≤ c 0 ∧ c 0 < (start + (ws.take i).sum + w : Nat) := by
    intro c
    rw [h3]
    constructor
    · rintro (h | ⟨_, h5, h6⟩)
      · exact (regEmpty_mem 0 c h).elim
      · simp only at h5 h6
        exact ⟨h5, by omega⟩
    · rintro ⟨h5, h6⟩
      exact Or.inr ⟨fun k _ _ => by omega, h5, by simp only; omega⟩
  refine ⟨r, h1, h2, h4, (List.range w).map (fun (k : Nat) _ => ((start + (ws.take i).sum + k : Nat) : Int)), ?_, fun c => ?_, by simp⟩
  · rw [List.pairwise_map]
    refine List.Pairwise.imp ?_ List.pairwise_lt_range
    intro a b hab
    refine ⟨0, by omega, ?_⟩
    show ((start + (ws.take i).sum + a : Nat) : Int) ≠ ((start + (ws.take i).sum + b : Nat) : Int)
    omega
  · rw [h4]
    constructor
    · rintro ⟨h5, h6⟩
      refine ⟨_, List.mem_map.2 ⟨(c 0 - (start + (ws.take i).sum : Nat)).toNat, List.mem_range.2 (by omega), rfl⟩, fun k hk => ?_⟩
      have : k = 0 := by omega
      subst this
      omega
    · rintro ⟨c', h5, h6⟩
      obtain ⟨k, hk, rfl⟩ := List.mem_map.1 h5
      have := List.mem_range.1 hk
      have := h6 0 (by omega)
      simp only at this
      omega

/-! non-vacuity: a 3x2x2 box at (1,2,0), weights 5, 0, 7 -/

def wbox : Box := bx 1 2 0 3 2 2

example : (0 : Int) + (([5, 0, 7] : List Nat).sum : Nat) ≤ Volume 2 wbox.dims := by decide
example : ((stripRegion 2 wbox 0 [5, 0, 7] 13 0).bind (toVector 2)).map (List.map (fun s => (s.origin 0, s.origin 1, s.origin 2, s.endX))) =
    some [(1, 2, 0, 4), (1, 3, 0, 3)] := by decide +kernel
example : ((stripRegion 2 wbox 0 [5, 0, 7] 13 2).bind (toVector 2)).map (List.map (fun s => (s.origin 0, s.origin 1, s.origin 2, s.endX))) =
    some [(3, 3, 0, 4), (1, 2, 1, 4), (1, 3, 1, 4)] := by decide +kernel
example : ((ustripRegion 10 [5, 0, 7] 2).bind (toVector 0)).map (List.map (fun s => (s.origin 0, s.endX))) = some [(15, 22)] := by decide +kernel

/-- Without the hypothesis that the weights fit, the regions leave the grid (2x2 grid, 6 cells requested). -/
theorem striping_overflow : ∃ r, stripRegion 1 (bx 0 0 0 2 2 0) 0 [6] 10 0 = some r ∧ RMem 1 r (fun k => if k = 1 then 2 else 0) := by
  refine ⟨((stripRegion 1 (bx 0 0 0 2 2 0) 0 [6] 10 0).getD emptyIdx), ?_, ?_⟩
  · have : (stripRegion 1 (bx 0 0 0 2 2 0) 0 [6] 10 0).isSome = true := by decide +kernel
    cases h : stripRegion 1 (bx 0 0 0 2 2 0) 0 [6] 10 0 with
    | none => rw [h] at this; cases this
    | some r => rfl
  · unfold RMem; decide +kernel

end LGD.C15
