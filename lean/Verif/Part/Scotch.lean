import Verif.Part.ScotchModel
import Verif.Props.C14
import Verif.Props.C42

/-!
# Lemmas about partitions based on SCOTCH
-/

namespace LGD.Scotch
open LGD.C14

/-! ## Rows -/

/-- relative to the origin of the grid -/
def rel (origin c : Crd) : Crd := fun k => c k - origin k

theorem lin1 (dim p : Crd) : lin dim 1 0 p = p 0 + dim 0 * p 1 := rfl
theorem lin2 (dim p : Crd) : lin dim 2 0 p = p 0 + dim 0 * (p 1 + dim 1 * p 2) := rfl

theorem divmod {W p R : Int} (h0 : 0 ≤ p) (h1 : p < W) : (p + W * R) / W = R ∧ (p + W * R) % W = p := by
  have hW : 0 < W := by omega
  constructor
  · rw [Int.add_mul_ediv_left _ _ (by omega), Int.ediv_eq_zero_of_lt h0 h1]; omega
  · rw [Int.add_mul_emod_self_left, Int.emod_eq_of_lt h0 h1]

theorem emod_area {a W H : Int} (hW : 0 < W) : a % (W * H) % W = a % W ∧ a % (W * H) / W = a / W % H ∧ a / (W * H) = a / W / H := by
  have e1 : a / (W * H) = a / W / H := by rw [Int.ediv_ediv_of_nonneg (by omega)]
  have h1 := Int.mul_ediv_add_emod a W
  have h2 := Int.mul_ediv_add_emod (a / W) H
  have h3 := Int.mul_ediv_add_emod a (W * H)
  have key : a % (W * H) = a % W + W * (a / W % H) := by
    rw [e1] at h3
    have : W * H * (a / W / H) = W * (a / W) - W * (a / W % H) := by
      rw [Int.mul_assoc, ← Int.mul_sub]; congr 1; omega
    omega
  have := divmod (R := a / W % H) (Int.emod_nonneg a (by omega)) (Int.emod_lt_of_pos a hW)
  rw [key]
  exact ⟨this.2, this.1, e1⟩

/-- a part of a row, in terms of linear indices -/
theorem row_iff {W p R start len : Int} (hp0 : 0 ≤ p) (hp1 : p < W) (hrow : (start + len - 1) / W = start / W) :
    (start ≤ p + W * R ∧ p + W * R < start + len) ↔ (R = start / W ∧ start % W ≤ p ∧ p < start % W + len) := by
  have hW : 0 < W := by omega
  have h1 := Int.mul_ediv_add_emod start W
  constructor
  · rintro ⟨a, b⟩
    have e := (divmod (R := R) hp0 hp1).1
    have l1 := Int.ediv_le_ediv hW a
    have l2 := Int.ediv_le_ediv hW (show p + W * R ≤ start + len - 1 by omega)
    have : R = start / W := by omega
    subst this
    omega
  · rintro ⟨rfl, a, b⟩
    omega

theorem row_fits {W start len : Int} (hW : 0 < W) (hrow : (start + len - 1) / W = start / W) : start % W + len ≤ W := by
  have h1 := Int.mul_ediv_add_emod start W
  have h2 := Int.mul_ediv_add_emod (start + len - 1) W
  have h3 := Int.emod_lt_of_pos (start + len - 1) hW
  rw [hrow] at h2
  omega

theorem rowBox_mem {n : Nat} (hn : n = 1 ∨ n = 2) {origin dim : Crd} (hd : ∀ k, k ≤ n → 0 < dim k) {start len : Int} (h0 : 0 ≤ start) (hl : 0 < len)
    (hend : start + len ≤ crdProd n dim) (hrow : (start + len - 1) / dim 0 = start / dim 0) (c : Crd) :
    C12.InBox n (rowBox n origin dim start len) c ↔ C12.InBox n ⟨origin, dim⟩ c ∧ start ≤ lin dim n 0 (rel origin c) ∧
      lin dim n 0 (rel origin c) < start + len := by
  have hW := hd 0 (by omega)
  have hH := hd 1 (by omega)
  have hfit := row_fits hW hrow
  have hm := Int.emod_nonneg start (show dim 0 ≠ 0 by omega)
  have hr0 : 0 ≤ start / dim 0 := Int.ediv_nonneg h0 (by omega)
  rcases hn with rfl | rfl
  · have hr1 : start / dim 0 < dim 1 := by
      rw [Int.ediv_lt_iff_lt_mul hW]
      simp only [crdProd, Nat.zero_add] at hend
      rw [Int.mul_comm] at hend
      omega
    constructor
    · intro h
      have h0' := h 0 (by omega)
      have h1' := h 1 (by omega)
      simp only [rowBox, startCoord, if_true, show ¬ (1 : Nat) = 2 by omega, show ¬ (1 : Nat) = 0 by omega, if_false] at h0' h1'
      have hp0 : 0 ≤ rel origin c 0 := by unfold rel; omega
      have hp1 : rel origin c 0 < dim 0 := by unfold rel; omega
      refine ⟨fun k hk => ?_, ?_⟩
      · have : k = 0 ∨ k = 1 := by omega
        rcases this with rfl | rfl
        · show origin 0 ≤ c 0 ∧ c 0 < origin 0 + dim 0; omega
        · show origin 1 ≤ c 1 ∧ c 1 < origin 1 + dim 1; omega
      · rw [lin1]
        refine (row_iff hp0 hp1 hrow).2 ⟨?_, ?_, ?_⟩ <;> unfold rel <;> omega
    · rintro ⟨h, hlin⟩
      have h0' := h 0 (by omega)
      have h1' := h 1 (by omega)
      simp only at h0' h1'
      rw [lin1] at hlin
      obtain ⟨e1, e2, e3⟩ := (row_iff (by unfold rel; omega) (by unfold rel; omega) hrow).1 hlin
      unfold rel at e1 e2 e3
      intro k hk
      have : k = 0 ∨ k = 1 := by omega
      rcases this with rfl | rfl
      · simp only [rowBox, startCoord, if_true, show ¬ (1 : Nat) = 2 by omega, if_false]; omega
      · simp only [rowBox, startCoord, show ¬ (1 : Nat) = 2 by omega, show ¬ (1 : Nat) = 0 by omega, if_false]; omega
  · have hD := hd 2 (by omega)
    obtain ⟨a1, a2, a3⟩ := emod_area (H := dim 1) (a := start) hW
    have hr1 : start / dim 0 / dim 1 < dim 2 := by
      rw [Int.ediv_lt_iff_lt_mul hH, Int.ediv_lt_iff_lt_mul hW]
      simp only [crdProd, Nat.zero_add, Nat.reduceAdd] at hend
      have : dim 2 * dim 1 * dim 0 = dim 0 * dim 1 * dim 2 := by rw [Int.mul_comm (dim 0), Int.mul_comm (dim 1 * dim 0), Int.mul_assoc]
      omega
    have hz0 : 0 ≤ start / dim 0 / dim 1 := Int.ediv_nonneg hr0 (by omega)
    have hy := Int.emod_nonneg (start / dim 0) (show dim 1 ≠ 0 by omega)
    have hy' := Int.emod_lt_of_pos (start / dim 0) hH
    have hyz := Int.mul_ediv_add_emod (start / dim 0) (dim 1)
    constructor
    · intro h
      have h0' := h 0 (by omega)
      have h1' := h 1 (by omega)
      have h2' := h 2 (by omega)
      simp only [rowBox, startCoord, area, if_true, show ¬ (1 : Nat) = 0 by omega, show ¬ (2 : Nat) = 0 by omega, show ¬ (2 : Nat) = 1 by omega,
        if_false, a1, a2, a3] at h0' h1' h2'
      have hp0 : 0 ≤ rel origin c 0 := by unfold rel; omega
      have hp1 : rel origin c 0 < dim 0 := by unfold rel; omega
      refine ⟨fun k hk => ?_, ?_⟩
      · have : k = 0 ∨ k = 1 ∨ k = 2 := by omega
        rcases this with rfl | rfl | rfl
        · show origin 0 ≤ c 0 ∧ c 0 < origin 0 + dim 0; omega
        · show origin 1 ≤ c 1 ∧ c 1 < origin 1 + dim 1; omega
        · show origin 2 ≤ c 2 ∧ c 2 < origin 2 + dim 2; omega
      · rw [lin2]
        have e1 : rel origin c 1 = start / dim 0 % dim 1 := by unfold rel; omega
        have e2 : rel origin c 2 = start / dim 0 / dim 1 := by unfold rel; omega
        refine (row_iff hp0 hp1 hrow).2 ⟨?_, ?_, ?_⟩
        · rw [e1, e2]; omega
        · unfold rel; omega
        · unfold rel; omega
    · rintro ⟨h, hlin⟩
      have h0' := h 0 (by omega)
      have h1' := h 1 (by omega)
      have h2' := h 2 (by omega)
      simp only at h0' h1' h2'
      rw [lin2] at hlin
      obtain ⟨e1, e2, e3⟩ := (row_iff (by unfold rel; omega) (by unfold rel; omega) hrow).1 hlin
      have := divmod (W := dim 1) (p := rel origin c 1) (R := rel origin c 2) (by unfold rel; omega) (by unfold rel; omega)
      rw [e1] at this
      unfold rel at e2 e3 this
      intro k hk
      have : k = 0 ∨ k = 1 ∨ k = 2 := by omega
      rcases this with rfl | rfl | rfl
      · simp only [rowBox, startCoord, if_true, area, a1]; omega
      · simp only [rowBox, startCoord, if_true, show ¬ (1 : Nat) = 0 by omega, if_false, area, a2]; omega
      · simp only [rowBox, startCoord, if_true, show ¬ (2 : Nat) = 0 by omega, show ¬ (2 : Nat) = 1 by omega, if_false, area, a3]; omega

/-! ## Vectors of regions -/

theorem modifyAt_some {β : Type} {f : β → Option β} {l : List β} {r : Nat} {x y : β} (hx : l[r]? = some x) (hy : f x = some y) :
    modifyAt f l (r : Int) = some (l.set r y) := by
  unfold modifyAt
  rw [if_neg (by omega), Int.toNat_natCast, hx]
  simp [hy]

/-- a vector of `k` regions, region `r` of which has the members `S r` -/
structure Holds (n k : Nat) (regs : List Idx) (S : Nat → Crd → Prop) : Prop where
  len : regs.length = k
  ok : ∀ (r : Nat) idx, regs[r]? = some idx → RegOK n idx
  mem : ∀ (r : Nat) idx, regs[r]? = some idx → ∀ c, RMem n idx c ↔ S r c

theorem holds_empty (n k : Nat) : Holds n k (List.replicate k emptyIdx) fun _ _ => False where
  len := by simp
  ok r idx h := by
    obtain rfl := List.eq_of_mem_replicate (List.mem_of_getElem? h)
    exact regOK_empty n
  mem r idx h c := by
    obtain rfl := List.eq_of_mem_replicate (List.mem_of_getElem? h)
    exact ⟨fun h => regEmpty_mem n c h, False.elim⟩

theorem Holds.congr {n k : Nat} {regs : List Idx} {S T : Nat → Crd → Prop} (h : Holds n k regs S) (hST : ∀ r, r < k → ∀ c, S r c ↔ T r c) :
    Holds n k regs T where
  len := h.len
  ok := h.ok
  mem r idx hr c := by
    have := (List.getElem?_eq_some_iff.1 hr).1
    rw [h.mem r idx hr, hST r (by rw [← h.len]; exact this)]

/-- one region is extended -/
theorem Holds.modify {n k : Nat} {regs : List Idx} {S : Nat → Crd → Prop} (h : Holds n k regs S) {f : Idx → Option Idx} {T : Crd → Prop}
    (hf : ∀ idx, RegOK n idx → ∃ r, f idx = some r ∧ RegOK n r ∧ ∀ c, RMem n r c ↔ RMem n idx c ∨ T c) {r : Nat} (hr : r < k) :
    ∃ regs', modifyAt f regs (r : Int) = some regs' ∧ Holds n k regs' fun q c => S q c ∨ (q = r ∧ T c) := by
  have hlen : r < regs.length := by rw [h.len]; exact hr
  have hx := List.getElem?_eq_getElem hlen
  obtain ⟨y, e1, e2, e3⟩ := hf _ (h.ok r _ hx)
  refine ⟨_, modifyAt_some hx e1, by simp [h.len], fun q idx hq => ?_, fun q idx hq c => ?_⟩
  · by_cases e : r = q
    · subst e
      rw [List.getElem?_set_self hlen] at hq
      cases hq
      exact e2
    · rw [List.getElem?_set_ne e] at hq
      exact h.ok q idx hq
  · by_cases e : r = q
    · subst e
      rw [List.getElem?_set_self hlen] at hq
      cases hq
      rw [e3, h.mem r _ hx]
      simp
    · rw [List.getElem?_set_ne e] at hq
      rw [h.mem q idx hq]
      constructor
      · exact Or.inl
      · rintro (h | ⟨rfl, -⟩)
        · exact h
        · exact (e rfl).elim

/-! ## `createRegions` for regular grids -/

/-- members of region `r` as soon as the first `m` cells have been inserted -/
def Assigned (n : Nat) (origin dim : Crd) (ind : List Int) (m : Int) (r : Nat) (c : Crd) : Prop :=
  C12.InBox n ⟨origin, dim⟩ c ∧ lin dim n 0 (rel origin c) < m ∧ ind[(lin dim n 0 (rel origin c)).toNat]? = some (r : Int)

theorem rel_in {n : Nat} {origin dim c : Crd} (h : C12.InBox n ⟨origin, dim⟩ c) : InDim n dim (rel origin c) := by
  intro k hk
  have := h k hk
  simp only at this
  unfold rel
  omega

theorem rel_lin {n : Nat} {origin dim c : Crd} (h : C12.InBox n ⟨origin, dim⟩ c) :
    0 ≤ lin dim n 0 (rel origin c) ∧ lin dim n 0 (rel origin c) < crdProd n dim := by
  have := rel_in h
  refine ⟨lin_nonneg dim n 0 _ (fun j _ hj => (this j (by omega)).1) (fun j _ hj => by have := this j (by omega); omega), ?_⟩
  rw [← vol_prod]
  exact lin_lt_vol dim n 0 _ (fun j _ hj => this j (by omega))

theorem rowVolume {n : Nat} (hn : n = 1 ∨ n = 2) (origin dim : Crd) (start len : Int) :
    C12.Volume n (C12.rows n (rowBox n origin dim start len)) = 1 := by
  rcases hn with rfl | rfl
  · simp [C12.Volume, C12.rows, upd, rowBox]
  · simp [C12.Volume, C12.rows, upd, rowBox]

theorem same_row {W a b : Int} (hW : 0 < W) (h : b % W ≠ 0) (e : (b - 1) / W = a) : b / W = a := by
  have h1 := Int.mul_ediv_add_emod b W
  have h2 := Int.emod_nonneg b (show W ≠ 0 by omega)
  have h3 := Int.emod_lt_of_pos b hW
  have : b - 1 = (b % W - 1) + W * (b / W) := by omega
  rw [this, (divmod (by omega) (by omega)).1] at e
  exact e

theorem regionLoop_spec {n : Nat} (hn : n = 1 ∨ n = 2) {origin dim : Crd} (hd : ∀ k, k ≤ n → 0 < dim k) {fuel : Nat} (hf : 2 ≤ fuel) {k : Nat} {ind : List Int}
    (hlen : (ind.length : Int) = crdProd n dim) (hind : ∀ v ∈ ind, 0 ≤ v ∧ v < k) (g : Int) :
    ∀ (c i : Nat) (rank length start : Int) (regs : List Idx), i + c = ind.length + 1 → 1 ≤ i → 0 ≤ start → start + length + 1 = i →
      (1 ≤ c → 0 ≤ length ∧ (start + (length + 1) - 1) / dim 0 = start / dim 0 ∧ ∀ j : Nat, start ≤ j → j < i → ind[j]? = some rank) →
      (c = 0 → start = ind.length) →
      Holds n k regs (Assigned n origin dim ind start) →
      ∃ regs', regionLoop n origin dim fuel ind (some g) c i rank length start regs = some regs' ∧
        Holds n k regs' (Assigned n origin dim ind ind.length) := by
  intro c
  induction c with
  | zero =>
    intro i rank length start regs _ _ _ _ _ hs hreg
    rw [hs rfl] at hreg
    exact ⟨regs, rfl, hreg⟩
  | succ c ih =>
    intro i rank length start regs hic hi h0 hsl hinv _ hreg
    obtain ⟨hl0, hrow, hall⟩ := hinv (by omega)
    have hW := hd 0 (by omega)
    obtain ⟨v, hv, hv'⟩ : ∃ v, readInd ind (some g) i = some v ∧ (i < ind.length → ind[i]? = some v) := by
      by_cases e : i = ind.length
      · exact ⟨g, by simp [readInd, e], fun h => by omega⟩
      · have : i < ind.length := by omega
        exact ⟨ind[i], by simp [readInd, e, this], fun h => by simp [h]⟩
    rw [regionLoop, hv, Option.bind_some]
    by_cases hcond : rank = v ∧ i < ind.length ∧ (i : Int) % dim 0 ≠ 0
    · rw [if_pos hcond]
      obtain ⟨rfl, h2, h3⟩ := hcond
      refine ih (i + 1) rank (length + 1) start regs (by omega) (by omega) h0 (by push_cast; omega) (fun _ => ⟨by omega, ?_, fun j j1 j2 => ?_⟩) (by omega) hreg
      · have : start + (length + 1 + 1) - 1 = i := by omega
        rw [this]
        refine same_row hW h3 ?_
        rw [← hrow]
        congr 1
        omega
      · by_cases e : j = i
        · subst e; exact hv' h2
        · exact hall j j1 (by omega)
    · rw [if_neg hcond]
      have hst : (start.toNat : Int) = start := Int.toNat_of_nonneg h0
      have hr := hall start.toNat (by omega) (by omega)
      have hrk := hind rank (List.mem_of_getElem? hr)
      obtain ⟨q, rfl⟩ := Int.eq_ofNat_of_zero_le hrk.1
      obtain ⟨regs1, e1, e2⟩ := hreg.modify (T := C12.InBox n (rowBox n origin dim start (length + 1))) (r := q)
        (f := fun idx => regInsertBox n idx (rowBox n origin dim start (length + 1)) fuel)
        (fun idx hok => (C42.box_insert_remove_partial n idx hok _ (by simp [rowBox]; omega)
          (fun k h1 _ => by simp [rowBox, show k ≠ 0 by omega]) (by rcases hn with rfl | rfl <;> simp [rowBox]) fuel
          (by rw [rowVolume hn]; exact hf)).1) (by omega)
      rw [e1, Option.bind_some]
      have e3 : Holds n k regs1 (Assigned n origin dim ind i) := by
        refine e2.congr fun r _ c => ?_
        rw [rowBox_mem hn hd h0 (by omega) (by omega) hrow]
        unfold Assigned
        constructor
        · rintro (⟨a1, a2, a3⟩ | ⟨rfl, a1, a2, a3⟩)
          · exact ⟨a1, by omega, a3⟩
          · refine ⟨a1, by omega, ?_⟩
            exact hall _ (by omega) (by omega)
        · rintro ⟨a1, a2, a3⟩
          by_cases hlt : lin dim n 0 (rel origin c) < start
          · exact Or.inl ⟨a1, hlt, a3⟩
          · have := hall (lin dim n 0 (rel origin c)).toNat (by omega) (by omega)
            rw [a3] at this
            have : (r : Int) = q := by simpa using this
            exact Or.inr ⟨by omega, a1, by omega, by omega⟩
      refine ih (i + 1) v 0 i regs1 (by omega) (by omega) (by omega) (by push_cast; omega) (fun hc => ⟨by omega, ?_, fun j j1 j2 => ?_⟩) (fun hc => by omega) e3
      · congr 1; omega
      · have : j = i := by omega
        subst this
        exact hv' (by omega)

theorem createRegions_spec {n : Nat} (hn : n = 1 ∨ n = 2) {origin dim : Crd} (hd : ∀ k, k ≤ n → 0 < dim k) {fuel : Nat} (hf : 2 ≤ fuel) {k : Nat} {ind : List Int}
    (hlen : (ind.length : Int) = crdProd n dim) (hind : ∀ v ∈ ind, 0 ≤ v ∧ v < k) (g : Int) :
    ∃ regs, createRegions n origin dim fuel k ind (some g) = some regs ∧ Holds n k regs fun r c =>
      C12.InBox n ⟨origin, dim⟩ c ∧ ind[(lin dim n 0 (rel origin c)).toNat]? = some (r : Int) := by
  have hpos : 0 < ind.length := by
    have : 0 < crdProd n dim := by
      have h0 := hd 0 (by omega)
      have h1 := hd 1 (by omega)
      rcases hn with rfl | rfl
      · exact mul_pos h0 h1
      · exact mul_pos (mul_pos h0 h1) (hd 2 (by omega))
    omega
  unfold createRegions
  have : readInd ind (some g) 0 = some ind[0] := by simp [readInd, show ¬ 0 = ind.length by omega, hpos]
  rw [this, Option.bind_some]
  obtain ⟨regs, h1, h2⟩ := regionLoop_spec hn (origin := origin) hd hf hlen hind g ind.length 1 ind[0] 0 0 (List.replicate k emptyIdx) (by omega) (by omega) (by omega)
    (by omega) (fun _ => ⟨by omega, by norm_num, fun j _ j2 => by
      have : j = 0 := by omega
      subst this
      simp [hpos]⟩) (by omega)
    ((holds_empty n k).congr fun r _ c => ⟨False.elim, fun h => by
      have := (rel_lin h.1).1
      have := h.2.1
      omega⟩)
  refine ⟨regs, h1, h2.congr fun r _ c => ?_⟩
  unfold Assigned
  constructor
  · rintro ⟨a, -, b⟩; exact ⟨a, b⟩
  · rintro ⟨a, b⟩; exact ⟨a, by have := (rel_lin a).2; omega, b⟩

/-- Without a cell behind the last one there's no defined behaviour. -/
theorem createRegions_none (n : Nat) (origin dim : Crd) (fuel k : Nat) (ind : List Int) : createRegions n origin dim fuel k ind none = none := by
  have key : ∀ (c i : Nat) (rank length start : Int) (regs : List Idx), 1 ≤ c → i + c = ind.length + 1 →
      regionLoop n origin dim fuel ind none c i rank length start regs = none := by
    intro c
    induction c with
    | zero => intro i _ _ _ _ h; omega
    | succ c ih =>
      intro i rank length start regs _ hic
      rw [regionLoop]
      by_cases hi : i = ind.length
      · simp [readInd, hi]
      · by_cases hc : c = 0
        · omega
        · cases readInd ind none i with
          | none => rfl
          | some v =>
            rw [Option.bind_some]
            split
            · exact ih _ _ _ _ _ (by omega) (by omega)
            · cases modifyAt (fun idx => regInsertBox n idx (rowBox n origin dim start (length + 1)) fuel) regs rank with
              | none => rfl
              | some r => rw [Option.bind_some]; exact ih _ _ _ _ _ (by omega) (by omega)
  unfold createRegions
  by_cases h : ind.length = 0
  · simp [readInd, h]
  · cases readInd ind none 0 with
    | none => rfl
    | some v => rw [Option.bind_some]; exact key _ _ _ _ _ _ (by omega) (by omega)

end LGD.Scotch
