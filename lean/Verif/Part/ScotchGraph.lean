import Verif.Part.Scotch
import Mathlib.Algebra.BigOperators.Intervals
import Mathlib.Tactic.Ring
import Mathlib.Tactic.Linarith

/-!
# The graph which is handed to SCOTCH
-/

namespace LGD.Scotch
open LGD.C14

/-- neighbors: they differ by one in exactly one dimension -/
def Adj (n : Nat) (p q : Crd) : Prop := ∃ k, k ≤ n ∧ (q k = p k + 1 ∨ q k = p k - 1) ∧ ∀ j, j ≤ n → j ≠ k → q j = p j

/-! ## Edges of one cell -/

theorem inDim_pos {n : Nat} {dim p : Crd} (h : InDim n dim p) {k : Nat} (hk : k ≤ n) : 0 < dim k := by have := h k hk; omega

/-- the coordinates behind the numbers in `cellEdges` -/
theorem digits {n : Nat} (hn : n = 1 ∨ n = 2) {dim p : Crd} (h : InDim n dim p) :
    lin dim n 0 p % dim 0 = p 0 ∧ lin dim n 0 p % area dim = p 0 + dim 0 * p 1 ∧ 0 < dim 0 ∧ dim 0 ≤ area dim := by
  have h0 := h 0 (by omega)
  have h1 := h 1 (by omega)
  have hW := inDim_pos h (k := 0) (by omega)
  have hH := inDim_pos h (k := 1) (by omega)
  have hA : dim 0 ≤ area dim := by unfold area; nlinarith
  have hlt : p 0 + dim 0 * p 1 < area dim := by unfold area; nlinarith
  have hge : 0 ≤ p 0 + dim 0 * p 1 := by nlinarith [mul_nonneg hW.le h1.1]
  rcases hn with rfl | rfl
  · rw [lin1]
    exact ⟨(divmod h0.1 h0.2).2, Int.emod_eq_of_lt hge hlt, hW, hA⟩
  · rw [lin2]
    refine ⟨(divmod h0.1 h0.2).2, ?_, hW, hA⟩
    have : p 0 + dim 0 * (p 1 + dim 1 * p 2) = (p 0 + dim 0 * p 1) + area dim * p 2 := by unfold area; ring
    rw [this]
    exact (divmod hge hlt).2

theorem low_iff {W x y : Int} (hx : 0 ≤ x) (hx' : x < W) (hy : 0 ≤ y) : x + W * y < W ↔ y = 0 := by
  constructor
  · intro h
    by_contra hne
    have : 1 ≤ y := by omega
    nlinarith
  · rintro rfl; simpa using hx'

theorem high_iff {W H x y : Int} (hx : 0 ≤ x) (hx' : x < W) (hy : y < H) : W * (H - 1) ≤ x + W * y ↔ y = H - 1 := by
  constructor
  · intro h
    by_contra hne
    have : y ≤ H - 2 := by omega
    nlinarith
  · rintro rfl; omega

/-- the conditions in terms of coordinates -/
theorem mem_cellEdges {n : Nat} (hn : n = 1 ∨ n = 2) {dim p : Crd} (h : InDim n dim p) (j : Int) :
    j ∈ cellEdges n dim (lin dim n 0 p) ↔
      (0 < p 0 ∧ j = lin dim n 0 p - 1) ∨ (p 0 < dim 0 - 1 ∧ j = lin dim n 0 p + 1) ∨
      (0 < p 1 ∧ j = lin dim n 0 p - dim 0) ∨ (p 1 < dim 1 - 1 ∧ j = lin dim n 0 p + dim 0) ∨
      (n = 2 ∧ 0 < p 2 ∧ j = lin dim n 0 p - area dim) ∨ (n = 2 ∧ p 2 < dim 2 - 1 ∧ j = lin dim n 0 p + area dim) := by
  obtain ⟨e1, e2, hW, hA⟩ := digits hn h
  have h0 := h 0 (by omega)
  have h1 := h 1 (by omega)
  have l1 := low_iff h0.1 h0.2 h1.1
  have l2 := high_iff h0.1 h0.2 h1.2
  have z : n = 2 → ((area dim ≤ lin dim n 0 p ↔ 0 < p 2) ∧ (lin dim n 0 p < area dim * (dim 2 - 1) ↔ p 2 < dim 2 - 1)) := by
    rintro rfl
    have h2 := h 2 (by omega)
    have hlt : p 0 + dim 0 * p 1 < area dim := by unfold area; nlinarith
    have hge : 0 ≤ p 0 + dim 0 * p 1 := by nlinarith [mul_nonneg hW.le h1.1]
    have e : lin dim 2 0 p = (p 0 + dim 0 * p 1) + area dim * p 2 := by rw [lin2]; unfold area; ring
    have l3 := low_iff hge hlt h2.1
    have l4 := high_iff hge hlt h2.2
    rw [e]
    constructor <;> omega
  have m : ∀ (c : Prop) [Decidable c] (x : Int), j ∈ (if c then [x] else []) ↔ c ∧ j = x := by
    intro c _ x
    split <;> simp_all
  unfold cellEdges
  simp only [List.mem_append, m, e1, e2, l1, l2]
  have a1 : p 0 ≠ 0 ↔ 0 < p 0 := by omega
  have a2 : p 0 ≠ dim 0 - 1 ↔ p 0 < dim 0 - 1 := by omega
  have a3 : ¬ p 1 = 0 ↔ 0 < p 1 := by omega
  have a4 : ¬ p 1 = dim 1 - 1 ↔ p 1 < dim 1 - 1 := by omega
  rw [a1, a2, a3, a4]
  by_cases hn2 : n = 2
  · rw [(z hn2).1, (z hn2).2]
    simp only [or_assoc, and_assoc]
  · simp only [hn2, false_and, or_false, or_assoc]

theorem cellEdges_nodup {n : Nat} (hn : n = 1 ∨ n = 2) {dim p : Crd} (h : InDim n dim p) : (cellEdges n dim (lin dim n 0 p)).Nodup := by
  obtain ⟨e1, e2, hW, hA⟩ := digits hn h
  have h0 := h 0 (by omega)
  have h1 := h 1 (by omega)
  have l1 := low_iff h0.1 h0.2 h1.1
  have l2 := high_iff h0.1 h0.2 h1.2
  have key : area dim = dim 0 → dim 1 = 1 := by
    unfold area
    intro e
    by_contra hne
    have : 2 ≤ dim 1 := by omega
    nlinarith
  unfold cellEdges
  simp only [e1, e2, l1, l2]
  generalize lin dim n 0 p = i
  by_cases hAW : area dim = dim 0
  · have := key hAW
    rw [hAW]
    split_ifs <;> simp <;> omega
  · split_ifs <;> simp <;> omega

theorem lin_upd {n : Nat} (hn : n = 1 ∨ n = 2) (dim p : Crd) (x : Int) :
    lin dim n 0 (upd p 0 (p 0 + x)) = lin dim n 0 p + x ∧ lin dim n 0 (upd p 1 (p 1 + x)) = lin dim n 0 p + dim 0 * x ∧
    (n = 2 → lin dim n 0 (upd p 2 (p 2 + x)) = lin dim n 0 p + area dim * x) := by
  rcases hn with rfl | rfl
  · refine ⟨?_, ?_, by omega⟩ <;> simp [lin1, upd] <;> ring
  · refine ⟨?_, ?_, fun _ => ?_⟩ <;> simp [lin2, upd, area] <;> ring

theorem inDim_upd {n : Nat} {dim p : Crd} (h : InDim n dim p) {k : Nat} {x : Int} (h0 : 0 ≤ x) (h1 : x < dim k) : InDim n dim (upd p k x) := by
  intro j hj
  unfold upd
  split
  · rename_i e; rw [e]; exact ⟨h0, h1⟩
  · exact h j hj

theorem lin_inj' {n : Nat} {dim a b : Crd} (ha : InDim n dim a) (hb : InDim n dim b) (h : lin dim n 0 a = lin dim n 0 b) :
    ∀ k, k ≤ n → a k = b k := by
  intro k hk
  rw [← unlin_lin dim n 0 a (fun j _ h2 => ha j (by omega)) k (by omega) (by omega), h,
    unlin_lin dim n 0 b (fun j _ h2 => hb j (by omega)) k (by omega) (by omega)]

/-- The edges of a cell lead to its neighbors within the grid. -/
theorem cellEdges_adj {n : Nat} (hn : n = 1 ∨ n = 2) {dim p : Crd} (h : InDim n dim p) (j : Int) :
    j ∈ cellEdges n dim (lin dim n 0 p) ↔ ∃ q, InDim n dim q ∧ Adj n p q ∧ lin dim n 0 q = j := by
  rw [mem_cellEdges hn h]
  have h0 := h 0 (by omega)
  have h1 := h 1 (by omega)
  constructor
  · have go : ∀ (k : Nat) (x : Int), k ≤ n → (x = 1 ∨ x = -1) → 0 ≤ p k + x → p k + x < dim k → lin dim n 0 (upd p k (p k + x)) = j →
        ∃ q, InDim n dim q ∧ Adj n p q ∧ lin dim n 0 q = j := by
      intro k x hk hx h1 h2 e
      refine ⟨_, inDim_upd h h1 h2, ⟨k, hk, ?_, fun i _ hne => by simp [upd, hne]⟩, e⟩
      simp only [upd, if_true]
      omega
    rintro (⟨a, e⟩ | ⟨a, e⟩ | ⟨a, e⟩ | ⟨a, e⟩ | ⟨rfl, a, e⟩ | ⟨rfl, a, e⟩)
    · exact go 0 (-1) (by omega) (by omega) (by omega) (by omega) (by rw [(lin_upd hn dim p _).1]; omega)
    · exact go 0 1 (by omega) (by omega) (by omega) (by omega) (by rw [(lin_upd hn dim p _).1]; omega)
    · exact go 1 (-1) (by omega) (by omega) (by omega) (by omega) (by rw [(lin_upd hn dim p _).2.1]; omega)
    · exact go 1 1 (by omega) (by omega) (by omega) (by omega) (by rw [(lin_upd hn dim p _).2.1]; omega)
    · have h2 := h 2 (by omega)
      exact go 2 (-1) (by omega) (by omega) (by omega) (by omega) (by rw [(lin_upd hn dim p _).2.2 rfl]; omega)
    · have h2 := h 2 (by omega)
      exact go 2 1 (by omega) (by omega) (by omega) (by omega) (by rw [(lin_upd hn dim p _).2.2 rfl]; omega)
  · rintro ⟨q, hq, ⟨k, hk, hx, hne⟩, rfl⟩
    obtain ⟨x, hx1, hx2⟩ : ∃ x, (x = 1 ∨ x = -1) ∧ q k = p k + x := by
      rcases hx with e | e
      · exact ⟨1, by omega, e⟩
      · exact ⟨-1, by omega, by omega⟩
    have e : lin dim n 0 q = lin dim n 0 (upd p k (p k + x)) := by
      refine lin_congr dim n 0 _ _ fun j _ hj => ?_
      unfold upd
      split
      · rename_i e; rw [e, hx2]
      · exact hne j (by omega) (by assumption)
    have hqk := hq k hk
    rw [hx2] at hqk
    rw [e]
    have hk3 : k = 0 ∨ k = 1 ∨ (k = 2 ∧ n = 2) := by omega
    rcases hk3 with rfl | rfl | ⟨rfl, rfl⟩
    · rw [(lin_upd hn dim p _).1]
      rcases hx1 with rfl | rfl
      · exact Or.inr (Or.inl ⟨by omega, by omega⟩)
      · exact Or.inl ⟨by omega, by omega⟩
    · rw [(lin_upd hn dim p _).2.1]
      rcases hx1 with rfl | rfl
      · exact Or.inr (Or.inr (Or.inr (Or.inl ⟨by omega, by omega⟩)))
      · exact Or.inr (Or.inr (Or.inl ⟨by omega, by omega⟩))
    · rw [(lin_upd hn dim p _).2.2 rfl]
      rcases hx1 with rfl | rfl
      · exact Or.inr (Or.inr (Or.inr (Or.inr (Or.inr ⟨rfl, by omega, by omega⟩))))
      · exact Or.inr (Or.inr (Or.inr (Or.inr (Or.inl ⟨rfl, by omega, by omega⟩))))

/-! ## The number of edges -/

open Finset in
theorem sum_blocks (W : Nat) (f : Nat → Int) : ∀ R, (∑ i ∈ range (W * R), f (i % W)) = R * ∑ x ∈ range W, f x
  | 0 => by simp
  | R + 1 => by
    rw [Nat.mul_succ, sum_range_add, sum_blocks W f R]
    have : ∑ x ∈ range W, f ((W * R + x) % W) = ∑ x ∈ range W, f x := by
      refine sum_congr rfl fun x hx => ?_
      rw [Nat.mul_add_mod, Nat.mod_eq_of_lt (mem_range.1 hx)]
    rw [this]
    push_cast
    ring

open Finset in
theorem sum_ge (m a : Nat) (h : a ≤ m) : (∑ x ∈ range m, if a ≤ x then (1 : Int) else 0) = m - a := by
  obtain ⟨d, rfl⟩ := Nat.exists_eq_add_of_le h
  rw [sum_range_add, sum_congr rfl (g := fun _ => (0 : Int)), sum_congr rfl (s₁ := range d) (g := fun _ => (1 : Int))]
  · simp
  · intro x _; simp
  · intro x hx; rw [if_neg]; have := mem_range.1 hx; omega

open Finset in
theorem sum_lt (m a : Nat) (h : a ≤ m) : (∑ x ∈ range m, if x < a then (1 : Int) else 0) = a := by
  obtain ⟨d, rfl⟩ := Nat.exists_eq_add_of_le h
  rw [sum_range_add, sum_congr rfl (g := fun _ => (1 : Int)), sum_congr rfl (s₁ := range d) (g := fun _ => (0 : Int))]
  · simp
  · intro x _; simp
  · intro x hx; rw [if_pos]; exact mem_range.1 hx

theorem one_length (c : Prop) [Decidable c] (x : Int) : (((if c then [x] else []) : List Int).length : Int) = if c then 1 else 0 := by
  split <;> rfl

/-- edges of the cells before `i` -/
def total (n : Nat) (dim : Crd) (i : Nat) : Int := ∑ j ∈ Finset.range i, ((cellEdges n dim j).length : Int)

open Finset in
theorem total_eq {n : Nat} (hn : n = 1 ∨ n = 2) {dim : Crd} (hd : ∀ k, k ≤ n → 0 < dim k) : total n dim (crdProd n dim).toNat = edgeNbr n dim := by
  obtain ⟨W, hW⟩ := Int.eq_ofNat_of_zero_le (hd 0 (by omega)).le
  obtain ⟨H, hH⟩ := Int.eq_ofNat_of_zero_le (hd 1 (by omega)).le
  have pW := hd 0 (by omega)
  have pH := hd 1 (by omega)
  have pW' : 0 < W := by omega
  have pH' : 0 < H := by omega
  have hA : area dim = ((W * H : Nat) : Int) := by unfold area; rw [hW, hH]; push_cast; rfl
  obtain ⟨D, pD, hD, hprod⟩ : ∃ D : Nat, 0 < D ∧ (n = 2 → dim 2 = (D : Int)) ∧ (n = 1 → D = 1) ∧ (crdProd n dim).toNat = W * H * D := by
    rcases hn with rfl | rfl
    · refine ⟨1, by omega, by omega, fun _ => rfl, ?_⟩
      simp only [crdProd, Nat.zero_add, hW, hH]
      rw [Nat.mul_one]
      exact_mod_cast Int.toNat_natCast (W * H)
    · obtain ⟨D, hD⟩ := Int.eq_ofNat_of_zero_le (hd 2 (by omega)).le
      have := hd 2 (by omega)
      refine ⟨D, by omega, fun _ => hD, by omega, ?_⟩
      simp only [crdProd, Nat.zero_add, Nat.reduceAdd, hW, hH, hD]
      exact_mod_cast Int.toNat_natCast (W * H * D)
  obtain ⟨hD1, hprod⟩ := hprod
  have hAW : W ≤ W * H := Nat.le_mul_of_pos_right _ pH'
  have hcell : ∀ i, i < W * H * D → ((cellEdges n dim i).length : Int) =
      (if 1 ≤ i % W then 1 else 0) + (if i % W < W - 1 then 1 else 0) + (if W ≤ i % (W * H) then 1 else 0) +
      (if i % (W * H) < W * (H - 1) then 1 else 0) + (if n = 2 then (if W * H ≤ i then 1 else 0) else 0) +
      (if n = 2 then (if i < W * H * (D - 1) then 1 else 0) else 0) := by
    intro i _
    have c1 : ((i : Int) % dim 0 ≠ 0) ↔ 1 ≤ i % W := by rw [hW]; omega
    have hm : i % W < W := Nat.mod_lt _ pW'
    have c2 : ((i : Int) % dim 0 ≠ dim 0 - 1) ↔ i % W < W - 1 := by rw [hW]; omega
    have c3 : (¬ (i : Int) % area dim < dim 0) ↔ W ≤ i % (W * H) := by rw [hW, hA]; omega
    have c4 : (¬ dim 0 * (dim 1 - 1) ≤ (i : Int) % area dim) ↔ i % (W * H) < W * (H - 1) := by
      rw [hW, hA, hH]
      have : (W : Int) * (H - 1) = ((W * (H - 1) : Nat) : Int) := by push_cast [Nat.cast_sub pH']; rfl
      rw [this]
      omega
    have c5 : (n = 2 ∧ area dim ≤ (i : Int)) ↔ n = 2 ∧ W * H ≤ i := by rw [hA]; omega
    have c6 : (n = 2 ∧ (i : Int) < area dim * (dim 2 - 1)) ↔ n = 2 ∧ i < W * H * (D - 1) := by
      constructor
      · rintro ⟨rfl, h⟩
        rw [hA, hD rfl] at h
        have : ((W * H : Nat) : Int) * (D - 1) = ((W * H * (D - 1) : Nat) : Int) := by push_cast [Nat.cast_sub pD]; rfl
        rw [this] at h
        exact ⟨rfl, by omega⟩
      · rintro ⟨rfl, h⟩
        rw [hA, hD rfl]
        have : ((W * H : Nat) : Int) * (D - 1) = ((W * H * (D - 1) : Nat) : Int) := by push_cast [Nat.cast_sub pD]; rfl
        rw [this]
        exact ⟨rfl, by omega⟩
    unfold cellEdges
    simp only [List.length_append, Nat.cast_add, one_length, c1, c2, c3, c4, c5, c6]
    simp only [ite_and]
  unfold total
  rw [hprod, sum_congr rfl (fun i hi => hcell i (mem_range.1 hi))]
  simp only [sum_add_distrib]
  have s1 : (∑ i ∈ range (W * H * D), if 1 ≤ i % W then (1 : Int) else 0) = H * D * (W - 1) := by
    rw [Nat.mul_assoc, sum_blocks W (fun x => if 1 ≤ x then (1 : Int) else 0), sum_ge W 1 pW']
    push_cast; ring
  have s2 : (∑ i ∈ range (W * H * D), if i % W < W - 1 then (1 : Int) else 0) = H * D * (W - 1) := by
    rw [Nat.mul_assoc, sum_blocks W (fun x => if x < W - 1 then (1 : Int) else 0), sum_lt W (W - 1) (by omega)]
    push_cast [Nat.cast_sub pW']; ring
  have s3 : (∑ i ∈ range (W * H * D), if W ≤ i % (W * H) then (1 : Int) else 0) = D * (W * H - W) := by
    rw [sum_blocks (W * H) (fun x => if W ≤ x then (1 : Int) else 0), sum_ge (W * H) W hAW]
    push_cast; ring
  have s4 : (∑ i ∈ range (W * H * D), if i % (W * H) < W * (H - 1) then (1 : Int) else 0) = D * (W * (H - 1)) := by
    rw [sum_blocks (W * H) (fun x => if x < W * (H - 1) then (1 : Int) else 0), sum_lt (W * H) (W * (H - 1)) (Nat.mul_le_mul_left _ (by omega))]
    push_cast [Nat.cast_sub pH']; ring
  rw [s1, s2, s3, s4]
  have hAD : W * H ≤ W * H * D := Nat.le_mul_of_pos_right _ pD
  by_cases h2 : n = 2
  · simp only [if_pos h2]
    rw [sum_ge _ _ hAD, sum_lt _ _ (Nat.mul_le_mul_left _ (by omega))]
    unfold edgeNbr
    simp only [if_pos h2, hW, hH, hD h2]
    push_cast [Nat.cast_sub pD]; ring
  · simp only [if_neg h2, sum_const_zero]
    unfold edgeNbr
    have := hD1 (by omega)
    subst this
    simp only [if_neg h2, hW, hH]
    push_cast; ring

/-! ## The loop -/

theorem total_succ (n : Nat) (dim : Crd) (i : Nat) : total n dim (i + 1) = total n dim i + (cellEdges n dim i).length := Finset.sum_range_succ _ _

theorem total_mono (n : Nat) (dim : Crd) {i j : Nat} (h : i ≤ j) : total n dim i ≤ total n dim j := by
  induction j with
  | zero => rw [Nat.le_zero.1 h]
  | succ j ih =>
    by_cases e : i = j + 1
    · rw [e]
    · have := ih (by omega)
      rw [total_succ]; omega

theorem storeAll_some {cap : Int} : ∀ (xs tab : List Int), ((tab.length + xs.length : Nat) : Int) ≤ cap → storeAll cap tab xs = some (tab ++ xs)
  | [], tab, _ => by simp [storeAll]
  | x :: xs, tab, h => by
    simp only [List.length_cons] at h
    rw [storeAll, if_pos (by push_cast at h ⊢; omega), storeAll_some xs (tab ++ [x]) (by simp; push_cast at h ⊢; omega)]
    simp

theorem graphLoop_some {n : Nat} {dim : Crd} {N : Nat} (hN : total n dim N = edgeNbr n dim) : ∀ (c i : Nat) (vert tab : List Int), i + c = N →
    (tab.length : Int) = total n dim i → vert = (List.range i).map (fun j => total n dim j) → tab = (List.range i).flatMap (fun j : Nat => cellEdges n dim j) →
    graphLoop n dim c i vert tab = some ((List.range (N + 1)).map (fun j => total n dim j), (List.range N).flatMap fun j : Nat => cellEdges n dim j)
  | 0, i, vert, tab, h1, h2, h3, h4 => by
    have : i = N := by omega
    subst this
    rw [graphLoop, h2, h3, ← h4, List.range_succ, List.map_append]
    rfl
  | c + 1, i, vert, tab, h1, h2, h3, h4 => by
    have hle := total_mono n dim (show i + 1 ≤ N by omega)
    rw [total_succ] at hle
    rw [graphLoop, storeAll_some _ _ (by push_cast; omega), Option.bind_some]
    refine graphLoop_some hN c (i + 1) _ _ (by omega) ?_ ?_ ?_
    · rw [total_succ, List.length_append]; push_cast; omega
    · rw [h2, h3, List.range_succ, List.map_append]; rfl
    · rw [h4, List.range_succ, List.flatMap_append]; simp

theorem flat_length (n : Nat) (dim : Crd) : ∀ i, (((List.range i).flatMap fun j : Nat => cellEdges n dim j).length : Int) = total n dim i
  | 0 => rfl
  | i + 1 => by
    rw [List.range_succ, List.flatMap_append, List.length_append, total_succ, ← flat_length n dim i]
    simp

/-- the part of the table which belongs to one cell -/
theorem flat_slice (n : Nat) (dim : Crd) {i N : Nat} (h : i < N) :
    (((List.range N).flatMap fun j : Nat => cellEdges n dim j).drop (total n dim i).toNat).take
      ((total n dim (i + 1)).toNat - (total n dim i).toNat) = cellEdges n dim i := by
  have e : List.range N = List.range i ++ i :: (List.range' (i + 1) (N - i - 1)) := by
    rw [List.range_eq_range', List.range_eq_range', ← List.range'_succ]
    have := List.range'_append_1 (s := 0) (m := i) (n := N - i - 1 + 1)
    rw [Nat.zero_add] at this
    rw [this]
    congr 1
    omega
  have l := flat_length n dim i
  rw [e, List.flatMap_append, List.flatMap_cons, List.drop_left' (by omega), total_succ]
  rw [List.take_left' (by omega)]

theorem graph_some {n : Nat} (hn : n = 1 ∨ n = 2) {dim : Crd} (hd : ∀ k, k ≤ n → 0 < dim k) :
    graph n dim = some ((List.range ((crdProd n dim).toNat + 1)).map (fun j => total n dim j),
      (List.range (crdProd n dim).toNat).flatMap fun j : Nat => cellEdges n dim j) :=
  graphLoop_some (total_eq hn hd) _ 0 [] [] (by omega) rfl rfl rfl

end LGD.Scotch
