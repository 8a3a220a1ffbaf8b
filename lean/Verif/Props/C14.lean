import Verif.Geom.Linear
import Verif.Geom.TopoModel
import Verif.Props.C05
import Verif.Props.C12

/-!
# C14 – linear indices and coordinates
-/

namespace LGD.C14
open LGD.C05

/-- Spec: coordinates of the box `[0, dim)`. -/
def InDim (n : Nat) (dim c : Crd) : Prop := ∀ k, k ≤ n → 0 ≤ c k ∧ c k < dim k

theorem toIndex_lin (n : Nat) (hn : n ≤ 2) (c dim : Crd) : toIndex n c dim = lin dim n 0 c := by
  have : n = 0 ∨ n = 1 ∨ n = 2 := by omega
  rcases this with rfl | rfl | rfl
  · rfl
  · simp only [toIndex, lin]; ring
  · simp only [toIndex, lin]; ring

theorem indexToCoord_unlin (n : Nat) (hn : n ≤ 2) (dim : Crd) (i : Int) (hd : ∀ k, k < n → 0 < dim k) (hi : 0 ≤ i) (k : Nat) (hk : k ≤ n) :
    indexToCoord n dim i k = unlin dim n 0 i k := by
  have : n = 0 ∨ n = 1 ∨ n = 2 := by omega
  rcases this with rfl | rfl | rfl
  · have : k = 0 := by omega
    subst this; rfl
  · have h0 := hd 0 (by omega)
    have : k = 0 ∨ k = 1 := by omega
    rcases this with rfl | rfl
    · simp only [indexToCoord, unlin, if_true]; exact Int.tmod_eq_emod_of_nonneg hi
    · simp only [indexToCoord, unlin]; exact Int.tdiv_eq_ediv_of_nonneg hi
  · have h0 := hd 0 (by omega)
    have h1 : 0 ≤ i / dim 0 := Int.ediv_nonneg hi (by omega)
    have : k = 0 ∨ k = 1 ∨ k = 2 := by omega
    rcases this with rfl | rfl | rfl
    · simp only [indexToCoord, unlin, if_true]; exact Int.tmod_eq_emod_of_nonneg hi
    · simp only [indexToCoord, unlin]
      rw [Int.tdiv_eq_ediv_of_nonneg hi]
      exact Int.tmod_eq_emod_of_nonneg h1
    · simp only [indexToCoord, unlin]
      rw [Int.tdiv_eq_ediv_of_nonneg hi]
      exact Int.tdiv_eq_ediv_of_nonneg h1

/-- **C14.** In 1, 2 and 3 dimensions: `toIndex` maps in-bounds coordinates into `[0, volume)`; `indexToCoord` maps indices
from that range to in-bounds coordinates; both compositions are identities; and indices are ordered like the storage order. -/
theorem index_bijection (n : Nat) (hn : n ≤ 2) (dim : Crd) (hd : ∀ k, k ≤ n → 0 < dim k) :
    (∀ c, InDim n dim c → 0 ≤ toIndex n c dim ∧ toIndex n c dim < C12.Volume n dim ∧
      ∀ k, k ≤ n → indexToCoord n dim (toIndex n c dim) k = c k) ∧
    (∀ i, 0 ≤ i → i < C12.Volume n dim → InDim n dim (indexToCoord n dim i) ∧ toIndex n (indexToCoord n dim i) dim = i) ∧
    (∀ a b, InDim n dim a → InDim n dim b → (toIndex n a dim < toIndex n b dim ↔ Before n a b)) := by
  have hd' : ∀ k, k < n → 0 < dim k := fun k hk => hd k (by omega)
  refine ⟨fun c hc => ?_, fun i h0 h1 => ?_, fun a b ha hb => ?_⟩
  · have hnn := lin_nonneg dim n 0 c (fun j _ h => (hc j (by omega)).1) (fun j _ h => by have := hd j (by omega); omega)
    have hlt := lin_lt_vol dim n 0 c (fun j _ h => hc j (by omega))
    rw [vol_prod, ← C12.volume_eq] at hlt
    rw [toIndex_lin n hn]
    refine ⟨hnn, hlt, fun k hk => ?_⟩
    rw [indexToCoord_unlin n hn dim _ hd' hnn k hk]
    exact unlin_lin dim n 0 c (fun j _ h => hc j (by omega)) k (by omega) (by omega)
  · constructor
    · intro k hk
      rw [indexToCoord_unlin n hn dim i hd' h0 k hk]
      exact unlin_range dim n 0 i (fun j _ h => hd j (by omega)) h0 (by rw [vol_prod, ← C12.volume_eq]; exact h1) k (by omega) (by omega)
    · rw [toIndex_lin n hn, lin_congr dim n 0 _ (unlin dim n 0 i) (fun j _ h => indexToCoord_unlin n hn dim i hd' h0 j (by omega))]
      exact lin_unlin dim n 0 i
  · rw [toIndex_lin n hn, toIndex_lin n hn, lin_lt_iff dim n 0 a b (fun j _ h => ha j (by omega)) (fun j _ h => hb j (by omega))]
    unfold Before
    constructor
    · rintro ⟨k, h1, h2, h3, h4⟩; exact ⟨k, by omega, h3, fun j a b => h4 j a (by omega)⟩
    · rintro ⟨k, h1, h2, h3⟩; exact ⟨k, by omega, by omega, h2, fun j a b => h3 j a (by omega)⟩

/-! non-vacuity -/

def c3 (x y z : Int) : Crd := fun k => if k = 0 then x else if k = 1 then y else z

example : InDim 2 (c3 4 3 2) (c3 1 2 1) := by
  intro k hk
  have : k = 0 ∨ k = 1 ∨ k = 2 := by omega
  rcases this with rfl | rfl | rfl <;> decide
example : toIndex 2 (c3 1 2 1) (c3 4 3 2) = 21 ∧ (List.range 3).map (indexToCoord 2 (c3 4 3 2) 21) = [1, 2, 1] := by decide

end LGD.C14
