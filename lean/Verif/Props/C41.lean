import Verif.Props.C01
import Verif.Region.Expand

/-!
# C41 – `expandWithStencil` computes the Minkowski sum with the stencil
-/

namespace LGD.C41
open LGD.C01

/-- **C41.** For every region and every stencil shape the result contains exactly the coordinates `c0 + d` with `c0` in
the region and `d` a relative coordinate of the stencil. -/
theorem stencil_sum (n : Nat) (idx : Idx) (h : RegOK n idx) (stencil : List Crd) :
    ∃ r, expandWithStencil n idx stencil = some r ∧ RegOK n r ∧
      ∀ c, RMem n r c ↔ ∃ c0 d, RMem n idx c0 ∧ d ∈ stencil ∧ ∀ k, k ≤ n → c k = c0 k + d k := by
  obtain ⟨r, h1, h2, h3⟩ := expandWithStencil_spec n idx h stencil
  refine ⟨r, h1, h2, fun c => ?_⟩
  rw [h3]
  constructor
  · rintro ⟨d, hd, hc⟩
    exact ⟨_, d, hc, hd, fun k _ => by omega⟩
  · rintro ⟨c0, d, hc, hd, hk⟩
    refine ⟨d, hd, (RMem_congr h (fun k hkn => ?_)).2 hc⟩
    have := hk k hkn
    omega

/-- With the stencil of all coordinates of maximum norm ≤ 1 the result equals `expand(1)`. -/
theorem moore_eq_expand (n : Nat) (idx : Idx) (h : RegOK n idx) (stencil : List Crd)
    (hs : ∀ d : Crd, (∃ d' ∈ stencil, ∀ k, k ≤ n → d' k = d k) ↔ ∀ k, k ≤ n → -1 ≤ d k ∧ d k ≤ 1) :
    ∃ x y, expandWithStencil n idx stencil = some x ∧ expandW n idx 1 = some y ∧ regEq n x y = true := by
  obtain ⟨x, h1, ⟨tx, h2⟩, h3⟩ := stencil_sum n idx h stencil
  obtain ⟨y, i1, ⟨ty, i2⟩, i3⟩ := expand_spec n idx (fun _ => ((1 : Nat) : Int)) (fun _ _ => by simp) h
  refine ⟨x, y, h1, i1, ?_⟩
  rw [rep_eq_iff h2 i2]
  intro c
  rw [h3, i3]
  constructor
  · rintro ⟨c0, d, hc0, hd, hk⟩
    have := (hs d).1 ⟨d, hd, fun _ _ => rfl⟩
    refine ⟨c0, hc0, fun k hkn => ?_⟩
    have := this k hkn
    have := hk k hkn
    omega
  · rintro ⟨c0, hc0, hk⟩
    obtain ⟨d, hd, hdk⟩ := (hs (fun k => c k - c0 k)).2 (fun k hkn => by have := hk k hkn; omega)
    exact ⟨c0, d, hc0, hd, fun k hkn => by have := hdk k hkn; omega⟩

/-! non-vacuity: the 2D von Neumann stencil applied to a streak -/

def crd2 (x y : Int) : Crd := fun k => if k = 0 then x else y

example : ((run 1 emptyIdx [.insert (mk2 0 0 3)]).bind (fun i =>
    (expandWithStencil 1 i [crd2 0 (-1), crd2 (-1) 0, crd2 0 0, crd2 1 0, crd2 0 1]).bind (toVector 1))).map
    (List.map (fun s => (s.origin 0, s.origin 1, s.endX))) = some [(0, -1, 3), (-1, 0, 4), (0, 1, 3)] := by decide +kernel

/-- the hypothesis of `moore_eq_expand` is met by the 1D Moore stencil -/
example : ∀ d : Crd, (∃ d' ∈ [fun _ => -1, fun _ => 0, fun _ => (1 : Int)], ∀ k, k ≤ 0 → d' k = d k) ↔
    ∀ k, k ≤ 0 → -1 ≤ d k ∧ d k ≤ 1 := by
  intro d
  constructor
  · rintro ⟨d', hd', hk⟩ k hk0
    have := hk k hk0
    simp only [List.mem_cons, List.not_mem_nil, or_false] at hd'
    rcases hd' with rfl | rfl | rfl <;> (simp only at this; omega)
  · intro hk
    have h0 := hk 0 (by omega)
    refine ⟨fun _ => d 0, ?_, fun k hk => by have : k = 0 := by omega
                                             rw [this]⟩
    have : d 0 = -1 ∨ d 0 = 0 ∨ d 0 = 1 := by omega
    rcases this with h | h | h <;> simp [h]

end LGD.C41
