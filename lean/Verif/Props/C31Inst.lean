import Verif.Props.C31
import Verif.Props.C42
import Verif.Props.C43Inst

/-!
# C31 for structured grids: stripes and ghost zones as computed by `Region`
-/

namespace LGD.C31
open LGD.Adapter LGD.Patch LGD.Striping LGD.C14 LGD.C12
open LGD.Step (Vec ext restrict regCoords regCoords_spec)

/-- `boundingBox(start, end)` (stripingsimulator.h:359-370) -/
def stripeBox (n : Nat) (dim : Crd) (a b : Nat) : Box where
  origin := fun k => if k = n then a else 0
  dims := fun k => if k = n then max ((b : Int) - a) 0 else dim k

/-- `fillRegion(startRow, endRow)` (stripingsimulator.h:432-437); there is enough fuel -/
def stripeRegion (n : Nat) (dim : Crd) (a b : Nat) : Idx :=
  (regInsertBox n emptyIdx (stripeBox n dim a b) ((Volume n (rows n (stripeBox n dim a b))).toNat + 1)).getD emptyIdx

/-- `fillRegion(startRow, endRow).expandWithTopology(1, …)` (stripingsimulator.h:450-457, 470-475) -/
def expandedRegion (n : Nat) (dim : Crd) (wraps : Nat → Bool) (a b : Nat) : Idx :=
  (expandWithTopology n (stripeRegion n dim a b) 1 dim wraps).getD emptyIdx

/-- the environment of a `StripingSimulator` with a structured topology; everything else is taken from `E` -/
def gridEnv {α : Type} (n : Nat) (dim : Crd) (wraps : Nat → Bool) (E : Env (Vec n) α) : Env (Vec n) α :=
  { E with
    height := (dim n).toNat
    rows := fun a b => regCoords n (stripeRegion n dim a b)
    expand := fun a b => regCoords n (expandedRegion n dim wraps a b) }

theorem stripeRegion_spec (n : Nat) (dim : Crd) (hd : ∀ k, k ≤ n → 0 < dim k) (a b : Nat) (hb : b ≤ (dim n).toNat) :
    RegOK n (stripeRegion n dim a b) ∧ ∀ c, RMem n (stripeRegion n dim a b) c ↔ InDim n dim c ∧ a ≤ (c n).toNat ∧ (c n).toNat < b := by
  have hn := hd n (le_refl _)
  have h0 : 0 ≤ (stripeBox n dim a b).dims 0 := by
    have := hd 0 (Nat.zero_le _)
    simp only [stripeBox]
    split <;> omega
  have h1 : ∀ k, 1 ≤ k → k < n → 0 < (stripeBox n dim a b).dims k := by
    intro k _ hk
    simp only [stripeBox]
    rw [if_neg (by omega)]
    exact hd k (by omega)
  have h2 : 0 ≤ (stripeBox n dim a b).dims n := by simp [stripeBox]
  obtain ⟨⟨r, e, h3, h4⟩, _⟩ := C42.box_insert_remove_partial n emptyIdx (regOK_empty n) (stripeBox n dim a b) h0 h1 h2 _ (Nat.lt_succ_self _)
  unfold stripeRegion
  rw [e, Option.getD_some]
  refine ⟨h3, fun c => ?_⟩
  rw [h4]
  constructor
  · rintro (h | h)
    · exact (regEmpty_mem n c h).elim
    · have hc : ∀ k, k ≤ n → _ := h
      have hcn := hc n (le_refl _)
      simp only [stripeBox, if_true] at hcn
      refine ⟨fun k hk => ?_, by omega, by omega⟩
      by_cases hkn : k = n
      · subst hkn; omega
      · have := hc k hk
        simp only [stripeBox, if_neg hkn] at this
        omega
  · rintro ⟨h5, h6, h7⟩
    refine Or.inr fun k hk => ?_
    have := h5 k hk
    by_cases hkn : k = n
    · subst hkn
      simp only [stripeBox, if_true]
      omega
    · simp only [stripeBox, if_neg hkn]
      omega

theorem expandedRegion_spec (n : Nat) (dim : Crd) (wraps : Nat → Bool) (hd : ∀ k, k ≤ n → 0 < dim k) (a b : Nat) (hb : b ≤ (dim n).toNat) :
    RegOK n (expandedRegion n dim wraps a b) ∧ ∀ c, RMem n (expandedRegion n dim wraps a b) c ↔ ∃ x, RMem n (stripeRegion n dim a b) x ∧ MooreNb n wraps dim x c := by
  obtain ⟨h1, h2⟩ := stripeRegion_spec n dim hd a b hb
  have hok := structured_ok n (fun _ => none) dim wraps 1 (fun k hk _ => ⟨hd k hk, hd k hk⟩)
  obtain ⟨r, e, h3, h4⟩ := hok.ex1 (stripeRegion n dim a b) h1 (fun c hc => ((h2 c).mp hc).1)
  change expandWithTopology n (stripeRegion n dim a b) 1 dim wraps = some r at e
  unfold expandedRegion
  rw [e, Option.getD_some]
  exact ⟨h3, h4⟩

/-- **C31 for structured grids.** Stripes and ghost zones of n-dimensional grids with any combination of periodic and constant
boundaries meet the assumptions of the theorems above, for update functions which read the Moore neighborhood. -/
theorem grid_ok {α : Type} (n : Nat) (dim : Crd) (wraps : Nat → Bool) (E : Env (Vec n) α) (hd : ∀ k, k ≤ n → 0 < dim k) (hN : 0 < E.N) (hn : 0 < E.nanoSteps)
    (hp : 0 < E.lbPeriod)
    (hl : ∀ m (g h : Vec n → α) c, InDim n dim (ext c) → (∀ d, MooreNb n wraps dim (ext c) (ext d) → InDim n dim (ext d) → g d = h d) → E.upd m g c = E.upd m h c) :
    Striping.EnvOK (gridEnv n dim wraps E) (fun c => (ext c n).toNat) (fun c => InDim n dim (ext c)) (fun c d => MooreNb n wraps dim (ext c) (ext d))
      (fun c d => CrdLt n (ext c) (ext d)) where
  ranks := hN
  nano := hn
  period := hp
  order x y h := Step.crdLt_antisymm n _ _ h
  rows a b hb c := by
    obtain ⟨h1, h2⟩ := stripeRegion_spec n dim hd a b hb
    exact ((regCoords_spec n _ h1).2 c).trans (h2 _)
  height c hc := by
    have := hc n (le_refl _)
    change (ext c n).toNat < (dim n).toNat
    omega
  sorted a b hb := (regCoords_spec n _ (stripeRegion_spec n dim hd a b hb).1).1
  expand_sorted a b hb := (regCoords_spec n _ (expandedRegion_spec n dim wraps hd a b hb).1).1
  inside a b hb c hc := by
    obtain ⟨h1, h2⟩ := expandedRegion_spec n dim wraps hd a b hb
    obtain ⟨x, _, _, _, _, h3, _⟩ := (h2 _).mp (((regCoords_spec n _ h1).2 c).mp hc)
    exact h3
  self a b hb c hc := by
    obtain ⟨h1, h2⟩ := expandedRegion_spec n dim wraps hd a b hb
    obtain ⟨h3, h4⟩ := stripeRegion_spec n dim hd a b hb
    have hm := ((regCoords_spec n _ h3).2 c).mp hc
    refine ((regCoords_spec n _ h1).2 c).mpr ((h2 _).mpr ⟨ext c, hm, ?_⟩)
    have hin := ((h4 _).mp hm).1
    exact ⟨hin, ext c, fun k hk => by omega, hin, fun k hk => ⟨fun _ => Int.emod_eq_of_lt (hin k hk).1 (hin k hk).2, fun _ => rfl⟩⟩
  neighbors a b hb c d hc hcd _ := by
    obtain ⟨h1, h2⟩ := expandedRegion_spec n dim wraps hd a b hb
    obtain ⟨h3, h4⟩ := stripeRegion_spec n dim hd a b hb
    exact ((regCoords_spec n _ h1).2 d).mpr ((h2 _).mpr ⟨ext c, ((regCoords_spec n _ h3).2 c).mp hc, hcd⟩)
  localUpd m g h c hc hgh := hl m g h c hc hgh

/-- **C31 for structured grids, result.** After `run()` each rank's stripe contains what the serial simulation computes. -/
theorem grid_run {α : Type} (n : Nat) (dim : Crd) (wraps : Nat → Bool) (E : Env (Vec n) α) (hd : ∀ k, k ≤ n → 0 < dim k) (hN : 0 < E.N) (hn : 0 < E.nanoSteps)
    (hp : 0 < E.lbPeriod) (hB : Balanced E)
    (hl : ∀ m (g h : Vec n → α) c, InDim n dim (ext c) → (∀ d, MooreNb n wraps dim (ext c) (ext d) → InDim n dim (ext d) → g d = h d) → E.upd m g c = E.upd m h c)
    {g : Net.G (St (Vec n) α) (Msg α) Tag} (hr : Running (gridEnv n dim wraps E) g)
    (hdone : ∀ i, i < E.N → g.round i = (E.maxSteps - E.startStep) * K (gridEnv n dim wraps E)) (c : Vec n) (hc : InDim n dim (ext c)) :
    ∃ i, i < E.N ∧ c ∈ region (gridEnv n dim wraps E) (g.loc i).parts i ∧ (g.loc i).cur c = C30.stepwise (serialEnv (gridEnv n dim wraps E)) (E.maxSteps - E.startStep) c := by
  have h := grid_ok n dim wraps E hd hN hn hp hl
  have hB' : Balanced (gridEnv n dim wraps E) := hB
  obtain ⟨i, hi, h1, _⟩ := stripes h hB' (E.maxSteps - E.startStep) c hc
  obtain ⟨_, h2, h3, _⟩ := run_serial h hB' hr i hi (E.maxSteps - E.startStep) (hdone i hi)
  exact ⟨i, hi, by rw [h2]; exact h1, h3 c h1⟩

/-! Non-vacuity: a torus of 4 x 5 cells, three ranks; the stripes have ghost zones on both sides. -/

/-- the example -/
def exGrid : Env (Vec 1) Int :=
  gridEnv 1 (fun k => if k = 0 then 4 else 5) (fun _ => true)
    { N := 3, nanoSteps := 1, startStep := 0, maxSteps := 2, height := 0, lbPeriod := 1, rows := fun _ _ => [], expand := fun _ _ => [],
      initial := fun c => c 0 + c 1, junk := fun _ => 0, upd := fun _ g c => g c + 1, balancer := exBalancer, steerers := [], writers := [] }

example : (region exGrid (partition 5 3) 0).length = 4 ∧ (withGhosts exGrid (partition 5 3) 0).length = 12 ∧ (outerGhost exGrid (partition 5 3) 0 2).length = 4 ∧
    (outerGhost exGrid (partition 5 3) 0 1).length = 4 := by
  decide +kernel

end LGD.C31
