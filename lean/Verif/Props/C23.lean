import Verif.Part.OffsetModel
import Verif.Props.C04
import Verif.Props.C13
import Verif.Props.C42
import Verif.Props.C10

/-!
# C23 – `OffsetHelper`
-/

namespace LGD.C23
open LGD.C01 LGD.C04 LGD.C12 LGD.C13 LGD.C14

/-- axis `k` of a coordinate relative to an offset, on periodic axes modulo the extent of the simulation area -/
def rel (wraps : Nat → Bool) (area off c : Crd) (k : Nat) : Int :=
  if wraps k then (c k - off k) % area k else c k - off k

theorem gapScan_spec (n : Nat) (idx : Idx) (h : RegOK n idx) (bb : Box) (hb : ∀ j, j ≤ n → 0 < bb.dims j)
    (hbound : ∀ c, RMem n idx c → InBox n bb c) (k : Nat) (hk : k ≤ n) :
    ∃ F, ∀ fuel, F ≤ fuel → ∀ (is : List Int) (g : Idx), RegOK 0 g →
      ∃ r, gapScan n idx bb k fuel is g = some r ∧ RegOK 0 r ∧
        ∀ x, C10.Has r x ↔ C10.Has g x ∨ (x ∈ is ∧ ∀ c, RMem n idx c → c k ≠ x) := by
  refine ⟨(Volume n (rows n { origin := bb.origin, dims := upd bb.dims k 1 })).toNat + 1, fun fuel hf is => ?_⟩
  induction is with
  | nil => intro g hg; exact ⟨g, rfl, hg, fun x => by simp⟩
  | cons i is ih =>
    intro g hg
    have hd : ∀ j, j ≤ n → 0 < upd bb.dims k 1 j := by
      intro j hj
      unfold upd
      split
      · omega
      · exact hb j hj
    obtain ⟨⟨cut, c1, c2, c3⟩, _⟩ := C42.box_insert_remove_partial n emptyIdx (regOK_empty n)
      { origin := upd bb.origin k i, dims := upd bb.dims k 1 } (by have := hd 0 (by omega); simp only; omega)
      (fun j _ hj => hd j (by omega)) (by have := hd n (by omega); simp only; omega) fuel
      (by
        have e : Volume n (rows n { origin := upd bb.origin k i, dims := upd bb.dims k 1 }) =
          Volume n (rows n { origin := bb.origin, dims := upd bb.dims k 1 }) := rfl
        rw [e]; omega)
    obtain ⟨x, x1, x2, x3⟩ := regAnd_spec n idx cut h c2
    have hempty : (x 0).length = 0 ↔ ∀ c, RMem n idx c → c k ≠ i := by
      rw [x2.empty_iff]
      constructor
      · intro he c hc hci
        refine he c ((x3 c).2 ⟨hc, (c3 c).2 (Or.inr fun j hj => ?_)⟩)
        have := hbound c hc j hj
        simp only [upd]
        split
        · rename_i e; subst e; omega
        · exact this
      · intro he c hc
        obtain ⟨h1, h2⟩ := (x3 c).1 hc
        rcases (c3 c).1 h2 with h3 | h3
        · exact regEmpty_mem n c h3
        · have := h3 k hk
          simp only [upd, if_true] at this
          exact he c h1 (by omega)
    rw [gapScan, c1, Option.bind_some, x1, Option.bind_some]
    by_cases hx : (x 0).length = 0
    · rw [if_pos hx]
      obtain ⟨g', g1, g2, g3⟩ := C10.has_insert g hg i
      rw [g1, Option.bind_some]
      obtain ⟨r, r1, r2, r3⟩ := ih g' g2
      refine ⟨r, r1, r2, fun y => ?_⟩
      rw [r3, g3, List.mem_cons]
      have := hempty.1 hx
      constructor
      · rintro ((p | rfl) | ⟨p, q⟩)
        · exact Or.inl p
        · exact Or.inr ⟨Or.inl rfl, this⟩
        · exact Or.inr ⟨Or.inr p, q⟩
      · rintro (p | ⟨rfl | p, q⟩)
        · exact Or.inl (Or.inl p)
        · exact Or.inl (Or.inr rfl)
        · exact Or.inr ⟨p, q⟩
    · rw [if_neg hx]
      obtain ⟨r, r1, r2, r3⟩ := ih g hg
      refine ⟨r, r1, r2, fun y => ?_⟩
      rw [r3, List.mem_cons]
      refine or_congr Iff.rfl ⟨fun ⟨p, q⟩ => ⟨Or.inr p, q⟩, fun ⟨p, q⟩ => ⟨p.resolve_left ?_, q⟩⟩
      rintro rfl
      exact hx (hempty.2 q)

theorem widestGap_mem (l : List Streak) (h : 0 < (widestGap l).endX - (widestGap l).origin 0) : widestGap l ∈ l := by
  have gen : ∀ (l : List Streak) (w : Streak), l.foldl (fun w s => if s.endX - s.origin 0 > w.endX - w.origin 0 then s else w) w = w ∨
      l.foldl (fun w s => if s.endX - s.origin 0 > w.endX - w.origin 0 then s else w) w ∈ l := by
    intro l
    induction l with
    | nil => intro w; exact Or.inl rfl
    | cons s l ih =>
      intro w
      rw [List.foldl_cons]
      rcases ih (if s.endX - s.origin 0 > w.endX - w.origin 0 then s else w) with e | e
      · rw [e]
        split
        · exact Or.inr (List.mem_cons_self ..)
        · exact Or.inl rfl
      · exact Or.inr (List.mem_cons_of_mem _ e)
  unfold widestGap at *
  rcases gen l { origin := fun _ => 0, endX := 0 } with e | e
  · rw [e] at h; simp at h
  · exact e

/-- what one axis guarantees -/
def AxisOK (n : Nat) (S : Crd → Prop) (area : Crd) (wraps : Nat → Bool) (k : Nat) (bdim : Int) (o d : Int) : Prop :=
  0 ≤ d ∧ d ≤ area k ∧ d ≤ bdim ∧ ((∃ c, S c) → 0 ≤ o ∧ o < area k) ∧
  (∀ c, S c → 0 ≤ rel wraps area (fun _ => o) c k ∧ rel wraps area (fun _ => o) c k < d) ∧
  ∀ c c', S c → S c' → c' k = c k + 1 → rel wraps area (fun _ => o) c' k = rel wraps area (fun _ => o) c k + 1

theorem offsetAxis_spec (n : Nat) (idx : Idx) (h : RegOK n idx) (area : Crd) (wraps : Nat → Bool) (harea : ∀ k, k ≤ n → 0 ≤ area k)
    (hin : ∀ c, RMem n idx c → InDim n area c) (bb : Box) (m : Int) (hg : determineGeometry n idx = some (m, bb)) (k : Nat) (hk : k ≤ n) :
    ∃ F, ∀ fuel, F ≤ fuel → ∃ o d, offsetAxis n idx area wraps fuel k = some (o, d) ∧
      AxisOK n (RMem n idx) area wraps k (bb.dims k) o d := by
  obtain ⟨m', b', g1, _, g3⟩ := determineGeometry_spec n idx h
  rw [hg] at g1
  obtain ⟨rfl, rfl⟩ := Prod.mk.inj (Option.some.inj g1)
  obtain ⟨ge, gi, gt⟩ := g3
  -- facts on the bounding box
  have hbb : AxisOK n (RMem n idx) area wraps k (bb.dims k) (bb.origin k) (bb.dims k) := by
    by_cases hne : ∃ c, RMem n idx c
    · obtain ⟨⟨c1, p1, p2⟩, ⟨c2, q1, q2⟩⟩ := gt hne k hk
      have a1 := hin c1 p1 k hk
      have a2 := hin c2 q1 k hk
      have a3 := gi c1 p1 k hk
      have hrel : ∀ c, RMem n idx c → rel wraps area (fun _ => bb.origin k) c k = c k - bb.origin k := by
        intro c hc
        have b1 := gi c hc k hk
        have b2 := hin c hc k hk
        unfold rel
        split
        · exact Int.emod_eq_of_lt (by simp only; omega) (by simp only; omega)
        · rfl
      refine ⟨by omega, by omega, Int.le_refl _, fun _ => by omega, fun c hc => ?_, fun c c' hc hc' e => ?_⟩
      · rw [hrel c hc]; have := gi c hc k hk; omega
      · rw [hrel c hc, hrel c' hc']; omega
    · have := ge (fun c hc => hne ⟨c, hc⟩) k hk
      have := harea k hk
      exact ⟨by omega, by omega, Int.le_refl _, fun hh => (hne hh).elim, fun c hc => (hne ⟨c, hc⟩).elim,
        fun c _ hc => (hne ⟨c, hc⟩).elim⟩
  by_cases hc : wraps k = false ∨ bb.dims k < (area k).tdiv 2
  · refine ⟨0, fun fuel _ => ⟨_, _, ?_, hbb⟩⟩
    rw [offsetAxis, hg, Option.bind_some]
    simp only [if_pos hc]
  · have hw : wraps k = true := by
      cases hwk : wraps k
      · exact (hc (Or.inl hwk)).elim
      · rfl
    by_cases hne : ∃ c, RMem n idx c
    · have hpos : ∀ j, j ≤ n → 0 < bb.dims j := by
        intro j hj
        obtain ⟨c, hc⟩ := hne
        have := gi c hc j hj
        omega
      obtain ⟨F, hF⟩ := gapScan_spec n idx h bb hpos (fun c hc j hj => gi c hc j hj) k hk
      refine ⟨F, fun fuel hf => ?_⟩
      obtain ⟨gaps, s1, s2, s3⟩ := hF fuel hf ((List.range (bb.dims k).toNat).map (fun j : Nat => bb.origin k + (j : Int))) emptyIdx (regOK_empty 0)
      obtain ⟨l, l1, _, l3⟩ := toVector_spec s2
      have e : offsetAxis n idx area wraps fuel k = some (if area k - ((widestGap l).endX - (widestGap l).origin 0) < bb.dims k then
          ((widestGap l).endX, area k - ((widestGap l).endX - (widestGap l).origin 0)) else (bb.origin k, bb.dims k)) := by
        rw [offsetAxis, hg, Option.bind_some]
        simp only [if_neg hc]
        rw [s1, Option.bind_some, l1, Option.bind_some]
        split <;> rfl
      rw [e]
      by_cases hlt : area k - ((widestGap l).endX - (widestGap l).origin 0) < bb.dims k
      · rw [if_pos hlt]
        refine ⟨_, _, rfl, ?_⟩
        generalize hW : widestGap l = W at *
        obtain ⟨⟨c1, p1, p2⟩, ⟨c2, q1, q2⟩⟩ := gt hne k hk
        have a1 := hin c1 p1 k hk
        have a2 := hin c2 q1 k hk
        have hlen : 0 < W.endX - W.origin 0 := by omega
        have hmem : W ∈ l := by rw [← hW]; exact widestGap_mem l (by rw [hW]; exact hlen)
        have hgap : ∀ x, W.origin 0 ≤ x → x < W.endX → bb.origin k ≤ x ∧ x < bb.origin k + bb.dims k ∧ ∀ c, RMem n idx c → c k ≠ x := by
          intro x h1 h2
          have : C10.Has gaps x := (l3.mem _).2 ⟨W, hmem, fun j _ hj => by omega, h1, h2⟩
          rcases (s3 x).1 this with q | ⟨q, q'⟩
          · exact (regEmpty_mem 0 _ q).elim
          · obtain ⟨j, hj, rfl⟩ := List.mem_map.1 q
            have := List.mem_range.1 hj
            exact ⟨by omega, by omega, q'⟩
        have g1 := hgap (W.origin 0) (by omega) (by omega)
        have g2 := hgap (W.endX - 1) (by omega) (by omega)
        have hend : W.endX < bb.origin k + bb.dims k := by
          have := g2.2.2 c2 q1
          omega
        have hcell : ∀ c, RMem n idx c → (c k < W.origin 0 ∨ W.endX ≤ c k) ∧ 0 ≤ c k ∧ c k < area k := by
          intro c hc
          refine ⟨?_, hin c hc k hk⟩
          by_contra hcon
          exact (hgap (c k) (by omega) (by omega)).2.2 c hc rfl
        have hrel : ∀ c, RMem n idx c → rel wraps area (fun _ => W.endX) c k = if W.endX ≤ c k then c k - W.endX else c k - W.endX + area k := by
          intro c hc
          have b := hcell c hc
          unfold rel
          rw [if_pos hw]
          split
          · exact Int.emod_eq_of_lt (by simp only; omega) (by simp only; omega)
          · simp only
            rw [← Int.add_emod_right, Int.emod_eq_of_lt (by omega) (by omega)]
        refine ⟨by omega, by omega, by omega, fun _ => by omega, fun c hc => ?_, fun c c' hc hc' e => ?_⟩
        · have b := hcell c hc
          have b0 := gi c hc k hk
          rw [hrel c hc]
          split <;> omega
        · have b := hcell c hc
          have b' := hcell c' hc'
          rw [hrel c hc, hrel c' hc']
          split <;> split <;> omega
      · rw [if_neg hlt]
        exact ⟨_, _, rfl, hbb⟩
    · -- empty region
      refine ⟨0, fun fuel _ => ⟨bb.origin k, bb.dims k, ?_, hbb⟩⟩
      have hz := ge (fun c hc => hne ⟨c, hc⟩) k hk
      have ha := harea k hk
      have hv : toVector 0 emptyIdx = some [] := by
        obtain ⟨l, l1, _, l3⟩ := toVector_spec (regOK_empty 0)
        rw [l1]
        cases l with
        | nil => rfl
        | cons s l =>
          have : RMem 0 emptyIdx s.origin := (l3.mem _).2 ⟨s, List.mem_cons_self .., fun j _ hj => rfl, Int.le_refl _, l3.pos s (List.mem_cons_self ..)⟩
          exact (regEmpty_mem 0 _ this).elim
      rw [offsetAxis, hg, Option.bind_some]
      simp only [if_neg hc]
      rw [hz.2]
      simp only [Int.toNat_zero, List.range_zero, List.map_nil]
      rw [gapScan, Option.bind_some, hv, Option.bind_some]
      have hw0 : (widestGap []).endX - (widestGap []).origin 0 = 0 := rfl
      rw [if_neg (by rw [hw0]; omega)]

/-- **C23.** For every region inside the simulation area and any combination of periodic and constant axes, the offset and
dimensions computed by `OffsetHelper` fit the region: seen from the offset (and normalized by the topology) each of
its cells lies inside of the box, different cells have different positions, and cells next to each other along an
axis stay next to each other. The box is never larger than the bounding box or the simulation area. -/
theorem offset_fits (n : Nat) (idx : Idx) (h : RegOK n idx) (area : Crd) (wraps : Nat → Bool) (harea : ∀ k, k ≤ n → 0 < area k)
    (hin : ∀ c, RMem n idx c → InDim n area c) :
    ∃ F, ∀ fuel, F ≤ fuel → ∃ off dims m bb, offsetHelper n idx area wraps fuel (n + 1) = some (off, dims) ∧
      determineGeometry n idx = some (m, bb) ∧
      (∀ k, k ≤ n → 0 ≤ dims k ∧ dims k ≤ area k ∧ dims k ≤ bb.dims k) ∧
      (∀ c, RMem n idx c → InDim n dims (topoNormalize n wraps (fun k => c k - off k) area)) ∧
      (∀ c c', RMem n idx c → RMem n idx c' → (∀ k, k ≤ n →
        topoNormalize n wraps (fun k => c k - off k) area k = topoNormalize n wraps (fun k => c' k - off k) area k) →
        ∀ k, k ≤ n → c k = c' k) ∧
      (∀ c c' k, RMem n idx c → RMem n idx c' → k ≤ n → c' k = c k + 1 →
        topoNormalize n wraps (fun k => c' k - off k) area k = topoNormalize n wraps (fun k => c k - off k) area k + 1) := by
  obtain ⟨m, bb, hg, _, _⟩ := determineGeometry_spec n idx h
  -- all axes
  have axes : ∀ M, M ≤ n + 1 → ∃ F, ∀ fuel, F ≤ fuel → ∃ off dims, offsetHelper n idx area wraps fuel M = some (off, dims) ∧
      ∀ k, k < M → AxisOK n (RMem n idx) area wraps k (bb.dims k) (off k) (dims k) := by
    intro M
    induction M with
    | zero => intro _; exact ⟨0, fun fuel _ => ⟨_, _, rfl, fun k hk => by omega⟩⟩
    | succ M ih =>
      intro hM
      obtain ⟨F1, h1⟩ := ih (by omega)
      obtain ⟨F2, h2⟩ := offsetAxis_spec n idx h area wraps (fun k hk => by have := harea k hk; omega) hin bb m hg M (by omega)
      refine ⟨max F1 F2, fun fuel hf => ?_⟩
      obtain ⟨off, dims, a1, a2⟩ := h1 fuel (by omega)
      obtain ⟨o, d, b1, b2⟩ := h2 fuel (by omega)
      refine ⟨upd off M o, upd dims M d, by rw [offsetHelper, a1, Option.bind_some, b1]; rfl, fun k hk => ?_⟩
      by_cases e : k = M
      · subst e; simpa [upd] using b2
      · have := a2 k (by omega)
        simpa [upd, e] using this
  obtain ⟨F, hF⟩ := axes (n + 1) (by omega)
  refine ⟨F, fun fuel hf => ?_⟩
  obtain ⟨off, dims, a1, a2⟩ := hF fuel hf
  have hax : ∀ k, k ≤ n → AxisOK n (RMem n idx) area wraps k (bb.dims k) (off k) (dims k) := fun k hk => a2 k (by omega)
  have hnorm : ∀ c, RMem n idx c → ∀ k, k ≤ n → topoNormalize n wraps (fun k => c k - off k) area k = rel wraps area (fun _ => off k) c k := by
    intro c hc k hk
    have hp : OnePeriod n wraps area (fun k => c k - off k) := by
      intro j hj _
      have := (hax j hj).2.2.2.1 ⟨c, hc⟩
      have := hin c hc j hj
      simp only
      omega
    have ho : ¬ Outside n wraps area (fun k => c k - off k) := by
      rintro ⟨j, hj, hwj, hh⟩
      have := (hax j hj).2.2.2.2.1 c hc
      unfold rel at this
      rw [hwj] at this
      simp only [Bool.false_eq_true, if_false] at this
      have := (hax j hj).2.1
      apply hh
      simp only
      omega
    rw [((normalize_spec n wraps area _ harea hp).2 ho).1 k hk]
    unfold rel
    split
    · rfl
    · rename_i hwk
      have h1 := (hax k hk).2.2.2.2.1 c hc
      have := (hax k hk).2.1
      unfold rel at h1
      rw [if_neg hwk] at h1
      simp only at h1 ⊢
      exact Int.emod_eq_of_lt (by omega) (by omega)
  refine ⟨off, dims, m, bb, a1, hg, fun k hk => ⟨(hax k hk).1, (hax k hk).2.1, (hax k hk).2.2.1⟩, fun c hc k hk => ?_, fun c c' hc hc' he k hk => ?_,
    fun c c' k hc hc' hk e => ?_⟩
  · rw [hnorm c hc k hk]
    exact (hax k hk).2.2.2.2.1 c hc
  · have e := he k hk
    rw [hnorm c hc k hk, hnorm c' hc' k hk] at e
    unfold rel at e
    by_cases hw : wraps k = true
    · rw [if_pos hw, if_pos hw] at e
      have h1 := hin c hc k hk
      have h2 := hin c' hc' k hk
      have h3 := (Int.emod_emod_of_dvd (c k - off k) (Int.dvd_refl (area k)))
      have h4 : (c k - off k + off k) % area k = (c' k - off k + off k) % area k := by
        rw [← Int.emod_add_emod, e, Int.emod_add_emod]
      rw [show c k - off k + off k = c k by omega, show c' k - off k + off k = c' k by omega,
        Int.emod_eq_of_lt h1.1 h1.2, Int.emod_eq_of_lt h2.1 h2.2] at h4
      exact h4
    · rw [if_neg hw, if_neg hw] at e; omega
  · rw [hnorm c hc k hk, hnorm c' hc' k hk]
    exact (hax k hk).2.2.2.2.2 c c' hc hc' e

/-- On unstructured grids the displaced grid is the bounding box of the region: each cell lies inside of it. -/
theorem unstructured_offset_fits (n : Nat) (idx : Idx) (h : RegOK n idx) :
    ∃ off dims, offsetHelperUnstructured n idx = some (off, dims) ∧
      ∀ c, RMem n idx c → InDim n dims (fun k => c k - off k) := by
  obtain ⟨m, bb, hg, _, _, gi, _⟩ := determineGeometry_spec n idx h
  refine ⟨bb.origin, bb.dims, by rw [offsetHelperUnstructured, hg]; rfl, fun c hc k hk => ?_⟩
  have := gi c hc k hk
  simp only
  omega

/-! non-vacuity: the example of the class documentation (10 × 5 torus) -/

def docRegion : Option Idx := C01.run 1 emptyIdx [.insert (mk2 0 0 2), .insert (mk2 0 1 2), .insert (mk2 7 4 10)]

example : (docRegion.bind (fun i => offsetHelper 1 i (c3 10 5 0) (fun _ => true) 100 2)).map
    (fun p => (p.1 0, p.1 1, p.2 0, p.2 1)) = some (7, 4, 5, 3) := by decide +kernel
/-- the same region with constant boundaries -/
example : (docRegion.bind (fun i => offsetHelper 1 i (c3 10 5 0) (fun _ => false) 100 2)).map
    (fun p => (p.1 0, p.1 1, p.2 0, p.2 1)) = some (0, 0, 10, 5) := by decide +kernel

end LGD.C23
