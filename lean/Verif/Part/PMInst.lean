import Verif.Part.PMSpec

/-!
# Partition manager: the neighborhoods of structured and unstructured topologies
-/

namespace LGD
open LGD.C14 LGD.C09 LGD.C10

/-- Neighborhood of structured topologies: at most one step per axis, periodic axes wrap around. -/
def MooreNb (n : Nat) (wraps : Nat → Bool) (dim : Crd) (a c : Crd) : Prop :=
  InDim n dim a ∧ ∃ c1, (∀ k, k ≤ n → -1 ≤ c1 k - a k ∧ c1 k - a k ≤ 1) ∧ ImageIn n wraps dim c1 c

theorem mooreNb_symm (n : Nat) (wraps : Nat → Bool) (dim : Crd) (a c : Crd) (h : MooreNb n wraps dim a c) : MooreNb n wraps dim c a := by
  obtain ⟨h1, c1, h2, h3, h4⟩ := h
  refine ⟨h3, fun k => c k - (c1 k - a k), fun k hk => by have := h2 k hk; simp only; omega, h1, fun k hk => ⟨fun hw => ?_, fun hw => ?_⟩⟩
  · have e := (h4 k hk).1 hw
    have := h1 k hk
    simp only
    rw [← e, Int.sub_emod, Int.emod_emod_of_dvd _ (Int.dvd_refl _), ← Int.sub_emod, show c1 k - (c1 k - a k) = a k by omega]
    exact Int.emod_eq_of_lt this.1 this.2
  · have e := (h4 k hk).2 hw
    simp only
    omega

theorem steps_moore (n : Nat) (wraps : Nat → Bool) (dim : Crd) (w : Nat) (a c : Crd) (ha : InDim n dim a) :
    Steps n (MooreNb n wraps dim) w a c ↔ ∃ c1, (∀ k, k ≤ n → -(w : Int) ≤ c1 k - a k ∧ c1 k - a k ≤ w) ∧ ImageIn n wraps dim c1 c := by
  induction w generalizing a with
  | zero =>
    constructor
    · intro h
      refine ⟨a, fun k hk => by omega, fun k hk => by rw [← h k hk]; exact ha k hk, fun k hk => ⟨fun _ => ?_, fun _ => h k hk⟩⟩
      rw [← h k hk]; exact Int.emod_eq_of_lt (ha k hk).1 (ha k hk).2
    · rintro ⟨c1, h1, h2, h3⟩ k hk
      have e : c1 k = a k := by have := h1 k hk; omega
      cases hw : wraps k
      · rw [← e]; exact (h3 k hk).2 hw
      · rw [← (h3 k hk).1 hw, e, Int.emod_eq_of_lt (ha k hk).1 (ha k hk).2]
  | succ w ih =>
    constructor
    · rintro ⟨b, ⟨_, b1, b2, b3, b4⟩, hs⟩
      obtain ⟨c1, d1, d2, d3⟩ := (ih b b3).1 hs
      refine ⟨fun k => b1 k + (c1 k - b k), fun k hk => ?_, d2, fun k hk => ⟨fun hw => ?_, fun hw => ?_⟩⟩
      · have := b2 k hk; have := d1 k hk; simp only; omega
      · have e := (b4 k hk).1 hw
        rw [← (d3 k hk).1 hw]
        simp only
        rw [← e, show b1 k + (c1 k - b1 k % dim k) = b1 k - b1 k % dim k + c1 k by omega, Int.add_emod, Int.sub_emod,
          Int.emod_emod_of_dvd _ (Int.dvd_refl _)]
        simp
      · have e := (b4 k hk).2 hw
        have e' := (d3 k hk).2 hw
        simp only
        omega
    · rintro ⟨c1, h1, h2, h3⟩
      let b1 : Crd := fun k => a k + (if c1 k - a k < 0 then -1 else if 0 < c1 k - a k then 1 else 0)
      let b : Crd := fun k => if wraps k then b1 k % dim k else b1 k
      have hb : InDim n dim b := by
        intro k hk
        have := ha k hk
        simp only [b]
        cases hw : wraps k
        · have e := (h3 k hk).2 hw
          have := h2 k hk
          simp only [b1, Bool.false_eq_true, if_false]
          split
          · omega
          · split <;> omega
        · simp only [if_true]
          exact ⟨Int.emod_nonneg _ (by omega), Int.emod_lt_of_pos _ (by omega)⟩
      refine ⟨b, ⟨ha, b1, fun k hk => ?_, hb, fun k hk => ⟨fun hw => by simp [b, hw], fun hw => by simp [b, hw]⟩⟩, (ih b hb).2 ?_⟩
      · simp only [b1]
        split
        · omega
        · split <;> omega
      · refine ⟨fun k => b k + (c1 k - b1 k), fun k hk => ?_, h2, fun k hk => ⟨fun hw => ?_, fun hw => ?_⟩⟩
        · have := h1 k hk
          simp only [b1]
          split
          · omega
          · split <;> omega
        · rw [← (h3 k hk).1 hw]
          simp only [b, hw, if_true]
          rw [Int.emod_add_emod, show b1 k + (c1 k - b1 k) = c1 k by omega]
        · simp only [b, hw]
          have := (h3 k hk).2 hw
          simp only [Bool.false_eq_true, if_false]
          omega

/-- Structured topologies: the environment follows the Moore neighborhood, as long as the ghost zone width does not exceed
the extent of a periodic axis. -/
theorem structured_ok (n : Nat) (part : Nat → Option Idx) (dim : Crd) (wraps : Nat → Bool) (gw : Nat)
    (hw : ∀ k, k ≤ n → wraps k = true → 1 ≤ dim k ∧ (gw : Int) ≤ dim k) :
    EnvOK (structuredEnv n part dim wraps) (InDim n dim) (MooreNb n wraps dim) gw := by
  have key : ∀ w : Nat, (∀ k, k ≤ n → wraps k = true → (w : Int) ≤ dim k) → ∀ r, RegOK n r → (∀ c, RMem n r c → InDim n dim c) →
      ∃ r', expandWithTopology n r w dim wraps = some r' ∧ RegOK n r' ∧
        ∀ c, RMem n r' c ↔ ∃ a, RMem n r a ∧ Steps n (MooreNb n wraps dim) w a c := by
    intro w hw r hr hin
    obtain ⟨r', h1, h2, h3⟩ := expandWithTopology_partial n r hr w dim wraps hin hw
    refine ⟨r', h1, h2, fun c => ?_⟩
    rw [h3]
    constructor
    · rintro ⟨a, ha, hc⟩; exact ⟨a, ha, (steps_moore n wraps dim w a c (hin a ha)).2 hc⟩
    · rintro ⟨a, ha, hc⟩; exact ⟨a, ha, (steps_moore n wraps dim w a c (hin a ha)).1 hc⟩
  have key1 : ∀ r, RegOK n r → (∀ c, RMem n r c → InDim n dim c) →
      ∃ r', expandWithTopology n r 1 dim wraps = some r' ∧ RegOK n r' ∧
        ∀ c, RMem n r' c ↔ ∃ a, RMem n r a ∧ MooreNb n wraps dim a c := by
    intro r hr hin
    obtain ⟨r', h1, h2, h3⟩ := expandWithTopology_partial n r hr 1 dim wraps hin (fun k hk hwk => (hw k hk hwk).1)
    refine ⟨r', h1, h2, fun c => ?_⟩
    rw [h3]
    constructor
    · rintro ⟨a, ha, hc⟩; exact ⟨a, ha, hin a ha, hc⟩
    · rintro ⟨a, ha, _, hc⟩; exact ⟨a, ha, hc⟩
  have keyw := key gw (fun k hk hwk => (hw k hk hwk).2)
  refine ⟨⟨?_, ?_, ?_, ?_, key1, fun r hr hin => ?_, ?_⟩, keyw⟩
  · rintro a c ⟨_, _, _, h, _⟩ _; exact h
  · rintro a c ⟨h, _⟩ _; exact h
  · intro a ha
    refine ⟨ha, a, fun k _ => by omega, ha, fun k hk => ⟨fun _ => ?_, fun _ => rfl⟩⟩
    exact Int.emod_eq_of_lt (ha k hk).1 (ha k hk).2
  · rintro a b c d e e' ⟨h, c1, h1, h2, h3⟩
    exact ⟨fun k hk => by rw [e k hk]; exact h k hk, c1, fun k hk => by rw [e k hk]; exact h1 k hk,
      fun k hk => by rw [e' k hk]; exact h2 k hk, fun k hk => by rw [e' k hk]; exact h3 k hk⟩
  · obtain ⟨r', h1, h2, _⟩ := keyw r hr hin
    exact ⟨r', h1, h2⟩
  · intro r hr hin
    obtain ⟨r', h1, h2, h3⟩ := key1 r hr hin
    refine ⟨r', h1, h2, fun c => (h3 c).trans ?_⟩
    constructor
    · rintro ⟨a, ha, hc⟩; exact ⟨a, ha, mooreNb_symm _ _ _ _ _ hc⟩
    · rintro ⟨a, ha, hc⟩; exact ⟨a, ha, mooreNb_symm _ _ _ _ _ hc⟩

/-- Neighborhood of an unstructured grid -/
def GraphNb (nb : Int → List Int) (a c : Crd) : Prop := c 0 = a 0 ∨ c 0 ∈ nb (a 0)

theorem reach_cons {nb : Int → List Int} {k : Nat} {a b c : Int} (hb : b = a ∨ b ∈ nb a) (h : Reach nb k b c) : Reach nb (k + 1) a c := by
  induction h with
  | refl k b =>
    rcases hb with rfl | hb
    · exact .refl _ _
    · exact .step k a a b (.refl k a) hb
  | step k b d e _ he ih => exact .step (k + 1) a d e (ih hb) he

theorem steps_graph (nb : Int → List Int) (k : Nat) (a c : Crd) : Steps 0 (GraphNb nb) k a c ↔ Reach nb k (a 0) (c 0) := by
  constructor
  · intro h
    induction k generalizing a with
    | zero => rw [h 0 (by omega)]; exact .refl 0 _
    | succ k ih =>
      obtain ⟨b, h1, h2⟩ := h
      exact reach_cons h1 (ih b h2)
  · intro h
    have gen : ∀ k x y, Reach nb k x y → ∀ a c : Crd, a 0 = x → c 0 = y → Steps 0 (GraphNb nb) k a c := by
      intro k x y h
      induction h with
      | refl k x =>
        induction k with
        | zero => intro a c ha hc j hj; obtain rfl : j = 0 := by omega
                  rw [ha, hc]
        | succ k ih => intro a c ha hc; exact ⟨a, Or.inl rfl, ih a c ha hc⟩
      | step k x y z _ hz ih =>
        intro a c ha hc
        exact steps_snoc k a (fun _ => y) c (ih a _ ha rfl) (Or.inr (by rw [hc]; exact hz))
          (fun p q e h => by unfold GraphNb at h ⊢; rw [e 0 (by omega)]; exact h)
    exact gen k _ _ h a c rfl rfl

/-- Unstructured grids: the adjacency created for a region needs to list the edges of the region's nodes. -/
theorem unstructured_base (part : Nat → Option Idx) (adj radj : Idx → Int → List Int) (nb : Int → List Int) (gw : Nat)
    (h1 : ∀ r x, Has r x → ∀ y, y ∈ adj r x ↔ y ∈ nb x) (h2 : ∀ r x, Has r x → ∀ y, y ∈ radj r x ↔ x ∈ nb y) :
    EnvBase (unstructuredEnv part adj radj) (fun _ => True) (GraphNb nb) gw := by
  have one : ∀ (ad : Idx → Int → List Int) r, RegOK 0 r → ∃ r', expandWithAdjacency r 1 (ad r) = some r' ∧ RegOK 0 r' ∧
      ∀ c, RMem 0 r' c ↔ ∃ a, RMem 0 r a ∧ (c 0 = a 0 ∨ c 0 ∈ ad r (a 0)) := by
    intro ad r hr
    obtain ⟨r', e1, e2, e3⟩ := adjacency_khop r hr 1 (ad r)
    refine ⟨r', e1, e2, fun c => ?_⟩
    refine (has_iff r' e2 c).trans ((e3 _).trans ?_)
    constructor
    · rintro ⟨a, ha, hh⟩
      refine ⟨fun _ => a, ha, ?_⟩
      cases hh with
      | refl => exact Or.inl rfl
      | step _ _ b _ hb hc =>
        cases hb
        exact Or.inr hc
    · rintro ⟨a, ha, hh⟩
      refine ⟨a 0, (has_iff r hr a).1 ha, ?_⟩
      rcases hh with e | e
      · rw [e]; exact .refl 1 _
      · exact .step 0 _ _ _ (.refl 0 _) e
  have one' : ∀ r, RegOK 0 r → ∃ r', expandWithAdjacency r 1 (adj r) = some r' ∧ RegOK 0 r' ∧
      ∀ c, RMem 0 r' c ↔ ∃ a, RMem 0 r a ∧ GraphNb nb a c := by
    intro r hr
    obtain ⟨r', e1, e2, e3⟩ := one adj r hr
    refine ⟨r', e1, e2, fun c => ?_⟩
    rw [e3]
    constructor
    · rintro ⟨a, ha, hh⟩; exact ⟨a, ha, hh.imp id (h1 r (a 0) ((has_iff r hr a).1 ha) (c 0)).1⟩
    · rintro ⟨a, ha, hh⟩; exact ⟨a, ha, hh.imp id (h1 r (a 0) ((has_iff r hr a).1 ha) (c 0)).2⟩
  refine ⟨fun _ _ _ _ => trivial, fun _ _ _ _ => trivial, fun a _ => Or.inl rfl,
    fun a b c d e e' h => by unfold GraphNb at h ⊢; rw [e 0 (by omega), e' 0 (by omega)]; exact h, fun r hr _ => one' r hr, ?_, ?_⟩
  · intro r hr _
    obtain ⟨r', e1, e2, _⟩ := adjacency_khop r hr gw (adj r)
    exact ⟨r', e1, e2⟩
  · intro r hr _
    obtain ⟨r', e1, e2, e3⟩ := one radj r hr
    refine ⟨r', e1, e2, fun c => (e3 c).trans ?_⟩
    unfold GraphNb
    constructor
    · rintro ⟨a, ha, hh⟩
      exact ⟨a, ha, hh.imp Eq.symm (h2 r (a 0) ((has_iff r hr a).1 ha) (c 0)).1⟩
    · rintro ⟨a, ha, hh⟩
      exact ⟨a, ha, hh.imp Eq.symm (h2 r (a 0) ((has_iff r hr a).1 ha) (c 0)).2⟩

/-- If the ghost zone width is larger than one, the adjacency has to list all edges of the graph, though. -/
theorem unstructured_ok (part : Nat → Option Idx) (adj radj : Idx → Int → List Int) (nb : Int → List Int) (gw : Nat)
    (h1 : ∀ r x, Has r x → ∀ y, y ∈ adj r x ↔ y ∈ nb x) (h2 : ∀ r x, Has r x → ∀ y, y ∈ radj r x ↔ x ∈ nb y)
    (h3 : gw ≤ 1 ∨ ∀ r x y, y ∈ adj r x ↔ y ∈ nb x) :
    EnvOK (unstructuredEnv part adj radj) (fun _ => True) (GraphNb nb) gw := by
  have hb := unstructured_base part adj radj nb gw h1 h2
  refine ⟨hb, ?_⟩
  intro r hr _
  rcases h3 with h3 | h3
  · rcases Nat.le_one_iff_eq_zero_or_eq_one.1 h3 with rfl | rfl
    · refine ⟨r, rfl, hr, fun c => ⟨fun hc => ⟨c, hc, fun _ _ => rfl⟩, fun ⟨a, ha, e⟩ => (RMem_congr hr e).1 ha⟩⟩
    · obtain ⟨r', e1, e2, e3⟩ := hb.ex1 r hr (fun _ _ => trivial)
      refine ⟨r', e1, e2, fun c => (e3 c).trans ?_⟩
      constructor
      · rintro ⟨a, ha, hh⟩; exact ⟨a, ha, c, hh, fun _ _ => rfl⟩
      · rintro ⟨a, ha, b, hh, e⟩
        refine ⟨a, ha, ?_⟩
        unfold GraphNb at hh ⊢
        rw [← e 0 (by omega)]; exact hh
  · obtain ⟨r', e1, e2, e3⟩ := adjacency_khop r hr gw (adj r)
    refine ⟨r', e1, e2, fun c => ?_⟩
    change RMem 0 r' c ↔ ∃ a, RMem 0 r a ∧ Steps 0 (GraphNb nb) gw a c
    have hr' : ∀ k a b, Reach (adj r) k a b ↔ Reach nb k a b := by
      intro k a b
      constructor
      · intro h
        induction h with
        | refl k a => exact .refl k a
        | step k a b c _ hc ih => exact .step k a b c ih ((h3 r b c).1 hc)
      · intro h
        induction h with
        | refl k a => exact .refl k a
        | step k a b c _ hc ih => exact .step k a b c ih ((h3 r b c).2 hc)
    refine (has_iff r' e2 c).trans ((e3 _).trans ?_)
    simp only [steps_graph, hr']
    constructor
    · rintro ⟨a, ha, hh⟩; exact ⟨fun _ => a, ha, hh⟩
    · rintro ⟨a, ha, hh⟩; exact ⟨a 0, (has_iff r hr a).1 ha, hh⟩

end LGD
