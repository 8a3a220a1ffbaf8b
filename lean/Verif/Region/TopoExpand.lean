import Verif.Region.Expand
import Verif.Region.TopoExpandModel
import Verif.Props.C13

/-!
# `expandWithTopology`: proof
-/

namespace LGD
open LGD.C13 LGD.C14

/-- `c` is the image of `c1` in the grid. -/
def Img (n : Nat) (wraps : Nat → Bool) (dim c1 c : Crd) : Prop :=
  ∀ k, k ≤ n → 0 ≤ c k ∧ c k < dim k ∧ (if wraps k then dim k ∣ c1 k - c k else c1 k = c k)

theorem dvd_range_eq {d a b : Int} (ha : 0 ≤ a ∧ a < d) (hb : 0 ≤ b ∧ b < d) (h : d ∣ a - b) : a = b := by
  have h1 := (Int.emod_eq_emod_iff_emod_sub_eq_zero).2 (Int.emod_eq_zero_of_dvd h)
  rwa [Int.emod_eq_of_lt ha.1 ha.2, Int.emod_eq_of_lt hb.1 hb.2] at h1

theorem wrap1_range {x d : Int} (h1 : -d ≤ x) (h2 : x < 2 * d) : 0 ≤ wrap1 x d ∧ wrap1 x d < d ∧ d ∣ x - wrap1 x d := by
  unfold wrap1
  split
  · refine ⟨by omega, by omega, ⟨-1, by omega⟩⟩
  · split
    · refine ⟨by omega, by omega, ⟨1, by omega⟩⟩
    · refine ⟨by omega, by omega, ⟨0, by omega⟩⟩

theorem normalizeStreak_spec (n : Nat) (wraps : Nat → Bool) (dim : Crd) (s : Streak) (t : Idx) (ht : RegOK n t)
    (hx : s.origin 0 < s.endX → 0 ≤ s.origin 0 ∧ s.endX ≤ dim 0)
    (hp : ∀ k, 1 ≤ k → k ≤ n → wraps k = true → -dim k ≤ s.origin k ∧ s.origin k < 2 * dim k) :
    ∃ r, normalizeStreak n wraps dim s t = some r ∧ RegOK n r ∧
      ∀ c, RMem n r c ↔ RMem n t c ∨ ∃ c1, SMem n s c1 ∧ Img n wraps dim c1 c := by
  unfold normalizeStreak
  by_cases he : s.origin 0 < s.endX
  · have hx := hx he
    by_cases ho : Outside n wraps dim s.origin
    · have hb := (outOfBounds_iff n wraps s.origin dim).2 ho
      simp only [topoNormalize, hb, if_true]
      rw [if_pos ((crdEq_iff n _ _).2 (fun _ _ => rfl))]
      refine ⟨t, rfl, ht, fun c => ⟨Or.inl, fun h => h.elim id (fun ⟨c1, h1, h2⟩ => ?_)⟩⟩
      exfalso
      obtain ⟨k, hk, hw, hout⟩ := ho
      by_cases e : k = 0
      · subst e; omega
      · have := h2 k hk
        rw [hw] at this
        have h3 := h1.1 k (by omega) hk
        simp at this
        omega
    · have hb : ¬ outOfBounds n wraps s.origin dim = true := fun h => ho ((outOfBounds_iff n wraps s.origin dim).1 h)
      have e : topoNormalize n wraps s.origin dim = normEdges s.origin dim := by unfold topoNormalize; rw [if_neg hb]
      have hw0 : normEdges s.origin dim 0 = s.origin 0 := by
        unfold normEdges wrap1; rw [if_neg (by omega), if_neg (by omega)]
      simp only [e]
      rw [if_neg]
      · obtain ⟨r, h1, h2, h3⟩ := regInsert_spec n t
          { origin := normEdges s.origin dim, endX := normEdges s.origin dim 0 + (s.endX - s.origin 0) } ht
        refine ⟨r, h1, h2, fun c => ?_⟩
        rw [h3]
        refine or_congr Iff.rfl ?_
        have hwk : ∀ k, 1 ≤ k → k ≤ n → wraps k = true → 0 ≤ normEdges s.origin dim k ∧ normEdges s.origin dim k < dim k ∧
            dim k ∣ s.origin k - normEdges s.origin dim k := by
          intro k h1 h2 h3
          exact wrap1_range (hp k h1 h2 h3).1 (hp k h1 h2 h3).2
        have hwc : ∀ k, k ≤ n → wraps k = false → 0 ≤ s.origin k ∧ s.origin k < dim k ∧ normEdges s.origin dim k = s.origin k := by
          intro k h1 h2
          have h4 : 0 ≤ s.origin k ∧ s.origin k < dim k := by
            by_contra h; exact ho ⟨k, h1, h2, h⟩
          refine ⟨h4.1, h4.2, ?_⟩
          unfold normEdges wrap1; rw [if_neg (by omega), if_neg (by omega)]
        constructor
        · rintro ⟨h1, h2, h3⟩
          simp only [hw0] at h2 h3
          refine ⟨upd s.origin 0 (c 0), ⟨fun k hk hk' => by unfold upd; rw [if_neg (by omega)], ?_, ?_⟩, fun k hk => ?_⟩
          · simp only [upd, if_true]; exact h2
          · simp only [upd, if_true]; omega
          · by_cases ek : k = 0
            · subst ek
              refine ⟨by omega, by omega, ?_⟩
              simp [upd]
            · have hck := h1 k (by omega) hk
              simp only at hck
              simp only [upd, if_neg ek]
              cases hwr : wraps k
              · have := hwc k hk hwr
                simp only [Bool.false_eq_true, if_false]; omega
              · have := hwk k (by omega) hk hwr
                simp only [if_true]; rw [hck]; exact this
        · rintro ⟨c1, ⟨h1, h2, h3⟩, h4⟩
          have e0 : c1 0 = c 0 := by
            have := h4 0 (by omega)
            cases hwr : wraps 0
            · rw [hwr] at this; simpa using this.2.2
            · rw [hwr] at this
              exact dvd_range_eq ⟨by omega, by omega⟩ ⟨this.1, this.2.1⟩ (by simpa using this.2.2)
          refine ⟨fun k hk hk' => ?_, by simp only [hw0]; omega, by simp only [hw0]; omega⟩
          have := h4 k hk'
          have hs := h1 k hk hk'
          cases hwr : wraps k
          · rw [hwr] at this
            have h5 := hwc k hk' hwr
            simp at this
            show c k = normEdges s.origin dim k
            omega
          · rw [hwr] at this
            have h5 := hwk k hk hk' hwr
            simp only [if_true] at this
            show c k = normEdges s.origin dim k
            refine dvd_range_eq ⟨this.1, this.2.1⟩ ⟨h5.1, h5.2.1⟩ ?_
            have : c k - normEdges s.origin dim k = (s.origin k - normEdges s.origin dim k) - (c1 k - c k) := by omega
            rw [this]
            exact Int.dvd_sub h5.2.2 (by rename_i h; exact h.2.2)
      · rw [crdEq_iff]
        intro h
        have := h 0 (by omega)
        omega
  · have hne : ∀ c1, ¬ SMem n s c1 := by rintro c1 ⟨_, a, b⟩; omega
    dsimp only
    split
    · exact ⟨t, rfl, ht, fun c => ⟨Or.inl, fun h => h.elim id (fun ⟨c1, h1, _⟩ => (hne c1 h1).elim)⟩⟩
    · obtain ⟨r, h1, h2, h3⟩ := regInsert_spec n t
          { origin := topoNormalize n wraps s.origin dim, endX := topoNormalize n wraps s.origin dim 0 + (s.endX - s.origin 0) } ht
      refine ⟨r, h1, h2, fun c => ?_⟩
      rw [h3]
      refine or_congr Iff.rfl ⟨?_, fun ⟨c1, h1, _⟩ => (hne c1 h1).elim⟩
      rintro ⟨_, a, b⟩
      simp only at a b
      omega

theorem img_shift (n : Nat) (wraps : Nat → Bool) (dim c1 c : Crd) (x : Int) (hw : wraps 0 = true) (hx : dim 0 ∣ x - c1 0) :
    Img n wraps dim (upd c1 0 x) c ↔ Img n wraps dim c1 c := by
  unfold Img
  constructor
  · intro h k hk
    have := h k hk
    by_cases e : k = 0
    · subst e
      simp only [upd, hw, if_true] at this ⊢
      refine ⟨this.1, this.2.1, ?_⟩
      have h2 : c1 0 - c 0 = (x - c 0) - (x - c1 0) := by omega
      rw [h2]; exact Int.dvd_sub this.2.2 hx
    · simpa only [upd, if_neg e] using this
  · intro h k hk
    have := h k hk
    by_cases e : k = 0
    · subst e
      simp only [upd, hw, if_true] at this ⊢
      refine ⟨this.1, this.2.1, ?_⟩
      have h2 : x - c 0 = (c1 0 - c 0) + (x - c1 0) := by omega
      rw [h2]; exact Int.dvd_add this.2.2 hx
    · simpa only [upd, if_neg e] using this

/-- image of a section of a streak, moved by a period -/
theorem section_img (n : Nat) (wraps : Nat → Bool) (dim : Crd) (s : Streak) (a e d : Int) (hw : wraps 0 = true) (hd : dim 0 ∣ d) (c : Crd) :
    (∃ c1, SMem n { origin := upd s.origin 0 (a + d), endX := e + d } c1 ∧ Img n wraps dim c1 c) ↔
      ∃ c1, (∀ k, 1 ≤ k → k ≤ n → c1 k = s.origin k) ∧ a ≤ c1 0 ∧ c1 0 < e ∧ Img n wraps dim c1 c := by
  constructor
  · rintro ⟨c1, ⟨h1, h2, h3⟩, h4⟩
    simp only [upd, if_true] at h2 h3
    refine ⟨upd c1 0 (c1 0 - d), fun k hk hk' => ?_, ?_, ?_, ?_⟩
    · have := h1 k hk hk'
      simp only [upd, if_neg (show k ≠ 0 by omega)] at this ⊢
      exact this
    · simp only [upd, if_true]; omega
    · simp only [upd, if_true]; omega
    · rw [img_shift n wraps dim c1 c _ hw (by rw [show c1 0 - d - c1 0 = -d by omega]; exact (Int.dvd_neg).2 hd)]
      exact h4
  · rintro ⟨c1, h1, h2, h3, h4⟩
    refine ⟨upd c1 0 (c1 0 + d), ⟨fun k hk hk' => ?_, ?_, ?_⟩, ?_⟩
    · have := h1 k hk hk'
      simp only [upd, if_neg (show k ≠ 0 by omega)]
      exact this
    · simp only [upd, if_true]; omega
    · simp only [upd, if_true]; omega
    · rw [img_shift n wraps dim c1 c _ hw (by rw [show c1 0 + d - c1 0 = d by omega]; exact hd)]
      exact h4

theorem splitStreak_spec (n : Nat) (wraps : Nat → Bool) (dim : Crd) (s : Streak) (t : Idx) (ht : RegOK n t) (hw : wraps 0 = true)
    (hd : 0 < dim 0) (h0 : -dim 0 ≤ s.origin 0) (h1 : s.origin 0 < dim 0) (h2 : s.endX ≤ 2 * dim 0) (he : s.origin 0 < s.endX)
    (hp : ∀ k, 1 ≤ k → k ≤ n → wraps k = true → -dim k ≤ s.origin k ∧ s.origin k < 2 * dim k) :
    ∃ r, splitStreak n wraps dim s t = some r ∧ RegOK n r ∧
      ∀ c, RMem n r c ↔ RMem n t c ∨ ∃ c1, SMem n s c1 ∧ Img n wraps dim c1 c := by
  unfold splitStreak
  have hpu : ∀ x k, 1 ≤ k → k ≤ n → wraps k = true → -dim k ≤ upd s.origin 0 x k ∧ upd s.origin 0 x k < 2 * dim k := by
    intro x k a b c
    simp only [upd, if_neg (show k ≠ 0 by omega)]
    exact hp k a b c
  -- the three sections
  have hs1 : ∃ t1, (if s.origin 0 < 0 then normalizeStreak n wraps dim { origin := upd s.origin 0 (s.origin 0 + dim 0), endX := min s.endX 0 + dim 0 } t
      else some t) = some t1 ∧ RegOK n t1 ∧ ∀ c, RMem n t1 c ↔ RMem n t c ∨
        ∃ c1, (∀ k, 1 ≤ k → k ≤ n → c1 k = s.origin k) ∧ s.origin 0 ≤ c1 0 ∧ c1 0 < min s.endX 0 ∧ Img n wraps dim c1 c := by
    by_cases hneg : s.origin 0 < 0
    · rw [if_pos hneg]
      obtain ⟨r, a, b, d⟩ := normalizeStreak_spec n wraps dim { origin := upd s.origin 0 (s.origin 0 + dim 0), endX := min s.endX 0 + dim 0 } t ht
        (by intro _; simp only [upd, if_true]; omega) (hpu _)
      refine ⟨r, a, b, fun c => ?_⟩
      rw [d, section_img n wraps dim s _ _ _ hw (Int.dvd_refl _)]
    · rw [if_neg hneg]
      exact ⟨t, rfl, ht, fun c => ⟨Or.inl, fun h => h.elim id (fun ⟨c1, _, a, b, _⟩ => by omega)⟩⟩
  obtain ⟨t1, e1, ok1, m1⟩ := hs1
  have hs2 : ∀ x1, x1 = (if s.origin 0 < 0 then min s.endX 0 else s.origin 0) → ∃ t2, (if x1 < s.endX then
      normalizeStreak n wraps dim { origin := upd s.origin 0 x1, endX := min s.endX (dim 0) } t1
      else some t1) = some t2 ∧ RegOK n t2 ∧ ∀ c, RMem n t2 c ↔ RMem n t1 c ∨
        ∃ c1, (∀ k, 1 ≤ k → k ≤ n → c1 k = s.origin k) ∧ x1 ≤ c1 0 ∧ c1 0 < min s.endX (dim 0) ∧ Img n wraps dim c1 c := by
    intro x1 hx1
    by_cases hlt : x1 < s.endX
    · rw [if_pos hlt]
      obtain ⟨r, a, b, d⟩ := normalizeStreak_spec n wraps dim { origin := upd s.origin 0 x1, endX := min s.endX (dim 0) } t1 ok1
        (by intro _; simp only [upd, if_true]; split at hx1 <;> omega) (hpu _)
      refine ⟨r, a, b, fun c => ?_⟩
      have := section_img n wraps dim s x1 (min s.endX (dim 0)) 0 hw (Int.dvd_zero _) c
      rw [Int.add_zero, Int.add_zero] at this
      rw [d, this]
    · rw [if_neg hlt]
      exact ⟨t1, rfl, ok1, fun c => ⟨Or.inl, fun h => h.elim id (fun ⟨c1, _, a, b, _⟩ => by omega)⟩⟩
  obtain ⟨t2, e2, ok2, m2⟩ := hs2 _ rfl
  generalize hx1 : (if s.origin 0 < 0 then min s.endX 0 else s.origin 0) = x1 at *
  have hs3 : ∀ x2, x2 = (if x1 < s.endX then min s.endX (dim 0) else x1) → ∃ t3, (if x2 < s.endX then
      normalizeStreak n wraps dim { origin := upd s.origin 0 (x2 - dim 0), endX := s.endX - dim 0 } t2
      else some t2) = some t3 ∧ RegOK n t3 ∧ ∀ c, RMem n t3 c ↔ RMem n t2 c ∨
        ∃ c1, (∀ k, 1 ≤ k → k ≤ n → c1 k = s.origin k) ∧ x2 ≤ c1 0 ∧ c1 0 < s.endX ∧ Img n wraps dim c1 c := by
    intro x2 hx2
    by_cases hlt : x2 < s.endX
    · rw [if_pos hlt]
      obtain ⟨r, a, b, d⟩ := normalizeStreak_spec n wraps dim { origin := upd s.origin 0 (x2 - dim 0), endX := s.endX - dim 0 } t2 ok2
        (by intro _; simp only [upd, if_true]; split at hx2 <;> split at hx1 <;> omega) (hpu _)
      refine ⟨r, a, b, fun c => ?_⟩
      have := section_img n wraps dim s x2 s.endX (-dim 0) hw ((Int.dvd_neg).2 (Int.dvd_refl _)) c
      rw [← Int.sub_eq_add_neg, ← Int.sub_eq_add_neg] at this
      rw [d, this]
    · rw [if_neg hlt]
      exact ⟨t2, rfl, ok2, fun c => ⟨Or.inl, fun h => h.elim id (fun ⟨c1, _, a, b, _⟩ => by omega)⟩⟩
  obtain ⟨t3, e3, ok3, m3⟩ := hs3 _ rfl
  refine ⟨t3, ?_, ok3, fun c => ?_⟩
  · simp only [hx1, e1, e2, e3, Option.bind_some]
  · rw [m3, m2, m1]
    constructor
    · rintro (((h | ⟨c1, a, b, d, e⟩) | ⟨c1, a, b, d, e⟩) | ⟨c1, a, b, d, e⟩)
      · exact Or.inl h
      · exact Or.inr ⟨c1, ⟨a, b, by omega⟩, e⟩
      · exact Or.inr ⟨c1, ⟨a, by split at hx1 <;> omega, by omega⟩, e⟩
      · exact Or.inr ⟨c1, ⟨a, by split at hx1 <;> split at b <;> omega, by omega⟩, e⟩
    · rintro (h | ⟨c1, ⟨a, b, d⟩, e⟩)
      · exact Or.inl (Or.inl (Or.inl h))
      · by_cases p1 : c1 0 < min s.endX 0
        · exact Or.inl (Or.inl (Or.inr ⟨c1, a, b, p1, e⟩))
        · by_cases p2 : c1 0 < min s.endX (dim 0)
          · exact Or.inl (Or.inr ⟨c1, a, by split at hx1 <;> omega, p2, e⟩)
          · exact Or.inr ⟨c1, a, by split <;> split at hx1 <;> omega, d, e⟩

theorem trim_spec (n : Nat) (wraps : Nat → Bool) (dim : Crd) (s : Streak) (t : Idx) (ht : RegOK n t) (hw : wraps 0 = false)
    (hp : ∀ k, 1 ≤ k → k ≤ n → wraps k = true → -dim k ≤ s.origin k ∧ s.origin k < 2 * dim k) :
    ∃ r, normalizeStreak n wraps dim (trimStreak s dim) t = some r ∧ RegOK n r ∧
      ∀ c, RMem n r c ↔ RMem n t c ∨ ∃ c1, SMem n s c1 ∧ Img n wraps dim c1 c := by
  obtain ⟨r, h1, h2, h3⟩ := normalizeStreak_spec n wraps dim (trimStreak s dim) t ht
    (by intro _; simp only [trimStreak, upd, if_true]; omega)
    (by
      intro k a b c
      simp only [trimStreak, upd, if_neg (show k ≠ 0 by omega)]
      exact hp k a b c)
  refine ⟨r, h1, h2, fun c => ?_⟩
  rw [h3]
  refine or_congr Iff.rfl ?_
  constructor
  · rintro ⟨c1, ⟨a, b, d⟩, e⟩
    simp only [trimStreak, upd, if_true] at b d
    refine ⟨c1, ⟨fun k hk hk' => ?_, by omega, by omega⟩, e⟩
    have := a k hk hk'
    simpa only [trimStreak, upd, if_neg (show k ≠ 0 by omega)] using this
  · rintro ⟨c1, ⟨a, b, d⟩, e⟩
    refine ⟨c1, ⟨fun k hk hk' => ?_, ?_, ?_⟩, e⟩
    · simp only [trimStreak, upd, if_neg (show k ≠ 0 by omega)]; exact a k hk hk'
    all_goals
      have := e 0 (by omega)
      rw [hw] at this
      simp at this
      simp only [trimStreak, upd, if_true]; omega

theorem topoLoop_spec (n : Nat) (wraps : Nat → Bool) (dim : Crd) (hd : 0 < dim 0) (l : List Streak) (t : Idx) (ht : RegOK n t)
    (hl : ∀ s ∈ l, s.origin 0 < s.endX ∧ s.origin 0 < dim 0 ∧ (wraps 0 = true → -dim 0 ≤ s.origin 0 ∧ s.endX ≤ 2 * dim 0) ∧
      ∀ k, 1 ≤ k → k ≤ n → wraps k = true → -dim k ≤ s.origin k ∧ s.origin k < 2 * dim k) :
    ∃ r, topoLoop n wraps dim l t = some r ∧ RegOK n r ∧ ∀ c, RMem n r c ↔ RMem n t c ∨ ∃ c1, U n l c1 ∧ Img n wraps dim c1 c := by
  induction l generalizing t with
  | nil => exact ⟨t, rfl, ht, fun c => ⟨Or.inl, fun h => h.elim id (fun ⟨c1, hu, _⟩ => (U_nil n c1 hu).elim)⟩⟩
  | cons s ss ih =>
    have hs := hl s (List.mem_cons_self ..)
    have step : ∃ r, (if wraps 0 then splitStreak n wraps dim s t else normalizeStreak n wraps dim (trimStreak s dim) t) = some r ∧
        RegOK n r ∧ ∀ c, RMem n r c ↔ RMem n t c ∨ ∃ c1, SMem n s c1 ∧ Img n wraps dim c1 c := by
      cases hw : wraps 0
      · simp only [Bool.false_eq_true, if_false]
        exact trim_spec n wraps dim s t ht hw hs.2.2.2
      · simp only [if_true]
        exact splitStreak_spec n wraps dim s t ht hw hd (hs.2.2.1 hw).1 hs.2.1 (hs.2.2.1 hw).2 hs.1 hs.2.2.2
    obtain ⟨r1, a, b, d⟩ := step
    obtain ⟨r2, e, f, g⟩ := ih r1 b (fun s' h' => hl s' (List.mem_cons_of_mem _ h'))
    refine ⟨r2, by rw [topoLoop, a, Option.bind_some, e], f, fun c => ?_⟩
    rw [g, d]
    constructor
    · rintro ((h | ⟨c1, h1, h2⟩) | ⟨c1, h1, h2⟩)
      · exact Or.inl h
      · exact Or.inr ⟨c1, (U_cons n s ss c1).2 (Or.inl h1), h2⟩
      · exact Or.inr ⟨c1, (U_cons n s ss c1).2 (Or.inr h1), h2⟩
    · rintro (h | ⟨c1, h1, h2⟩)
      · exact Or.inl (Or.inl h)
      · rcases (U_cons n s ss c1).1 h1 with h1 | h1
        · exact Or.inl (Or.inr ⟨c1, h1, h2⟩)
        · exact Or.inr ⟨c1, h1, h2⟩

/-- The coordinate left of a canonical streak does not belong to the region. -/
theorem Canon.left_gap {n : Nat} {l : List Streak} {S : Crd → Prop} (h : Canon n l S) {s : Streak} (hs : s ∈ l) :
    ¬ S (upd s.origin 0 (s.origin 0 - 1)) := by
  intro hS
  obtain ⟨s', hs', a, b, d⟩ := (h.mem _).1 hS
  have hrow : ∀ k, 1 ≤ k → k ≤ n → s.origin k = s'.origin k := by
    intro k h1 h2
    have := a k h1 h2
    simpa only [upd, if_neg (show k ≠ 0 by omega)] using this
  simp only [upd, if_true] at b d
  have hp := h.pos s hs
  by_cases e : s = s'
  · subst e; omega
  · have key : SBefore n s s' ∨ SBefore n s' s := by
      obtain ⟨i, hi, rfl⟩ := List.getElem_of_mem hs
      obtain ⟨j, hj, rfl⟩ := List.getElem_of_mem hs'
      rcases Nat.lt_trichotomy i j with hij | hij | hij
      · exact Or.inl (List.pairwise_iff_getElem.1 h.sorted i j hi hj hij)
      · subst hij; exact (e rfl).elim
      · exact Or.inr (List.pairwise_iff_getElem.1 h.sorted j i hj hi hij)
    rcases key with (⟨k, h1, h2, h3, _⟩ | ⟨_, h2⟩) | (⟨k, h1, h2, h3, _⟩ | ⟨_, h2⟩)
    · have := hrow k h1 h2; omega
    · omega
    · have := hrow k h1 h2; omega
    · omega

theorem expandWithTopology_spec (n : Nat) (idx : Idx) (h : RegOK n idx) (w : Nat) (dim : Crd) (wraps : Nat → Bool)
    (hin : ∀ c, RMem n idx c → ∀ k, k ≤ n → 0 ≤ c k ∧ c k < dim k)
    (hw : ∀ k, k ≤ n → wraps k = true → (w : Int) ≤ dim k) :
    ∃ r, expandWithTopology n idx w dim wraps = some r ∧ RegOK n r ∧
      ∀ c, RMem n r c ↔ ∃ c0, RMem n idx c0 ∧ ∃ c1, (∀ k, k ≤ n → -(w : Int) ≤ c1 k - c0 k ∧ c1 k - c0 k ≤ w) ∧ Img n wraps dim c1 c := by
  obtain ⟨buf, h1, h2, h3⟩ := expand_spec n idx (fun _ => (w : Int)) (fun _ _ => by simp) h
  obtain ⟨l, l1, _, l3⟩ := toVector_spec h2
  have hfin : ∀ c, (∃ c0, RMem n idx c0 ∧ ∃ c1, (∀ k, k ≤ n → -(w : Int) ≤ c1 k - c0 k ∧ c1 k - c0 k ≤ w) ∧ Img n wraps dim c1 c) ↔
      ∃ c1, U n l c1 ∧ Img n wraps dim c1 c := by
    intro c
    constructor
    · rintro ⟨c0, a, c1, b, d⟩
      refine ⟨c1, (l3.memU c1).1 ((h3 c1).2 ⟨c0, a, fun k hk => ?_⟩), d⟩
      have := b k hk
      omega
    · rintro ⟨c1, a, d⟩
      obtain ⟨c0, b, e⟩ := (h3 c1).1 ((l3.memU c1).2 a)
      refine ⟨c0, b, c1, fun k hk => ?_, d⟩
      have := e k hk
      omega
  by_cases hne : ∃ c, RMem n idx c
  · obtain ⟨cc, hcc⟩ := hne
    have hd : 0 < dim 0 := by have := hin cc hcc 0 (by omega); omega
    obtain ⟨r, r1, r2, r3⟩ := topoLoop_spec n wraps dim hd l emptyIdx (regOK_empty n) (fun s hs => by
      have hpos := l3.pos s hs
      have hmem : RMem n buf s.origin := (l3.mem _).2 ⟨s, hs, fun _ _ _ => rfl, Int.le_refl _, hpos⟩
      have hmemr : RMem n buf (upd s.origin 0 (s.endX - 1)) := (l3.mem _).2 ⟨s, hs, fun k _ _ => by
        unfold upd; rw [if_neg (by omega)], by simp only [upd, if_true]; omega, by simp only [upd, if_true]; omega⟩
      obtain ⟨c0, a, b⟩ := (h3 _).1 hmem
      obtain ⟨c0', a', b'⟩ := (h3 _).1 hmemr
      have ha := hin c0 a
      have ha' := hin c0' a' 0 (by omega)
      have b0 := b 0 (by omega)
      have b0' := b' 0 (by omega)
      simp only [upd, if_true] at b0 b0'
      refine ⟨hpos, ?_, fun hw0 => ?_, fun k hk hk' hwk => ?_⟩
      · by_contra hge
        apply l3.left_gap hs
        rw [h3]
        refine ⟨c0, a, fun k hk => ?_⟩
        by_cases e : k = 0
        · subst e
          have := ha 0 (by omega)
          simp only [upd, if_true]; omega
        · have := b k hk
          simp only [upd, if_neg e] at this ⊢
          exact this
      · have := hw 0 (by omega) hw0
        have := ha 0 (by omega)
        omega
      · have := hw k hk' hwk
        have := ha k hk'
        have := b k hk'
        omega)
    refine ⟨r, ?_, r2, fun c => ?_⟩
    · rw [expandWithTopology, show expandW n idx w = some buf from h1, Option.bind_some, l1, Option.bind_some, r1]
    · rw [r3, hfin]
      exact ⟨fun hh => hh.elim (fun h' => (regEmpty_mem n c h').elim) id, Or.inr⟩
  · have hnil : l = [] := by
      cases l with
      | nil => rfl
      | cons s ss =>
        exfalso
        have hmem : RMem n buf s.origin := (l3.mem _).2 ⟨s, List.mem_cons_self .., fun _ _ _ => rfl, Int.le_refl _, l3.pos s (List.mem_cons_self ..)⟩
        obtain ⟨c0, a, _⟩ := (h3 _).1 hmem
        exact hne ⟨c0, a⟩
    refine ⟨emptyIdx, ?_, regOK_empty n, fun c => ?_⟩
    · rw [expandWithTopology, show expandW n idx w = some buf from h1, Option.bind_some, l1, Option.bind_some, hnil]; rfl
    · constructor
      · intro hh; exact (regEmpty_mem n c hh).elim
      · rintro ⟨c0, a, _⟩; exact (hne ⟨c0, a⟩).elim

end LGD
