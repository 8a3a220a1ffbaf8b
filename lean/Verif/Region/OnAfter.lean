import Verif.Region.Groups
import Verif.Region.OnAfterModel

/-!
# Region: `streakIteratorOnOrAfter`, proofs
-/

namespace LGD

/-- first component at a position (0 if out of range) -/
def keyAt (v : IVec) (p : Nat) : Int := (v[p]?.getD (0, 0)).1

theorem keyAt_get (v : IVec) (p : Nat) (hp : p < v.length) : keyAt v p = (v[p]).1 := by
  simp [keyAt, List.getElem?_eq_getElem hp]

theorem lowerBound_spec (v : IVec) (a b : Nat) (c : Int) (hab : a ≤ b) (hb : b ≤ v.length)
    (hs : ∀ p p', a ≤ p → p < p' → p' < b → keyAt v p < keyAt v p') :
    ∃ cur, lowerBound v a b c = some cur ∧ a ≤ cur ∧ cur ≤ b ∧ (∀ p, a ≤ p → p < cur → keyAt v p < c) ∧
      (∀ p, cur ≤ p → p < b → c ≤ keyAt v p) := by
  unfold lowerBound
  by_cases h0 : a = b
  · exact ⟨b, by rw [if_pos h0], by omega, by omega, fun p h1 h2 => by omega, fun p h1 h2 => by omega⟩
  rw [if_neg h0]
  have ha : a < v.length := by omega
  rw [List.getElem?_eq_getElem ha]
  simp only [Option.bind_eq_bind, Option.bind_some]
  by_cases h1 : c < v[a].1
  · rw [if_pos h1]
    refine ⟨a, rfl, by omega, by omega, fun p h2 h3 => by omega, fun p h2 h3 => ?_⟩
    have := keyAt_get v a ha
    by_cases e : p = a
    · subst e; omega
    · have := hs a p (by omega) (by omega) h3
      omega
  rw [if_neg h1]
  have hb1 : b - 1 < v.length := by omega
  rw [List.getElem?_eq_getElem hb1]
  simp only [Option.bind_some]
  by_cases h2 : v[b - 1].1 < c
  · rw [if_pos h2]
    refine ⟨b, rfl, by omega, by omega, fun p h3 h4 => ?_, fun p h3 h4 => by omega⟩
    have := keyAt_get v (b - 1) hb1
    by_cases e : p = b - 1
    · subst e; omega
    · have := hs p (b - 1) h3 (by omega) (by omega)
      omega
  rw [if_neg h2]
  have hseg : ∀ j, j < b - a → ((v.take b).drop a)[j]? = v[a + j]? := by
    intro j hj
    rw [List.getElem?_drop, List.getElem?_take_of_lt (by omega)]
  have hsl : ((v.take b).drop a).length = b - a := by
    rw [List.length_drop, List.length_take]; omega
  generalize hsg : (v.take b).drop a = seg at *
  have hpw : seg.Pairwise (fun x y => x.1 < y.1) := by
    rw [List.pairwise_iff_getElem]
    intro i j hi hj hij
    have e1 := hseg i (by omega)
    have e2 := hseg j (by omega)
    have := hs (a + i) (a + j) (by omega) (by omega) (by omega)
    unfold keyAt at this
    rw [← e1, ← e2, List.getElem?_eq_getElem hi, List.getElem?_eq_getElem hj] at this
    exact this
  have htl : (seg.takeWhile (fun p => decide (p.1 < c))).length ≤ seg.length := (List.takeWhile_prefix _).length_le
  have hk : ∀ j, j < seg.length → (keyAt v (a + j) < c ↔ j < (seg.takeWhile (fun p => decide (p.1 < c))).length) := by
    intro j hj
    have e1 := hseg j (by omega)
    unfold keyAt
    rw [← e1]
    clear e1 hseg hsl hsg htl
    clear h1 h2 hs hab hb h0 ha hb1
    induction seg generalizing j with
    | nil => simp at hj
    | cons x xs ih =>
      rw [List.pairwise_cons] at hpw
      by_cases hx : x.1 < c
      · rw [List.takeWhile_cons, if_pos (by simpa using hx)]
        cases j with
        | zero => simpa using hx
        | succ j =>
          simp only [List.getElem?_cons_succ, List.length_cons, Nat.add_lt_add_iff_right]
          exact ih hpw.2 j (by simpa using hj)
      · rw [List.takeWhile_cons, if_neg (by simpa using hx)]
        cases j with
        | zero => simpa using hx
        | succ j =>
          simp only [List.length_cons, Nat.add_lt_add_iff_right] at hj
          simp only [List.getElem?_cons_succ, List.length_nil, Nat.not_lt_zero, iff_false]
          rw [List.getElem?_eq_getElem hj]
          have := hpw.1 _ (List.getElem_mem hj)
          simp only [Option.getD_some]; omega
  refine ⟨_, rfl, by omega, by omega, ?_, ?_⟩
  · intro p h3 h4
    have := (hk (p - a) (by omega)).2 (by omega)
    rwa [show a + (p - a) = p by omega] at this
  · intro p h3 h4
    have := (hk (p - a) (by omega))
    rw [show a + (p - a) = p by omega] at this
    omega

theorem streakAt_origin (n : Nat) (idx : Idx) (i k : Nat) (hk : k ≤ n) :
    (streakAt n idx i).origin k = keyAt (idx k) (P idx i k) := by
  simp only [streakAt, if_pos hk, keyAt]

theorem siOffsets_spec {n : Nat} {idx : Idx} {t : Tree n} (h : Rep n idx t) (o : Nat → Nat) (i : Nat)
    (hi : i < (idx 0).length) (ho : ∀ k, k ≤ n → o k = P idx i k) :
    ∃ it, siOffsets n idx o = some it ∧ At n idx (fun _ => 0) 0 i it := by
  refine ⟨{ pos := o, streak := shiftS n (fun _ => 0) 0 (streakAt n idx i) }, ?_, ⟨ho, rfl⟩⟩
  have h0 : o 0 = i := ho 0 (by omega)
  rw [siOffsets, if_pos (by omega), construct_spec n idx _ _ o i ho (P_lt h hi)]
  rfl

/-- Descending from a position `p` on level `d` to first children. -/
theorem descendFirst_spec {n : Nat} {idx : Idx} {t : Tree n} (h : Rep n idx t) :
    ∀ (d p : Nat) (o : Nat → Nat) (e : IPair), d ≤ n → (idx d)[p]? = some e → o d = p →
      ∃ o', descendFirst idx d e o = some o' ∧ (∀ k, d ≤ k → o' k = o k) ∧ QPos idx d o' ∧
        (∀ k, k ≤ d → o' k < (idx k).length) := by
  intro d
  induction d with
  | zero =>
    intro p o e _ he hp
    refine ⟨o, rfl, fun _ _ => rfl, fun k hk => by omega, fun k hk => ?_⟩
    have : k = 0 := by omega
    subst this
    rw [hp]; exact (List.getElem?_eq_some_iff.1 he).1
  | succ d ih =>
    intro p o e hd he hp
    have ho := h.offOK d (by omega)
    obtain ⟨hpl, hpe⟩ := List.getElem?_eq_some_iff.1 he
    have hb := ho.bnd e (List.mem_of_getElem? he)
    have htp : toPos e.2 = some e.2.toNat := by unfold toPos; rw [if_pos hb.1]
    have hlt : e.2.toNat < (idx d).length := by omega
    rw [descendFirst, htp, Option.bind_some]
    by_cases hd0 : d = 0
    · subst hd0
      rw [if_pos rfl]
      refine ⟨_, rfl, ?_, ?_, ?_⟩
      · intro k hk; unfold setPos; rw [if_neg (by omega)]
      · intro k hk
        have : k = 0 := by omega
        subst this
        refine ⟨e, ?_, ?_⟩
        · unfold setPos; simp [hp, he]
        · unfold setPos; simp; omega
      · intro k hk
        unfold setPos
        by_cases hk0 : k = 0
        · subst hk0; simpa using hlt
        · have : k = 1 := by omega
          subst this
          rw [if_neg hk0]
          have : o 1 = p := hp
          rw [this]; exact hpl
    · rw [if_neg hd0, List.getElem?_eq_getElem hlt, Option.bind_some]
      obtain ⟨o', h1, h2, h3, h4⟩ := ih e.2.toNat (setPos o d e.2.toNat) _ (by omega) (List.getElem?_eq_getElem hlt)
        (by simp [setPos])
      have e1 : o' (d + 1) = p := by rw [h2 (d + 1) (by omega)]; simp [setPos, hp]
      have e2 : o' d = e.2.toNat := by rw [h2 d (by omega)]; simp [setPos]
      refine ⟨o', h1, ?_, ?_, ?_⟩
      · intro k hk
        rw [h2 k (by omega)]; unfold setPos; rw [if_neg (by omega)]
      · intro k hk
        by_cases hk' : k = d
        · subst hk'
          exact ⟨e, by rw [e1]; exact he, by rw [e2]; omega⟩
        · exact h3 k (by omega)
      · intro k hk
        by_cases hk' : k = d + 1
        · subst hk'; rw [e1]; exact hpl
        · exact h4 k (by omega)

/-- `QPos_P` restricted to the levels up to `d`. -/
theorem QPos_P' {n : Nat} {idx : Idx} {t : Tree n} (h : Rep n idx t) {pos : Nat → Nat} (d : Nat) (hd : d ≤ n)
    (hq : QPos idx d pos) :
    (∀ k, k ≤ d → pos k = P idx (pos 0) k) ∧
    ∀ i, i < (idx 0).length → ∀ k, k ≤ d → (P idx i k < pos k ↔ i < pos 0) := by
  constructor
  · intro k
    induction k with
    | zero => intro _; rfl
    | succ k ih =>
      intro hk
      obtain ⟨e, h1, h2⟩ := hq k (by omega)
      symm
      rw [P, ← ih (by omega)]
      apply par_unique (h.offOK k (by omega)) h1
      · omega
      · intro e' he'
        have := (h.offOK k (by omega)).incr
        obtain ⟨a1, a2⟩ := List.getElem?_eq_some_iff.1 h1
        obtain ⟨b1, b2⟩ := List.getElem?_eq_some_iff.1 he'
        have := List.pairwise_iff_getElem.1 this _ _ a1 b1 (by omega)
        rw [a2, b2] at this
        omega
  · intro i hi k
    induction k with
    | zero => intro _; rfl
    | succ k ih =>
      intro hk
      obtain ⟨e, h1, h2⟩ := hq k (by omega)
      rw [P, par_lt_iff (h.offOK k (by omega)) (P_lt h hi k (by omega)) h1, h2, ← ih (by omega)]
      omega

/-- Hypothesis excluding the defective branch (region.h:1402-1412 with `d ≥ 1`): if the region has coordinates that agree
with `c` on all axes above `k`, then one of them is not before `c` on axis `k`. -/
def NoOvershoot (n : Nat) (idx : Idx) (c : Crd) : Prop :=
  ∀ k, 1 ≤ k → k < n → (∃ j, j < (idx 0).length ∧ ∀ m, k < m → m ≤ n → (streakAt n idx j).origin m = c m) →
    ∃ j, j < (idx 0).length ∧ (∀ m, k < m → m ≤ n → (streakAt n idx j).origin m = c m) ∧ c k ≤ (streakAt n idx j).origin k

theorem crdLt_of_eq_above {n : Nat} {a b : Crd} {d : Nat} (hd : d ≤ n) (h : ∀ k, d < k → k ≤ n → a k = b k) :
    (a d < b d → CrdLt n a b) ∧ (b d < a d → ¬ CrdLt n a b) := by
  constructor
  · intro h1; exact ⟨d, hd, h1, h⟩
  · rintro h1 ⟨k, h2, h3, h4⟩
    by_cases hk : d < k
    · have := h k hk h2; omega
    · by_cases e : k = d
      · subst e; omega
      · have := h4 d (by omega) hd; omega

theorem not_crdLt_of_gt {n : Nat} {a b : Crd} (h : ∃ k, k ≤ n ∧ b k < a k ∧ ∀ j, k < j → j ≤ n → a j = b j) : ¬ CrdLt n a b := by
  obtain ⟨k, h1, h2, h3⟩ := h
  exact (crdLt_of_eq_above h1 h3).2 h2

theorem onAfterLoop_spec {n : Nat} {idx : Idx} {t : Tree n} (h : Rep n idx t) (c : Crd) (H : NoOvershoot n idx c) :
    ∀ (d a b : Nat) (o : Nat → Nat), d ≤ n → a ≤ b → b ≤ (idx d).length → (a < b ∨ (d = n ∧ b = (idx d).length)) →
      (d = n → b = (idx d).length) →
      (∀ j, j < (idx 0).length → P idx j d < a →
        ∃ k, d < k ∧ k ≤ n ∧ (streakAt n idx j).origin k < c k ∧ ∀ m, k < m → m ≤ n → (streakAt n idx j).origin m = c m) →
      (∀ j, j < (idx 0).length → b ≤ P idx j d →
        ∃ k, d < k ∧ k ≤ n ∧ c k < (streakAt n idx j).origin k ∧ ∀ m, k < m → m ≤ n → (streakAt n idx j).origin m = c m) →
      (∀ j, j < (idx 0).length → a ≤ P idx j d → P idx j d < b → ∀ k, d < k → k ≤ n → (streakAt n idx j).origin k = c k) →
      (∀ p p', a ≤ p → p < p' → p' < b → keyAt (idx d) p < keyAt (idx d) p') →
      (∀ j, j < (idx 0).length → a ≤ P idx j d → P idx j d < b → ∀ k, d < k → k ≤ n → o k = P idx j k) →
      ∃ it i, onAfterLoop n idx c d a b o = some it ∧ i ≤ (idx 0).length ∧
        (i < (idx 0).length → At n idx (fun _ => 0) 0 i it) ∧ ((idx 0).length ≤ i → siEq n it (siEnd idx) = true) ∧
        ∀ j, j < (idx 0).length → (CrdLt n (streakAt n idx j).origin c ↔ j < i) := by
  intro d
  induction d with
  | zero =>
    intro a b o hd hab hb hne htop g1 g2 g3 g4 g5
    obtain ⟨cur, hlb, hc1, hc2, hc3, hc4⟩ := lowerBound_spec (idx 0) a b (c 0) hab hb g4
    have hltc : ∀ j, j < (idx 0).length → j < cur → CrdLt n (streakAt n idx j).origin c := by
      intro j hj hjc
      by_cases hja : j < a
      · obtain ⟨k, h1, h2, h3, h4⟩ := g1 j hj hja
        exact ⟨k, h2, h3, h4⟩
      · refine (crdLt_of_eq_above (by omega) (g3 j hj (by simpa [P] using (by omega : a ≤ j)) (by simpa [P] using (by omega : j < b)))).1 ?_
        rw [streakAt_origin n idx j 0 (by omega)]
        exact hc3 j (by omega) hjc
    have hgec : ∀ j, j < (idx 0).length → cur ≤ j → ¬ CrdLt n (streakAt n idx j).origin c := by
      intro j hj hjc
      by_cases hjb : j < b
      · have heq := g3 j hj (by simpa [P] using (by omega : a ≤ j)) (by simpa [P] using hjb)
        have hk := hc4 j hjc hjb
        rintro ⟨k, h1, h2, h3⟩
        by_cases hk0 : k = 0
        · subst hk0
          rw [streakAt_origin n idx j 0 (by omega)] at h2
          simp only [P] at h2
          omega
        · have := heq k (by omega) h1; omega
      · obtain ⟨k, h1, h2, h3, h4⟩ := g2 j hj (by simpa [P] using (by omega : b ≤ j))
        exact not_crdLt_of_gt ⟨k, h2, h3, h4⟩
    have hiff : ∀ j, j < (idx 0).length → (CrdLt n (streakAt n idx j).origin c ↔ j < cur) := by
      intro j hj
      constructor
      · intro hh
        apply Classical.byContradiction
        intro hc
        exact hgec j hj (by omega) hh
      · exact hltc j hj
    rw [onAfterLoop, hlb, Option.bind_some]
    by_cases hend : cur = (idx 0).length
    · rw [if_pos hend]
      exact ⟨siEnd idx, cur, rfl, by omega, by omega, fun _ => siEq_end_refl n idx, hiff⟩
    rw [if_neg hend]
    by_cases hcb : cur = b
    · rw [if_pos hcb]
      have hab' : a < b := by
        rcases hne with h | ⟨_, h⟩
        · exact h
        · omega
      have htp : toPos ((cur : Int) - 1) = some (cur - 1) := by
        unfold toPos; rw [if_pos (by omega)]; congr 1; omega
      rw [htp, Option.bind_some]
      have hin1 : a ≤ P idx (cur - 1) 0 := by simp only [P]; omega
      have hin2 : P idx (cur - 1) 0 < b := by simp only [P]; omega
      obtain ⟨it, i1, i2⟩ := siOffsets_spec h (setPos o 0 (cur - 1)) (cur - 1) (by omega)
        (by intro k hk
            unfold setPos
            by_cases hk0 : k = 0
            · rw [if_pos hk0, hk0]; rfl
            · rw [if_neg hk0]
              exact g5 (cur - 1) (by omega) hin1 hin2 k (by omega) hk)
      obtain ⟨it', n1, n2, n3⟩ := siNext_spec h (fun _ => 0) 0 (cur - 1) it (by omega) i2
      refine ⟨it', cur, ?_, by omega, ?_, by omega, hiff⟩
      · rw [offsetsNext, i1, Option.bind_some, n1]
      · intro hc
        have := n2 (by omega)
        rwa [show cur - 1 + 1 = cur by omega] at this
    · rw [if_neg hcb]
      have hin1 : a ≤ P idx cur 0 := by simp only [P]; omega
      have hin2 : P idx cur 0 < b := by simp only [P]; omega
      obtain ⟨it, i1, i2⟩ := siOffsets_spec h (setPos o 0 cur) cur (by omega)
        (by intro k hk
            unfold setPos
            by_cases hk0 : k = 0
            · rw [if_pos hk0, hk0]; rfl
            · rw [if_neg hk0]
              exact g5 cur (by omega) hin1 hin2 k (by omega) hk)
      exact ⟨it, cur, i1, by omega, fun _ => i2, by omega, hiff⟩
  | succ d ih =>
    intro a b o hd hab hb hne htop g1 g2 g3 g4 g5
    obtain ⟨cur, hlb, hc1, hc2, hc3, hc4⟩ := lowerBound_spec (idx (d + 1)) a b (c (d + 1)) hab hb g4
    have hltc : ∀ j, j < (idx 0).length → P idx j (d + 1) < cur → CrdLt n (streakAt n idx j).origin c := by
      intro j hj hjc
      by_cases hja : P idx j (d + 1) < a
      · obtain ⟨k, h1, h2, h3, h4⟩ := g1 j hj hja
        exact ⟨k, h2, h3, h4⟩
      · refine (crdLt_of_eq_above hd (g3 j hj (by omega) (by omega))).1 ?_
        rw [streakAt_origin n idx j (d + 1) hd]
        exact hc3 _ (by omega) hjc
    rw [onAfterLoop, hlb, Option.bind_some]
    by_cases hend : cur = (idx (d + 1)).length
    · rw [if_pos hend]
      refine ⟨siEnd idx, (idx 0).length, rfl, by omega, by omega, fun _ => siEq_end_refl n idx, ?_⟩
      intro j hj
      have := P_lt h hj (d + 1) hd
      exact ⟨fun _ => hj, fun _ => hltc j hj (by omega)⟩
    rw [if_neg hend]
    have hcl : cur < (idx (d + 1)).length := by omega
    rw [List.getElem?_eq_getElem hcl, Option.bind_some]
    by_cases hcb : cur = b
    · exfalso
      have hab' : a < b := by
        rcases hne with h | ⟨_, h⟩
        · exact h
        · omega
      have hdn : d + 1 < n := by
        by_cases e : d + 1 = n
        · have := htop e; omega
        · omega
      obtain ⟨j0, hj0, hp0⟩ := P_surj h (d + 1) hd a (by omega)
      obtain ⟨j1, hj1, hj2, hj3⟩ := H (d + 1) (by omega) hdn
        ⟨j0, hj0, g3 j0 hj0 (by omega) (by omega)⟩
      by_cases q1 : P idx j1 (d + 1) < a
      · obtain ⟨k, h1, h2, h3, _⟩ := g1 j1 hj1 q1
        have := hj2 k h1 h2; omega
      · by_cases q2 : b ≤ P idx j1 (d + 1)
        · obtain ⟨k, h1, h2, h3, _⟩ := g2 j1 hj1 q2
          have := hj2 k h1 h2; omega
        · have := hc3 (P idx j1 (d + 1)) (by omega) (by omega)
          rw [streakAt_origin n idx j1 (d + 1) hd] at hj3
          omega
    rw [if_neg hcb]
    have hkey := keyAt_get (idx (d + 1)) cur hcl
    have hge := hc4 cur (by omega) (by omega)
    by_cases hneq : (idx (d + 1))[cur].1 ≠ c (d + 1)
    · rw [if_pos hneq]
      obtain ⟨o', h1, h2, h3, h4⟩ := descendFirst_spec h (d + 1) cur (setPos o (d + 1) cur) _ hd
        (List.getElem?_eq_getElem hcl) (by simp [setPos])
      obtain ⟨q1, q2⟩ := QPos_P' h (d + 1) hd h3
      have hod : o' (d + 1) = cur := by rw [h2 _ (Nat.le_refl _)]; simp [setPos]
      have hi : o' 0 < (idx 0).length := h4 0 (by omega)
      have hPd : P idx (o' 0) (d + 1) = cur := by rw [← q1 (d + 1) (Nat.le_refl _), hod]
      obtain ⟨it, i1, i2⟩ := siOffsets_spec h o' (o' 0) hi
        (by intro k hk
            by_cases hkd : k ≤ d + 1
            · exact q1 k hkd
            · rw [h2 k (by omega)]
              unfold setPos
              rw [if_neg (by omega)]
              exact g5 (o' 0) hi (by omega) (by omega) k (by omega) hk)
      refine ⟨it, o' 0, by rw [h1, Option.bind_some, i1], by omega, fun _ => i2, by omega, ?_⟩
      intro j hj
      have hq := q2 j hj (d + 1) (Nat.le_refl _)
      rw [hod] at hq
      rw [← hq]
      constructor
      · intro hh
        apply Classical.byContradiction
        intro hc
        by_cases hjb : P idx j (d + 1) < b
        · have heq := g3 j hj (by omega) hjb
          refine (crdLt_of_eq_above hd heq).2 ?_ hh
          rw [streakAt_origin n idx j (d + 1) hd]
          by_cases e : P idx j (d + 1) = cur
          · rw [e]; omega
          · have := g4 cur (P idx j (d + 1)) (by omega) (by omega) hjb
            omega
        · obtain ⟨k, h1, h2, h3, h4⟩ := g2 j hj (by omega)
          exact not_crdLt_of_gt ⟨k, h2, h3, h4⟩ hh
      · exact hltc j hj
    · rw [if_neg hneq]
      have heq : keyAt (idx (d + 1)) cur = c (d + 1) := by
        rw [hkey]; exact Classical.byContradiction hneq
      have ho := h.offOK d (by omega)
      have hbd := ho.bnd _ (List.getElem_mem hcl)
      have htp : toPos (idx (d + 1))[cur].2 = some (idx (d + 1))[cur].2.toNat := by unfold toPos; rw [if_pos hbd.1]
      rw [htp, Option.bind_some]
      -- end of children
      obtain ⟨b', hb1, hb2, hb3, hb4, hb5⟩ : ∃ b', childEnd idx d cur = some b' ∧ b' ≤ (idx d).length ∧
          (idx (d + 1))[cur].2.toNat < b' ∧ (d = n → b' = (idx d).length) ∧
          (∀ j, j < (idx 0).length → (P idx j d < b' ↔ P idx j (d + 1) ≤ cur)) := by
        unfold childEnd
        by_cases e : cur + 1 = (idx (d + 1)).length
        · refine ⟨_, by rw [if_pos e], by omega, by omega, fun _ => rfl, ?_⟩
          intro j hj
          have := P_lt h hj d (by omega)
          have := P_lt h hj (d + 1) hd
          constructor
          · intro _; omega
          · intro _; omega
        · have hc1 : cur + 1 < (idx (d + 1)).length := by omega
          have hbd1 := ho.bnd _ (List.getElem_mem hc1)
          have htp1 : toPos (idx (d + 1))[cur + 1].2 = some (idx (d + 1))[cur + 1].2.toNat := by
            unfold toPos; rw [if_pos hbd1.1]
          have hinc := List.pairwise_iff_getElem.1 ho.incr cur (cur + 1) hcl hc1 (by omega)
          refine ⟨_, by rw [if_neg e, List.getElem?_eq_getElem hc1, Option.bind_some, htp1], by omega, by omega, by omega, ?_⟩
          intro j hj
          have hp := par_lt_iff ho (P_lt h hj d (by omega)) (List.getElem?_eq_getElem hc1)
          have : P idx j (d + 1) = par (idx (d + 1)) (P idx j d) := rfl
          omega
      rw [hb1, Option.bind_some]
      have ha' : ∀ j, j < (idx 0).length → (P idx j d < (idx (d + 1))[cur].2.toNat ↔ P idx j (d + 1) < cur) := by
        intro j hj
        have hp := par_lt_iff ho (P_lt h hj d (by omega)) (List.getElem?_eq_getElem hcl)
        have : P idx j (d + 1) = par (idx (d + 1)) (P idx j d) := rfl
        omega
      apply ih
      · omega
      · omega
      · exact hb2
      · left; omega
      · exact hb4
      · intro j hj hlt
        have hlt' := (ha' j hj).1 hlt
        by_cases hja : P idx j (d + 1) < a
        · obtain ⟨k, h1, h2, h3⟩ := g1 j hj hja
          exact ⟨k, by omega, h2, h3⟩
        · refine ⟨d + 1, by omega, hd, ?_, g3 j hj (by omega) (by omega)⟩
          rw [streakAt_origin n idx j (d + 1) hd]
          exact hc3 _ (by omega) hlt'
      · intro j hj hge'
        have hgt' : cur < P idx j (d + 1) := by
          have := hb5 j hj; omega
        by_cases hjb : P idx j (d + 1) < b
        · refine ⟨d + 1, by omega, hd, ?_, g3 j hj (by omega) hjb⟩
          rw [streakAt_origin n idx j (d + 1) hd]
          have := g4 cur (P idx j (d + 1)) (by omega) hgt' hjb
          omega
        · obtain ⟨k, h1, h2, h3⟩ := g2 j hj (by omega)
          exact ⟨k, by omega, h2, h3⟩
      · intro j hj h1 h2 k hk hkn
        have e1 := ha' j hj
        have e2 := hb5 j hj
        have e3 : P idx j (d + 1) = cur := by omega
        by_cases hkd : k = d + 1
        · subst hkd
          rw [streakAt_origin n idx j (d + 1) hd, e3, heq]
        · exact g3 j hj (by omega) (by omega) k (by omega) hkn
      · intro p p' h1 h2 h3
        have hs := h.sib d (by omega)
        have hpl : p < (idx d).length := by omega
        have hpl' : p' < (idx d).length := by omega
        rw [keyAt_get _ _ hpl, keyAt_get _ _ hpl']
        apply hs p p' hpl hpl' h2
        obtain ⟨i1, hi1, hi2⟩ := P_surj h d (by omega) p hpl
        obtain ⟨i3, hi3, hi4⟩ := P_surj h d (by omega) p' hpl'
        have e1 := ha' i1 hi1
        have e2 := hb5 i1 hi1
        have e3 := ha' i3 hi3
        have e4 := hb5 i3 hi3
        have f1 : P idx i1 (d + 1) = par (idx (d + 1)) (P idx i1 d) := rfl
        have f2 : P idx i3 (d + 1) = par (idx (d + 1)) (P idx i3 d) := rfl
        rw [hi2] at f1 e1 e2
        rw [hi4] at f2 e3 e4
        omega
      · intro j hj h1 h2 k hk hkn
        have e1 := ha' j hj
        have e2 := hb5 j hj
        have e3 : P idx j (d + 1) = cur := by omega
        unfold setPos
        by_cases hkd : k = d + 1
        · subst hkd; rw [if_pos rfl, e3]
        · rw [if_neg hkd]
          exact g5 j hj (by omega) (by omega) k (by omega) hkn

theorem onAfter_spec {n : Nat} {idx : Idx} {t : Tree n} (h : Rep n idx t) (c : Crd) (H : NoOvershoot n idx c) :
    ∃ it i, onAfter n idx c = some it ∧ i ≤ (idx 0).length ∧
        (i < (idx 0).length → At n idx (fun _ => 0) 0 i it) ∧ ((idx 0).length ≤ i → siEq n it (siEnd idx) = true) ∧
        ∀ j, j < (idx 0).length → (CrdLt n (streakAt n idx j).origin c ↔ j < i) := by
  unfold onAfter
  apply onAfterLoop_spec h c H n 0 (idx n).length (fun _ => 0) (Nat.le_refl _) (by omega) (by omega) (Or.inr ⟨rfl, rfl⟩) (fun _ => rfl)
  · intro j _ h0; omega
  · intro j hj h0
    have := P_lt h hj n (Nat.le_refl _); omega
  · intro j _ _ _ k h1 h2; omega
  · intro p p' _ h1 h2
    have hs := h.keys_sorted
    rw [List.pairwise_map, List.pairwise_iff_getElem] at hs
    rw [keyAt_get _ _ (by omega), keyAt_get _ _ h2]
    exact hs p p' (by omega) h2 h1
  · intro j _ _ _ k h1 h2; omega

end LGD
