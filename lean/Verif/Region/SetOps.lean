import Verif.Region.Access
import Verif.Region.SetOpsModel
import Mathlib.Tactic.Tauto

/-!
# Region: set operations and merges, proofs
-/

namespace LGD

/-- Union of a list of streaks. -/
def U (n : Nat) (l : List Streak) (c : Crd) : Prop := ∃ s ∈ l, SMem n s c

theorem U_nil (n : Nat) (c : Crd) : ¬ U n [] c := by simp [U]

theorem U_cons (n : Nat) (s : Streak) (l : List Streak) (c : Crd) : U n (s :: l) c ↔ SMem n s c ∨ U n l c := by
  simp [U]

theorem U_append (n : Nat) (a b : List Streak) (c : Crd) : U n (a ++ b) c ↔ U n a c ∨ U n b c := by
  simp only [U, List.mem_append]
  constructor
  · rintro ⟨s, h | h, h'⟩
    · exact Or.inl ⟨s, h, h'⟩
    · exact Or.inr ⟨s, h, h'⟩
  · rintro (⟨s, h, h'⟩ | ⟨s, h, h'⟩)
    · exact ⟨s, Or.inl h, h'⟩
    · exact ⟨s, Or.inr h, h'⟩

theorem Canon.memU {n : Nat} {l : List Streak} {S : Crd → Prop} (h : Canon n l S) (c : Crd) : S c ↔ U n l c := h.mem c

theorem toVector_spec {n : Nat} {idx : Idx} (h : RegOK n idx) :
    ∃ l, toVector n idx = some l ∧ l.length = (idx 0).length ∧ Canon n l (RMem n idx) := by
  obtain ⟨t, ht⟩ := h
  exact ⟨_, toVector_eq ht, by simp, ht.canon⟩

theorem insAll_spec (n : Nat) (l : List Streak) (ret : Idx) (h : RegOK n ret) :
    ∃ r, insAll n ret l = some r ∧ RegOK n r ∧ ∀ c, RMem n r c ↔ RMem n ret c ∨ U n l c := by
  induction l generalizing ret with
  | nil => exact ⟨ret, rfl, h, fun c => ⟨Or.inl, fun hh => hh.elim id (fun hu => (U_nil n c hu).elim)⟩⟩
  | cons s ss ih =>
    obtain ⟨r1, h1, h2, h3⟩ := regInsert_spec n ret s h
    obtain ⟨r2, h4, h5, h6⟩ := ih r1 h2
    refine ⟨r2, by rw [insAll, h1, Option.bind_some, h4], h5, fun c => ?_⟩
    rw [h6, h3, U_cons, or_assoc]

theorem sEq_mem (n : Nat) (a b : Streak) (h : sEq n a b = true) (c : Crd) : SMem n a c ↔ SMem n b c := by
  unfold sEq at h
  rw [Bool.and_eq_true, List.all_eq_true] at h
  have h1 : ∀ k, k ≤ n → a.origin k = b.origin k := fun k hk => of_decide_eq_true (h.1 k (by simp; omega))
  have h2 : a.endX = b.endX := of_decide_eq_true h.2
  unfold SMem
  rw [h1 0 (by omega), h2]
  constructor
  · rintro ⟨x, y⟩; exact ⟨fun k hk hk' => by rw [← h1 k hk']; exact x k hk hk', y⟩
  · rintro ⟨x, y⟩; exact ⟨fun k hk hk' => by rw [h1 k hk']; exact x k hk hk', y⟩

theorem advIns_spec (n : Nat) (s last : Streak) (ret : Idx) (h : RegOK n ret) (hl : ∀ c, SMem n last c → RMem n ret c) :
    ∃ r last', advIns n s last ret = some (r, last') ∧ RegOK n r ∧ (∀ c, SMem n last' c → RMem n r c) ∧
      ∀ c, RMem n r c ↔ RMem n ret c ∨ SMem n s c := by
  unfold advIns
  by_cases he : sEq n s last = true
  · refine ⟨ret, last, by simp [he], h, hl, fun c => ⟨Or.inl, ?_⟩⟩
    rintro (hh | hh)
    · exact hh
    · exact hl c ((sEq_mem n s last he c).1 hh)
  · obtain ⟨r, h1, h2, h3⟩ := regInsert_spec n ret s h
    refine ⟨r, s, by simp [he, h1], h2, fun c hc => (h3 c).2 (Or.inr hc), h3⟩

theorem zeroStreak_mem (n : Nat) (c : Crd) : ¬ SMem n zeroStreak c := by
  rintro ⟨_, h1, h2⟩
  simp only [zeroStreak] at h1 h2
  omega

theorem merge2Loop_spec (n : Nat) (fuel : Nat) (la lb : List Streak) (last : Streak) (ret : Idx) (h : RegOK n ret)
    (hl : ∀ c, SMem n last c → RMem n ret c) (ha : la ≠ []) (hb : lb ≠ []) (hf : la.length + lb.length ≤ fuel + 1) :
    ∃ r la' lb', merge2Loop n fuel la lb last ret = some (r, la', lb') ∧ RegOK n r ∧
      ∀ c, (RMem n r c ∨ U n la' c ∨ U n lb' c) ↔ (RMem n ret c ∨ U n la c ∨ U n lb c) := by
  induction fuel generalizing la lb last ret with
  | zero =>
    cases la with
    | nil => exact absurd rfl ha
    | cons a as => cases lb with
      | nil => exact absurd rfl hb
      | cons b bs => simp only [List.length_cons] at hf; omega
  | succ fuel ih =>
    cases la with
    | nil => exact absurd rfl ha
    | cons a as =>
      cases lb with
      | nil => exact absurd rfl hb
      | cons b bs =>
        simp only [List.length_cons] at hf
        rw [merge2Loop]
        by_cases hs : sLess n a b = true
        · rw [if_pos hs]
          obtain ⟨r, last', h1, h2, h3, h4⟩ := advIns_spec n a last ret h hl
          rw [h1, Option.bind_some]
          by_cases hE : as = []
          · subst hE
            refine ⟨r, [], b :: bs, rfl, h2, fun c => ?_⟩
            simp only [h4, U_cons]
            have := U_nil n c
            constructor
            · rintro ((h | h) | h | h)
              · exact Or.inl h
              · exact Or.inr (Or.inl (Or.inl h))
              · exact absurd h this
              · exact Or.inr (Or.inr h)
            · rintro (h | (h | h) | h)
              · exact Or.inl (Or.inl h)
              · exact Or.inl (Or.inr h)
              · exact absurd h this
              · exact Or.inr (Or.inr h)
          · have hE' : as.isEmpty = false := by simpa using hE
            simp only [hE']
            obtain ⟨r2, la', lb', i1, i2, i3⟩ := ih as (b :: bs) last' r h2 h3 hE (by simp) (by simp only [List.length_cons]; omega)
            refine ⟨r2, la', lb', by simpa using i1, i2, fun c => ?_⟩
            rw [i3, h4]
            simp only [U_cons]
            constructor
            · rintro ((h | h) | h | h)
              · exact Or.inl h
              · exact Or.inr (Or.inl (Or.inl h))
              · exact Or.inr (Or.inl (Or.inr h))
              · exact Or.inr (Or.inr h)
            · rintro (h | (h | h) | h)
              · exact Or.inl (Or.inl h)
              · exact Or.inl (Or.inr h)
              · exact Or.inr (Or.inl h)
              · exact Or.inr (Or.inr h)
        · rw [if_neg hs]
          obtain ⟨r, last', h1, h2, h3, h4⟩ := advIns_spec n b last ret h hl
          rw [h1, Option.bind_some]
          by_cases hE : bs = []
          · subst hE
            refine ⟨r, a :: as, [], rfl, h2, fun c => ?_⟩
            simp only [h4, U_cons]
            have := U_nil n c
            constructor
            · rintro ((h | h) | h | h)
              · exact Or.inl h
              · exact Or.inr (Or.inr (Or.inl h))
              · exact Or.inr (Or.inl h)
              · exact absurd h this
            · rintro (h | h | h | h)
              · exact Or.inl (Or.inl h)
              · exact Or.inr (Or.inl h)
              · exact Or.inl (Or.inr h)
              · exact absurd h this
          · have hE' : bs.isEmpty = false := by simpa using hE
            simp only [hE']
            obtain ⟨r2, la', lb', i1, i2, i3⟩ := ih (a :: as) bs last' r h2 h3 (by simp) hE (by simp only [List.length_cons]; omega)
            refine ⟨r2, la', lb', by simpa using i1, i2, fun c => ?_⟩
            rw [i3, h4]
            simp only [U_cons]
            constructor
            · rintro ((h | h) | h | h)
              · exact Or.inl h
              · exact Or.inr (Or.inr (Or.inl h))
              · exact Or.inr (Or.inl h)
              · exact Or.inr (Or.inr (Or.inr h))
            · rintro (h | h | h | h)
              · exact Or.inl (Or.inl h)
              · exact Or.inr (Or.inl h)
              · exact Or.inl (Or.inr h)
              · exact Or.inr (Or.inr h)

theorem merge2_spec (n : Nat) (ret : Idx) (la lb : List Streak) (h : RegOK n ret) :
    ∃ r, merge2 n ret la lb = some r ∧ RegOK n r ∧ ∀ c, RMem n r c ↔ RMem n ret c ∨ U n la c ∨ U n lb c := by
  unfold merge2
  by_cases ha : la = []
  · subst ha
    obtain ⟨r, h1, h2, h3⟩ := insAll_spec n lb ret h
    refine ⟨r, by simpa using h1, h2, fun c => ?_⟩
    rw [h3]
    have := U_nil n c
    constructor
    · rintro (h | h)
      · exact Or.inl h
      · exact Or.inr (Or.inr h)
    · rintro (h | h | h)
      · exact Or.inl h
      · exact absurd h this
      · exact Or.inr h
  by_cases hb : lb = []
  · subst hb
    obtain ⟨r, h1, h2, h3⟩ := insAll_spec n la ret h
    refine ⟨r, by simpa [ha] using h1, h2, fun c => ?_⟩
    rw [h3]
    have := U_nil n c
    constructor
    · rintro (h | h)
      · exact Or.inl h
      · exact Or.inr (Or.inl h)
    · rintro (h | h | h)
      · exact Or.inl h
      · exact Or.inr h
      · exact absurd h this
  have ha' : la.isEmpty = false := by simpa using ha
  have hb' : lb.isEmpty = false := by simpa using hb
  rw [ha', hb']
  obtain ⟨r, la', lb', h1, h2, h3⟩ := merge2Loop_spec n (la.length + lb.length) la lb zeroStreak ret h
    (fun c hc => (zeroStreak_mem n c hc).elim) ha hb (by omega)
  obtain ⟨r1, h4, h5, h6⟩ := insAll_spec n la' r h2
  obtain ⟨r2, h7, h8, h9⟩ := insAll_spec n lb' r1 h5
  refine ⟨r2, by simp [h1, h4, h7], h8, fun c => ?_⟩
  rw [h9, h6, or_assoc, h3]

theorem merge3Loop_spec (n : Nat) (fuel : Nat) (la lb lc : List Streak) (last : Streak) (ret : Idx) (h : RegOK n ret)
    (hl : ∀ c, SMem n last c → RMem n ret c) (ha : la ≠ []) (hb : lb ≠ []) (hc : lc ≠ [])
    (hf : la.length + lb.length + lc.length ≤ fuel + 2) :
    ∃ r la' lb' lc', merge3Loop n fuel la lb lc last ret = some (r, la', lb', lc') ∧ RegOK n r ∧
      (la' = [] ∨ lb' = [] ∨ lc' = []) ∧
      ∀ c, (RMem n r c ∨ U n la' c ∨ U n lb' c ∨ U n lc' c) ↔ (RMem n ret c ∨ U n la c ∨ U n lb c ∨ U n lc c) := by
  induction fuel generalizing la lb lc last ret with
  | zero =>
    have h1 := List.length_pos_iff.2 ha
    have h2 := List.length_pos_iff.2 hb
    have h3 := List.length_pos_iff.2 hc
    omega
  | succ fuel ih =>
    cases la with
    | nil => exact absurd rfl ha
    | cons a as =>
    cases lb with
    | nil => exact absurd rfl hb
    | cons b bs =>
    cases lc with
    | nil => exact absurd rfl hc
    | cons c cs =>
      simp only [List.length_cons] at hf
      have stepA : ∃ r la' lb' lc', ((advIns n a last ret).bind (fun (ret, last) =>
          if as.isEmpty then some (ret, as, b :: bs, c :: cs) else merge3Loop n fuel as (b :: bs) (c :: cs) last ret)) =
            some (r, la', lb', lc') ∧ RegOK n r ∧ (la' = [] ∨ lb' = [] ∨ lc' = []) ∧
          ∀ x, (RMem n r x ∨ U n la' x ∨ U n lb' x ∨ U n lc' x) ↔
            (RMem n ret x ∨ U n (a :: as) x ∨ U n (b :: bs) x ∨ U n (c :: cs) x) := by
        obtain ⟨r, last', h1, h2, h3, h4⟩ := advIns_spec n a last ret h hl
        rw [h1, Option.bind_some]
        by_cases hE : as = []
        · subst hE
          refine ⟨r, [], b :: bs, c :: cs, rfl, h2, Or.inl rfl, fun x => ?_⟩
          rw [h4, U_cons n a]
          have := U_nil n x
          grind
        · have hE' : as.isEmpty = false := by simpa using hE
          simp only [hE']
          obtain ⟨r2, la', lb', lc', i1, i2, i3, i4⟩ := ih as (b :: bs) (c :: cs) last' r h2 h3 hE (by simp) (by simp)
            (by simp only [List.length_cons]; omega)
          refine ⟨r2, la', lb', lc', by simpa using i1, i2, i3, fun x => ?_⟩
          rw [i4, h4, U_cons n a]
          grind
      have stepB : ∃ r la' lb' lc', ((advIns n b last ret).bind (fun (ret, last) =>
          if bs.isEmpty then some (ret, a :: as, bs, c :: cs) else merge3Loop n fuel (a :: as) bs (c :: cs) last ret)) =
            some (r, la', lb', lc') ∧ RegOK n r ∧ (la' = [] ∨ lb' = [] ∨ lc' = []) ∧
          ∀ x, (RMem n r x ∨ U n la' x ∨ U n lb' x ∨ U n lc' x) ↔
            (RMem n ret x ∨ U n (a :: as) x ∨ U n (b :: bs) x ∨ U n (c :: cs) x) := by
        obtain ⟨r, last', h1, h2, h3, h4⟩ := advIns_spec n b last ret h hl
        rw [h1, Option.bind_some]
        by_cases hE : bs = []
        · subst hE
          refine ⟨r, a :: as, [], c :: cs, rfl, h2, Or.inr (Or.inl rfl), fun x => ?_⟩
          rw [h4, U_cons n b]
          have := U_nil n x
          grind
        · have hE' : bs.isEmpty = false := by simpa using hE
          simp only [hE']
          obtain ⟨r2, la', lb', lc', i1, i2, i3, i4⟩ := ih (a :: as) bs (c :: cs) last' r h2 h3 (by simp) hE (by simp)
            (by simp only [List.length_cons]; omega)
          refine ⟨r2, la', lb', lc', by simpa using i1, i2, i3, fun x => ?_⟩
          rw [i4, h4, U_cons n b]
          grind
      have stepC : ∃ r la' lb' lc', ((advIns n c last ret).bind (fun (ret, last) =>
          if cs.isEmpty then some (ret, a :: as, b :: bs, cs) else merge3Loop n fuel (a :: as) (b :: bs) cs last ret)) =
            some (r, la', lb', lc') ∧ RegOK n r ∧ (la' = [] ∨ lb' = [] ∨ lc' = []) ∧
          ∀ x, (RMem n r x ∨ U n la' x ∨ U n lb' x ∨ U n lc' x) ↔
            (RMem n ret x ∨ U n (a :: as) x ∨ U n (b :: bs) x ∨ U n (c :: cs) x) := by
        obtain ⟨r, last', h1, h2, h3, h4⟩ := advIns_spec n c last ret h hl
        rw [h1, Option.bind_some]
        by_cases hE : cs = []
        · subst hE
          refine ⟨r, a :: as, b :: bs, [], rfl, h2, Or.inr (Or.inr rfl), fun x => ?_⟩
          rw [h4, U_cons n c]
          have := U_nil n x
          grind
        · have hE' : cs.isEmpty = false := by simpa using hE
          simp only [hE']
          obtain ⟨r2, la', lb', lc', i1, i2, i3, i4⟩ := ih (a :: as) (b :: bs) cs last' r h2 h3 (by simp) (by simp) hE
            (by simp only [List.length_cons]; omega)
          refine ⟨r2, la', lb', lc', by simpa using i1, i2, i3, fun x => ?_⟩
          rw [i4, h4, U_cons n c]
          grind
      rw [merge3Loop]
      split
      · split
        · exact stepA
        · exact stepC
      · split
        · exact stepB
        · exact stepC

theorem merge3_spec (n : Nat) (ret : Idx) (la lb lc : List Streak) (h : RegOK n ret) :
    ∃ r, merge3 n ret la lb lc = some r ∧ RegOK n r ∧
      ∀ c, RMem n r c ↔ RMem n ret c ∨ U n la c ∨ U n lb c ∨ U n lc c := by
  unfold merge3
  by_cases ha : la = []
  · subst ha
    obtain ⟨r, h1, h2, h3⟩ := merge2_spec n ret lb lc h
    refine ⟨r, by simpa using h1, h2, fun c => ?_⟩
    rw [h3]
    have := U_nil n c
    tauto
  have ha' : la.isEmpty = false := by simpa using ha
  by_cases hb : lb = []
  · subst hb
    obtain ⟨r, h1, h2, h3⟩ := merge2_spec n ret la lc h
    refine ⟨r, by simpa [ha'] using h1, h2, fun c => ?_⟩
    rw [h3]
    have := U_nil n c
    tauto
  have hb' : lb.isEmpty = false := by simpa using hb
  by_cases hc : lc = []
  · subst hc
    obtain ⟨r, h1, h2, h3⟩ := merge2_spec n ret la lb h
    refine ⟨r, by simpa [ha', hb'] using h1, h2, fun c => ?_⟩
    rw [h3]
    have := U_nil n c
    tauto
  have hc' : lc.isEmpty = false := by simpa using hc
  obtain ⟨r, la', lb', lc', h1, h2, h3, h4⟩ := merge3Loop_spec n (la.length + lb.length + lc.length) la lb lc zeroStreak ret h
    (fun c hc => (zeroStreak_mem n c hc).elim) ha hb hc (by omega)
  simp only [ha', hb', hc', h1, Option.bind_some]
  simp only [Bool.false_eq_true, if_false]
  by_cases ea : la' = []
  · subst ea
    obtain ⟨r2, i1, i2, i3⟩ := merge2_spec n r lb' lc' h2
    refine ⟨r2, by simpa using i1, i2, fun c => ?_⟩
    rw [i3, ← h4]
    have := U_nil n c
    tauto
  by_cases eb : lb' = []
  · subst eb
    obtain ⟨r2, i1, i2, i3⟩ := merge2_spec n r la' lc' h2
    refine ⟨r2, by simpa [ea] using i1, i2, fun c => ?_⟩
    rw [i3, ← h4]
    have := U_nil n c
    tauto
  · have ec : lc' = [] := by
      rcases h3 with h | h | h
      · exact absurd h ea
      · exact absurd h eb
      · exact h
    subst ec
    obtain ⟨r2, i1, i2, i3⟩ := merge2_spec n r la' lb' h2
    refine ⟨r2, by simpa [ea, eb] using i1, i2, fun c => ?_⟩
    rw [i3, ← h4]
    have := U_nil n c
    tauto

/-! ## row order -/

def rowLt (n : Nat) (a b : Crd) : Prop := ∃ k, 1 ≤ k ∧ k ≤ n ∧ a k < b k ∧ ∀ j, k < j → j ≤ n → a j = b j
def rowEq (n : Nat) (a b : Crd) : Prop := ∀ k, 1 ≤ k → k ≤ n → a k = b k

theorem rowEq_symm {n : Nat} {a b : Crd} (h : rowEq n a b) : rowEq n b a := fun k h1 h2 => (h k h1 h2).symm

theorem rowEq_trans {n : Nat} {a b c : Crd} (h : rowEq n a b) (h' : rowEq n b c) : rowEq n a c :=
  fun k h1 h2 => (h k h1 h2).trans (h' k h1 h2)

theorem rowLt_of_eq_lt {n : Nat} {a b c : Crd} (h : rowEq n a b) (h' : rowLt n b c) : rowLt n a c := by
  obtain ⟨k, h1, h2, h3, h4⟩ := h'
  exact ⟨k, h1, h2, by rw [h k h1 h2]; exact h3, fun j hj hj' => by rw [h j (by omega) hj']; exact h4 j hj hj'⟩

theorem rowLt_of_lt_eq {n : Nat} {a b c : Crd} (h : rowLt n a b) (h' : rowEq n b c) : rowLt n a c := by
  obtain ⟨k, h1, h2, h3, h4⟩ := h
  exact ⟨k, h1, h2, by rw [← h' k h1 h2]; exact h3, fun j hj hj' => by rw [← h' j (by omega) hj']; exact h4 j hj hj'⟩

theorem rowLt_trans {n : Nat} {a b c : Crd} (h : rowLt n a b) (h' : rowLt n b c) : rowLt n a c := by
  obtain ⟨k, h1, h2, h3, h4⟩ := h
  obtain ⟨m, m1, m2, m3, m4⟩ := h'
  by_cases hkm : k < m
  · exact ⟨m, m1, m2, by rw [h4 m hkm m2]; exact m3, fun j hj hj' => by rw [h4 j (by omega) hj', m4 j hj hj']⟩
  · by_cases e : k = m
    · subst e
      exact ⟨k, h1, h2, by omega, fun j hj hj' => by rw [h4 j hj hj', m4 j hj hj']⟩
    · exact ⟨k, h1, h2, by rw [← m4 k (by omega) h2]; exact h3, fun j hj hj' => by rw [h4 j hj hj', m4 j (by omega) hj']⟩

theorem rowLt_irrefl_eq {n : Nat} {a b : Crd} (h : rowLt n a b) (h' : rowEq n a b) : False := by
  obtain ⟨k, h1, h2, h3, _⟩ := h
  have := h' k h1 h2
  omega

theorem rowLt_asymm {n : Nat} {a b : Crd} (h : rowLt n a b) (h' : rowLt n b a) : False :=
  rowLt_irrefl_eq (rowLt_trans h h') (fun _ _ _ => rfl)

theorem sLess_iff (n : Nat) (a b : Streak) :
    sLess n a b = true ↔ rowLt n a.origin b.origin ∨ (rowEq n a.origin b.origin ∧ a.endX < b.endX) := by
  induction n with
  | zero =>
    simp only [sLess, decide_eq_true_eq]
    constructor
    · intro h; exact Or.inr ⟨fun k h1 h2 => by omega, h⟩
    · rintro (⟨k, h1, h2, _⟩ | ⟨_, h⟩)
      · omega
      · exact h
  | succ n ih =>
    rw [sLess]
    by_cases h1 : a.origin (n + 1) < b.origin (n + 1)
    · simp only [h1, if_true, true_iff]
      exact Or.inl ⟨n + 1, by omega, by omega, h1, fun j hj hj' => by omega⟩
    · rw [if_neg h1]
      by_cases h2 : a.origin (n + 1) > b.origin (n + 1)
      · simp only [h2, if_true, Bool.false_eq_true, false_iff]
        rintro (⟨k, k1, k2, k3, k4⟩ | ⟨h, _⟩)
        · by_cases e : k = n + 1
          · subst e; omega
          · have := k4 (n + 1) (by omega) (by omega); omega
        · have := h (n + 1) (by omega) (by omega); omega
      · rw [if_neg h2, ih]
        have he : a.origin (n + 1) = b.origin (n + 1) := by omega
        constructor
        · rintro (⟨k, k1, k2, k3, k4⟩ | ⟨h, h'⟩)
          · refine Or.inl ⟨k, k1, by omega, k3, fun j hj hj' => ?_⟩
            by_cases e : j = n + 1
            · subst e; exact he
            · exact k4 j hj (by omega)
          · refine Or.inr ⟨fun k k1 k2 => ?_, h'⟩
            by_cases e : k = n + 1
            · subst e; exact he
            · exact h k k1 (by omega)
        · rintro (⟨k, k1, k2, k3, k4⟩ | ⟨h, h'⟩)
          · by_cases e : k = n + 1
            · subst e; omega
            · exact Or.inl ⟨k, k1, by omega, k3, fun j hj hj' => k4 j hj (by omega)⟩
          · exact Or.inr ⟨fun k k1 k2 => h k k1 (by omega), h'⟩

theorem sIntersects_iff (n : Nat) (a b : Streak) :
    sIntersects n a b = true ↔ rowEq n a.origin b.origin ∧
      ((a.origin 0 ≤ b.origin 0 ∧ b.origin 0 < a.endX) ∨ (b.origin 0 ≤ a.origin 0 ∧ a.origin 0 < b.endX)) := by
  induction n with
  | zero =>
    simp only [sIntersects, Bool.or_eq_true, Bool.and_eq_true, decide_eq_true_eq]
    constructor
    · intro h; exact ⟨fun k h1 h2 => by omega, h⟩
    · exact fun h => h.2
  | succ n ih =>
    rw [sIntersects]
    by_cases h1 : a.origin (n + 1) ≠ b.origin (n + 1)
    · simp only [ne_eq, h1, not_false_eq_true, if_true, Bool.false_eq_true, false_iff]
      rintro ⟨h, _⟩
      exact h1 (h (n + 1) (by omega) (by omega))
    · rw [if_neg h1, ih]
      have he : a.origin (n + 1) = b.origin (n + 1) := Classical.byContradiction h1
      constructor
      · rintro ⟨h, h'⟩
        refine ⟨fun k k1 k2 => ?_, h'⟩
        by_cases e : k = n + 1
        · subst e; exact he
        · exact h k k1 (by omega)
      · rintro ⟨h, h'⟩
        exact ⟨fun k k1 k2 => h k k1 (by omega), h'⟩

/-- position of a coordinate relative to the end of a streak -/
def after (n : Nat) (s : Streak) (c : Crd) : Prop := rowLt n s.origin c ∨ (rowEq n s.origin c ∧ s.endX < c 0)

theorem after_of_before {n : Nat} {s s' : Streak} {c : Crd} (h : SBefore n s s') (hc : SMem n s' c) : after n s c := by
  obtain ⟨h1, h2, h3⟩ := hc
  rcases h with h | ⟨h, h'⟩
  · exact Or.inl (rowLt_of_lt_eq h (fun k k1 k2 => (h1 k k1 k2).symm))
  · exact Or.inr ⟨rowEq_trans h (fun k k1 k2 => (h1 k k1 k2).symm), by omega⟩

theorem after_U {n : Nat} {s : Streak} {l : List Streak} {c : Crd} (h : ∀ s' ∈ l, SBefore n s s') (hc : U n l c) : after n s c := by
  obtain ⟨s', h1, h2⟩ := hc
  exact after_of_before (h s' h1) h2

theorem SMem_iff' (n : Nat) (s : Streak) (c : Crd) : SMem n s c ↔ rowEq n s.origin c ∧ s.origin 0 ≤ c 0 ∧ c 0 < s.endX := by
  constructor
  · rintro ⟨h1, h2⟩; exact ⟨fun k k1 k2 => (h1 k k1 k2).symm, h2⟩
  · rintro ⟨h1, h2⟩; exact ⟨fun k k1 k2 => (h1 k k1 k2).symm, h2⟩

theorem rowEq_upd {n : Nat} {a b : Crd} {x : Int} : rowEq n (upd a 0 x) b ↔ rowEq n a b := by
  constructor
  · intro h k k1 k2
    have := h k k1 k2
    unfold upd at this
    rwa [if_neg (by omega)] at this
  · intro h k k1 k2
    unfold upd
    rw [if_neg (by omega)]; exact h k k1 k2

theorem rowLt_upd {n : Nat} {a b : Crd} {x : Int} : rowLt n (upd a 0 x) b ↔ rowLt n a b := by
  constructor
  · intro h
    exact rowLt_of_eq_lt (rowEq_symm (rowEq_upd.2 (fun _ _ _ => rfl))) h
  · intro h
    exact rowLt_of_eq_lt (rowEq_upd.2 (fun _ _ _ => rfl)) h

/-! ## difference -/

theorem diffLoop_spec (n : Nat) (fuel : Nat) (cursor : Streak) (my : List Streak) (o : Streak) (other : List Streak) (ret : Idx)
    (hf : my.length + other.length < fuel) (h : RegOK n ret) (hm : ∀ s ∈ my, SBefore n cursor s) (hmy : my.Pairwise (SBefore n))
    (ho : ∀ s ∈ other, SBefore n o s) (hoth : other.Pairwise (SBefore n))
    (hop : o.origin 0 < o.endX) (hotp : ∀ s ∈ other, s.origin 0 < s.endX) :
    ∃ r, diffLoop n fuel cursor my o other ret = some r ∧ RegOK n r ∧
      ∀ c, RMem n r c ↔ RMem n ret c ∨ (U n (cursor :: my) c ∧ ¬ U n (o :: other) c) := by
  induction fuel generalizing cursor my o other ret with
  | zero => omega
  | succ fuel ih =>
    rw [diffLoop]
    generalize hhit : sIntersects n cursor o = hit
    generalize hcur : (if hit = true then { cursor with origin := upd cursor.origin 0 (min cursor.endX o.endX) } else cursor) = cur'
    have hend : cur'.endX = cursor.endX := by rw [← hcur]; split <;> rfl
    have hrow : rowEq n cur'.origin cursor.origin := by
      rw [← hcur]; split
      · exact rowEq_upd.2 (fun _ _ _ => rfl)
      · exact fun _ _ _ => rfl
    have hm' : ∀ s ∈ my, SBefore n cur' s := by
      intro s hs
      rcases hm s hs with h1 | ⟨h1, h2⟩
      · exact Or.inl (rowLt_of_eq_lt hrow h1)
      · exact Or.inr ⟨rowEq_trans hrow h1, by rw [hend]; exact h2⟩
    -- first insertion
    obtain ⟨r1, hr1, hr2, hr3⟩ : ∃ r1, (if hit = true then
        regInsert n ret { origin := cursor.origin, endX := max (cursor.origin 0) (o.origin 0) } else some ret) = some r1 ∧
        RegOK n r1 ∧ ∀ c, RMem n r1 c ∨ (U n (cur' :: my) c ∧ ¬ U n (o :: other) c) ↔
          RMem n ret c ∨ (U n (cursor :: my) c ∧ ¬ U n (o :: other) c) := by
      by_cases hh : hit = true
      · rw [if_pos hh]
        obtain ⟨r1, h1, h2, h3⟩ := regInsert_spec n ret
          { origin := cursor.origin, endX := max (cursor.origin 0) (o.origin 0) } h
        refine ⟨r1, h1, h2, fun c => ?_⟩
        rw [h3]
        rw [hh] at hhit hcur
        simp only [if_true] at hcur
        obtain ⟨hre, hov⟩ := (sIntersects_iff n cursor o).1 hhit
        have hp : SMem n { origin := cursor.origin, endX := max (cursor.origin 0) (o.origin 0) } c ↔
            rowEq n cursor.origin c ∧ cursor.origin 0 ≤ c 0 ∧ c 0 < max (cursor.origin 0) (o.origin 0) := SMem_iff' n _ c
        have hc' : SMem n cur' c ↔ rowEq n cursor.origin c ∧ min cursor.endX o.endX ≤ c 0 ∧ c 0 < cursor.endX := by
          rw [SMem_iff', ← hcur]
          simp only [rowEq_upd]
          simp [upd]
        have hc := SMem_iff' n cursor c
        have hoc := SMem_iff' n o c
        have hother : U n other c → rowEq n cursor.origin c → o.endX < c 0 := by
          intro hu hr
          rcases after_U ho hu with h | ⟨_, h⟩
          · exact (rowLt_irrefl_eq h (rowEq_trans (rowEq_symm hre) hr)).elim
          · exact h
        simp only [U_cons]
        rw [hp, hc', hc, hoc]
        by_cases hr : rowEq n cursor.origin c
        · have hr2 : rowEq n o.origin c := rowEq_trans (rowEq_symm hre) hr
          simp only [hr, hr2, true_and]
          by_cases hu : U n other c
          · have := hother hu hr
            simp only [hu, or_true, not_true, and_false, or_false]
            constructor
            · rintro (h | h)
              · exact h
              · omega
            · exact Or.inl
          · simp only [hu, or_false]
            constructor
            · rintro ((h | h) | ⟨h | h, h'⟩)
              · exact Or.inl h
              · exact Or.inr ⟨Or.inl (by omega), by omega⟩
              · exact Or.inr ⟨Or.inl (by omega), by omega⟩
              · exact Or.inr ⟨Or.inr h, h'⟩
            · rintro (h | ⟨h | h, h'⟩)
              · exact Or.inl (Or.inl h)
              · by_cases hx : c 0 < max (cursor.origin 0) (o.origin 0)
                · exact Or.inl (Or.inr (by omega))
                · exact Or.inr ⟨Or.inl (by omega), by omega⟩
              · exact Or.inr ⟨Or.inr h, h'⟩
        · simp only [hr, false_and, false_or, or_false]
      · have hh' : hit = false := by simpa using hh
        rw [hh'] at hcur ⊢
        simp only [Bool.false_eq_true, if_false] at hcur ⊢
        subst hcur
        exact ⟨ret, rfl, h, fun c => Iff.rfl⟩
    rw [hr1, Option.bind_some]
    -- overlap of the shortened cursor with o
    have hov : ∀ c, SMem n cur' c → SMem n o c → cursor.endX ≤ c 0 ∨ o.endX ≤ c 0 := by
      intro c h1 h2
      rw [SMem_iff'] at h1 h2
      have hrr : rowEq n cursor.origin o.origin :=
        rowEq_trans (rowEq_symm hrow) (rowEq_trans h1.1 (rowEq_symm h2.1))
      by_cases hh : hit = true
      · rw [hh] at hcur
        simp only [if_true] at hcur
        rw [← hcur] at h1
        simp only [upd, if_true] at h1
        omega
      · have hh' : hit = false := by simpa using hh
        rw [hh'] at hcur hhit
        simp only [Bool.false_eq_true, if_false] at hcur
        subst hcur
        have : sIntersects n cursor o = true := (sIntersects_iff n cursor o).2 ⟨hrr, by omega⟩
        rw [hhit] at this
        exact absurd this (by simp)
    by_cases hs : sLess n cur' o = true
    · rw [if_pos hs]
      rw [sLess_iff] at hs
      -- the cursor is disjoint from everything in other
      have hdis : ∀ c, SMem n cur' c → ¬ U n (o :: other) c := by
        intro c hc hu
        rw [U_cons] at hu
        have hc2 := (SMem_iff' n cur' c).1 hc
        rcases hu with hu | hu
        · have hu2 := (SMem_iff' n o c).1 hu
          rcases hs with hs | ⟨hs, hs'⟩
          · exact rowLt_irrefl_eq hs (rowEq_trans hc2.1 (rowEq_symm hu2.1))
          · have := hov c hc hu
            omega
        · rcases after_U ho hu with ha | ⟨ha, ha'⟩
          · rcases hs with hs | ⟨hs, hs'⟩
            · exact rowLt_irrefl_eq (rowLt_trans hs ha) hc2.1
            · exact rowLt_irrefl_eq (rowLt_of_eq_lt hs ha) hc2.1
          · rcases hs with hs | ⟨hs, hs'⟩
            · exact rowLt_irrefl_eq hs (rowEq_trans hc2.1 (rowEq_symm ha))
            · omega
      obtain ⟨r2, h1, h2, h3⟩ := regInsert_spec n r1 cur' hr2
      rw [h1, Option.bind_some]
      cases my with
      | nil =>
        obtain ⟨r3, h4, h5, h6⟩ := regInsert_spec n r2 cur' h2
        refine ⟨r3, h4, h5, fun c => ?_⟩
        rw [h6, h3, ← hr3, U_cons n cur']
        have := hdis c
        have := U_nil n c
        tauto
      | cons c' my' =>
        obtain ⟨r3, h4, h5, h6⟩ := ih c' my' o other r2 (by simp only [List.length_cons] at hf; omega) h2
          (fun s hs => (List.pairwise_cons.1 hmy).1 s hs) (List.pairwise_cons.1 hmy).2 ho hoth hop hotp
        refine ⟨r3, h4, h5, fun c => ?_⟩
        rw [h6, h3, ← hr3, U_cons n cur']
        have := hdis c
        tauto
    · rw [if_neg hs]
      have hs' : ¬ (rowLt n cur'.origin o.origin ∨ (rowEq n cur'.origin o.origin ∧ cur'.endX < o.endX)) := by
        rw [← sLess_iff]; exact hs
      have hdis : ∀ c, SMem n o c → ¬ U n (cur' :: my) c := by
        intro c hc hu
        rw [U_cons] at hu
        have hc2 := (SMem_iff' n o c).1 hc
        rcases hu with hu | hu
        · have hu2 := (SMem_iff' n cur' c).1 hu
          have h1 := hov c hu hc
          apply hs'
          right
          exact ⟨rowEq_trans hu2.1 (rowEq_symm hc2.1), by omega⟩
        · rcases after_U hm' hu with ha | ⟨ha, ha'⟩
          · exact hs' (Or.inl (rowLt_of_lt_eq ha (rowEq_symm hc2.1)))
          · exact hs' (Or.inr ⟨rowEq_trans ha (rowEq_symm hc2.1), by omega⟩)
      cases other with
      | nil =>
        obtain ⟨r2, h1, h2, h3⟩ := regInsert_spec n r1 cur' hr2
        obtain ⟨r3, h4, h5, h6⟩ := insAll_spec n my r2 h2
        refine ⟨r3, by simp only [h1, Option.bind_some, h4], h5, fun c => ?_⟩
        rw [h6, h3, ← hr3, U_cons n o, U_cons n cur']
        have := hdis c
        have := U_nil n c
        rw [U_cons n cur'] at *
        tauto
      | cons o' other' =>
        obtain ⟨r3, h4, h5, h6⟩ := ih cur' my o' other' r1 (by simp only [List.length_cons] at hf; omega) hr2 hm' hmy
          (fun s hs => (List.pairwise_cons.1 hoth).1 s hs) (List.pairwise_cons.1 hoth).2 (hotp o' (by simp))
          (fun s hs => hotp s (by simp [hs]))
        refine ⟨r3, h4, h5, fun c => ?_⟩
        rw [h6, ← hr3, U_cons n o]
        have := hdis c
        tauto

theorem RegOK.empty_iff {n : Nat} {a : Idx} (h : RegOK n a) : (a 0).length = 0 ↔ ∀ c, ¬ RMem n a c := by
  obtain ⟨l, h1, h2, h3⟩ := toVector_spec h
  rw [← h2]
  constructor
  · intro h4 c hc
    obtain ⟨s, h5, _⟩ := (h3.mem c).1 hc
    rw [List.length_eq_zero_iff.1 h4] at h5
    simp at h5
  · intro h4
    cases l with
    | nil => rfl
    | cons s ss =>
      exfalso
      exact h4 s.origin ((h3.mem _).2 ⟨s, by simp, fun _ _ _ => rfl, by omega, h3.pos s (by simp)⟩)

theorem regMinus_spec (n : Nat) (a b : Idx) (ha : RegOK n a) (hb : RegOK n b) :
    ∃ r, regMinus n a b = some r ∧ RegOK n r ∧ ∀ c, RMem n r c ↔ RMem n a c ∧ ¬ RMem n b c := by
  unfold regMinus
  by_cases h0 : (a 0).length = 0
  · rw [if_pos h0]
    refine ⟨_, rfl, regOK_empty n, fun c => ?_⟩
    have := ha.empty_iff.1 h0 c
    have := regEmpty_mem n c
    tauto
  rw [if_neg h0]
  by_cases h0b : (b 0).length = 0
  · rw [if_pos h0b]
    refine ⟨_, rfl, ha, fun c => ?_⟩
    have := hb.empty_iff.1 h0b c
    tauto
  rw [if_neg h0b]
  obtain ⟨la, h1, h2, h3⟩ := toVector_spec ha
  obtain ⟨lb, h4, h5, h6⟩ := toVector_spec hb
  rw [h1, h4, Option.bind_some, Option.bind_some]
  cases la with
  | nil => simp at h2; omega
  | cons c la' =>
    cases lb with
    | nil => simp at h5; omega
    | cons o lb' =>
      obtain ⟨r, i1, i2, i3⟩ := diffLoop_spec n ((c :: la').length + (o :: lb').length) c la' o lb' emptyIdx
        (by simp only [List.length_cons]; omega) (regOK_empty n)
        (List.pairwise_cons.1 h3.sorted).1 (List.pairwise_cons.1 h3.sorted).2
        (List.pairwise_cons.1 h6.sorted).1 (List.pairwise_cons.1 h6.sorted).2
        (h6.pos o (by simp)) (fun s hs => h6.pos s (by simp [hs]))
      refine ⟨r, i1, i2, fun x => ?_⟩
      rw [i3, h3.memU, h6.memU]
      have := regEmpty_mem n x
      tauto

/-! ## intersection -/

theorem andLoop_spec (n : Nat) (fuel : Nat) (la lb : List Streak) (ret : Idx) (hf : la.length + lb.length ≤ fuel)
    (h : RegOK n ret) (ha : la.Pairwise (SBefore n)) (hb : lb.Pairwise (SBefore n)) :
    ∃ r, andLoop n fuel la lb ret = some r ∧ RegOK n r ∧ ∀ c, RMem n r c ↔ RMem n ret c ∨ (U n la c ∧ U n lb c) := by
  induction fuel generalizing la lb ret with
  | zero =>
    cases la with
    | nil => exact ⟨ret, by rw [andLoop], h, fun c => by have := U_nil n c; tauto⟩
    | cons a as => simp only [List.length_cons] at hf; omega
  | succ fuel ih =>
    cases la with
    | nil => exact ⟨ret, by rw [andLoop], h, fun c => by have := U_nil n c; tauto⟩
    | cons a as =>
      cases lb with
      | nil => exact ⟨ret, by rw [andLoop]; simp, h, fun c => by have := U_nil n c; tauto⟩
      | cons b bs =>
        rw [andLoop]
        simp only [List.length_cons] at hf
        rw [List.pairwise_cons] at ha hb
        obtain ⟨r1, h1, h2, h3⟩ : ∃ r1, (if sIntersects n a b = true then
            regInsert n ret { origin := upd a.origin 0 (max (a.origin 0) (b.origin 0)), endX := min a.endX b.endX }
            else some ret) = some r1 ∧ RegOK n r1 ∧ ∀ c, RMem n r1 c ↔ RMem n ret c ∨ (SMem n a c ∧ SMem n b c) := by
          by_cases hi : sIntersects n a b = true
          · rw [if_pos hi]
            obtain ⟨hre, hov⟩ := (sIntersects_iff n a b).1 hi
            obtain ⟨r1, h1, h2, h3⟩ := regInsert_spec n ret
              { origin := upd a.origin 0 (max (a.origin 0) (b.origin 0)), endX := min a.endX b.endX } h
            refine ⟨r1, h1, h2, fun c => ?_⟩
            rw [h3, SMem_iff', SMem_iff', SMem_iff']
            simp only [rowEq_upd]
            simp only [upd, if_true]
            constructor
            · rintro (h | ⟨h, h'⟩)
              · exact Or.inl h
              · exact Or.inr ⟨⟨h, by omega⟩, rowEq_trans (rowEq_symm hre) h, by omega⟩
            · rintro (h | ⟨⟨h, h'⟩, h''⟩)
              · exact Or.inl h
              · exact Or.inr ⟨h, by omega⟩
          · rw [if_neg hi]
            refine ⟨ret, rfl, h, fun c => ⟨Or.inl, ?_⟩⟩
            rintro (h | ⟨h, h'⟩)
            · exact h
            · exfalso
              apply hi
              rw [SMem_iff'] at h h'
              exact (sIntersects_iff n a b).2 ⟨rowEq_trans h.1 (rowEq_symm h'.1), by omega⟩
        rw [h1, Option.bind_some]
        by_cases hs : sLess n a b = true
        · rw [if_pos hs]
          obtain ⟨r, i1, i2, i3⟩ := ih as (b :: bs) r1 (by simp only [List.length_cons]; omega) h2 ha.2 (List.pairwise_cons.2 hb)
          refine ⟨r, i1, i2, fun c => ?_⟩
          rw [i3, h3]
          have hdis : SMem n a c → ¬ U n bs c := by
            intro hc hu
            rw [sLess_iff] at hs
            have hc2 := (SMem_iff' n a c).1 hc
            rcases after_U hb.1 hu with hx | ⟨hx, hx'⟩
            · rcases hs with hs | ⟨hs, hs'⟩
              · exact rowLt_irrefl_eq (rowLt_trans hs hx) hc2.1
              · exact rowLt_irrefl_eq (rowLt_of_eq_lt hs hx) hc2.1
            · rcases hs with hs | ⟨hs, hs'⟩
              · exact rowLt_irrefl_eq hs (rowEq_trans hc2.1 (rowEq_symm hx))
              · omega
          simp only [U_cons]
          tauto
        · rw [if_neg hs]
          obtain ⟨r, i1, i2, i3⟩ := ih (a :: as) bs r1 (by simp only [List.length_cons]; omega) h2 (List.pairwise_cons.2 ha) hb.2
          refine ⟨r, i1, i2, fun c => ?_⟩
          rw [i3, h3]
          have hdis : SMem n b c → ¬ U n as c := by
            intro hc hu
            apply hs
            rw [sLess_iff]
            have hc2 := (SMem_iff' n b c).1 hc
            rcases after_U ha.1 hu with hx | ⟨hx, hx'⟩
            · exact Or.inl (rowLt_of_lt_eq hx (rowEq_symm hc2.1))
            · exact Or.inr ⟨rowEq_trans hx (rowEq_symm hc2.1), by omega⟩
          simp only [U_cons]
          tauto

theorem regAnd_spec (n : Nat) (a b : Idx) (ha : RegOK n a) (hb : RegOK n b) :
    ∃ r, regAnd n a b = some r ∧ RegOK n r ∧ ∀ c, RMem n r c ↔ RMem n a c ∧ RMem n b c := by
  unfold regAnd
  obtain ⟨la, h1, h2, h3⟩ := toVector_spec ha
  obtain ⟨lb, h4, h5, h6⟩ := toVector_spec hb
  rw [h1, h4, Option.bind_some, Option.bind_some]
  obtain ⟨r, i1, i2, i3⟩ := andLoop_spec n (la.length + lb.length) la lb emptyIdx (Nat.le_refl _) (regOK_empty n) h3.sorted h6.sorted
  refine ⟨r, i1, i2, fun c => ?_⟩
  rw [i3, h3.memU, h6.memU]
  have := regEmpty_mem n c
  tauto

/-! ## union -/

theorem P_last {n : Nat} {idx : Idx} {t : Tree n} (h : Rep n idx t) (hi : 0 < (idx 0).length) :
    ∀ k, k ≤ n → P idx ((idx 0).length - 1) k = (idx k).length - 1 := by
  intro k
  induction k with
  | zero => intro _; rfl
  | succ k ih =>
    intro hk
    have ho := h.offOK k (by omega)
    have hlt := P_lt h (i := (idx 0).length - 1) (by omega) k (by omega)
    have hlt' := P_lt h (i := (idx 0).length - 1) (by omega) (k + 1) hk
    rw [P, ih (by omega)]
    have hl : (idx (k + 1)).length - 1 < (idx (k + 1)).length := by omega
    apply par_unique ho (List.getElem?_eq_getElem hl)
    · have := ho.bnd _ (List.getElem_mem hl); omega
    · intro e' he'
      have := (List.getElem?_eq_some_iff.1 he').1
      omega

theorem isAppendable_spec (n : Nat) (a b : Idx) (ha : RegOK n a) (hb : RegOK n b) : ∃ r, isAppendable n a b = some r := by
  unfold isAppendable
  by_cases h0 : (b 0).length = 0 ∨ (a 0).length = 0
  · exact ⟨true, by rw [if_pos h0]⟩
  · rw [if_neg h0]
    obtain ⟨t, ht⟩ := ha
    obtain ⟨u, hu⟩ := hb
    have hap : 0 < (a 0).length := by omega
    obtain ⟨it2, h3, _⟩ := siBegin_spec hu (fun _ => 0) 0
    have hc := construct_spec n a (fun _ => 0) 0 (fun k => (a k).length - 1) ((a 0).length - 1)
      (fun k hk => (P_last ht hap k hk).symm) (P_lt ht (by omega))
    rw [siOffsets, if_pos (by omega), hc]
    refine ⟨sLess n (shiftS n (fun _ => 0) 0 (streakAt n a ((a 0).length - 1))) it2.streak, ?_⟩
    simp only [Option.bind_eq_bind, Option.bind_some, h3, Option.map_some]

theorem regPlus_spec (n : Nat) (a b : Idx) (ha : RegOK n a) (hb : RegOK n b) :
    ∃ r, regPlus n a b = some r ∧ RegOK n r ∧ ∀ c, RMem n r c ↔ RMem n a c ∨ RMem n b c := by
  unfold regPlus
  by_cases h0b : (b 0).length = 0
  · rw [if_pos h0b]
    exact ⟨_, rfl, ha, fun c => by have := hb.empty_iff.1 h0b c; tauto⟩
  rw [if_neg h0b]
  by_cases h0 : (a 0).length = 0
  · rw [if_pos h0]
    exact ⟨_, rfl, hb, fun c => by have := ha.empty_iff.1 h0 c; tauto⟩
  rw [if_neg h0]
  obtain ⟨la, h1, h2, h3⟩ := toVector_spec ha
  obtain ⟨lb, h4, h5, h6⟩ := toVector_spec hb
  obtain ⟨p1, hp1⟩ := isAppendable_spec n a b ha hb
  obtain ⟨p2, hp2⟩ := isAppendable_spec n b a hb ha
  rw [hp1, Option.bind_some, h1, h4]
  by_cases hq1 : p1 = true
  · rw [if_pos hq1]
    obtain ⟨r, i1, i2, i3⟩ := insAll_spec n lb a ha
    exact ⟨r, i1, i2, fun c => by rw [i3, h6.memU]⟩
  rw [if_neg hq1, hp2, Option.bind_some]
  by_cases hq2 : p2 = true
  · rw [if_pos hq2]
    obtain ⟨r, i1, i2, i3⟩ := insAll_spec n la b hb
    exact ⟨r, i1, i2, fun c => by rw [i3, h3.memU]; tauto⟩
  rw [if_neg hq2]
  obtain ⟨r, i1, i2, i3⟩ := merge2_spec n emptyIdx la lb (regOK_empty n)
  refine ⟨r, i1, i2, fun c => ?_⟩
  rw [i3, h3.memU, h6.memU]
  have := regEmpty_mem n c
  tauto

theorem regPlusAssign_spec (n : Nat) (a b : Idx) (ha : RegOK n a) (hb : RegOK n b) :
    ∃ r, regPlusAssign n a b = some r ∧ RegOK n r ∧ ∀ c, RMem n r c ↔ RMem n a c ∨ RMem n b c := by
  unfold regPlusAssign
  by_cases h0b : (b 0).length = 0
  · rw [if_pos h0b]
    exact ⟨_, rfl, ha, fun c => by have := hb.empty_iff.1 h0b c; tauto⟩
  rw [if_neg h0b]
  by_cases h0 : (a 0).length = 0
  · rw [if_pos h0]
    exact ⟨_, rfl, hb, fun c => by have := ha.empty_iff.1 h0 c; tauto⟩
  rw [if_neg h0]
  obtain ⟨la, h1, h2, h3⟩ := toVector_spec ha
  obtain ⟨lb, h4, h5, h6⟩ := toVector_spec hb
  obtain ⟨p1, hp1⟩ := isAppendable_spec n a b ha hb
  obtain ⟨p2, hp2⟩ := isAppendable_spec n b a hb ha
  rw [hp1, Option.bind_some, h1, h4]
  by_cases hq1 : p1 = true
  · rw [if_pos hq1]
    obtain ⟨r, i1, i2, i3⟩ := insAll_spec n lb a ha
    exact ⟨r, i1, i2, fun c => by rw [i3, h6.memU]⟩
  rw [if_neg hq1, hp2, Option.bind_some]
  by_cases hq2 : p2 = true
  · rw [if_pos hq2]
    obtain ⟨r, i1, i2, i3⟩ := insAll_spec n la b hb
    exact ⟨r, i1, i2, fun c => by rw [i3, h3.memU]; tauto⟩
  rw [if_neg hq2]
  exact regPlus_spec n a b ha hb

end LGD
