import Verif.Region.Model

/-!
# Region: tree level

Nested association lists used as intermediate representation between the index vectors and sets of coordinates. Nothing
here models C++ code directly; `insT`, `remT`, `lookT` are the abstract counterparts to which the index-vector functions
are shown equal in `Verif.Region.Refine*`.
-/

namespace LGD

/-- Content of a region below one entry of level `d + 1`. -/
@[reducible] def Tree : Nat → Type
  | 0 => List IPair
  | d + 1 => List (Int × Tree d)

/-! ## rows (level 0) -/

/-- x is covered by a list of half-open intervals. -/
def RowMem (r : List IPair) (x : Int) : Prop := ∃ p ∈ r, p.1 ≤ x ∧ x < p.2

/-- Canonical rows: non-empty intervals, ascending, with gaps in between. -/
def RowOK : List IPair → Prop
  | [] => True
  | p :: ps => p.1 < p.2 ∧ (∀ q ∈ ps, p.2 < q.1) ∧ RowOK ps

def insRow : List IPair → IPair → List IPair
  | [], s => [s]
  | p :: ps, s =>
    if p.2 < s.1 then p :: insRow ps s
    else if s.2 < p.1 then s :: p :: ps
    else insRow ps (fuse p s)

def remRow : List IPair → IPair → List IPair
  | [], _ => []
  | p :: ps, s => substract p s ++ remRow ps s

theorem RowMem_nil {x : Int} : ¬ RowMem [] x := by simp [RowMem]

theorem RowMem_cons {p : IPair} {ps : List IPair} {x : Int} :
    RowMem (p :: ps) x ↔ (p.1 ≤ x ∧ x < p.2) ∨ RowMem ps x := by
  simp [RowMem]

theorem RowMem_append {r s : List IPair} {x : Int} : RowMem (r ++ s) x ↔ RowMem r x ∨ RowMem s x := by
  simp only [RowMem, List.mem_append]
  constructor
  · rintro ⟨p, h | h, hp⟩
    · exact Or.inl ⟨p, h, hp⟩
    · exact Or.inr ⟨p, h, hp⟩
  · rintro (⟨p, h, hp⟩ | ⟨p, h, hp⟩)
    · exact ⟨p, Or.inl h, hp⟩
    · exact ⟨p, Or.inr h, hp⟩

theorem RowOK_append {r s : List IPair} :
    RowOK (r ++ s) ↔ RowOK r ∧ RowOK s ∧ ∀ p ∈ r, ∀ q ∈ s, p.2 < q.1 := by
  induction r with
  | nil => simp [RowOK]
  | cons p ps ih =>
    simp only [List.cons_append, RowOK, ih, List.mem_append, List.mem_cons]
    constructor
    · rintro ⟨h1, h2, h3, h4, h5⟩
      refine ⟨⟨h1, fun q hq => h2 q (Or.inl hq), h3⟩, h4, ?_⟩
      rintro q (rfl | hq) r hr
      · exact h2 r (Or.inr hr)
      · exact h5 q hq r hr
    · rintro ⟨⟨h1, h2, h3⟩, h4, h5⟩
      refine ⟨h1, ?_, h3, h4, fun q hq => h5 q (Or.inr hq)⟩
      rintro q (hq | hq)
      · exact h2 q hq
      · exact h5 p (Or.inl rfl) q hq

theorem RowOK.pos {r : List IPair} (h : RowOK r) : ∀ p ∈ r, p.1 < p.2 := by
  induction r with
  | nil => simp
  | cons p ps ih =>
    intro q hq
    rcases List.mem_cons.1 hq with rfl | hq
    · exact h.1
    · exact ih h.2.2 q hq

theorem insRow_mem (r : List IPair) (s : IPair) (hs : s.1 < s.2) (hr : ∀ p ∈ r, p.1 < p.2) (x : Int) :
    RowMem (insRow r s) x ↔ RowMem r x ∨ (s.1 ≤ x ∧ x < s.2) := by
  induction r generalizing s with
  | nil => simp [insRow, RowMem]
  | cons p ps ih =>
    have hp := hr p (by simp)
    have hps : ∀ q ∈ ps, q.1 < q.2 := fun q hq => hr q (by simp [hq])
    unfold insRow
    split
    · rw [RowMem_cons, ih s hs hps, RowMem_cons, or_assoc]
    · split
      · rw [RowMem_cons]; exact or_comm
      · rw [ih (fuse p s) (by simp only [fuse]; omega) hps, RowMem_cons]
        simp only [fuse]
        generalize RowMem ps x = P
        by_cases hP : P
        · simp [hP]
        · simp only [hP, false_or, or_false]; omega

theorem insRow_lower (r : List IPair) (s : IPair) (b : Int) (hb : ∀ p ∈ r, b < p.1) (hs : b < s.1) :
    ∀ p ∈ insRow r s, b < p.1 := by
  induction r generalizing s with
  | nil => simpa [insRow]
  | cons p ps ih =>
    have h1 := hb p (by simp)
    have h2 : ∀ q ∈ ps, b < q.1 := fun q hq => hb q (by simp [hq])
    unfold insRow
    split
    · intro q hq
      rcases List.mem_cons.1 hq with rfl | hq
      · exact h1
      · exact ih s h2 hs q hq
    · split
      · intro q hq
        rcases List.mem_cons.1 hq with rfl | hq
        · exact hs
        · exact hb q hq
      · exact ih _ h2 (by simp only [fuse]; omega)

theorem insRow_ok (r : List IPair) (s : IPair) (hs : s.1 < s.2) (hr : RowOK r) : RowOK (insRow r s) := by
  induction r generalizing s with
  | nil => simpa [insRow, RowOK]
  | cons p ps ih =>
    unfold insRow
    split
    · refine ⟨hr.1, ?_, ih s hs hr.2.2⟩
      exact insRow_lower ps s p.2 hr.2.1 (by assumption)
    · split
      · refine ⟨hs, ?_, hr⟩
        intro q hq
        have := hr.1
        rcases List.mem_cons.1 hq with rfl | hq
        · omega
        · have := hr.2.1 q hq; omega
      · exact ih _ (by have := hr.1; simp only [fuse]; omega) hr.2.2

theorem insRow_ne_nil (r : List IPair) (s : IPair) : insRow r s ≠ [] := by
  induction r generalizing s with
  | nil => simp [insRow]
  | cons p ps ih =>
    unfold insRow
    split
    · simp
    · split
      · simp
      · exact ih _

theorem substract_mem (p s : IPair) (hs : s.1 < s.2) (x : Int) :
    RowMem (substract p s) x ↔ (p.1 ≤ x ∧ x < p.2) ∧ ¬ (s.1 ≤ x ∧ x < s.2) := by
  unfold substract intersectP
  by_cases h : (p.1 ≤ s.1 ∧ s.1 < p.2) ∨ (s.1 ≤ p.1 ∧ p.1 < s.2)
  · have : ((decide (p.1 ≤ s.1) && decide (s.1 < p.2)) || (decide (s.1 ≤ p.1) && decide (p.1 < s.2))) = true := by
      simpa using h
    rw [this]
    simp only [Bool.not_true, Bool.false_eq_true, if_false]
    rw [RowMem_append]
    split <;> split <;> simp [RowMem] <;> omega
  · have : ((decide (p.1 ≤ s.1) && decide (s.1 < p.2)) || (decide (s.1 ≤ p.1) && decide (p.1 < s.2))) = false := by
      simpa using h
    rw [this]
    simp [RowMem]
    omega

theorem substract_ok (p s : IPair) (hs : s.1 < s.2) (hp : p.1 < p.2) : RowOK (substract p s) := by
  unfold substract
  split
  · simpa [RowOK]
  · split <;> split <;> simp [RowOK] <;> omega

theorem substract_range (p s : IPair) (hs : s.1 < s.2) (hp : p.1 < p.2) :
    ∀ q ∈ substract p s, p.1 ≤ q.1 ∧ q.2 ≤ p.2 := by
  unfold substract intersectP
  by_cases h : (p.1 ≤ s.1 ∧ s.1 < p.2) ∨ (s.1 ≤ p.1 ∧ p.1 < s.2)
  · have : ((decide (p.1 ≤ s.1) && decide (s.1 < p.2)) || (decide (s.1 ≤ p.1) && decide (p.1 < s.2))) = true := by
      simpa using h
    rw [this]
    simp only [Bool.not_true, Bool.false_eq_true, if_false]
    split <;> split <;> simp <;> omega
  · have : ((decide (p.1 ≤ s.1) && decide (s.1 < p.2)) || (decide (s.1 ≤ p.1) && decide (p.1 < s.2))) = false := by
      simpa using h
    rw [this]
    simp

theorem remRow_mem (r : List IPair) (s : IPair) (hs : s.1 < s.2) (x : Int) :
    RowMem (remRow r s) x ↔ RowMem r x ∧ ¬ (s.1 ≤ x ∧ x < s.2) := by
  induction r with
  | nil => simp [remRow, RowMem]
  | cons p ps ih =>
    rw [remRow, RowMem_append, ih, substract_mem p s hs, RowMem_cons]
    constructor
    · rintro (h | h)
      · exact ⟨Or.inl h.1, h.2⟩
      · exact ⟨Or.inr h.1, h.2⟩
    · rintro ⟨h | h, h'⟩
      · exact Or.inl ⟨h, h'⟩
      · exact Or.inr ⟨h, h'⟩

theorem remRow_range (r : List IPair) (s : IPair) (hs : s.1 < s.2) (hr : ∀ p ∈ r, p.1 < p.2) :
    ∀ q ∈ remRow r s, ∃ p ∈ r, p.1 ≤ q.1 ∧ q.2 ≤ p.2 := by
  induction r with
  | nil => simp [remRow]
  | cons p ps ih =>
    intro q hq
    rw [remRow, List.mem_append] at hq
    rcases hq with hq | hq
    · exact ⟨p, by simp, substract_range p s hs (hr p (by simp)) q hq⟩
    · obtain ⟨p', h1, h2⟩ := ih (fun p hp => hr p (by simp [hp])) q hq
      exact ⟨p', by simp [h1], h2⟩

theorem remRow_ok (r : List IPair) (s : IPair) (hs : s.1 < s.2) (hr : RowOK r) : RowOK (remRow r s) := by
  induction r with
  | nil => simp [remRow, RowOK]
  | cons p ps ih =>
    rw [remRow, RowOK_append]
    refine ⟨substract_ok p s hs hr.1, ih hr.2.2, ?_⟩
    intro a ha b hb
    obtain ⟨p', h1, h2⟩ := remRow_range ps s hs hr.2.2.pos b hb
    have h3 := substract_range p s hs hr.1 a ha
    have h4 := hr.2.1 p' h1
    omega

/-- Canonical rows with the same cells are identical. -/
theorem RowOK_ext (r r' : List IPair) (h : RowOK r) (h' : RowOK r') (hm : ∀ x, RowMem r x ↔ RowMem r' x) : r = r' := by
  induction r generalizing r' with
  | nil =>
    cases r' with
    | nil => rfl
    | cons q qs =>
      exact absurd ((hm q.1).2 (RowMem_cons.2 (Or.inl ⟨Int.le_refl _, h'.1⟩))) RowMem_nil
  | cons p ps ih =>
    cases r' with
    | nil => exact absurd ((hm p.1).1 (RowMem_cons.2 (Or.inl ⟨Int.le_refl _, h.1⟩))) RowMem_nil
    | cons q qs =>
      have low : ∀ (a : IPair) (as : List IPair), RowOK (a :: as) → ∀ x, RowMem as x → a.2 < x := by
        rintro a as ha x ⟨b, hb, hb2⟩
        have := ha.2.1 b hb; omega
      have lp := low p ps h
      have lq := low q qs h'
      have hp := h.1
      have hq := h'.1
      have e1 : p.1 = q.1 := by
        have a1 := (hm p.1).1 (RowMem_cons.2 (Or.inl ⟨Int.le_refl _, hp⟩))
        have a2 := (hm q.1).2 (RowMem_cons.2 (Or.inl ⟨Int.le_refl _, hq⟩))
        rcases RowMem_cons.1 a1 with a1 | a1 <;> rcases RowMem_cons.1 a2 with a2 | a2
        · omega
        · have := lp _ a2; omega
        · have := lq _ a1; omega
        · have := lp _ a2; have := lq _ a1; omega
      have e2 : p.2 = q.2 := by
        have a1 : ¬ RowMem (p :: ps) p.2 := by
          intro hh
          rcases RowMem_cons.1 hh with hh | hh
          · omega
          · have := lp _ hh; omega
        have a2 : ¬ RowMem (q :: qs) q.2 := by
          intro hh
          rcases RowMem_cons.1 hh with hh | hh
          · omega
          · have := lq _ hh; omega
        rw [hm] at a1
        rw [← hm] at a2
        have b1 : ¬ (q.1 ≤ p.2 ∧ p.2 < q.2) := fun hh => a1 (RowMem_cons.2 (Or.inl hh))
        have b2 : ¬ (p.1 ≤ q.2 ∧ q.2 < p.2) := fun hh => a2 (RowMem_cons.2 (Or.inl hh))
        omega
      have e : p = q := Prod.ext e1 e2
      subst e
      congr 1
      apply ih qs h.2.2 h'.2.2
      intro x
      constructor
      · intro hx
        have := lp x hx
        rcases RowMem_cons.1 ((hm x).1 (RowMem_cons.2 (Or.inr hx))) with h3 | h3
        · omega
        · exact h3
      · intro hx
        have := lq x hx
        rcases RowMem_cons.1 ((hm x).2 (RowMem_cons.2 (Or.inr hx))) with h3 | h3
        · omega
        · exact h3

/-! ## trees -/

/-- Set of coordinates of a tree. -/
def TMem : (d : Nat) → Tree d → Crd → Prop
  | 0, t, c => RowMem t (c 0)
  | d + 1, t, c => ∃ p ∈ (t : List (Int × Tree d)), p.1 = c (d + 1) ∧ TMem d p.2 c

/-- Number of top-level entries. -/
def topLen : (d : Nat) → Tree d → Nat
  | 0, t => t.length
  | _ + 1, t => t.length

/-- Association lists with strictly ascending keys. -/
def KeysOK {α : Type} : List (Int × α) → Prop
  | [] => True
  | p :: ps => (∀ q ∈ ps, p.1 < q.1) ∧ KeysOK ps

/-- Canonical trees. -/
def TreeOK : (d : Nat) → Tree d → Prop
  | 0, t => RowOK t
  | d + 1, t => KeysOK (t : List (Int × Tree d)) ∧ ∀ p ∈ (t : List (Int × Tree d)), TreeOK d p.2 ∧ topLen d p.2 ≠ 0

def emptyT : (d : Nat) → Tree d
  | 0 => []
  | _ + 1 => []

/-- Update of a sorted association list; `none` = key absent. -/
def upsert {α : Type} (c : Int) (f : α → α) (dflt : α) : List (Int × α) → List (Int × α)
  | [] => [(c, dflt)]
  | p :: ps =>
    if p.1 < c then p :: upsert c f dflt ps
    else if p.1 = c then (c, f p.2) :: ps
    else (c, dflt) :: p :: ps

/-- Modify the value below key `c`, dropping the entry if the result is empty. -/
def modDrop {α : Type} (c : Int) (f : α → α) (isEmpty : α → Bool) : List (Int × α) → List (Int × α)
  | [] => []
  | p :: ps =>
    if p.1 < c then p :: modDrop c f isEmpty ps
    else if p.1 = c then (if isEmpty (f p.2) then ps else (c, f p.2) :: ps)
    else p :: ps

def lookupKey {α : Type} (c : Int) : List (Int × α) → Option α
  | [] => none
  | p :: ps => if p.1 = c then some p.2 else lookupKey c ps

def insT : (d : Nat) → Tree d → Streak → Tree d
  | 0, t, s => insRow t (s.origin 0, s.endX)
  | d + 1, t, s =>
    upsert (s.origin (d + 1)) (fun sub => insT d sub s) (insT d (emptyT d) s) (t : List (Int × Tree d))

def remT : (d : Nat) → Tree d → Streak → Tree d
  | 0, t, s => remRow t (s.origin 0, s.endX)
  | d + 1, t, s =>
    modDrop (s.origin (d + 1)) (fun sub => remT d sub s) (fun sub => decide (topLen d sub = 0)) (t : List (Int × Tree d))

/-- Coordinates of a streak (spec): same row, x in the half-open range. Axes `1..d` are compared. -/
def SMem (d : Nat) (s : Streak) (c : Crd) : Prop :=
  (∀ k, 1 ≤ k → k ≤ d → c k = s.origin k) ∧ s.origin 0 ≤ c 0 ∧ c 0 < s.endX

theorem SMem_succ (d : Nat) (s : Streak) (c : Crd) :
    SMem (d + 1) s c ↔ c (d + 1) = s.origin (d + 1) ∧ SMem d s c := by
  unfold SMem
  constructor
  · rintro ⟨h1, h2⟩
    exact ⟨h1 (d + 1) (by omega) (by omega), fun k h3 h4 => h1 k h3 (by omega), h2⟩
  · rintro ⟨h1, h2, h3⟩
    refine ⟨fun k h4 h5 => ?_, h3⟩
    by_cases h : k = d + 1
    · subst h; exact h1
    · exact h2 k h4 (by omega)

theorem emptyT_mem (d : Nat) (c : Crd) : ¬ TMem d (emptyT d) c := by
  cases d <;> simp [TMem, emptyT, RowMem]

theorem emptyT_ok (d : Nat) : TreeOK d (emptyT d) := by
  cases d <;> simp [TreeOK, emptyT, RowOK, KeysOK]

theorem topLen_emptyT (d : Nat) : topLen d (emptyT d) = 0 := by
  cases d <;> simp [topLen, emptyT]

theorem topLen_eq_zero (d : Nat) (t : Tree d) : topLen d t = 0 ↔ t = emptyT d := by
  cases d with
  | zero => exact List.length_eq_zero_iff
  | succ d => exact List.length_eq_zero_iff

theorem upsert_mem {α : Type} (c : Int) (f : α → α) (dflt : α) (l : List (Int × α)) (hl : KeysOK l) (q : Int × α) :
    q ∈ upsert c f dflt l ↔
      (q ∈ l ∧ q.1 ≠ c) ∨ (q.1 = c ∧ ((∃ a, (c, a) ∈ l ∧ q.2 = f a) ∨ ((∀ p ∈ l, p.1 ≠ c) ∧ q.2 = dflt))) := by
  induction l with
  | nil => obtain ⟨a, b⟩ := q; simp [upsert]
  | cons p ps ih =>
    have ih := ih hl.2
    unfold upsert
    obtain ⟨a, b⟩ := q
    obtain ⟨k, v⟩ := p
    have hk : ∀ q ∈ ps, k < q.1 := hl.1
    split
    · rename_i h
      rw [List.mem_cons, ih]
      simp only at h
      have hkc : k ≠ c := by omega
      constructor
      · rintro (h1 | ⟨h1, h2⟩ | ⟨h1, h2⟩)
        · cases h1; exact Or.inl ⟨by simp, hkc⟩
        · exact Or.inl ⟨by simp [h1], h2⟩
        · refine Or.inr ⟨h1, ?_⟩
          rcases h2 with ⟨a', h2, h3⟩ | ⟨h2, h3⟩
          · exact Or.inl ⟨a', by simp [h2], h3⟩
          · refine Or.inr ⟨?_, h3⟩
            intro p hp
            rcases List.mem_cons.1 hp with rfl | hp
            · exact hkc
            · exact h2 p hp
      · rintro (⟨h1, h2⟩ | ⟨h1, h2⟩)
        · rcases List.mem_cons.1 h1 with h1 | h1
          · exact Or.inl h1
          · exact Or.inr (Or.inl ⟨h1, h2⟩)
        · refine Or.inr (Or.inr ⟨h1, ?_⟩)
          rcases h2 with ⟨a', h2, h3⟩ | ⟨h2, h3⟩
          · rcases List.mem_cons.1 h2 with h2 | h2
            · cases h2; omega
            · exact Or.inl ⟨a', h2, h3⟩
          · exact Or.inr ⟨fun p hp => h2 p (by simp [hp]), h3⟩
    · split
      · rename_i h0 h
        simp only at h
        subst h
        rw [List.mem_cons]
        constructor
        · rintro (h1 | h1)
          · cases h1
            exact Or.inr ⟨rfl, Or.inl ⟨v, by simp, rfl⟩⟩
          · have := hk _ h1
            exact Or.inl ⟨by simp [h1], by simp at this ⊢; omega⟩
        · rintro (⟨h1, h2⟩ | ⟨h1, h2⟩)
          · rcases List.mem_cons.1 h1 with h1 | h1
            · cases h1; exact absurd rfl h2
            · exact Or.inr h1
          · simp only at h1
            subst h1
            rcases h2 with ⟨a', h2, h3⟩ | ⟨h2, h3⟩
            · rcases List.mem_cons.1 h2 with h2 | h2
              · cases h2; left; simp only at h3; rw [h3]
              · have := hk _ h2; simp at this
            · exact absurd rfl (h2 (a, v) (by simp))
      · rename_i h0 h
        simp only at h h0
        have hlt : c < k := by omega
        have hall : ∀ p ∈ (k, v) :: ps, p.1 ≠ c := by
          intro p hp
          rcases List.mem_cons.1 hp with rfl | hp
          · exact h
          · have := hk _ hp; omega
        rw [List.mem_cons]
        constructor
        · rintro (h1 | h1)
          · cases h1; exact Or.inr ⟨rfl, Or.inr ⟨hall, rfl⟩⟩
          · exact Or.inl ⟨h1, hall _ h1⟩
        · rintro (⟨h1, h2⟩ | ⟨h1, h2⟩)
          · exact Or.inr h1
          · simp only at h1
            subst h1
            rcases h2 with ⟨a', h2, h3⟩ | ⟨h2, h3⟩
            · exact absurd rfl (hall _ h2)
            · left; simp only at h3; rw [h3]

theorem upsert_keys {α : Type} (c : Int) (f : α → α) (dflt : α) (l : List (Int × α)) (hl : KeysOK l) :
    KeysOK (upsert c f dflt l) := by
  induction l with
  | nil => simp [upsert, KeysOK]
  | cons p ps ih =>
    have ih := ih hl.2
    unfold upsert
    split
    · rename_i h
      refine ⟨?_, ih⟩
      intro q hq
      rw [upsert_mem _ _ _ _ hl.2] at hq
      rcases hq with ⟨h1, _⟩ | ⟨h1, _⟩
      · exact hl.1 q h1
      · omega
    · split
      · rename_i h0 h
        subst h
        exact ⟨hl.1, hl.2⟩
      · refine ⟨?_, hl⟩
        intro q hq
        rcases List.mem_cons.1 hq with rfl | hq
        · simp only; omega
        · have := hl.1 q hq; simp only; omega

theorem modDrop_mem {α : Type} (c : Int) (f : α → α) (e : α → Bool) (l : List (Int × α)) (hl : KeysOK l) (q : Int × α) :
    q ∈ modDrop c f e l ↔
      (q ∈ l ∧ q.1 ≠ c) ∨ (q.1 = c ∧ e q.2 = false ∧ ∃ a, (c, a) ∈ l ∧ q.2 = f a) := by
  induction l with
  | nil => simp [modDrop]
  | cons p ps ih =>
    have ih := ih hl.2
    unfold modDrop
    obtain ⟨a, b⟩ := q
    obtain ⟨k, v⟩ := p
    have hk : ∀ q ∈ ps, k < q.1 := hl.1
    split
    · rename_i h
      simp only at h
      have hkc : k ≠ c := by omega
      rw [List.mem_cons, ih]
      constructor
      · rintro (h1 | ⟨h1, h2⟩ | ⟨h1, h2, a', h3, h4⟩)
        · cases h1; exact Or.inl ⟨by simp, hkc⟩
        · exact Or.inl ⟨by simp [h1], h2⟩
        · exact Or.inr ⟨h1, h2, a', by simp [h3], h4⟩
      · rintro (⟨h1, h2⟩ | ⟨h1, h2, a', h3, h4⟩)
        · rcases List.mem_cons.1 h1 with h1 | h1
          · exact Or.inl h1
          · exact Or.inr (Or.inl ⟨h1, h2⟩)
        · rcases List.mem_cons.1 h3 with h3 | h3
          · cases h3; omega
          · exact Or.inr (Or.inr ⟨h1, h2, a', h3, h4⟩)
    · split
      · rename_i h0 h
        simp only at h
        subst h
        have hne : ∀ {x : α}, (k, x) ∉ ps := by
          intro x hx
          have := hk _ hx; simp at this
        split
        · rename_i he
          constructor
          · intro h1
            have := hk _ h1
            exact Or.inl ⟨by simp [h1], by simp at this ⊢; omega⟩
          · rintro (⟨h1, h2⟩ | ⟨h1, h2, a', h3, h4⟩)
            · rcases List.mem_cons.1 h1 with h1 | h1
              · cases h1; exact absurd rfl h2
              · exact h1
            · rcases List.mem_cons.1 h3 with h3 | h3
              · cases h3
                simp only at h4 h2
                rw [h4, he] at h2
                exact absurd h2 (by simp)
              · exact absurd h3 hne
        · rename_i he
          rw [List.mem_cons]
          constructor
          · rintro (h1 | h1)
            · cases h1
              exact Or.inr ⟨rfl, by simpa using he, v, by simp, rfl⟩
            · have := hk _ h1
              exact Or.inl ⟨by simp [h1], by simp at this ⊢; omega⟩
          · rintro (⟨h1, h2⟩ | ⟨h1, h2, a', h3, h4⟩)
            · rcases List.mem_cons.1 h1 with h1 | h1
              · cases h1; exact absurd rfl h2
              · exact Or.inr h1
            · simp only at h1
              subst h1
              rcases List.mem_cons.1 h3 with h3 | h3
              · cases h3; left; simp only at h4; rw [h4]
              · exact absurd h3 hne
      · rename_i h0 h
        simp only at h h0
        have hall : ∀ p ∈ (k, v) :: ps, p.1 ≠ c := by
          intro p hp
          rcases List.mem_cons.1 hp with rfl | hp
          · exact h
          · have := hk _ hp; omega
        constructor
        · intro h1; exact Or.inl ⟨h1, hall _ h1⟩
        · rintro (⟨h1, h2⟩ | ⟨h1, h2, a', h3, h4⟩)
          · exact h1
          · exact absurd rfl (hall _ h3)

theorem modDrop_keys {α : Type} (c : Int) (f : α → α) (e : α → Bool) (l : List (Int × α)) (hl : KeysOK l) :
    KeysOK (modDrop c f e l) := by
  induction l with
  | nil => simp [modDrop, KeysOK]
  | cons p ps ih =>
    have ih := ih hl.2
    unfold modDrop
    split
    · rename_i h
      refine ⟨?_, ih⟩
      intro q hq
      rw [modDrop_mem _ _ _ _ hl.2] at hq
      rcases hq with ⟨h1, _⟩ | ⟨h1, _⟩
      · exact hl.1 q h1
      · omega
    · split
      · rename_i h0 h
        split
        · exact hl.2
        · subst h; exact ⟨hl.1, hl.2⟩
      · exact hl

/-! ### set semantics of tree operations -/

theorem insT_topLen (d : Nat) (t : Tree d) (s : Streak) : topLen d (insT d t s) ≠ 0 := by
  cases d with
  | zero => simpa [topLen, insT] using insRow_ne_nil _ _
  | succ d =>
    have : ∀ (f : Tree d → Tree d) (dflt) (c) (l : List (Int × Tree d)), (upsert c f dflt l).length ≠ 0 := by
      intro f dflt c l
      cases l with
      | nil => simp [upsert]
      | cons p ps =>
        unfold upsert
        split
        · simp
        · split <;> simp
    exact this _ _ _ _

theorem insT_spec (d : Nat) (t : Tree d) (s : Streak) (hs : s.origin 0 < s.endX) (ht : TreeOK d t) :
    TreeOK d (insT d t s) ∧ ∀ c, TMem d (insT d t s) c ↔ TMem d t c ∨ SMem d s c := by
  induction d with
  | zero =>
    refine ⟨insRow_ok _ _ hs ht, fun c => ?_⟩
    have := insRow_mem t (s.origin 0, s.endX) hs (RowOK.pos ht) (c 0)
    simp only [TMem, insT, this, SMem]
    constructor
    · rintro (h | h)
      · exact Or.inl h
      · exact Or.inr ⟨fun k h1 h2 => by omega, h⟩
    · rintro (h | h)
      · exact Or.inl h
      · exact Or.inr h.2
  | succ d ih =>
    have hk : KeysOK (t : List (Int × Tree d)) := ht.1
    have hsub := ht.2
    obtain ⟨he1, he2⟩ := ih (emptyT d) (emptyT_ok d)
    constructor
    · refine ⟨upsert_keys _ _ _ _ hk, ?_⟩
      intro p hp
      rw [insT, upsert_mem _ _ _ _ hk] at hp
      rcases hp with ⟨h1, h2⟩ | ⟨h1, ⟨a, h2, h3⟩ | ⟨h2, h3⟩⟩
      · exact hsub p h1
      · rw [h3]
        exact ⟨(ih a (hsub _ h2).1).1, insT_topLen _ _ _⟩
      · rw [h3]; exact ⟨he1, insT_topLen _ _ _⟩
    · intro c
      rw [SMem_succ]
      simp only [TMem, insT]
      constructor
      · rintro ⟨p, hp, hpc, hm⟩
        rw [upsert_mem _ _ _ _ hk] at hp
        rcases hp with ⟨h1, h2⟩ | ⟨h1, ⟨a, h2, h3⟩ | ⟨h2, h3⟩⟩
        · exact Or.inl ⟨p, h1, hpc, hm⟩
        · rw [h3, (ih a (hsub _ h2).1).2] at hm
          rcases hm with hm | hm
          · exact Or.inl ⟨_, h2, by omega, hm⟩
          · exact Or.inr ⟨by omega, hm⟩
        · rw [h3, he2] at hm
          rcases hm with hm | hm
          · exact absurd hm (emptyT_mem _ _)
          · exact Or.inr ⟨by omega, hm⟩
      · rintro (⟨p, hp, hpc, hm⟩ | ⟨hc, hm⟩)
        · by_cases h : p.1 = s.origin (d + 1)
          · refine ⟨(s.origin (d + 1), insT d p.2 s), ?_, by simp only; omega, ?_⟩
            · rw [upsert_mem _ _ _ _ hk]
              exact Or.inr ⟨rfl, Or.inl ⟨p.2, by rw [← h]; exact hp, rfl⟩⟩
            · exact ((ih p.2 (hsub _ hp).1).2 c).2 (Or.inl hm)
          · exact ⟨p, by rw [upsert_mem _ _ _ _ hk]; exact Or.inl ⟨hp, h⟩, hpc, hm⟩
        · by_cases h : ∃ a, (s.origin (d + 1), a) ∈ (t : List (Int × Tree d))
          · obtain ⟨a, ha⟩ := h
            refine ⟨(s.origin (d + 1), insT d a s), ?_, by simp only; omega, ?_⟩
            · rw [upsert_mem _ _ _ _ hk]
              exact Or.inr ⟨rfl, Or.inl ⟨a, ha, rfl⟩⟩
            · exact ((ih a (hsub _ ha).1).2 c).2 (Or.inr hm)
          · refine ⟨(s.origin (d + 1), insT d (emptyT d) s), ?_, by simp only; omega, ?_⟩
            · rw [upsert_mem _ _ _ _ hk]
              refine Or.inr ⟨rfl, Or.inr ⟨?_, rfl⟩⟩
              intro p hp hpc
              exact h ⟨p.2, by rw [← hpc]; exact hp⟩
            · exact (he2 c).2 (Or.inr hm)

theorem remT_spec (d : Nat) (t : Tree d) (s : Streak) (hs : s.origin 0 < s.endX) (ht : TreeOK d t) :
    TreeOK d (remT d t s) ∧ ∀ c, TMem d (remT d t s) c ↔ TMem d t c ∧ ¬ SMem d s c := by
  induction d with
  | zero =>
    refine ⟨remRow_ok _ _ hs ht, fun c => ?_⟩
    have := remRow_mem t (s.origin 0, s.endX) hs (c 0)
    simp only [TMem, remT, this, SMem]
    constructor
    · rintro ⟨h1, h2⟩
      exact ⟨h1, fun h => h2 h.2⟩
    · rintro ⟨h1, h2⟩
      exact ⟨h1, fun h => h2 ⟨fun k h1 h2 => by omega, h⟩⟩
  | succ d ih =>
    have hk : KeysOK (t : List (Int × Tree d)) := ht.1
    have hsub := ht.2
    constructor
    · refine ⟨modDrop_keys _ _ _ _ hk, ?_⟩
      intro p hp
      rw [remT, modDrop_mem _ _ _ _ hk] at hp
      rcases hp with ⟨h1, h2⟩ | ⟨h1, h2, a, h3, h4⟩
      · exact hsub p h1
      · refine ⟨?_, by simpa using h2⟩
        rw [h4]
        exact (ih a (hsub _ h3).1).1
    · intro c
      rw [SMem_succ]
      simp only [TMem, remT]
      constructor
      · rintro ⟨p, hp, hpc, hm⟩
        rw [modDrop_mem _ _ _ _ hk] at hp
        rcases hp with ⟨h1, h2⟩ | ⟨h1, h2, a, h3, h4⟩
        · exact ⟨⟨p, h1, hpc, hm⟩, fun h => h2 (by omega)⟩
        · rw [h4, (ih a (hsub _ h3).1).2] at hm
          exact ⟨⟨_, h3, by omega, hm.1⟩, fun h => hm.2 h.2⟩
      · rintro ⟨⟨p, hp, hpc, hm⟩, hn⟩
        by_cases h : p.1 = s.origin (d + 1)
        · have hm' := ((ih p.2 (hsub _ hp).1).2 c).2 ⟨hm, fun hh => hn ⟨by omega, hh⟩⟩
          refine ⟨(s.origin (d + 1), remT d p.2 s), ?_, by simp only; omega, hm'⟩
          rw [modDrop_mem _ _ _ _ hk]
          refine Or.inr ⟨rfl, ?_, p.2, by rw [← h]; exact hp, rfl⟩
          simp only [decide_eq_false_iff_not]
          intro h0
          rw [topLen_eq_zero] at h0
          rw [h0] at hm'
          exact emptyT_mem _ _ hm'
        · exact ⟨p, by rw [modDrop_mem _ _ _ _ hk]; exact Or.inl ⟨hp, h⟩, hpc, hm⟩

/-- Non-empty canonical trees contain a coordinate; used for uniqueness. -/
theorem TreeOK_nonempty (d : Nat) (t : Tree d) (ht : TreeOK d t) (hne : topLen d t ≠ 0) : ∃ c, TMem d t c := by
  induction d with
  | zero =>
    cases t with
    | nil => simp [topLen] at hne
    | cons p ps => exact ⟨fun _ => p.1, p, by simp, Int.le_refl _, (show RowOK _ from ht).1⟩
  | succ d ih =>
    match t, ht, hne with
    | [], _, hne => simp [topLen] at hne
    | p :: ps, ht, _ =>
      obtain ⟨c, hc⟩ := ih p.2 (ht.2 p (by simp)).1 (ht.2 p (by simp)).2
      refine ⟨fun k => if k = d + 1 then p.1 else c k, p, by simp, by simp, ?_⟩
      have key : ∀ (e : Nat) (t : Tree e) (c c' : Crd), (∀ k, k ≤ e → c k = c' k) → TMem e t c → TMem e t c' := by
        intro e
        induction e with
        | zero => intro t c c' h hm; simpa [TMem, h 0 (by omega)] using hm
        | succ e ih =>
          rintro t c c' h ⟨p, h1, h2, h3⟩
          exact ⟨p, h1, by rw [h2, h _ (by omega)], ih p.2 c c' (fun k hk => h k (by omega)) h3⟩
      apply key d p.2 c _ _ hc
      intro k hk
      have : k ≠ d + 1 := by omega
      simp [this]

theorem TMem_congr (e : Nat) (t : Tree e) (c c' : Crd) (h : ∀ k, k ≤ e → c k = c' k) : TMem e t c ↔ TMem e t c' := by
  have key : ∀ (e : Nat) (t : Tree e) (c c' : Crd), (∀ k, k ≤ e → c k = c' k) → TMem e t c → TMem e t c' := by
    intro e
    induction e with
    | zero => intro t c c' h hm; simpa [TMem, h 0 (by omega)] using hm
    | succ e ih =>
      rintro t c c' h ⟨p, h1, h2, h3⟩
      exact ⟨p, h1, by rw [h2, h _ (by omega)], ih p.2 c c' (fun k hk => h k (by omega)) h3⟩
  exact ⟨key e t c c' h, key e t c' c (fun k hk => (h k hk).symm)⟩

theorem KeysOK_unique {α : Type} {l : List (Int × α)} (h : KeysOK l) {k : Int} {a b : α}
    (ha : (k, a) ∈ l) (hb : (k, b) ∈ l) : a = b := by
  induction l with
  | nil => simp at ha
  | cons p ps ih =>
    rcases List.mem_cons.1 ha with h1 | h1 <;> rcases List.mem_cons.1 hb with h2 | h2
    · rw [← h1] at h2; exact (Prod.mk.inj h2).2.symm
    · have := h.1 _ h2; rw [← h1] at this; simp at this
    · have := h.1 _ h1; rw [← h2] at this; simp at this
    · exact ih h.2 h1 h2

theorem KeysOK_ext {α : Type} (l l' : List (Int × α)) (h : KeysOK l) (h' : KeysOK l') (hm : ∀ q, q ∈ l ↔ q ∈ l') :
    l = l' := by
  induction l generalizing l' with
  | nil =>
    cases l' with
    | nil => rfl
    | cons q qs => have := (hm q).2 (by simp); simp at this
  | cons p ps ih =>
    cases l' with
    | nil => have := (hm p).1 (by simp); simp at this
    | cons q qs =>
      have e : p = q := by
        rcases List.mem_cons.1 ((hm p).1 (by simp)) with h1 | h1
        · exact h1
        · rcases List.mem_cons.1 ((hm q).2 (by simp)) with h2 | h2
          · exact h2.symm
          · have := h.1 q h2; have := h'.1 p h1; omega
      subst e
      congr 1
      apply ih qs h.2 h'.2
      intro r
      constructor
      · intro hr
        have := h.1 r hr
        rcases List.mem_cons.1 ((hm r).1 (by simp [hr])) with h1 | h1
        · subst h1; omega
        · exact h1
      · intro hr
        have := h'.1 r hr
        rcases List.mem_cons.1 ((hm r).2 (by simp [hr])) with h1 | h1
        · subst h1; omega
        · exact h1

/-- Canonical trees with the same coordinates are identical. -/
theorem TreeOK_ext (d : Nat) (t t' : Tree d) (h : TreeOK d t) (h' : TreeOK d t') (hm : ∀ c, TMem d t c ↔ TMem d t' c) :
    t = t' := by
  induction d with
  | zero =>
    apply RowOK_ext t t' h h'
    intro x
    exact hm (fun _ => x)
  | succ d ih =>
    have half : ∀ (t t' : Tree (d + 1)), TreeOK (d + 1) t → TreeOK (d + 1) t' →
        (∀ c, TMem (d + 1) t c ↔ TMem (d + 1) t' c) →
        ∀ q, q ∈ (t : List (Int × Tree d)) → q ∈ (t' : List (Int × Tree d)) := by
      intro t t' h h' hm q hq
      obtain ⟨c0, hc0⟩ := TreeOK_nonempty d q.2 (h.2 q hq).1 (h.2 q hq).2
      have fix : ∀ c : Crd, ∀ (u : Tree d), TMem d u (fun k => if k = d + 1 then q.1 else c k) ↔ TMem d u c := by
        intro c u
        apply TMem_congr
        intro k hk
        have : k ≠ d + 1 := by omega
        simp [this]
      have : TMem (d + 1) t (fun k => if k = d + 1 then q.1 else c0 k) :=
        ⟨q, hq, by simp, (fix c0 q.2).2 hc0⟩
      obtain ⟨q', hq', e, _⟩ := (hm _).1 this
      simp only [if_pos] at e
      have hqq : q.2 = q'.2 := by
        apply ih q.2 q'.2 (h.2 q hq).1 (h'.2 q' hq').1
        intro c
        constructor
        · intro hc
          obtain ⟨r, hr, hr2, hr3⟩ := (hm _).1 (show TMem (d + 1) t (fun k => if k = d + 1 then q.1 else c k) from
            ⟨q, hq, by simp, (fix c q.2).2 hc⟩)
          simp only [if_pos] at hr2
          have : r.2 = q'.2 := KeysOK_unique h'.1 (k := q.1) (by rw [← hr2]; exact hr) (by rw [← e]; exact hq')
          rw [← this]
          exact (fix c r.2).1 hr3
        · intro hc
          obtain ⟨r, hr, hr2, hr3⟩ := (hm _).2 (show TMem (d + 1) t' (fun k => if k = d + 1 then q.1 else c k) from
            ⟨q', hq', by simp [e], (fix c q'.2).2 hc⟩)
          simp only [if_pos] at hr2
          have : r.2 = q.2 := KeysOK_unique h.1 (k := q.1) (by rw [← hr2]; exact hr) hq
          rw [← this]
          exact (fix c r.2).1 hr3
      have : q = q' := Prod.ext e.symm hqq
      rw [this]; exact hq'
    exact KeysOK_ext _ _ h.1 h'.1 (fun q => ⟨half t t' h h' hm q, half t' t h' h (fun c => (hm c).symm) q⟩)

end LGD
