import Verif.Region.Flat

/-!
# Region: the iterators enumerate the flattened view
-/

namespace LGD

/-! ## parent positions -/

theorem countP_sorted (v : IVec) (p : Int) (h : v.Pairwise (fun a b => a.2 < b.2)) (j : Nat) (e : IPair) (he : v[j]? = some e) :
    e.2 ≤ p ↔ j < v.countP (fun e => decide (e.2 ≤ p)) := by
  induction v generalizing j with
  | nil => simp at he
  | cons a as ih =>
    rw [List.pairwise_cons] at h
    rw [List.countP_cons]
    cases j with
    | zero =>
      simp only [List.getElem?_cons_zero, Option.some.injEq] at he
      subst he
      by_cases hp : a.2 ≤ p
      · simp [hp]
      · have : as.countP (fun e => decide (e.2 ≤ p)) = 0 := by
          rw [List.countP_eq_zero]
          intro b hb
          have := h.1 b hb
          simp only [decide_eq_true_eq]; omega
        simp [hp, this]
    | succ j =>
      simp only [List.getElem?_cons_succ] at he
      rw [ih h.2 j he]
      by_cases hp : a.2 ≤ p
      · simp [hp]
      · have : as.countP (fun e => decide (e.2 ≤ p)) = 0 := by
          rw [List.countP_eq_zero]
          intro b hb
          have := h.1 b hb
          simp only [decide_eq_true_eq]; omega
        simp [hp, this]

theorem par_spec {v : IVec} {L : Nat} (h : OffOK v L) {p : Nat} (hp : p < L) :
    ∃ e, v[par v p]? = some e ∧ e.2 ≤ (p : Int) ∧ ∀ j e', par v p < j → v[j]? = some e' → (p : Int) < e'.2 := by
  have hc := countP_sorted v p h.incr
  have hle := List.countP_le_length (p := fun e => decide (e.2 ≤ (p : Int))) (l := v)
  have hpos : 0 < v.countP (fun e => decide (e.2 ≤ (p : Int))) := by
    cases v with
    | nil => have := h.ne rfl; omega
    | cons a as =>
      rw [← hc 0 a rfl, h.head a as rfl]; omega
  unfold par
  have hlt : v.countP (fun e => decide (e.2 ≤ (p : Int))) - 1 < v.length := by omega
  refine ⟨v[v.countP (fun e => decide (e.2 ≤ (p : Int))) - 1], List.getElem?_eq_getElem hlt, ?_, ?_⟩
  · rw [hc _ _ (List.getElem?_eq_getElem hlt)]; omega
  · intro j e' hj he'
    have := hc j e' he'
    omega

theorem par_unique {v : IVec} {L : Nat} (h : OffOK v L) {p j : Nat} {e : IPair} (he : v[j]? = some e)
    (h1 : e.2 ≤ (p : Int)) (h2 : ∀ e', v[j + 1]? = some e' → (p : Int) < e'.2) : par v p = j := by
  have hc := countP_sorted v p h.incr
  have hle := List.countP_le_length (p := fun e => decide (e.2 ≤ (p : Int))) (l := v)
  unfold par
  have h3 := (hc j e he).1 h1
  by_cases hj : j + 1 < v.length
  · have h4 := hc (j + 1) _ (List.getElem?_eq_getElem hj)
    have h5 := h2 _ (List.getElem?_eq_getElem hj)
    omega
  · omega

theorem par_lt {v : IVec} {L : Nat} (h : OffOK v L) {p : Nat} (hp : p < L) : par v p < v.length := by
  obtain ⟨e, he, _⟩ := par_spec h hp
  exact (List.getElem?_eq_some_iff.1 he).1

theorem P_lt {n : Nat} {idx : Idx} {t : Tree n} (h : Rep n idx t) {i : Nat} (hi : i < (idx 0).length) :
    ∀ k, k ≤ n → P idx i k < (idx k).length := by
  intro k
  induction k with
  | zero => intro _; exact hi
  | succ k ih => intro hk; exact par_lt (h.offOK k (by omega)) (ih (by omega))

theorem P_stable {idx : Idx} {i j k : Nat} (h : P idx i k = P idx j k) : ∀ m, k ≤ m → P idx i m = P idx j m := by
  intro m hm
  induction m with
  | zero => have : k = 0 := by omega
            subst this; exact h
  | succ m ih =>
    by_cases e : k = m + 1
    · subst e; exact h
    · rw [P, P, ih (by omega)]

/-! ## iterator states -/

/-- Streak displaced by an offset and lengthened. -/
def shiftS (n : Nat) (off : Crd) (al : Int) (s : Streak) : Streak :=
  { origin := fun k => if k ≤ n then s.origin k + off k else 0, endX := s.endX + off 0 + al }

/-- `it` points to the `i`-th streak. -/
structure At (n : Nat) (idx : Idx) (off : Crd) (al : Int) (i : Nat) (it : SIter) : Prop where
  pos : ∀ k, k ≤ n → it.pos k = P idx i k
  streak : it.streak = shiftS n off al (streakAt n idx i)

theorem construct_spec (n : Nat) (idx : Idx) (off : Crd) (al : Int) (pos : Nat → Nat) (i : Nat)
    (h : ∀ k, k ≤ n → pos k = P idx i k) (hv : ∀ k, k ≤ n → P idx i k < (idx k).length) :
    construct idx off al pos n zeroStreak = some (shiftS n off al (streakAt n idx i)) := by
  induction n with
  | zero =>
    have h0 := hv 0 (by omega)
    simp only [P] at h0
    simp only [construct, h 0 (by omega), P]
    rw [List.getElem?_eq_getElem h0]
    simp only [Option.bind_eq_bind, Option.bind_some, Option.some.injEq]
    unfold shiftS streakAt
    simp only [Nat.le_zero_eq, List.getElem?_eq_getElem h0, Option.getD_some]
    congr 1
    funext k
    unfold upd zeroStreak
    by_cases hk : k = 0
    · subst hk; simp [P, List.getElem?_eq_getElem h0]
    · rw [if_neg hk, if_neg hk]
  | succ n ih =>
    have h0 := hv (n + 1) (by omega)
    rw [construct, ih (fun k hk => h k (by omega)) (fun k hk => hv k (by omega))]
    simp only [Option.bind_eq_bind, Option.bind_some, h (n + 1) (by omega), List.getElem?_eq_getElem h0, Option.some.injEq]
    unfold shiftS streakAt
    simp only
    congr 1
    funext k
    unfold upd
    by_cases hk : k = n + 1
    · subst hk; simp [List.getElem?_eq_getElem h0]
    · by_cases hk' : k ≤ n
      · have : k ≤ n + 1 := by omega
        simp [hk, hk', this]
      · have : ¬ k ≤ n + 1 := by omega
        simp [hk, hk', this]

theorem P_zero {n : Nat} {idx : Idx} {t : Tree n} (h : Rep n idx t) (hi : 0 < (idx 0).length) :
    ∀ k, k ≤ n → P idx 0 k = 0 := by
  intro k
  induction k with
  | zero => intro _; rfl
  | succ k ih =>
    intro hk
    rw [P, ih (by omega)]
    have hlt := P_lt h hi k (by omega)
    rw [ih (by omega)] at hlt
    have ho := h.offOK k (by omega)
    cases hv : idx (k + 1) with
    | nil => have := ho.ne hv; omega
    | cons a as =>
      rw [hv] at ho
      apply par_unique ho (e := a) rfl
      · rw [ho.head a as rfl]; omega
      · intro e' he'
        have := ho.incr
        rw [List.pairwise_cons] at this
        have h2 : e' ∈ as := by
          simp only [Nat.zero_add, List.getElem?_cons_succ] at he'
          exact List.mem_of_getElem? he'
        have h3 := this.1 e' h2
        have h4 := ho.head a as rfl
        omega

theorem siBegin_spec {n : Nat} {idx : Idx} {t : Tree n} (h : Rep n idx t) (off : Crd) (al : Int) :
    ∃ it, siBegin n idx off al = some it ∧
      (0 < (idx 0).length → At n idx off al 0 it) ∧ ((idx 0).length = 0 → siEq n it (siEnd idx) = true) := by
  by_cases h0 : 0 < (idx 0).length
  · refine ⟨{ pos := fun _ => 0, streak := shiftS n off al (streakAt n idx 0) }, ?_, ?_, by omega⟩
    · rw [siBegin, if_pos h0, construct_spec n idx off al _ 0 (fun k hk => (P_zero h h0 k hk).symm) (P_lt h h0)]
      rfl
    · intro _
      exact ⟨fun k hk => (P_zero h h0 k hk).symm, rfl⟩
  · refine ⟨_, by rw [siBegin, if_neg h0], by omega, ?_⟩
    intro h1
    have ht := h.empty_iff.1 h1
    unfold siEq siEnd
    rw [List.all_eq_true]
    intro k hk
    simp at hk
    simp only [decide_eq_true_eq]
    rw [h.eq k (by omega), ht, enc_empty]; rfl

theorem At_not_end {n : Nat} {idx : Idx} {t : Tree n} (h : Rep n idx t) {off : Crd} {al : Int} {i : Nat} {it : SIter}
    (hi : i < (idx 0).length) (ha : At n idx off al i it) : siEq n it (siEnd idx) = false := by
  unfold siEq
  rw [Bool.eq_false_iff]
  intro hc
  rw [List.all_eq_true] at hc
  have := hc 0 (by simp)
  simp only [decide_eq_true_eq, siEnd, ha.pos 0 (by omega), P] at this
  omega

theorem siUp_spec {n : Nat} {idx : Idx} {t : Tree n} (h : Rep n idx t) (off : Crd) (al : Int) (i : Nat)
    (hi : i + 1 < (idx 0).length) :
    ∀ (r l : Nat) (it : SIter), l + r = n + 1 → 1 ≤ l →
      (∀ k, k < l → it.pos k = P idx (i + 1) k) → (∀ k, l ≤ k → k ≤ n → it.pos k = P idx i k) →
      P idx (i + 1) (l - 1) = P idx i (l - 1) + 1 →
      it.streak.endX = (shiftS n off al (streakAt n idx (i + 1))).endX →
      (∀ k, k < l → it.streak.origin k = (shiftS n off al (streakAt n idx (i + 1))).origin k) →
      (∀ k, l ≤ k → it.streak.origin k = (shiftS n off al (streakAt n idx i)).origin k) →
      ∃ it', siUp idx off r l it = some it' ∧ At n idx off al (i + 1) it' := by
  have hPi := P_lt h (i := i) (by omega)
  have hPj := P_lt h hi
  -- the case where level `l` does not advance
  have stop : ∀ (l : Nat) (it : SIter), 1 ≤ l → l ≤ n + 1 →
      (∀ k, k < l → it.pos k = P idx (i + 1) k) → (∀ k, l ≤ k → k ≤ n → it.pos k = P idx i k) →
      it.streak.endX = (shiftS n off al (streakAt n idx (i + 1))).endX →
      (∀ k, k < l → it.streak.origin k = (shiftS n off al (streakAt n idx (i + 1))).origin k) →
      (∀ k, l ≤ k → it.streak.origin k = (shiftS n off al (streakAt n idx i)).origin k) →
      (l ≤ n → P idx (i + 1) l = P idx i l) → At n idx off al (i + 1) it := by
    intro l it hl1 hln h1 h2 h3 h4 h5 h6
    have hst : ∀ k, l ≤ k → k ≤ n → P idx (i + 1) k = P idx i k := fun k hk hk' => P_stable (h6 (by omega)) k hk
    constructor
    · intro k hk
      by_cases hkl : k < l
      · exact h1 k hkl
      · rw [h2 k (by omega) hk, hst k (by omega) hk]
    · have : it.streak.origin = (shiftS n off al (streakAt n idx (i + 1))).origin := by
        funext k
        by_cases hkl : k < l
        · exact h4 k hkl
        · rw [h5 k (by omega)]
          simp only [shiftS, streakAt]
          by_cases hk : k ≤ n
          · rw [hst k (by omega) hk]
          · rw [if_neg hk, if_neg hk]
      cases hs : it.streak with
      | mk o e =>
        rw [hs] at this h3
        simp only at this h3
        rw [this, h3]
  intro r
  induction r with
  | zero =>
    intro l it hl hl1 h1 h2 h3 h4 h5 h6
    exact ⟨it, rfl, stop l it hl1 (by omega) h1 h2 h4 h5 h6 (by omega)⟩
  | succ r ih =>
    intro l it hl hl1 h1 h2 h3 h4 h5 h6
    obtain ⟨m, rfl⟩ : ∃ m, l = m + 1 := ⟨l - 1, by omega⟩
    simp only [Nat.add_sub_cancel] at h3
    have ho := h.offOK m (by omega)
    have hpl := hPi (m + 1) (by omega)
    have hpm := hPi m (by omega)
    have hqm := hPj m (by omega)
    obtain ⟨e0, he0, hle0, hgt0⟩ := par_spec ho hpm
    have hP : P idx i (m + 1) = par (idx (m + 1)) (P idx i m) := rfl
    have hQ : P idx (i + 1) (m + 1) = par (idx (m + 1)) (P idx (i + 1) m) := rfl
    have hpos := h2 (m + 1) (by omega) (by omega)
    rw [siUp]
    by_cases hend : it.pos (m + 1) + 1 = (idx (m + 1)).length
    · rw [if_pos hend]
      refine ⟨it, rfl, stop (m + 1) it hl1 (by omega) h1 h2 h4 h5 h6 (fun _ => ?_)⟩
      rw [hQ, hP]
      apply par_unique ho he0
      · rw [h3]; omega
      · intro e' he'
        have := (List.getElem?_eq_some_iff.1 he').1
        omega
    · rw [if_neg hend]
      have hlt : it.pos (m + 1) + 1 < (idx (m + 1)).length := by omega
      rw [List.getElem?_eq_getElem hlt, Option.bind_some]
      have hmem : (idx (m + 1))[it.pos (m + 1) + 1] ∈ idx (m + 1) := List.getElem_mem _
      have hb := ho.bnd _ hmem
      have hget := List.getElem?_eq_getElem hlt
      have htp : toPos (idx (m + 1))[it.pos (m + 1) + 1].2 = some (idx (m + 1))[it.pos (m + 1) + 1].2.toNat := by
        unfold toPos; rw [if_pos hb.1]
      rw [htp, Option.bind_some]
      have hgt := hgt0 (it.pos (m + 1) + 1) _ (by rw [hpos, hP]; omega) hget
      simp only [Nat.add_sub_cancel]
      have hposm := h1 m (by omega)
      by_cases hne : it.pos m ≠ (idx (m + 1))[it.pos (m + 1) + 1].2.toNat
      · rw [if_pos hne]
        refine ⟨it, rfl, stop (m + 1) it hl1 (by omega) h1 h2 h4 h5 h6 (fun _ => ?_)⟩
        rw [hQ, hP]
        apply par_unique ho he0
        · rw [h3]; omega
        · intro e' he'
          rw [← hP, ← hpos, hget] at he'
          cases he'
          omega
      · rw [if_neg hne]
        have heq : it.pos m = (idx (m + 1))[it.pos (m + 1) + 1].2.toNat := by omega
        have hadv : P idx (i + 1) (m + 1) = it.pos (m + 1) + 1 := by
          rw [hQ]
          apply par_unique ho hget
          · omega
          · intro e' he'
            obtain ⟨hl', he''⟩ := List.getElem?_eq_some_iff.1 he'
            have := List.pairwise_iff_getElem.1 ho.incr (it.pos (m + 1) + 1) (it.pos (m + 1) + 1 + 1) hlt hl' (by omega)
            rw [he''] at this
            omega
        apply ih (m + 1 + 1) _ (by omega) (by omega)
        · intro k hk
          simp only
          by_cases hk' : k = m + 1
          · rw [if_pos hk', hk', hadv]
          · rw [if_neg hk']; exact h1 k (by omega)
        · intro k hk hkn
          simp only
          rw [if_neg (by omega)]
          exact h2 k (by omega) hkn
        · simp only [Nat.add_sub_cancel]
          rw [hadv, hpos]
        · exact h4
        · intro k hk
          simp only [upd]
          by_cases hk' : k = m + 1
          · rw [if_pos hk', hk']
            simp only [shiftS, streakAt]
            rw [if_pos (by omega), if_pos (by omega), hadv, hget]; rfl
          · rw [if_neg hk']; exact h5 k (by omega)
        · intro k hk
          simp only [upd]
          rw [if_neg (by omega)]
          exact h6 k (by omega)

theorem siNext_spec {n : Nat} {idx : Idx} {t : Tree n} (h : Rep n idx t) (off : Crd) (al : Int) (i : Nat) (it : SIter)
    (hi : i < (idx 0).length) (ha : At n idx off al i it) :
    ∃ it', siNext n idx off al it = some it' ∧
      (i + 1 < (idx 0).length → At n idx off al (i + 1) it') ∧
      (i + 1 = (idx 0).length → siEq n it' (siEnd idx) = true ∧ it'.pos 0 = (idx 0).length) := by
  have hp0 : it.pos 0 = i := by rw [ha.pos 0 (by omega)]; rfl
  by_cases he : it.pos 0 + 1 = (idx 0).length
  · refine ⟨_, by rw [siNext, if_pos he], by omega, ?_⟩
    intro _
    refine ⟨?_, by simpa using he⟩
    unfold siEq siEnd
    rw [List.all_eq_true]
    intro k _
    simp only [decide_eq_true_eq]
    by_cases hk : k = 0
    · subst hk; simp [he]
    · simp [hk]
  · have hlt : i + 1 < (idx 0).length := by omega
    rw [siNext, if_neg he, hp0, List.getElem?_eq_getElem hlt, Option.bind_some]
    have hs := ha.streak
    obtain ⟨it', h1, h2⟩ := siUp_spec h off al i hlt n 1
      { pos := fun k => if k = 0 then i + 1 else it.pos k,
        streak := { origin := upd it.streak.origin 0 ((idx 0)[i + 1].1 + off 0),
                    endX := (idx 0)[i + 1].2 + off 0 + al } } (by omega) (by omega)
      (by intro k hk
          have : k = 0 := by omega
          subst this; rfl)
      (by intro k hk hkn
          simp only
          rw [if_neg (by omega), ha.pos k hkn])
      rfl
      (by simp [shiftS, streakAt, List.getElem?_eq_getElem hlt])
      (by intro k hk
          have : k = 0 := by omega
          subst this
          simp [upd, shiftS, streakAt, P, List.getElem?_eq_getElem hlt])
      (by intro k hk
          simp only [upd]
          rw [if_neg (by omega), hs])
    refine ⟨it', h1, fun _ => h2, by omega⟩

theorem streakLoop_spec {n : Nat} {idx : Idx} {t : Tree n} (h : Rep n idx t) (off : Crd) (al : Int) :
    ∀ (r i : Nat) (it : SIter) (fuel : Nat), i + r = (idx 0).length → r < fuel → (0 < r → At n idx off al i it) →
      (r = 0 → siEq n it (siEnd idx) = true) →
      streakLoop n idx off al fuel it = some ((List.range r).map (fun j => shiftS n off al (streakAt n idx (i + j)))) := by
  intro r
  induction r with
  | zero =>
    intro i it fuel _ hf _ he
    obtain ⟨f, rfl⟩ : ∃ f, fuel = f + 1 := ⟨fuel - 1, by omega⟩
    rw [streakLoop, if_pos (he rfl)]; rfl
  | succ r ih =>
    intro i it fuel hir hf ha _
    obtain ⟨f, rfl⟩ : ∃ f, fuel = f + 1 := ⟨fuel - 1, by omega⟩
    have ha := ha (by omega)
    obtain ⟨it', h1, h2, h3⟩ := siNext_spec h off al i it (by omega) ha
    have hr := ih (i + 1) it' f (by omega) (by omega) (fun hr => h2 (by omega)) (fun hr => (h3 (by omega)).1)
    rw [streakLoop, At_not_end h (by omega) ha]
    simp only [Bool.false_eq_true, if_false, h1, Option.bind_eq_bind, Option.bind_some, hr]
    rw [List.range_succ_eq_map, List.map_cons, List.map_map, ha.streak]
    simp only [Nat.add_zero]
    congr 2
    apply List.map_congr_left
    intro j _
    simp only [Function.comp]
    congr 2
    omega

/-- Iteration with offset and additional length. -/
theorem allStreaks_eq {n : Nat} {idx : Idx} {t : Tree n} (h : Rep n idx t) (off : Crd) (al : Int) :
    allStreaks n idx off al = some ((List.range (idx 0).length).map (fun i => shiftS n off al (streakAt n idx i))) := by
  obtain ⟨it, h1, h2, h3⟩ := siBegin_spec h off al
  unfold allStreaks
  rw [h1, Option.bind_some, streakLoop_spec h off al (idx 0).length 0 it _ (by omega) (by omega) h2 h3]
  simp

theorem shiftS_zero (n : Nat) (idx : Idx) (i : Nat) : shiftS n (fun _ => 0) 0 (streakAt n idx i) = streakAt n idx i := by
  unfold shiftS streakAt
  simp only [Int.add_zero]
  congr 1
  funext k
  split <;> rfl

theorem toVector_eq {n : Nat} {idx : Idx} {t : Tree n} (h : Rep n idx t) :
    toVector n idx = some ((List.range (idx 0).length).map (streakAt n idx)) := by
  rw [toVector, allStreaks_eq h]
  simp only [shiftS_zero]

/-! ## coordinate iteration -/

/-- The coordinates of a streak, from `x` on. -/
def coordsFrom (s : Streak) : Nat → Int → List Crd
  | 0, _ => []
  | m + 1, x => upd s.origin 0 x :: coordsFrom s m (x + 1)

/-- All coordinates of a streak. -/
def coordsOf (s : Streak) : List Crd := coordsFrom s (s.endX - s.origin 0).toNat (s.origin 0)

theorem upd_upd (c : Crd) (k : Nat) (x y : Int) : upd (upd c k x) k y = upd c k y := by
  funext j; unfold upd; split <;> rfl

theorem upd_self (c : Crd) (k : Nat) : upd c k (c k) = c := by
  funext j; unfold upd; split
  · rename_i h; rw [h]
  · rfl

theorem siEq_false_of_pos {n : Nat} {a b : SIter} (h : a.pos 0 ≠ b.pos 0) : siEq n a b = false := by
  unfold siEq
  rw [Bool.eq_false_iff]
  intro hc
  rw [List.all_eq_true] at hc
  have := hc 0 (by simp)
  simp only [decide_eq_true_eq] at this
  exact h this

/-- Fuel needed for streaks `i, i+1, ...` (r of them). -/
def lenFrom (n : Nat) (idx : Idx) : Nat → Nat → Nat
  | _, 0 => 0
  | i, r + 1 => ((streakAt n idx i).endX - (streakAt n idx i).origin 0).toNat + lenFrom n idx (i + 1) r

theorem coordLoop_spec {n : Nat} {idx : Idx} {t : Tree n} (h : Rep n idx t) :
    ∀ (r i : Nat) (it : SIter) (fuel : Nat), i + r = (idx 0).length → lenFrom n idx i r < fuel →
      (0 < r → At n idx (fun _ => 0) 0 i it) → (r = 0 → siEq n it (siEnd idx) = true ∧ it.pos 0 = (idx 0).length) →
      coordLoop n idx fuel (ciOf it) = some ((List.range r).flatMap (fun j => coordsOf (streakAt n idx (i + j)))) := by
  intro r
  induction r with
  | zero =>
    intro i it fuel _ hf _ he
    obtain ⟨f, rfl⟩ : ∃ f, fuel = f + 1 := ⟨fuel - 1, by omega⟩
    obtain ⟨he1, he2⟩ := he rfl
    have : ciEq n idx (ciOf it) (ciOf (siEnd idx)) = true := by
      unfold ciEq ciOf
      simp [he1, he2]
    rw [coordLoop, if_pos this]; rfl
  | succ r ih =>
    intro i it fuel hir hf ha _
    have ha := ha (by omega)
    have hi : i < (idx 0).length := by omega
    have hpos : (streakAt n idx i).origin 0 < (streakAt n idx i).endX :=
      h.canon.pos _ (List.mem_map.2 ⟨i, by simpa using hi, rfl⟩)
    have hst : it.streak = streakAt n idx i := by rw [ha.streak, shiftS_zero]
    obtain ⟨it', h1, h2, h3⟩ := siNext_spec h (fun _ => 0) 0 i it hi ha
    -- inner loop over one streak
    have inner : ∀ (m : Nat) (x : Int) (fuel : Nat), 0 < m → x + m = (streakAt n idx i).endX →
        m + lenFrom n idx (i + 1) r < fuel →
        coordLoop n idx fuel { it := it, cursor := upd it.streak.origin 0 x } =
          some (coordsFrom (streakAt n idx i) m x ++
            (List.range r).flatMap (fun j => coordsOf (streakAt n idx (i + 1 + j)))) := by
      intro m
      induction m with
      | zero => intro x fuel h0; omega
      | succ m ihm =>
        intro x fuel _ hx hf
        obtain ⟨f, rfl⟩ : ∃ f, fuel = f + 1 := ⟨fuel - 1, by omega⟩
        have hne : ciEq n idx { it := it, cursor := upd it.streak.origin 0 x } (ciOf (siEnd idx)) = false := by
          unfold ciEq ciOf
          simp only
          rw [At_not_end h hi ha]; rfl
        rw [coordLoop, hne]
        simp only [Bool.false_eq_true, if_false]
        have hcur : upd (upd it.streak.origin 0 x) 0 (upd it.streak.origin 0 x 0 + 1) = upd it.streak.origin 0 (x + 1) := by
          rw [upd_upd]; simp [upd]
        by_cases hm : m = 0
        · subst hm
          have hc : ciNext n idx { it := it, cursor := upd it.streak.origin 0 x } = some (ciOf it') := by
            unfold ciNext
            simp only [hcur]
            rw [if_pos (by rw [hst]; simp [upd]; omega), h1]; rfl
          have hr := ih (i + 1) it' f (by omega) (by omega) (fun hr => h2 (by omega)) (fun hr => h3 (by omega))
          rw [hc]
          simp only [Option.bind_eq_bind, Option.bind_some, hr, coordsFrom, hst]
          rfl
        · have hc : ciNext n idx { it := it, cursor := upd it.streak.origin 0 x } =
              some { it := it, cursor := upd it.streak.origin 0 (x + 1) } := by
            unfold ciNext
            simp only [hcur]
            rw [if_neg (by rw [hst]; simp [upd]; omega)]
          rw [hc]
          simp only [Option.bind_eq_bind, Option.bind_some, ihm (x + 1) f (by omega) (by omega) (by omega)]
          rw [hst]; rfl
    have := inner ((streakAt n idx i).endX - (streakAt n idx i).origin 0).toNat ((streakAt n idx i).origin 0) fuel
      (by omega) (by omega) (by simpa [lenFrom] using hf)
    rw [hst, upd_self] at this
    have hci : ciOf it = { it := it, cursor := (streakAt n idx i).origin } := by rw [ciOf, hst]
    rw [hci, this]
    rw [List.range_succ_eq_map, List.flatMap_cons, List.flatMap_map]
    simp only [Nat.add_zero]
    congr 3
    funext j
    congr 2
    omega

/-- Iteration from `begin()` to `end()` yields the coordinates streak by streak. -/
theorem allCoords_eq {n : Nat} {idx : Idx} {t : Tree n} (h : Rep n idx t) (fuel : Nat)
    (hf : lenFrom n idx 0 (idx 0).length < fuel) :
    allCoords n idx fuel = some (((List.range (idx 0).length).map (streakAt n idx)).flatMap coordsOf) := by
  obtain ⟨it, h1, h2, h3⟩ := siBegin_spec h (fun _ => 0) 0
  unfold allCoords
  rw [h1, Option.bind_some, coordLoop_spec h (idx 0).length 0 it fuel (by omega) hf h2 ?_]
  · simp only [Nat.zero_add, List.flatMap_map]
  · intro h0
    have h4 := h3 h0
    refine ⟨h4, ?_⟩
    unfold siEq at h4
    rw [List.all_eq_true] at h4
    exact of_decide_eq_true (h4 0 (by simp))

theorem lenFrom_eq (n : Nat) (idx : Idx) (i r : Nat) :
    lenFrom n idx i r = (((List.range r).map (fun j => streakAt n idx (i + j))).flatMap coordsOf).length := by
  induction r generalizing i with
  | zero => rfl
  | succ r ih =>
    have hl : ∀ (s : Streak) m x, (coordsFrom s m x).length = m := by
      intro s m
      induction m with
      | zero => intro x; rfl
      | succ m ihm => intro x; simp [coordsFrom, ihm]
    rw [lenFrom, List.range_succ_eq_map, List.map_cons, List.flatMap_cons, List.length_append, ih, List.map_map]
    simp only [Nat.add_zero]
    congr 1
    · rw [coordsOf, hl]
    · congr 3
      funext j
      simp only [Function.comp]
      congr 1
      omega

theorem mem_coordsFrom (n : Nat) (s : Streak) (m : Nat) (x : Int) (c : Crd) :
    c ∈ coordsFrom s m x ↔ ∃ y, x ≤ y ∧ y < x + m ∧ c = upd s.origin 0 y := by
  induction m generalizing x with
  | zero => simp only [coordsFrom, List.not_mem_nil, false_iff]; rintro ⟨y, h1, h2, _⟩; omega
  | succ m ih =>
    simp only [coordsFrom, List.mem_cons, ih]
    constructor
    · rintro (h | ⟨y, h1, h2, h3⟩)
      · exact ⟨x, by omega, by omega, h⟩
      · exact ⟨y, by omega, by omega, h3⟩
    · rintro ⟨y, h1, h2, h3⟩
      by_cases hy : y = x
      · subst hy; exact Or.inl h3
      · exact Or.inr ⟨y, by omega, by omega, h3⟩

theorem mem_coordsOf (s : Streak) (c : Crd) (hs : s.origin 0 < s.endX) :
    c ∈ coordsOf s ↔ ∃ y, s.origin 0 ≤ y ∧ y < s.endX ∧ c = upd s.origin 0 y := by
  unfold coordsOf
  rw [mem_coordsFrom 0]
  constructor
  · rintro ⟨y, h1, h2, h3⟩; exact ⟨y, h1, by omega, h3⟩
  · rintro ⟨y, h1, h2, h3⟩; exact ⟨y, h1, by omega, h3⟩

theorem coordsFrom_sorted (n : Nat) (s : Streak) (m : Nat) (x : Int) : (coordsFrom s m x).Pairwise (CrdLt n) := by
  induction m generalizing x with
  | zero => exact List.Pairwise.nil
  | succ m ih =>
    refine List.Pairwise.cons ?_ (ih _)
    intro c hc
    obtain ⟨y, h1, h2, rfl⟩ := (mem_coordsFrom n s m (x + 1) c).1 hc
    refine ⟨0, by omega, by simp [upd]; omega, ?_⟩
    intro j hj _
    unfold upd
    rw [if_neg (by omega), if_neg (by omega)]

theorem flatMap_sorted (n : Nat) (l : List Streak) (hpos : ∀ s ∈ l, s.origin 0 < s.endX) (h : l.Pairwise (SBefore n)) :
    (l.flatMap coordsOf).Pairwise (CrdLt n) := by
  induction l with
  | nil => exact List.Pairwise.nil
  | cons s ss ih =>
    rw [List.pairwise_cons] at h
    rw [List.flatMap_cons]
    refine List.pairwise_append.2 ⟨coordsFrom_sorted n s _ _, ih (fun s' hs' => hpos s' (by simp [hs'])) h.2, ?_⟩
    intro a ha b hb
    obtain ⟨s', hs', hb'⟩ := List.mem_flatMap.1 hb
    obtain ⟨y, h1, h2, rfl⟩ := (mem_coordsOf s a (hpos s (by simp))).1 ha
    obtain ⟨z, h3, h4, rfl⟩ := (mem_coordsOf s' b (hpos s' (by simp [hs']))).1 hb'
    rcases h.1 s' hs' with ⟨k, k1, k2, k3, k4⟩ | ⟨k1, k2⟩
    · refine ⟨k, k2, ?_, ?_⟩
      · unfold upd; rw [if_neg (by omega), if_neg (by omega)]; exact k3
      · intro j hj hj'
        unfold upd; rw [if_neg (by omega), if_neg (by omega)]; exact k4 j hj hj'
    · refine ⟨0, by omega, by simp [upd]; omega, ?_⟩
      intro j hj hj'
      unfold upd; rw [if_neg (by omega), if_neg (by omega)]; exact k1 j (by omega) hj'

end LGD
