import Verif.Region.Iter

/-!
# Region: random access
-/

namespace LGD

theorem singleOffset_spec {n : Nat} {idx : Idx} {t : Tree n} (h : Rep n idx t) {i : Nat} (hi : i < (idx 0).length) :
    ∀ d, d ≤ n → ∃ pos, singleOffset idx i d = some (pos, P idx i d) ∧ ∀ k, k ≤ d → pos k = P idx i k := by
  intro d
  induction d with
  | zero => intro _; exact ⟨_, rfl, fun k hk => by have : k = 0 := by omega
                                                   subst this; rfl⟩
  | succ d ih =>
    intro hd
    obtain ⟨pos, h1, h2⟩ := ih (by omega)
    have ho := h.offOK d (by omega)
    have hlt := P_lt h hi d (by omega)
    have hc := countP_sorted (idx (d + 1)) (P idx i d : Int) ho.incr
    have hle := List.countP_le_length (p := fun e => decide (e.2 ≤ (P idx i d : Int))) (l := idx (d + 1))
    obtain ⟨e, he, _, _⟩ := par_spec ho hlt
    obtain ⟨hpl, hpe⟩ := List.getElem?_eq_some_iff.1 he
    have hub : upperBound Prod.snd (idx (d + 1)) 0 (idx (d + 1)).length (P idx i d : Int) =
        some ((idx (d + 1)).countP (fun e => decide (e.2 ≤ (P idx i d : Int)))) := by
      have := upperBound_spec Prod.snd [] ((idx (d + 1)).take ((idx (d + 1)).countP (fun e => decide (e.2 ≤ (P idx i d : Int)))))
        ((idx (d + 1)).drop ((idx (d + 1)).countP (fun e => decide (e.2 ≤ (P idx i d : Int))))) [] (P idx i d : Int)
        (by intro p hp
            obtain ⟨j, hj, rfl⟩ := List.mem_iff_getElem.1 hp
            rw [List.length_take] at hj
            rw [List.getElem_take]
            rw [hc j _ (List.getElem?_eq_getElem (by omega))]
            omega)
        (by intro p hp
            obtain ⟨j, hj, rfl⟩ := List.mem_iff_getElem.1 hp
            rw [List.length_drop] at hj
            rw [List.getElem_drop]
            have := hc ((idx (d + 1)).countP (fun e => decide (e.2 ≤ (P idx i d : Int))) + j) _
              (List.getElem?_eq_getElem (by omega))
            omega)
      simp only [List.nil_append, List.append_nil, List.take_append_drop, List.length_nil, Nat.zero_add] at this
      rw [this, List.length_take, Nat.min_eq_left hle]
    have hpos : 0 < (idx (d + 1)).countP (fun e => decide (e.2 ≤ (P idx i d : Int))) := by
      have := (hc _ e he).1 ‹_›
      omega
    refine ⟨fun k => if k = d + 1 then P idx i (d + 1) else pos k, ?_, ?_⟩
    · rw [singleOffset, h1]
      simp only [Option.bind_eq_bind, Option.bind_some, hub]
      have : toPos (((idx (d + 1)).countP (fun e => decide (e.2 ≤ (P idx i d : Int))) : Nat) - 1 : Int) = some (P idx i (d + 1)) := by
        unfold toPos
        rw [if_pos (by omega)]
        congr 1
        show _ = par _ _
        unfold par
        omega
      rw [this]
      simp
    · intro k hk
      simp only
      split
      · rename_i hk'; rw [hk']
      · exact h2 k (by omega)

theorem siEq_end_refl (n : Nat) (idx : Idx) : siEq n (siEnd idx) (siEnd idx) = true := by
  simp [siEq]

theorem siAt_spec {n : Nat} {idx : Idx} {t : Tree n} (h : Rep n idx t) (i : Nat) :
    ∃ it, siAt n idx i = some it ∧ (i < (idx 0).length → At n idx (fun _ => 0) 0 i it) ∧
      ((idx 0).length ≤ i → siEq n it (siEnd idx) = true) := by
  unfold siAt numStreaks
  by_cases h0 : i = 0
  · subst h0
    rw [if_pos rfl]
    obtain ⟨it, h1, h2, h3⟩ := siBegin_spec h (fun _ => 0) 0
    exact ⟨it, h1, h2, fun hh => h3 (by omega)⟩
  · rw [if_neg h0]
    by_cases hl : (idx 0).length ≤ i
    · rw [if_pos hl]
      exact ⟨_, rfl, by omega, fun _ => siEq_end_refl n idx⟩
    · rw [if_neg hl]
      have hi : i < (idx 0).length := by omega
      obtain ⟨pos, h1, h2⟩ := singleOffset_spec h hi n (Nat.le_refl _)
      rw [h1]
      simp only [Option.bind_eq_bind, Option.bind_some]
      rw [construct_spec n idx _ _ pos i h2 (P_lt h hi)]
      exact ⟨_, rfl, fun _ => ⟨h2, rfl⟩, by omega⟩

/-- Iterating from a state that points to streak `i` yields the remaining streaks. -/
theorem loop_from {n : Nat} {idx : Idx} {t : Tree n} (h : Rep n idx t) (i : Nat) (it : SIter)
    (h1 : i < (idx 0).length → At n idx (fun _ => 0) 0 i it) (h2 : (idx 0).length ≤ i → siEq n it (siEnd idx) = true) :
    streakLoop n idx (fun _ => 0) 0 ((idx 0).length + 1) it =
      some (((List.range (idx 0).length).map (streakAt n idx)).drop i) := by
  by_cases hi : i ≤ (idx 0).length
  · rw [streakLoop_spec h (fun _ => 0) 0 ((idx 0).length - i) i it _ (by omega) (by omega) (fun _ => h1 (by omega))
      (fun _ => h2 (by omega))]
    congr 1
    apply List.ext_getElem
    · simp
    · intro j hj hj'
      simp [shiftS_zero]
  · rw [streakLoop, if_pos (h2 (by omega))]
    congr 1
    symm
    apply List.drop_eq_nil_of_le
    simp; omega

/-! ## planes -/

/-- The sequence of positions visited when descending from entry `i` of level `n` via first children. -/
def QPos (idx : Idx) (n : Nat) (pos : Nat → Nat) : Prop :=
  ∀ k, k < n → ∃ e, (idx (k + 1))[pos (k + 1)]? = some e ∧ e.2 = (pos k : Int)

theorem planeDown_spec {n : Nat} {idx : Idx} {t : Tree n} (h : Rep n idx t) :
    ∀ (d : Nat) (pos : Nat → Nat), d ≤ n → pos d < (idx d).length →
      ∃ pos', planeDown idx d pos = some pos' ∧ (∀ k, d ≤ k → pos' k = pos k) ∧ (∀ k, k ≤ d → pos' k < (idx k).length) ∧
        QPos idx d pos' := by
  intro d
  induction d with
  | zero =>
    intro pos _ hp
    exact ⟨pos, rfl, fun _ _ => rfl, fun k hk => by have : k = 0 := by omega
                                                    subst this; exact hp, fun k hk => by omega⟩
  | succ d ih =>
    intro pos hd hp
    have ho := h.offOK d (by omega)
    have hb := ho.bnd _ (List.getElem_mem hp)
    have htp : toPos (idx (d + 1))[pos (d + 1)].2 = some (idx (d + 1))[pos (d + 1)].2.toNat := by
      unfold toPos; rw [if_pos hb.1]
    obtain ⟨pos', h1, h2, h3, h4⟩ := ih (fun k => if k = d then (idx (d + 1))[pos (d + 1)].2.toNat else pos k) (by omega)
      (by simp only [if_pos]; omega)
    have e1 : pos' (d + 1) = pos (d + 1) := by rw [h2 (d + 1) (by omega)]; simp
    have e2 : pos' d = (idx (d + 1))[pos (d + 1)].2.toNat := by rw [h2 d (by omega)]; simp
    refine ⟨pos', ?_, ?_, ?_, ?_⟩
    · rw [planeDown, List.getElem?_eq_getElem hp]
      simp only [Option.bind_eq_bind, Option.bind_some, htp]
      exact h1
    · intro k hk
      rw [h2 k (by omega), if_neg (by omega)]
    · intro k hk
      by_cases hk' : k = d + 1
      · subst hk'; rw [e1]; exact hp
      · exact h3 k (by omega)
    · intro k hk
      by_cases hk' : k = d
      · subst hk'
        exact ⟨_, by rw [e1, List.getElem?_eq_getElem hp], by rw [e2]; omega⟩
      · exact h4 k (by omega)

theorem par_lt_iff {v : IVec} {L : Nat} (h : OffOK v L) {p j : Nat} {e : IPair} (hp : p < L) (he : v[j]? = some e) :
    par v p < j ↔ (p : Int) < e.2 := by
  have hc := countP_sorted v p h.incr j e he
  obtain ⟨e0, h1, h2, _⟩ := par_spec h hp
  have hc0 := (countP_sorted v p h.incr _ e0 h1).1 h2
  have : par v p = v.countP (fun e => decide (e.2 ≤ (p : Int))) - 1 := rfl
  omega

theorem QPos_P {n : Nat} {idx : Idx} {t : Tree n} (h : Rep n idx t) {pos : Nat → Nat} (hq : QPos idx n pos)
    (hl : ∀ k, k ≤ n → pos k < (idx k).length) :
    (∀ k, k ≤ n → pos k = P idx (pos 0) k) ∧
    ∀ i, i < (idx 0).length → ∀ k, k ≤ n → (P idx i k < pos k ↔ i < pos 0) := by
  constructor
  · intro k
    induction k with
    | zero => intro _; rfl
    | succ k ih =>
      intro hk
      obtain ⟨e, h1, h2⟩ := hq k (by omega)
      symm
      rw [P, ← ih (by omega)]
      apply par_unique (h.offOK k (by omega)) h1
      · omega
      · intro e' he'
        have := (h.offOK k (by omega)).incr
        obtain ⟨a1, a2⟩ := List.getElem?_eq_some_iff.1 h1
        obtain ⟨b1, b2⟩ := List.getElem?_eq_some_iff.1 he'
        have := List.pairwise_iff_getElem.1 this _ _ a1 b1 (by omega)
        rw [a2, b2] at this
        omega
  · intro i hi k
    induction k with
    | zero => intro _; rfl
    | succ k ih =>
      intro hk
      obtain ⟨e, h1, h2⟩ := hq k (by omega)
      rw [P, par_lt_iff (h.offOK k (by omega)) (P_lt h hi k (by omega)) h1, h2, ← ih (by omega)]
      omega

theorem planeIt_spec {n : Nat} {idx : Idx} {t : Tree n} (h : Rep n idx t) (k : Nat) (hk : k < (idx n).length) :
    ∃ it i, planeIt n idx k = some it ∧ i < (idx 0).length ∧ At n idx (fun _ => 0) 0 i it ∧
      (∀ j, j < (idx 0).length → (P idx j n < k ↔ j < i)) ∧ P idx i n = k := by
  obtain ⟨pos, h1, h2, h3, h4⟩ := planeDown_spec h n (fun _ => k) (Nat.le_refl _) hk
  obtain ⟨h5, h6⟩ := QPos_P h h4 h3
  have hn : pos n = k := h2 n (Nat.le_refl _)
  have h7 := fun j hj => h6 j hj n (Nat.le_refl _)
  rw [hn] at h7
  have h8 := h5 n (Nat.le_refl _)
  rw [hn] at h8
  by_cases h0 : k = 0
  · obtain ⟨it, i1, i2, _⟩ := siBegin_spec h (fun _ => 0) 0
    have hp0 := h3 0 (by omega)
    have : pos 0 = 0 := by
      by_cases e : pos 0 = 0
      · exact e
      · have := (h7 0 (by omega)).2 (by omega)
        omega
    rw [this] at h7 h8 hp0
    exact ⟨it, 0, by rw [planeIt, if_pos h0, i1], hp0, i2 hp0, h7, h8.symm⟩
  · refine ⟨{ pos := pos, streak := shiftS n (fun _ => 0) 0 (streakAt n idx (pos 0)) }, pos 0, ?_, h3 0 (by omega), ⟨h5, rfl⟩, h7, h8.symm⟩
    rw [planeIt, if_neg h0, if_neg (by omega), h1]
    simp only [Option.bind_eq_bind, Option.bind_some]
    rw [construct_spec n idx _ _ pos (pos 0) h5 (P_lt h (h3 0 (by omega)))]
    rfl

/-! ## distinct values of the highest coordinate -/

theorem eraseDups_replicate_append (m : Nat) (x : Int) (l : List Int) (hm : 0 < m) (hx : x ∉ l) :
    (List.replicate m x ++ l).eraseDups = x :: l.eraseDups := by
  obtain ⟨m, rfl⟩ : ∃ m', m = m' + 1 := ⟨m - 1, by omega⟩
  rw [List.replicate_succ, List.cons_append, List.eraseDups_cons, List.filter_append]
  congr 2
  have h1 : (List.replicate m x).filter (fun b => !b == x) = [] := by
    rw [List.filter_eq_nil_iff]
    intro a ha
    rw [List.eq_of_mem_replicate ha]; simp
  have h2 : l.filter (fun b => !b == x) = l := by
    rw [List.filter_eq_self]
    intro a ha
    have : a ≠ x := fun e => hx (e ▸ ha)
    simp [this]
  rw [h1, h2]; rfl

theorem flat_nonempty (d : Nat) (t : Tree d) (h : NE d t) (h0 : topLen d t ≠ 0) : flat d t ≠ [] := by
  induction d with
  | zero =>
    cases t with
    | nil => simp [topLen] at h0
    | cons p ps => rw [flat_row_cons]; simp
  | succ d ih =>
    cases t with
    | nil => simp [topLen] at h0
    | cons p ps =>
      rw [flat_succ_cons]
      have := ih p.2 (h p (by simp)).2 (h p (by simp)).1
      simp [this]

theorem flat_keys_succ (d : Nat) (t : List (Int × Tree d)) (h : TreeOK (d + 1) t) :
    ((flat (d + 1) t).map (fun s => s.origin (d + 1))).eraseDups = t.map Prod.fst := by
  obtain ⟨hk, hs⟩ := h
  induction t with
  | nil => simp [flat, flatP, flatL]
  | cons p ps ih =>
    have hne := flat_nonempty d p.2 (NE_of_ok d p.2 (hs p (by simp)).1) (hs p (by simp)).2
    rw [flat_succ_cons, List.map_append, List.map_map]
    have h1 : (flat d p.2).map ((fun s : Streak => s.origin (d + 1)) ∘
        (fun s : Streak => { s with origin := upd s.origin (d + 1) p.1 })) = List.replicate (flat d p.2).length p.1 := by
      rw [List.eq_replicate_iff]
      refine ⟨by simp, ?_⟩
      intro b hb
      obtain ⟨s, _, rfl⟩ := List.mem_map.1 hb
      simp [upd]
    rw [h1, eraseDups_replicate_append _ _ _ (List.length_pos_iff.2 hne), ih hk.2 (fun q hq => hs q (by simp [hq]))]
    · rfl
    · intro hc
      obtain ⟨s, h3, h4⟩ := List.mem_map.1 hc
      obtain ⟨q, hq, h5⟩ := flat_top d ps s h3
      have := hk.1 q hq
      omega

theorem eraseDups_sorted (l : List Int) (h : l.Pairwise (· < ·)) : l.eraseDups = l := by
  induction l with
  | nil => rfl
  | cons x xs ih =>
    rw [List.pairwise_cons] at h
    have := eraseDups_replicate_append 1 x xs (by omega) (fun hx => by have := h.1 x hx; omega)
    simpa [ih h.2] using this

/-- The entries of the top level are the distinct values of the highest coordinate. -/
theorem Rep.keys {n : Nat} {idx : Idx} {t : Tree n} (h : Rep n idx t) :
    (((List.range (idx 0).length).map (streakAt n idx)).map (fun s => s.origin n)).eraseDups = (idx n).map Prod.fst := by
  rw [← h.flat_eq]
  cases n with
  | zero =>
    have hrow : ∀ r : List IPair, (flat 0 r).map (fun s => s.origin 0) = r.map Prod.fst := by
      intro r
      induction r with
      | nil => rfl
      | cons p ps ih => rw [flat_row_cons, List.map_cons, ih]; simp [upd]
    have h0 : idx 0 = t := by rw [h.eq 0 (by omega)]; simp [enc]
    rw [hrow, h0]
    apply eraseDups_sorted
    have hok : RowOK t := h.ok
    clear h0 hrow h
    induction t with
    | nil => exact List.Pairwise.nil
    | cons p ps ih =>
      rw [List.map_cons, List.pairwise_cons]
      refine ⟨?_, ih hok.2.2⟩
      intro x hx
      obtain ⟨q, hq, rfl⟩ := List.mem_map.1 hx
      have := hok.2.1 q hq
      have := hok.1
      omega
  | succ d =>
    rw [flat_keys_succ d t h.ok, h.eq (d + 1) (by omega), enc_offs]
    have : ∀ (l : List (Int × Tree d)) o, (offs d l o).map Prod.fst = l.map Prod.fst := by
      intro l
      induction l with
      | nil => intro _; rfl
      | cons p ps ih => intro o; simp [offs, ih]
    rw [this]

theorem Rep.keys_sorted {n : Nat} {idx : Idx} {t : Tree n} (h : Rep n idx t) :
    ((idx n).map Prod.fst).Pairwise (· < ·) := by
  cases n with
  | zero =>
    have h0 : idx 0 = t := by rw [h.eq 0 (by omega)]; simp [enc]
    rw [h0]
    have hok : RowOK t := h.ok
    clear h0 h
    induction t with
    | nil => exact List.Pairwise.nil
    | cons p ps ih =>
      rw [List.map_cons, List.pairwise_cons]
      refine ⟨?_, ih hok.2.2⟩
      intro x hx
      obtain ⟨q, hq, rfl⟩ := List.mem_map.1 hx
      have := hok.2.1 q hq
      have := hok.1
      omega
  | succ d =>
    rw [h.eq (d + 1) (by omega), enc_offs]
    have : ∀ (l : List (Int × Tree d)) o, (offs d l o).map Prod.fst = l.map Prod.fst := by
      intro l
      induction l with
      | nil => intro _; rfl
      | cons p ps ih => intro o; simp [offs, ih]
    rw [this]
    have hk := h.ok.1
    clear h
    induction t with
    | nil => exact List.Pairwise.nil
    | cons p ps ih =>
      rw [List.map_cons, List.pairwise_cons]
      refine ⟨?_, ih hk.2⟩
      intro x hx
      obtain ⟨q, hq, rfl⟩ := List.mem_map.1 hx
      exact hk.1 q hq

theorem dropWhile_eq_drop {α : Type} (l : List α) (f : α → Bool) (i : Nat)
    (h : ∀ j (hj : j < l.length), f l[j] = true ↔ j < i) : l.dropWhile f = l.drop i := by
  induction l generalizing i with
  | nil => simp
  | cons a as ih =>
    have h0 := h 0 (by simp)
    simp only [List.getElem_cons_zero] at h0
    cases i with
    | zero =>
      have : f a = false := by
        cases hf : f a with
        | false => rfl
        | true => have := h0.1 hf; omega
      simp [List.dropWhile_cons, this]
    | succ i =>
      have : f a = true := h0.2 (by omega)
      rw [List.dropWhile_cons, if_pos this, List.drop_succ_cons]
      apply ih
      intro j hj
      have := h (j + 1) (by simpa using hj)
      simp only [List.getElem_cons_succ] at this
      rw [this]; omega

theorem plane_dropWhile {n : Nat} {idx : Idx} {t : Tree n} (h : Rep n idx t) (k i : Nat) (hk : k < (idx n).length)
    (hi : ∀ j, j < (idx 0).length → (P idx j n < k ↔ j < i)) :
    ((List.range (idx 0).length).map (streakAt n idx)).dropWhile (fun s => decide (s.origin n < ((idx n)[k]).1)) =
      ((List.range (idx 0).length).map (streakAt n idx)).drop i := by
  apply dropWhile_eq_drop
  intro j hj
  simp only [List.length_map, List.length_range] at hj
  rw [← hi j hj]
  have hlt := P_lt h hj n (Nat.le_refl _)
  simp only [List.getElem_map, List.getElem_range, decide_eq_true_eq, streakAt, Nat.le_refl, if_true,
    List.getElem?_eq_getElem hlt, Option.getD_some]
  have hs := h.keys_sorted
  rw [List.pairwise_map] at hs
  rw [List.pairwise_iff_getElem] at hs
  constructor
  · intro hh
    apply Classical.byContradiction
    intro hc
    by_cases e : k = P idx j n
    · subst e; omega
    · have := hs k (P idx j n) hk hlt (by omega)
      omega
  · intro hh
    exact hs _ _ hlt hk hh

end LGD
