import Verif.Region.Refine

/-!
# Region: consequences of the refinement for whole regions
-/

namespace LGD

/-- The vectors of levels `0..n` are the encoding of the canonical tree `t`. -/
structure Rep (n : Nat) (idx : Idx) (t : Tree n) : Prop where
  ok : TreeOK n t
  eq : ∀ k, k ≤ n → idx k = enc n t (fun _ => 0) k

/-- Well-formed region (every reachable region is, see `Verif.Props.C01`). -/
def RegOK (n : Nat) (idx : Idx) : Prop := ∃ t, Rep n idx t

theorem Rep.ctx {n : Nat} {idx : Idx} {t : Tree n} (h : Rep n idx t) : Ctx n t idx (fun _ => []) (fun _ => []) := by
  constructor
  · intro k hk
    simpa using h.eq k hk
  · intro k _
    exact ⟨fun _ => rfl, fun p ps hp => by simp at hp⟩

theorem Rep.len {n : Nat} {idx : Idx} {t : Tree n} (h : Rep n idx t) : (idx n).length = topLen n t := by
  rw [h.eq n (Nat.le_refl _), enc_len, cnt_top]

theorem rep_empty (n : Nat) : Rep n emptyIdx (emptyT n) :=
  ⟨emptyT_ok n, fun k _ => by rw [enc_empty]; rfl⟩

theorem enc_len0 (n : Nat) (t : Tree n) (ht : TreeOK n t) : cnt n t 0 = 0 → topLen n t = 0 := by
  induction n with
  | zero => intro h; rw [cnt_top] at h; exact h
  | succ n ih =>
    intro h
    match t, ht, h with
    | [], _, _ => rfl
    | p :: ps, ht, h =>
      exfalso
      rw [cnt_cons] at h
      simp only [show (0 : Nat) ≠ n + 1 by omega, if_false] at h
      have := ht.2 p (by simp)
      exact this.2 (ih p.2 this.1 (by omega))

theorem Rep.empty_iff {n : Nat} {idx : Idx} {t : Tree n} (h : Rep n idx t) : (idx 0).length = 0 ↔ t = emptyT n := by
  rw [← topLen_eq_zero, h.eq 0 (by omega), enc_len]
  constructor
  · exact enc_len0 n t h.ok
  · intro h0; rw [(topLen_eq_zero n t).1 h0, cnt_empty]

theorem rep_insert {n : Nat} {idx : Idx} {t : Tree n} (h : Rep n idx t) (s : Streak) (hs : s.origin 0 < s.endX) :
    ∃ idx', regInsert n idx s = some idx' ∧ Rep n idx' (insT n t s) := by
  obtain ⟨idx', h1, h2, _⟩ := insertHelper_spec n t idx _ _ s hs h.ok h.ctx
  refine ⟨idx', ?_, (insT_spec n t s hs h.ok).1, ?_⟩
  · unfold regInsert
    rw [if_neg (by omega), h.len]
    simp only [List.length_nil, Nat.zero_add] at h1
    rw [h1]; rfl
  · intro k hk
    rw [h2 k hk, shiftV_nil]; simp

theorem regInsert_empty (n : Nat) (idx : Idx) (s : Streak) (hs : s.endX ≤ s.origin 0) : regInsert n idx s = some idx := by
  simp [regInsert, hs]

theorem rep_remove {n : Nat} {idx : Idx} {t : Tree n} (h : Rep n idx t) (s : Streak) (hs : s.origin 0 < s.endX) :
    ∃ idx', regRemove n idx s = some idx' ∧ Rep n idx' (remT n t s) := by
  by_cases he : (idx 0).length = 0
  · have ht := h.empty_iff.1 he
    refine ⟨idx, by simp [regRemove, he], ?_⟩
    have : remT n t s = t := by
      apply TreeOK_ext n _ _ (remT_spec n t s hs h.ok).1 h.ok
      intro c
      rw [(remT_spec n t s hs h.ok).2]
      constructor
      · exact fun hh => hh.1
      · intro hh; rw [ht] at hh; exact absurd hh (emptyT_mem _ _)
    rw [this]; exact h
  · obtain ⟨idx', h1, h2, _⟩ := removeHelper_spec n t idx _ _ s hs h.ok h.ctx
    refine ⟨idx', ?_, (remT_spec n t s hs h.ok).1, ?_⟩
    · unfold regRemove
      rw [if_neg (by omega), h.len]
      simp only [List.length_nil, Nat.zero_add] at h1
      rw [h1]; rfl
    · intro k hk
      rw [h2 k hk, shiftV_nil]; simp

theorem regRemove_empty (n : Nat) (idx : Idx) (s : Streak) (hs : s.endX ≤ s.origin 0) : regRemove n idx s = some idx := by
  simp [regRemove, hs]

theorem rep_count {n : Nat} {idx : Idx} {t : Tree n} (h : Rep n idx t) (s : Streak) (hs : s.origin 0 < s.endX) :
    ∃ b, regCount n idx s = some b ∧ (b = true ↔ ∀ c, SMem n s c → TMem n t c) := by
  have hne : topLen n t ≠ 0 ∨ 0 < n ∨ idx 0 = [] := by
    by_cases hn : 0 < n
    · exact Or.inr (Or.inl hn)
    · have : n = 0 := by omega
      subst this
      by_cases h0 : topLen 0 t = 0
      · exact Or.inr (Or.inr (List.length_eq_zero_iff.1 (h.len.trans h0)))
      · exact Or.inl h0
  obtain ⟨b, h1, h2⟩ := lookupHelper_spec n t idx _ _ s hs h.ok h.ctx hne
  refine ⟨b, ?_, h2⟩
  unfold regCount
  rw [h.len]
  simpa using h1

theorem SMem_single (n : Nat) (c c' : Crd) : SMem n { origin := c, endX := c 0 + 1 } c' ↔ ∀ k, k ≤ n → c' k = c k := by
  unfold SMem
  constructor
  · rintro ⟨h1, h2, h3⟩ k hk
    simp only at h1 h2 h3
    by_cases h : k = 0
    · subst h; omega
    · exact h1 k (by omega) hk
  · intro h
    have := h 0 (by omega)
    exact ⟨fun k h1 h2 => h k h2, by simp only; omega, by simp only; omega⟩

theorem rep_countCoord {n : Nat} {idx : Idx} {t : Tree n} (h : Rep n idx t) (c : Crd) :
    ∃ b, regCountCoord n idx c = some b ∧ (b = true ↔ TMem n t c) := by
  obtain ⟨b, h1, h2⟩ := rep_count h { origin := c, endX := c 0 + 1 } (by simp only; omega)
  refine ⟨b, h1, h2.trans ?_⟩
  constructor
  · intro hh
    exact hh c ((SMem_single n c c).2 (fun _ _ => rfl))
  · intro hh c' hc'
    rw [SMem_single] at hc'
    exact (TMem_congr n t c c' (fun k hk => (hc' k hk).symm)).1 hh

/-- Observable membership: `count(c)` returns true. -/
def RMem (n : Nat) (idx : Idx) (c : Crd) : Prop := regCountCoord n idx c = some true

theorem Rep.mem_iff {n : Nat} {idx : Idx} {t : Tree n} (h : Rep n idx t) (c : Crd) : RMem n idx c ↔ TMem n t c := by
  obtain ⟨b, h1, h2⟩ := rep_countCoord h c
  unfold RMem
  rw [h1]
  simpa using h2

theorem rep_unique {n : Nat} {idx : Idx} {t t' : Tree n} (h : Rep n idx t) (h' : Rep n idx t') : t = t' :=
  TreeOK_ext n t t' h.ok h'.ok (fun c => (h.mem_iff c).symm.trans (h'.mem_iff c))

theorem rep_eq_iff {n : Nat} {a b : Idx} {t u : Tree n} (ha : Rep n a t) (hb : Rep n b u) :
    regEq n a b = true ↔ ∀ c, RMem n a c ↔ RMem n b c := by
  constructor
  · intro h c
    have hab : ∀ k, k ≤ n → a k = b k := by
      intro k hk
      unfold regEq at h
      rw [List.all_eq_true] at h
      simpa using h k (by simp; omega)
    have : Rep n b t := ⟨ha.ok, fun k hk => by rw [← hab k hk]; exact ha.eq k hk⟩
    rw [ha.mem_iff, this.mem_iff]
  · intro h
    have : t = u := TreeOK_ext n t u ha.ok hb.ok (fun c => ((ha.mem_iff c).symm.trans (h c)).trans (hb.mem_iff c))
    subst this
    unfold regEq
    rw [List.all_eq_true]
    intro k hk
    simp at hk
    simp [ha.eq k (by omega), hb.eq k (by omega)]

/-- Inserting always succeeds on well-formed regions. -/
theorem regInsert_spec (n : Nat) (idx : Idx) (s : Streak) (h : RegOK n idx) :
    ∃ idx', regInsert n idx s = some idx' ∧ RegOK n idx' ∧ ∀ c, RMem n idx' c ↔ RMem n idx c ∨ SMem n s c := by
  obtain ⟨t, ht⟩ := h
  by_cases hs : s.origin 0 < s.endX
  · obtain ⟨idx', h1, h2⟩ := rep_insert ht s hs
    refine ⟨idx', h1, ⟨_, h2⟩, fun c => ?_⟩
    rw [h2.mem_iff, ht.mem_iff, (insT_spec n t s hs ht.ok).2]
  · refine ⟨idx, regInsert_empty n idx s (by omega), ⟨t, ht⟩, fun c => ?_⟩
    constructor
    · exact Or.inl
    · rintro (h | ⟨_, h1, h2⟩)
      · exact h
      · omega

theorem regRemove_spec (n : Nat) (idx : Idx) (s : Streak) (h : RegOK n idx) :
    ∃ idx', regRemove n idx s = some idx' ∧ RegOK n idx' ∧ ∀ c, RMem n idx' c ↔ RMem n idx c ∧ ¬ SMem n s c := by
  obtain ⟨t, ht⟩ := h
  by_cases hs : s.origin 0 < s.endX
  · obtain ⟨idx', h1, h2⟩ := rep_remove ht s hs
    refine ⟨idx', h1, ⟨_, h2⟩, fun c => ?_⟩
    rw [h2.mem_iff, ht.mem_iff, (remT_spec n t s hs ht.ok).2]
  · refine ⟨idx, regRemove_empty n idx s (by omega), ⟨t, ht⟩, fun c => ?_⟩
    constructor
    · exact fun h => ⟨h, fun ⟨_, h1, h2⟩ => by omega⟩
    · exact fun h => h.1

theorem regEmpty_mem (n : Nat) (c : Crd) : ¬ RMem n emptyIdx c := by
  rw [(rep_empty n).mem_iff]; exact emptyT_mem n c

theorem regOK_empty (n : Nat) : RegOK n emptyIdx := ⟨_, rep_empty n⟩

end LGD
