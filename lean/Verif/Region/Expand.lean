import Verif.Region.SetOps
import Verif.Region.ExpandModel

/-!
# Region: expansion, proofs
-/

namespace LGD

theorem RMem_congr {n : Nat} {idx : Idx} (h : RegOK n idx) {c c' : Crd} (hc : ∀ k, k ≤ n → c k = c' k) :
    RMem n idx c ↔ RMem n idx c' := by
  obtain ⟨l, h1, h2, h3⟩ := toVector_spec h
  rw [h3.mem, h3.mem]
  have key : ∀ a b : Crd, (∀ k, k ≤ n → a k = b k) → ∀ s, SMem n s a → SMem n s b := by
    rintro a b hab s ⟨x, y⟩
    exact ⟨fun k k1 k2 => by rw [← hab k k2]; exact x k k1 k2, by rw [← hab 0 (by omega)]; exact y⟩
  constructor
  · rintro ⟨s, a, b⟩; exact ⟨s, a, key c c' hc s b⟩
  · rintro ⟨s, a, b⟩; exact ⟨s, a, key c' c (fun k hk => (hc k hk).symm) s b⟩

theorem SMem_shiftS (n : Nat) (off : Crd) (al : Int) (s : Streak) (c : Crd) :
    SMem n (shiftS n off al s) c ↔ (∀ k, 1 ≤ k → k ≤ n → c k - off k = s.origin k) ∧
      s.origin 0 ≤ c 0 - off 0 ∧ c 0 - off 0 < s.endX + al := by
  unfold SMem shiftS
  simp only
  constructor
  · rintro ⟨h1, h2, h3⟩
    refine ⟨fun k k1 k2 => ?_, ?_, by omega⟩
    · have := h1 k k1 k2; rw [if_pos k2] at this; omega
    · rw [if_pos (by omega)] at h2; omega
  · rintro ⟨h1, h2, h3⟩
    refine ⟨fun k k1 k2 => ?_, ?_, by omega⟩
    · have := h1 k k1 k2; rw [if_pos k2]; omega
    · rw [if_pos (by omega)]; omega

/-- `al ≥ 0` extra cells at the right end: the Minkowski sum with `[0, al]` in x-direction, moved by `off`. -/
theorem allStreaks_spec {n : Nat} {idx : Idx} (h : RegOK n idx) (off : Crd) (al : Int) (hal : 0 ≤ al) :
    ∃ l, allStreaks n idx off al = some l ∧
      ∀ c, U n l c ↔ ∃ a, 0 ≤ a ∧ a ≤ al ∧ RMem n idx (upd (fun k => c k - off k) 0 (c 0 - off 0 - a)) := by
  obtain ⟨t, ht⟩ := h
  refine ⟨_, allStreaks_eq ht off al, fun c => ?_⟩
  have hcan := ht.canon
  simp only [U, List.mem_map, List.mem_range]
  constructor
  · rintro ⟨s, ⟨i, hi, rfl⟩, hs⟩
    rw [SMem_shiftS] at hs
    obtain ⟨h1, h2, h3⟩ := hs
    have hmem : streakAt n idx i ∈ (List.range (idx 0).length).map (streakAt n idx) := List.mem_map.2 ⟨i, by simpa using hi, rfl⟩
    have hpos := hcan.pos _ hmem
    refine ⟨max 0 (c 0 - off 0 - ((streakAt n idx i).endX - 1)), by omega, by omega, (hcan.mem _).2 ⟨_, hmem, ?_, ?_, ?_⟩⟩
    · intro k k1 k2
      unfold upd
      rw [if_neg (by omega)]
      exact h1 k k1 k2
    · simp only [upd, if_true]; omega
    · simp only [upd, if_true]; omega
  · rintro ⟨a, h1, h2, h3⟩
    obtain ⟨s, h4, h5⟩ := (hcan.mem _).1 h3
    obtain ⟨i, hi, rfl⟩ := List.mem_map.1 h4
    refine ⟨_, ⟨i, by simpa using hi, rfl⟩, ?_⟩
    rw [SMem_shiftS]
    obtain ⟨h6, h7, h8⟩ := h5
    simp only [upd, if_true] at h7 h8
    refine ⟨?_, by omega, by omega⟩
    intro k k1 k2
    have := h6 k k1 k2
    unfold upd at this
    rw [if_neg (by omega)] at this
    exact this

theorem allStreaks_shift {n : Nat} {idx : Idx} (h : RegOK n idx) (off : Crd) :
    ∃ l, allStreaks n idx off 0 = some l ∧ ∀ c, U n l c ↔ RMem n idx (fun k => c k - off k) := by
  obtain ⟨l, h1, h2⟩ := allStreaks_spec h off 0 (Int.le_refl _)
  refine ⟨l, h1, fun c => ?_⟩
  rw [h2]
  have key : upd (fun k => c k - off k) 0 (c 0 - off 0 - 0) = fun k => c k - off k := by
    funext k
    unfold upd
    split
    · rename_i hk; subst hk; omega
    · rfl
  constructor
  · rintro ⟨a, ha, hb, hc⟩
    have : a = 0 := by omega
    subst this
    rwa [key] at hc
  · intro hc
    exact ⟨0, by omega, by omega, by rwa [key]⟩

/-- moved by `-x` along axis `d` -/
def mv (d : Nat) (c : Crd) (x : Int) : Crd := upd c d (c d - x)

theorem sub_unitC (d : Nat) (c : Crd) (x : Int) : (fun k => c k - unitC d x k) = mv d c x := by
  funext k
  unfold unitC mv upd
  by_cases hk : k = d
  · subst hk; simp
  · simp [hk]

theorem mv_mv (d : Nat) (c : Crd) (x y : Int) : mv d (mv d c x) y = mv d c (x + y) := by
  funext k
  unfold mv upd
  by_cases hk : k = d
  · subst hk; simp only [if_true]; omega
  · simp [hk]

theorem mv_zero (d : Nat) (c : Crd) : mv d c 0 = c := by
  funext k
  unfold mv upd
  by_cases hk : k = d
  · subst hk; simp
  · simp [hk]

/-- coordinates within distance `h` of `S` along axis `d` -/
def Win (d : Nat) (S : Crd → Prop) (h : Int) (c : Crd) : Prop := ∃ x, -h ≤ x ∧ x ≤ h ∧ S (mv d c x)

theorem merge3_shift {n : Nat} {acc : Idx} (h : RegOK n acc) (d : Nat) (w : Int) :
    ∃ l1 l2 l3 r, allStreaks n acc (unitC d (-w)) 0 = some l1 ∧ allStreaks n acc (fun _ => 0) 0 = some l2 ∧
      allStreaks n acc (unitC d w) 0 = some l3 ∧ merge3 n emptyIdx l1 l2 l3 = some r ∧ RegOK n r ∧
      ∀ c, RMem n r c ↔ RMem n acc (mv d c (-w)) ∨ RMem n acc c ∨ RMem n acc (mv d c w) := by
  obtain ⟨l1, a1, b1⟩ := allStreaks_shift h (unitC d (-w))
  obtain ⟨l2, a2, b2⟩ := allStreaks_shift h (fun _ => 0)
  obtain ⟨l3, a3, b3⟩ := allStreaks_shift h (unitC d w)
  obtain ⟨r, h1, h2, h3⟩ := merge3_spec n emptyIdx l1 l2 l3 (regOK_empty n)
  refine ⟨l1, l2, l3, r, a1, a2, a3, h1, h2, fun c => ?_⟩
  rw [h3, b1, b2, b3, sub_unitC, sub_unitC]
  have h0 : (fun k => c k - (fun _ => (0 : Int)) k) = c := by funext k; simp
  rw [h0]
  have := regEmpty_mem n c
  tauto

theorem merge2_shift {n : Nat} {acc : Idx} (h : RegOK n acc) (d : Nat) (w : Int) :
    ∃ l1 l3 r, allStreaks n acc (unitC d (-w)) 0 = some l1 ∧
      allStreaks n acc (unitC d w) 0 = some l3 ∧ merge2 n emptyIdx l1 l3 = some r ∧ RegOK n r ∧
      ∀ c, RMem n r c ↔ RMem n acc (mv d c (-w)) ∨ RMem n acc (mv d c w) := by
  obtain ⟨l1, a1, b1⟩ := allStreaks_shift h (unitC d (-w))
  obtain ⟨l3, a3, b3⟩ := allStreaks_shift h (unitC d w)
  obtain ⟨r, h1, h2, h3⟩ := merge2_spec n emptyIdx l1 l3 (regOK_empty n)
  refine ⟨l1, l3, r, a1, a3, h1, h2, fun c => ?_⟩
  rw [h3, b1, b3, sub_unitC, sub_unitC]
  have := regEmpty_mem n c
  tauto

theorem win_shift {d : Nat} {S : Crd → Prop} {h w : Int} {c : Crd} : Win d S h (mv d c w) ↔ ∃ x, w - h ≤ x ∧ x ≤ w + h ∧ S (mv d c x) := by
  unfold Win
  constructor
  · rintro ⟨x, h1, h2, h3⟩
    rw [mv_mv] at h3
    exact ⟨w + x, by omega, by omega, h3⟩
  · rintro ⟨x, h1, h2, h3⟩
    refine ⟨x - w, by omega, by omega, ?_⟩
    rw [mv_mv]
    have : w + (x - w) = x := by omega
    rwa [this]

theorem expandLoop_spec (n d : Nat) (S : Crd → Prop) (r : Int) (hr : 0 ≤ r) (fuel : Nat) (h : Int) (acc : Idx) (h0 : 0 ≤ h)
    (hhr : h ≤ r) (hf : r < h + fuel) (hok : RegOK n acc) (hacc : ∀ c, RMem n acc c ↔ Win d S h c) :
    ∃ acc' h', expandLoop n d (2 * r + 1) fuel (2 * h + 1) acc = some (acc', 2 * h' + 1) ∧ 0 ≤ h' ∧ h' ≤ r ∧ r ≤ 3 * h' + 1 ∧
      RegOK n acc' ∧ ∀ c, RMem n acc' c ↔ Win d S h' c := by
  induction fuel generalizing h acc with
  | zero => omega
  | succ fuel ih =>
    rw [expandLoop]
    by_cases hw : 2 * h + 1 < (2 * r + 1 + 2) / 3
    · rw [if_pos hw]
      obtain ⟨l1, l2, l3, acc', a1, a2, a3, a4, a5, a6⟩ := merge3_shift hok d (2 * h + 1)
      rw [a1, a2, a3, Option.bind_some, Option.bind_some, Option.bind_some, a4, Option.bind_some]
      have e : (2 * h + 1) * 3 = 2 * (3 * h + 1) + 1 := by omega
      rw [e]
      apply ih (3 * h + 1) acc' (by omega) (by omega) (by omega) a5
      intro c
      rw [a6, hacc, hacc, hacc, win_shift, win_shift]
      unfold Win
      constructor
      · rintro (⟨x, x1, x2, x3⟩ | ⟨x, x1, x2, x3⟩ | ⟨x, x1, x2, x3⟩)
        · exact ⟨x, by omega, by omega, x3⟩
        · exact ⟨x, by omega, by omega, x3⟩
        · exact ⟨x, by omega, by omega, x3⟩
      · rintro ⟨x, x1, x2, x3⟩
        by_cases c1 : x < -h
        · exact Or.inl ⟨x, by omega, by omega, x3⟩
        · by_cases c2 : x ≤ h
          · exact Or.inr (Or.inl ⟨x, by omega, by omega, x3⟩)
          · exact Or.inr (Or.inr ⟨x, by omega, by omega, x3⟩)
    · rw [if_neg hw]
      exact ⟨acc, h, rfl, h0, hhr, by omega, hok, hacc⟩

theorem expandDim_spec (n d : Nat) (r : Int) (hr : 0 ≤ r) (acc : Idx) (hok : RegOK n acc) :
    ∃ acc', expandDim n d r acc = some acc' ∧ RegOK n acc' ∧ ∀ c, RMem n acc' c ↔ Win d (RMem n acc) r c := by
  unfold expandDim
  obtain ⟨acc1, h, h1, h2, h3, h4, h5, h6⟩ := expandLoop_spec n d (RMem n acc) r hr (r.toNat + 1) 0 acc (by omega) hr (by omega) hok
    (by
      intro c
      unfold Win
      constructor
      · intro hc; exact ⟨0, by omega, by omega, by rwa [mv_zero]⟩
      · rintro ⟨x, x1, x2, x3⟩
        have : x = 0 := by omega
        subst this
        rwa [mv_zero] at x3)
  simp only [Int.mul_zero, Int.zero_add] at h1
  rw [h1, Option.bind_some]
  simp only
  by_cases hw : 2 * h + 1 < 2 * r + 1
  · rw [if_pos hw]
    have eo : r - (2 * h + 1) / 2 = r - h := by omega
    rw [eo]
    by_cases hw2 : (2 * h + 1) * 2 < 2 * r + 1
    · rw [if_pos hw2]
      obtain ⟨l1, l2, l3, acc', a1, a2, a3, a4, a5, a6⟩ := merge3_shift h5 d (r - h)
      rw [a1, a2, a3, Option.bind_some, Option.bind_some, Option.bind_some, a4]
      refine ⟨acc', rfl, a5, fun c => ?_⟩
      rw [a6, h6, h6, h6, win_shift, win_shift]
      unfold Win
      constructor
      · rintro (⟨x, x1, x2, x3⟩ | ⟨x, x1, x2, x3⟩ | ⟨x, x1, x2, x3⟩)
        · exact ⟨x, by omega, by omega, x3⟩
        · exact ⟨x, by omega, by omega, x3⟩
        · exact ⟨x, by omega, by omega, x3⟩
      · rintro ⟨x, x1, x2, x3⟩
        by_cases c1 : x < -h
        · exact Or.inl ⟨x, by omega, by omega, x3⟩
        · by_cases c2 : x ≤ h
          · exact Or.inr (Or.inl ⟨x, by omega, by omega, x3⟩)
          · exact Or.inr (Or.inr ⟨x, by omega, by omega, x3⟩)
    · rw [if_neg hw2]
      obtain ⟨l1, l3, acc', a1, a3, a4, a5, a6⟩ := merge2_shift h5 d (r - h)
      rw [a1, a3, Option.bind_some, Option.bind_some, a4]
      refine ⟨acc', rfl, a5, fun c => ?_⟩
      rw [a6, h6, h6, win_shift, win_shift]
      unfold Win
      constructor
      · rintro (⟨x, x1, x2, x3⟩ | ⟨x, x1, x2, x3⟩)
        · exact ⟨x, by omega, by omega, x3⟩
        · exact ⟨x, by omega, by omega, x3⟩
      · rintro ⟨x, x1, x2, x3⟩
        by_cases c1 : x ≤ -(r - h) + h
        · exact Or.inl ⟨x, by omega, by omega, x3⟩
        · exact Or.inr ⟨x, by omega, by omega, x3⟩
  · rw [if_neg hw]
    have : h = r := by omega
    subst this
    exact ⟨acc1, rfl, h5, h6⟩

/-- coordinates within the box of `radii` around `S`, restricted to axes `≤ m` -/
def Near (m : Nat) (S : Crd → Prop) (radii : Crd) (c : Crd) : Prop :=
  ∃ c0, S c0 ∧ (∀ k, k ≤ m → c k - radii k ≤ c0 k ∧ c0 k ≤ c k + radii k) ∧ ∀ k, m < k → c0 k = c k

theorem expandDims_spec (n : Nat) (radii : Crd) (hr : ∀ k, k ≤ n → 0 ≤ radii k) (S : Crd → Prop) (m : Nat) (hm : m ≤ n) (acc : Idx)
    (hok : RegOK n acc) (hacc : ∀ c, RMem n acc c ↔ Near 0 S radii c) :
    ∃ acc', expandDims n radii m acc = some acc' ∧ RegOK n acc' ∧ ∀ c, RMem n acc' c ↔ Near m S radii c := by
  induction m with
  | zero => exact ⟨acc, rfl, hok, hacc⟩
  | succ m ih =>
    obtain ⟨a1, h1, h2, h3⟩ := ih (by omega)
    obtain ⟨a2, h4, h5, h6⟩ := expandDim_spec n (m + 1) (radii (m + 1)) (hr _ hm) a1 h2
    refine ⟨a2, by rw [expandDims, h1, Option.bind_some, h4], h5, fun c => ?_⟩
    rw [h6]
    unfold Win
    simp only [h3]
    unfold Near
    constructor
    · rintro ⟨x, x1, x2, c0, y1, y2, y3⟩
      refine ⟨c0, y1, fun k hk => ?_, fun k hk => ?_⟩
      · by_cases e : k = m + 1
        · subst e
          have := y3 (m + 1) (by omega)
          simp only [mv, upd, if_true] at this
          omega
        · have := y2 k (by omega)
          simp only [mv, upd, e, if_false] at this
          exact this
      · have := y3 k (by omega)
        simp only [mv, upd] at this
        rw [if_neg (by omega)] at this
        exact this
    · rintro ⟨c0, y1, y2, y3⟩
      have := y2 (m + 1) (by omega)
      refine ⟨c (m + 1) - c0 (m + 1), by omega, by omega, c0, y1, fun k hk => ?_, fun k hk => ?_⟩
      · have := y2 k (by omega)
        simp only [mv, upd]
        rw [if_neg (by omega)]
        exact this
      · simp only [mv, upd]
        by_cases e : k = m + 1
        · subst e; simp only [if_true]; omega
        · rw [if_neg e]; exact y3 k (by omega)

theorem expand_spec (n : Nat) (idx : Idx) (radii : Crd) (hr : ∀ k, k ≤ n → 0 ≤ radii k) (hok : RegOK n idx) :
    ∃ r, expand n idx radii = some r ∧ RegOK n r ∧
      ∀ c, RMem n r c ↔ ∃ c0, RMem n idx c0 ∧ ∀ k, k ≤ n → c k - radii k ≤ c0 k ∧ c0 k ≤ c k + radii k := by
  unfold expand
  have h0 := hr 0 (by omega)
  obtain ⟨l, h1, h2⟩ := allStreaks_spec hok (unitC 0 (-radii 0)) (radii 0 * 2) (by omega)
  obtain ⟨acc, h3, h4, h5⟩ := insAll_spec n l emptyIdx (regOK_empty n)
  rw [h1, Option.bind_some, h3, Option.bind_some]
  have hbase : ∀ c, RMem n acc c ↔ Near 0 (RMem n idx) radii c := by
    intro c
    rw [h5, h2]
    have he := regEmpty_mem n c
    unfold Near
    have hun : ∀ a : Int, upd (fun k => c k - unitC 0 (-radii 0) k) 0 (c 0 - unitC 0 (-radii 0) 0 - a) = upd c 0 (c 0 + radii 0 - a) := by
      intro a
      funext k
      unfold upd unitC upd
      by_cases hk : k = 0
      · subst hk; simp only [if_true]; omega
      · simp [hk]
    constructor
    · rintro (h | ⟨a, a1, a2, a3⟩)
      · exact absurd h he
      · rw [hun] at a3
        refine ⟨_, a3, fun k hk => ?_, fun k hk => ?_⟩
        · have : k = 0 := by omega
          subst this
          simp only [upd, if_true]
          omega
        · simp only [upd]; rw [if_neg (by omega)]
    · rintro ⟨c0, y1, y2, y3⟩
      right
      have := y2 0 (by omega)
      refine ⟨c 0 + radii 0 - c0 0, by omega, by omega, ?_⟩
      rw [hun]
      have e : upd c 0 (c 0 + radii 0 - (c 0 + radii 0 - c0 0)) = c0 := by
        funext k
        unfold upd
        by_cases hk : k = 0
        · subst hk; simp only [if_true]; omega
        · rw [if_neg hk]; exact (y3 k (by omega)).symm
      rw [e]; exact y1
  obtain ⟨r, h6, h7, h8⟩ := expandDims_spec n radii hr (RMem n idx) n (Nat.le_refl _) acc h4 hbase
  refine ⟨r, h6, h7, fun c => ?_⟩
  rw [h8]
  unfold Near
  constructor
  · rintro ⟨c0, y1, y2, _⟩; exact ⟨c0, y1, y2⟩
  · rintro ⟨c0, y1, y2⟩
    refine ⟨fun k => if k ≤ n then c0 k else c k, ?_, fun k hk => ?_, fun k hk => ?_⟩
    · refine (RMem_congr hok ?_).2 y1
      intro k hk; simp [hk]
    · simp only [hk, if_true]; exact y2 k hk
    · exact if_neg (by omega)

theorem stencilLoop_spec (n : Nat) (idx : Idx) (hok : RegOK n idx) (ss : List Streak) (hpos : ∀ s ∈ ss, s.origin 0 < s.endX)
    (cur : Idx) (hcur : RegOK n cur) :
    ∃ r, stencilLoop n idx ss cur = some r ∧ RegOK n r ∧
      ∀ c, RMem n r c ↔ RMem n cur c ∨ ∃ d, U n ss d ∧ RMem n idx (fun k => c k - d k) := by
  induction ss generalizing cur with
  | nil => exact ⟨cur, rfl, hcur, fun c => by simp [U]⟩
  | cons s ss ih =>
    have hs := hpos s (by simp)
    obtain ⟨l1, a1, _, a3⟩ := toVector_spec hcur
    obtain ⟨l2, b1, b2⟩ := allStreaks_spec hok s.origin (s.endX - s.origin 0 - 1) (by omega)
    obtain ⟨acc, c1, c2, c3⟩ := merge2_spec n emptyIdx l1 l2 (regOK_empty n)
    obtain ⟨r, d1, d2, d3⟩ := ih (fun s hs => hpos s (by simp [hs])) acc c2
    refine ⟨r, by rw [stencilLoop, a1, Option.bind_some, b1, Option.bind_some, c1, Option.bind_some, d1], d2, fun c => ?_⟩
    rw [d3, c3, ← a3.memU, b2]
    have he := regEmpty_mem n c
    simp only [U_cons]
    constructor
    · rintro ((h | h | ⟨a, a1, a2, a3⟩) | ⟨d, h, h'⟩)
      · exact absurd h he
      · exact Or.inl h
      · refine Or.inr ⟨upd s.origin 0 (s.origin 0 + a), Or.inl ⟨?_, ?_, ?_⟩, ?_⟩
        · intro k k1 k2; unfold upd; rw [if_neg (by omega)]
        · simp only [upd, if_true]; omega
        · simp only [upd, if_true]; omega
        · have e : (fun k => c k - upd s.origin 0 (s.origin 0 + a) k) = upd (fun k => c k - s.origin k) 0 (c 0 - s.origin 0 - a) := by
            funext k
            unfold upd
            by_cases hk : k = 0
            · subst hk; simp only [if_true]; omega
            · simp [hk]
          rw [e]; exact a3
      · exact Or.inr ⟨d, Or.inr h, h'⟩
    · rintro (h | ⟨d, h | h, h'⟩)
      · exact Or.inl (Or.inr (Or.inl h))
      · refine Or.inl (Or.inr (Or.inr ⟨d 0 - s.origin 0, ?_, ?_, ?_⟩))
        · have := h.2.1; omega
        · have := h.2.2; omega
        · refine (RMem_congr hok ?_).1 h'
          intro k hk
          unfold upd
          by_cases hk0 : k = 0
          · subst hk0; simp only [if_true]; omega
          · rw [if_neg hk0, h.1 k (by omega) hk]
      · exact Or.inr ⟨d, h, h'⟩

theorem expandWithStencil_spec (n : Nat) (idx : Idx) (hok : RegOK n idx) (stencil : List Crd) :
    ∃ r, expandWithStencil n idx stencil = some r ∧ RegOK n r ∧
      ∀ c, RMem n r c ↔ ∃ d ∈ stencil, RMem n idx (fun k => c k - d k) := by
  unfold expandWithStencil
  obtain ⟨st, h1, h2, h3⟩ := insAll_spec n (stencil.map (fun c => { origin := c, endX := c 0 + 1 })) emptyIdx (regOK_empty n)
  obtain ⟨ss, h4, _, h5⟩ := toVector_spec h2
  obtain ⟨r, h6, h7, h8⟩ := stencilLoop_spec n idx hok ss h5.pos emptyIdx (regOK_empty n)
  refine ⟨r, by rw [h1, Option.bind_some, h4, Option.bind_some, h6], h7, fun c => ?_⟩
  rw [h8]
  have he := regEmpty_mem n c
  constructor
  · rintro (h | ⟨d, h, h'⟩)
    · exact absurd h he
    · rw [← h5.memU, h3] at h
      rcases h with h | ⟨s, hs, hs'⟩
      · exact absurd h (regEmpty_mem n d)
      · obtain ⟨d', hd', rfl⟩ := List.mem_map.1 hs
        rw [SMem_single] at hs'
        refine ⟨d', hd', (RMem_congr hok ?_).1 h'⟩
        intro k hk
        rw [hs' k hk]
  · rintro ⟨d, h, h'⟩
    refine Or.inr ⟨d, ?_, h'⟩
    rw [← h5.memU, h3]
    exact Or.inr ⟨_, List.mem_map.2 ⟨d, h, rfl⟩, (SMem_single n d d).2 (fun _ _ => rfl)⟩

end LGD
