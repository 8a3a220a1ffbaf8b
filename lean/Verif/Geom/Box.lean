import Verif.Geom.Linear
import Verif.Geom.BoxModel
import Verif.Region.SetOps
import Verif.Region.Expand

/-!
# `CoordBox` iteration, lemmas
-/

namespace LGD

/-- `k`-th coordinate of the box in iteration order -/
def boxAt (n : Nat) (o d : Crd) (k : Int) : Crd := fun j => o j + unlin d n 0 k j

theorem upd_comm (c : Crd) {i j : Nat} (h : i ≠ j) (x y : Int) : upd (upd c i x) j y = upd (upd c j y) i x := by
  funext k
  unfold upd
  by_cases h1 : k = j
  · by_cases h2 : k = i
    · omega
    · simp only [if_pos h1, if_neg h2]
  · simp only [if_neg h1]

theorem boxIncr_upd (o s : Crd) (r i j : Nat) (hj : j < i) (c : Crd) (x : Int) :
    boxIncr o s r i (upd c j x) = upd (boxIncr o s r i c) j x := by
  induction r generalizing i c with
  | zero =>
    simp only [boxIncr]
    have : upd c j x i = c i := by unfold upd; rw [if_neg (by omega)]
    rw [this, upd_comm c (by omega)]
  | succ r ih =>
    simp only [boxIncr]
    have : upd c j x i = c i := by unfold upd; rw [if_neg (by omega)]
    rw [this]
    split
    · rw [upd_comm c (by omega), ih (i + 1) (by omega)]
    · rw [upd_comm c (by omega)]

theorem boxIncr_at (o d s : Crd) (r i : Nat) (k : Int) (hs : ∀ j, i ≤ j → j < i + r → s j = o j + d j)
    (hd : ∀ j, i ≤ j → j < i + r → 0 < d j) :
    boxIncr o s r i (fun j => o j + unlin d r i k j) = fun j => o j + unlin d r i (k + 1) j := by
  induction r generalizing i k with
  | zero =>
    funext j
    simp only [boxIncr, upd, unlin]
    by_cases h : j = i
    · subst h; simp only [if_true]; omega
    · simp [h]
  | succ r ih =>
    have hdi := hd i (by omega) (by omega)
    have hsi := hs i (by omega) (by omega)
    have h0 : unlin d (r + 1) i k i = k % d i := by simp [unlin]
    have hm0 := Int.emod_nonneg k (b := d i) (by omega)
    have hml := Int.emod_lt_of_pos k hdi
    rw [boxIncr]
    simp only [h0, hsi]
    by_cases hc : o i + k % d i + 1 = o i + d i
    · rw [if_pos hc]
      have hk : k % d i = d i - 1 := by omega
      have hdiv : (k + 1) / d i = k / d i + 1 ∧ (k + 1) % d i = 0 := by
        have e := Int.emod_add_mul_ediv k (d i)
        have e2 : k + 1 = 0 + d i * (k / d i + 1) := by
          have : d i * (k / d i + 1) = d i * (k / d i) + d i := by ring
          omega
        constructor
        · rw [e2, Int.add_mul_ediv_left _ _ (by omega)]; simp
        · rw [e2, Int.add_mul_emod_self_left]; simp
      have key : upd (fun j => o j + unlin d (r + 1) i k j) i (o i) = upd (fun j => o j + unlin d r (i + 1) (k / d i) j) i (o i) := by
        funext j
        unfold upd
        by_cases h : j = i
        · simp [h]
        · simp only [if_neg h, unlin]
      rw [key, boxIncr_upd _ _ _ _ _ (by omega), ih (i + 1) (k / d i) (fun j a b => hs j (by omega) (by omega)) (fun j a b => hd j (by omega) (by omega))]
      funext j
      unfold upd
      by_cases h : j = i
      · subst h
        simp only [if_true, unlin, hdiv.2]; omega
      · simp only [if_neg h, unlin, hdiv.1]
    · rw [if_neg hc]
      have hdiv : (k + 1) / d i = k / d i ∧ (k + 1) % d i = k % d i + 1 := by
        have e := Int.emod_add_mul_ediv k (d i)
        have e2 : k + 1 = (k % d i + 1) + d i * (k / d i) := by omega
        constructor
        · conv => lhs; rw [e2]
          rw [Int.add_mul_ediv_left _ _ (by omega), Int.ediv_eq_zero_of_lt (by omega) (by omega), Int.zero_add]
        · conv => lhs; rw [e2]
          rw [Int.add_mul_emod_self_left, Int.emod_eq_of_lt (by omega) (by omega)]
      funext j
      unfold upd
      by_cases h : j = i
      · subst h
        simp only [if_true, unlin, hdiv.2]; omega
      · simp only [if_neg h, unlin, hdiv.1]

theorem crdEq_iff (n : Nat) (a b : Crd) : crdEq n a b = true ↔ ∀ k, k ≤ n → a k = b k := by
  unfold crdEq
  rw [List.all_eq_true]
  constructor
  · intro h k hk; exact of_decide_eq_true (h k (by simp; omega))
  · intro h k hk; exact decide_eq_true (h k (by simp at hk; omega))

theorem boxLoop_spec (n : Nat) (o d s last : Crd) (hs : ∀ j, j < n → s j = o j + d j) (hd : ∀ j, j < n → 0 < d j) (m : Nat)
    (hl : ∀ k : Nat, k ≤ m → (crdEq n (boxAt n o d k) last = true ↔ k = m)) (r : Nat) (hr : r ≤ m) (fuel : Nat) (hf : r < fuel) :
    boxLoop n o s last fuel (boxAt n o d ((m - r : Nat) : Int)) =
      some ((List.range r).map (fun i => boxAt n o d ((m - r + i : Nat) : Int))) := by
  induction r generalizing fuel with
  | zero =>
    cases fuel with
    | zero => omega
    | succ fuel =>
      rw [boxLoop, if_pos ((hl (m - 0) (by omega)).2 (by omega))]
      rfl
  | succ r ih =>
    cases fuel with
    | zero => omega
    | succ fuel =>
      rw [boxLoop, if_neg (by rw [hl (m - (r + 1)) (by omega)]; omega)]
      have hn : boxIncr o s n 0 (boxAt n o d ((m - (r + 1) : Nat) : Int)) = boxAt n o d ((m - r : Nat) : Int) := by
        unfold boxAt
        rw [boxIncr_at o d s n 0 _ (fun j _ h => hs j (by omega)) (fun j _ h => hd j (by omega))]
        have : ((m - (r + 1) : Nat) : Int) + 1 = ((m - r : Nat) : Int) := by omega
        rw [this]
      rw [hn, ih (by omega) fuel (by omega), Option.map_some, List.range_succ_eq_map, List.map_cons, List.map_map]
      simp only [Nat.add_zero, Option.some.injEq, List.cons.injEq, true_and]
      apply List.map_congr_left
      intro i _
      simp only [Function.comp_apply]
      congr 2
      omega

/-- relative coordinate -/
theorem boxAt_sub (n : Nat) (o d : Crd) (k : Int) (j : Nat) : boxAt n o d k j - o j = unlin d n 0 k j := by
  unfold boxAt; omega

theorem boxAt_zero (n : Nat) (o d : Crd) : boxAt n o d 0 = o := by
  have : ∀ r i j, unlin d r i 0 j = 0 := by
    intro r
    induction r with
    | zero => intro i j; simp [unlin]
    | succ r ih => intro i j; simp only [unlin, Int.zero_emod, Int.zero_ediv, ih]; split <;> rfl
  funext j
  unfold boxAt
  rw [this]; omega

/-- the digits of the end position -/
theorem lin_last (d : Crd) (r i : Nat) (x : Int) (c : Crd) (h0 : ∀ j, i ≤ j → j < i + r → c j = 0) (hx : c (i + r) = x) :
    lin (upd d (i + r) x) r i c = vol (upd d (i + r) x) r i := by
  induction r generalizing i with
  | zero => simp only [lin, vol, upd]; simp at *; exact hx
  | succ r ih =>
    have e : i + (r + 1) = i + 1 + r := by omega
    rw [lin, vol, h0 i (by omega) (by omega), Int.zero_add, e, ih (i + 1) (fun j a b => h0 j (by omega) (by omega)) (by rw [← e]; exact hx)]

theorem lin_last' (d : Crd) (r i : Nat) (c : Crd) (h0 : ∀ j, i ≤ j → j < i + r → c j = 0) (hx : c (i + r) = d (i + r)) :
    lin d r i c = vol d r i := by
  have e : upd d (i + r) (d (i + r)) = d := upd_self d (i + r)
  have := lin_last d r i (d (i + r)) c h0 hx
  rwa [e] at this

/-- Iteration over a box whose end marker is the position after the last one. -/
theorem boxCoords_spec (n : Nat) (o d s last : Crd) (hs : ∀ j, j < n → s j = o j + d j) (hd : ∀ j, j < n → 0 < d j)
    (hdn : 0 ≤ d n) (hlast : ∀ j, j ≤ n → last j = if j = n then o n + d n else o j) (fuel : Nat) (hf : (vol d n 0).toNat < fuel) :
    boxLoop n o s last fuel o = some ((List.range (vol d n 0).toNat).map (fun i : Nat => boxAt n o d (i : Int))) := by
  have hv : 0 ≤ vol d n 0 := vol_nonneg d n 0 (fun j _ h => by
    by_cases e : j = n
    · subst e; exact hdn
    · have := hd j (by omega); omega)
  have key : ∀ k : Nat, k ≤ (vol d n 0).toNat → (crdEq n (boxAt n o d k) last = true ↔ k = (vol d n 0).toNat) := by
    intro k hk
    rw [crdEq_iff]
    have hl : lin d n 0 (fun j => if j = n then d n else 0) = vol d n 0 := by
      apply lin_last'
      · intro j _ h; exact if_neg (by omega)
      · simp
    constructor
    · intro h
      have h2 : lin d n 0 (unlin d n 0 (k : Int)) = lin d n 0 (fun j => if j = n then d n else 0) := by
        apply lin_congr
        intro j _ hj
        have h3 := h j (by omega)
        rw [hlast j (by omega)] at h3
        unfold boxAt at h3
        by_cases e : j = n
        · rw [if_pos e] at h3; simp only [if_pos e]; rw [e] at h3 ⊢; omega
        · rw [if_neg e] at h3; simp only [if_neg e]; omega
      rw [lin_unlin, hl] at h2
      omega
    · intro h j hj
      rw [hlast j hj]
      have hkv : (k : Int) = lin d n 0 (fun j => if j = n then d n else 0) := by rw [hl]; omega
      unfold boxAt
      rw [hkv, unlin_lin d n 0 _ (by intro j _ h; rw [if_neg (by omega)]; have := hd j (by omega); omega) j (by omega) (by omega)]
      by_cases e : j = n
      · simp only [if_pos e]; rw [e]
      · simp only [if_neg e]; omega
  have := boxLoop_spec n o d s last hs hd (vol d n 0).toNat key (vol d n 0).toNat (Nat.le_refl _) fuel hf
  simp only [Nat.sub_self, Nat.zero_add] at this
  rw [show ((0 : Nat) : Int) = 0 from rfl, boxAt_zero] at this
  exact this

theorem boxAt_mem (n : Nat) (o d : Crd) (hd : ∀ j, j < n → 0 < d j) (c : Crd) :
    (∃ i : Nat, i < (vol d n 0).toNat ∧ ∀ j, j ≤ n → boxAt n o d (i : Int) j = c j) ↔
      ∀ j, j ≤ n → o j ≤ c j ∧ c j < o j + d j := by
  constructor
  · rintro ⟨i, h1, h2⟩ j hj
    have := unlin_range d n 0 (i : Int) (fun j _ h => hd j (by omega)) (by omega) (by omega) j (by omega) (by omega)
    have h3 := h2 j hj
    unfold boxAt at h3
    omega
  · intro h
    have hr : ∀ j, 0 ≤ j → j ≤ 0 + n → 0 ≤ c j - o j ∧ c j - o j < d j := fun j _ hj => by have := h j (by omega); omega
    have h1 := lin_nonneg d n 0 (fun j => c j - o j) (fun j a b => (hr j a b).1) (fun j _ hj => by have := hd j (by omega); omega)
    have h2 := lin_lt_vol d n 0 (fun j => c j - o j) hr
    refine ⟨(lin d n 0 (fun j => c j - o j)).toNat, by omega, fun j hj => ?_⟩
    rw [Int.toNat_of_nonneg h1]
    unfold boxAt
    rw [unlin_lin d n 0 _ (fun j a b => hr j a (by omega)) j (by omega) (by omega)]
    omega

theorem boxAt_sorted (n : Nat) (o d : Crd) (hd : ∀ j, j < n → 0 < d j) (m : Nat) :
    ((List.range m).map (fun i : Nat => boxAt n o d (i : Int))).Pairwise
      (fun a b => ∃ k, k ≤ n ∧ a k < b k ∧ ∀ j, k < j → j ≤ n → a j = b j) := by
  rw [List.pairwise_map]
  refine List.Pairwise.imp ?_ (List.pairwise_lt_range (n := m))
  intro a b hab
  have := (lin_lt_iff d n 0 (unlin d n 0 a) (unlin d n 0 b)
    (fun j x y => unlin_low d n 0 _ (fun j _ h => hd j (by omega)) j x y)
    (fun j x y => unlin_low d n 0 _ (fun j _ h => hd j (by omega)) j x y)).1 (by rw [lin_unlin, lin_unlin]; omega)
  obtain ⟨k, h1, h2, h3, h4⟩ := this
  refine ⟨k, by omega, ?_, fun j hj hj' => ?_⟩
  · unfold boxAt; omega
  · have := h4 j hj (by omega)
    unfold boxAt; omega

/-- a zero extent on a lower axis: the last axis never moves -/
theorem boxIncr_stuck (o s : Crd) (r i j : Nat) (h1 : i ≤ j) (h2 : j < i + r) (hz : s j = o j) (c : Crd)
    (hge : ∀ k, i ≤ k → k ≤ i + r → o k ≤ c k) :
    boxIncr o s r i c (i + r) = c (i + r) ∧ ∀ k, i ≤ k → k ≤ i + r → o k ≤ boxIncr o s r i c k := by
  induction r generalizing i c with
  | zero => omega
  | succ r ih =>
    rw [boxIncr]
    have hgi := hge i (by omega) (by omega)
    by_cases hc : c i + 1 = s i
    · rw [if_pos hc]
      have hne : i ≠ j := by intro e; subst e; omega
      have := ih (i + 1) (by omega) (by omega) (upd c i (o i)) (fun k a b => by
        unfold upd; split
        · rename_i h; rw [h]
        · exact hge k (by omega) (by omega))
      have e : i + 1 + r = i + (r + 1) := by omega
      rw [e] at this
      refine ⟨?_, ?_⟩
      · rw [this.1]; unfold upd; rw [if_neg (by omega)]
      · intro k a b
        by_cases hk : k = i
        · have hb := boxIncr_upd o s r (i + 1) i (by omega) c (o i)
          rw [hb, hk]
          simp [upd]
        · exact this.2 k (by omega) b
    · rw [if_neg hc]
      refine ⟨by unfold upd; rw [if_neg (by omega)], fun k a b => ?_⟩
      unfold upd; split
      · rename_i h; subst h; omega
      · exact hge k a b

theorem boxLoop_hang (n : Nat) (o s last : Crd) (j : Nat) (hj : j < n) (hz : s j = o j) (hl : last n ≠ o n) (fuel : Nat) (c : Crd)
    (hc : c n = o n) (hge : ∀ k, k ≤ n → o k ≤ c k) : boxLoop n o s last fuel c = none := by
  induction fuel generalizing c with
  | zero => rfl
  | succ fuel ih =>
    rw [boxLoop, if_neg]
    · have := boxIncr_stuck o s n 0 j (by omega) (by omega) hz c (fun k _ hk => hge k (by omega))
      rw [Nat.zero_add] at this
      rw [ih _ (by rw [this.1, hc]) (fun k hk => this.2 k (by omega) (by omega))]
      rfl
    · rw [crdEq_iff]
      intro h
      exact hl (by rw [← h n (Nat.le_refl _), hc])

theorem vol_prod (d : Crd) (n : Nat) : vol d n 0 = crdProd n d := by
  have key : ∀ r i, vol d (r + 1) i = vol d r i * d (i + r + 1) := by
    intro r
    induction r with
    | zero => intro i; rfl
    | succ r ih =>
      intro i
      rw [vol, ih (i + 1), vol]
      have : i + 1 + r + 1 = i + (r + 1) + 1 := by omega
      rw [this]; ring
  induction n with
  | zero => rfl
  | succ n ih => rw [key, ih, crdProd]; congr 2; omega

end LGD
