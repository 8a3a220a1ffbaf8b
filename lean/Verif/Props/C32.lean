import Verif.Misc.BalanceModel
import Mathlib.Tactic.Ring
import Mathlib.Tactic.Linarith
import Mathlib.Tactic.Positivity
import Mathlib.Tactic.NormNum
import Mathlib.Tactic.FieldSimp
import Mathlib.Tactic.SplitIfs
import Mathlib.Tactic.GCongr
import Mathlib.Algebra.BigOperators.Group.List.Basic
import Mathlib.Algebra.Order.BigOperators.Group.List

/-!
# C32: load balancers preserve the total load
-/

namespace LGD.C32
open LGD.Balance

/-- a distribution of `total` items to `n` ranks -/
def Distribution (n total : Nat) (w : List Nat) : Prop := w.length = n ∧ w.sum = total

/-- What is assumed about floating point arithmetic: rounding is monotone, idempotent, and has a relative error of at most `u`. -/
structure Rounding (rnd : ℚ → ℚ) (u : ℚ) : Prop where
  mono : ∀ x y, x ≤ y → rnd x ≤ rnd y
  idem : ∀ x, rnd (rnd x) = rnd x
  err : ∀ x, |rnd x - x| ≤ u * |x|
  pos : 0 ≤ u

theorem Rounding.zero {rnd : ℚ → ℚ} {u : ℚ} (h : Rounding rnd u) : rnd 0 = 0 := by
  have := h.err 0
  rw [abs_zero, mul_zero, sub_zero] at this
  exact abs_eq_zero.mp (le_antisymm this (abs_nonneg _))

theorem Rounding.nonneg {rnd : ℚ → ℚ} {u : ℚ} (h : Rounding rnd u) {x : ℚ} (hx : 0 ≤ x) : 0 ≤ rnd x := by
  have := h.mono 0 x hx
  rwa [h.zero] at this

theorem Rounding.up {rnd : ℚ → ℚ} {u : ℚ} (h : Rounding rnd u) {x : ℚ} (hx : 0 ≤ x) : rnd x ≤ x * (1 + u) := by
  have := (abs_le.mp (h.err x)).2
  rw [abs_of_nonneg hx] at this
  linarith [mul_comm u x, mul_add x 1 u]

/-- the assumptions without the bound of the error, they hold with underflow, too -/
structure Ordered (rnd : ℚ → ℚ) : Prop where
  mono : ∀ x y, x ≤ y → rnd x ≤ rnd y
  idem : ∀ x, rnd (rnd x) = rnd x
  zero : rnd 0 = 0

theorem Ordered.nonneg {rnd : ℚ → ℚ} (h : Ordered rnd) {x : ℚ} (hx : 0 ≤ x) : 0 ≤ rnd x := by
  have := h.mono 0 x hx
  rwa [h.zero] at this

theorem Rounding.ordered {rnd : ℚ → ℚ} {u : ℚ} (h : Rounding rnd u) : Ordered rnd := ⟨h.mono, h.idem, h.zero⟩

theorem Rounding.exact : Rounding id 0 := ⟨fun _ _ h => h, fun _ => rfl, fun x => by simp, le_refl _⟩

/-! ### `initialWeights` -/

/-- position computed for a partial sum -/
def pos (rnd : ℚ → ℚ) (items : Nat) (total part : ℚ) : ℚ := rnd (rnd (rnd items * part) / total)

theorem pos_mono {rnd : ℚ → ℚ} (h : Ordered rnd) (items : Nat) {total a b : ℚ} (ht : 0 < total) (hab : a ≤ b) :
    pos rnd items total a ≤ pos rnd items total b := by
  unfold pos
  apply h.mono
  apply div_le_div_of_nonneg_right _ ht.le
  apply h.mono
  exact mul_le_mul_of_nonneg_left hab (h.nonneg (Nat.cast_nonneg _))

theorem pos_nonneg {rnd : ℚ → ℚ} (h : Ordered rnd) (items : Nat) {total a : ℚ} (ht : 0 < total) (ha : 0 ≤ a) :
    0 ≤ pos rnd items total a :=
  h.nonneg (div_nonneg (h.nonneg (mul_nonneg (h.nonneg (Nat.cast_nonneg _)) ha)) ht.le)

theorem pos_total {rnd : ℚ → ℚ} {u : ℚ} (h : Rounding rnd u) (items : Nat) {total : ℚ} (ht : 0 < total) :
    pos rnd items total total ≤ items * (1 + u) ^ 3 := by
  have hu := h.pos
  have hi : (0 : ℚ) ≤ rnd items := h.nonneg (Nat.cast_nonneg _)
  have h1 : rnd (rnd items * total) ≤ rnd items * total * (1 + u) := h.up (mul_nonneg hi ht.le)
  have h2 : rnd (rnd items * total) / total ≤ rnd items * (1 + u) := by
    rw [div_le_iff₀ ht]; linarith [h1, mul_right_comm (rnd items) total (1 + u)]
  have h3 : 0 ≤ rnd (rnd items * total) / total := div_nonneg (h.nonneg (mul_nonneg hi ht.le)) ht.le
  have h4 : pos rnd items total total ≤ rnd (rnd items * total) / total * (1 + u) := h.up h3
  have h5 : rnd items ≤ items * (1 + u) := h.up (Nat.cast_nonneg _)
  calc pos rnd items total total ≤ rnd (rnd items * total) / total * (1 + u) := h4
    _ ≤ rnd items * (1 + u) * (1 + u) := mul_le_mul_of_nonneg_right h2 (by linarith)
    _ ≤ items * (1 + u) * (1 + u) * (1 + u) := by
      apply mul_le_mul_of_nonneg_right _ (by linarith)
      exact mul_le_mul_of_nonneg_right h5 (by linarith)
    _ = items * (1 + u) ^ 3 := by ring

theorem foldl_ge {rnd : ℚ → ℚ} (h : Ordered rnd) (l : List ℚ) (hl : ∀ x ∈ l, 0 ≤ x) :
    ∀ a, rnd a = a → a ≤ l.foldl (fun a x => rnd (a + x)) a := by
  induction l with
  | nil => intro a _; exact le_refl _
  | cons x l ih =>
    intro a ha
    have h1 : a ≤ rnd (a + x) := by
      have := h.mono a (a + x) (by linarith [hl x (List.mem_cons_self ..)])
      rwa [ha] at this
    exact le_trans h1 (ih (fun y hy => hl y (List.mem_cons_of_mem _ hy)) _ (h.idem _))

theorem trunc_nonneg {x : ℚ} (hx : 0 ≤ x) : trunc x = ⌊x⌋ := if_pos hx

theorem initialLoop_sum {rnd : ℚ → ℚ} (h : Ordered rnd) (items : Nat) (total : ℚ) (ht : 0 < total) (hM : items < M)
    (hi : pos rnd items total total < items + 1) (l : List ℚ) (hl : ∀ x ∈ l, 0 ≤ x) (hne : l ≠ []) :
    ∀ (lastPos : Nat) (part : ℚ), 0 ≤ part → rnd part = part → lastPos ≤ items → (lastPos : ℚ) ≤ pos rnd items total part ∨ lastPos = 0 →
      l.foldl (fun a x => rnd (a + x)) part = total →
      ∃ w, initialLoop rnd items total lastPos part l = .ok w ∧ Distribution l.length (items - lastPos) w := by
  induction l with
  | nil => exact absurd rfl hne
  | cons s l ih =>
    intro lastPos part h0 hr hlast hpos htot
    cases l with
    | nil =>
      refine ⟨_, rfl, rfl, ?_⟩
      rw [List.sum_singleton]
      have : items + M - lastPos = items - lastPos + M := by omega
      rw [this, Nat.add_mod_right, Nat.mod_eq_of_lt (by omega)]
    | cons r l =>
      have hs := hl s (List.mem_cons_self ..)
      have hpp : part ≤ rnd (part + s) := by
        have := h.mono part (part + s) (by linarith)
        rwa [hr] at this
      have hp0 : 0 ≤ rnd (part + s) := le_trans h0 hpp
      have hpt : rnd (part + s) ≤ total := by
        rw [← htot, List.foldl_cons]
        exact foldl_ge h (r :: l) (fun x hx => hl x (List.mem_cons_of_mem _ hx)) _ (h.idem _)
      have hx0 : 0 ≤ pos rnd items total (rnd (part + s)) := pos_nonneg h items ht hp0
      have hx1 : pos rnd items total (rnd (part + s)) < items + 1 :=
        lt_of_le_of_lt (pos_mono h items ht hpt) hi
      obtain ⟨k, hk⟩ : ∃ k : Nat, ⌊pos rnd items total (rnd (part + s))⌋ = (k : Int) := ⟨_, (Int.toNat_of_nonneg (Int.floor_nonneg.mpr hx0)).symm⟩
      have hk1 : k ≤ items := by
        have : ⌊pos rnd items total (rnd (part + s))⌋ < (items : Int) + 1 := by
          rw [Int.floor_lt]; push_cast; exact hx1
        omega
      have hk2 : lastPos ≤ k := by
        rcases hpos with hp | hp
        · have : (lastPos : Int) ≤ ⌊pos rnd items total (rnd (part + s))⌋ := by
            rw [Int.le_floor]; push_cast
            exact le_trans hp (pos_mono h items ht hpp)
          omega
        · omega
      have hk3 : (k : ℚ) ≤ pos rnd items total (rnd (part + s)) := by
        have := Int.floor_le (pos rnd items total (rnd (part + s)))
        rw [hk] at this
        exact_mod_cast this
      have htr : trunc (pos rnd items total (rnd (part + s))) = k := by rw [trunc_nonneg hx0, hk]
      obtain ⟨w, hw, hw1, hw2⟩ := ih (fun x hx => hl x (List.mem_cons_of_mem _ hx)) (by simp) k (rnd (part + s)) hp0 (h.idem _) hk1 (Or.inl hk3)
        (by rw [← htot]; rfl)
      refine ⟨((k + M - lastPos) % M) :: w, ?_, ?_, ?_⟩
      · rw [initialLoop]
        change (if total = 0 ∨ trunc (pos rnd items total (rnd (part + s))) < 0 ∨ (M : Int) ≤ trunc (pos rnd items total (rnd (part + s))) then R.undefined else
          (initialLoop rnd items total (trunc (pos rnd items total (rnd (part + s)))).toNat (rnd (part + s)) (r :: l)).map
            ((((trunc (pos rnd items total (rnd (part + s)))).toNat + M - lastPos) % M) :: ·)) = _
        rw [htr, if_neg (by
          rintro (h1 | h1 | h1)
          · exact ht.ne' h1
          · omega
          · omega), Int.toNat_natCast, hw]
        rfl
      · rw [List.length_cons, hw1]; rfl
      · rw [List.sum_cons, hw2]
        have : k + M - lastPos = k - lastPos + M := by omega
        rw [this, Nat.add_mod_right, Nat.mod_eq_of_lt (by omega)]
        omega

/-- **C32, initial weights.** With non-negative speeds, not all of them 0, the initial weights distribute all items to all ranks,
also with floating point rounding (the bound holds for up to 2^51 items with 64 bit `double`s). -/
theorem initialWeights_sum {rnd : ℚ → ℚ} {u : ℚ} (h : Rounding rnd u) (items : Nat) (speeds : List ℚ) (hs : ∀ s ∈ speeds, 0 ≤ s)
    (hne : speeds ≠ []) (hpos : 0 < sumQ rnd speeds) (hM : items < 2 ^ 64) (hi : (items : ℚ) * (1 + u) ^ 3 < items + 1) :
    ∃ w, initialWeights rnd items speeds = .ok w ∧ Distribution speeds.length items w := by
  obtain ⟨w, hw, hd⟩ := initialLoop_sum h.ordered items (sumQ rnd speeds) hpos hM
    (lt_of_le_of_lt (pos_total h items hpos) hi) speeds hs hne 0 0 (le_refl _) h.zero (Nat.zero_le _) (Or.inr rfl) rfl
  refine ⟨w, ?_, hd⟩
  rw [initialWeights, if_neg hne, hw]

/-- the bound of `initialWeights_sum` is met by 64 bit floating point numbers and 2^51 items -/
example (items : Nat) (h : items ≤ 2 ^ 51) : (items : ℚ) * (1 + 1 / 2 ^ 53) ^ 3 < items + 1 := by
  have h' : (items : ℚ) ≤ 2 ^ 51 := by exact_mod_cast h
  have : (1 + 1 / 2 ^ 53 : ℚ) ^ 3 ≤ 1 + 1 / 2 ^ 51 * (99 / 100) := by norm_num
  calc (items : ℚ) * (1 + 1 / 2 ^ 53) ^ 3 ≤ items * (1 + 1 / 2 ^ 51 * (99 / 100)) := mul_le_mul_of_nonneg_left this (Nat.cast_nonneg _)
    _ = items + items * (1 / 2 ^ 51 * (99 / 100)) := by ring
    _ ≤ items + 2 ^ 51 * (1 / 2 ^ 51 * (99 / 100)) := by gcongr
    _ < items + 1 := by norm_num

/-- **C32, violated.** Ranks without any speed: 0 / 0 is converted to an integer. -/
theorem initialWeights_zero (rnd : ℚ → ℚ) (h0 : rnd 0 = 0) (items n : Nat) : initialWeights rnd items (List.replicate (n + 2) 0) = .undefined := by
  have : ∀ n, sumQ rnd (List.replicate n 0) = 0 := by
    intro n
    unfold sumQ
    induction n with
    | zero => rfl
    | succ n ih => rw [List.replicate_succ, List.foldl_cons, zero_add, h0, ih]
  rw [initialWeights, if_neg (by simp [List.replicate_succ]), this]
  simp [List.replicate_succ, initialLoop]

/-- no ranks -/
theorem initialWeights_none (rnd : ℚ → ℚ) (items : Nat) : initialWeights rnd items [] = .invalid := rfl

/-! ### `OozeBalancer` -/

theorem sumN_eq (w : List Nat) (h : w.sum < M) : sumN w = w.sum := by
  unfold sumN
  have : ∀ (w : List Nat) (a : Nat), a + w.sum < M → w.foldl (fun a x => (a + x) % M) a = a + w.sum := by
    intro w
    induction w with
    | nil => intro a _; simp
    | cons x w ih =>
      intro a ha
      rw [List.sum_cons] at ha
      rw [List.foldl_cons, Nat.mod_eq_of_lt (by omega), ih _ (by omega), List.sum_cons]
      omega
  have := this w 0 (by omega)
  omega

theorem sumQ_id (l : List ℚ) : sumQ id l = l.sum := by
  unfold sumQ
  have : ∀ (l : List ℚ) (a : ℚ), l.foldl (fun a x => id (a + x)) a = a + l.sum := by
    intro l
    induction l with
    | nil => intro a; simp
    | cons x l ih => intro a; rw [List.foldl_cons, ih, List.sum_cons]; simp only [id]; ring
  rw [this, zero_add]

theorem fill_spec (items : List (ℚ × ℚ)) : ∀ (ret remLoad : ℚ), 0 ≤ ret → 0 ≤ remLoad → (∀ p ∈ items, 0 ≤ p.1 ∧ 0 ≤ p.2) →
    0 ≤ (fill id ret remLoad items).1 ∧ (∀ p ∈ (fill id ret remLoad items).2, 0 ≤ p.1 ∧ 0 ≤ p.2) ∧
      (fill id ret remLoad items).1 + ((fill id ret remLoad items).2.map Prod.fst).sum = ret + (items.map Prod.fst).sum := by
  induction items with
  | nil => intro ret remLoad h1 _ _; exact ⟨h1, by simp [fill], by simp [fill]⟩
  | cons p items ih =>
    intro ret remLoad h1 h2 h3
    obtain ⟨f, l⟩ := p
    obtain ⟨hf, hl⟩ := h3 (f, l) (List.mem_cons_self ..)
    have h4 : ∀ p ∈ items, 0 ≤ p.1 ∧ 0 ≤ p.2 := fun p hp => h3 p (List.mem_cons_of_mem _ hp)
    simp only at hf hl
    unfold fill
    simp only [id]
    split_ifs with c1 c2 c3
    · obtain ⟨a1, a2, a3⟩ := ih ret remLoad h1 h2 h4
      refine ⟨a1, ?_, ?_⟩
      · intro p hp
        rcases List.mem_cons.mp hp with rfl | hp
        · exact ⟨hf, hl⟩
        · exact a2 p hp
      · simp only [List.map_cons, List.sum_cons]
        linarith
    · refine ⟨by linarith, ?_, ?_⟩
      · intro p hp
        rcases List.mem_cons.mp hp with rfl | hp
        · exact ⟨le_refl _, hl⟩
        · exact h4 p hp
      · simp only [List.map_cons, List.sum_cons]; ring
    · obtain ⟨a1, a2, a3⟩ := ih (ret + f) (remLoad - f * l) (by linarith) (by linarith) h4
      refine ⟨a1, ?_, ?_⟩
      · intro p hp
        rcases List.mem_cons.mp hp with rfl | hp
        · exact ⟨le_refl _, hl⟩
        · exact a2 p hp
      · simp only [List.map_cons, List.sum_cons]
        linarith
    · have c2' : remLoad < f * l := not_le.mp c2
      have hl' : 0 < l := by
        rcases hl.lt_or_eq with h | h
        · exact h
        · rw [← h, mul_zero] at c2'; linarith
      have hq : remLoad / l ≤ f := by rw [div_le_iff₀ hl']; exact c2'.le
      have hq0 : 0 ≤ remLoad / l := div_nonneg h2 hl
      refine ⟨by linarith, ?_, ?_⟩
      · intro p hp
        rcases List.mem_cons.mp hp with rfl | hp
        · exact ⟨by simp only; linarith, hl⟩
        · exact h4 p hp
      · simp only [List.map_cons, List.sum_cons]; ring

theorem fillAll_spec (target : ℚ) (ht : 0 ≤ target) (n : Nat) : ∀ (items : List (ℚ × ℚ)), (∀ p ∈ items, 0 ≤ p.1 ∧ 0 ≤ p.2) →
    (fillAll id target n items).length = n + 1 ∧ (∀ x ∈ fillAll id target n items, 0 ≤ x) ∧ (fillAll id target n items).sum = (items.map Prod.fst).sum := by
  induction n with
  | zero =>
    intro items h
    have h0 : 0 ≤ (items.map Prod.fst).sum := by
      apply List.sum_nonneg
      intro x hx
      obtain ⟨p, hp, rfl⟩ := List.mem_map.mp hx
      exact (h p hp).1
    simp only [fillAll, id, zero_add, sumQ_id]
    exact ⟨rfl, by simpa using h0, by simp⟩
  | succ n ih =>
    intro items h
    obtain ⟨a1, a2, a3⟩ := fill_spec items 0 target (le_refl _) ht h
    obtain ⟨b1, b2, b3⟩ := ih _ a2
    refine ⟨by simp only [fillAll, List.length_cons, b1], ?_, ?_⟩
    · intro x hx
      simp only [fillAll] at hx
      rcases List.mem_cons.mp hx with rfl | hx
      · exact a1
      · exact b2 x hx
    · simp only [fillAll, List.sum_cons, b3]
      linarith

theorem loadPerItem_length (w : List Nat) : ∀ (r : List ℚ), r.length = w.length → (loadPerItem id w r).length = w.sum := by
  unfold loadPerItem
  induction w with
  | nil => intro r _; simp
  | cons x w ih =>
    intro r hr
    cases r with
    | nil => simp at hr
    | cons y r =>
      have := ih r (by simpa using hr)
      rw [List.zip_cons_cons, List.flatMap_cons, List.length_append, this, List.length_replicate, List.sum_cons]

theorem expectedOptimal_spec (w : List Nat) (r : List ℚ) (hl : r.length = w.length) (hr : ∀ x ∈ r, 0 ≤ x) (hne : w ≠ []) (hM : w.sum < M) :
    (expectedOptimal id w r).length = w.length ∧ (∀ x ∈ expectedOptimal id w r, 0 ≤ x) ∧ (expectedOptimal id w r).sum = w.sum := by
  have hn : 0 < w.length := List.length_pos_iff.mpr hne
  have hn' : (0 : ℚ) < w.length := by exact_mod_cast hn
  unfold expectedOptimal
  simp only [id, sumQ_id, sumN_eq w hM]
  split_ifs with c
  · refine ⟨by simp, ?_, ?_⟩
    · intro x hx
      rw [(List.mem_replicate.mp hx).2]
      positivity
    · rw [List.sum_replicate, nsmul_eq_mul]
      field_simp
  · obtain ⟨a1, a2, a3⟩ := fillAll_spec (r.sum / w.length) (div_nonneg (List.sum_nonneg hr) hn'.le) (w.length - 1)
      ((loadPerItem id w r).map fun l => (1, l)) (by
        intro p hp
        obtain ⟨l, hl', rfl⟩ := List.mem_map.mp hp
        refine ⟨by norm_num, ?_⟩
        unfold loadPerItem at hl'
        obtain ⟨q, hq, hl'⟩ := List.mem_flatMap.mp hl'
        rw [(List.mem_replicate.mp hl').2]
        exact div_nonneg (hr _ (List.of_mem_zip hq).2) (Nat.cast_nonneg _))
    refine ⟨by rw [a1]; omega, a2, ?_⟩
    rw [a3, List.map_map]
    have : (Prod.fst ∘ fun l : ℚ => ((1 : ℚ), l)) = fun _ => 1 := rfl
    rw [this, List.map_const', List.sum_replicate, loadPerItem_length w r hl]
    simp

theorem linearCombo_spec (a : ℚ) (h0 : 0 ≤ a) (h1 : a ≤ 1) (w : List Nat) : ∀ (l : List ℚ), l.length = w.length → (∀ x ∈ l, 0 ≤ x) →
    (linearCombo id a w l).length = w.length ∧ (∀ x ∈ linearCombo id a w l, 0 ≤ x) ∧
      (linearCombo id a w l).sum = l.sum * a + (w.sum : ℚ) * (1 - a) := by
  unfold linearCombo
  simp only [id]
  induction w with
  | nil =>
    intro l hl _
    have : l = [] := List.length_eq_zero_iff.mp (by simpa using hl)
    subst this
    simp
  | cons x w ih =>
    intro l hl hx
    cases l with
    | nil => simp at hl
    | cons y l =>
      obtain ⟨b1, b2, b3⟩ := ih l (by simpa using hl) (fun z hz => hx z (List.mem_cons_of_mem _ hz))
      have hy := hx y (List.mem_cons_self ..)
      refine ⟨?_, ?_, ?_⟩
      · rw [List.zip_cons_cons, List.map_cons, List.length_cons, b1, List.length_cons]
      · intro z hz
        rw [List.zip_cons_cons, List.map_cons] at hz
        rcases List.mem_cons.mp hz with rfl | hz
        · exact add_nonneg (mul_nonneg hy h0) (mul_nonneg (Nat.cast_nonneg _) (by linarith))
        · exact b2 z hz
      · rw [List.zip_cons_cons, List.map_cons, List.sum_cons, b3, List.sum_cons, List.sum_cons]
        push_cast
        ring

theorem viaLong_ok {x : ℚ} (h0 : 0 ≤ x) (h1 : x < 2 ^ 63) : ∃ k : Nat, viaLong x = .ok k ∧ (k : Int) = ⌊x⌋ ∧ k < 2 ^ 63 := by
  have ht := trunc_nonneg h0
  have hf0 : 0 ≤ ⌊x⌋ := Int.floor_nonneg.mpr h0
  have hf1 : ⌊x⌋ < 2 ^ 63 := by rw [Int.floor_lt]; push_cast; exact h1
  refine ⟨(⌊x⌋).toNat, ?_, Int.toNat_of_nonneg hf0, by omega⟩
  unfold viaLong
  rw [ht, if_neg (by omega), Int.emod_eq_of_lt hf0 (by unfold M; push_cast; omega)]

theorem frac_fract {x : ℚ} (h0 : 0 ≤ x) : frac id x = Int.fract x := by
  unfold frac
  rw [trunc_nonneg h0]
  simp only [id]
  exact abs_of_nonneg (Int.fract_nonneg x)

theorem equalize_spec (l : List ℚ) (hne : l ≠ []) : ∀ (b : ℚ) (K : Nat), (∀ x ∈ l, 0 ≤ x ∧ x < 2 ^ 63) → 0 ≤ b → b ≤ 1 → b + l.sum = K →
    ∃ r, equalize id b l = .ok r ∧ Distribution l.length K r := by
  induction l with
  | nil => exact absurd rfl hne
  | cons x l ih =>
    intro b K hl hb0 hb1 hK
    obtain ⟨hx0, hx1⟩ := hl x (List.mem_cons_self ..)
    obtain ⟨k, hk, hkf, hk63⟩ := viaLong_ok hx0 hx1
    have hfr := frac_fract hx0
    have hf0 := Int.fract_nonneg x
    have hf1 := Int.fract_lt_one x
    have hxk : x = k + Int.fract x := by
      have := Int.floor_add_fract x
      rw [← hkf] at this
      push_cast at this
      exact this.symm
    have hM : 2 ^ 63 < M := by decide
    cases l with
    | nil =>
      rw [List.sum_singleton] at hK
      unfold equalize
      rw [hk]
      simp only [id, hfr]
      refine ⟨_, rfl, rfl, ?_⟩
      rw [List.sum_singleton]
      have e : b + Int.fract x = ((K : Int) - (k : Int) : Int) := by push_cast; linarith
      split_ifs with c
      · rw [Nat.mod_eq_of_lt (by omega)]
        have h1 : (0 : ℚ) < ((K : Int) - (k : Int) : Int) := by rw [← e]; linarith
        have h2 : (((K : Int) - (k : Int) : Int) : ℚ) < 2 := by rw [← e]; linarith
        have h1' : (0 : Int) < (K : Int) - k := by exact_mod_cast h1
        have h2' : (K : Int) - k < 2 := by exact_mod_cast h2
        omega
      · have h1 : (0 : ℚ) ≤ ((K : Int) - (k : Int) : Int) := by rw [← e]; linarith
        have h2 : (((K : Int) - (k : Int) : Int) : ℚ) < 1 := by rw [← e]; linarith
        have h1' : (0 : Int) ≤ (K : Int) - k := by exact_mod_cast h1
        have h2' : (K : Int) - k < 1 := by exact_mod_cast h2
        omega
    | cons y l =>
      rw [List.sum_cons] at hK
      have hs : 0 ≤ (y :: l).sum := List.sum_nonneg fun z hz => (hl z (List.mem_cons_of_mem _ hz)).1
      unfold equalize
      rw [hk]
      simp only [id, hfr]
      split_ifs with c
      · have hKk : (k : ℚ) + 1 ≤ K := by linarith
        have hKk' : k + 1 ≤ K := by exact_mod_cast hKk
        obtain ⟨r, hr, hr1, hr2⟩ := ih (by simp) (b - (1 - Int.fract x)) (K - (k + 1)) (fun z hz => hl z (List.mem_cons_of_mem _ hz))
          (by linarith) (by linarith) (by rw [Nat.cast_sub hKk']; push_cast; linarith)
        refine ⟨(k + 1) % M :: r, by rw [hr]; rfl, by rw [List.length_cons, hr1]; rfl, ?_⟩
        rw [List.sum_cons, hr2, Nat.mod_eq_of_lt (by omega)]
        omega
      · have hKk : (k : ℚ) ≤ K := by linarith
        have hKk' : k ≤ K := by exact_mod_cast hKk
        obtain ⟨r, hr, hr1, hr2⟩ := ih (by simp) (b + Int.fract x) (K - k) (fun z hz => hl z (List.mem_cons_of_mem _ hz))
          (by linarith) (by linarith) (by rw [Nat.cast_sub hKk']; linarith)
        refine ⟨k :: r, by rw [hr]; rfl, by rw [List.length_cons, hr1]; rfl, ?_⟩
        rw [List.sum_cons, hr2]
        omega

/-- **C32, OozeBalancer, exact arithmetic.** The balancer does not throw and redistributes all items. -/
theorem ooze_sum (a : ℚ) (ha : oozeOK a = true) (w : List Nat) (r : List ℚ) (hne : w ≠ []) (hl : r.length = w.length) (hr : ∀ x ∈ r, 0 ≤ x)
    (hM : w.sum < 2 ^ 63) : ∃ w', ooze id a w r = .ok w' ∧ Distribution w.length w.sum w' := by
  have ha' : 0 ≤ a ∧ a ≤ 1 := by
    unfold oozeOK at ha
    simp at ha
    exact ha
  have hM64 : 2 ^ 63 < M := by decide
  obtain ⟨e1, e2, e3⟩ := expectedOptimal_spec w r hl hr hne (by omega)
  obtain ⟨c1, c2, c3⟩ := linearCombo_spec a ha'.1 ha'.2 w _ e1 e2
  have hsum : (linearCombo id a w (expectedOptimal id w r)).sum = w.sum := by rw [c3, e3]; ring
  have hne' : linearCombo id a w (expectedOptimal id w r) ≠ [] := by
    intro h
    rw [h] at c1
    exact hne (List.length_eq_zero_iff.mp c1.symm)
  obtain ⟨w', h1, h2, h3⟩ := equalize_spec _ hne' 0 w.sum (fun x hx => ⟨c2 x hx, by
      have : x ≤ (linearCombo id a w (expectedOptimal id w r)).sum := List.single_le_sum c2 x hx
      have h4 : (w.sum : ℚ) < 2 ^ 63 := by exact_mod_cast hM
      linarith⟩) (le_refl _) (by norm_num) (by rw [hsum, zero_add])
  refine ⟨w', ?_, h2.trans c1, h3⟩
  rw [ooze, if_neg hne, h1]
  simp only
  rw [if_neg]
  rw [sumN_eq w (by omega), sumN_eq w' (by omega), h3]
  simp

theorem fillAll_length (rnd : ℚ → ℚ) (target : ℚ) (n : Nat) : ∀ items, (fillAll rnd target n items).length = n + 1 := by
  induction n with
  | zero => intro items; rfl
  | succ n ih => intro items; simp only [fillAll, List.length_cons, ih]

theorem equalize_length (rnd : ℚ → ℚ) (l : List ℚ) : ∀ (b : ℚ) (r : List Nat), equalize rnd b l = .ok r → r.length = l.length := by
  induction l with
  | nil => intro b r h; cases h
  | cons x l ih =>
    intro b r h
    cases l with
    | nil =>
      unfold equalize at h
      cases hv : viaLong x with
      | ok k => rw [hv] at h; injection h with h; rw [← h]; rfl
      | invalid => rw [hv] at h; cases h
      | logic => rw [hv] at h; cases h
      | undefined => rw [hv] at h; cases h
    | cons y l =>
      unfold equalize at h
      cases hv : viaLong x with
      | invalid => rw [hv] at h; cases h
      | logic => rw [hv] at h; cases h
      | undefined => rw [hv] at h; cases h
      | ok k =>
        rw [hv] at h
        simp only at h
        have key : ∀ (b' : ℚ) (z : Nat), (equalize rnd b' (y :: l)).map (z :: ·) = .ok r → r.length = (x :: y :: l).length := by
          intro b' z hz
          cases he : equalize rnd b' (y :: l) with
          | ok r' =>
            rw [he] at hz
            injection hz with hz
            rw [← hz, List.length_cons, ih b' r' he]; rfl
          | invalid => rw [he] at hz; cases hz
          | logic => rw [he] at hz; cases hz
          | undefined => rw [he] at hz; cases hz
        split_ifs at h
        · exact key _ _ h
        · exact key _ _ h

/-- **C32, OozeBalancer, floating point arithmetic.** Whatever the rounding: if the balancer returns, the result has the right
length, and its total is the old one (modulo the range of `std::size_t`). -/
theorem ooze_returns (rnd : ℚ → ℚ) (a : ℚ) (w w' : List Nat) (r : List ℚ) (h : ooze rnd a w r = .ok w') :
    w'.length = w.length ∧ sumN w' = sumN w := by
  unfold ooze at h
  split_ifs at h with hne
  cases he : equalize rnd 0 (linearCombo rnd a w (expectedOptimal rnd w r)) with
  | ok ret =>
    rw [he] at h
    simp only at h
    split_ifs at h with hs
    injection h with h
    rw [← h]
    refine ⟨?_, by simpa using (not_not.mp hs).symm⟩
    rw [equalize_length rnd _ _ _ he]
    have hn : 0 < w.length := List.length_pos_iff.mpr hne
    have : (expectedOptimal rnd w r).length = w.length := by
      unfold expectedOptimal
      simp only
      split_ifs
      · simp
      · rw [fillAll_length]; omega
    unfold linearCombo
    rw [List.length_map, List.length_zip, this, Nat.min_self]
  | invalid => rw [he] at h; cases h
  | logic => rw [he] at h; cases h
  | undefined => rw [he] at h; cases h

/-! ### `RandomBalancer`, `BiasBalancer`, `NoOpBalancer` -/

theorem bump_spec (l : List Nat) (i : Nat) (hi : i < l.length) (hM : l.sum + 1 < M) : (bump l i).length = l.length ∧ (bump l i).sum = l.sum + 1 := by
  unfold bump
  refine ⟨by simp, ?_⟩
  induction l generalizing i with
  | nil => simp at hi
  | cons x l ih =>
    rw [List.sum_cons] at hM
    cases i with
    | zero =>
      rw [List.modify_zero_cons, List.sum_cons, List.sum_cons, Nat.mod_eq_of_lt (by omega)]
      omega
    | succ i =>
      rw [List.modify_succ_cons, List.sum_cons, List.sum_cons, ih i (by simpa using hi) (by omega)]
      omega

theorem scatter_spec (index : Nat → Nat) (n : Nat) : ∀ (l : List Nat), (l ≠ [] ∨ n = 0) → l.sum + n < M →
    (scatter index n l).length = l.length ∧ (scatter index n l).sum = l.sum + n := by
  induction n with
  | zero => intro l _ _; exact ⟨rfl, rfl⟩
  | succ n ih =>
    intro l hl hM
    have hl : l ≠ [] := hl.resolve_right (by simp)
    obtain ⟨b1, b2⟩ := bump_spec l (index (n + 1) % l.length) (Nat.mod_lt _ (List.length_pos_iff.mpr hl)) (by omega)
    obtain ⟨s1, s2⟩ := ih (bump l (index (n + 1) % l.length)) (Or.inl (by
      intro h; rw [h] at b1; exact hl (List.length_eq_zero_iff.mp b1.symm))) (by omega)
    rw [scatter]
    exact ⟨s1.trans b1, by rw [s2, b2]; omega⟩

/-- **C32, RandomBalancer, any rounding.** If the scaled loads (before scattering the remainder) do not exceed the total, by less than
2^32 items, then the total is preserved, for all random numbers. -/
theorem random_sum (rnd : ℚ → ℚ) (base : List ℚ) (index : Nat → Nat) (w ret : List Nat) (hlen : base.length = w.length) (hne : w ≠ [])
    (hM : w.sum < 2 ^ 64) (h : scaled rnd w.sum (sumQ rnd base) base = .ok ret) (h1 : ret.sum ≤ w.sum) (h2 : w.sum - ret.sum < 2 ^ 32) :
    ∃ w', random rnd base index w = .ok w' ∧ Distribution w.length w.sum w' := by
  have hl : ∀ (S : Nat) (R : ℚ) (b : List ℚ) (ret : List Nat), scaled rnd S R b = .ok ret → ret.length = b.length := by
    intro S R b
    induction b with
    | nil => intro ret h; injection h with h; rw [← h]; rfl
    | cons x b ih =>
      intro ret h
      unfold scaled at h
      split_ifs at h
      cases hv : viaLong (rnd (rnd (x * rnd S) / R)) with
      | invalid => rw [hv] at h; cases h
      | logic => rw [hv] at h; cases h
      | undefined => rw [hv] at h; cases h
      | ok k =>
        rw [hv] at h
        simp only at h
        cases hs : scaled rnd S R b with
        | ok r' => rw [hs] at h; injection h with h; rw [← h, List.length_cons, ih r' hs]; rfl
        | invalid => rw [hs] at h; cases h
        | logic => rw [hs] at h; cases h
        | undefined => rw [hs] at h; cases h
  have hrl := hl _ _ _ _ h
  have hrne : ret ≠ [] := by
    intro he
    rw [he] at hrl
    exact hne (List.length_eq_zero_iff.mp (by rw [← hlen, ← hrl]; rfl))
  unfold random
  simp only
  rw [sumN_eq w hM, h]
  simp only
  rw [if_neg (fun hh => hrne hh.1)]
  have hrem : (((w.sum : Int) - (ret.sum : Int)) % 2 ^ 32).toNat = w.sum - ret.sum := by omega
  rw [hrem]
  obtain ⟨s1, s2⟩ := scatter_spec index (w.sum - ret.sum) ret (Or.inl hrne) (by unfold M; omega)
  exact ⟨_, rfl, by rw [s1, hrl, hlen], by rw [s2]; omega⟩

/-- **C32, RandomBalancer, exact arithmetic.** For all random numbers which are not all 0, and less than 2^32 ranks. -/
theorem random_exact (base : List ℚ) (index : Nat → Nat) (w : List Nat) (hlen : base.length = w.length) (hb : ∀ x ∈ base, 0 ≤ x)
    (hpos : 0 < base.sum) (hM : w.sum < 2 ^ 63) (hn : w.length < 2 ^ 32) :
    ∃ w', random id base index w = .ok w' ∧ Distribution w.length w.sum w' := by
  have hne : w ≠ [] := by
    rintro rfl
    have : base = [] := List.length_eq_zero_iff.mp (by simpa using hlen)
    rw [this] at hpos
    simp at hpos
  have key : ∀ (b : List ℚ), (∀ x ∈ b, 0 ≤ x ∧ x ≤ base.sum) → ∃ ret, scaled id w.sum base.sum b = .ok ret ∧
      (ret.sum : ℚ) ≤ b.sum * w.sum / base.sum ∧ b.sum * w.sum / base.sum ≤ ret.sum + b.length := by
    intro b
    induction b with
    | nil => intro _; exact ⟨[], rfl, by simp, by simp⟩
    | cons x b ih =>
      intro hx
      obtain ⟨ret, h1, h2, h3⟩ := ih (fun y hy => hx y (List.mem_cons_of_mem _ hy))
      obtain ⟨hx0, hx1⟩ := hx x (List.mem_cons_self ..)
      have hv0 : 0 ≤ x * w.sum / base.sum := div_nonneg (mul_nonneg hx0 (Nat.cast_nonneg _)) hpos.le
      have hv1 : x * w.sum / base.sum < 2 ^ 63 := by
        have : x * w.sum / base.sum ≤ w.sum := by
          rw [div_le_iff₀ hpos]
          have : x * (w.sum : ℚ) ≤ base.sum * w.sum := mul_le_mul_of_nonneg_right hx1 (Nat.cast_nonneg _)
          linarith
        have h4 : (w.sum : ℚ) < 2 ^ 63 := by exact_mod_cast hM
        linarith
      obtain ⟨k, hk, hkf, _⟩ := viaLong_ok hv0 hv1
      have hk1 : (k : ℚ) ≤ x * w.sum / base.sum := by
        have := Int.floor_le (x * w.sum / base.sum)
        rw [← hkf] at this; exact_mod_cast this
      have hk2 : x * w.sum / base.sum ≤ k + 1 := by
        have := (Int.lt_floor_add_one (x * w.sum / base.sum)).le
        rw [← hkf] at this; exact_mod_cast this
      refine ⟨k :: ret, ?_, ?_, ?_⟩
      · unfold scaled
        rw [if_neg hpos.ne']
        simp only [id]
        rw [hk, h1]
        rfl
      · rw [List.sum_cons, List.sum_cons]
        push_cast
        have : (x + b.sum) * w.sum / base.sum = x * w.sum / base.sum + b.sum * w.sum / base.sum := by ring
        rw [this]; linarith
      · rw [List.sum_cons, List.sum_cons, List.length_cons]
        push_cast
        have : (x + b.sum) * w.sum / base.sum = x * w.sum / base.sum + b.sum * w.sum / base.sum := by ring
        rw [this]; linarith
  obtain ⟨ret, h1, h2, h3⟩ := key base (fun x hx => ⟨hb x hx, List.single_le_sum hb x hx⟩)
  have e : base.sum * w.sum / base.sum = w.sum := by field_simp
  rw [e] at h2 h3
  have h2' : ret.sum ≤ w.sum := by exact_mod_cast h2
  have h3' : w.sum ≤ ret.sum + base.length := by exact_mod_cast h3
  exact random_sum id base index w ret hlen hne (by omega) (by rw [sumQ_id]; exact h1) h2' (by omega)

/-- **C32, RandomBalancer**, what happens beyond the hypothesis of `random_sum`: if rounding makes the scaled loads exceed the total by `k` items, then the negative remainder is
converted to a huge unsigned number: `2^32` superfluous items are distributed. -/
theorem random_overflow (rnd : ℚ → ℚ) (base : List ℚ) (index : Nat → Nat) (w ret : List Nat) (hM : w.sum < 2 ^ 63) (hr : ret ≠ [])
    (h : scaled rnd w.sum (sumQ rnd base) base = .ok ret) (h1 : w.sum < ret.sum) (h2 : ret.sum - w.sum < 2 ^ 32) :
    ∃ w', random rnd base index w = .ok w' ∧ w'.sum = w.sum + 2 ^ 32 := by
  unfold random
  simp only
  rw [sumN_eq w (by unfold M; omega), h]
  simp only
  rw [if_neg (fun hh => hr hh.1)]
  have hrem : (((w.sum : Int) - (ret.sum : Int)) % 2 ^ 32).toNat = 2 ^ 32 - (ret.sum - w.sum) := by omega
  rw [hrem]
  obtain ⟨s1, s2⟩ := scatter_spec index (2 ^ 32 - (ret.sum - w.sum)) ret (Or.inl hr) (by unfold M; omega)
  exact ⟨_, rfl, by rw [s2]; omega⟩

/-- **C32, BiasBalancer**: the first call moves everything to rank 0, later calls are up to the other balancer. -/
theorem bias_sum (delegate : List Nat → List ℚ → R (List Nat)) (w : List Nat) (r : List ℚ) (hne : w ≠ []) (hM : w.sum < 2 ^ 64) :
    (∃ w', bias delegate true w r = (.ok w', false) ∧ Distribution w.length w.sum w' ∧ ∀ i, 0 < i → w'.getD i 0 = 0) ∧
      bias delegate false w r = (delegate w r, false) := by
  refine ⟨?_, rfl⟩
  cases w with
  | nil => exact absurd rfl hne
  | cons x w =>
    refine ⟨sumN (x :: w) :: w.map fun _ => 0, rfl, ⟨by simp, ?_⟩, ?_⟩
    · rw [List.sum_cons, sumN_eq _ hM]
      simp
    · intro i hi
      obtain ⟨j, rfl⟩ := Nat.exists_eq_succ_of_ne_zero hi.ne'
      simp only [List.getD_eq_getElem?_getD, Nat.succ_eq_add_one, List.getElem?_cons_succ, List.getElem?_map]
      cases w[j]? <;> rfl

/-- **C32, NoOpBalancer** and `MockBalancer` -/
theorem noOp_sum (w : List Nat) (r : List ℚ) : ∃ w', noOp w r = .ok w' ∧ Distribution w.length w.sum w' := ⟨w, rfl, rfl, rfl⟩

/-! Non-vacuity -/

example : initialWeights id 10 [1, 2, 0, 1 / 2] = .ok [2, 6, 0, 2] ∧ ooze id (1 / 2) [10, 0, 4] [1 / 2, 0, 1 / 4] = .ok [7, 2, 5] ∧
    random id [1 / 2, 1 / 3, 1 / 5] (fun i => i * 7) [3, 4, 5] = .ok [5, 4, 3] ∧ ooze id (1 / 2) [3, 4] [0, 0] = .ok [3, 4] := by
  decide +kernel

/-- the hypotheses of `random_overflow` can be met, e.g. by rounding to whole numbers -/
example : scaled (fun x => ⌈x⌉) [1, 0].sum (sumQ (fun x => ⌈x⌉) [1, 1]) [1, 1] = .ok [1, 1] := by decide +kernel

end LGD.C32
