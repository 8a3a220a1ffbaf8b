import Verif.Part.Geo

/-!
# The Z curve is a traversal of its box
-/

namespace LGD
open LGD.C12

theorem half_nonneg {a : Int} (h : 0 ≤ a) : a.tdiv 2 = a / 2 := by
  obtain ⟨m, rfl⟩ := Int.eq_ofNat_of_zero_le h
  rfl

/-! ## products and sums -/

theorem prod_nonneg (n : Nat) (d : Crd) (h : ∀ k, k ≤ n → 0 ≤ d k) : 0 ≤ crdProd n d := by
  induction n with
  | zero => exact h 0 (Nat.le_refl _)
  | succ n ih => exact Int.mul_nonneg (ih (fun k hk => h k (by omega))) (h _ (Nat.le_refl _))

theorem prod_pos_iff (n : Nat) (d : Crd) (h : ∀ k, k ≤ n → 0 ≤ d k) : 0 < crdProd n d ↔ ∀ k, k ≤ n → 0 < d k := by
  induction n with
  | zero =>
    constructor
    · intro h k hk
      have : k = 0 := by omega
      subst this; exact h
    · intro h; exact h 0 (Nat.le_refl _)
  | succ n ih =>
    have hn := prod_nonneg n d (fun k hk => h k (by omega))
    have hl := h (n + 1) (Nat.le_refl _)
    have ih := ih (fun k hk => h k (by omega))
    constructor
    · intro hp
      have hp : 0 < crdProd n d * d (n + 1) := hp
      have h1 : 0 < crdProd n d := by
        rcases Int.lt_or_eq_of_le hn with h | h
        · exact h
        · rw [← h, Int.zero_mul] at hp; omega
      have h2 : 0 < d (n + 1) := by
        rcases Int.lt_or_eq_of_le hl with h | h
        · exact h
        · rw [← h, Int.mul_zero] at hp; omega
      intro k hk
      by_cases hk' : k = n + 1
      · rw [hk']; exact h2
      · exact ih.1 h1 k (by omega)
    · intro hp
      exact Int.mul_pos (ih.2 (fun k hk => hp k (by omega))) (hp _ (Nat.le_refl _))

theorem prod_le (n : Nat) (a b : Crd) (h : ∀ k, k ≤ n → 0 ≤ a k ∧ a k ≤ b k) : crdProd n a ≤ crdProd n b := by
  induction n with
  | zero => exact (h 0 (Nat.le_refl _)).2
  | succ n ih =>
    have h1 := ih (fun k hk => h k (by omega))
    have h2 := h (n + 1) (Nat.le_refl _)
    exact Int.mul_le_mul h1 h2.2 h2.1 (Int.le_trans (prod_nonneg n a (fun k hk => (h k (by omega)).1)) h1)

theorem prod_lt (n : Nat) (a b : Crd) (h : ∀ k, k ≤ n → 0 ≤ a k ∧ a k ≤ b k) (hp : ∀ k, k ≤ n → 0 < b k) (j : Nat) (hj : j ≤ n) (hlt : a j < b j) :
    crdProd n a < crdProd n b := by
  induction n with
  | zero =>
    have : j = 0 := by omega
    subst this; exact hlt
  | succ n ih =>
    have h1 := prod_le n a b (fun k hk => h k (by omega))
    have h2 := h (n + 1) (Nat.le_refl _)
    have h3 := (prod_pos_iff n b (fun k hk => Int.le_of_lt (hp k (by omega)))).2 (fun k hk => hp k (by omega))
    have h4 := prod_nonneg n a (fun k hk => (h k (by omega)).1)
    have h5 := hp (n + 1) (Nat.le_refl _)
    show crdProd n a * a (n + 1) < crdProd n b * b (n + 1)
    by_cases hjn : j = n + 1
    · subst hjn
      calc crdProd n a * a (n + 1) ≤ crdProd n b * a (n + 1) := Int.mul_le_mul_of_nonneg_right h1 h2.1
        _ < crdProd n b * b (n + 1) := Int.mul_lt_mul_of_pos_left hlt h3
    · have := ih (fun k hk => h k (by omega)) (fun k hk => hp k (by omega)) (by omega)
      calc crdProd n a * a (n + 1) ≤ crdProd n a * b (n + 1) := Int.mul_le_mul_of_nonneg_left h2.2 h4
        _ < crdProd n b * b (n + 1) := Int.mul_lt_mul_of_pos_right this h5

/-- product against sum for positive extents: equality exactly if at most one extent exceeds 1 -/
theorem prod_sum (n : Nat) (d : Crd) (h : ∀ k, k ≤ n → 0 < d k) :
    1 ≤ crdSum n d - (n : Int) ∧ crdSum n d - (n : Int) ≤ crdProd n d ∧
    (crdProd n d = crdSum n d - (n : Int) ↔ ∀ i j, i < j → j ≤ n → d i = 1 ∨ d j = 1) ∧
    (crdProd n d = 1 ↔ ∀ k, k ≤ n → d k = 1) := by
  induction n with
  | zero =>
    have := h 0 (Nat.le_refl _)
    have e1 : crdSum 0 d = d 0 := rfl
    have e2 : crdProd 0 d = d 0 := rfl
    rw [e1, e2]
    refine ⟨by omega, by omega, ⟨fun _ i j _ _ => by omega, fun _ => by omega⟩, ⟨fun hh k hk => ?_, fun hh => hh 0 (Nat.le_refl _)⟩⟩
    have : k = 0 := by omega
    subst this; exact hh
  | succ n ih =>
    obtain ⟨i1, i2, i3, i4⟩ := ih (fun k hk => h k (by omega))
    have hd := h (n + 1) (Nat.le_refl _)
    have e1 : crdSum (n + 1) d = crdSum n d + d (n + 1) := rfl
    have e2 : crdProd (n + 1) d = crdProd n d * d (n + 1) := rfl
    have e3 : ((n + 1 : Nat) : Int) = (n : Int) + 1 := by omega
    rw [e1, e2, e3]
    generalize crdProd n d = P at *
    generalize hS : crdSum n d - (n : Int) = S at *
    have hS' : crdSum n d + d (n + 1) - ((n : Int) + 1) = S + (d (n + 1) - 1) := by omega
    rw [hS']
    generalize hD : d (n + 1) = D at *
    have key : P * D - (S + (D - 1)) = (P - 1) * (D - 1) + (P - S) := by
      rw [Int.sub_mul, Int.mul_sub, Int.mul_one, Int.one_mul]; omega
    have knn : 0 ≤ (P - 1) * (D - 1) := Int.mul_nonneg (by omega) (by omega)
    refine ⟨by omega, by omega, ?_, ?_⟩
    · constructor
      · intro he i j hij hj
        have k0 : (P - 1) * (D - 1) = 0 := by omega
        have k1 : P = S := by omega
        by_cases hj' : j = n + 1
        · subst hj'
          rcases Int.mul_eq_zero.1 k0 with h0 | h0
          · exact Or.inl (i4.1 (by omega) i (by omega))
          · right; omega
        · exact i3.1 k1 i j hij (by omega)
      · intro hh
        have k1 : P = S := i3.2 (fun i j hij hj => hh i j hij (by omega))
        by_cases hD1 : D = 1
        · rw [hD1, Int.mul_one]; omega
        · have : P = 1 := i4.2 (fun k hk => by
            rcases hh k (n + 1) (by omega) (Nat.le_refl _) with hx | hx
            · exact hx
            · omega)
          rw [this, Int.one_mul]; omega
    · constructor
      · intro he
        have k0 : (P - 1) * (D - 1) + (P - 1) + (D - 1) = 0 := by
          rw [Int.sub_mul, Int.mul_sub, Int.mul_one, Int.one_mul]; omega
        intro k hk
        by_cases hk' : k = n + 1
        · subst hk'; omega
        · exact i4.1 (by omega) k (by omega)
      · intro hh
        rw [i4.2 (fun k hk => hh k (by omega)), ← hD, hh _ (Nat.le_refl _)]; rfl

/-- the extents of a non-empty trivial box -/
theorem triv_dir (n : Nat) (d : Crd) (h : ∀ k, k ≤ n → 0 < d k) (ht : ∀ i j, i < j → j ≤ n → d i = 1 ∨ d j = 1) :
    zDir n d ≤ n ∧ (∀ k, k ≤ n → k ≠ zDir n d → d k = 1) ∧ d (zDir n d) = crdProd n d := by
  induction n with
  | zero =>
    refine ⟨Nat.le_refl _, fun k hk hne => ?_, rfl⟩
    have : k = 0 := by omega
    exact (hne this).elim
  | succ n ih =>
    obtain ⟨i1, i2, i3⟩ := ih (fun k hk => h k (by omega)) (fun i j hij hj => ht i j hij (by omega))
    have e2 : crdProd (n + 1) d = crdProd n d * d (n + 1) := rfl
    have hd := h (n + 1) (Nat.le_refl _)
    unfold zDir
    split
    · rename_i hgt
      have h1 : ∀ k, k ≤ n → d k = 1 := fun k hk => by
        rcases ht k (n + 1) (by omega) (Nat.le_refl _) with hx | hx
        · exact hx
        · omega
      refine ⟨Nat.le_refl _, fun k hk hne => h1 k (by omega), ?_⟩
      rw [e2, (prod_sum n d (fun k hk => h k (by omega))).2.2.2.2 h1, Int.one_mul]
    · have : d (n + 1) = 1 := by omega
      refine ⟨by omega, fun k hk hne => ?_, by rw [e2, this, Int.mul_one, i3]⟩
      by_cases hk' : k = n + 1
      · rw [hk', this]
      · exact i2 k (by omega) hne

theorem zDir_le (n : Nat) (d : Crd) : zDir n d ≤ n := by
  induction n with
  | zero => exact Nat.le_refl _
  | succ n ih => unfold zDir; split <;> omega

theorem hasTriv_pos {n : Nat} {d : Crd} (h : ∀ k, k ≤ n → 0 ≤ d k) (hp : 0 < crdProd n d) :
    hasTriv n d = true ↔ ∀ i j, i < j → j ≤ n → d i = 1 ∨ d j = 1 := by
  have h' := (prod_pos_iff n d h).1 hp
  rw [← (prod_sum n d h').2.2.1]
  unfold hasTriv
  simp only [Bool.or_eq_true, decide_eq_true_eq]
  constructor
  · rintro (h | h) <;> omega
  · intro h; right; omega

theorem not_triv {n : Nat} {d : Crd} (h : ∀ k, k ≤ n → 0 ≤ d k) (ht : hasTriv n d = false) :
    0 < crdProd n d ∧ (∀ k, k ≤ n → 0 < d k) ∧ ∃ i, i ≤ n ∧ 2 ≤ d i := by
  have hp : 0 < crdProd n d := by
    have := prod_nonneg n d h
    unfold hasTriv at ht
    simp only [Bool.or_eq_false_iff, decide_eq_false_iff_not] at ht
    omega
  have h' := (prod_pos_iff n d h).1 hp
  refine ⟨hp, h', Classical.byContradiction (fun hc => ?_)⟩
  have : hasTriv n d = true := (hasTriv_pos h hp).2 (fun i j hij hj => Or.inl (by
    have := h' i (by omega)
    refine Classical.byContradiction (fun h1 => hc ⟨i, by omega, by omega⟩)))
  rw [ht] at this; exact Bool.noConfusion this

/-! ## quadrants -/

/-- product with the choice of bits of `j` -/
def selProd (n : Nat) (lo hi : Crd) (j : Nat) : Int := crdProd n (fun k => if j.testBit k then hi k else lo k)

def sumN (f : Nat → Int) : Nat → Int
  | 0 => 0
  | m + 1 => sumN f m + f m

theorem sumN_add (f : Nat → Int) (a b : Nat) : sumN f (a + b) = sumN f a + sumN (fun i => f (a + i)) b := by
  induction b with
  | zero => simp [sumN]
  | succ b ih =>
    have : a + (b + 1) = (a + b) + 1 := by omega
    rw [this, sumN, sumN, ih]; omega

theorem sumN_mul (f : Nat → Int) (c : Int) (m : Nat) : sumN (fun i => f i * c) m = sumN f m * c := by
  induction m with
  | zero => simp [sumN]
  | succ m ih => rw [sumN, sumN, ih, Int.add_mul]

theorem sumN_congr {f g : Nat → Int} {m : Nat} (h : ∀ i, i < m → f i = g i) : sumN f m = sumN g m := by
  induction m with
  | zero => rfl
  | succ m ih => rw [sumN, sumN, ih (fun i hi => h i (by omega)), h m (by omega)]

theorem crdProd_congr {n : Nat} {a b : Crd} (h : ∀ k, k ≤ n → a k = b k) : crdProd n a = crdProd n b := by
  induction n with
  | zero => exact h 0 (Nat.le_refl _)
  | succ n ih =>
    show crdProd n a * a (n + 1) = crdProd n b * b (n + 1)
    rw [ih (fun k hk => h k (by omega)), h _ (Nat.le_refl _)]

theorem sel_sum (n : Nat) (lo hi : Crd) : sumN (selProd n lo hi) (2 ^ (n + 1)) = crdProd n (fun k => lo k + hi k) := by
  induction n with
  | zero =>
    show (0 + (if (0 : Nat).testBit 0 then hi 0 else lo 0)) + (if (1 : Nat).testBit 0 then hi 0 else lo 0) = lo 0 + hi 0
    have h0 : (0 : Nat).testBit 0 = false := by decide
    have h1 : (1 : Nat).testBit 0 = true := by decide
    rw [h0, h1]; simp
  | succ n ih =>
    have e : 2 ^ (n + 1 + 1) = 2 ^ (n + 1) + 2 ^ (n + 1) := by rw [Nat.pow_succ]; omega
    rw [e, sumN_add]
    have h1 : sumN (selProd (n + 1) lo hi) (2 ^ (n + 1)) = sumN (fun i => selProd n lo hi i * lo (n + 1)) (2 ^ (n + 1)) := by
      apply sumN_congr
      intro i hi'
      show crdProd n _ * (if i.testBit (n + 1) then hi (n + 1) else lo (n + 1)) = _
      rw [Nat.testBit_lt_two_pow hi']; rfl
    have h2 : sumN (fun i => selProd (n + 1) lo hi (2 ^ (n + 1) + i)) (2 ^ (n + 1)) = sumN (fun i => selProd n lo hi i * hi (n + 1)) (2 ^ (n + 1)) := by
      apply sumN_congr
      intro i hi'
      show crdProd n _ * (if (2 ^ (n + 1) + i).testBit (n + 1) then hi (n + 1) else lo (n + 1)) = _
      rw [Nat.testBit_two_pow_add_eq, Nat.testBit_lt_two_pow hi']
      simp only [Bool.not_false, if_true]
      congr 1
      apply crdProd_congr
      intro k hk
      show (if (2 ^ (n + 1) + i).testBit k then hi k else lo k) = _
      rw [Nat.testBit_two_pow_add_gt (by omega)]
    rw [h1, h2, sumN_mul, sumN_mul, ih]
    show _ = crdProd n (fun k => lo k + hi k) * (lo (n + 1) + hi (n + 1))
    rw [Int.mul_add]

theorem zAccu_sum (n : Nat) (b : Box) (j : Nat) :
    zAccu n b j = sumN (selProd n (fun k => (b.dims k).tdiv 2) (fun k => b.dims k - (b.dims k).tdiv 2)) j := by
  induction j with
  | zero => rfl
  | succ j ih => rw [zAccu, ih]; rfl

theorem zAccu_all (n : Nat) (b : Box) : zAccu n b (2 ^ (n + 1)) = crdProd n b.dims := by
  rw [zAccu_sum, sel_sum]
  apply crdProd_congr
  intro k _; omega

/-- index with given bits -/
def bitIdx (f : Nat → Bool) : Nat → Nat
  | 0 => 0
  | n + 1 => if f n then 2 ^ n + bitIdx f n else bitIdx f n

theorem bitIdx_spec (f : Nat → Bool) (n : Nat) : bitIdx f n < 2 ^ n ∧ ∀ k, k < n → (bitIdx f n).testBit k = f k := by
  induction n with
  | zero => exact ⟨Nat.zero_lt_one, fun k hk => by omega⟩
  | succ n ih =>
    have e : 2 ^ (n + 1) = 2 ^ n + 2 ^ n := by rw [Nat.pow_succ]; omega
    unfold bitIdx
    split
    · rename_i hf
      refine ⟨by omega, fun k hk => ?_⟩
      by_cases hk' : k = n
      · subst hk'
        rw [Nat.testBit_two_pow_add_eq, Nat.testBit_lt_two_pow ih.1, hf]; rfl
      · rw [Nat.testBit_two_pow_add_gt (by omega), ih.2 k (by omega)]
    · rename_i hf
      refine ⟨by omega, fun k hk => ?_⟩
      by_cases hk' : k = n
      · subst hk'
        rw [Nat.testBit_lt_two_pow ih.1]
        cases h : f k
        · rfl
        · exact (hf h).elim
      · rw [ih.2 k (by omega)]

theorem takeWhile_count (P : Nat → Bool) (m : Nat) (hP : ∀ i j, i < j → j < m → P j = true → P i = true) (i : Nat) (hi : i < m) :
    i < ((List.range m).takeWhile P).length ↔ P i = true := by
  have key : ∀ (l : List Nat) (a : Nat), l = List.range' a (m - a) → a ≤ m → ∀ i, a ≤ i → i < m →
      (i - a < (l.takeWhile P).length ↔ P i = true) := by
    intro l
    induction l with
    | nil =>
      intro a h1 h2 i h3 h4
      have := congrArg List.length h1
      rw [List.length_range', List.length_nil] at this; omega
    | cons x l ih =>
      intro a h1 h2 i h3 h4
      have hne : m - a ≠ 0 := by omega
      obtain ⟨q, hq⟩ : ∃ q, m - a = q + 1 := ⟨m - a - 1, by omega⟩
      rw [hq, List.range'_succ] at h1
      obtain ⟨hx, hl⟩ := List.cons.inj h1
      subst hx
      rw [List.takeWhile_cons]
      cases hPx : P x with
      | false =>
        simp only [Bool.false_eq_true, if_false, List.length_nil, Nat.not_lt_zero, false_iff]
        intro hPi
        by_cases hxi : x = i
        · subst hxi; rw [hPx] at hPi; exact Bool.noConfusion hPi
        · have := hP x i (by omega) h4 hPi
          rw [hPx] at this; exact Bool.noConfusion this
      | true =>
        simp only [if_true, List.length_cons]
        by_cases hxi : x = i
        · subst hxi
          simp [hPx]
        · have := ih (x + 1) (by rw [hl]; congr 1; omega) (by omega) i (by omega) h4
          rw [← this]; omega
  have := key (List.range m) 0 (by rw [List.range_eq_range']; rfl) (Nat.zero_le _) i (Nat.zero_le _) hi
  exact this

/-! ## laws -/

/-- admissible boxes -/
def ZInv (n : Nat) (b : Box) : Prop := ∀ k, k ≤ n → 0 ≤ b.dims k

theorem zKid_inv {n : Nat} {b : Box} (h : ZInv n b) (j : Nat) : ZInv n (zKid n b j) := by
  intro k hk
  have := h k hk
  show (0 : Int) ≤ (if j.testBit k then b.dims k - (b.dims k).tdiv 2 else (b.dims k).tdiv 2)
  rw [half_nonneg this]
  split <;> omega

theorem zKid_size_nonneg {n : Nat} {b : Box} (h : ZInv n b) (j : Nat) : 0 ≤ crdProd n (zKid n b j).dims := prod_nonneg n _ (zKid_inv h j)

theorem zAccu_mono {n : Nat} {b : Box} (h : ZInv n b) {i j : Nat} (hij : i ≤ j) : zAccu n b i ≤ zAccu n b j := by
  induction j with
  | zero => rw [Nat.le_zero.1 hij]
  | succ j ih =>
    by_cases hj : i = j + 1
    · rw [hj]
    · have := ih (by omega)
      have := zKid_size_nonneg h j
      rw [zAccu]; omega

theorem zLast_bit {n k : Nat} (hk : k ≤ n) : (2 ^ (n + 1) - 1).testBit k = true := by
  rw [Nat.testBit_two_pow_sub_one]
  exact decide_eq_true (by omega)

theorem zUp_cons {Q : Type} (K : Nat) (q : Q) (k : Nat) (st : List (Q × Nat)) (hk : k < K) :
    zUp K ((q, k) :: st) = if k + 1 = K then zUp K st else (q, k + 1) :: st := by
  rw [zUp]
  by_cases h : k + 1 = K
  · rw [if_pos h, if_pos (by omega)]
  · rw [if_neg h, if_neg (by omega)]

theorem z_laws (n : Nat) (cache : Crd → Option (List Crd)) : (zSub n cache).Laws (ZInv n) := by
  have hK : 0 < 2 ^ (n + 1) := Nat.two_pow_pos _
  refine { kpos := hK, size_nonneg := ?_, pos := ?_, kid_inv := ?_, kid_lt := ?_, len_eq := ?_, accu_zero := ?_, accu_succ := ?_, accu_last := ?_, last_pos := ?_, select_ok := ?_, up_nil := rfl, up_cons := ?_ }
  · intro q hq; exact prod_nonneg n _ hq
  · intro q hq ht; exact (not_triv hq ht).1
  · intro q j hq _ _; exact zKid_inv hq j
  · intro q j hq ht _
    obtain ⟨_, h2, i, hi, h3⟩ := not_triv hq ht
    refine prod_lt n _ _ (fun k hk => ⟨zKid_inv hq j k hk, ?_⟩) h2 i hi ?_
    · have := hq k hk
      show (if j.testBit k then q.dims k - (q.dims k).tdiv 2 else (q.dims k).tdiv 2) ≤ q.dims k
      rw [half_nonneg this]; split <;> omega
    · have := hq i hi
      show (if j.testBit i then q.dims i - (q.dims i).tdiv 2 else (q.dims i).tdiv 2) < q.dims i
      rw [half_nonneg this]; split <;> omega
  · intro q hq ht h0
    have h' := (prod_pos_iff n _ hq).1 h0
    exact (triv_dir n _ h' ((hasTriv_pos hq h0).1 ht)).2.2
  · intro q _ _; rfl
  · intro q j _ _ _; rfl
  · intro q hq ht
    have := zAccu_all n q
    obtain ⟨m, hm⟩ : ∃ m, 2 ^ (n + 1) = m + 1 := ⟨2 ^ (n + 1) - 1, by omega⟩
    show crdProd n q.dims = zAccu n q (2 ^ (n + 1) - 1) + crdProd n (zKid n q (2 ^ (n + 1) - 1)).dims
    rw [← this, hm]; rfl
  · intro q hq ht
    obtain ⟨_, h2, _⟩ := not_triv hq ht
    refine (prod_pos_iff n _ (zKid_inv hq _)).2 (fun k hk => ?_)
    show (0 : Int) < (if (2 ^ (n + 1) - 1).testBit k then q.dims k - (q.dims k).tdiv 2 else (q.dims k).tdiv 2)
    rw [zLast_bit hk, half_nonneg (hq k hk)]
    have := h2 k hk
    rw [if_pos rfl]
    show (0 : Int) < q.dims k - q.dims k / 2
    omega
  · intro q p hq ht h0 hp
    let P : Nat → Bool := fun j => decide (zAccu n q j ≤ p)
    have hcnt := takeWhile_count P (2 ^ (n + 1)) (fun i j hij _ hj => by
      have := zAccu_mono hq (Nat.le_of_lt hij)
      have := of_decide_eq_true hj
      exact decide_eq_true (by omega))
    have hlen : ((List.range (2 ^ (n + 1))).takeWhile P).length ≤ 2 ^ (n + 1) := by
      have := (List.takeWhile_sublist (l := List.range (2 ^ (n + 1))) P).length_le
      rwa [List.length_range] at this
    have h1 : 0 < ((List.range (2 ^ (n + 1))).takeWhile P).length := (hcnt 0 hK).2 (decide_eq_true h0)
    show zSelect n q p < 2 ^ (n + 1) ∧ zAccu n q (zSelect n q p) ≤ p ∧ p < zAccu n q (zSelect n q p + 1)
    have hsel : zSelect n q p = ((List.range (2 ^ (n + 1))).takeWhile P).length - 1 := rfl
    generalize ((List.range (2 ^ (n + 1))).takeWhile P).length = m at *
    rw [hsel]
    refine ⟨by omega, of_decide_eq_true ((hcnt (m - 1) (by omega)).1 (by omega)), ?_⟩
    have hm : m - 1 + 1 = m := by omega
    rw [hm]
    by_cases hmk : m = 2 ^ (n + 1)
    · rw [hmk, zAccu_all]; exact hp
    · have : ¬ P m = true := fun h => Nat.lt_irrefl _ ((hcnt m (by omega)).2 h)
      have : ¬ zAccu n q m ≤ p := fun h => this (decide_eq_true h)
      omega
  · intro q k st hk; exact zUp_cons _ q k st hk

theorem z_geo (n : Nat) (cache : Crd → Option (List Crd)) : (zSub n cache).Geo (ZInv n) n (fun b c => InBox n b c) := by
  refine { congr := ?_, empty := ?_, dir_le := ?_, triv := ?_, node := ?_, disj := ?_ }
  · intro q a b hab h k hk
    rw [← hab k hk]; exact h k hk
  · intro q c hq h0 hc
    have : 0 < crdProd n q.dims := (prod_pos_iff n _ hq).2 (fun k hk => by have := hc k hk; omega)
    have h0 : crdProd n q.dims ≤ 0 := h0
    omega
  · intro q _ _; exact zDir_le n _
  · intro q c hq ht h0
    have h0 : 0 < crdProd n q.dims := h0
    have h' := (prod_pos_iff n _ hq).1 h0
    obtain ⟨t1, t2, t3⟩ := triv_dir n _ h' ((hasTriv_pos hq h0).1 ht)
    show InBox n q c ↔ ∃ i : Nat, (i : Int) < crdProd n q.dims ∧ CEq n (upd q.origin (zDir n q.dims) (q.origin (zDir n q.dims) + (i : Int))) c
    rw [← t3]
    constructor
    · intro hc
      have h1 := hc _ t1
      refine ⟨(c (zDir n q.dims) - q.origin (zDir n q.dims)).toNat, by omega, fun k hk => ?_⟩
      unfold upd
      split
      · rename_i h; subst h; omega
      · rename_i h
        have h2 := hc k hk
        have h3 := t2 k hk h
        omega
    · rintro ⟨i, hi, hc⟩ k hk
      have := hc k hk
      unfold upd at this
      split at this
      · rename_i h; subst h; omega
      · rename_i h
        have h3 := t2 k hk h
        omega
  · intro q c hq ht
    constructor
    · intro hc
      obtain ⟨b1, b2⟩ := bitIdx_spec (fun k => decide (q.origin k + (q.dims k).tdiv 2 ≤ c k)) (n + 1)
      refine ⟨_, b1, fun k hk => ?_⟩
      have hb := b2 k (by omega)
      have hk2 := hc k hk
      generalize bitIdx _ (n + 1) = j at *
      show (if k ≤ n ∧ j.testBit k then q.origin k + (q.dims k).tdiv 2 else q.origin k) ≤ c k ∧
        c k < (if k ≤ n ∧ j.testBit k then q.origin k + (q.dims k).tdiv 2 else q.origin k) + (if j.testBit k then q.dims k - (q.dims k).tdiv 2 else (q.dims k).tdiv 2)
      rw [hb]
      by_cases hh : q.origin k + (q.dims k).tdiv 2 ≤ c k
      · rw [decide_eq_true hh, if_pos ⟨hk, rfl⟩, if_pos rfl]; omega
      · rw [decide_eq_false hh, if_neg (fun h => Bool.noConfusion h.2), if_neg (fun h => Bool.noConfusion h)]; omega
    · rintro ⟨j, _, hc⟩ k hk
      have h1 : (if k ≤ n ∧ j.testBit k then q.origin k + (q.dims k).tdiv 2 else q.origin k) ≤ c k ∧
        c k < (if k ≤ n ∧ j.testBit k then q.origin k + (q.dims k).tdiv 2 else q.origin k) + (if j.testBit k then q.dims k - (q.dims k).tdiv 2 else (q.dims k).tdiv 2) := hc k hk
      have h2 := hq k hk
      rw [half_nonneg h2] at h1
      cases hb : j.testBit k
      · simp only [hb, Bool.false_eq_true, and_false, if_false] at h1; omega
      · simp only [hb, hk, and_self, if_true] at h1; omega
  · intro q c i j hq ht hij hj hi hj'
    have hd : ∃ k, k ≤ n ∧ i.testBit k ≠ j.testBit k := Classical.byContradiction (fun hc => by
      have : i = j := Nat.eq_of_testBit_eq (fun k => by
        by_cases hk : k ≤ n
        · exact Classical.byContradiction (fun h => hc ⟨k, hk, h⟩)
        · have hle : 2 ^ (n + 1) ≤ 2 ^ k := Nat.pow_le_pow_right (by decide) (by omega)
          have hj2 : j < 2 ^ (n + 1) := hj
          rw [Nat.testBit_lt_two_pow (by omega : i < 2 ^ k), Nat.testBit_lt_two_pow (by omega : j < 2 ^ k)])
      omega)
    obtain ⟨k, hk, hne⟩ := hd
    have h1 : (if k ≤ n ∧ i.testBit k then q.origin k + (q.dims k).tdiv 2 else q.origin k) ≤ c k ∧
        c k < (if k ≤ n ∧ i.testBit k then q.origin k + (q.dims k).tdiv 2 else q.origin k) + (if i.testBit k then q.dims k - (q.dims k).tdiv 2 else (q.dims k).tdiv 2) := hi k hk
    have h2 : (if k ≤ n ∧ j.testBit k then q.origin k + (q.dims k).tdiv 2 else q.origin k) ≤ c k ∧
        c k < (if k ≤ n ∧ j.testBit k then q.origin k + (q.dims k).tdiv 2 else q.origin k) + (if j.testBit k then q.dims k - (q.dims k).tdiv 2 else (q.dims k).tdiv 2) := hj' k hk
    cases hb : i.testBit k <;> cases hb' : j.testBit k
    · exact hne (by rw [hb, hb'])
    · simp only [hb, hb', hk, Bool.false_eq_true, and_false, and_self, if_false, if_true] at h1 h2; omega
    · simp only [hb, hb', hk, Bool.false_eq_true, and_false, and_self, if_false, if_true] at h1 h2; omega
    · exact hne (by rw [hb, hb'])

/-! ## translation, cache -/

def ZRel (b b0 : Box) (o : Crd) : Prop := b.dims = b0.dims ∧ b.origin = fun k => o k + b0.origin k

theorem z_shift (n : Nat) (cache : Crd → Option (List Crd)) : Shift (zSub n cache) (ZInv n) ZRel := by
  refine { size := ?_, triv := ?_, dir := ?_, org := ?_, kid := ?_ }
  · rintro q q0 o ⟨h, _⟩; show crdProd n q.dims = crdProd n q0.dims; rw [h]
  · rintro q q0 o ⟨h, _⟩; show hasTriv n q.dims = hasTriv n q0.dims; rw [h]
  · rintro q q0 o ⟨h, _⟩; show zDir n q.dims = zDir n q0.dims; rw [h]
  · rintro q q0 o ⟨_, h⟩; exact h
  · rintro q q0 o j ⟨h1, h2⟩
    refine ⟨?_, ?_⟩
    · funext k
      show (if j.testBit k then _ else _) = (if j.testBit k then _ else _)
      rw [h1]
    · funext k
      show (if k ≤ n ∧ j.testBit k then _ else _) = o k + (if k ≤ n ∧ j.testBit k then _ else _)
      rw [h1, h2]
      split
      · dsimp only; omega
      · rfl

/-- coordinates of the Z curve in order -/
def zWalk (n : Nat) (b : Box) : List Crd := walk (zSub n (fun _ => none)) b

theorem zWalk_eq (n : Nat) (cache : Crd → Option (List Crd)) (b : Box) : walk (zSub n cache) b = zWalk n b :=
  walk_cache (zSub n (fun _ => none)) (fun b => cache b.dims) b

theorem z_nocache (n : Nat) : (zSub n (fun _ => none)).CacheOK (ZInv n) := by
  intro q l _ _ h
  cases h

theorem zFill_spec (n : Nat) (maxDim : Int) (d : Crd) (hd : ∀ k, k ≤ n → 0 ≤ d k) :
    zFill n maxDim d = if ∀ k, k ≤ n → d k < maxDim then some (zWalk n { origin := fun _ => 0, dims := d }) else none := by
  have hall : ((List.range (n + 1)).all (fun k => decide (d k < maxDim))) = decide (∀ k, k ≤ n → d k < maxDim) := by
    rw [Bool.eq_iff_iff, List.all_eq_true, decide_eq_true_iff]
    constructor
    · intro h k hk; exact of_decide_eq_true (h k (List.mem_range.2 (by omega)))
    · intro h k hk; exact decide_eq_true (h k (by have := List.mem_range.1 hk; omega))
  unfold zFill
  rw [hall]
  by_cases h : ∀ k, k ≤ n → d k < maxDim
  · rw [if_pos h, if_pos (decide_eq_true h)]
    have hq : ZInv n ({ origin := fun _ => 0, dims := d } : Box) := hd
    have hp := prod_nonneg n d hd
    have hm := (walk_mem (z_laws n (fun _ => none)) (z_geo n (fun _ => none)) _ _ hq rfl).2
    refine sqAll_spec (z_laws n _) (z_nocache n) hq hm _ ?_
    show crdProd n d < _
    omega
  · rw [if_neg h, decide_eq_false h]; rfl

theorem z_filled (n : Nat) (maxDim : Int) : (zSub n (zFill n maxDim)).CacheOK (ZInv n) := by
  intro q l hq _ h
  have h : zFill n maxDim q.dims = some l := h
  rw [zFill_spec n maxDim q.dims hq] at h
  split at h
  · have := Option.some.inj h
    subst this
    rw [zWalk_eq]
    exact (walk_shift (z_laws n (fun _ => none)) (z_shift n _) _ q ⟨fun _ => 0, q.dims⟩ q.origin hq hq
      ⟨rfl, by funext k; show q.origin k = q.origin k + 0; omega⟩ rfl).symm
  · cases h

end LGD
