import Verif.Misc.RandomInjective
import Verif.Misc.BalanceModel
import Verif.Ieee.RoundLemmas
import Verif.Props.C13

/-!
# C72 – random numbers
-/

namespace LGD.C72
open LGD.Rand

/-- Spec: multiplication with the matrix `A` of the Mersenne Twister. -/
def mulA (y : W) : W := if y.getLsbD 0 then (y >>> 1) ^^^ 0x9908B0DF#32 else y >>> 1

/-- Spec: the sequence of the Mersenne Twister MT19937 of Matsumoto and Nishimura; the first 624 values come from a linear
congruential generator which starts with the given number. -/
def MT19937 (first : W) (x : Nat → W) : Prop :=
  x 0 = first ∧ (∀ i, i < 623 → x (i + 1) = x i * 69069#32) ∧
  ∀ k, x (k + 624) = x (k + 397) ^^^ mulA ((x k).extractLsb 31 31 ++ (x (k + 1)).extractLsb 30 0)

/-- Spec: tempering, with the published parameters. -/
def tempered (y : W) : W :=
  let y := y ^^^ (y >>> 11)
  let y := y ^^^ ((y <<< 7) &&& 0x9D2C5680#32)
  let y := y ^^^ ((y <<< 15) &&& 0xEFC60000#32)
  y ^^^ (y >>> 18)

/-- Spec: the states which programs can reach. -/
inductive Reachable : State → Prop
  | start : Reachable start
  | seed {s s' : State} (w : W) : Reachable s → seedMT w s = some s' → Reachable s'
  | call {s s' : State} {r : W} : Reachable s → randomMT s = some (r, s') → Reachable s'

theorem mix_eq (a b : W) : (mixBits a b) = (a.extractLsb 31 31 ++ b.extractLsb 30 0 : BitVec 32) := by
  apply BitVec.eq_of_getLsbD_eq
  intro i hi
  rw [bit_mix, BitVec.getLsbD_append]
  by_cases h : i = 31
  · subst h; simp
  · have : i < 31 := by omega
    rw [if_neg h]
    simp [this]

theorem twist_eq (a b : W) : twist a b = mulA (a.extractLsb 31 31 ++ b.extractLsb 30 0) := by
  rw [← mix_eq]
  unfold twist mulA
  have h0 : (mixBits a b).getLsbD 0 = b.getLsbD 0 := by rw [bit_mix]; rfl
  rw [h0, if_congr (odd_iff b) rfl rfl]
  split
  · rfl
  · exact BitVec.xor_zero

theorem tempered_eq (y : W) : temper y = tempered y := rfl

theorem mt_twisted {f : W} {x : Nat → W} (h : MT19937 f x) : Twisted x := by
  intro k
  have := h.2.2 k
  rw [twist_eq]
  exact this

theorem mt_first {f : W} {x : Nat → W} (h : MT19937 f x) : ∀ i, i < N → x i = f * 69069 ^ i := by
  intro i
  induction i with
  | zero => intro _; rw [h.1]; simp
  | succ i ih =>
    intro hi
    rw [h.2.1 i (by unfold N at hi; omega), ih (by omega), BitVec.pow_succ, BitVec.mul_assoc]
    rfl

/-- the sequence exists -/
def mt (f : W) (k : Nat) : W :=
  if k < 624 then f * 69069 ^ k
  else mt f (k - 227) ^^^ mulA ((mt f (k - 624)).extractLsb 31 31 ++ (mt f (k - 623)).extractLsb 30 0)
termination_by k

theorem mt_spec (f : W) : MT19937 f (mt f) := by
  refine ⟨?_, ?_, ?_⟩
  · rw [mt, if_pos (by omega)]; simp
  · intro i hi
    rw [mt, if_pos (by omega), mt, if_pos (by omega), BitVec.pow_succ, BitVec.mul_assoc]
    rfl
  · intro k
    rw [mt, if_neg (by omega), show k + 624 - 227 = k + 397 by omega, show k + 624 - 624 = k by omega, show k + 624 - 623 = k + 1 by omega]

theorem mt_unique {f : W} {x y : Nat → W} (hx : MT19937 f x) (hy : MT19937 f y) : x = y := by
  funext k
  induction k using Nat.strong_induction_on with
  | _ k ih =>
    by_cases h : k < 624
    · rw [mt_first hx k h, mt_first hy k h]
    · have ex := hx.2.2 (k - 624)
      have ey := hy.2.2 (k - 624)
      rw [show k - 624 + 624 = k by omega] at ex ey
      rw [ex, ey, ih (k - 624 + 397) (by omega), ih (k - 624) (by omega), ih (k - 624 + 1) (by omega)]

theorem seed_at {seed : W} {x : Nat → W} (hx : MT19937 (seed ||| 1) x) (s : State) : ∃ s1, seedMT seed s = some s1 ∧ AtCall x 0 s1 := by
  obtain ⟨m, m1, m2⟩ := seedMT_spec seed s
  refine ⟨_, m1, ?_, by simp, by show (0 : Int) < N; decide, fun h => absurd h (by simp)⟩
  intro i hi
  show m i = x (0 + (0 : Int).toNat + i)
  rw [m2 i hi, ← mt_first hx i hi]
  simp

/-- **C72 (sequence).** After `Random::seed`, whatever happened before, the calls of `randomMT` return the numbers of the Mersenne
Twister MT19937, in order, from the beginning, and never access memory beyond the state vector. -/
theorem sequence (seed : W) (s : State) (x : Nat → W) (hx : MT19937 (seed ||| 1) x) (k : Nat) :
    ∃ s1 s2, seedMT seed s = some s1 ∧ draw k s1 = some ((List.range k).map (fun i => tempered (x (624 + i))), s2) := by
  obtain ⟨s1, a1, a2⟩ := seed_at hx s
  obtain ⟨s2, b1, _⟩ := draw_spec (mt_twisted hx) k a2
  refine ⟨s1, s2, a1, ?_⟩
  have e : (fun i => temper (x (0 + i + N))) = fun i => tempered (x (624 + i)) := by
    funext i
    rw [tempered_eq, show 0 + i + N = 624 + i by unfold N; omega]
  rw [b1, e]

theorem start_call : ∃ s', randomMT start = some (tempered (mt 4357 624), s') ∧ AtCall (mt 4357) 1 s' := by
  obtain ⟨m, m1, m2⟩ := seedMT_spec 4357 { start with left := start.left - 1 }
  have hx : MT19937 (4357 ||| 1) (mt 4357) := mt_spec 4357
  obtain ⟨m', r1, r2⟩ := reloadMT_spec (mt_twisted hx) 0 ⟨m, none, 0⟩ (by simp) (fun i hi => by
    have := m2 i hi
    rw [Nat.zero_add, mt_first hx i hi]; exact this)
  refine ⟨⟨m', some 1, N - 1⟩, ?_, ?_⟩
  · unfold randomMT
    rw [if_pos (by decide)]
    unfold reloadMT at r1 ⊢
    rw [if_pos (by decide), m1, Option.bind_some]
    rw [if_neg (by simp), Option.bind_some] at r1
    rw [← tempered_eq, show (624 : Nat) = 0 + N from rfl]
    exact r1
  · refine ⟨?_, by show (0 : Int) ≤ (N : Int) - 1; decide, by show (N : Int) - 1 < N; decide, fun _ => rfl⟩
    intro i hi
    have h1 : ((N : Int) - 1).toNat = 623 := by decide
    show m' i = _
    rw [r2 i hi]
    refine congrArg _ ?_
    simp only
    unfold N
    omega

/-- **C72 (default seed).** Without a call of `Random::seed` the numbers are those of the seed 4357. -/
theorem unseeded (k : Nat) : ∃ s, draw k start = some ((List.range k).map (fun i => tempered (mt 4357 (624 + i))), s) := by
  cases k with
  | zero => exact ⟨_, rfl⟩
  | succ k =>
    obtain ⟨s1, a1, a2⟩ := start_call
    obtain ⟨s2, b1, _⟩ := draw_spec (mt_twisted (mt_spec 4357)) k a2
    refine ⟨s2, ?_⟩
    rw [draw, a1, Option.bind_some]
    simp only
    rw [b1, List.range_succ_eq_map, List.map_cons, List.map_map]
    have e : (fun i => temper (mt 4357 (1 + i + N))) = (fun i => tempered (mt 4357 (624 + i))) ∘ Nat.succ := by
      funext i
      simp only [Function.comp]
      rw [tempered_eq, show 1 + i + N = 624 + i.succ by unfold N; omega]
    rw [e]
    rfl

theorem reachable_inv {s : State} (h : Reachable s) : s = start ∨ ∃ x k, Twisted x ∧ AtCall x k s := by
  induction h with
  | start => exact Or.inl rfl
  | @seed s s' w _ hs _ =>
    obtain ⟨s1, a1, a2⟩ := seed_at (mt_spec (w ||| 1)) s
    rw [hs] at a1
    cases a1
    exact Or.inr ⟨_, _, mt_twisted (mt_spec _), a2⟩
  | @call s s' r _ hs ih =>
    rcases ih with rfl | ⟨x, k, hx, hk⟩
    · obtain ⟨s1, a1, a2⟩ := start_call
      rw [hs] at a1
      obtain ⟨-, rfl⟩ := Prod.mk.inj (Option.some.inj a1)
      exact Or.inr ⟨_, _, mt_twisted (mt_spec _), a2⟩
    · obtain ⟨s1, a1, a2⟩ := randomMT_spec hx hk
      rw [hs] at a1
      obtain ⟨-, rfl⟩ := Prod.mk.inj (Option.some.inj a1)
      exact Or.inr ⟨_, _, hx, a2⟩

/-- **C72 (defined).** No sequence of calls leads to undefined behavior in `randomMT` or `seed`. -/
theorem defined {s : State} (h : Reachable s) : (∃ r s', randomMT s = some (r, s')) ∧ ∀ w, ∃ s', seedMT w s = some s' := by
  refine ⟨?_, fun w => ⟨_, (seedMT_spec w s).choose_spec.1⟩⟩
  rcases reachable_inv h with rfl | ⟨x, k, hx, hk⟩
  · exact ⟨_, _, start_call.choose_spec.1⟩
  · exact ⟨_, _, (randomMT_spec hx hk).choose_spec.1⟩

/-- **C72 (genUnsigned).** `genUnsigned(max)` returns the next number modulo `max`, hence a number below `max`. A `max` of 0 is
undefined behavior. The default never returns the largest `unsigned`. -/
theorem genUnsigned_spec {s : State} (h : Reachable s) (max : W) :
    (max ≠ 0 → ∃ r u s', randomMT s = some (u, s') ∧ genUnsigned max s = some (r, s') ∧ r.toNat = u.toNat % max.toNat ∧ r.toNat < max.toNat) ∧
    (max = 0 → genUnsigned max s = none) := by
  obtain ⟨u, s', hu⟩ := (defined h).1
  refine ⟨fun hm => ⟨u % max, u, s', hu, ?_, BitVec.toNat_umod, ?_⟩, fun hm => ?_⟩
  · unfold genUnsigned; rw [hu, Option.bind_some, if_neg hm]
  · rw [BitVec.toNat_umod]
    refine Nat.mod_lt _ (Nat.pos_of_ne_zero fun h0 => hm ?_)
    exact BitVec.eq_of_toNat_eq (by simpa using h0)
  · unfold genUnsigned; rw [hu, Option.bind_some, if_pos hm]

open LGD.Ieee

/-- **C72 (genDouble).** With IEEE arithmetic and a non-negative `double` `max`, the result lies in `[0, max]`; from `2⁻¹⁰⁴⁰` on
it is less than `max`. -/
theorem genDouble_range {s : State} (h : Reachable s) (max : ℚ) (hd : Double max) (h0 : 0 ≤ max) :
    ∃ r s', genDouble rnd max s = some (r, s') ∧ Double r ∧ 0 ≤ r ∧ r ≤ max ∧ ((2 : ℚ) ^ (-1040 : ℤ) ≤ max → r < max) := by
  obtain ⟨v, u, s', _, h2, _, h4⟩ := (genUnsigned_spec h maxUnsigned).1 (by decide)
  have hm : maxUnsigned.toNat = 4294967295 := by decide
  rw [hm] at h4
  set q : ℚ := rnd ((v.toNat : ℚ) / maxUnsigned.toNat) with hq
  have hv : (v.toNat : ℚ) ≤ 4294967294 := by exact_mod_cast (by omega : v.toNat ≤ 4294967294)
  have hv0 : (0 : ℚ) ≤ v.toNat := by positivity
  have q0 : 0 ≤ q := rnd_nonneg (by positivity)
  have hdd : Double (1 - 1 / 2 ^ 33) := ⟨2 ^ 33 - 1, -33, by norm_num, by norm_num, by norm_num⟩
  have q1 : q ≤ 1 - 1 / 2 ^ 33 := by
    refine rnd_le_of_le hdd ?_
    rw [hm, div_le_iff₀ (by norm_num)]
    norm_num
    linarith
  have hqm : q * max ≤ max := by
    have : q ≤ 1 := by linarith [show (0 : ℚ) ≤ 1 / 2 ^ 33 by norm_num]
    nlinarith
  refine ⟨rnd (q * max), s', ?_, double_rnd _, rnd_nonneg (mul_nonneg q0 h0), rnd_le_of_le hd hqm, ?_⟩
  · unfold genDouble
    rw [h2]
    rfl
  · intro hb
    have e := rnd_abs_error (q * max)
    rw [abs_of_nonneg (mul_nonneg q0 h0)] at e
    have e' := (abs_le.1 e).2
    have hle : q * max ≤ max - max / 2 ^ 33 := by
      have := mul_le_mul_of_nonneg_right q1 h0
      linarith
    have h53 : q * max / 2 ^ 53 ≤ max / 2 ^ 53 := div_le_div_of_nonneg_right hqm (by norm_num)
    have hp : (2 : ℚ) ^ (-1075 : ℤ) = (2 : ℚ) ^ (-1040 : ℤ) / 2 ^ 35 := by
      rw [show (-1075 : ℤ) = -1040 - 35 by norm_num, zpow_sub₀ (by norm_num)]
      norm_num
    have hp' : (2 : ℚ) ^ (-1075 : ℤ) ≤ max / 2 ^ 35 := by
      rw [hp]; exact div_le_div_of_nonneg_right hb (by norm_num)
    have hpos : 0 < max := lt_of_lt_of_le (two_pos _) hb
    linarith

/-- Spec: the first `k` numbers after `Random::seed(w)`. -/
def numbers (w : W) (s : State) (k : Nat) : Option (List W) := (seedMT w s).bind fun s => (draw k s).map Prod.fst

theorem numbers_eq (w : W) (s : State) (k : Nat) : numbers w s k = some ((List.range k).map (fun i => tempered (mt (w ||| 1) (624 + i)))) := by
  obtain ⟨s1, s2, a, b⟩ := sequence w s _ (mt_spec (w ||| 1)) k
  unfold numbers
  rw [a, Option.bind_some, b]
  rfl

/-- **C72 (which seeds differ).** Two seeds yield the same numbers exactly if they differ at most in the lowest bit. Otherwise
they differ within the first 229 numbers. -/
theorem same_numbers (v w : W) (s t : State) :
    (v ||| 1 = w ||| 1 → ∀ k, numbers v s k = numbers w t k) ∧ (v ||| 1 ≠ w ||| 1 → ∀ k, 229 ≤ k → numbers v s k ≠ numbers w t k) := by
  refine ⟨fun h k => by rw [numbers_eq, numbers_eq, h], fun h k hk he => h ?_⟩
  rw [numbers_eq, numbers_eq] at he
  have he := Option.some.inj he
  refine start_injective (mt_twisted (mt_spec (v ||| 1))) (mt_twisted (mt_spec (w ||| 1))) (mt_first (mt_spec _)) (mt_first (mt_spec _)) ?_
  intro i hi
  have := congrArg (fun l => l[i]?) he
  simp only [List.getElem?_map, List.getElem?_range (show i < k by omega), Option.map_some] at this
  rw [show i + N = 624 + i by unfold N; omega]
  exact Option.some.inj this

/-- Spec: the first `k` numbers after `Initializer::seedRNG(c)`. -/
def cellNumbers (n : Nat) (wraps : Nat → Bool) (dim c : Crd) (s : State) (k : Nat) : Option (List W) :=
  (seedRNG n wraps dim c s).bind fun s => (draw k s).map Prod.fst

theorem cellNumbers_eq (n : Nat) (wraps : Nat → Bool) (dim c : Crd) (s : State) (k : Nat) :
    cellNumbers n wraps dim c s k = numbers (BitVec.ofInt 32 (toIndex n (topoNormalize n wraps c dim) dim)) s k := rfl

theorem or_one (z : W) : (z ||| 1).toNat = 2 * (z.toNat / 2) + 1 := by
  rw [BitVec.toNat_or]
  show z.toNat ||| 1 = _
  apply Nat.eq_of_testBit_eq
  intro i
  cases i with
  | zero => simp [Nat.testBit_zero]
  | succ i => rw [Nat.testBit_or, Nat.testBit_succ, Nat.testBit_succ (x := 2 * (z.toNat / 2) + 1), show (2 * (z.toNat / 2) + 1) / 2 = z.toNat / 2 by omega, Nat.testBit_succ]; simp

theorem or_one_eq {a b : Int} (ha : 0 ≤ a) (hb : 0 ≤ b) (ha' : a < 2 ^ 32) (hb' : b < 2 ^ 32) :
    (BitVec.ofInt 32 a ||| 1 = BitVec.ofInt 32 b ||| 1) ↔ a / 2 = b / 2 := by
  have ea : (BitVec.ofInt 32 a).toNat = a.toNat := by
    rw [BitVec.toNat_ofInt, Int.emod_eq_of_lt ha (by omega)]
  have eb : (BitVec.ofInt 32 b).toNat = b.toNat := by
    rw [BitVec.toNat_ofInt, Int.emod_eq_of_lt hb (by omega)]
  constructor
  · intro h
    have := congrArg BitVec.toNat h
    rw [or_one, or_one, ea, eb] at this
    omega
  · intro h
    apply BitVec.eq_of_toNat_eq
    rw [or_one, or_one, ea, eb]
    omega

/-- **C72 (seedRNG, same cell).** All coordinates which denote the same cell get the same numbers, on all ranks. -/
theorem seedRNG_same (n : Nat) (hn : n ≤ 2) (wraps : Nat → Bool) (dim c d : Crd) (hd : ∀ k, k ≤ n → 0 < dim k)
    (hc : C13.OnePeriod n wraps dim c) (hd' : C13.OnePeriod n wraps dim d) (oc : ¬ C13.Outside n wraps dim c) (od : ¬ C13.Outside n wraps dim d)
    (h : ∀ k, k ≤ n → c k % dim k = d k % dim k) (s t : State) (k : Nat) : cellNumbers n wraps dim c s k = cellNumbers n wraps dim d t k := by
  have e : toIndex n (topoNormalize n wraps c dim) dim = toIndex n (topoNormalize n wraps d dim) dim := by
    have a := ((C13.normalize_spec n wraps dim c hd hc).2 oc).1
    have b := ((C13.normalize_spec n wraps dim d hd hd').2 od).1
    rw [C14.toIndex_lin n hn, C14.toIndex_lin n hn]
    exact lin_congr dim n 0 _ _ (fun j _ hj => by rw [a j (by omega), b j (by omega), h j (by omega)])
  rw [cellNumbers_eq, cellNumbers_eq, e]
  exact (same_numbers _ _ s t).1 rfl k

/-- **C72 (seedRNG, different cells; violates the documentation).** On a grid of less than `2³²` cells, two cells get the same
numbers exactly if their linear indices `2 i`, `2 i + 1` form a pair. So the seed is *not* unique to the coordinate. -/
theorem seedRNG_pairs (n : Nat) (hn : n ≤ 2) (wraps : Nat → Bool) (dim c d : Crd) (hd : ∀ k, k ≤ n → 0 < dim k)
    (hc : C14.InDim n dim c) (hd' : C14.InDim n dim d) (hv : C12.Volume n dim ≤ 2 ^ 32) (s t : State) :
    (∀ k, cellNumbers n wraps dim c s k = cellNumbers n wraps dim d t k) ↔ toIndex n c dim / 2 = toIndex n d dim / 2 := by
  have key : ∀ c, C14.InDim n dim c → toIndex n (topoNormalize n wraps c dim) dim = toIndex n c dim := by
    intro c hc
    have hp : C13.OnePeriod n wraps dim c := fun k hk _ => by have := hc k hk; omega
    have ho : ¬ C13.Outside n wraps dim c := fun ⟨k, hk, _, h⟩ => h (hc k hk)
    have a := ((C13.normalize_spec n wraps dim c hd hp).2 ho).1
    rw [C14.toIndex_lin n hn, C14.toIndex_lin n hn]
    exact lin_congr dim n 0 _ _ (fun j _ hj => by
      have := hc j (by omega)
      rw [a j (by omega), Int.emod_eq_of_lt this.1 this.2])
  have bc := (C14.index_bijection n hn dim hd).1 c hc
  have bd := (C14.index_bijection n hn dim hd).1 d hd'
  simp only [cellNumbers_eq]
  rw [key c hc, key d hd', ← or_one_eq bc.1 bd.1 (by omega) (by omega)]
  constructor
  · intro h
    by_contra hne
    exact (same_numbers _ _ s t).2 hne 229 le_rfl (h 229)
  · exact fun h => (same_numbers _ _ s t).1 h

/-- **C72 (seedRNG, neighbors; violates the documentation).** On every grid of at least two columns the first two cells get
identical numbers. -/
theorem seedRNG_neighbors (n : Nat) (wraps : Nat → Bool) (dim : Crd) (hd : ∀ k, k ≤ n → 0 < dim k) (h2 : 2 ≤ dim 0) (s t : State) (k : Nat) :
    cellNumbers n wraps dim (fun _ => 0) s k = cellNumbers n wraps dim (fun j => if j = 0 then 1 else 0) t k := by
  have key : ∀ c : Crd, (∀ j, j ≤ n → 0 ≤ c j ∧ c j < dim j) → topoNormalize n wraps c dim 0 = c 0 ∧ ∀ j, j ≤ n → topoNormalize n wraps c dim j = c j := by
    intro c hc
    have hp : C13.OnePeriod n wraps dim c := fun k hk _ => by have := hc k hk; omega
    have ho : ¬ C13.Outside n wraps dim c := fun ⟨k, hk, _, h⟩ => h (hc k hk)
    have a := ((C13.normalize_spec n wraps dim c hd hp).2 ho).1
    have b : ∀ j, j ≤ n → topoNormalize n wraps c dim j = c j := fun j hj => by
      have := hc j hj
      rw [a j hj, Int.emod_eq_of_lt this.1 this.2]
    exact ⟨b 0 (by omega), b⟩
  have k0 := key (fun _ => 0) (fun j hj => ⟨le_rfl, hd j hj⟩)
  have k1 := key (fun j => if j = 0 then 1 else 0) (fun j hj => by
    by_cases h : j = 0
    · subst h; simp; omega
    · simp [h]; exact hd j hj)
  have e0 : toIndex n (topoNormalize n wraps (fun _ => 0) dim) dim = 0 := by
    unfold toIndex
    match n, k0 with
    | 0, k0 => exact k0.1
    | 1, k0 => simp only; rw [k0.1, k0.2 1 (by omega)]; simp
    | n + 2, k0 => simp only; rw [k0.1, k0.2 1 (by omega), k0.2 2 (by omega)]; simp
  have e1 : toIndex n (topoNormalize n wraps (fun j => if j = 0 then 1 else 0) dim) dim = 1 := by
    unfold toIndex
    match n, k1 with
    | 0, k1 => simpa using k1.1
    | 1, k1 => simp only; rw [k1.1, k1.2 1 (by omega)]; simp
    | n + 2, k1 => simp only; rw [k1.1, k1.2 1 (by omega), k1.2 2 (by omega)]; simp
  rw [cellNumbers_eq, cellNumbers_eq, e0, e1]
  exact (same_numbers _ _ s t).1 (by decide) k

theorem mt_step (f : W) (k : Nat) : mt f (k + 624) = mt f (k + 397) ^^^ mulA ((mt f k).extractLsb 31 31 ++ (mt f (k + 1)).extractLsb 30 0) :=
  (mt_spec f).2.2 k

theorem mt_low (f : W) {k : Nat} (h : k < 624) : mt f k = f * 69069 ^ k := mt_first (mt_spec f) k h

/-- **C72 (RandomBalancer; violated).** There are a seed and a number of calls after which `genDouble` returns 0, so that
`RandomBalancer` on one rank divides 0 by 0 and converts the result to `long`. -/
theorem balancer_undefined : ∃ (seed : W) (k : Nat) (l : List W) (s s' : State), (seedMT seed start).bind (draw k) = some (l, s) ∧
    genDouble rnd 1 s = some (0, s') ∧ ∀ index w, Balance.random rnd [0] index [w] = .undefined := by
  obtain ⟨s1, a1, a2⟩ := seed_at (seed := 1728867989) (mt_spec 1728867989) start
  obtain ⟨s2, b1, b2⟩ := draw_spec (mt_twisted (mt_spec _)) 454 a2
  obtain ⟨s3, c1, _⟩ := randomMT_spec (mt_twisted (mt_spec _)) b2
  have z : mt 1728867989 (454 + 624) = 0 := by
    rw [mt_step, show 454 + 397 = 227 + 624 from rfl, mt_step, show 227 + 397 = 0 + 624 from rfl, mt_step,
      mt_low _ (show 0 + 397 < 624 by omega), mt_low _ (show 0 < 624 by omega), mt_low _ (show 0 + 1 < 624 by omega), mt_low _ (show 227 < 624 by omega),
      mt_low _ (show 227 + 1 < 624 by omega), mt_low _ (show 454 < 624 by omega), mt_low _ (show 454 + 1 < 624 by omega)]
    decide +kernel
  refine ⟨1728867989, 454, _, s2, s3, by rw [a1, Option.bind_some, b1], ?_, ?_⟩
  · have z' : temper (mt 1728867989 (0 + 454 + N)) = 0 := by
      rw [show 0 + 454 + N = 454 + 624 from rfl, z]; rfl
    unfold genDouble genUnsigned
    rw [c1, z', Option.bind_some, if_neg (by decide)]
    simp [rnd_zero]
  · intro index w
    have h : Balance.scaled rnd (Balance.sumN [w]) (Balance.sumQ rnd [0]) [0] = .undefined := by
      rw [Balance.scaled, if_pos]
      simp [Balance.sumQ, rnd_zero]
    unfold Balance.random
    simp only
    rw [h]

/-- **C72 (genDouble, tiny `max`).** For subnormal `max` the result may equal `max`. -/
theorem genDouble_max : ∃ s', genDouble rnd ((2 : ℚ) ^ (-1074 : ℤ)) start = some ((2 : ℚ) ^ (-1074 : ℤ), s') := by
  obtain ⟨s1, a1, _⟩ := start_call
  refine ⟨s1, ?_⟩
  have z : tempered (mt 4357 624) = 3510405877#32 := by
    rw [show 624 = 0 + 624 from rfl, mt_step, mt_low _ (show 0 + 397 < 624 by omega), mt_low _ (show 0 < 624 by omega), mt_low _ (show 0 + 1 < 624 by omega)]
    decide +kernel
  unfold genDouble genUnsigned
  rw [a1, z, Option.bind_some, if_neg (by decide)]
  have e : rnd (rnd ((((3510405877#32 % maxUnsigned : W)).toNat : ℚ) / (maxUnsigned.toNat : ℚ)) * (2 : ℚ) ^ (-1074 : ℤ)) = (2 : ℚ) ^ (-1074 : ℤ) := by
    decide +kernel
  simp only [Option.map_some]
  rw [e]

/-- non-vacuity: the first numbers of the default seed -/
example : tempered (mt 4357 624) = 3510405877#32 ∧ tempered (mt 4357 625) = 4290933890#32 ∧ tempered (mt 4357 626) = 2191955339#32 := by
  refine ⟨?_, ?_, ?_⟩
  · rw [show 624 = 0 + 624 from rfl, mt_step, mt_low _ (show 0 + 397 < 624 by omega), mt_low _ (show 0 < 624 by omega), mt_low _ (show 0 + 1 < 624 by omega)]
    decide +kernel
  · rw [show 625 = 1 + 624 from rfl, mt_step, mt_low _ (show 1 + 397 < 624 by omega), mt_low _ (show 1 < 624 by omega), mt_low _ (show 1 + 1 < 624 by omega)]
    decide +kernel
  · rw [show 626 = 2 + 624 from rfl, mt_step, mt_low _ (show 2 + 397 < 624 by omega), mt_low _ (show 2 < 624 by omega), mt_low _ (show 2 + 1 < 624 by omega)]
    decide +kernel

/-- non-vacuity: a 4 × 3 grid; the cells (1, 0), (2, 0) have different numbers, (2, 0), (3, 0) the same -/
example (s t : State) : (¬ ∀ k, cellNumbers 1 (fun _ => true) (fun k => if k = 0 then 4 else 3) (fun k => if k = 0 then 1 else 0) s k =
      cellNumbers 1 (fun _ => true) (fun k => if k = 0 then 4 else 3) (fun k => if k = 0 then 2 else 0) t k) ∧
    ∀ k, cellNumbers 1 (fun _ => true) (fun k => if k = 0 then 4 else 3) (fun k => if k = 0 then 2 else 0) s k =
      cellNumbers 1 (fun _ => true) (fun k => if k = 0 then 4 else 3) (fun k => if k = 0 then 3 else 0) t k := by
  have hd : ∀ k, k ≤ 1 → (0 : Int) < (fun k => if k = 0 then 4 else 3 : Crd) k := by
    intro k _; simp only; split <;> omega
  have hi : ∀ x : Int, 0 ≤ x → x < 4 → C14.InDim 1 (fun k => if k = 0 then 4 else 3) (fun k => if k = 0 then x else 0) := by
    intro x h0 h1 k _
    by_cases hk : k = 0
    · simp only [hk, if_true]; exact ⟨h0, h1⟩
    · simp [hk]
  have hv : C12.Volume 1 (fun k => if k = 0 then 4 else 3) ≤ 2 ^ 32 := by decide
  refine ⟨fun h => ?_, ?_⟩
  · have := (seedRNG_pairs 1 (by omega) (fun _ => true) _ _ _ hd (hi 1 (by omega) (by omega)) (hi 2 (by omega) (by omega)) hv s t).1 h
    revert this
    decide
  · exact (seedRNG_pairs 1 (by omega) (fun _ => true) _ _ _ hd (hi 2 (by omega) (by omega)) (hi 3 (by omega) (by omega)) hv s t).2 (by decide)

/-- non-vacuity: the start state and the states after seeding are reachable -/
example : ∃ s, Reachable s ∧ s.left = 0 := by
  obtain ⟨m, h, _⟩ := seedMT_spec 7 start
  exact ⟨_, .seed 7 .start h, rfl⟩

end LGD.C72
