import Verif.Part.CheckerModel
import Verif.Props.C19

/-!
# C20 – `CheckerboardingPartition`
-/

namespace LGD.C20
open LGD.C12 LGD.C04 LGD.C19

theorem sieve_ge (count i : Nat) (ps : List Nat) (hi : 2 ≤ i) (hp : ∀ p ∈ ps, 2 ≤ p) : ∀ p ∈ cbSieve count i ps, 2 ≤ p := by
  induction count generalizing i ps with
  | zero => exact hp
  | succ c ih =>
    rw [cbSieve]
    apply ih (i + 2) _ (by omega)
    split
    · exact hp
    · intro p h
      rcases List.mem_append.1 h with h | h
      · exact hp p h
      · simp at h; omega

theorem primes_ge (limit : Nat) : ∀ p ∈ cbPrimes limit, 2 ≤ p := sieve_ge _ _ _ (by omega) (by simp)

theorem divide_spec (p : Nat) (hp : 2 ≤ p) (fuel : Nat) : ∀ occ rem, 0 < rem → rem < fuel →
    ∃ o r, cbDivide p fuel occ rem = some (o, r) ∧ occ ≤ o ∧ 0 < r ∧ r ≤ rem ∧ p ^ (o - occ) * r = rem := by
  induction fuel with
  | zero => intro occ rem h1 h2; omega
  | succ f ih =>
    intro occ rem h1 h2
    rw [cbDivide, if_neg (by omega)]
    split
    · rename_i h
      have hd : p * (rem / p) = rem := Nat.mul_div_cancel' (Nat.dvd_of_mod_eq_zero h)
      have hpos : 0 < rem / p := by
        rcases Nat.eq_zero_or_pos (rem / p) with h3 | h3
        · rw [h3] at hd; omega
        · exact h3
      have hlt : rem / p < rem := Nat.div_lt_self h1 (by omega)
      obtain ⟨o, r, h3, h4, h5, h6, h7⟩ := ih (occ + 1) (rem / p) hpos (by omega)
      refine ⟨o, r, h3, by omega, h5, by omega, ?_⟩
      rw [show o - occ = (o - (occ + 1)) + 1 by omega, Nat.pow_succ, Nat.mul_comm _ p, Nat.mul_assoc, h7, hd]
    · exact ⟨occ, rem, rfl, Nat.le_refl _, h1, Nat.le_refl _, by simp⟩

def fprod : List (Nat × Nat) → Nat
  | [] => 1
  | f :: fs => f.1 ^ f.2 * fprod fs

theorem factor_spec (fuel : Nat) (ps : List Nat) (hp : ∀ p ∈ ps, 2 ≤ p) : ∀ rem, 0 < rem → rem < fuel →
    ∃ fs r, cbFactor fuel ps rem = some (fs, r) ∧ 0 < r ∧ fprod fs * r = rem := by
  induction ps with
  | nil => intro rem h1 _; exact ⟨[], rem, rfl, h1, by simp [fprod]⟩
  | cons p ps ih =>
    intro rem h1 h2
    obtain ⟨o, r, h3, h4, h5, h6, h7⟩ := divide_spec p (hp p (by simp)) fuel 0 rem h1 h2
    obtain ⟨fs, r2, k1, k2, k3⟩ := ih (fun q hq => hp q (by simp [hq])) r h5 (by omega)
    rw [cbFactor, h3]
    simp only [Option.bind_some, k1, Option.map_some]
    refine ⟨_, r2, rfl, k2, ?_⟩
    rw [Nat.sub_zero] at h7
    split
    · rw [fprod, Nat.mul_assoc, k3, h7]
    · have : o = 0 := by omega
      subst this
      rw [k3, ← h7]; simp

def lprod : List Nat → Nat
  | [] => 1
  | x :: xs => x * lprod xs

theorem lprod_set (l : List Nat) (i p : Nat) (hi : i < l.length) : lprod (l.set i (l.getD i 0 * p)) = lprod l * p := by
  induction l generalizing i with
  | nil => simp at hi
  | cons x xs ih =>
    cases i with
    | zero => simp [lprod, Nat.mul_assoc, Nat.mul_comm p]
    | succ i => 
      have := ih i (by simpa using hi)
      simp [lprod] at *
      rw [this, Nat.mul_assoc]

theorem minPos_lt (l : List Nat) (h : l ≠ []) : cbMinPos l < l.length := by
  unfold cbMinPos
  have hl : 0 < l.length := List.length_pos_iff.2 h
  have : ∀ (r : List Nat) (a : Nat), a < l.length → (∀ i ∈ r, i + 1 < l.length) →
      r.foldl (fun m i => if l.getD (i + 1) 0 < l.getD m 0 then i + 1 else m) a < l.length := by
    intro r
    induction r with
    | nil => intro a ha _; exact ha
    | cons x xs ih =>
      intro a ha h
      rw [List.foldl_cons]
      apply ih
      · have := h x (by simp)
        split <;> omega
      · exact fun i hi => h i (by simp [hi])
  exact this _ 0 hl (fun i hi => by have := List.mem_range.1 hi; omega)

theorem mulTimes_spec (p k : Nat) (l : List Nat) (h : l ≠ []) :
    (cbMulTimes p k l).length = l.length ∧ lprod (cbMulTimes p k l) = lprod l * p ^ k := by
  induction k generalizing l with
  | zero => simp [cbMulTimes]
  | succ k ih =>
    rw [cbMulTimes]
    have hl : (cbMulMin l p).length = l.length := by unfold cbMulMin; simp
    have hne : cbMulMin l p ≠ [] := by
      intro h0; rw [h0] at hl; exact h (List.length_eq_zero_iff.1 hl.symm)
    obtain ⟨h1, h2⟩ := ih _ hne
    refine ⟨by omega, ?_⟩
    rw [h2]
    unfold cbMulMin
    rw [lprod_set l _ p (minPos_lt l h), Nat.pow_succ, Nat.mul_assoc, Nat.mul_comm p]

theorem fold_spec (fs : List (Nat × Nat)) (l : List Nat) (h : l ≠ []) :
    (fs.foldl (fun l f => cbMulTimes f.1 f.2 l) l).length = l.length ∧
      lprod (fs.foldl (fun l f => cbMulTimes f.1 f.2 l) l) = lprod l * fprod fs := by
  induction fs generalizing l with
  | nil => simp [fprod]
  | cons f fs ih =>
    rw [List.foldl_cons]
    obtain ⟨h1, h2⟩ := mulTimes_spec f.1 f.2 l h
    have hne : cbMulTimes f.1 f.2 l ≠ [] := by
      intro h0; rw [h0] at h1; exact h (List.length_eq_zero_iff.1 h1.symm)
    obtain ⟨k1, k2⟩ := ih _ hne
    exact ⟨by omega, by rw [k2, h2, fprod, Nat.mul_assoc]⟩

theorem ins_spec (x : Nat) (l : List Nat) : (cbIns x l).length = l.length + 1 ∧ lprod (cbIns x l) = x * lprod l := by
  induction l with
  | nil => simp [cbIns, lprod]
  | cons y ys ih =>
    rw [cbIns]
    split
    · simp [lprod]
    · simp only [List.length_cons, lprod, ih.1, ih.2, true_and]
      rw [Nat.mul_left_comm]

theorem sort_spec (l : List Nat) : (cbSort l).length = l.length ∧ lprod (cbSort l) = lprod l := by
  induction l with
  | nil => simp [cbSort]
  | cons x xs ih =>
    rw [cbSort]
    obtain ⟨h1, h2⟩ := ins_spec x (cbSort xs)
    exact ⟨by rw [h1, ih.1, List.length_cons], by rw [h2, ih.2, lprod]⟩

theorem lprod_replicate (n : Nat) : lprod (List.replicate n 1) = 1 := by
  induction n with
  | zero => rfl
  | succ n ih => simp [List.replicate_succ, lprod, ih]

/-- The node grid has one entry per axis, and their product is the number of nodes, whatever limit is used for the factorization. -/
theorem node_grid (limit n nodes fuel : Nat) (hn : 0 < nodes) (hf : nodes < fuel) :
    ∃ g, cbGridDim limit n nodes fuel = some g ∧ g.length = n + 1 ∧ lprod g = nodes := by
  obtain ⟨fs, r, h1, h2, h3⟩ := factor_spec fuel (cbPrimes limit).reverse (fun p hp => primes_ge limit p (List.mem_reverse.1 hp)) nodes hn hf
  unfold cbGridDim
  rw [h1]
  simp only [Option.map_some]
  refine ⟨_, rfl, ?_⟩
  obtain ⟨k1, k2⟩ := sort_spec ((if r ≠ 1 then (r, 1) :: fs else fs).foldl (fun l f => cbMulTimes f.1 f.2 l) (List.replicate (n + 1) 1))
  obtain ⟨l1, l2⟩ := fold_spec (if r ≠ 1 then (r, 1) :: fs else fs) (List.replicate (n + 1) 1) (by simp [List.replicate_succ])
  refine ⟨by rw [k1, l1, List.length_replicate], ?_⟩
  rw [k2, l2, lprod_replicate, Nat.one_mul]
  split
  · rw [fprod, Nat.pow_one, Nat.mul_comm]; exact h3
  · have : r = 1 := by omega
    subst this; simpa using h3

/-! ## intervals of one axis -/

/-- pieces `l * d / g .. (l + 1) * d / g` -/
theorem piece_mono (d : Int) (hd : 0 ≤ d) (g : Nat) (hg : 0 < g) {a b : Int} (h : a ≤ b) : a * d / g ≤ b * d / g :=
  Int.ediv_le_ediv (by omega) (Int.mul_le_mul_of_nonneg_right h hd)

theorem piece_first (d : Int) (g : Nat) : 0 * d / (g : Int) = 0 := by simp

theorem piece_last (d : Int) (g : Nat) (hg : 0 < g) : (g : Int) * d / (g : Int) = d :=
  Int.mul_ediv_cancel_left _ (by omega)

theorem piece_find (d : Int) (hd : 0 ≤ d) (g : Nat) (hg : 0 < g) (x : Int) (h0 : 0 ≤ x) (h1 : x < d) :
    ∃ l : Nat, l < g ∧ (l : Int) * d / g ≤ x ∧ x < ((l : Int) + 1) * d / g := by
  have : ∀ m : Nat, x < (m : Int) * d / g → ∃ l : Nat, l < m ∧ (l : Int) * d / g ≤ x ∧ x < ((l : Int) + 1) * d / g := by
    intro m
    induction m with
    | zero => intro h; simp at h; omega
    | succ m ih =>
      intro h
      by_cases hc : x < (m : Int) * d / g
      · obtain ⟨l, a, b⟩ := ih hc; exact ⟨l, by omega, b⟩
      · exact ⟨m, by omega, by omega, by simpa using h⟩
  exact this g (by rw [piece_last d g hg]; exact h1)

theorem piece_pos (d : Int) (g : Nat) (hg : 0 < g) (hdg : (g : Int) ≤ d) (l : Int) : l * d / g < (l + 1) * d / g := by
  have h : (l * d + 1 * g) / (g : Int) = l * d / g + 1 := Int.add_mul_ediv_right _ _ (by omega)
  have h2 : (l * d + 1 * g) / (g : Int) ≤ (l + 1) * d / g := by
    apply Int.ediv_le_ediv (by omega)
    rw [Int.add_mul]; omega
  omega

/-! ## logical coordinates -/

theorem logical_spec2 (a b : Nat) (ha : 0 < a) : (∀ node, node < a * b → cbLogical [a, b] node 0 < a ∧ cbLogical [a, b] node 1 < b) ∧
    (∀ i j, i < a * b → j < a * b → cbLogical [a, b] i 0 = cbLogical [a, b] j 0 → cbLogical [a, b] i 1 = cbLogical [a, b] j 1 → i = j) ∧
    (∀ x y, x < a → y < b → ∃ node, node < a * b ∧ cbLogical [a, b] node 0 = x ∧ cbLogical [a, b] node 1 = y) := by
  simp only [cbLogical, List.getD_cons_zero, List.getD_cons_succ]
  refine ⟨?_, ?_, ?_⟩
  · intro node h
    refine ⟨Nat.mod_lt _ ha, ?_⟩
    rw [Nat.mod_eq_of_lt h]
    exact Nat.div_lt_of_lt_mul h
  · intro i j hi hj h1 h2
    rw [Nat.mod_eq_of_lt hi, Nat.mod_eq_of_lt hj] at h2
    rw [← Nat.div_add_mod i a, ← Nat.div_add_mod j a, h1, h2]
  · intro x y hx hy
    have hlt : x + a * y < a * b := by
      have : a * (y + 1) ≤ a * b := Nat.mul_le_mul_left a hy
      rw [Nat.mul_add] at this; omega
    refine ⟨x + a * y, hlt, ?_, ?_⟩
    · rw [Nat.add_mul_mod_self_left, Nat.mod_eq_of_lt hx]
    · rw [Nat.mod_eq_of_lt hlt, Nat.add_mul_div_left _ _ ha, Nat.div_eq_of_lt hx, Nat.zero_add]

theorem logical_spec3 (a b c : Nat) (ha : 0 < a) (hb : 0 < b) :
    (∀ node, node < a * b * c → cbLogical [a, b, c] node 0 < a ∧ cbLogical [a, b, c] node 1 < b ∧ cbLogical [a, b, c] node 2 < c) ∧
    (∀ i j, i < a * b * c → j < a * b * c → cbLogical [a, b, c] i 0 = cbLogical [a, b, c] j 0 → cbLogical [a, b, c] i 1 = cbLogical [a, b, c] j 1 →
      cbLogical [a, b, c] i 2 = cbLogical [a, b, c] j 2 → i = j) ∧
    (∀ x y z, x < a → y < b → z < c → ∃ node, node < a * b * c ∧ cbLogical [a, b, c] node 0 = x ∧ cbLogical [a, b, c] node 1 = y ∧
      cbLogical [a, b, c] node 2 = z) := by
  simp only [cbLogical, List.getD_cons_zero, List.getD_cons_succ]
  have hab : 0 < a * b := Nat.mul_pos ha hb
  refine ⟨?_, ?_, ?_⟩
  · intro node h
    exact ⟨Nat.mod_lt _ ha, Nat.div_lt_of_lt_mul (Nat.mod_lt _ hab), Nat.div_lt_of_lt_mul h⟩
  · intro i j hi hj h1 h2 h3
    have e1 : i % (a * b) % a = j % (a * b) % a := by
      rw [Nat.mod_mul_right_mod, Nat.mod_mul_right_mod]; exact h1
    have e2 : i % (a * b) = j % (a * b) := by
      rw [← Nat.div_add_mod (i % (a * b)) a, ← Nat.div_add_mod (j % (a * b)) a, e1, h2]
    rw [← Nat.div_add_mod i (a * b), ← Nat.div_add_mod j (a * b), e2, h3]
  · intro x y z hx hy hz
    have h1 : x + a * y < a * b := by
      have : a * (y + 1) ≤ a * b := Nat.mul_le_mul_left a hy
      rw [Nat.mul_add] at this; omega
    have h2 : (x + a * y) + a * b * z < a * b * c := by
      have : a * b * (z + 1) ≤ a * b * c := Nat.mul_le_mul_left _ hz
      rw [Nat.mul_add] at this; omega
    refine ⟨(x + a * y) + a * b * z, h2, ?_, ?_, ?_⟩
    · rw [Nat.mul_assoc, Nat.add_mul_mod_self_left, Nat.add_mul_mod_self_left, Nat.mod_eq_of_lt hx]
    · rw [Nat.add_mul_mod_self_left, Nat.mod_eq_of_lt h1, Nat.add_mul_div_left _ _ ha, Nat.div_eq_of_lt hx, Nat.zero_add]
    · rw [Nat.add_mul_div_left _ _ hab, Nat.div_eq_of_lt h1, Nat.zero_add]

/-- both dimensions in one statement -/
theorem logical_spec (n : Nat) (hn : n = 1 ∨ n = 2) (g : List Nat) (hl : g.length = n + 1) (hg : 0 < lprod g) :
    (∀ k, k ≤ n → 0 < g.getD k 0) ∧
    (∀ node, node < lprod g → ∀ k, k ≤ n → cbLogical g node k < g.getD k 0) ∧
    (∀ i j, i < lprod g → j < lprod g → (∀ k, k ≤ n → cbLogical g i k = cbLogical g j k) → i = j) ∧
    (∀ x : Nat → Nat, (∀ k, k ≤ n → x k < g.getD k 0) → ∃ node, node < lprod g ∧ ∀ k, k ≤ n → cbLogical g node k = x k) := by
  rcases hn with rfl | rfl
  · match g, hl with
    | [a, b], _ =>
      have hp : lprod [a, b] = a * b := by simp [lprod]
      rw [hp] at hg ⊢
      have ha : 0 < a := Nat.pos_of_mul_pos_right hg
      have hb : 0 < b := Nat.pos_of_mul_pos_left hg
      obtain ⟨h1, h2, h3⟩ := logical_spec2 a b ha
      have c2 : ∀ k : Nat, k ≤ 1 → k = 0 ∨ k = 1 := by omega
      refine ⟨?_, ?_, ?_, ?_⟩
      · intro k hk; rcases c2 k hk with rfl | rfl <;> simpa
      · intro node h k hk; rcases c2 k hk with rfl | rfl
        · exact (h1 node h).1
        · exact (h1 node h).2
      · intro i j hi hj h; exact h2 i j hi hj (h 0 (by omega)) (h 1 (by omega))
      · intro x hx
        obtain ⟨node, q1, q2, q3⟩ := h3 (x 0) (x 1) (hx 0 (by omega)) (hx 1 (by omega))
        refine ⟨node, q1, fun k hk => ?_⟩
        rcases c2 k hk with rfl | rfl
        · exact q2
        · exact q3
  · match g, hl with
    | [a, b, c], _ =>
      have hp : lprod [a, b, c] = a * b * c := by simp [lprod, Nat.mul_assoc]
      rw [hp] at hg ⊢
      have hab : 0 < a * b := Nat.pos_of_mul_pos_right hg
      have hc : 0 < c := Nat.pos_of_mul_pos_left hg
      have ha : 0 < a := Nat.pos_of_mul_pos_right hab
      have hb : 0 < b := Nat.pos_of_mul_pos_left hab
      obtain ⟨h1, h2, h3⟩ := logical_spec3 a b c ha hb
      have c2 : ∀ k : Nat, k ≤ 2 → k = 0 ∨ k = 1 ∨ k = 2 := by omega
      refine ⟨?_, ?_, ?_, ?_⟩
      · intro k hk; rcases c2 k hk with rfl | rfl | rfl <;> simpa
      · intro node h k hk; rcases c2 k hk with rfl | rfl | rfl
        · exact (h1 node h).1
        · exact (h1 node h).2.1
        · exact (h1 node h).2.2
      · intro i j hi hj h; exact h2 i j hi hj (h 0 (by omega)) (h 1 (by omega)) (h 2 (by omega))
      · intro x hx
        obtain ⟨node, q1, q2, q3, q4⟩ := h3 (x 0) (x 1) (x 2) (hx 0 (by omega)) (hx 1 (by omega)) (hx 2 (by omega))
        refine ⟨node, q1, fun k hk => ?_⟩
        rcases c2 k hk with rfl | rfl | rfl
        · exact q2
        · exact q3
        · exact q4

/-- **C20** (boxes). 2D and 3D, every grid with non-negative extents, every number of nodes ≥ 1: the cuboids tile the grid. -/
theorem cuboids (limit n : Nat) (hn : n = 1 ∨ n = 2) (grid : Box) (hb : ∀ k, k ≤ n → 0 ≤ grid.dims k) (nodes : Nat) (h0 : 0 < nodes)
    (fuel : Nat) (hf : nodes < fuel) : Tiles n grid nodes (cbCuboid limit n grid nodes fuel) := by
  obtain ⟨g, g1, g2, g3⟩ := node_grid limit n nodes fuel h0 hf
  obtain ⟨l0, l1, l2, l3⟩ := logical_spec n hn g g2 (by omega)
  rw [g3] at l1 l2 l3
  have hbox : ∀ i c, InBox n { origin := fun k => grid.origin k + cbLogical g i k * grid.dims k / (g.getD k 0 : Nat), dims := fun k =>
      ((cbLogical g i k + 1) * grid.dims k / (g.getD k 0 : Nat)) - cbLogical g i k * grid.dims k / (g.getD k 0 : Nat) } c ↔
      ∀ k, k ≤ n → (cbLogical g i k : Int) * grid.dims k / (g.getD k 0 : Nat) ≤ c k - grid.origin k ∧
        c k - grid.origin k < ((cbLogical g i k : Int) + 1) * grid.dims k / (g.getD k 0 : Nat) := by
    intro i c
    unfold InBox
    simp only
    constructor
    · intro h k hk; have := h k hk; omega
    · intro h k hk; have := h k hk; omega
  have hcub : ∀ i x, cbCuboid limit n grid nodes fuel i = some x → x = { origin := fun k => grid.origin k + cbLogical g i k * grid.dims k / (g.getD k 0 : Nat), dims := fun k =>
      ((cbLogical g i k + 1) * grid.dims k / (g.getD k 0 : Nat)) - cbLogical g i k * grid.dims k / (g.getD k 0 : Nat) } := by
    intro i x h
    unfold cbCuboid at h
    rw [g1] at h
    simp only [Option.map_some, Option.some.injEq] at h
    exact h.symm
  refine ⟨?_, ?_, ?_, ?_⟩
  · intro i hi
    unfold cbCuboid
    rw [g1]
    refine ⟨_, rfl, fun k hk => ?_⟩
    have := piece_mono (grid.dims k) (hb k hk) (g.getD k 0) (l0 k hk) (a := cbLogical g i k) (b := cbLogical g i k + 1) (by omega)
    simp only
    omega
  · intro i x c hi hx hc
    rw [hcub i x hx, hbox] at hc
    intro k hk
    have h1 := hc k hk
    have h2 := l1 i hi k hk
    have h3 := piece_mono (grid.dims k) (hb k hk) (g.getD k 0) (l0 k hk) (a := 0) (b := cbLogical g i k) (by omega)
    have h4 := piece_mono (grid.dims k) (hb k hk) (g.getD k 0) (l0 k hk) (a := cbLogical g i k + 1) (b := g.getD k 0) (by omega)
    rw [piece_first] at h3
    rw [piece_last _ _ (l0 k hk)] at h4
    omega
  · intro i j x y c hi hj hij hx hy hxc hyc
    rw [hcub i x hx, hbox] at hxc
    rw [hcub j y hy, hbox] at hyc
    apply hij
    apply l2 i j hi hj
    intro k hk
    have h1 := hxc k hk
    have h2 := hyc k hk
    rcases Nat.lt_trichotomy (cbLogical g i k) (cbLogical g j k) with h | h | h
    · have := piece_mono (grid.dims k) (hb k hk) (g.getD k 0) (l0 k hk) (a := cbLogical g i k + 1) (b := cbLogical g j k) (by omega)
      omega
    · exact h
    · have := piece_mono (grid.dims k) (hb k hk) (g.getD k 0) (l0 k hk) (a := cbLogical g j k + 1) (b := cbLogical g i k) (by omega)
      omega
  · intro c hc
    have hf : ∀ k, ∃ l : Nat, k ≤ n → l < g.getD k 0 ∧ (l : Int) * grid.dims k / (g.getD k 0 : Nat) ≤ c k - grid.origin k ∧
        c k - grid.origin k < ((l : Int) + 1) * grid.dims k / (g.getD k 0 : Nat) := by
      intro k
      by_cases hk : k ≤ n
      · have := hc k hk
        obtain ⟨l, h⟩ := piece_find (grid.dims k) (hb k hk) (g.getD k 0) (l0 k hk) (c k - grid.origin k) (by omega) (by omega)
        exact ⟨l, fun _ => h⟩
      · exact ⟨0, fun h => (hk h).elim⟩
    obtain ⟨f, hf⟩ := Classical.axiomOfChoice hf
    obtain ⟨node, p1, p2⟩ := l3 f (fun k hk => (hf k hk).1)
    refine ⟨node, _, p1, by unfold cbCuboid; rw [g1]; rfl, ?_⟩
    have := (hbox node c).2 (fun k hk => by rw [p2 k hk]; exact (hf k hk).2)
    exact this

/-- **C20** (regions). The regions of the nodes are pairwise disjoint and cover the grid; in 3D under the condition that no cuboid is flat in y
(which holds if the y-extent of the grid is at least the number of nodes in y-direction), see `flat_cuboid_hangs`. -/
theorem regions_partial (limit n : Nat) (hn : n = 1 ∨ n = 2) (grid : Box) (hb : ∀ k, k ≤ n → 0 ≤ grid.dims k) (nodes : Nat) (h0 : 0 < nodes)
    (fuel : Nat) (hf : nodes < fuel)
    (hf2 : ∀ i x, i < nodes → cbCuboid limit n grid nodes fuel i = some x → (Volume n (rows n x)).toNat < fuel)
    (hy : n = 2 → (nodes : Int) ≤ grid.dims 1) : Decomposes n grid nodes (cbRegion limit n grid nodes fuel) := by
  refine tiles_regions n grid nodes _ (cuboids limit n hn grid hb nodes h0 fuel hf) fuel ?_ hf2
  intro i x hi hx k hk1 hk2
  have hk : k = 1 := by omega
  have hn2 : n = 2 := by omega
  subst hk hn2
  obtain ⟨g, g1, g2, g3⟩ := node_grid limit 2 nodes fuel h0 hf
  obtain ⟨l0, _⟩ := logical_spec 2 (Or.inr rfl) g g2 (by omega)
  have hgd : g.getD 1 0 ≤ nodes := by
    match g, g2, g3, l0 with
    | [a, b, c], _, h, l0 =>
      simp [lprod] at h
      have h1 := l0 0 (by omega)
      have h2 := l0 2 (by omega)
      simp at h1 h2 ⊢
      rw [← h]
      calc b = 1 * (b * 1) := by simp
        _ ≤ a * (b * c) := Nat.mul_le_mul h1 (Nat.mul_le_mul_left _ h2)
  unfold cbCuboid at hx
  rw [g1] at hx
  simp only [Option.map_some, Option.some.injEq] at hx
  subst hx
  have := piece_pos (grid.dims 1) (g.getD 1 0) (l0 1 (by omega)) (by have := hy rfl; omega) (cbLogical g i 1)
  simp only
  omega

/-- In 2D there is no further condition. -/
theorem regions_2d (limit : Nat) (grid : Box) (hx : 0 ≤ grid.dims 0) (hy : 0 ≤ grid.dims 1) (nodes : Nat) (h0 : 0 < nodes) :
    ∃ fuel, Decomposes 1 grid nodes (cbRegion limit 1 grid nodes fuel) := by
  have hb : ∀ k, k ≤ 1 → 0 ≤ grid.dims k := by
    intro k hk
    have : k = 0 ∨ k = 1 := by omega
    rcases this with rfl | rfl <;> assumption
  refine ⟨nodes + (grid.dims 1).toNat + 1, regions_partial limit 1 (Or.inl rfl) grid hb nodes h0 _ (by omega) ?_ (by omega)⟩
  intro i x hi h
  have hin := cuboids limit 1 (Or.inl rfl) grid hb nodes h0 (nodes + (grid.dims 1).toNat + 1) (by omega)
  -- the height of a cuboid is at most that of the grid
  have hd : x.dims 1 ≤ grid.dims 1 := by
    obtain ⟨g, g1, g2, g3⟩ := node_grid limit 1 nodes (nodes + (grid.dims 1).toNat + 1) h0 (by omega)
    obtain ⟨l0, l1, _⟩ := logical_spec 1 (Or.inl rfl) g g2 (by omega)
    rw [g3] at l1
    unfold cbCuboid at h
    rw [g1] at h
    simp only [Option.map_some, Option.some.injEq] at h
    subst h
    have h2 := l1 i hi 1 (by omega)
    have h3 := piece_mono (grid.dims 1) hy (g.getD 1 0) (l0 1 (by omega)) (a := 0) (b := cbLogical g i 1) (by omega)
    have h4 := piece_mono (grid.dims 1) hy (g.getD 1 0) (l0 1 (by omega)) (a := cbLogical g i 1 + 1) (b := g.getD 1 0) (by omega)
    rw [piece_first] at h3
    rw [piece_last _ _ (l0 1 (by omega))] at h4
    simp only
    omega
  have : Volume 1 (rows 1 x) = x.dims 1 := by simp [Volume, rows, upd]
  rw [this]; omega

/-- 3D: if there are more nodes than cells in y-direction, the construction of a region never ends (8x1x8 grid, 4 nodes). -/
theorem flat_cuboid_hangs (fuel : Nat) : cbRegion 2 2 (bx 0 0 0 8 1 8) 4 fuel 0 = none := by
  unfold cbRegion
  have hfull : ∀ f x, cbCuboid 2 2 (bx 0 0 0 8 1 8) 4 f 0 = some x → x.dims 1 = 0 ∧ x.dims 2 ≠ 0 := by
    intro f x hx
    unfold cbCuboid at hx
    match hg : cbGridDim 2 2 4 f, hx with
    | some g, hx =>
      have : g = [1, 2, 2] := by
        rcases f with _ | _ | _ | f
        · cases hg
        · cases hg
        · cases hg
        · have h3 : cbGridDim 2 2 4 (f + 3) = some [1, 2, 2] := by rfl
          rw [h3] at hg; cases hg; rfl
      subst this
      simp only [Option.map_some, Option.some.injEq] at hx
      subst hx
      decide
  match hc : cbCuboid 2 2 (bx 0 0 0 8 1 8) 4 fuel 0 with
  | none => rfl
  | some x =>
    obtain ⟨h2, h3⟩ := hfull _ x hc
    rw [Option.bind_some, (C42.box_insert_hangs emptyIdx x h2 h3 _).1]

/-! non-vacuity -/

example : cbGridDim (Nat.sqrt 12) 1 12 20 = some [3, 4] ∧ cbGridDim (Nat.sqrt 60) 2 60 100 = some [3, 4, 5] := by decide +kernel
example : (List.range 6).map (fun i => (cbCuboid 2 1 (bx 3 2 0 7 5 0) 6 10 i).map (fun b => (b.origin 0, b.origin 1, b.dims 0, b.dims 1))) =
    [some (3, 2, 3, 1), some (6, 2, 4, 1), some (3, 3, 3, 2), some (6, 3, 4, 2), some (3, 5, 3, 2), some (6, 5, 4, 2)] := by decide +kernel

end LGD.C20
