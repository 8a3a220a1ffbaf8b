import Verif.Unstr.PeelModel

/-!
# C40: loop peeling
-/

namespace LGD.C40

open LGD.Peel

/-- the cells which a pass processes -/
def lanes (p : Pass) : List Nat := List.range' p.index p.arity

/-- all cells which are processed, in order -/
def visited (ps : List Pass) : List Nat := ps.flatMap lanes

/-- the first chunk boundary which is not before `x` -/
def boundary (C x : Nat) : Nat := if x % C = 0 then x else (x / C + 1) * C

/-- A pass is consistent if its neighborhood belongs to its cells, and if vectorized passes cover exactly one chunk. -/
def Consistent (C : Nat) (p : Pass) : Prop := p.hood.chunk = p.index / C ∧ p.hood.intra = p.index % C ∧ (p.arity = 1 ∨ (p.arity = C ∧ p.index % C = 0))

theorem hood_scalar {C : Nat} (hC : 0 < C) (x : Nat) : incIntra C (hoodMake C x) = hoodMake C (x + 1) := by
  unfold incIntra hoodMake incChunk
  have h1 : (x % C + 1) % C = (x + 1) % C := by rw [Nat.add_mod x 1 C, Nat.add_mod (x % C) 1 C, Nat.mod_mod]
  dsimp only
  rw [h1]
  rw [Nat.succ_div]
  split
  · rename_i h
    rw [if_pos (Nat.dvd_of_mod_eq_zero h), h]
  · rename_i h
    rw [if_neg (fun hd => h (Nat.mod_eq_zero_of_dvd hd))]
    rfl

theorem hood_vector {C : Nat} (hC : 0 < C) (q : Nat) : incChunk (hoodMake C (q * C)) = hoodMake C ((q + 1) * C) := by
  unfold hoodMake incChunk
  rw [Nat.mul_div_cancel _ hC, Nat.mul_div_cancel _ hC, Nat.mul_mod_left, Nat.mul_mod_left]

/-- scalar passes over the cells from `x` to `stop` -/
def scalars (C x m : Nat) : List Pass := (List.range' x m).map fun i => ⟨i, 1, hoodMake C i⟩

/-- vectorized passes over `m` chunks from chunk `q` on -/
def vectors (C q m : Nat) : List Pass := (List.range' q m).map fun i => ⟨i * C, C, hoodMake C (i * C)⟩

theorem lambda_scalar {C : Nat} (hC : 0 < C) (stop : Nat) : ∀ m x fuel, m = stop - x → m < fuel → lambda 1 (incIntra C) stop fuel x (hoodMake C x) = some (scalars C x m, x + m, hoodMake C (x + m)) := by
  intro m
  induction m with
  | zero =>
    intro x fuel h1 h2
    obtain ⟨f, rfl⟩ : ∃ f, fuel = f + 1 := ⟨fuel - 1, by omega⟩
    unfold lambda
    rw [if_neg (by omega)]
    rfl
  | succ m ih =>
    intro x fuel h1 h2
    obtain ⟨f, rfl⟩ : ∃ f, fuel = f + 1 := ⟨fuel - 1, by omega⟩
    unfold lambda
    rw [if_pos (by omega), hood_scalar hC, ih (x + 1) f (by omega) (by omega), Option.map_some, Nat.add_assoc, Nat.add_comm 1 m]
    rfl

theorem lambda_vector {C : Nat} (hC : 0 < C) (r : Nat) : ∀ m q fuel, m = r - q → m < fuel → lambda C incChunk (r * C) fuel (q * C) (hoodMake C (q * C)) = some (vectors C q m, (q + m) * C, hoodMake C ((q + m) * C)) := by
  intro m
  induction m with
  | zero =>
    intro q fuel h1 h2
    obtain ⟨f, rfl⟩ : ∃ f, fuel = f + 1 := ⟨fuel - 1, by omega⟩
    unfold lambda
    rw [if_neg (by have := Nat.mul_le_mul_right C (show r ≤ q by omega); omega)]
    rfl
  | succ m ih =>
    intro q fuel h1 h2
    obtain ⟨f, rfl⟩ : ∃ f, fuel = f + 1 := ⟨fuel - 1, by omega⟩
    unfold lambda
    rw [if_pos (Nat.mul_lt_mul_of_pos_right (by omega) hC), hood_vector hC, show q * C + C = (q + 1) * C by rw [Nat.succ_mul], ih (q + 1) f (by omega) (by omega), Option.map_some, Nat.add_assoc,
      Nat.add_comm 1 m]
    rfl

theorem nextStop_eq (k s : Nat) : (if s &&& (2 ^ k - 1) ≠ 0 then s + (2 ^ k - (s &&& (2 ^ k - 1))) else s) = boundary (2 ^ k) s := by
  rw [Nat.and_two_pow_sub_one_eq_mod]
  unfold boundary
  have hC : 0 < 2 ^ k := Nat.two_pow_pos k
  generalize 2 ^ k = C at hC ⊢
  have h1 := Nat.div_add_mod s C
  have h2 := Nat.mod_lt s hC
  by_cases h : s % C = 0
  · rw [if_neg (by simpa using h), if_pos h]
  · rw [if_pos h, if_neg h, Nat.succ_mul, Nat.mul_comm]
    omega

theorem boundary_spec {C : Nat} (hC : 0 < C) (s : Nat) : s ≤ boundary C s ∧ ∃ q, boundary C s = q * C := by
  unfold boundary
  have h1 := Nat.div_add_mod s C
  have h2 := Nat.mod_lt s hC
  split
  · exact ⟨Nat.le_refl _, s / C, by rw [Nat.mul_comm]; omega⟩
  · exact ⟨by rw [Nat.succ_mul, Nat.mul_comm]; omega, _, rfl⟩

theorem peel_eq (k s e : Nat) : let C := 2 ^ k
    ∃ q, boundary C s = q * C ∧
      peel C s e (hoodMake C s) = some (scalars C s (q * C - s) ++ vectors C q (e / C - q) ++ scalars C ((q + (e / C - q)) * C) (e - (q + (e / C - q)) * C),
        (q + (e / C - q)) * C + (e - (q + (e / C - q)) * C), hoodMake C ((q + (e / C - q)) * C + (e - (q + (e / C - q)) * C))) := by
  intro C
  have hC : 0 < C := Nat.two_pow_pos k
  obtain ⟨hle, q, hq⟩ := boundary_spec hC s
  refine ⟨q, hq, ?_⟩
  unfold peel
  dsimp only
  have e2 : e - (e &&& (C - 1)) = e / C * C := by
    show e - (e &&& (2 ^ k - 1)) = _
    rw [Nat.and_two_pow_sub_one_eq_mod]
    have h1 := Nat.div_add_mod e (2 ^ k)
    have h2 : 2 ^ k * (e / 2 ^ k) = e / C * C := Nat.mul_comm _ _
    omega
  rw [show (if s &&& (C - 1) ≠ 0 then s + (C - (s &&& (C - 1))) else s) = q * C from (nextStop_eq k s).trans hq, e2]
  rw [hq] at hle
  rw [lambda_scalar hC (q * C) (q * C - s) s _ rfl (by omega), Option.bind_some]
  dsimp only
  rw [show s + (q * C - s) = q * C by omega]
  rw [lambda_vector hC (e / C) (e / C - q) q _ rfl (by have := Nat.le_mul_of_pos_right (e / C) hC; omega), Option.bind_some]
  dsimp only
  rw [lambda_scalar hC e _ _ _ rfl (by omega)]
  rfl

theorem visited_scalars (C x m : Nat) : visited (scalars C x m) = List.range' x m := by
  unfold visited scalars lanes
  rw [List.flatMap_map]
  simp

theorem visited_vectors (C : Nat) : ∀ m q, visited (vectors C q m) = List.range' (q * C) (m * C) := by
  intro m
  induction m with
  | zero => intro q; simp [vectors, visited]
  | succ m ih =>
    intro q
    have := ih (q + 1)
    unfold vectors visited at this ⊢
    rw [List.range'_succ, List.map_cons, List.flatMap_cons, this]
    unfold lanes
    dsimp only
    rw [Nat.succ_mul q, List.range'_append_1, Nat.succ_mul, Nat.add_comm (m * C)]

theorem visited_append (a b : List Pass) : visited (a ++ b) = visited a ++ visited b := by unfold visited; rw [List.flatMap_append]

theorem consistent_scalars (C x m : Nat) : ∀ p ∈ scalars C x m, Consistent C p := by
  intro p hp
  obtain ⟨i, _, rfl⟩ := List.mem_map.1 hp
  exact ⟨rfl, rfl, Or.inl rfl⟩

theorem consistent_vectors (C q m : Nat) : ∀ p ∈ vectors C q m, Consistent C p := by
  intro p hp
  obtain ⟨i, _, rfl⟩ := List.mem_map.1 hp
  exact ⟨rfl, rfl, Or.inr ⟨rfl, Nat.mul_mod_left _ _⟩⟩

/-- **C40.** All vector arities, all streaks: The cells are processed in ascending order, each one once, from the beginning of the streak up to its end or, if this comes later, up to the next chunk boundary.
Each pass has the neighborhood of its cells; vectorized passes cover whole chunks, and each chunk which lies inside of the streak is processed by a vectorized pass. -/
theorem visits (k s e : Nat) : ∃ ps n h, peel (2 ^ k) s e (hoodMake (2 ^ k) s) = some (ps, n, h) ∧ visited ps = List.range' s (max e (boundary (2 ^ k) s) - s) ∧ n = max e (boundary (2 ^ k) s) ∧
    (∀ p ∈ ps, Consistent (2 ^ k) p) ∧ ∀ q, s ≤ q * 2 ^ k → (q + 1) * 2 ^ k ≤ e → ⟨q * 2 ^ k, 2 ^ k, hoodMake (2 ^ k) (q * 2 ^ k)⟩ ∈ ps := by
  obtain ⟨q, hq, hp⟩ := peel_eq k s e
  have hC : 0 < 2 ^ k := Nat.two_pow_pos k
  have hle := (boundary_spec hC s).1
  rw [hq] at hle
  have h1 : e / 2 ^ k * 2 ^ k ≤ e := Nat.div_mul_le_self e _
  have hmax : (q + (e / 2 ^ k - q)) * 2 ^ k + (e - (q + (e / 2 ^ k - q)) * 2 ^ k) = max e (q * 2 ^ k) := by
    by_cases h : q ≤ e / 2 ^ k
    · rw [show q + (e / 2 ^ k - q) = e / 2 ^ k by omega, Nat.max_eq_left (by have := Nat.mul_le_mul_right (2 ^ k) h; omega)]
      omega
    · have h2 : e < q * 2 ^ k := (Nat.div_lt_iff_lt_mul hC).1 (by omega)
      rw [show q + (e / 2 ^ k - q) = q by omega, Nat.max_eq_right h2.le]
      omega
  refine ⟨_, _, _, hp, ?_, by rw [hq, hmax], ?_, ?_⟩
  · rw [visited_append, visited_append, visited_scalars, visited_scalars, visited_vectors, hq, ← hmax]
    have e1 : List.range' s (q * 2 ^ k - s) ++ List.range' (q * 2 ^ k) ((e / 2 ^ k - q) * 2 ^ k) = List.range' s ((q + (e / 2 ^ k - q)) * 2 ^ k - s) := by
      have := @List.range'_append_1 s (q * 2 ^ k - s) ((e / 2 ^ k - q) * 2 ^ k)
      rw [show s + (q * 2 ^ k - s) = q * 2 ^ k by omega] at this
      rw [this, Nat.add_mul]
      congr 1
      omega
    rw [e1]
    have h3 : q * 2 ^ k ≤ (q + (e / 2 ^ k - q)) * 2 ^ k := Nat.mul_le_mul_right _ (by omega)
    have := @List.range'_append_1 s ((q + (e / 2 ^ k - q)) * 2 ^ k - s) (e - (q + (e / 2 ^ k - q)) * 2 ^ k)
    rw [show s + ((q + (e / 2 ^ k - q)) * 2 ^ k - s) = (q + (e / 2 ^ k - q)) * 2 ^ k by omega] at this
    rw [this]
    congr 1
    omega
  · intro p hp
    rcases List.mem_append.1 hp with hp | hp
    · rcases List.mem_append.1 hp with hp | hp
      · exact consistent_scalars _ _ _ p hp
      · exact consistent_vectors _ _ _ p hp
    · exact consistent_scalars _ _ _ p hp
  · intro r h2 h3
    refine List.mem_append.2 (Or.inl (List.mem_append.2 (Or.inr (List.mem_map.2 ⟨r, List.mem_range'_1.2 ⟨?_, ?_⟩, rfl⟩))))
    · refine Nat.le_of_mul_le_mul_right (?_ : q * 2 ^ k ≤ r * 2 ^ k) hC
      rw [← hq]
      unfold boundary
      split
      · exact h2
      · rename_i hne
        refine Nat.mul_le_mul_right _ (Nat.succ_le_of_lt ((Nat.div_lt_iff_lt_mul hC).2 (lt_of_le_of_ne h2 fun h => hne ?_)))
        rw [h, Nat.mul_mod_left]
    · have : r < e / 2 ^ k := Nat.lt_of_succ_le ((Nat.le_div_iff_mul_le hC).2 h3)
      omega

/-- **C40, one pass per cell.** If the streak begins at a chunk boundary or reaches the next one, then exactly its cells are processed, each one once. Missing: streaks inside of a single chunk
(`overshoot_negation`). -/
theorem exact_partial (k s e : Nat) (hse : s ≤ e) (h : s % 2 ^ k = 0 ∨ (s / 2 ^ k + 1) * 2 ^ k ≤ e) :
    ∃ ps h, peel (2 ^ k) s e (hoodMake (2 ^ k) s) = some (ps, e, h) ∧ visited ps = List.range' s (e - s) ∧ ∀ p ∈ ps, Consistent (2 ^ k) p := by
  obtain ⟨ps, n, hd, h1, h2, h3, h4, _⟩ := visits k s e
  have hb : boundary (2 ^ k) s ≤ e := by
    unfold boundary
    split
    · exact hse
    · exact h.resolve_left ‹_›
  rw [Nat.max_eq_left hb] at h2 h3
  exact ⟨ps, hd, h3 ▸ h1, h2, h4⟩

/-- **C40, deviation.** If the streak begins inside of a chunk and ends before the next chunk, then all cells up to the end of the chunk are processed, also those which do not belong to the streak. -/
theorem overshoot_negation (k s e : Nat) (h1 : s % 2 ^ k ≠ 0) (h2 : e < (s / 2 ^ k + 1) * 2 ^ k) : ∃ ps n h, peel (2 ^ k) s e (hoodMake (2 ^ k) s) = some (ps, n, h) ∧
    visited ps = List.range' s ((s / 2 ^ k + 1) * 2 ^ k - s) ∧ ∃ x ∈ visited ps, e ≤ x := by
  obtain ⟨ps, n, hd, h3, h4, _⟩ := visits k s e
  have hb : boundary (2 ^ k) s = (s / 2 ^ k + 1) * 2 ^ k := by unfold boundary; rw [if_neg h1]
  have hle := (boundary_spec (Nat.two_pow_pos k) s).1
  rw [hb] at h4 hle
  rw [Nat.max_eq_right h2.le] at h4
  refine ⟨ps, n, hd, h3, h4, (s / 2 ^ k + 1) * 2 ^ k - 1, ?_, by omega⟩
  rw [h4, List.mem_range'_1]
  have : s ≠ (s / 2 ^ k + 1) * 2 ^ k := fun h => h1 (by rw [h, Nat.mul_mod_left])
  omega

/-- a streak from 3 to 13 with vectors of 4 elements -/
example : peel 4 3 13 (hoodMake 4 3) = some ([⟨3, 1, ⟨0, 3⟩⟩, ⟨4, 4, ⟨1, 0⟩⟩, ⟨8, 4, ⟨2, 0⟩⟩, ⟨12, 1, ⟨3, 0⟩⟩], 13, ⟨3, 1⟩) := by decide +kernel

/-- the hypotheses of `exact_partial` and `overshoot_negation` -/
example : (3 % 2 ^ 2 = 0 ∨ (3 / 2 ^ 2 + 1) * 2 ^ 2 ≤ 13) ∧ 1 % 2 ^ 2 ≠ 0 ∧ 3 < (1 / 2 ^ 2 + 1) * 2 ^ 2 ∧
    (peel 4 1 3 (hoodMake 4 1)).map (fun r => visited r.1) = some [1, 2, 3] := by decide +kernel

end LGD.C40
