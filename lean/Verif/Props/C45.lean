import Verif.Unstr.HoodModel
import Verif.Props.C38
import Verif.Props.C40

/-!
# C45: neighborhoods of unstructured grids enumerate the weights
-/

namespace LGD.C45

open LGD.Sell LGD.C38

variable {V : Type}

/-! ## cells stored as an array of structs -/

theorem inc_make {C : Nat} (hC : 0 < C) (x : Nat) : aInc C (aMake C x) = aMake C (x + 1) := by
  unfold aInc aMake
  dsimp only
  have h2 := Nat.mod_lt x hC
  rw [Nat.succ_div]
  have h1 : (x + 1) % C = (x % C + 1) % C := by rw [Nat.add_mod x 1 C, Nat.add_mod (x % C) 1 C, Nat.mod_mod]
  by_cases h : x % C + 1 = C
  · rw [h, Nat.mod_self] at h1
    rw [if_pos (by omega), if_pos (Nat.dvd_of_mod_eq_zero h1), h1]
  · have h3 : (x % C + 1) % C = x % C + 1 := Nat.mod_eq_of_lt (by omega)
    rw [h3] at h1
    rw [if_neg (by omega), if_neg (fun hd => by rw [Nat.mod_eq_zero_of_dvd hd] at h1; omega), h1]
    rfl

theorem iterLoop_eq {C : Nat} (hC : 0 < C) (c : Sell V) : ∀ len i, iterLoop C c (i + C * len) (len + 1) i = rowLoop C c len i := by
  intro len
  induction len with
  | zero => intro i; unfold iterLoop rowLoop; rw [Nat.mul_zero, Nat.add_zero, if_pos rfl]
  | succ len ih =>
    intro i
    unfold iterLoop rowLoop
    have : 0 < C * (len + 1) := Nat.mul_pos hC (Nat.succ_pos _)
    rw [if_neg (by omega), show i + C * (len + 1) = i + C + C * len by rw [Nat.mul_succ]; omega, ih (i + C)]

/-- **C45, iteration.** A neighborhood created for cell `x` and advanced `k` times shows exactly what `getRow` returns for the row of cell `x + k`: no entry of another row, no padding. -/
theorem cell_weights {C : Nat} (hC : 0 < C) (c : Sell V) (x k : Nat) : aWeights C c ((aInc C)^[k] (aMake C x)) = getRow C c (x + k) ∧ ((aInc C)^[k] (aMake C x)).x = x + k := by
  have h : (aInc C)^[k] (aMake C x) = aMake C (x + k) := by
    induction k with
    | zero => rfl
    | succ k ih => rw [Function.iterate_succ_apply', ih, inc_make hC, Nat.add_assoc]
  rw [h]
  refine ⟨?_, rfl⟩
  unfold aWeights getRow aMake
  dsimp only
  simp only [iterLoop_eq hC]

/-- **C45, rows of the matrix.** Beginning with any container which may be initialized, if the row lengths do not increase inside of the sorting scopes (always the case for SIGMA = 1 and for reordered grids),
the neighborhood of each cell shows exactly its row of the matrix. -/
theorem cell_row {C sigma N : Nat} (hC : 0 < C) (hs : 0 < sigma) (hN : 0 < N) (zero : V) {m srt : List (Entry V)} (hm : Fits m N) (hsrt : IsSort m srt) {c0 : Sell V} (h0 : Ready C sigma N c0)
    (hp : Presorted sigma N m) : ∃ c, initSorted C sigma zero c0 srt = some (false, c) ∧ ∀ x k, x + k < N → ∃ l, aWeights C c ((aInc C)^[k] (aMake C x)) = some l ∧ RowIs m (x + k) l := by
  obtain ⟨c, h1, _, h2⟩ := presorted hC hs hN zero hm hsrt h0 hp
  exact ⟨c, h1, fun x k h => by rw [(cell_weights hC c x k).1]; exact h2 _ h⟩

/-! ## cells stored as a struct of arrays -/

theorem scalarLoop_eq {C : Nat} (hC : 0 < C) (c : Sell V) (lane : Nat) : ∀ len i fuel, len < fuel → scalarLoop C c lane (i + len * C) fuel i = rowLoop C c len (i + lane) := by
  intro len
  induction len with
  | zero =>
    intro i fuel h
    obtain ⟨f, rfl⟩ : ∃ f, fuel = f + 1 := ⟨fuel - 1, by omega⟩
    unfold scalarLoop rowLoop; rw [Nat.zero_mul, Nat.add_zero, if_pos rfl]
  | succ len ih =>
    intro i fuel h
    obtain ⟨f, rfl⟩ : ∃ f, fuel = f + 1 := ⟨fuel - 1, by omega⟩
    unfold scalarLoop rowLoop
    have : 0 < (len + 1) * C := Nat.mul_pos (Nat.succ_pos _) hC
    rw [if_neg (by omega), show i + (len + 1) * C = i + C + len * C by rw [Nat.succ_mul]; omega, ih (i + C) f (by omega), show i + C + lane = i + lane + C by omega]

theorem rowLoop_of_slots (C : Nat) (c : Sell V) : ∀ (l : List (Int × V)) (i : Nat), (∀ j p, l[j]? = some p → c.column[i + j * C]? = some p.1 ∧ c.values[i + j * C]? = some p.2) →
    rowLoop C c l.length i = some l := by
  intro l
  induction l with
  | nil => intro i _; rfl
  | cons a l ih =>
    intro i h
    have h0 := h 0 a rfl
    rw [Nat.zero_mul, Nat.add_zero] at h0
    rw [List.length_cons]
    unfold rowLoop
    rw [h0.1, Option.bind_some, h0.2, Option.bind_some, ih (i + C) fun j p hj => by
      have := h (j + 1) p hj
      rwa [show i + (j + 1) * C = i + C + j * C by rw [Nat.succ_mul]; omega] at this]
    rfl

theorem vectorLoop_ok {C : Nat} (hC : 0 < C) (c : Sell V) (cv : Nat → List Int × List V) : ∀ len i fuel k, len < fuel →
    (∀ j, j < len → loadAt c.column (i + j * C) C = some (cv (k + j)).1 ∧ loadAt c.values (i + j * C) C = some (cv (k + j)).2) →
    vectorLoop C c (i + len * C) fuel i = some ((List.range' k len).map cv) := by
  intro len
  induction len with
  | zero =>
    intro i fuel k h _
    obtain ⟨f, rfl⟩ : ∃ f, fuel = f + 1 := ⟨fuel - 1, by omega⟩
    unfold vectorLoop; rw [Nat.zero_mul, Nat.add_zero, if_pos rfl]; rfl
  | succ len ih =>
    intro i fuel k h hl
    obtain ⟨f, rfl⟩ : ∃ f, fuel = f + 1 := ⟨fuel - 1, by omega⟩
    unfold vectorLoop
    have : 0 < (len + 1) * C := Nat.mul_pos (Nat.succ_pos _) hC
    obtain ⟨h1, h2⟩ := hl 0 (by omega)
    rw [Nat.zero_mul, Nat.add_zero, Nat.add_zero] at h1 h2
    rw [if_neg (by omega), show i + (len + 1) * C = i + C + len * C by rw [Nat.succ_mul]; omega, h1, Option.bind_some, h2, Option.bind_some, ih (i + C) f (k + 1) (by omega) fun j hj => by
      have := hl (j + 1) (by omega)
      rwa [show i + (j + 1) * C = i + C + j * C by rw [Nat.succ_mul]; omega, show k + (j + 1) = k + 1 + j by omega] at this]
    rfl

/-- `l`, filled up with zero weights for cell 0 -/
def padded (zero : V) (len : Nat) (l : List (Int × V)) : List (Int × V) := l ++ List.replicate (len - l.length) (0, zero)

theorem padded_length (zero : V) {len : Nat} {l : List (Int × V)} (h : l.length ≤ len) : (padded zero len l).length = len := by
  unfold padded; rw [List.length_append, List.length_replicate]; omega

theorem padded_get (zero : V) {len : Nat} {l : List (Int × V)} {j : Nat} {p : Int × V} (h : (padded zero len l)[j]? = some p) :
    p.1 = (l[j]?).elim 0 Prod.fst ∧ p.2 = (l[j]?).elim zero Prod.snd := by
  unfold padded at h
  by_cases hj : j < l.length
  · rw [List.getElem?_append_left hj] at h
    rw [h]; exact ⟨rfl, rfl⟩
  · rw [List.getElem?_append_right (by omega), List.getElem?_replicate] at h
    split at h
    · injection h with h
      rw [List.getElem?_eq_none (by omega), ← h]
      exact ⟨rfl, rfl⟩
    · cases h

theorem loadAt_get {α : Type} {l : List α} {i m : Nat} {x : List α} (h : loadAt l i m = some x) (j : Nat) (hj : j < m) : x[j]? = l[i + j]? := by
  unfold loadAt at h
  split at h
  · injection h with h
    rw [← h, List.getElem?_take_of_lt hj, List.getElem?_drop]
  · cases h

/-- **C45, vectorized iteration.** Each chunk has a length `len`. A scalar pass over cell `q * C + i` sees its row, filled up to this length with zero weights. A vectorized pass over the chunk sees `len` pairs
of vectors with C elements; lane `i` shows the same row. -/
theorem chunk_weights {C sigma N : Nat} (hC : 0 < C) (hs : 0 < sigma) (hN : 0 < N) (zero : V) {m srt : List (Entry V)} (hm : Fits m N) (hsrt : IsSort m srt) {c0 : Sell V} (h0 : Ready C sigma N c0) :
    ∃ c, initSorted C sigma zero c0 srt = some (false, c) ∧ ∀ q, q < blocks N C → ∃ len vs, vectorWeights C c ⟨q, 0⟩ = some vs ∧ vs.length = len ∧
      (∀ i, i < C → ∃ l, getRow C c (q * C + i) = some l ∧ l.length ≤ len ∧ scalarWeights C c ⟨q, i⟩ = some (padded zero len l) ∧
        ∀ (j : Nat) v, vs[j]? = some v → v.1[i]? = ((padded zero len l)[j]?).map Prod.fst ∧ v.2[i]? = ((padded zero len l)[j]?).map Prod.snd) ∧
      ∀ v ∈ vs, v.1.length = C ∧ v.2.length = C := by
  obtain ⟨c, h1, hcl, hco, _, hend, hlen, h2⟩ := layout hC hs hN zero hm hsrt h0
  refine ⟨c, h1, fun q hq => ?_⟩
  obtain ⟨len, o, h3, h4, h5, h6⟩ := h2 q hq
  choose! rows hr1 hr2 hr3 using h6
  -- the chunk ends before the end of the vectors
  have hbound : o + len * C ≤ c.values.length := by
    by_cases hz : len = 0
    · have : ∀ d, q + d ≤ blocks N C → ∃ o', c.chunkOffset[q + d]? = some o' ∧ o ≤ o' := by
        intro d
        induction d with
        | zero => intro _; exact ⟨o, h4, Nat.le_refl _⟩
        | succ d ih =>
          intro hd
          obtain ⟨o', e1, e2⟩ := ih (by omega)
          obtain ⟨l2, o2, _, e3, e4, _⟩ := h2 (q + d) (by omega)
          rw [e1] at e3
          injection e3 with e3
          exact ⟨o2 + l2 * C, e4, by omega⟩
      obtain ⟨o', e1, e2⟩ := this (blocks N C - q) (by omega)
      rw [show q + (blocks N C - q) = blocks N C by omega, hend] at e1
      injection e1 with e1
      rw [hz, Nat.zero_mul]; omega
    · have := (hr3 (C - 1) (by omega) (len - 1) (by omega)).2
      have hlt := (List.getElem?_eq_some_iff.1 this).1
      have : (len - 1) * C + C = len * C := by rw [← Nat.succ_mul]; congr 1; omega
      omega
  have hload : ∀ j, j < len → ∃ ys vs, loadAt c.column (o + j * C) C = some ys ∧ loadAt c.values (o + j * C) C = some vs := by
    intro j hj
    have : (j + 1) * C ≤ len * C := Nat.mul_le_mul_right _ hj
    rw [Nat.succ_mul] at this
    unfold loadAt
    rw [if_pos (by omega), if_pos (by omega)]
    exact ⟨_, _, rfl, rfl⟩
  choose! ys ws hy hw using hload
  have hlane : ∀ j i, j < len → i < C → (ys j)[i]? = some (((rows i)[j]?).elim 0 Prod.fst) ∧ (ws j)[i]? = some (((rows i)[j]?).elim zero Prod.snd) := by
    intro j i hj hi
    rw [loadAt_get (hy j hj) i hi, loadAt_get (hw j hj) i hi]
    exact hr3 i hi j hj
  have hvlen : o + len * C < o + len * C + 1 := Nat.lt_succ_self _
  refine ⟨len, (List.range' 0 len).map fun j => (ys j, ws j), ?_, by simp, ?_, ?_⟩
  · unfold vectorWeights
    dsimp only
    rw [h4, Option.bind_some, h5, Option.bind_some]
    refine vectorLoop_ok hC c (fun j => (ys j, ws j)) len o _ 0 ?_ fun j hj => by rw [Nat.zero_add]; exact ⟨hy j hj, hw j hj⟩
    have := Nat.le_mul_of_pos_right len hC
    omega
  · intro i hi
    refine ⟨rows i, hr1 i hi, hr2 i hi, ?_, ?_⟩
    · unfold scalarWeights
      dsimp only
      rw [h4, Option.bind_some, h5, Option.bind_some, scalarLoop_eq hC c i len o _ (by have := Nat.le_mul_of_pos_right len hC; omega)]
      have := rowLoop_of_slots C c (padded zero len (rows i)) (o + i) fun j p hj => by
        have hj' : j < len := by
          have := (List.getElem?_eq_some_iff.1 hj).1
          rwa [padded_length zero (hr2 i hi)] at this
        obtain ⟨e1, e2⟩ := padded_get zero hj
        rw [show o + i + j * C = o + j * C + i by omega, e1, e2]
        exact hr3 i hi j hj'
      rwa [padded_length zero (hr2 i hi)] at this
    · intro j v hv
      rw [List.getElem?_map] at hv
      obtain ⟨j', hj', rfl⟩ := Option.map_eq_some_iff.1 hv
      obtain ⟨hlt, he⟩ := List.getElem?_eq_some_iff.1 hj'
      rw [List.length_range'] at hlt
      rw [List.getElem_range', Nat.zero_add, Nat.one_mul] at he
      subst he
      obtain ⟨e1, e2⟩ := hlane j i hlt hi
      have hp : ∃ p, (padded zero len (rows i))[j]? = some p := ⟨_, List.getElem?_eq_getElem (by rw [padded_length zero (hr2 i hi)]; exact hlt)⟩
      obtain ⟨p, hp⟩ := hp
      obtain ⟨e3, e4⟩ := padded_get zero hp
      rw [e1, e2, hp, ← e3, ← e4]
      exact ⟨rfl, rfl⟩
  · intro v hv
    obtain ⟨j, hj, rfl⟩ := List.mem_map.1 hv
    rw [List.mem_range'_1] at hj
    have h7 := hy j (by omega)
    have h8 := hw j (by omega)
    unfold loadAt at h7 h8
    split at h7
    · split at h8
      · injection h7 with h7
        injection h8 with h8
        dsimp only
        rw [← h7, ← h8, List.length_take, List.length_take, List.length_drop, List.length_drop]
        omega
      · cases h8
    · cases h7

/-- **C45, streaks.** Loop peeling and neighborhoods together: whichever streak of cells is processed, each scalar pass sees the row of its cell, each vectorized pass sees the row of its `i`-th cell in lane `i`
(filled up with zero weights, and independent of what the neighborhood showed before). -/
theorem streak {k sigma N : Nat} (hs : 0 < sigma) (hN : 0 < N) (zero : V) {m srt : List (Entry V)} (hm : Fits m N) (hsrt : IsSort m srt) {c0 : Sell V} (h0 : Ready (2 ^ k) sigma N c0)
    (hp : Presorted sigma N m) (s e : Nat) (hse : s < N) (he : e ≤ N) :
    ∃ c ps n h, initSorted (2 ^ k) sigma zero c0 srt = some (false, c) ∧ Peel.peel (2 ^ k) s e (Peel.hoodMake (2 ^ k) s) = some (ps, n, h) ∧
      C40.visited ps = List.range' s (max e (C40.boundary (2 ^ k) s) - s) ∧
      ∀ p ∈ ps, (p.arity = 1 ∧ (p.index < N → ∃ len l, RowIs m p.index l ∧ scalarWeights (2 ^ k) c p.hood = some (padded zero len l))) ∨
        (p.arity = 2 ^ k ∧ ∃ vs, vectorWeights (2 ^ k) c p.hood = some vs ∧ ∀ i, i < p.arity → p.index + i < N → ∃ l, RowIs m (p.index + i) l ∧
          ∀ (j : Nat) v, vs[j]? = some v → v.1[i]? = ((padded zero vs.length l)[j]?).map Prod.fst ∧ v.2[i]? = ((padded zero vs.length l)[j]?).map Prod.snd) := by
  have hC : 0 < 2 ^ k := Nat.two_pow_pos k
  obtain ⟨c, h1, h2⟩ := chunk_weights hC hs hN zero hm hsrt h0
  obtain ⟨c', h1', _, h3⟩ := presorted hC hs hN zero hm hsrt h0 hp
  rw [h1] at h1'
  obtain rfl : c = c' := by injection h1' with h; exact (Prod.mk.inj h).2
  obtain ⟨ps, n, hd, h4, h5, _, h6, _⟩ := C40.visits k s e
  refine ⟨c, ps, n, hd, h1, h4, h5, fun p hp => ?_⟩
  obtain ⟨e1, e2, e3⟩ := h6 p hp
  -- the chunk of the pass
  have hq : p.arity ≠ 0 → p.index / 2 ^ k < blocks N (2 ^ k) := by
    intro ha
    have hin : p.index ∈ C40.visited ps := List.mem_flatMap.2 ⟨p, hp, List.mem_range'_1.2 ⟨Nat.le_refl _, by omega⟩⟩
    rw [h5, List.mem_range'_1] at hin
    have hb := (blocks_spec hN hC).1
    refine (Nat.div_lt_iff_lt_mul hC).2 ?_
    have hbd : C40.boundary (2 ^ k) s ≤ blocks N (2 ^ k) * 2 ^ k := by
      unfold C40.boundary
      split
      · omega
      · exact Nat.mul_le_mul_right _ ((Nat.div_lt_iff_lt_mul hC).2 (by omega))
    have := Nat.le_max_left e (C40.boundary (2 ^ k) s)
    rcases Nat.le_total e (C40.boundary (2 ^ k) s) with hh | hh
    · rw [Nat.max_eq_right hh] at hin; omega
    · rw [Nat.max_eq_left hh] at hin; omega
  have hhood : p.hood = ⟨p.index / 2 ^ k, p.index % 2 ^ k⟩ := by rw [← e1, ← e2]
  have hdm : p.index / 2 ^ k * 2 ^ k + p.index % 2 ^ k = p.index := by rw [Nat.mul_comm]; exact Nat.div_add_mod _ _
  rcases e3 with ha | ⟨ha, hal⟩
  · refine Or.inl ⟨ha, fun hlt => ?_⟩
    obtain ⟨len, vs, _, _, h7, _⟩ := h2 _ (hq (by omega))
    obtain ⟨l, h8, h9, h10, _⟩ := h7 (p.index % 2 ^ k) (Nat.mod_lt _ hC)
    rw [hdm] at h8
    obtain ⟨l', h11, h12⟩ := h3 p.index hlt
    rw [h8] at h11
    injection h11 with h11
    rw [hhood]
    exact ⟨len, l, h11 ▸ h12, h10⟩
  · refine Or.inr ⟨ha, ?_⟩
    obtain ⟨len, vs, h7, h8, h9, _⟩ := h2 _ (hq (by omega))
    rw [hal, Nat.add_zero] at hdm
    rw [hhood, hal]
    refine ⟨vs, h7, fun i hi hlt => ?_⟩
    rw [ha] at hi
    obtain ⟨l, h10, _, _, h11⟩ := h9 i hi
    rw [hdm] at h10
    obtain ⟨l', h12, h13⟩ := h3 _ hlt
    rw [h10] at h12
    injection h12 with h12
    rw [h8]
    exact ⟨l, h12 ▸ h13, h11⟩

/-- **C45, padding.** A sum over the weights in which zero weights do not count is not changed by the padding. -/
theorem padding_harmless {M : Type} [AddCommMonoid M] (zero : V) (f : Int × V → M) (hf : f (0, zero) = 0) (len : Nat) (l : List (Int × V)) : ((padded zero len l).map f).sum = (l.map f).sum := by
  unfold padded
  rw [List.map_append, List.sum_append, List.map_replicate, hf, (show ∀ k, (List.replicate k (0 : M)).sum = 0 from fun k => by induction k with | zero => rfl | succ k ih => rw [List.replicate_succ, List.sum_cons, ih, add_zero]), add_zero]

/-- **C45, deviation.** `operator+=` of the neighborhood changes the index, but not the chunk: the weights shown afterwards belong to another cell. -/
theorem add_negation : ∃ c : Sell Int, initSorted 1 1 0 (make 1 2) [((0, 1), 5), ((1, 0), 7)] = some (false, c) ∧ (aAdd (aMake 1 0) 1).x = 1 ∧
    aWeights 1 c (aAdd (aMake 1 0) 1) = some [(1, 5)] ∧ getRow 1 c 1 = some [(0, 7)] :=
  ⟨⟨[5, 7], [1, 0], [1, 1], [1, 1], [0, 1, 2], [(0, 0), (1, 1)], [0, 1], 2⟩, by rfl, by rfl, by rfl, by rfl⟩

/-! ## examples -/

/-- a matrix which meets the hypotheses of `cell_row` and `streak`, with C = 2, SIGMA = 2 -/
def exP : List (Entry Int) := [((0, 1), 5), ((0, 2), 6), ((1, 3), 7), ((2, 0), 8)]

example : Fits exP 4 ∧ IsSort exP exP ∧ Presorted 2 4 exP ∧ Ready 2 2 4 (make 2 4 : Sell Int) := by
  refine ⟨by unfold Fits; decide, ⟨List.Perm.refl _, by unfold coordLt exP; decide⟩, fun r r' h1 h2 h3 => ?_, ready_make _ _ _⟩
  have : (r = 0 ∧ r' = 1) ∨ (r = 2 ∧ r' = 3) := by omega
  rcases this with ⟨rfl, rfl⟩ | ⟨rfl, rfl⟩ <;> decide

example : (initSorted 2 2 0 (make 2 4) exP).map (fun r => (aWeights 2 r.2 (aInc 2 (aMake 2 0)), scalarWeights 2 r.2 ⟨0, 1⟩, vectorWeights 2 r.2 ⟨0, 0⟩)) =
    some (some [(3, 7)], some [(3, 7), (0, 0)], some [([1, 3], [5, 7]), ([2, 0], [6, 0])]) := by rfl

end LGD.C45
