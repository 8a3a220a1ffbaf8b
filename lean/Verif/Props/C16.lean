import Verif.Part.Z

/-!
# C16 – `ZCurvePartition`
-/

namespace LGD.C16
open LGD.C12 LGD.C04

/-- cache contents: never filled, or filled by `fillCaches` with any maximum dimension -/
def Caches (n : Nat) (cache : Crd → Option (List Crd)) : Prop := cache = (fun _ => none) ∨ ∃ m, cache = zFill n m

theorem caches_ok {n : Nat} {cache : Crd → Option (List Crd)} (h : Caches n cache) : (zSub n cache).CacheOK (ZInv n) := by
  rcases h with rfl | ⟨m, rfl⟩
  · exact z_nocache n
  · exact z_filled n m

theorem zWalk_enum (n : Nat) (b : Box) (hb : ∀ k, k ≤ n → 0 ≤ b.dims k) :
    (zWalk n b).Pairwise (fun a b => ¬ CEq n a b) ∧ (∀ c, (∃ c' ∈ zWalk n b, CEq n c' c) ↔ InBox n b c) ∧
    ((zWalk n b).length : Int) = Volume n b.dims := by
  have h := walk_mem (z_laws n (fun _ => none)) (z_geo n (fun _ => none)) _ b hb rfl
  refine ⟨h.2, h.1, ?_⟩
  have := walk_length (z_laws n (fun _ => none)) (q := b) hb
  rw [volume_eq]
  exact this

/-- **C16.** In every dimension and for every box with non-negative extents, with the cache either off or filled:
iteration from `begin()` to `end()` terminates, yields each coordinate of the box exactly once and nothing else, and
`curve[p]` is the `p`-th element of that sequence (the end iterator for larger `p`). -/
theorem traversal (n : Nat) (cache : Crd → Option (List Crd)) (hc : Caches n cache) (b : Box) (hb : ∀ k, k ≤ n → 0 ≤ b.dims k)
    (fuel : Nat) (hf : Volume n b.dims < fuel) :
    ∃ l, sqAll n (zSub n cache) b fuel = some l ∧ l.Pairwise (fun a b => ¬ CEq n a b) ∧
      (∀ c, (∃ c' ∈ l, CEq n c' c) ↔ InBox n b c) ∧ (l.length : Int) = Volume n b.dims ∧
      ∀ p, ∃ it, zStart n cache b p = some it ∧ (∀ x, l[p]? = some x → it.endReached = false ∧ it.cursor = x) ∧
        (l.length ≤ p → it.endReached = true ∧ it.cursor = b.origin) := by
  obtain ⟨h1, h2, h3⟩ := zWalk_enum n b hb
  rw [← zWalk_eq n cache b] at h1 h2 h3
  refine ⟨walk (zSub n cache) b, sqAll_spec (z_laws n cache) (caches_ok hc) hb h1 fuel ?_, h1, h2, h3, ?_⟩
  · rw [volume_eq] at hf; exact hf
  · intro p
    exact sqStart_get (z_laws n cache) (caches_ok hc) (q := b) hb p

/-- Regions of a Z curve partition: inside the box, disjoint, prescribed sizes, covering. -/
theorem partition (n : Nat) (cache : Crd → Option (List Crd)) (hc : Caches n cache) (b : Box) (hb : ∀ k, k ≤ n → 0 ≤ b.dims k)
    (offset : Nat) (ws : List Nat) (fuel : Nat) (hf : Volume n b.dims < fuel) :
    IsPartition n b offset ws (zRegion n cache b offset ws fuel) := by
  obtain ⟨h1, h2, h3⟩ := zWalk_enum n b hb
  rw [← zWalk_eq n cache b] at h1 h2 h3
  exact curve_partition (sq_curve (z_laws n cache) (caches_ok hc) n b h1) b _ offset ws fuel h1 h2 h3
    (fun p _ => sqStart_spec (z_laws n cache) (caches_ok hc) b hb p) (by omega)

/-! ## the order is the Morton order -/

theorem getElem_flatMap_const {α β : Type} (f : α → List β) (m : Nat) (l : List α) (h : ∀ a ∈ l, (f a).length = m) (j r : Nat) (a : α)
    (hj : l[j]? = some a) (hr : r < m) : (l.flatMap f)[j * m + r]? = (f a)[r]? := by
  induction l generalizing j with
  | nil => simp at hj
  | cons x l ih =>
    have hx := h x (List.mem_cons_self ..)
    rw [List.flatMap_cons]
    cases j with
    | zero =>
      have : x = a := by simpa using hj
      subst this
      rw [List.getElem?_append_left (by omega), Nat.zero_mul, Nat.zero_add]
    | succ j =>
      rw [List.getElem?_append_right (by rw [hx, Nat.succ_mul]; omega), hx, Nat.succ_mul]
      have : j * m + m + r - m = j * m + r := by omega
      rw [this]
      exact ih (fun a ha => h a (List.mem_cons_of_mem _ ha)) j (by simpa using hj)

theorem prod_const (n : Nat) (x : Nat) : crdProd n (fun _ => (x : Int)) = ((x ^ (n + 1) : Nat) : Int) := by
  induction n with
  | zero => show (x : Int) = _; rw [Nat.pow_one]
  | succ n ih =>
    show crdProd n _ * (x : Int) = _
    rw [ih, Nat.pow_succ x (n + 1)]
    exact (Int.natCast_mul _ _).symm

theorem cube_kid_dims (n m j : Nat) (b : Box) (hb : ∀ k, b.dims k = ((2 ^ (m + 1) : Nat) : Int)) (k : Nat) :
    (zKid n b j).dims k = ((2 ^ m : Nat) : Int) := by
  show (if j.testBit k then b.dims k - (b.dims k).tdiv 2 else (b.dims k).tdiv 2) = _
  rw [hb, half_nonneg (Int.natCast_nonneg _), Nat.pow_succ]
  split <;> omega

theorem cube_len (n m : Nat) (b : Box) (hb : ∀ k, b.dims k = ((2 ^ m : Nat) : Int)) : (zWalk n b).length = 2 ^ (m * (n + 1)) := by
  have h := (zWalk_enum n b (fun k _ => by rw [hb]; exact Int.natCast_nonneg _)).2.2
  have hd : b.dims = fun _ => ((2 ^ m : Nat) : Int) := funext hb
  rw [volume_eq, hd, prod_const, ← Nat.pow_mul] at h
  exact Int.ofNat.inj h

/-- On cubes with an edge length of `2 ^ m` the curve is the Morton order: bit `i` of the (relative) coordinate along
axis `k` is bit `i * DIM + k` of the position. -/
theorem morton (n m : Nat) (hn : 1 ≤ n) (b : Box) (hb : ∀ k, b.dims k = ((2 ^ m : Nat) : Int)) (p : Nat) (hp : p < 2 ^ (m * (n + 1))) :
    ∃ (x : Crd) (v : Nat → Nat), (zWalk n b)[p]? = some x ∧ ∀ k, k ≤ n → x k = b.origin k + ((v k : Nat) : Int) ∧ v k < 2 ^ m ∧
      ∀ i, i < m → (v k).testBit i = p.testBit (i * (n + 1) + k) := by
  induction m generalizing b p with
  | zero =>
    have hl := cube_len n 0 b hb
    have hz : 0 * (n + 1) = 0 := Nat.zero_mul _
    rw [hz] at hl hp
    have hp0 : p = 0 := by simpa using hp
    subst hp0
    obtain ⟨x, hx⟩ : ∃ x, (zWalk n b)[0]? = some x := ⟨_, List.getElem?_eq_getElem (by rw [hl]; decide)⟩
    refine ⟨x, fun _ => 0, hx, fun k hk => ⟨?_, Nat.zero_lt_one, fun i hi => by omega⟩⟩
    have hin := ((zWalk_enum n b (fun k _ => by rw [hb]; exact Int.natCast_nonneg _)).2.1 x).1 ⟨x, List.mem_of_getElem? hx, fun _ _ => rfl⟩ k hk
    rw [hb] at hin
    have : ((2 ^ 0 : Nat) : Int) = 1 := rfl
    rw [this] at hin
    show x k = b.origin k + 0
    omega
  | succ m ih =>
    have hinv : ZInv n b := fun k _ => by rw [hb]; exact Int.natCast_nonneg _
    have hnt : hasTriv n b.dims = false := by
      have hpos : 0 < crdProd n b.dims := (prod_pos_iff n _ hinv).2 (fun k _ => by
        rw [hb]; have := Nat.two_pow_pos (m + 1); omega)
      cases h : hasTriv n b.dims with
      | false => rfl
      | true =>
        have := (hasTriv_pos hinv hpos).1 h 0 1 (by decide) hn
        have h2 : 2 ^ (m + 1) = 2 ^ m * 2 := Nat.pow_succ ..
        have := Nat.two_pow_pos m
        rw [hb, hb] at *
        omega
    have hnode : zWalk n b = (List.range (2 ^ (n + 1))).flatMap (fun j => zWalk n (zKid n b j)) :=
      walk_node (z_laws n (fun _ => none)) (q := b) hinv hnt
    let M := 2 ^ (m * (n + 1))
    have hM : 0 < M := Nat.two_pow_pos _
    have hlen : ∀ j ∈ List.range (2 ^ (n + 1)), (zWalk n (zKid n b j)).length = M :=
      fun j _ => cube_len n m _ (cube_kid_dims n m j b hb)
    have hpow : 2 ^ ((m + 1) * (n + 1)) = 2 ^ (n + 1) * M := by rw [Nat.succ_mul, Nat.add_comm, Nat.pow_add]
    rw [hpow] at hp
    have hj : p / M < 2 ^ (n + 1) := Nat.div_lt_of_lt_mul (by rwa [Nat.mul_comm])
    obtain ⟨x, v, hx, hv⟩ := ih (zKid n b (p / M)) (cube_kid_dims n m _ b hb) (p % M) (Nat.mod_lt _ hM)
    refine ⟨x, fun k => (if (p / M).testBit k then 2 ^ m else 0) + v k, ?_, ?_⟩
    · rw [hnode]
      have := getElem_flatMap_const (fun j => zWalk n (zKid n b j)) M _ hlen (p / M) (p % M) (p / M)
        (by rw [List.getElem?_range hj]) (Nat.mod_lt _ hM)
      rw [Nat.div_add_mod'] at this
      rw [this]; exact hx
    · intro k hk
      obtain ⟨h1, h2, h3⟩ := hv k hk
      have horg : (zKid n b (p / M)).origin k = b.origin k + (if (p / M).testBit k then ((2 ^ m : Nat) : Int) else 0) := by
        show (if k ≤ n ∧ (p / M).testBit k then b.origin k + (b.dims k).tdiv 2 else b.origin k) = _
        rw [hb, half_nonneg (Int.natCast_nonneg _), Nat.pow_succ]
        cases (p / M).testBit k
        · rw [if_neg (fun h => Bool.noConfusion h.2), if_neg (fun h => Bool.noConfusion h)]; omega
        · rw [if_pos ⟨hk, rfl⟩, if_pos rfl]; omega
      have hbit : (p / M).testBit k = p.testBit (m * (n + 1) + k) := by
        rw [Nat.testBit_div_two_pow, Nat.add_comm]
      refine ⟨?_, ?_, ?_⟩
      · rw [h1, horg]
        dsimp only
        cases (p / M).testBit k
        · simp
        · simp only [if_true]; omega
      · have : 2 ^ (m + 1) = 2 ^ m * 2 := Nat.pow_succ ..
        dsimp only
        split <;> omega
      · intro i hi
        dsimp only
        by_cases him : i = m
        · subst him
          rw [← hbit]
          cases (p / M).testBit k
          · simp only [Bool.false_eq_true, if_false, Nat.zero_add]; exact Nat.testBit_lt_two_pow h2
          · simp only [if_true]; rw [Nat.testBit_two_pow_add_eq, Nat.testBit_lt_two_pow h2]; rfl
        · have hlt : i * (n + 1) + k < m * (n + 1) := by
            have : (i + 1) * (n + 1) ≤ m * (n + 1) := Nat.mul_le_mul_right _ (by omega)
            rw [Nat.succ_mul] at this; omega
          have hr : p.testBit (i * (n + 1) + k) = (v k).testBit i := by
            rw [h3 i (by omega)]
            show _ = (p % 2 ^ (m * (n + 1))).testBit _
            rw [Nat.testBit_mod_two_pow, decide_eq_true hlt, Bool.true_and]
          rw [hr]
          cases (p / M).testBit k
          · simp
          · simp only [if_true]; rw [Nat.testBit_two_pow_add_gt (by omega)]

/-! ## examples -/

/-- first axes of the coordinates -/
def pts (l : Option (List Crd)) : Option (List (Int × Int)) := l.map (fun l => l.map (fun c => (c 0, c 1)))

example : pts (sqAll 1 (zSub 1 (fun _ => none)) (bx 0 0 0 3 2 0) 7) = some [(0, 0), (1, 0), (2, 0), (0, 1), (1, 1), (2, 1)] := by decide +kernel

example : pts (sqAll 1 (zSub 1 (fun _ => none)) (bx 5 7 0 4 4 0) 17) = some [(5, 7), (6, 7), (5, 8), (6, 8), (7, 7), (8, 7), (7, 8), (8, 8),
    (5, 9), (6, 9), (5, 10), (6, 10), (7, 9), (8, 9), (7, 10), (8, 10)] := by decide +kernel

/-- with the cache filled for squares below 3 the order is the same -/
example : pts (sqAll 1 (zSub 1 (zFill 1 3)) (bx 5 7 0 4 4 0) 17) = some [(5, 7), (6, 7), (5, 8), (6, 8), (7, 7), (8, 7), (7, 8), (8, 8),
    (5, 9), (6, 9), (5, 10), (6, 10), (7, 9), (8, 9), (7, 10), (8, 10)] := by decide +kernel

/-- hypotheses of the theorems are met by a non-square box with both kinds of caches -/
example : (∀ k, k ≤ 1 → 0 ≤ (bx 0 0 0 3 2 0).dims k) ∧ Caches 1 (zFill 1 3) ∧ Volume 1 (bx 0 0 0 3 2 0).dims < (7 : Nat) := by
  refine ⟨fun k hk => ?_, Or.inr ⟨_, rfl⟩, by decide⟩
  have : k = 0 ∨ k = 1 := by omega
  rcases this with rfl | rfl <;> decide

/-- and `morton` is used with a 4 x 4 x 4 cube -/
example : ∃ (x : Crd) (v : Nat → Nat), (zWalk 2 { origin := fun _ => 0, dims := fun _ => ((2 ^ 2 : Nat) : Int) })[50]? = some x ∧
    ∀ k, k ≤ 2 → x k = 0 + ((v k : Nat) : Int) ∧ v k < 2 ^ 2 ∧ ∀ i, i < 2 → (v k).testBit i = (50 : Nat).testBit (i * 3 + k) :=
  morton 2 2 (by decide) { origin := fun _ => 0, dims := fun _ => ((2 ^ 2 : Nat) : Int) } (fun _ => rfl) 50 (by decide)

end LGD.C16
