import Verif.Part.HIndex
import Verif.Props.C17

/-!
# C18 – `HIndexingPartition`

Sequential iteration is correct for all boxes. Random access is not: a trivial (one cell wide) triangle which is entered at
a position other than its start delivers wrong coordinates (`digDownTrivial` sets the cursor to the origin of the triangle
regardless of the counter), see `random_access_wrong` and `partition_wrong`.
-/

namespace LGD.C18
open LGD.HX LGD.C12 LGD.C04

/-- coordinates of a box -/
def InBox2 (o d p : P2) : Prop := (o.1 ≤ p.1 ∧ p.1 < o.1 + d.1) ∧ (o.2 ≤ p.2 ∧ p.2 < o.2 + d.2)

theorem walk_spec (o d : P2) (h1 : 0 ≤ d.1) (h2 : 0 ≤ d.2) : (hxWalk o d).Nodup ∧ ∀ p, p ∈ hxWalk o d ↔ InBox2 o d p := by
  have h := hxWalk_fills o d h1 h2
  exact ⟨h.1, fun p => h.2 p⟩

theorem walk_len (o d : P2) (h1 : 0 ≤ d.1) (h2 : 0 ≤ d.2) : (hxWalk o d).length ≤ 2 * (d.1.toNat * d.2.toNat) := by
  unfold hxWalk
  have e2 := walk_bound (n := ⟨2, o.1, o.2, d.1, d.2⟩) (by show 2 < 4; decide) h1 h2
  have e1 := walk_bound (n := ⟨1, o.1, o.2, d.1, d.2⟩) (by show 1 < 4; decide) h1 h2
  rw [List.length_append]
  simp only at e1 e2
  omega

theorem mul_le_pow (a b : Nat) : a * b ≤ 4 ^ (a + b) := by
  have h : ∀ n : Nat, n ≤ 4 ^ n := by
    intro n
    induction n with
    | zero => decide
    | succ n ih => rw [Nat.pow_succ]; have := Nat.pow_pos (n := n) (show 0 < 4 by decide); omega
  rw [Nat.pow_add]
  exact Nat.mul_le_mul (h a) (h b)

theorem all_spec {cache : TCache} {maxC : Int} (hc : CacheT cache maxC) (o d : P2) (h1 : 0 ≤ d.1) (h2 : 0 ≤ d.2) (fuel : Nat)
    (hf : enough d.1.toNat d.2.toNat ≤ fuel) : hxAll cache maxC fuel o d = some (hxWalk o d) := by
  obtain ⟨it, s1, s2⟩ := hxStart_spec hc o d h1 h2 fuel hf 0 (Or.inl rfl)
  unfold hxAll
  rw [s1, Option.bind_some]
  have hl := walk_len o d h1 h2
  have hp := mul_le_pow d.1.toNat d.2.toNat
  unfold enough at hf
  have h := hxCollect_spec hc (walk_spec o d h1 h2).1 fuel (by omega) (hxWalk o d).length 0 it fuel s2 (by omega) (by omega)
  rw [List.drop_zero] at h
  exact h

/-- **C18, sequential iteration.** For every cache size (17 in the code) filling the cache terminates. With it, for every box
with non-negative extents, iteration from `begin()` to `end()` terminates and yields each coordinate of the box exactly once
and nothing else; `curve[p]` for `p = 0` is the start of that sequence and for all `p` behind the last coordinate the end
iterator. `fuel` bounds the number of loop iterations. -/
theorem traversal (maxDim fuel : Nat) (hf : enough maxDim maxDim ≤ fuel) : ∃ cache, tFill fuel maxDim = some cache ∧
    ∀ (o d : P2), 0 ≤ d.1 → 0 ≤ d.2 → enough d.1.toNat d.2.toNat ≤ fuel →
    ∃ l, hxAll cache maxDim fuel o d = some l ∧ l.Nodup ∧ (∀ p, p ∈ l ↔ InBox2 o d p) ∧
      (∃ it, hxStart cache maxDim fuel o d 0 = some it ∧ ∀ x, l[0]? = some x → it.endReached = false ∧ it.cursor = x) ∧
      ∀ p, l.length ≤ p → ∃ it, hxStart cache maxDim fuel o d p = some it ∧ hxEq it (hxEnd o) = true := by
  obtain ⟨cache, hc, hok⟩ := tFill_spec maxDim fuel hf
  refine ⟨cache, hc, fun o d h1 h2 hf' => ?_⟩
  obtain ⟨w1, w2⟩ := walk_spec o d h1 h2
  refine ⟨hxWalk o d, all_spec hok o d h1 h2 fuel hf', w1, w2, ?_, fun p hp => ?_⟩
  · obtain ⟨it, s1, _, s2 | s2⟩ := hxStart_spec hok o d h1 h2 fuel hf' 0 (Or.inl rfl)
    · obtain ⟨_, s3, m, k, fr, s4, _⟩ := s2
      refine ⟨it, s1, fun x hx => ⟨s4.run, ?_⟩⟩
      rw [s3] at hx; exact Option.some.inj hx
    · refine ⟨it, s1, fun x hx => ?_⟩
      obtain ⟨hlt, _⟩ := List.getElem?_eq_some_iff.1 hx
      omega
  · obtain ⟨it, s1, _, s2 | s2⟩ := hxStart_spec hok o d h1 h2 fuel hf' p (Or.inr (Or.inl hp))
    · omega
    · refine ⟨it, s1, ?_⟩
      unfold hxEq hxEnd hxInit
      rw [s2.2.1, s2.2.2]
      simp

/-- **C18, random access (partial).** `curve[p]` is the `p`-th element of the sequential iteration, provided that both
extents are at least 2, neither exceeds four times the other one, and the cache covers edges of up to 16 (which it does in
the code). Missing: other boxes, for which the statement is false in general (`random_access_wrong`). -/
theorem random_access_partial (maxDim fuel : Nat) (hf : enough maxDim maxDim ≤ fuel) (hm : 17 ≤ maxDim) :
    ∃ cache, tFill fuel maxDim = some cache ∧
    ∀ (o d : P2), 2 ≤ d.1 → 2 ≤ d.2 → d.1 ≤ 4 * d.2 → d.2 ≤ 4 * d.1 → enough d.1.toNat d.2.toNat ≤ fuel →
    ∃ l, hxAll cache maxDim fuel o d = some l ∧
      ∀ p, ∃ it, hxStart cache maxDim fuel o d p = some it ∧ (∀ x, l[p]? = some x → it.endReached = false ∧ it.cursor = x) ∧
        (l.length ≤ p → it.endReached = true ∧ it.cursor = o) := by
  obtain ⟨cache, hc, hok⟩ := tFill_spec maxDim fuel hf
  refine ⟨cache, hc, fun o d h1 h2 h3 h4 hf' => ?_⟩
  refine ⟨hxWalk o d, all_spec hok o d (by omega) (by omega) fuel hf', fun p => ?_⟩
  obtain ⟨it, s1, _, s2 | s2⟩ := hxStart_spec hok o d (by omega) (by omega) fuel hf' p
    (Or.inr (Or.inr (chunky_aspect (by omega) d h1 h2 h3 h4)))
  · obtain ⟨s5, s3, m, k, fr, s4, _⟩ := s2
    refine ⟨it, s1, fun x hx => ⟨s4.run, ?_⟩, fun h => by omega⟩
    rw [s3] at hx; exact Option.some.inj hx
  · refine ⟨it, s1, fun x hx => ?_, fun _ => s2.2⟩
    obtain ⟨hlt, _⟩ := List.getElem?_eq_some_iff.1 hx
    omega

/-! ## partition -/

def toC (p : P2) : Crd := xyc p.1 p.2

theorem toC_inj {p q : P2} (h : CEq 1 (toC p) (toC q)) : p = q := Prod.ext (h 0 (by decide)) (h 1 (by decide))

theorem hx_curve {cache : TCache} {maxC : Int} (hc : CacheT cache maxC) (N : Nat) (o : P2) (L : List P2) (hnd : L.Nodup) (fuel : Nat) (hf : N < fuel) :
    IsCurve 1 (hxOps cache maxC fuel) (L.map toC) (fun p it => HxAt maxC N o L p it) where
  deref := by
    intro p s x h hx
    rw [List.getElem?_map] at hx
    obtain ⟨y, hy, rfl⟩ := Option.map_eq_some_iff.1 hx
    obtain ⟨_, ⟨_, h1, _⟩ | ⟨h1, _⟩⟩ := h
    · rw [h1] at hy
      cases hy
      exact fun k _ => rfl
    · obtain ⟨hlt, _⟩ := List.getElem?_eq_some_iff.1 hy
      omega
  next := by
    intro p s h hp
    rw [List.length_map] at hp
    exact hxNext_spec hc h hp fuel hf
  eq := by
    intro p q s t hs ht hp hq
    rw [List.length_map] at hp hq
    exact hxEq_iff hnd hs ht hp hq

theorem cardOf {b : Box} {l : List Crd} (h : l.Pairwise (fun a b => ¬ CEq 1 a b)) (hm : ∀ c, (∃ c' ∈ l, CEq 1 c' c) ↔ InBox 1 b c) :
    Card 1 (InBox 1 b) l.length := by
  refine ⟨l, List.Pairwise.imp (fun hne => ?_) h, fun c => (hm c).symm, rfl⟩
  refine Classical.byContradiction (fun hc => hne (fun k hk => ?_))
  exact Classical.byContradiction (fun hn => hc ⟨k, hk, hn⟩)

/-- Spec of the partition for boxes with moderate aspect ratio. -/
theorem partition_partial (maxDim fuel : Nat) (hf : enough maxDim maxDim ≤ fuel) (hm : 17 ≤ maxDim) :
    ∃ cache, tFill fuel maxDim = some cache ∧
    ∀ (b : Box), 2 ≤ b.dims 0 → 2 ≤ b.dims 1 → b.dims 0 ≤ 4 * b.dims 1 → b.dims 1 ≤ 4 * b.dims 0 →
      enough (b.dims 0).toNat (b.dims 1).toNat ≤ fuel → ∀ (offset : Nat) (ws : List Nat),
      IsPartition 1 b offset ws (hxRegion cache maxDim fuel (b.origin 0, b.origin 1) (b.dims 0, b.dims 1) offset ws) := by
  obtain ⟨cache, hc, hok⟩ := tFill_spec maxDim fuel hf
  refine ⟨cache, hc, fun b h1 h2 h3 h4 hf' offset ws => ?_⟩
  let o : P2 := (b.origin 0, b.origin 1)
  let d : P2 := (b.dims 0, b.dims 1)
  have d1 : 0 ≤ d.1 := by show 0 ≤ b.dims 0; omega
  have d2 : 0 ≤ d.2 := by show 0 ≤ b.dims 1; omega
  obtain ⟨w1, w2⟩ := walk_spec o d d1 d2
  have hl := walk_len o d d1 d2
  have hp := mul_le_pow d.1.toNat d.2.toNat
  have hf2 : 2 * 4 ^ (d.1.toNat + d.2.toNat) + d.1.toNat * d.2.toNat + d.1.toNat + d.2.toNat + 3 ≤ fuel := hf'
  have hch : Chunky maxDim d := chunky_aspect (by omega) d h1 h2 h3 h4
  have hmem : ∀ c : Crd, (∃ c' ∈ (hxWalk o d).map toC, CEq 1 c' c) ↔ InBox 1 b c := by
    intro c
    constructor
    · rintro ⟨c', hc', he⟩
      obtain ⟨p, hp, rfl⟩ := List.mem_map.1 hc'
      obtain ⟨⟨q1, q2⟩, q3, q4⟩ := (w2 p).1 hp
      have e0 : p.1 = c 0 := he 0 (by decide)
      have e1 : p.2 = c 1 := he 1 (by decide)
      intro k hk
      have : k = 0 ∨ k = 1 := by omega
      rcases this with rfl | rfl
      · rw [← e0]; exact ⟨q1, q2⟩
      · rw [← e1]; exact ⟨q3, q4⟩
    · intro h
      have b0 := h 0 (by decide)
      have b1 := h 1 (by decide)
      refine ⟨toC (c 0, c 1), List.mem_map.2 ⟨(c 0, c 1), (w2 _).2 ⟨b0, b1⟩, rfl⟩, fun k hk => ?_⟩
      have : k = 0 ∨ k = 1 := by omega
      rcases this with rfl | rfl <;> rfl
  have hpw : ((hxWalk o d).map toC).Pairwise (fun a b => ¬ CEq 1 a b) := by
    rw [List.pairwise_map]
    exact List.Pairwise.imp (fun hne he => hne (toC_inj he)) w1
  have hlen : (((hxWalk o d).map toC).length : Int) = Volume 1 b.dims := by
    have hk := C17.enum b (by omega) (by omega) 0 (by decide)
    have c1 : Card 1 (InBox 1 b) (((hxWalk o d).map toC).length : Nat) := cardOf hpw hmem
    have c2 : Card 1 (InBox 1 b) (hWalk { origin := b.origin, dims := b.dims, form := 0 }).length := cardOf hk.1 hk.2.1
    rw [card_unique _ _ _ _ c1 c2]; exact hk.2.2
  refine curve_partition (hx_curve hok (2 * 4 ^ (d.1.toNat + d.2.toNat)) o (hxWalk o d) w1 fuel (by omega)) b _ offset ws fuel hpw hmem hlen ?_
    (by rw [List.length_map]; omega)
  intro p _
  obtain ⟨it, s1, s2⟩ := hxStart_spec hok o d d1 d2 fuel hf' p (Or.inr (Or.inr hch))
  refine ⟨it, s1, ?_⟩
  rw [List.length_map]
  by_cases hpl : p ≤ (hxWalk o d).length
  · rw [Nat.min_eq_left hpl]; exact s2
  · rw [Nat.min_eq_right (by omega)]
    obtain ⟨s3, s4 | s4⟩ := s2
    · omega
    · exact ⟨s3, Or.inr ⟨Nat.le_refl _, s4.2⟩⟩

/-! ## the statement is false for other boxes -/

/-- the `p`-th coordinate according to random access -/
def at' (cache : TCache) (maxC : Int) (fuel : Nat) (o d : P2) (p : Nat) : Option P2 := (hxStart cache maxC fuel o d p).map (fun it => it.cursor)

/-- In a row of five cells the iterator to position 2 points to cell 1. No cache entry is used here. -/
theorem random_access_wrong (cache : TCache) : hxAll cache 17 40 (0, 0) (5, 1) = some [(0, 0), (1, 0), (2, 0), (3, 0), (4, 0)] ∧
    at' cache 17 40 (0, 0) (5, 1) 2 = some (1, 0) ∧ at' cache 17 40 (0, 0) (5, 1) 3 = some (1, 0) ∧ at' cache 17 40 (0, 0) (5, 1) 4 = some (1, 0) :=
  ⟨rfl, rfl, rfl, rfl⟩

/-- Splitting the five cells into two and three: the last cell is not assigned to any node. Again the cache is not used. -/
theorem partition_wrong (cache : TCache) : ¬ IsPartition 1 (bx 0 0 0 5 1 0) 0 [2, 3] (hxRegion cache 17 40 (0, 0) (5, 1) 0 [2, 3]) := by
  intro h
  have r0 : ((hxRegion cache 17 40 (0, 0) (5, 1) 0 [2, 3] 0).bind (fun r => regCountCoord 1 r (xyc 4 0))) = some false := by rfl
  have r1 : ((hxRegion cache 17 40 (0, 0) (5, 1) 0 [2, 3] 1).bind (fun r => regCountCoord 1 r (xyc 4 0))) = some false := by rfl
  obtain ⟨i, r, hi, hr, hm⟩ := h.cover rfl (by decide) (xyc 4 0) (by
    intro k hk
    have : k = 0 ∨ k = 1 := by omega
    rcases this with rfl | rfl <;> decide)
  have hm : regCountCoord 1 r (xyc 4 0) = some true := hm
  have hi : i < 2 := hi
  have : i = 0 ∨ i = 1 := by omega
  rcases this with rfl | rfl
  · rw [hr, Option.bind_some, hm] at r0; cases r0
  · rw [hr, Option.bind_some, hm] at r1; cases r1

/-! ## examples -/

/-- without cache -/
example : hxAll (fun _ _ _ => []) 0 100 (0, 0) (3, 5) = some [(0, 0), (0, 1), (1, 1), (1, 0), (2, 0), (2, 1), (1, 2), (2, 2), (2, 3), (2, 4),
    (1, 4), (1, 3), (0, 4), (0, 3), (0, 2)] := by decide +kernel

/-- with a cache for edges below 4 -/
example : (tFill 200 4).bind (fun c => hxAll c 4 200 (0, 0) (5, 4)) = some [(0, 0), (1, 0), (1, 1), (2, 1), (2, 0), (3, 0), (4, 0), (3, 1), (4, 1),
    (2, 2), (3, 2), (4, 2), (3, 3), (4, 3), (2, 3), (1, 3), (0, 3), (0, 2), (1, 2), (0, 1)] := by decide +kernel

/-- hypotheses are met -/
example : (2 : Int) ≤ (5, 4).1 ∧ (2 : Int) ≤ ((5, 4) : P2).2 ∧ ((5, 4) : P2).1 ≤ 4 * ((5, 4) : P2).2 ∧ ((5, 4) : P2).2 ≤ 4 * ((5, 4) : P2).1 ∧
    17 ≤ 17 ∧ enough 5 4 ≤ enough 17 17 := by
  refine ⟨by decide, by decide, by decide, by decide, by decide, enough_mono (by decide) (by decide)⟩

end LGD.C18
