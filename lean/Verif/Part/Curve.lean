import Verif.Part.CurveModel
import Verif.Region.Expand
import Verif.Props.C04
import Verif.Props.C12

/-!
# Slices of a linear order form a partition
-/

namespace LGD
open LGD.C04 LGD.C12

/-- equality on the axes `0 .. n` -/
def CEq (n : Nat) (a b : Crd) : Prop := ∀ k, k ≤ n → a k = b k

/-- Spec: `reg` assigns regions to nodes such that they are inside the box `b`, pairwise disjoint, have the prescribed
sizes (if the weights fit into the box), and cover the box (if the weights sum up to its volume). -/
structure IsPartition (n : Nat) (b : Box) (offset : Nat) (weights : List Nat) (reg : Nat → Option Idx) : Prop where
  total : ∀ i, i < weights.length → ∃ r, reg i = some r ∧ RegOK n r
  inside : ∀ i r c, i < weights.length → reg i = some r → RMem n r c → InBox n b c
  disjoint : ∀ i j r s c, i < weights.length → j < weights.length → i ≠ j → reg i = some r → reg j = some s → RMem n r c → ¬ RMem n s c
  sizes : (offset : Int) + weights.sum ≤ Volume n b.dims → ∀ (i : Nat) r (w : Nat), weights[i]? = some w → reg i = some r → Card n (RMem n r) w
  cover : offset = 0 → Volume n b.dims ≤ weights.sum → ∀ c, InBox n b c → ∃ i r, i < weights.length ∧ reg i = some r ∧ RMem n r c

theorem startOffsets_get (o : Nat) (ws : List Nat) (i : Nat) (hi : i ≤ ws.length) :
    (startOffsets o ws)[i]? = some (o + (ws.take i).sum) := by
  induction ws generalizing o i with
  | nil =>
    have : i = 0 := by simpa using hi
    subst this; simp [startOffsets]
  | cons w ws ih =>
    cases i with
    | zero => simp [startOffsets]
    | succ i =>
      rw [startOffsets, List.getElem?_cons_succ, ih (o + w) i (by simpa using hi), List.take_succ_cons, List.sum_cons]
      congr 1; omega

theorem sum_take_succ (ws : List Nat) (i : Nat) (w : Nat) (h : ws[i]? = some w) : (ws.take (i + 1)).sum = (ws.take i).sum + w := by
  rw [List.take_succ, h]; simp

theorem sum_take_mono (ws : List Nat) {i j : Nat} (h : i ≤ j) : (ws.take i).sum ≤ (ws.take j).sum := by
  obtain ⟨d, rfl⟩ : ∃ d, j = i + d := ⟨j - i, by omega⟩
  rw [List.take_add, List.sum_append]; omega

theorem sum_take_le (ws : List Nat) (i : Nat) : (ws.take i).sum ≤ ws.sum := by
  conv => rhs; rw [← List.take_append_drop i ws, List.sum_append]
  omega

/-- the node a position belongs to -/
theorem find_node (ws : List Nat) (k : Nat) (hk : k < ws.sum) :
    ∃ i, i < ws.length ∧ (ws.take i).sum ≤ k ∧ k < (ws.take (i + 1)).sum := by
  induction ws generalizing k with
  | nil => simp at hk
  | cons w ws ih =>
    by_cases h : k < w
    · exact ⟨0, by simp, by simp, by simp [h]⟩
    · rw [List.sum_cons] at hk
      obtain ⟨i, h1, h2, h3⟩ := ih (k - w) (by omega)
      refine ⟨i + 1, by simp; omega, ?_, ?_⟩
      · rw [List.take_succ_cons, List.sum_cons]; omega
      · rw [List.take_succ_cons, List.sum_cons]; omega

/-- Regions that are slices of an enumeration of the box form a partition. -/
theorem slices_partition (n : Nat) (b : Box) (L : List Crd) (offset : Nat) (ws : List Nat) (reg : Nat → Option Idx)
    (hnd : L.Pairwise (fun a b => ¬ CEq n a b)) (hmem : ∀ c, (∃ c' ∈ L, CEq n c' c) ↔ InBox n b c)
    (hlen : (L.length : Int) = Volume n b.dims)
    (hreg : ∀ i, i < ws.length → ∃ r, reg i = some r ∧ RegOK n r ∧ ∀ c, RMem n r c ↔ ∃ k, ∃ x, offset + (ws.take i).sum ≤ k ∧
      k < offset + (ws.take (i + 1)).sum ∧ L[k]? = some x ∧ CEq n x c) :
    IsPartition n b offset ws reg := by
  have hinj : ∀ (k l : Nat) x y c, L[k]? = some x → L[l]? = some y → CEq n x c → CEq n y c → k = l := by
    intro k l x y c hk hl hx hy
    rw [List.pairwise_iff_getElem] at hnd
    obtain ⟨p, hp⟩ := List.getElem?_eq_some_iff.1 hk
    obtain ⟨q, hq⟩ := List.getElem?_eq_some_iff.1 hl
    rcases Nat.lt_trichotomy k l with h | h | h
    · refine (hnd k l p q h ?_).elim
      rw [hp, hq]; exact fun a ha => (hx a ha).trans (hy a ha).symm
    · exact h
    · refine (hnd l k q p h ?_).elim
      rw [hp, hq]; exact fun a ha => (hy a ha).trans (hx a ha).symm
  refine ⟨?_, ?_, ?_, ?_, ?_⟩
  · intro i hi
    obtain ⟨r, h1, h2, _⟩ := hreg i hi
    exact ⟨r, h1, h2⟩
  · intro i r c hi hr hc
    obtain ⟨r', h1, h2, h3⟩ := hreg i hi
    rw [hr] at h1; cases h1
    obtain ⟨k, x, _, _, h6, h7⟩ := (h3 c).1 hc
    exact (hmem c).1 ⟨x, List.mem_of_getElem? h6, h7⟩
  · intro i j r s c hi hj hij hr hs hc hc'
    obtain ⟨r', h1, _, h3⟩ := hreg i hi
    rw [hr] at h1; cases h1
    obtain ⟨s', g1, _, g3⟩ := hreg j hj
    rw [hs] at g1; cases g1
    obtain ⟨k, x, h4, h5, h6, h7⟩ := (h3 c).1 hc
    obtain ⟨l, y, g4, g5, g6, g7⟩ := (g3 c).1 hc'
    have := hinj k l x y c h6 g6 h7 g7
    subst this
    rcases Nat.lt_or_gt_of_ne hij with h | h
    · have := sum_take_mono ws (i := i + 1) (j := j) h; omega
    · have := sum_take_mono ws (i := j + 1) (j := i) h; omega
  · intro hfit i r w hw hr
    have hi : i < ws.length := (List.getElem?_eq_some_iff.1 hw).1
    obtain ⟨r', h1, h2, h3⟩ := hreg i hi
    rw [hr] at h1; cases h1
    have hst := sum_take_succ ws i w hw
    have hsl := sum_take_le ws (i + 1)
    refine ⟨(L.drop (offset + (ws.take i).sum)).take w, ?_, fun c => ?_, ?_⟩
    · have : ((L.drop (offset + (ws.take i).sum)).take w).Pairwise (fun a b => ¬ CEq n a b) :=
        hnd.sublist ((List.take_sublist _ _).trans (List.drop_sublist _ _))
      refine this.imp (fun hab => ?_)
      unfold CEq at hab
      exact Classical.byContradiction (fun hc => hab (fun k hk => Classical.byContradiction (fun hne => hc ⟨k, hk, hne⟩)))
    · rw [h3]
      constructor
      · rintro ⟨k, x, p1, p2, p3, p4⟩
        refine ⟨x, List.mem_iff_getElem?.2 ⟨k - (offset + (ws.take i).sum), ?_⟩, p4⟩
        rw [List.getElem?_take_of_lt (by omega), List.getElem?_drop]
        rw [show offset + (ws.take i).sum + (k - (offset + (ws.take i).sum)) = k by omega]; exact p3
      · rintro ⟨x, p1, p2⟩
        obtain ⟨j, hj⟩ := List.mem_iff_getElem?.1 p1
        have hjw : j < w := by
          have := (List.getElem?_eq_some_iff.1 hj).1
          simp at this; omega
        rw [List.getElem?_take_of_lt hjw, List.getElem?_drop] at hj
        exact ⟨_, x, by omega, by omega, hj, p2⟩
    · rw [List.length_take, List.length_drop]; omega
  · intro ho hv c hc
    obtain ⟨x, hx, hxc⟩ := (hmem c).2 hc
    obtain ⟨k, hk⟩ := List.mem_iff_getElem?.1 hx
    have hkl := (List.getElem?_eq_some_iff.1 hk).1
    obtain ⟨i, h1, h2, h3⟩ := find_node ws k (by omega)
    obtain ⟨r, g1, g2, g3⟩ := hreg i h1
    exact ⟨i, r, h1, g1, (g3 c).2 ⟨k, x, by omega, by omega, hk, hxc⟩⟩

/-- Iterators over the list `L`; positions beyond its end are identified with the end. -/
structure IsCurve {S : Type} (n : Nat) (I : IterOps S) (L : List Crd) (At : Nat → S → Prop) : Prop where
  deref : ∀ p s x, At p s → L[p]? = some x → CEq n (I.deref s) x
  next : ∀ p s, At p s → p < L.length → ∃ s', I.next s = some s' ∧ At (p + 1) s'
  eq : ∀ p q s t, At p s → At q t → p ≤ L.length → q ≤ L.length → (I.eq s t = true ↔ p = q)

theorem load_spec {S : Type} {n : Nat} {I : IterOps S} {L : List Crd} {At : Nat → S → Prop} (h : IsCurve n I L At) {q : Nat} {stop : S}
    (hq : At q stop) (hql : q ≤ L.length) (d : Nat) : ∀ (p : Nat) (s : S) (fuel : Nat) (r : Idx), p + d = q → d < fuel → At p s → RegOK n r →
      ∃ r', loadRegion n I stop fuel s r = some r' ∧ RegOK n r' ∧
        ∀ c, RMem n r' c ↔ RMem n r c ∨ ∃ k, ∃ x, p ≤ k ∧ k < q ∧ L[k]? = some x ∧ CEq n x c := by
  induction d with
  | zero =>
    intro p s fuel r hp hf hs hr
    obtain ⟨f, rfl⟩ : ∃ f, fuel = f + 1 := ⟨fuel - 1, by omega⟩
    refine ⟨r, by rw [loadRegion, if_pos ((h.eq p q s stop hs hq (by omega) hql).2 (by omega))], hr, fun c => ?_⟩
    constructor
    · exact Or.inl
    · rintro (h1 | ⟨k, _, h1, h2, _⟩)
      · exact h1
      · omega
  | succ d ih =>
    intro p s fuel r hp hf hs hr
    obtain ⟨f, rfl⟩ : ∃ f, fuel = f + 1 := ⟨fuel - 1, by omega⟩
    rw [loadRegion, if_neg (by rw [h.eq p q s stop hs hq (by omega) hql]; omega)]
    obtain ⟨r1, h1, h2, h3⟩ := regInsert_spec n r { origin := I.deref s, endX := I.deref s 0 + 1 } hr
    obtain ⟨s', g1, g2⟩ := h.next p s hs (by omega)
    rw [h1, Option.bind_some, g1, Option.bind_some]
    obtain ⟨r2, k1, k2, k3⟩ := ih (p + 1) s' f r1 (by omega) (by omega) g2 h2
    refine ⟨r2, k1, k2, fun c => ?_⟩
    have hpl : p < L.length := by omega
    have hd := h.deref p s L[p] hs (List.getElem?_eq_getElem hpl)
    rw [k3, h3, SMem_single]
    constructor
    · rintro ((m | m) | ⟨k, x, m1, m2, m3, m4⟩)
      · exact Or.inl m
      · exact Or.inr ⟨p, L[p], by omega, by omega, List.getElem?_eq_getElem hpl, fun k hk => (hd k hk).symm.trans (m k hk).symm⟩
      · exact Or.inr ⟨k, x, by omega, m2, m3, m4⟩
    · rintro (m | ⟨k, x, m1, m2, m3, m4⟩)
      · exact Or.inl (Or.inl m)
      · by_cases e : k = p
        · subst e
          rw [List.getElem?_eq_getElem hpl] at m3
          cases m3
          exact Or.inl (Or.inr (fun k hk => ((hd k hk).trans (m4 k hk)).symm))
        · exact Or.inr ⟨k, x, by omega, m2, m3, m4⟩

/-- The regions of a space-filling curve form a partition, if `operator[]` delivers iterators at the right positions. -/
theorem curve_partition {S : Type} {n : Nat} {I : IterOps S} {L : List Crd} {At : Nat → S → Prop} (h : IsCurve n I L At) (b : Box)
    (start : Nat → Option S) (offset : Nat) (ws : List Nat) (fuel : Nat)
    (hnd : L.Pairwise (fun a b => ¬ CEq n a b)) (hmem : ∀ c, (∃ c' ∈ L, CEq n c' c) ↔ InBox n b c)
    (hlen : (L.length : Int) = Volume n b.dims)
    (hstart : ∀ p, p ≤ offset + ws.sum → ∃ s, start p = some s ∧ At (min p L.length) s)
    (hf : L.length < fuel) : IsPartition n b offset ws (curveRegion n I start offset ws fuel) := by
  apply slices_partition n b L offset ws _ hnd hmem hlen
  intro i hi
  have hl1 := sum_take_le ws i
  have hl2 := sum_take_le ws (i + 1)
  have hmono := sum_take_mono ws (i := i) (j := i + 1) (by omega)
  obtain ⟨s, s1, s2⟩ := hstart (offset + (ws.take i).sum) (by omega)
  obtain ⟨t, t1, t2⟩ := hstart (offset + (ws.take (i + 1)).sum) (by omega)
  unfold curveRegion
  rw [startOffsets_get offset ws i (by omega), startOffsets_get offset ws (i + 1) (by omega), Option.bind_some, Option.bind_some, s1, t1,
    Option.bind_some, Option.bind_some]
  obtain ⟨r, h1, h2, h3⟩ := load_spec h t2 (by omega) (min (offset + (ws.take (i + 1)).sum) L.length - min (offset + (ws.take i).sum) L.length)
    (min (offset + (ws.take i).sum) L.length) s fuel emptyIdx (by omega) (by omega) s2 (regOK_empty n)
  refine ⟨r, h1, h2, fun c => ?_⟩
  rw [h3]
  constructor
  · rintro (m | ⟨k, x, m1, m2, m3, m4⟩)
    · exact (regEmpty_mem n c m).elim
    · exact ⟨k, x, by omega, by omega, m3, m4⟩
  · rintro ⟨k, x, m1, m2, m3, m4⟩
    have := (List.getElem?_eq_some_iff.1 m3).1
    exact Or.inr ⟨k, x, by omega, by omega, m3, m4⟩

end LGD
