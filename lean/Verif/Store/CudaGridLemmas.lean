import Verif.Store.CudaGridModel
import Verif.Props.C33

/-!
# `CUDAGrid` refines `Grid`
-/

namespace LGD.Store
open LGD.C13 LGD.C14 LGD.C33 LGD.Step

variable {α : Type} {n : Nat} {wraps : Nat → Bool} {tc : Bool}

/-- the host grid with the same contents, at relative coordinates -/
def host (g : CGrid α) : Grid α := ⟨g.dim, g.mem.take g.size, g.edgeMem.headD g.hostEdge⟩

/-- the memory is as large as the box, and host and device agree on the edge cell -/
structure CGridOK (n : Nat) (tc : Bool) (g : CGrid α) : Prop where
  pos : ∀ k, k ≤ n → 0 < g.dim k
  size : (g.size : Int) = C12.Volume n g.dim
  cap : g.size ≤ g.mem.length
  edge : g.edgeMem = [g.hostEdge]
  topo : tc = true → ∀ k, k ≤ n → g.dim k ≤ g.topo k

/-- the coordinate inside of the box -/
def InBox (n : Nat) (g : CGrid α) (c : Crd) : Prop := InDim n g.dim fun k => c k - g.origin k

theorem host_ok {g : CGrid α} (h : CGridOK n tc g) : GridOK n (host g) :=
  ⟨h.pos, by
    have := h.cap
    simp only [host, List.length_take, Nat.min_eq_left this]
    exact h.size⟩

theorem host_edge {g : CGrid α} (h : CGridOK n tc g) : (host g).edge = g.hostEdge := by
  simp [host, h.edge]

theorem rel_in {g : CGrid α} (h : CGridOK n tc g) {c : Crd} (hc : InBox n g c) : ∀ k, k ≤ n → cRel n wraps tc g c k = c k - g.origin k := by
  intro k hk
  unfold cRel
  split
  · rename_i ht
    have hin : InDim n g.topo fun k => c k - g.origin k := fun k hk => by
      have h1 := hc k hk
      have h2 := h.topo ht k hk
      omega
    unfold topoNormalize
    rw [if_neg (by rw [outOfBounds_iff]; exact not_outside_of_inDim hin)]
    have := hin k hk
    unfold normEdges wrap1
    rw [if_neg (by omega), if_neg (by omega)]
  · rfl

theorem rel_inDim {g : CGrid α} (h : CGridOK n tc g) {c : Crd} (hc : InBox n g c) : InDim n g.dim (cRel n wraps tc g c) := fun k hk => by
  rw [rel_in h hc k hk]
  exact hc k hk

/-- addresses inside of the box of the relative coordinate -/
theorem address_in (hn : n ≤ 2) {g : CGrid α} {c : Crd} (hc : InDim n g.dim (cRel n wraps tc g c)) :
    cAddress n wraps tc g c = .data (lin g.dim n 0 (cRel n wraps tc g c)) := by
  unfold cAddress
  rw [if_neg (by rw [outOfBounds_iff]; exact not_outside_of_inDim hc), toIndex_lin n hn]

theorem address_out {g : CGrid α} {c : Crd} (hc : Outside n wraps g.dim (cRel n wraps tc g c)) : cAddress n wraps tc g c = .edge := by
  unfold cAddress
  rw [if_pos ((outOfBounds_iff n wraps _ _).2 hc)]

theorem lin_bounds {g : CGrid α} (h : CGridOK n tc g) {c : Crd} (hc : InDim n g.dim c) : 0 ≤ lin g.dim n 0 c ∧ lin g.dim n 0 c < g.size := by
  constructor
  · exact lin_nonneg g.dim n 0 c (fun j _ hj => (hc j (by omega)).1) (fun j _ hj => (h.pos j (by omega)).le)
  · rw [h.size, C12.volume_eq, ← vol_prod]
    exact lin_lt_vol g.dim n 0 c (fun j _ hj => hc j (by omega))

/-- coordinates for which `CUDAGrid` is safe: after normalization they are inside of the box, or outside along a constant boundary -/
def Fine (n : Nat) (wraps : Nat → Bool) (tc : Bool) (g : CGrid α) (c : Crd) : Prop :=
  InDim n g.dim (cRel n wraps tc g c) ∨ (Outside n wraps g.dim (cRel n wraps tc g c) ∧ OnePeriod n wraps g.dim (cRel n wraps tc g c))

theorem get_eq (hn : n ≤ 2) {g : CGrid α} (h : CGridOK n tc g) {c : Crd} (hc : Fine n wraps tc g c) :
    ∃ v, cGet n wraps tc g c = .ok v ∧ gridRead n wraps (host g) (cRel n wraps tc g c) = some v := by
  rcases hc with hc | ⟨hc, _⟩
  · obtain ⟨b1, b2⟩ := lin_bounds h hc
    have hcap := h.cap
    have hlt : (lin g.dim n 0 (cRel n wraps tc g c)).toNat < g.mem.length := by omega
    refine ⟨g.mem[(lin g.dim n 0 (cRel n wraps tc g c)).toNat], ?_, ?_⟩
    · unfold cGet
      rw [address_in hn hc, devRead, if_pos (by omega), List.drop_eq_getElem_cons hlt]
      rfl
    · unfold gridRead
      rw [show (host g).dim = g.dim from rfl, locate_inDim hn hc]
      simp only [host]
      rw [if_pos b1, List.getElem?_take, if_pos (by omega), List.getElem?_eq_getElem hlt]
  · refine ⟨g.hostEdge, ?_, ?_⟩
    · unfold cGet
      rw [address_out hc, devRead, h.edge]
      rfl
    · unfold gridRead topoLocate
      rw [show (host g).dim = g.dim from rfl, if_pos ((outOfBounds_iff n wraps _ _).2 hc), host_edge h]

theorem take_splice {l src : List α} {i m s : Nat} (h : i + m ≤ s) (hs : s ≤ l.length) (hm : m ≤ src.length) :
    (l.take i ++ src.take m ++ l.drop (i + m)).take s = (l.take s).take i ++ src.take m ++ (l.take s).drop (i + m) := by
  have h1 : (l.take i ++ src.take m).length = i + m := by
    rw [List.length_append, List.length_take, List.length_take]; omega
  rw [List.take_append, h1, List.take_of_length_le (by omega), List.take_take, Nat.min_eq_left (by omega), List.drop_take]

theorem splice_length {l src : List α} {i m : Nat} (h : i + m ≤ l.length) (hm : m ≤ src.length) : (l.take i ++ src.take m ++ l.drop (i + m)).length = l.length := by
  simp only [List.length_append, List.length_take, List.length_drop]
  omega

theorem set_eq (hn : n ≤ 2) {g : CGrid α} (h : CGridOK n tc g) {c : Crd} (hc : Fine n wraps tc g c) (v : α) :
    ∃ g', cSet n wraps tc g c v = .ok g' ∧ CGridOK n tc g' ∧ g'.origin = g.origin ∧ g'.dim = g.dim ∧ g'.topo = g.topo ∧
      gridWrite n wraps (host g) (cRel n wraps tc g c) v = some (host g') := by
  rcases hc with hc | ⟨hc, _⟩
  · obtain ⟨b1, b2⟩ := lin_bounds h hc
    have hcap := h.cap
    unfold cSet
    rw [address_in hn hc]
    simp only [devWrite]
    rw [if_pos (by simp), if_pos (by omega)]
    refine ⟨_, rfl, ⟨h.pos, h.size, ?_, h.edge, h.topo⟩, rfl, rfl, rfl, ?_⟩
    · simp only
      rw [splice_length (by omega) (by simp)]
      exact hcap
    · unfold gridWrite
      rw [show (host g).dim = g.dim from rfl, locate_inDim hn hc]
      simp only
      have hl : (host g).cells.length = g.size := by simp [host, hcap]
      rw [if_pos (by rw [hl]; omega)]
      congr 1
      simp only [host]
      congr 1
      rw [take_splice (by omega) hcap (by simp), List.set_eq_take_append_cons_drop, if_pos (by rw [List.length_take]; omega)]
      simp
  · unfold cSet
    rw [address_out hc]
    simp only [devWrite, cSetEdge]
    refine ⟨_, rfl, ⟨h.pos, h.size, h.cap, rfl, h.topo⟩, rfl, rfl, rfl, ?_⟩
    unfold gridWrite topoLocate
    rw [show (host g).dim = g.dim from rfl, if_pos ((outOfBounds_iff n wraps _ _).2 hc)]
    rfl

/-! ## Streaks -/

/-- a streak inside of the box -/
def StreakIn (n : Nat) (g : CGrid α) (s : Streak) : Prop := InBox n g s.origin ∧ s.origin 0 ≤ s.endX ∧ s.endX - g.origin 0 ≤ g.dim 0

/-- the streak at relative coordinates -/
def relS (g : CGrid α) (s : Streak) : Streak := ⟨fun k => s.origin k - g.origin k, s.endX - g.origin 0⟩

theorem streak_bounds (hn : n ≤ 2) {g : CGrid α} (h : CGridOK n tc g) {s : Streak} (hs : StreakIn n g s) :
    cAddress n wraps tc g s.origin = .data (lin g.dim n 0 (relS g s).origin) ∧ 0 ≤ lin g.dim n 0 (relS g s).origin ∧
      lin g.dim n 0 (relS g s).origin + sLen s ≤ g.size := by
  obtain ⟨h1, h2, h3⟩ := hs
  have e := address_in (wraps := wraps) hn (rel_inDim h h1)
  rw [lin_congr g.dim n 0 _ (relS g s).origin (fun j _ hj => rel_in h h1 j (by omega))] at e
  refine ⟨e, (lin_bounds h h1).1, ?_⟩
  by_cases h0 : sLen s = 0
  · rw [h0]
    have := (lin_bounds h h1).2
    simp only [relS]
    push_cast
    omega
  · have hin : InDim n g.dim (upd (relS g s).origin 0 (s.endX - g.origin 0 - 1)) := by
      intro k hk
      unfold upd
      split
      · rename_i hk0
        subst hk0
        have : 0 ≤ s.origin 0 - g.origin 0 ∧ s.origin 0 - g.origin 0 < g.dim 0 := h1 0 (by omega)
        unfold sLen at h0
        omega
      · exact h1 k hk
    have := (lin_bounds h hin).2
    rw [lin_upd] at this
    unfold sLen at h0 ⊢
    simp only [relS] at this ⊢
    omega

theorem inBounds_rel {g : CGrid α} {s : Streak} (hs : StreakIn n g s) : streakInBounds n (host g).dim (relS g s) = true :=
  (inBounds_iff _).2 ⟨hs.1, hs.2.2⟩

theorem getStreak_host (hn : n ≤ 2) {g : CGrid α} (h : CGridOK n tc g) {s : Streak} (hs : StreakIn n g s) {p : Ptr} (hp : p = cAddress n wraps tc g s.origin) :
    ∃ l, devRead g p (sLen s) = .ok l ∧ l.length = sLen s ∧ gridGetStreak n wraps (host g) (relS g s) = some l := by
  obtain ⟨e, b1, b2⟩ := streak_bounds (wraps := wraps) hn h hs
  have hcap := h.cap
  have hl : (host g).cells.length = g.size := by simp [host, hcap]
  refine ⟨(g.mem.drop (lin g.dim n 0 (relS g s).origin).toNat).take (sLen s), ?_, ?_, ?_⟩
  · rw [hp, e, devRead, if_pos (by omega)]
  · rw [List.length_take, List.length_drop]
    omega
  · have hlen : (relS g s).endX - (relS g s).origin 0 = s.endX - s.origin 0 := by simp only [relS]; ring
    have h2 := hs.2.1
    unfold gridGetStreak
    rw [if_pos (inBounds_rel hs), show (host g).dim = g.dim from rfl, locate_inDim hn (show InDim n g.dim (relS g s).origin from hs.1), hlen]
    simp only
    rw [if_pos]
    · congr 1
      simp only [host, sLen]
      rw [List.drop_take, List.take_take, Nat.min_eq_left]
      · unfold sLen at b2
        simp only [relS] at b2 b1 ⊢
        omega
    · unfold sLen at b2
      simp only [relS] at b2 b1 ⊢
      rw [hl]
      refine ⟨b1, by omega, by omega⟩

theorem setStreak_host (hn : n ≤ 2) {g : CGrid α} (h : CGridOK n tc g) {s : Streak} (hs : StreakIn n g s) (src : List α) (hsrc : sLen s ≤ src.length) {p : Ptr}
    (hp : p = cAddress n wraps tc g s.origin) :
    ∃ g', devWrite g p src (sLen s) = .ok g' ∧ CGridOK n tc g' ∧ g'.origin = g.origin ∧ g'.dim = g.dim ∧ g'.topo = g.topo ∧
      gridSetStreak n wraps (host g) (relS g s) src = some (host g') := by
  obtain ⟨e, b1, b2⟩ := streak_bounds (wraps := wraps) hn h hs
  have hcap := h.cap
  have hl : (host g).cells.length = g.size := by simp [host, hcap]
  unfold devWrite
  rw [if_pos hsrc, hp, e]
  simp only
  rw [if_pos (by omega)]
  refine ⟨_, rfl, ⟨h.pos, h.size, ?_, h.edge, h.topo⟩, rfl, rfl, rfl, ?_⟩
  · simp only
    rw [splice_length (by omega) hsrc]
    exact hcap
  · have hlen : (relS g s).endX - (relS g s).origin 0 = s.endX - s.origin 0 := by simp only [relS]; ring
    have h2 := hs.2.1
    unfold gridSetStreak
    rw [if_pos (inBounds_rel hs), show (host g).dim = g.dim from rfl, locate_inDim hn (show InDim n g.dim (relS g s).origin from hs.1), hlen]
    simp only
    rw [if_pos]
    · congr 1
      simp only [host]
      congr 1
      rw [take_splice (by omega) hcap hsrc]
      rfl
    · unfold sLen at b2 hsrc
      simp only [relS] at b2 b1 ⊢
      rw [hl]
      refine ⟨b1, by omega, by omega, by omega⟩

/-! ## Regions -/

/-- a streak moved by an offset -/
def moveS (off : Crd) (s : Streak) : Streak := ⟨plus s.origin off, s.endX + off 0⟩

theorem sLen_move (off : Crd) (s : Streak) : sLen (moveS off s) = sLen s := by
  unfold sLen moveS plus
  congr 1
  simp only
  omega

theorem saveLoop_host (hn : n ≤ 2) {g : CGrid α} (h : CGridOK n tc g) (off : Crd) (ss : List Streak) : ∀ (b : List α) (p : Nat), (∀ s ∈ ss, StreakIn n g (moveS off s)) →
    p + (ss.map sLen).sum ≤ b.length →
    ∃ b', cSaveLoop n wraps tc g off ss b p = .ok b' ∧ saveLoop n wraps (host g) (ss.map fun s => relS g (moveS off s)) b p = some b' := by
  induction ss with
  | nil => intro b p _ _; exact ⟨b, rfl, rfl⟩
  | cons s ss ih =>
    intro b p hs hp
    obtain ⟨l, e1, e2, e3⟩ := getStreak_host (wraps := wraps) hn h (hs s (by simp)) (p := cAddress n wraps tc g (plus s.origin off)) rfl
    rw [sLen_move] at e1 e2
    rw [List.map_cons, List.sum_cons] at hp
    rw [cSaveLoop, e1, List.map_cons, saveLoop, e3]
    simp only [Except.bind, Option.bind_some]
    rw [if_pos (by omega), if_pos (by omega)]
    have hlen : ((relS g (moveS off s)).endX - (relS g (moveS off s)).origin 0).toNat = sLen s := by
      simp only [relS, moveS, plus, sLen]
      congr 1
      ring
    rw [hlen]
    refine ih _ _ (fun s' hs' => hs s' (by simp [hs'])) ?_
    simp only [List.length_append, List.length_take, List.length_drop]
    omega

theorem loadLoop_host (hn : n ≤ 2) (off : Crd) (ss : List Streak) : ∀ (b : List α) (g : CGrid α), CGridOK n tc g → (∀ s ∈ ss, StreakIn n g (moveS off s)) →
    (ss.map sLen).sum ≤ b.length →
    ∃ g', cLoadLoop n wraps tc off ss b g = .ok g' ∧ CGridOK n tc g' ∧ g'.origin = g.origin ∧ g'.dim = g.dim ∧ g'.topo = g.topo ∧
      loadLoop n wraps (ss.map fun s => relS g (moveS off s)) b (host g) = some (host g') := by
  induction ss with
  | nil => intro b g h _ _; exact ⟨g, rfl, h, rfl, rfl, rfl, rfl⟩
  | cons s ss ih =>
    intro b g h hs hp
    rw [List.map_cons, List.sum_cons] at hp
    obtain ⟨g1, e1, h1, o1, d1, t1, e2⟩ := setStreak_host (wraps := wraps) hn h (hs s (by simp)) b (by rw [sLen_move]; omega) (p := cAddress n wraps tc g (plus s.origin off)) rfl
    rw [sLen_move] at e1
    have hlen : ((relS g (moveS off s)).endX - (relS g (moveS off s)).origin 0).toNat = sLen s := by
      simp only [relS, moveS, plus, sLen]
      congr 1
      ring
    obtain ⟨g2, e3, h2, o2, d2, t2, e4⟩ := ih (b.drop (sLen s)) g1 h1 (fun s' hs' => by
      have := hs s' (by simp [hs'])
      unfold StreakIn InBox at this ⊢
      rw [o1, d1]
      exact this) (by rw [List.length_drop]; omega)
    refine ⟨g2, ?_, h2, o2.trans o1, d2.trans d1, t2.trans t1, ?_⟩
    · rw [cLoadLoop, e1]
      exact e3
    · rw [List.map_cons, loadLoop, e2, Option.bind_some, hlen]
      have : (fun s => relS g1 (moveS off s)) = fun s => relS g (moveS off s) := by
        funext s
        unfold relS
        rw [o1]
      rw [this] at e4
      exact e4

end LGD.Store
