import Verif.Unstr.ReorderModel
import Verif.Region.SetOps
import Verif.Props.C04
import Verif.Props.C38

/-!
# Lemmas about `ReorderingUnstructuredGrid`
-/

namespace LGD.Unstr

open LGD.Sell

variable {α V : Type}

/-- `id` is in the set of nodes -/
def Node (r : Idx) (id : Int) : Prop := RMem 0 r fun _ => id

theorem mem_node {r : Idx} (h : RegOK 0 r) (c : Crd) : RMem 0 r c ↔ Node r (c 0) := by
  obtain ⟨t, ht⟩ := h
  unfold Node
  rw [ht.mem_iff, ht.mem_iff]
  exact TMem_congr 0 t _ _ fun k hk => by rw [Nat.le_zero.1 hk]

theorem nodeStreaks {r : Idx} (h : RegOK 0 r) : ∃ ss : List Streak, allStreaks 0 r (fun _ => 0) 0 = some ss ∧ (∀ s ∈ ss, s.origin 0 < s.endX) ∧ ss.Pairwise (fun s s' => s.endX < s'.origin 0) ∧
    ∀ x, Node r x ↔ ∃ s ∈ ss, s.origin 0 ≤ x ∧ x < s.endX := by
  obtain ⟨l, e, _, hc⟩ := toVector_spec h
  refine ⟨l, e, hc.pos, hc.sorted.imp ?_, fun x => ?_⟩
  · rintro a b (⟨k, h1, h2, _⟩ | h)
    · omega
    · exact h.2
  · unfold Node
    rw [hc.mem]
    constructor
    · rintro ⟨s, hs, _, h1, h2⟩
      exact ⟨s, hs, h1, h2⟩
    · rintro ⟨s, hs, h1, h2⟩
      exact ⟨s, hs, fun k _ _ => by omega, h1, h2⟩

theorem nodeIDs_spec {r : Idx} (h : RegOK 0 r) : ∃ ids, nodeIDs r = some ids ∧ ids.Pairwise (· < ·) ∧ ∀ x, x ∈ ids ↔ Node r x := by
  obtain ⟨ss, e, h1, h2, h3⟩ := nodeStreaks h
  unfold nodeIDs
  rw [e]
  refine ⟨_, rfl, ?_, fun x => ?_⟩
  · rw [List.pairwise_flatMap]
    refine ⟨fun s _ => ?_, h2.imp_of_mem ?_⟩
    · rw [List.pairwise_map]
      exact List.pairwise_lt_range.imp fun h => by omega
    · intro a b _ _ hab x hx y hy
      rw [List.mem_map] at hx hy
      obtain ⟨i, hi, rfl⟩ := hx
      obtain ⟨j, hj, rfl⟩ := hy
      rw [List.mem_range] at hi
      omega
  · rw [h3, List.mem_flatMap]
    constructor
    · rintro ⟨s, hs, hx⟩
      rw [List.mem_map] at hx
      obtain ⟨i, hi, rfl⟩ := hx
      rw [List.mem_range] at hi
      exact ⟨s, hs, by omega, by omega⟩
    · rintro ⟨s, hs, h4, h5⟩
      exact ⟨s, hs, List.mem_map.2 ⟨(x - s.origin 0).toNat, List.mem_range.2 (by omega), by omega⟩⟩

theorem count_spec {r : Idx} (h : RegOK 0 r) (id : Int) : ∃ b, count r id = some b ∧ (b = true ↔ Node r id) := by
  obtain ⟨t, ht⟩ := h
  obtain ⟨b, h1, h2⟩ := rep_countCoord ht fun _ => id
  exact ⟨b, h1, h2.trans (ht.mem_iff _).symm⟩

theorem insertID_spec {r : Idx} (h : RegOK 0 r) (id : Int) : ∃ r', insertID r id = some r' ∧ RegOK 0 r' ∧ ∀ x, Node r' x ↔ Node r x ∨ x = id := by
  obtain ⟨r', h1, h2, h3⟩ := regInsert_spec 0 r ⟨fun _ => id, id + 1⟩ h
  refine ⟨r', h1, h2, fun x => (h3 _).trans (or_congr Iff.rfl ?_)⟩
  constructor
  · rintro ⟨_, h4, h5⟩
    dsimp only at h4 h5
    omega
  · rintro rfl
    exact ⟨fun k _ _ => rfl, by dsimp only; omega, by dsimp only; omega⟩

theorem length_le_of_range {ids : List Int} (hn : ids.Nodup) (o : Int) (d : Nat) (h : ∀ x ∈ ids, o ≤ x ∧ x < o + d) : ids.length ≤ d := by
  have h1 : ids ⊆ (List.range d).map fun i : Nat => o + i := by
    intro x hx
    have := h x hx
    exact List.mem_map.2 ⟨(x - o).toNat, List.mem_range.2 (by omega), by omega⟩
  have := (List.subperm_of_subset hn h1).length_le
  rwa [List.length_map, List.length_range] at this

theorem geometry_spec {r : Idx} (h : RegOK 0 r) {ids : List Int} (hids : nodeIDs r = some ids) :
    ∃ geo, determineGeometry 0 r = some geo ∧ geo.1 = ids.length ∧ ids.length ≤ (geo.2.dims 0).toNat := by
  obtain ⟨ids', e, hs, hm⟩ := nodeIDs_spec h
  obtain rfl : ids' = ids := by rw [e] at hids; exact Option.some.inj hids
  have hn : ids'.Nodup := hs.imp fun h => by omega
  obtain ⟨m, b, e', ⟨l, hl1, hl2, rfl⟩, hb⟩ := C04.determineGeometry_spec 0 r h
  refine ⟨_, e', ?_, ?_⟩
  · dsimp only
    have hp : (l.map fun c => c 0).Perm ids' := by
      refine (List.perm_ext_iff_of_nodup ?_ hn).2 fun x => ?_
      · rw [List.Nodup, List.pairwise_map]
        exact hl1.imp fun ⟨k, hk, h⟩ => by rw [Nat.le_zero.1 hk] at h; exact h
      · rw [hm, Node, hl2, List.mem_map]
        constructor
        · rintro ⟨c, hc, rfl⟩
          exact ⟨c, hc, fun k hk => by rw [Nat.le_zero.1 hk]⟩
        · rintro ⟨c, hc, hx⟩
          exact ⟨c, hc, hx 0 (Nat.le_refl _)⟩
    rw [← hp.length_eq, List.length_map]
  · by_cases hemp : ids' = []
    · rw [hemp]; exact Nat.zero_le _
    · refine length_le_of_range hn (b.origin 0) _ fun x hx => ?_
      have := hb.2.1 _ ((hm x).1 hx) 0 (Nat.le_refl _)
      dsimp only at this ⊢
      omega

/-! ## the map of IDs -/

theorem mapID_mem {ids : List Int} (hs : ids.Pairwise (· < ·)) (ph : Int → Nat) {id : Int} (h : id ∈ ids) : mapID id (ids.map fun i => (i, ph i)) = some (some (id, ph id)) := by
  induction ids with
  | nil => exact absurd h (List.not_mem_nil)
  | cons a l ih =>
    rw [List.pairwise_cons] at hs
    unfold mapID at ih ⊢
    rw [List.map_cons, List.dropWhile_cons]
    rcases List.mem_cons.1 h with rfl | h
    · rw [if_neg (by simp)]
      simp
    · rw [if_pos (by simpa using hs.1 _ h)]
      exact ih hs.2 h

theorem mapID_not {ids : List Int} (ph : Int → Nat) {id : Int} (h : id ∉ ids) (h' : ∃ j ∈ ids, id < j) : mapID id (ids.map fun i => (i, ph i)) = some none := by
  induction ids with
  | nil => obtain ⟨j, hj, _⟩ := h'; exact absurd hj (List.not_mem_nil)
  | cons a l ih =>
    rw [List.mem_cons, not_or] at h
    unfold mapID at ih ⊢
    rw [List.map_cons, List.dropWhile_cons]
    by_cases ha : a < id
    · rw [if_pos (by simpa using ha)]
      refine ih h.2 ?_
      obtain ⟨j, hj, hlt⟩ := h'
      rcases List.mem_cons.1 hj with rfl | hj
      · omega
      · exact ⟨j, hj, hlt⟩
    · rw [if_neg (by simpa using ha)]
      dsimp only
      rw [if_pos (Ne.symm h.1)]

theorem mapID_beyond {ids : List Int} (ph : Int → Nat) {id : Int} (h : ∀ j ∈ ids, j < id) : mapID id (ids.map fun i => (i, ph i)) = none := by
  induction ids with
  | nil => rfl
  | cons a l ih =>
    unfold mapID at ih ⊢
    rw [List.map_cons, List.dropWhile_cons, if_pos (by simpa using h a List.mem_cons_self)]
    exact ih fun j hj => h j (List.mem_cons_of_mem _ hj)

/-! ## cells -/

theorem locate_one {dim : Crd} {i : Int} (h0 : 0 ≤ i) (h1 : i < dim 0) : topoLocate 0 (fun _ => false) (fun _ => i) dim = some i := by
  unfold topoLocate
  rw [if_neg]
  · have : wrap1 i (dim 0) = i := by
      unfold wrap1
      split
      · omega
      · split
        · omega
        · rfl
    simp [toIndex, normEdges, this]
  · simp [outOfBounds, List.range_succ]
    omega

theorem cellRead_in {g : Store.Grid α} {N p : Nat} (hd : g.dim 0 = N) (hp : p < N) : cellRead g (p : Int) = g.cells[p]? := by
  unfold cellRead Store.gridRead
  rw [locate_one (by omega) (by omega)]
  dsimp only
  rw [if_pos (by omega), Int.toNat_natCast]

theorem cellWrite_in {g : Store.Grid α} {N p : Nat} (hd : g.dim 0 = N) (hl : g.cells.length = N) (hp : p < N) (v : α) : cellWrite g (p : Int) v = some { g with cells := g.cells.set p v } := by
  unfold cellWrite Store.gridWrite
  rw [locate_one (by omega) (by omega)]
  dsimp only
  rw [if_pos ⟨by omega, by omega⟩, Int.toNat_natCast]

/-! ## row lengths and mask -/

theorem lengthLoop_ok {nodes : Idx} (hn : RegOK 0 nodes) (m : List (Entry V)) : ∀ (len : Int → Nat) (mask : Idx), RegOK 0 mask →
    ∃ len' mask', lengthLoop nodes m len mask = some (len', mask') ∧ RegOK 0 mask' ∧ (∀ id, Node mask' id ↔ Node mask id ∨ (Node nodes id ∧ ∃ e ∈ m, e.1.1 = id ∧ ¬ Node nodes e.1.2)) ∧
      (∀ id, Node nodes id → ¬ Node mask' id → len' id = len id + (rowOf m id).length) ∧ (∀ id, Node mask' id → (Node mask id → len id = 0) → len' id = 0) := by
  induction m with
  | nil =>
    intro len mask hm
    exact ⟨len, mask, rfl, hm, fun id => by simp, fun id _ _ => rfl, fun id h1 h2 => h2 h1⟩
  | cons e m ih =>
    intro len mask hm
    obtain ⟨a, ha, ha'⟩ := count_spec hn e.1.1
    unfold lengthLoop
    rw [ha, Option.bind_some]
    by_cases hA : Node nodes e.1.1
    · rw [ha'.2 hA]
      obtain ⟨b, hb, hb'⟩ := count_spec hn e.1.2
      obtain ⟨c, hc, hc'⟩ := count_spec hm e.1.1
      rw [hb, hc]
      simp only [Bool.not_true, Bool.false_eq_true, if_false, Option.bind_some]
      by_cases hbc : (!b || c) = true
      · rw [if_pos hbc]
        obtain ⟨mask1, h1, h2, h3⟩ := insertID_spec hm e.1.1
        rw [h1, Option.bind_some]
        obtain ⟨len', mask', h4, h5, h6, h7, h8⟩ := ih (Function.update len e.1.1 0) mask1 h2
        refine ⟨len', mask', h4, h5, fun id => ?_, fun id hid hnm => ?_, fun id hid h0 => ?_⟩
        · rw [h6, h3]
          constructor
          · rintro ((h | rfl) | ⟨h, e', he', h'⟩)
            · exact Or.inl h
            · rcases Bool.or_eq_true _ _ ▸ hbc with h | h
              · exact Or.inr ⟨hA, e, List.mem_cons_self, rfl, fun hh => by rw [hb'.2 hh] at h; simp at h⟩
              · exact Or.inl (hc'.1 h)
            · exact Or.inr ⟨h, e', List.mem_cons_of_mem _ he', h'⟩
          · rintro (h | ⟨h, e', he', h'⟩)
            · exact Or.inl (Or.inl h)
            · rcases List.mem_cons.1 he' with rfl | he'
              · exact Or.inl (Or.inr h'.1.symm)
              · exact Or.inr ⟨h, e', he', h'⟩
        · have hne : id ≠ e.1.1 := fun h => hnm ((h6 id).2 (Or.inl ((h3 id).2 (Or.inr h))))
          rw [h7 id hid hnm, Function.update_of_ne hne, rowOf, rowOf, List.filter_cons, if_neg (by simpa using Ne.symm hne)]
        · refine h8 id hid fun h => ?_
          by_cases hne : id = e.1.1
          · rw [hne, Function.update_self]
          · rw [Function.update_of_ne hne]
            exact h0 (((h3 id).1 h).resolve_right hne)
      · rw [if_neg hbc]
        have hb1 : b = true := by cases b <;> simp_all
        have hc1 : c = false := by cases c <;> simp_all
        have hB : Node nodes e.1.2 := hb'.1 hb1
        have hCn : ¬ Node mask e.1.1 := fun h => by rw [hc'.2 h] at hc1; cases hc1
        obtain ⟨len', mask', h4, h5, h6, h7, h8⟩ := ih (Function.update len e.1.1 (len e.1.1 + 1)) mask hm
        refine ⟨len', mask', h4, h5, fun id => ?_, fun id hid hnm => ?_, fun id hid h0 => ?_⟩
        · rw [h6]
          constructor
          · rintro (h | ⟨h, e', he', h'⟩)
            · exact Or.inl h
            · exact Or.inr ⟨h, e', List.mem_cons_of_mem _ he', h'⟩
          · rintro (h | ⟨h, e', he', h'⟩)
            · exact Or.inl h
            · rcases List.mem_cons.1 he' with rfl | he'
              · exact absurd hB h'.2
              · exact Or.inr ⟨h, e', he', h'⟩
        · rw [h7 id hid hnm, rowOf, rowOf, List.filter_cons]
          by_cases hne : id = e.1.1
          · rw [hne, Function.update_self, if_pos (by simp), List.length_cons]; omega
          · rw [Function.update_of_ne hne, if_neg (by simpa using Ne.symm hne)]
        · refine h8 id hid fun h => ?_
          by_cases hne : id = e.1.1
          · rw [hne] at h; exact absurd h hCn
          · rw [Function.update_of_ne hne]; exact h0 h
    · have ha1 : a = false := by cases a <;> simp_all
      rw [ha1]
      simp only [Bool.not_false, if_true]
      obtain ⟨len', mask', h4, h5, h6, h7, h8⟩ := ih len mask hm
      refine ⟨len', mask', h4, h5, fun id => ?_, fun id hid hnm => ?_, h8⟩
      · rw [h6]
        constructor
        · rintro (h | ⟨h, e', he', h'⟩)
          · exact Or.inl h
          · exact Or.inr ⟨h, e', List.mem_cons_of_mem _ he', h'⟩
        · rintro (h | ⟨h, e', he', h'⟩)
          · exact Or.inl h
          · rcases List.mem_cons.1 he' with rfl | he'
            · rw [h'.1] at hA; exact absurd h hA
            · exact Or.inr ⟨h, e', he', h'⟩
      · rw [h7 id hid hnm, rowOf, rowOf, List.filter_cons, if_neg]
        simp only [decide_eq_true_eq]
        rintro rfl
        exact hA hid

/-! ## sorting -/

instance : Std.Total longerRow := ⟨fun a b => by unfold longerRow; omega⟩
instance : IsTrans (Int × Nat) longerRow := ⟨fun a b c => by unfold longerRow; omega⟩
instance : Std.Total idLe := ⟨fun a b => by unfold idLe; omega⟩
instance : IsTrans (Int × Nat) idLe := ⟨fun a b c => by unfold idLe; omega⟩

theorem blockSort_ok {sigma : Nat} (hs : 0 < sigma) : ∀ (fuel : Nat) (l : List (Int × Nat)), l.length < fuel →
    ∃ r, blockSort sigma fuel l = some r ∧ r.Perm l ∧ ∀ (i j : Nat) x y, i < j → i / sigma = j / sigma → r[i]? = some x → r[j]? = some y → y.2 ≤ x.2 := by
  intro fuel
  induction fuel with
  | zero => intro l h; omega
  | succ fuel ih =>
    intro l h
    unfold blockSort
    by_cases hl : l = []
    · subst hl
      exact ⟨[], rfl, List.Perm.refl _, fun i j x y _ _ h => by simp at h⟩
    · rw [if_neg (by simpa using hl)]
      have hpos : 0 < l.length := List.length_pos_iff.2 hl
      obtain ⟨r, h1, h2, h3⟩ := ih (l.drop sigma) (by rw [List.length_drop]; omega)
      rw [h1, Option.map_some]
      have hp := List.perm_insertionSort longerRow (l.take sigma)
      have hst : ((l.take sigma).insertionSort longerRow).Pairwise longerRow := List.pairwise_insertionSort _ _
      generalize (l.take sigma).insertionSort longerRow = t at *
      refine ⟨_, rfl, ?_, ?_⟩
      · have := hp.append h2
        rwa [List.take_append_drop] at this
      · intro i j x y hij hd hx hy
        have hlen : t.length = min sigma l.length := by rw [hp.length_eq, List.length_take]
        by_cases hj : j < t.length
        · rw [List.getElem?_append_left (by omega)] at hx
          rw [List.getElem?_append_left hj] at hy
          obtain ⟨hi', rfl⟩ := List.getElem?_eq_some_iff.1 hx
          obtain ⟨hj', rfl⟩ := List.getElem?_eq_some_iff.1 hy
          have := List.pairwise_iff_getElem.1 hst i j hi' hj' hij
          unfold longerRow at this
          omega
        · have hrl : r.length = l.length - sigma := by rw [h2.length_eq, List.length_drop]
          have hjl := (List.getElem?_eq_some_iff.1 hy).1
          rw [List.length_append] at hjl
          have hts : t.length = sigma := by omega
          have hi : sigma ≤ i := by
            have h4 : 0 < j / sigma := Nat.div_pos (by omega) hs
            rw [← hd] at h4
            exact (Nat.div_pos_iff.1 h4).2
          rw [List.getElem?_append_right (by omega)] at hx hy
          rw [hts] at hx hy
          refine h3 _ _ x y (by omega) ?_ hx hy
          have e1 := Nat.div_eq_sub_div hs hi
          have e2 := Nat.div_eq_sub_div hs (show sigma ≤ j by omega)
          omega

theorem zipIdx_idxOf (l : List Int) (hl : l.Nodup) : l.zipIdx = l.map fun i => (i, l.idxOf i) := by
  refine List.ext_getElem (by simp) fun i h1 h2 => ?_
  rw [List.getElem_zipIdx, List.getElem_map, hl.idxOf_getElem, Nat.zero_add]

theorem newIDs_eq {ids l : List Int} (hs : ids.Pairwise (· < ·)) (hp : l.Perm ids) : (l.zipIdx).insertionSort idLe = ids.map fun i => (i, l.idxOf i) := by
  have hn : l.Nodup := hp.nodup_iff.2 (hs.imp fun h => by omega)
  refine List.Perm.eq_of_pairwise ?_ (List.pairwise_insertionSort idLe _) ?_ ((List.perm_insertionSort idLe _).trans ?_)
  · intro a b ha hb h1 h2
    have ha := (List.mem_insertionSort _).1 ha
    rw [zipIdx_idxOf l hn] at ha
    obtain ⟨i, _, rfl⟩ := List.mem_map.1 ha
    obtain ⟨j, _, rfl⟩ := List.mem_map.1 hb
    unfold idLe at h1 h2
    dsimp only at h1 h2
    obtain rfl : i = j := by omega
    rfl
  · rw [List.pairwise_map]
    exact hs.imp fun h => by unfold idLe; dsimp only; omega
  · rw [zipIdx_idxOf l hn]
    exact hp.map _

/-! ## moving cells -/

theorem moveLoop_ok {ids : List Int} (hs : ids.Pairwise (· < ·)) {ph ph' : Int → Nat} {N N' : Nat} {old : Store.Grid α} (hd : old.dim 0 = N) (hl : old.cells.length = N) (hph : ∀ i ∈ ids, ph i < N)
    (hph' : ∀ i ∈ ids, ph' i < N') (hinj : ∀ i ∈ ids, ∀ j ∈ ids, ph' i = ph' j → i = j) : ∀ (js : List Int), js ⊆ ids → js.Nodup → ∀ g : Store.Grid α, g.dim 0 = N' → g.cells.length = N' →
    ∃ g', moveLoop (ids.map fun i => (i, ph' i)) (ids.map fun i => (i, ph i)) old js g = some (false, g') ∧ g'.dim 0 = N' ∧ g'.cells.length = N' ∧ g'.edge = g.edge ∧
      (∀ j ∈ js, g'.cells[ph' j]? = old.cells[ph j]?) ∧ ∀ p, (∀ j ∈ js, p ≠ ph' j) → g'.cells[p]? = g.cells[p]? := by
  intro js
  induction js with
  | nil => intro _ _ g h1 h2; exact ⟨g, rfl, h1, h2, rfl, by simp, fun p _ => rfl⟩
  | cons j js ih =>
    intro hsub hn g h1 h2
    have hj := hsub List.mem_cons_self
    rw [List.nodup_cons] at hn
    have hv : old.cells[ph j]? = some (old.cells[ph j]'(by rw [hl]; exact hph j hj)) := List.getElem?_eq_getElem _
    unfold moveLoop
    rw [mapID_mem hs ph' hj, mapID_mem hs ph hj]
    simp only [Option.bind_some]
    rw [cellRead_in hd (hph j hj), hv, Option.bind_some, cellWrite_in h1 h2 (hph' j hj), Option.bind_some]
    obtain ⟨g', h3, h4, h5, h6, h7, h8⟩ := ih (fun x hx => hsub (List.mem_cons_of_mem _ hx)) hn.2 { g with cells := g.cells.set (ph' j) (old.cells[ph j]'(by rw [hl]; exact hph j hj)) } h1 (by simpa using h2)
    refine ⟨g', h3, h4, h5, h6, fun i hi => ?_, fun p hp => ?_⟩
    · rcases List.mem_cons.1 hi with rfl | hi
      · rw [h8 (ph' i) (fun k hk h => hn.1 (by rw [hinj i hj k (hsub (List.mem_cons_of_mem _ hk)) h]; exact hk))]
        dsimp only
        rw [List.getElem?_set_self (by rw [h2]; exact hph' i hj), hv]
      · exact h7 i hi
    · rw [h8 p fun k hk => hp k (List.mem_cons_of_mem _ hk)]
      dsimp only
      rw [List.getElem?_set_ne (Ne.symm (hp j List.mem_cons_self))]

/-! ## the matrix with physical IDs -/

/-- an entry with physical IDs -/
def physEntry (ph : Int → Nat) (e : Entry V) : Entry V := (((ph e.1.1 : Int), (ph e.1.2 : Int)), e.2)

theorem matrixLoop_ok {nodes mask : Idx} (hn : RegOK 0 nodes) (hm : RegOK 0 mask) {ids : List Int} (hs : ids.Pairwise (· < ·)) (hids : ∀ x, x ∈ ids ↔ Node nodes x) (ph : Int → Nat) (keep : Int → Bool)
    (hkeep : ∀ id, keep id = true ↔ Node nodes id ∧ ¬ Node mask id) (m : List (Entry V)) : (∀ e ∈ m, keep e.1.1 = true → Node nodes e.1.2) →
    matrixLoop nodes mask (ids.map fun i => (i, ph i)) m = some (false, (m.filter fun e => keep e.1.1).map (physEntry ph)) := by
  induction m with
  | nil => intro _; rfl
  | cons e m ih =>
    intro hmem
    have ih := ih fun e' he' => hmem e' (List.mem_cons_of_mem _ he')
    obtain ⟨a, ha, ha'⟩ := count_spec hn e.1.1
    obtain ⟨b, hb, hb'⟩ := count_spec hm e.1.1
    unfold matrixLoop
    rw [ha, hb]
    simp only [Option.bind_some]
    rw [List.filter_cons]
    by_cases hk : keep e.1.1 = true
    · have h1 := (hkeep _).1 hk
      have hb1 : b = false := by cases b <;> simp_all
      rw [ha'.2 h1.1, hb1]
      simp only [Bool.not_true, Bool.false_eq_true, if_false]
      rw [mapID_mem hs ph ((hids _).2 h1.1), mapID_mem hs ph ((hids _).2 (hmem e List.mem_cons_self hk))]
      simp only [Option.bind_some]
      rw [ih, if_pos hk]
      rfl
    · rw [if_neg hk]
      cases a with
      | false => simpa using ih
      | true =>
        have : b = true := by
          by_contra hb0
          exact hk ((hkeep _).2 ⟨ha'.1 rfl, fun h => hb0 (hb'.2 h)⟩)
        rw [this]
        simpa using ih

theorem phys_row {ids : List Int} {ph : Int → Nat} (hinj : ∀ i ∈ ids, ∀ j ∈ ids, ph i = ph j → i = j) {keep : Int → Bool} (hkeep : ∀ id, keep id = true → id ∈ ids) (m : List (Entry V)) {id : Int}
    (hid : id ∈ ids) : ((m.filter fun e => keep e.1.1).map (physEntry ph)).filter (fun e => decide (e.1.1 = (ph id : Int))) = if keep id then (rowOf m id).map (physEntry ph) else [] := by
  rw [List.filter_map]
  have : ∀ e : Entry V, ((fun e : Entry V => decide (e.1.1 = (ph id : Int))) ∘ physEntry ph) e = decide (ph e.1.1 = ph id) := by
    intro e
    show decide ((ph e.1.1 : Int) = (ph id : Int)) = _
    exact decide_eq_decide.2 Int.ofNat_inj
  rw [funext this]
  rw [List.filter_filter]
  have h2 : ∀ e : Entry V, (decide (ph e.1.1 = ph id) && keep e.1.1) = (keep id && decide (e.1.1 = id)) := by
    intro e
    by_cases hk : keep e.1.1 = true
    · by_cases he : e.1.1 = id
      · rw [he] at hk; simp [he, hk]
      · have : ¬ ph e.1.1 = ph id := fun h => he (hinj _ (hkeep _ hk) _ hid h)
        simp [he, this]
    · by_cases he : e.1.1 = id
      · rw [he] at hk; simp [he, hk]
      · simp [he, hk]
  simp only [h2]
  cases hki : keep id with
  | true => simp [rowOf]
  | false => simp

/-! ## the grid -/

/-- invariant: `ids` are the nodes in ascending order, `ph` maps them to positions -/
structure OK (N M : Nat) (ids : List Int) (ph : Int → Nat) (g : RGrid α V) : Prop where
  reg : RegOK 0 g.nodeSet
  nodes : nodeIDs g.nodeSet = some ids
  map : g.l2p = ids.map fun i => (i, ph i)
  inj : ∀ i ∈ ids, ∀ j ∈ ids, ph i = ph j → i = j
  lt : ∀ i ∈ ids, ph i < N
  dim : g.cells.dim 0 = N
  len : g.cells.cells.length = N
  mats : g.mats.length = M

variable {N M : Nat} {ids : List Int} {ph : Int → Nat} {g : RGrid α V}

theorem OK.sorted (h : OK N M ids ph g) : ids.Pairwise (· < ·) := by
  obtain ⟨ids', h1, h2, _⟩ := nodeIDs_spec h.reg
  rw [h.nodes, Option.some.injEq] at h1
  rwa [h1]

theorem OK.mem (h : OK N M ids ph g) (x : Int) : x ∈ ids ↔ Node g.nodeSet x := by
  obtain ⟨ids', h1, _, h2⟩ := nodeIDs_spec h.reg
  rw [h.nodes, Option.some.injEq] at h1
  rw [h1]
  exact h2 x

theorem OK.get (h : OK N M ids ph g) {id : Int} (hid : id ∈ ids) : rGet g id = g.cells.cells[ph id]? := by
  unfold rGet
  rw [h.map, mapID_mem h.sorted ph hid, Option.bind_some]
  exact cellRead_in h.dim (h.lt id hid)

theorem OK.get_unknown (h : OK N M ids ph g) {id : Int} (hid : id ∉ ids) (hlt : ∃ j ∈ ids, id < j) : rGet g id = some g.cells.edge := by
  unfold rGet
  rw [h.map, mapID_not ph hid hlt, Option.bind_some]

theorem OK.get_some (h : OK N M ids ph g) {id : Int} (hid : id ∈ ids) : ∃ v, rGet g id = some v := by
  rw [h.get hid]
  exact ⟨_, List.getElem?_eq_getElem (by rw [h.len]; exact h.lt id hid)⟩

theorem rMake_ok {nodes : Idx} (hn : RegOK 0 nodes) (C M : Nat) (default edge : α) :
    ∃ ids ph, ∃ g : RGrid α V, rMake C M nodes default edge = some g ∧ OK ids.length M ids ph g ∧ g.nodeSet = nodes ∧ g.cells.edge = edge ∧ ∀ id ∈ ids, rGet g id = some default := by
  obtain ⟨ids, h1, hs, hm⟩ := nodeIDs_spec hn
  obtain ⟨geo, h2, h3, _⟩ := geometry_spec hn h1
  have hnd : ids.Nodup := hs.imp fun h => by omega
  unfold rMake
  rw [h1, h2]
  simp only [Option.bind_some, Option.map_some]
  have ok : OK ids.length M ids (fun i => ids.idxOf i) (⟨(delegateMake (V := V) C M geo.1.toNat default edge).1, (delegateMake (V := V) C M geo.1.toNat default edge).2, nodes, ids.zipIdx, ids⟩ : RGrid α V) := by
    refine ⟨hn, h1, zipIdx_idxOf ids hnd, fun i hi j _ h => (List.idxOf_inj hi).1 h, fun i hi => List.idxOf_lt_length_of_mem hi, ?_, ?_, ?_⟩
    · simp [delegateMake, Store.gridMake, h3]
    · simp [delegateMake, Store.gridMake, h3, crdProd]
    · simp [delegateMake]
  refine ⟨ids, _, _, rfl, ok, rfl, rfl, fun id hid => ?_⟩
  rw [ok.get hid]
  have := ok.lt id hid
  simp only [delegateMake, Store.gridMake, crdProd, h3, Int.toNat_natCast]
  rw [List.getElem?_replicate, if_pos this]

theorem OK.set (h : OK N M ids ph g) {id : Int} (hid : id ∈ ids) (v : α) :
    ∃ g', rSet g id v = some g' ∧ OK N M ids ph g' ∧ g'.nodeSet = g.nodeSet ∧ g'.mats = g.mats ∧ g'.cells.edge = g.cells.edge ∧ rGet g' id = some v ∧ ∀ j ∈ ids, j ≠ id → rGet g' j = rGet g j := by
  unfold rSet
  rw [h.map, mapID_mem h.sorted ph hid, Option.bind_some]
  dsimp only
  rw [cellWrite_in h.dim h.len (h.lt id hid), Option.map_some]
  have ok : OK N M ids ph { g with cells := { g.cells with cells := g.cells.cells.set (ph id) v } } := ⟨h.reg, h.nodes, h.map, h.inj, h.lt, h.dim, by simpa using h.len, h.mats⟩
  rw [← h.map]
  refine ⟨_, rfl, ok, rfl, rfl, rfl, ?_, fun j hj hne => ?_⟩
  · rw [ok.get hid]
    exact List.getElem?_set_self (by rw [h.len]; exact h.lt id hid)
  · rw [ok.get hj, h.get hj]
    exact List.getElem?_set_ne fun he => hne (h.inj _ hj _ hid he.symm)

theorem OK.setEdge (h : OK N M ids ph g) (v : α) : OK N M ids ph (rSetEdge g v) ∧ (rSetEdge g v).cells.edge = v ∧ ∀ j ∈ ids, rGet (rSetEdge g v) j = rGet g j := by
  have ok : OK N M ids ph (rSetEdge g v) := ⟨h.reg, h.nodes, h.map, h.inj, h.lt, h.dim, h.len, h.mats⟩
  exact ⟨ok, rfl, fun j hj => by rw [ok.get hj, h.get hj]; rfl⟩

theorem OK.setLoop (hok : OK N M ids ph g) : ∀ (js : List Int) (vs : List α), js ⊆ ids → js.length ≤ vs.length → js.Nodup →
    ∃ g', Unstr.setLoop js vs g = some g' ∧ OK N M ids ph g' ∧ g'.nodeSet = g.nodeSet ∧ g'.mats = g.mats ∧ g'.cells.edge = g.cells.edge ∧ (∀ (i : Nat) j v, js[i]? = some j → vs[i]? = some v → rGet g' j = some v) ∧
      ∀ j ∈ ids, j ∉ js → rGet g' j = rGet g j := by
  intro js
  induction js generalizing g with
  | nil => intro vs _ _ _; exact ⟨g, by unfold Unstr.setLoop; rfl, hok, rfl, rfl, rfl, fun i j v h => by simp at h, fun j _ _ => rfl⟩
  | cons a js ih =>
    intro vs hsub hlen hnd
    rw [List.nodup_cons] at hnd
    match vs with
    | [] => simp at hlen
    | v :: vs =>
      obtain ⟨g1, h1, h2, h3, h4, h5, h6, h7⟩ := hok.set (hsub List.mem_cons_self) v
      obtain ⟨g', k1, k2, k3, k4, k5, k6, k7⟩ := ih h2 vs (fun x hx => hsub (List.mem_cons_of_mem _ hx)) (by simpa using hlen) hnd.2
      refine ⟨g', by unfold Unstr.setLoop; rw [h1, Option.bind_some, k1], k2, k3.trans h3, k4.trans h4, k5.trans h5, fun i j w hj hw => ?_, fun j hj hno => ?_⟩
      · cases i with
        | zero =>
          simp only [List.getElem?_cons_zero, Option.some.injEq] at hj hw
          subst hj hw
          rw [k7 _ (hsub List.mem_cons_self) hnd.1, h6]
        | succ i =>
          rw [List.getElem?_cons_succ] at hj hw
          exact k6 i j w hj hw
      · rw [List.mem_cons, not_or] at hno
        rw [k7 j hj hno.2, h7 j hj hno.1]

theorem OK.getLoop (hok : OK N M ids ph g) : ∀ js : List Int, js ⊆ ids → ∃ l, Unstr.getLoop g js = some l ∧ l.map some = js.map (rGet g) := by
  intro js
  induction js with
  | nil => intro _; exact ⟨[], rfl, rfl⟩
  | cons a js ih =>
    intro hsub
    obtain ⟨v, hv⟩ := hok.get_some (hsub List.mem_cons_self)
    obtain ⟨l, h1, h2⟩ := ih fun x hx => hsub (List.mem_cons_of_mem _ hx)
    exact ⟨v :: l, by unfold Unstr.getLoop; rw [hv, h1]; rfl, by rw [List.map_cons, List.map_cons, h2, hv]⟩

theorem OK.iterStreaks (hok : OK N M ids ph g) : ∀ (js : List Int) (prev : Streak), js ⊆ ids → Unstr.iterStreaks g.l2p js prev = some (js.map fun j => ⟨fun _ => ph j, ph j + 1⟩) := by
  intro js
  induction js with
  | nil => intro _ _; rfl
  | cons a js ih =>
    intro prev hsub
    unfold Unstr.iterStreaks
    rw [hok.map, mapID_mem hok.sorted ph (hsub List.mem_cons_self), Option.bind_some]
    dsimp only
    rw [← hok.map, ih _ fun x hx => hsub (List.mem_cons_of_mem _ hx)]
    rfl

theorem OK.remapStreaks (hok : OK N M ids ph g) {region : Idx} {js : List Int} (hjs : nodeIDs region = some js) (hsub : js ⊆ ids) (h0 : ∃ j ∈ ids, 0 ≤ j) :
    Unstr.remapStreaks g.l2p region = some (js.map fun j => ⟨fun _ => ph j, ph j + 1⟩) := by
  unfold Unstr.remapStreaks
  rw [hjs, Option.bind_some, hok.iterStreaks js _ hsub, Option.bind_some, hok.map]
  by_cases hz : (0 : Int) ∈ ids
  · rw [mapID_mem hok.sorted ph hz]; rfl
  · rw [mapID_not ph hz]
    · rfl
    · obtain ⟨j, hj, hle⟩ := h0
      refine ⟨j, hj, ?_⟩
      rcases Int.lt_or_eq_of_le hle with h | rfl
      · exact h
      · exact absurd hj hz

theorem getStreak_one {c : Store.Grid α} {N p : Nat} (hd : c.dim 0 = N) (hl : c.cells.length = N) (hp : p < N) :
    Store.gridGetStreak 0 (fun _ => false) c ⟨fun _ => (p : Int), p + 1⟩ = some [c.cells[p]'(by omega)] := by
  unfold Store.gridGetStreak
  have hin : Store.streakInBounds 0 c.dim ⟨fun _ => (p : Int), p + 1⟩ = true := by
    simp [Store.streakInBounds, outOfBounds, List.range_succ, hd]
    omega
  rw [if_pos hin]
  dsimp only
  rw [locate_one (by omega) (by omega)]
  dsimp only
  rw [if_pos ⟨by omega, by omega, by omega⟩, show ((p : Int) + 1 - p).toNat = 1 by omega, Int.toNat_natCast, List.drop_eq_getElem_cons (by omega)]
  rfl

theorem setStreak_one {c : Store.Grid α} {N p : Nat} (hd : c.dim 0 = N) (hl : c.cells.length = N) (hp : p < N) (v : α) (vs : List α) :
    Store.gridSetStreak 0 (fun _ => false) c ⟨fun _ => (p : Int), p + 1⟩ (v :: vs) = some { c with cells := c.cells.set p v } := by
  unfold Store.gridSetStreak
  have hin : Store.streakInBounds 0 c.dim ⟨fun _ => (p : Int), p + 1⟩ = true := by
    simp [Store.streakInBounds, outOfBounds, List.range_succ, hd]
    omega
  rw [if_pos hin]
  dsimp only
  rw [locate_one (by omega) (by omega)]
  dsimp only
  rw [if_pos ⟨by omega, by omega, by omega, by rw [List.length_cons]; omega⟩, show ((p : Int) + 1 - p).toNat = 1 by omega, Int.toNat_natCast, List.set_eq_take_append_cons_drop,
    if_pos (by omega)]
  simp

theorem saveLoop_ones {c : Store.Grid α} {N : Nat} (hd : c.dim 0 = N) (hl : c.cells.length = N) : ∀ (ps : List Nat), (∀ p ∈ ps, p < N) → ∀ (b : List α) (q : Nat), q + ps.length ≤ b.length →
    ∃ l, l.map some = ps.map (fun p => c.cells[p]?) ∧ Store.saveLoop 0 (fun _ => false) c (ps.map fun p : Nat => ⟨fun _ => (p : Int), p + 1⟩) b q = some (b.take q ++ l ++ b.drop (q + ps.length)) := by
  intro ps
  induction ps with
  | nil => intro _ b q _; exact ⟨[], rfl, by simp [Store.saveLoop]⟩
  | cons p ps ih =>
    intro hp b q hlen
    rw [List.length_cons] at hlen
    have hpN := hp p List.mem_cons_self
    simp only [List.map_cons, Store.saveLoop]
    rw [getStreak_one hd hl hpN, Option.bind_some, List.length_singleton, if_pos (by omega)]
    obtain ⟨l, h1, h2⟩ := ih (fun x hx => hp x (List.mem_cons_of_mem _ hx)) (b.take q ++ [c.cells[p]'(by omega)] ++ b.drop (q + 1)) (q + 1) (by simp; omega)
    refine ⟨c.cells[p]'(by omega) :: l, by rw [List.map_cons, h1, List.getElem?_eq_getElem], ?_⟩
    rw [show ((p : Int) + 1 - p).toNat = 1 by omega, h2]
    congr 1
    have hq : (b.take q).length = q := by simp; omega
    have t1 : (b.take q ++ [c.cells[p]'(by omega)] ++ b.drop (q + 1)).take (q + 1) = b.take q ++ [c.cells[p]'(by omega)] := by
      rw [List.take_append_of_le_length (by simp; omega), List.take_of_length_le (by simp)]
    have t2 : (b.take q ++ [c.cells[p]'(by omega)] ++ b.drop (q + 1)).drop (q + 1 + ps.length) = b.drop (q + 1 + ps.length) := by
      rw [List.drop_append, List.drop_of_length_le (by simp; omega), List.nil_append, List.length_append, hq, List.drop_drop]
      congr 1
      simp
    rw [t1, t2, List.length_cons, show q + 1 + ps.length = q + (ps.length + 1) by omega]
    simp

theorem loadLoop_ones {N : Nat} : ∀ (ps : List Nat), (∀ p ∈ ps, p < N) → ∀ (b : List α) (c : Store.Grid α), c.dim 0 = N → c.cells.length = N → ps.length ≤ b.length → ps.Nodup →
    ∃ c', Store.loadLoop 0 (fun _ => false) (ps.map fun p : Nat => ⟨fun _ => (p : Int), p + 1⟩) b c = some c' ∧ c'.dim = c.dim ∧ c'.cells.length = N ∧ c'.edge = c.edge ∧
      (∀ (i : Nat) p, ps[i]? = some p → c'.cells[p]? = b[i]?) ∧ ∀ p, p ∉ ps → c'.cells[p]? = c.cells[p]? := by
  intro ps
  induction ps with
  | nil => intro _ b c hd hl _ _; exact ⟨c, rfl, rfl, hl, rfl, fun i p h => by simp at h, fun p _ => rfl⟩
  | cons p ps ih =>
    intro hp b c hd hl hlen hnd
    rw [List.nodup_cons] at hnd
    match b with
    | [] => simp at hlen
    | v :: vs =>
      have hpN := hp p List.mem_cons_self
      rw [List.map_cons, Store.loadLoop, setStreak_one hd hl hpN, Option.bind_some]
      obtain ⟨c', h1, h2, h3, h4, h5, h6⟩ := ih (fun x hx => hp x (List.mem_cons_of_mem _ hx)) vs { c with cells := c.cells.set p v } hd (by simpa using hl) (by simpa using hlen) hnd.2
      rw [show ((p : Int) + 1 - p).toNat = 1 by omega]
      refine ⟨c', h1, h2, h3, h4, fun i x hx => ?_, fun x hx => ?_⟩
      · cases i with
        | zero =>
          simp only [List.getElem?_cons_zero, Option.some.injEq] at hx
          subst hx
          rw [h6 p hnd.1]
          dsimp only
          rw [List.getElem?_set_self (by omega), List.getElem?_cons_zero]
        | succ i =>
          rw [List.getElem?_cons_succ] at hx ⊢
          exact h5 i x hx
      · rw [List.mem_cons, not_or] at hx
        rw [h6 x hx.2]
        exact List.getElem?_set_ne (Ne.symm hx.1)

theorem OK.save (hok : OK N M ids ph g) {region : Idx} {js : List Int} (hjs : nodeIDs region = some js) (hsub : js ⊆ ids) (h0 : ∃ j ∈ ids, 0 ≤ j) (b : List α) (hb : js.length ≤ b.length) (off : Crd) :
    ∃ l, rSave g b region off = some (l ++ b.drop js.length) ∧ l.map some = js.map (rGet g) := by
  unfold rSave
  rw [hok.remapStreaks hjs hsub h0, Option.bind_some]
  obtain ⟨l, h1, h2⟩ := saveLoop_ones hok.dim hok.len (js.map ph) (fun p hp => by obtain ⟨j, hj, rfl⟩ := List.mem_map.1 hp; exact hok.lt j (hsub hj)) b 0 (by simpa using hb)
  rw [List.map_map, List.length_map, List.take_zero, List.nil_append, Nat.zero_add] at h2
  refine ⟨l, h2, ?_⟩
  rw [h1, List.map_map]
  exact List.map_congr_left fun j hj => (hok.get (hsub hj)).symm

theorem OK.load (hok : OK N M ids ph g) {region : Idx} {js : List Int} (hjs : nodeIDs region = some js) (hnd : js.Nodup) (hsub : js ⊆ ids) (h0 : ∃ j ∈ ids, 0 ≤ j) (b : List α) (hb : js.length ≤ b.length)
    (off : Crd) : ∃ g', rLoad g b region off = some g' ∧ OK N M ids ph g' ∧ g'.nodeSet = g.nodeSet ∧ g'.mats = g.mats ∧ g'.cells.edge = g.cells.edge ∧
      (∀ (i : Nat) j v, js[i]? = some j → b[i]? = some v → rGet g' j = some v) ∧ ∀ j ∈ ids, j ∉ js → rGet g' j = rGet g j := by
  unfold rLoad
  rw [hok.remapStreaks hjs hsub h0, Option.bind_some]
  obtain ⟨c', h1, h2, h3, h4, h5, h6⟩ := loadLoop_ones (js.map ph) (fun p hp => by obtain ⟨j, hj, rfl⟩ := List.mem_map.1 hp; exact hok.lt j (hsub hj)) b g.cells hok.dim hok.len (by simpa using hb)
    (hnd.map_on fun x hx y hy h => hok.inj x (hsub hx) y (hsub hy) h)
  rw [List.map_map] at h1
  have ok : OK N M ids ph { g with cells := c' } := ⟨hok.reg, hok.nodes, hok.map, hok.inj, hok.lt, by rw [← hok.dim]; exact congrFun h2 0, h3, hok.mats⟩
  refine ⟨{ g with cells := c' }, by erw [h1]; rfl, ok, rfl, rfl, h4, fun i j v hj hv => ?_, fun j hj hno => ?_⟩
  · rw [ok.get (hsub (List.mem_of_getElem? hj)), ← hv]
    exact h5 i (ph j) (by rw [List.getElem?_map, hj]; rfl)
  · rw [ok.get hj, hok.get hj]
    refine h6 _ fun hm => hno ?_
    obtain ⟨x, hx, he⟩ := List.mem_map.1 hm
    rwa [← hok.inj x (hsub hx) j hj he]

theorem OK.remapLoop (hok : OK N M ids ph g) : ∀ (js : List Int) (r : Idx), js ⊆ ids → RegOK 0 r →
    ∃ r', Unstr.remapLoop g.l2p js r = some (false, r') ∧ RegOK 0 r' ∧ ∀ p : Int, Node r' p ↔ Node r p ∨ ∃ j ∈ js, p = ph j := by
  intro js
  induction js with
  | nil => intro r _ hr; exact ⟨r, rfl, hr, fun p => by simp⟩
  | cons a js ih =>
    intro r hsub hr
    unfold Unstr.remapLoop
    rw [hok.map, mapID_mem hok.sorted ph (hsub List.mem_cons_self), Option.bind_some]
    dsimp only
    obtain ⟨r1, h1, h2, h3⟩ := insertID_spec hr (ph a)
    obtain ⟨r', h4, h5, h6⟩ := ih r1 (fun x hx => hsub (List.mem_cons_of_mem _ hx)) h2
    rw [h1, Option.bind_some, ← hok.map]
    refine ⟨r', h4, h5, fun p => ?_⟩
    rw [h6, h3, or_assoc]
    simp

/-- the row which the grid stores for a node: none, if a neighbor is missing -/
def Complete (nodes : Idx) (m : List (Entry V)) (id : Int) : Prop := ∀ e ∈ m, e.1.1 = id → Node nodes e.1.2

theorem setWeights_ok {nodes : Idx} (hn : RegOK 0 nodes) (hids : nodeIDs nodes = some ids) {C sigma : Nat} (hC : 0 < C) (hs : 0 < sigma) (hne : ids ≠ []) (zero : V) {sort : List (Entry V) → List (Entry V)}
    (hsort : ∀ m, IsSort m (sort m)) (m : List (Entry V)) :
    ∃ N' ph', ∀ {α : Type} {N M : Nat} {ph : Int → Nat} {g : RGrid α V} (dflt : α) {k : Nat}, OK N M ids ph g → g.nodeSet = nodes → k < M →
      ∃ g', rSetWeights C sigma zero dflt sort k m g = some (false, g') ∧ OK N' M ids ph' g' ∧ g'.nodeSet = nodes ∧ g'.cells.edge = dflt ∧ (∀ id ∈ ids, rGet g' id = rGet g id) ∧
      (∃ c, g'.mats[k]? = some c ∧ ∀ id ∈ ids, ∃ l, getRow C c (ph' id) = some l ∧ (Complete nodes m id → l.Perm ((rowOf m id).map fun e => ((ph' e.1.2 : Int), e.2))) ∧
        (¬ Complete nodes m id → l = [])) ∧ ∀ j, j ≠ k → g'.mats[j]? = (g.mats[j]?).map fun _ => make C N' := by
  obtain ⟨ids', hi1, hss, hmem0⟩ := nodeIDs_spec hn
  obtain rfl : ids = ids' := by rw [hi1] at hids; exact (Option.some.inj hids).symm
  have hnd : ids.Nodup := hss.imp fun h => by omega
  obtain ⟨len, mask, h1, h2, h3, h4, h5⟩ := lengthLoop_ok hn m (fun _ => 0) emptyIdx (regOK_empty 0)
  have h3' : ∀ id ∈ ids, Node mask id ↔ ¬ Complete nodes m id := by
    intro id hid
    rw [h3]
    have : ¬ Node emptyIdx id := regEmpty_mem 0 _
    unfold Complete
    push Not
    constructor
    · rintro (h' | ⟨_, e, he⟩)
      · exact absurd h' this
      · exact ⟨e, he⟩
    · rintro ⟨e, he⟩
      exact Or.inr ⟨(hmem0 id).1 hid, e, he⟩
  obtain ⟨rows, h6, h7, h8⟩ := blockSort_ok hs (ids.length + 1) (ids.map fun j => (j, len j)) (by simp)
  have hperm : (rows.map Prod.fst).Perm ids := by
    have := h7.map Prod.fst
    rwa [List.map_map, show (Prod.fst ∘ fun j => (j, len j)) = id from rfl, List.map_id] at this
  have hrow : ∀ x ∈ rows, x.2 = len x.1 := by
    intro x hx
    obtain ⟨j, _, rfl⟩ := List.mem_map.1 (h7.mem_iff.1 hx)
    rfl
  have hLn : (rows.map Prod.fst).Nodup := hperm.nodup_iff.2 hnd
  have hnew := newIDs_eq hss hperm
  have hph' : ∀ p : Nat, ∀ x : Int × Nat, rows[p]? = some x → (rows.map Prod.fst).idxOf x.1 = p := by
    intro p x hx
    obtain ⟨hp, rfl⟩ := List.getElem?_eq_some_iff.1 hx
    have := hLn.idxOf_getElem p (by simpa using hp)
    rwa [List.getElem_map] at this
  have hlt0 : ∀ i ∈ ids, (rows.map Prod.fst).idxOf i < ids.length := by
    intro i hi
    have := List.idxOf_lt_length_of_mem (hperm.mem_iff.2 hi)
    rwa [hperm.length_eq] at this
  have hinj : ∀ i ∈ ids, ∀ j ∈ ids, (rows.map Prod.fst).idxOf i = (rows.map Prod.fst).idxOf j → i = j := fun i hi j _ he => (List.idxOf_inj (hperm.mem_iff.2 hi)).1 he
  have hlr : rows.length = ids.length := by rw [h7.length_eq, List.length_map]
  generalize hphd : (fun i => (rows.map Prod.fst).idxOf i) = ph' at *
  have hph1 : ∀ i, (rows.map Prod.fst).idxOf i = ph' i := fun i => congrFun hphd i
  simp only [hph1] at *
  -- cells
  obtain ⟨geo, g1, _, g3⟩ := geometry_spec hn hids
  have hlt : ∀ i ∈ ids, ph' i < (geo.2.dims 0).toNat := fun i hi => Nat.lt_of_lt_of_le (hlt0 i hi) g3
  have hN : 0 < (geo.2.dims 0).toNat := Nat.lt_of_lt_of_le (List.length_pos_iff.2 hne) g3
  generalize hN' : (geo.2.dims 0).toNat = N' at *
  -- matrix
  classical
  have hkeep : ∀ id, (decide (Node nodes id ∧ ¬ Node mask id)) = true ↔ Node nodes id ∧ ¬ Node mask id := fun id => decide_eq_true_iff
  have hml := matrixLoop_ok hn h2 hss hmem0 ph' (fun id => decide (Node nodes id ∧ ¬ Node mask id)) hkeep m (by
    intro e he hk
    have hk := (hkeep _).1 hk
    by_contra hno
    exact hk.2 ((h3 _).2 (Or.inr ⟨hk.1, e, he, rfl, hno⟩)))
  have hrows := fun id (hid : id ∈ ids) => phys_row hinj (fun id hk => (hmem0 id).2 ((hkeep id).1 hk).1) m hid (keep := fun id => decide (Node nodes id ∧ ¬ Node mask id))
  have hkc : ∀ id ∈ ids, (decide (Node nodes id ∧ ¬ Node mask id)) = true ↔ Complete nodes m id := by
    intro id hid
    rw [hkeep, h3' id hid, not_not]
    exact ⟨fun h => h.2, fun hc => ⟨(hmem0 id).1 hid, hc⟩⟩
  generalize hnm : ((m.filter fun e => decide (Node nodes e.1.1 ∧ ¬ Node mask e.1.1)).map (physEntry ph')) = nm at *
  have hmem : ∀ e ∈ nm, ∃ id ∈ ids, e.1.1 = (ph' id : Int) := by
    intro e he
    rw [← hnm] at he
    obtain ⟨e', he', rfl⟩ := List.mem_map.1 he
    exact ⟨e'.1.1, (hmem0 _).2 ((hkeep _).1 (List.mem_filter.1 he').2).1, rfl⟩
  have hfits : C38.Fits nm N' := by
    intro e he
    obtain ⟨id, hid, hx⟩ := hmem e he
    have := hlt id hid
    omega
  have hcount : ∀ p x, rows[p]? = some x → C38.count nm p = x.2 := by
    intro p x hx
    have hxm := List.mem_of_getElem? hx
    have hid : x.1 ∈ ids := hperm.mem_iff.1 (List.mem_map.2 ⟨x, hxm, rfl⟩)
    rw [hrow x hxm, ← hph' p x hx]
    unfold C38.count
    rw [hrows _ hid]
    split
    · rename_i hk
      have hk := (hkeep _).1 hk
      rw [List.length_map, h4 _ hk.1 hk.2, Nat.zero_add]
    · rename_i hk
      have : Node mask x.1 := by
        by_contra hno
        exact hk ((hkeep _).2 ⟨(hmem0 _).1 hid, hno⟩)
      rw [h5 _ this fun _ => trivial]
      rfl
  have hpre : C38.Presorted sigma N' nm := by
    intro r r' hr hr' hd
    by_cases hlast : r' < rows.length
    · have e1 : rows[r]? = some (rows[r]'(by omega)) := List.getElem?_eq_getElem _
      have e2 : rows[r']? = some rows[r'] := List.getElem?_eq_getElem _
      rw [hcount _ _ e1, hcount _ _ e2]
      exact h8 r r' _ _ hr hd e1 e2
    · have : C38.count nm r' = 0 := by
        unfold C38.count
        rw [List.length_eq_zero_iff, List.filter_eq_nil_iff]
        intro e he hc
        obtain ⟨id, hid, hx⟩ := hmem e he
        have h9 := hlt0 id hid
        have hc := of_decide_eq_true hc
        omega
      omega
  obtain ⟨c, c1, _, c2⟩ := C38.presorted hC hs hN zero hfits (hsort nm) (C38.ready_make C sigma N') hpre
  -- composition
  refine ⟨N', ph', fun {α N M ph g} dflt k h hg hk => ?_⟩
  obtain ⟨cells, m1, m2, m3, m4, m5, _⟩ := moveLoop_ok hss h.dim h.len h.lt hlt hinj ids (List.Subset.refl _) hnd (Store.gridMake 0 (fun _ => (N' : Int)) dflt dflt) rfl
    (by simp [Store.gridMake, crdProd])
  refine ⟨⟨cells, (List.replicate M (make C N')).set k c, nodes, ids.map fun i => (i, ph' i), rows.map Prod.fst⟩, ?_, ?_, rfl, m4, fun id hid => ?_, ⟨c, ?_, fun id hid => ?_⟩, fun j hj => ?_⟩
  · unfold rSetWeights
    rw [hg, h1, Option.bind_some, hids, Option.bind_some, h6, Option.bind_some]
    dsimp only
    rw [hnew]
    unfold reorder
    rw [hg, g1, Option.bind_some, hids, Option.bind_some]
    dsimp only [delegateMake]
    rw [hN', h.mats, h.map, m1]
    simp only [Option.map_some, Bool.false_eq_true, if_false, Option.bind_some]
    rw [hml]
    simp only [Bool.false_eq_true, if_false, Option.bind_some]
    rw [List.getElem?_replicate, if_pos hk, Option.bind_some, c1, Option.map_some]
  · exact ⟨hn, hids, rfl, hinj, hlt, m2, m3, by simp⟩
  · have ok : OK N' M ids ph' (⟨cells, (List.replicate M (make C N')).set k c, nodes, ids.map fun i => (i, ph' i), rows.map Prod.fst⟩ : RGrid α V) := ⟨hn, hids, rfl, hinj, hlt, m2, m3, by simp⟩
    rw [ok.get hid, h.get hid]
    exact m5 id hid
  · exact List.getElem?_set_self (by simpa using hk)
  · obtain ⟨l, l1, l2, l3⟩ := c2 (ph' id) (hlt id hid)
    refine ⟨l, l1, fun hc => ?_, fun hc => ?_⟩
    · rw [hrows id hid, if_pos ((hkc id hid).2 hc), List.map_map] at l2
      exact l2
    · rw [hrows id hid, if_neg fun hk => hc ((hkc id hid).1 hk)] at l2
      exact List.perm_nil.1 l2
  · dsimp only
    rw [List.getElem?_set_ne (Ne.symm hj), List.getElem?_replicate]
    split
    · rename_i hjM
      rw [List.getElem?_eq_getElem (by rw [h.mats]; exact hjM)]
      rfl
    · rename_i hjM
      rw [List.getElem?_eq_none (by rw [h.mats]; omega)]
      rfl

end LGD.Unstr
