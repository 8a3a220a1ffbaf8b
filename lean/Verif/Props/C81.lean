import Verif.Misc.UTestCellModel
import Mathlib.Data.List.OfFn

/-!
# C81: a simulation of valid `UnstructuredTestCell`s is a correct simulation of any model on the graph
-/

namespace LGD.C81
open LGD.UTC

variable {W U : Type} [LinearOrder W] (toInt : W → Int) (expected : Int → List W) (start : Nat)

/-- how a simulator obtained a cell: by the initializer, as the edge cell, by default construction, or by an update with some neighbors (weights and cells) -/
inductive Expr (W : Type)
  | init (id : Nat)
  | edge
  | dflt
  | update (self : Expr W) (k : Nat) (w : Fin k → W) (t : Fin k → Expr W) (nano : Nat)

/-- another model -/
structure User (W U : Type) where
  init : Int → U
  edge : U
  dflt : U
  update : U → List (W × U) → Nat → U

/-- the test cell which results; after an exception there is none, the (invalid) default cell is in its place -/
def evalT : Expr W → Cell W
  | .init id => initCell expected start id
  | .edge => edgeCell
  | .dflt => dfltCell
  | .update self k w t nano => (verify toInt (evalT self) (List.ofFn fun i : Fin k => (w i, evalT (t i))) nano).getD dfltCell

/-- the cell of the other model -/
def evalU (u : User W U) : Expr W → U
  | .init id => u.init id
  | .edge => u.edge
  | .dflt => u.dflt
  | .update self k w t nano => u.update (evalU u self) (List.ofFn fun i : Fin k => (w i, evalU u (t i))) nano

/-- reference: cell `id` after `t` updates -/
def ref (u : User W U) : Nat → Int → U
  | 0, id => u.init id
  | t + 1, id => u.update (ref u t id) ((expected id).map fun w => (w, ref u t (toInt w))) (t % 13)

/-- cycle counters don't overflow -/
def Short : Expr W → Prop
  | .update self _ _ t _ => (evalT toInt expected start self).counter + 1 < 2 ^ 32 ∧ Short self ∧ ∀ i, Short (t i)
  | _ => start * 13 < 2 ^ 32

/-- the model doesn't depend on the order of neighbors -/
def Symmetric (u : User W U) : Prop := ∀ s l l' nano, l.Perm l' → u.update s l nano = u.update s l' nano

/-- exactly what is accepted -/
theorem verify_iff (c : Cell W) (nbrs : List (W × Cell W)) (nano : Nat) (d : Cell W) :
    verify toInt c nbrs nano = some d ∧ d.valid = true ↔ nbrs.length ≤ 100 ∧ c.valid = true ∧ (∀ p ∈ nbrs, p.2.id = toInt p.1 ∧ p.2.counter = c.counter ∧ p.2.valid = true) ∧
      c.expected = (nbrs.map Prod.fst).insertionSort (· ≤ ·) ∧ c.counter % 13 = nano ∧ d = { c with counter := (c.counter + 1) % 2 ^ 32 } := by
  have hchk : ∀ p : W × Cell W, checkNeighbor c (toInt p.1) p.2 = true ↔ p.2.id = toInt p.1 ∧ p.2.counter = c.counter ∧ p.2.valid = true := by
    intro p
    unfold checkNeighbor
    by_cases h1 : p.2.id = toInt p.1
    · by_cases h2 : p.2.counter = c.counter
      · cases h3 : p.2.valid <;> simp [h1, h2]
      · simp [h1, h2]
    · simp [h1]
  unfold verify
  by_cases hl : 100 < nbrs.length
  · rw [if_pos hl]
    constructor
    · rintro ⟨h, _⟩; exact absurd h (by simp)
    · rintro ⟨h, _⟩; omega
  · rw [if_neg hl]
    simp only [Option.some.injEq]
    constructor
    · rintro ⟨rfl, hv⟩
      simp only [Bool.and_eq_true, decide_eq_true_eq, List.all_eq_true] at hv
      obtain ⟨⟨⟨h1, h2⟩, h3⟩, h4⟩ := hv
      refine ⟨by omega, h1, fun p hp => (hchk p).1 (h2 p hp), h3, h4, ?_⟩
      have e : (c.valid && nbrs.all (fun p => checkNeighbor c (toInt p.1) p.2) && decide (c.expected = (nbrs.map Prod.fst).insertionSort (· ≤ ·)) && decide (c.counter % 13 = nano)) = c.valid := by
        rw [h1]
        simp only [Bool.true_and, Bool.and_eq_true, decide_eq_true_eq, List.all_eq_true]
        exact ⟨⟨h2, h3⟩, h4⟩
      rw [e]
    · rintro ⟨_, h1, h2, h3, h4, rfl⟩
      have e : (c.valid && nbrs.all (fun p => checkNeighbor c (toInt p.1) p.2) && decide (c.expected = (nbrs.map Prod.fst).insertionSort (· ≤ ·)) && decide (c.counter % 13 = nano)) = c.valid := by
        rw [h1]
        simp only [Bool.true_and, Bool.and_eq_true, decide_eq_true_eq, List.all_eq_true]
        exact ⟨⟨fun p hp => (hchk p).2 (h2 p hp), h3⟩, h4⟩
      rw [e]
      exact ⟨rfl, h1⟩

/-- a valid test cell with the id of a cell of the grid: its cycle is that of the reference after some number of updates, and the same program yields the reference's cell for any model -/
theorem sound_aux (hpos : ∀ id, 0 ≤ id → ∀ w ∈ expected id, 0 ≤ toInt w) {u : User W U} (hu : Symmetric u) (e : Expr W) :
    Short toInt expected start e → (evalT toInt expected start e).valid = true → 0 ≤ (evalT toInt expected start e).id →
    ∃ t, (evalT toInt expected start e).counter = start * 13 + t ∧ (evalT toInt expected start e).expected = expected (evalT toInt expected start e).id ∧
      evalU u e = ref toInt expected u t (evalT toInt expected start e).id := by
  induction e with
  | init id => intro _ _ _; exact ⟨0, rfl, rfl, rfl⟩
  | edge => intro _ _ h; exact absurd h (by simp [evalT, edgeCell])
  | dflt => intro _ h; exact absurd h (by simp [evalT, dfltCell])
  | update self k w t nano ihs iht =>
    intro hsh hv hid
    simp only [evalT] at hv hid ⊢
    obtain ⟨hs1, hs2, hs3⟩ := hsh
    cases hver : verify toInt (evalT toInt expected start self) (List.ofFn fun i : Fin k => (w i, evalT toInt expected start (t i))) nano with
    | none => rw [hver] at hv; exact absurd hv (by simp [dfltCell])
    | some d =>
      rw [hver] at hv hid
      simp only [Option.getD_some] at hv hid ⊢
      obtain ⟨_, h1, h2, h3, h4, h5⟩ := (verify_iff toInt _ _ nano d).1 ⟨hver, hv⟩
      have hidd : d.id = (evalT toInt expected start self).id := by rw [h5]
      rw [hidd] at hid
      obtain ⟨n, hn, hexp, hself⟩ := ihs hs2 h1 hid
      refine ⟨n + 1, ?_, ?_, ?_⟩
      · rw [h5]; simp only; rw [Nat.mod_eq_of_lt hs1, hn]; omega
      · rw [h5]; exact hexp
      · rw [hidd]
        have hnano : nano = n % 13 := by rw [← h4, hn]; omega
        have hperm : (List.ofFn w).Perm (expected (evalT toInt expected start self).id) := by
          rw [← hexp, h3, List.map_ofFn]
          exact (List.perm_insertionSort _ _).symm
        have hnb : ∀ i, evalU u (t i) = ref toInt expected u n (toInt (w i)) := by
          intro i
          have hm : (w i, evalT toInt expected start (t i)) ∈ List.ofFn fun i : Fin k => (w i, evalT toInt expected start (t i)) := by
            rw [List.mem_ofFn]; exact ⟨i, rfl⟩
          obtain ⟨g1, g2, g3⟩ := h2 _ hm
          simp only at g1 g2 g3
          have hw : w i ∈ expected (evalT toInt expected start self).id := hperm.subset (by rw [List.mem_ofFn]; exact ⟨i, rfl⟩)
          have h0 := hpos _ hid _ hw
          obtain ⟨n', hn', _, hr⟩ := iht i (hs3 i) g3 (by rw [g1]; exact h0)
          have : n' = n := by rw [g2, hn] at hn'; omega
          rw [hr, this, g1]
        simp only [evalU, ref]
        rw [hself, ← hnano]
        have hl : (List.ofFn fun i : Fin k => (w i, evalU u (t i))) = (List.ofFn w).map fun x => (x, ref toInt expected u n (toInt x)) := by
          rw [List.map_ofFn]
          congr 1
          funext i
          simp only [Function.comp, hnb i]
        rw [hl]
        exact hu _ _ _ _ (hperm.map _)

theorem sound (hpos : ∀ id, 0 ≤ id → ∀ w ∈ expected id, 0 ≤ toInt w) {u : User W U} (hu : Symmetric u) {e : Expr W} (hs : Short toInt expected start e) {id : Int} (hid : 0 ≤ id) {t : Nat}
    (hc : (evalT toInt expected start e).valid = true ∧ (evalT toInt expected start e).id = id ∧ (evalT toInt expected start e).counter = start * 13 + t) :
    evalU u e = ref toInt expected u t id := by
  obtain ⟨h1, h2, h3⟩ := hc
  obtain ⟨n, hn, _, hr⟩ := sound_aux toInt expected start hpos hu e hs h1 (by rw [h2]; exact hid)
  rw [hr, h2]
  congr 1
  omega

/-- a correct simulator, which may present neighbors in any order -/
def good (order : Nat → Nat → List W) : Nat → Nat → Expr W
  | 0, id => .init id
  | t + 1, id => .update (good order t id) (order t id).length (fun i => (order t id)[i]) (fun i => good order t (toInt ((order t id)[i])).toNat) (t % 13)

/-- correct simulators never cause invalid cells -/
theorem no_false_alarm (hpos : ∀ id, 0 ≤ id → ∀ w ∈ expected id, 0 ≤ toInt w) (hsort : ∀ id, (expected id).Pairwise (· ≤ ·)) (hlen : ∀ id, (expected id).length ≤ 100)
    {order : Nat → Nat → List W} (ho : ∀ t id, (order t id).Perm (expected id)) : ∀ t, start * 13 + t < 2 ^ 32 → ∀ id : Nat,
      evalT toInt expected start (good toInt order t id) = ⟨id, start * 13 + t, true, false, expected id⟩ := by
  intro t
  induction t with
  | zero => intro _ id; rfl
  | succ t ih =>
    intro ht id
    have iht := ih (by omega)
    simp only [good, evalT]
    have hl : (List.ofFn fun i : Fin (order t id).length => ((order t id)[i], evalT toInt expected start (good toInt order t (toInt ((order t id)[i])).toNat))) =
        (order t id).map fun w => (w, (⟨toInt w, start * 13 + t, true, false, expected (toInt w)⟩ : Cell W)) := by
      apply List.ext_getElem
      · simp
      · intro i h1 h2
        rw [List.getElem_ofFn, List.getElem_map, iht]
        have hm : (order t id)[i]'(by simpa using h2) ∈ order t id := List.getElem_mem _
        have h0 := hpos id (Int.natCast_nonneg _) _ ((ho t id).subset hm)
        simp only [Fin.getElem_fin, Int.toNat_of_nonneg h0]
    rw [hl, iht]
    have hv := (verify_iff toInt (⟨id, start * 13 + t, true, false, expected id⟩ : Cell W) ((order t id).map fun w => (w, (⟨toInt w, start * 13 + t, true, false, expected (toInt w)⟩ : Cell W))) (t % 13)
      ⟨id, start * 13 + (t + 1), true, false, expected id⟩).2 ⟨by rw [List.length_map, (ho t id).length_eq]; exact hlen id, rfl, ?_, ?_, by simp only; omega, ?_⟩
    · rw [hv.1]; rfl
    · intro p hp
      obtain ⟨w, _, rfl⟩ := List.mem_map.1 hp
      exact ⟨rfl, rfl, rfl⟩
    · rw [List.map_map]
      have : (Prod.fst ∘ fun w => (w, (⟨toInt w, start * 13 + t, true, false, expected (toInt w)⟩ : Cell W))) = fun w => w := rfl
      rw [this, List.map_id']
      have hp : (expected id).Perm ((order t id).insertionSort (· ≤ ·)) := (ho t id).symm.trans (List.perm_insertionSort _ _).symm
      exact hp.eq_of_pairwise' (hsort id) (List.pairwise_insertionSort _ _)
    · simp only
      rw [Nat.mod_eq_of_lt (by omega)]
      congr 1

/-- the order of neighbors doesn't matter for test cells … -/
theorem verify_perm (c : Cell W) {l l' : List (W × Cell W)} (h : l.Perm l') (nano : Nat) : verify toInt c l nano = verify toInt c l' nano := by
  unfold verify
  have h1 : (l.map Prod.fst).insertionSort (· ≤ ·) = (l'.map Prod.fst).insertionSort (· ≤ ·) :=
    (((List.perm_insertionSort _ _).trans (h.map Prod.fst)).trans (List.perm_insertionSort _ _).symm).eq_of_pairwise' (List.pairwise_insertionSort _ _) (List.pairwise_insertionSort _ _)
  have h2 : l.all (fun p => checkNeighbor c (toInt p.1) p.2) = l'.all (fun p => checkNeighbor c (toInt p.1) p.2) := by
    rw [Bool.eq_iff_iff, List.all_eq_true, List.all_eq_true]
    exact ⟨fun g p hp => g p (h.symm.subset hp), fun g p hp => g p (h.subset hp)⟩
  rw [h.length_eq, h1, h2]

/-- negation: … so they don't detect simulators which present neighbors in an order a model (e.g. rounding of sums) depends on -/
theorem order_not_checked : ∃ (u : User Nat (List Nat)) (e : Expr Nat), evalT (fun w : Nat => (w : Int)) (fun id => if id = 0 then [1, 2] else []) 0 e = ⟨0, 1, true, false, [1, 2]⟩ ∧
    evalU u e ≠ ref (fun w : Nat => (w : Int)) (fun id => if id = 0 then [1, 2] else []) u 1 0 :=
  ⟨⟨fun _ => [], [], [], fun _ l _ => l.map Prod.fst⟩, .update (.init 0) 2 (fun i => if i = 0 then 2 else 1) (fun i => if i = 0 then .init 2 else .init 1) 0, by decide, by decide⟩

/-- negation: updates of the edge cell are accepted (`TestCell` rejects them) -/
theorem edge_update_accepted : verify toInt (edgeCell : Cell W) [] 0 = some ⟨-1, 1, true, true, []⟩ := by
  simp [verify, edgeCell]

/-- more than 100 neighbors: exception -/
theorem too_many (c : Cell W) (nbrs : List (W × Cell W)) (nano : Nat) (h : 100 < nbrs.length) : verify toInt c nbrs nano = none := by unfold verify; rw [if_pos h]

/-! ### rows of matrices -/

omit [LinearOrder W] in
theorem mapInsert_perm (k : Int) (w : W) : ∀ (m : List (Int × W)), (∀ p ∈ m, p.1 ≠ k) → (mapInsert k w m).Perm ((k, w) :: m) := by
  intro m
  induction m with
  | nil => intro _; exact List.Perm.refl _
  | cons p m ih =>
    intro h
    obtain ⟨k', w'⟩ := p
    have hk : k' ≠ k := h (k', w') (List.mem_cons_self ..)
    unfold mapInsert
    split
    · exact List.Perm.refl _
    · rw [if_neg (Ne.symm hk)]
      exact ((ih fun p hp => h p (List.mem_cons_of_mem _ hp)).cons _).trans (List.Perm.swap ..)

/-- entries with distinct columns, among them any amount of padding: the map holds what isn't padding -/
theorem assemble_perm (zero : W) : ∀ (row m : List (Int × W)), ((m ++ row.filter fun p => decide (p.1 ≠ 0 ∨ p.2 ≠ zero)).map Prod.fst).Nodup →
    (assemble zero row m).Perm (m ++ row.filter fun p => decide (p.1 ≠ 0 ∨ p.2 ≠ zero)) := by
  intro row
  induction row with
  | nil => intro m _; simp [assemble]
  | cons p row ih =>
    intro m hn
    obtain ⟨k, w⟩ := p
    unfold assemble
    by_cases hp : k ≠ 0 ∨ w ≠ zero
    · rw [if_pos hp]
      rw [List.filter_cons_of_pos (by simpa using hp)] at hn ⊢
      have hk : ∀ p ∈ m, p.1 ≠ k := by
        intro p hpm he
        rw [List.map_append, List.nodup_append] at hn
        exact hn.2.2 p.1 (List.mem_map_of_mem hpm) k (by simp) he
      have hperm := mapInsert_perm k w m hk
      have hmid : (mapInsert k w m ++ row.filter fun p => decide (p.1 ≠ 0 ∨ p.2 ≠ zero)).Perm (m ++ (k, w) :: row.filter fun p => decide (p.1 ≠ 0 ∨ p.2 ≠ zero)) :=
        (hperm.append_right _).trans (by rw [List.cons_append]; exact List.perm_middle.symm)
      exact (ih _ ((hmid.map Prod.fst).nodup_iff.2 hn)).trans hmid
    · rw [if_neg hp]
      rw [List.filter_cons_of_neg (by simpa using hp)] at hn ⊢
      exact ih m hn

omit [LinearOrder W] in
theorem lookup_ite (a b : Int) (v : W) (l : List (Int × W)) : ((b, v) :: l).lookup a = if a = b then some v else l.lookup a := by
  rw [List.lookup_cons]
  by_cases h : a = b
  · rw [if_pos h, beq_iff_eq.2 h]
  · rw [if_neg h, beq_eq_false_iff_ne.2 h]

omit [LinearOrder W] in
theorem mapInsert_lookup (k c : Int) (w : W) : ∀ m : List (Int × W), (mapInsert k w m).lookup c = if c = k then some w else m.lookup c := by
  intro m
  induction m with
  | nil => unfold mapInsert; rw [lookup_ite]
  | cons p m ih =>
    obtain ⟨k', w'⟩ := p
    unfold mapInsert
    by_cases h1 : k < k'
    · rw [if_pos h1, lookup_ite]
    · rw [if_neg h1]
      by_cases h2 : k = k'
      · rw [if_pos h2, lookup_ite, lookup_ite, ← h2]
        by_cases h : c = k
        · rw [if_pos h, if_pos h]
        · rw [if_neg h, if_neg h, if_neg h]
      · rw [if_neg h2, lookup_ite, lookup_ite, ih]
        by_cases h : c = k
        · rw [if_pos h, if_pos h, if_neg fun he => h2 (h ▸ he)]
        · rw [if_neg h, if_neg h]

/-- if a column occurs more than once, then its last weight (which isn't padding) counts -/
theorem assemble_lookup (zero : W) (c : Int) : ∀ (row m : List (Int × W)),
    (assemble zero row m).lookup c = ((row.filter fun p => decide (p.1 ≠ 0 ∨ p.2 ≠ zero)).reverse.lookup c).or (m.lookup c) := by
  intro row
  induction row with
  | nil => intro m; simp [assemble]
  | cons p row ih =>
    intro m
    obtain ⟨k, w⟩ := p
    unfold assemble
    rw [ih]
    by_cases hp : k ≠ 0 ∨ w ≠ zero
    · rw [if_pos hp, List.filter_cons_of_pos (by simpa using hp), List.reverse_cons, List.lookup_append, mapInsert_lookup]
      rw [lookup_ite, Option.or_assoc]
      by_cases h : c = k
      · rw [if_pos h, if_pos h]; rfl
      · rw [if_neg h, if_neg h]; rfl
    · rw [if_neg hp, List.filter_cons_of_neg (by simpa using hp)]

example : assemble 0 [(3, 7), (1, 5), (3, 8), (0, 0)] [] = [(1, 5), (3, 8)] := by decide

/-- `updateLineX` and `update` agree on rows with distinct columns and without an edge of weight 0 to column 0, however many padded entries there are -/
theorem line_update (zero : W) (c : Cell W) (grid : Int → Cell W) (row : List (Int × W)) (hd : (row.map Prod.fst).Nodup) (hz : (0, zero) ∉ row) (padding nano : Nat) :
    updateLine toInt zero c grid (row ++ List.replicate padding (0, zero)) nano = update toInt c grid row nano := by
  have hf : ((row ++ List.replicate padding (0, zero)).filter fun p => decide (p.1 ≠ 0 ∨ p.2 ≠ zero)) = row := by
    rw [List.filter_append, List.filter_eq_self.2, List.filter_eq_nil_iff.2, List.append_nil]
    · intro p hp; rw [List.eq_of_mem_replicate hp]; simp
    · intro p hp
      have : p ≠ (0, zero) := fun h => hz (h ▸ hp)
      by_contra hc
      simp only [decide_eq_true_eq, not_or, not_not] at hc
      exact this (Prod.ext hc.1 hc.2)
  unfold updateLine update
  have := assemble_perm zero (row ++ List.replicate padding (0, zero)) [] (by rw [List.nil_append, hf]; exact hd)
  rw [List.nil_append, hf] at this
  exact verify_perm toInt c (this.map _) nano

/-- negation: an edge of weight 0 to column 0 is taken for padding; the update raises a false alarm -/
theorem zero_edge_lost : updateLine (fun w : Nat => (w : Int)) 0 ⟨1, 0, true, false, [0]⟩ (fun _ => ⟨0, 0, true, false, []⟩) [(0, 0)] 0 = some ⟨1, 1, false, false, [0]⟩ ∧
    update (fun w : Nat => (w : Int)) ⟨1, 0, true, false, [0]⟩ (fun _ => ⟨0, 0, true, false, []⟩) [(0, 0)] 0 = some ⟨1, 1, true, false, [0]⟩ := by decide

/-! ### the initializer -/

/-- its cells satisfy the assumptions of `sound` and `no_false_alarm` -/
theorem expected_ok {wt : Int → W} (hw : ∀ i, toInt (wt i) = i) (hmono : ∀ i j : Int, i < j → wt i < wt j) (dim maxN : Nat) (id : Int) :
    (∀ w ∈ expectedOf wt dim maxN id, 0 ≤ toInt w ∧ toInt w < dim) ∧ (expectedOf wt dim maxN id).Pairwise (· ≤ ·) := by
  unfold expectedOf
  constructor
  · intro w h
    obtain ⟨a, ha, rfl⟩ := List.mem_map.1 h
    have := List.mem_range.1 (List.mem_of_mem_filter ha)
    rw [hw]; omega
  · rw [List.pairwise_map]
    refine (List.pairwise_lt_range (n := dim)).filter _ |>.imp fun h => le_of_lt (hmono _ _ (by omega))

omit [LinearOrder W] in
/-- the neighbors whose cells are expected are exactly those of `getAdjacency` -/
theorem expected_mem {wt : Int → W} (hw : ∀ i, toInt (wt i) = i) {dim maxN x a : Nat} (hd : 0 < dim) : wt a ∈ expectedOf wt dim maxN x ↔ a ∈ neighbors dim maxN x := by
  unfold expectedOf
  constructor
  · intro h
    obtain ⟨b, hb, he⟩ := List.mem_map.1 h
    have hb := of_decide_eq_true (List.mem_filter.1 hb).2
    have : (b : Int) = a := by rw [← hw b, he, hw]
    rw [← Int.ofNat.inj this]; exact hb
  · intro h
    refine List.mem_map.2 ⟨a, List.mem_filter.2 ⟨List.mem_range.2 ?_, decide_eq_true h⟩, rfl⟩
    obtain ⟨j, _, rfl⟩ := List.mem_map.1 h
    exact Nat.mod_lt _ hd

/-- the reverse adjacency contains all edges … -/
theorem reverse_complete {dim maxN a b : Nat} (hm : 0 < maxN) (hle : maxN ≤ dim) (ha : a < dim) (h : b ∈ neighbors dim maxN a) : a ∈ reverse dim maxN b := by
  obtain ⟨j, hj, rfl⟩ := List.mem_map.1 h
  have hj := List.mem_range.1 hj
  have hmod := Nat.mod_lt a hm
  unfold reverse
  rw [List.mem_filterMap]
  by_cases hs : a + 1 + j < dim
  · have e : (a + 1 + j) % dim = a + 1 + j := Nat.mod_eq_of_lt hs
    refine ⟨maxN - 1 - j, List.mem_range.2 (by omega), ?_⟩
    simp only
    rw [e]
    have e2 : (a + 1 + j + dim - maxN + (maxN - 1 - j)) % dim = a := by
      rw [show a + 1 + j + dim - maxN + (maxN - 1 - j) = a + dim by omega, Nat.add_mod_right, Nat.mod_eq_of_lt ha]
    rw [e2, if_pos (by omega)]
  · have e : (a + 1 + j) % dim = a + 1 + j - dim := by
      rw [Nat.mod_eq_sub_mod (by omega), Nat.mod_eq_of_lt (by omega)]
    refine ⟨maxN - 1 - j, List.mem_range.2 (by omega), ?_⟩
    simp only
    rw [e]
    have e2 : (a + 1 + j - dim + dim - maxN + (maxN - 1 - j)) % dim = a := by
      rw [show a + 1 + j - dim + dim - maxN + (maxN - 1 - j) = a by omega, Nat.mod_eq_of_lt ha]
    rw [e2, if_pos (by omega)]

/-- negation: … but also others, where the ids wrap around -/
theorem reverse_inexact : 180 ∈ reverse 200 20 0 ∧ 0 ∉ neighbors 200 20 180 := by decide

/-- away from the wrap around it is exact -/
theorem reverse_exact {dim maxN a b : Nat} (hb : b < dim) (hw : maxN ≤ b) (h : a ∈ reverse dim maxN b) : b ∈ neighbors dim maxN a := by
  unfold reverse at h
  obtain ⟨j, hj, h⟩ := List.mem_filterMap.1 h
  have hj := List.mem_range.1 hj
  simp only at h
  have e : (b + dim - maxN + j) % dim = b - maxN + j := by
    rw [show b + dim - maxN + j = b - maxN + j + dim by omega, Nat.add_mod_right, Nat.mod_eq_of_lt (by omega)]
  rw [e] at h
  split at h
  · rename_i hc
    have ha : b - maxN + j = a := Option.some.inj h
    rw [ha] at hc
    refine List.mem_map.2 ⟨b - a - 1, List.mem_range.2 (by omega), ?_⟩
    rw [show a + 1 + (b - a - 1) = b by omega, Nat.mod_eq_of_lt hb]
  · exact absurd h (by simp)

/-! ### examples -/

/-- weights are ids: cells 0 → 1, 2; 1 → 2; 2 → 0 -/
def exG : Int → List Nat := fun id => if id = 0 then [1, 2] else if id = 1 then [2] else [0]

example : evalT (fun w : Nat => (w : Int)) exG 0 (good (fun w : Nat => (w : Int)) (fun _ id => (exG id).reverse) 3 0) = ⟨0, 3, true, false, [1, 2]⟩ := by decide

/-- a stale neighbor: cell 2 wasn't updated before the second update of cell 0 -/
example : (evalT (fun w : Nat => (w : Int)) exG 0 (.update (good (fun w : Nat => (w : Int)) (fun _ id => exG id) 1 0) 2 (fun i => if i = 0 then 1 else 2)
    (fun i => if i = 0 then good (fun w : Nat => (w : Int)) (fun _ id => exG id) 1 1 else .init 2) 1)).valid = false := by decide

/-- a missing neighbor -/
example : (evalT (fun w : Nat => (w : Int)) exG 0 (.update (.init 0) 1 (fun _ => 2) (fun _ => .init 2) 0)).valid = false := by decide

/-- the initializer with 200 cells: neighbors of cell 198 wrap around -/
example : neighbors 200 20 198 = [199, 0, 1, 2, 3, 4, 5, 6, 7, 8, 9, 10, 11, 12, 13, 14, 15, 16, 17] := by decide

example : expectedOf (W := Nat) (fun a => 10 * a.toNat + 1) 5 3 4 = [1, 11] := by decide

end LGD.C81
