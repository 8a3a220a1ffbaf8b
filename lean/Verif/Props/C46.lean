import Verif.Unstr.UpdateLemmas
import Verif.Props.C39
import Verif.Props.C42
import Mathlib.Algebra.BigOperators.Group.Multiset.Basic

/-!
# C46: unstructured simulations compute the reference update on logical node IDs

Specification: `hood` is the multiset of (neighbor state, weight) pairs of a node by logical IDs, `nanoRef`, `stepRef` and `runRef` are the reference simulation on functions from IDs to states.
-/

namespace LGD.C46

open LGD.Sell LGD.Unstr LGD.C39

variable {α V : Type}

/-! ## specification -/

open Classical in
/-- the neighbors of node `id` in the matrix `m`, with weights. A node with a neighbor outside of the grid (ghost zones) has no neighbors. -/
noncomputable def hood (known : Int → Prop) (m : List (Entry V)) (S : Int → α) (id : Int) : Multiset (α × V) :=
  if ∀ e ∈ m, e.1.1 = id → known e.1.2 then ↑((m.filter fun e => decide (e.1.1 = id)).map fun e => (S e.1.2, e.2)) else 0

/-- one nano step of the reference: each node gets its own state and its neighbors -/
noncomputable def nanoRef (F : Nat → α → Multiset (α × V) → α) (known : Int → Prop) (m : List (Entry V)) (S : Int → α) (i : Nat) : Int → α := fun id => F i (S id) (hood known m S id)

/-- one step of the reference: all nano steps -/
noncomputable def stepRef (F : Nat → α → Multiset (α × V) → α) (known : Int → Prop) (m : List (Entry V)) (nanoSteps : Nat) (S : Int → α) : Int → α :=
  (List.range nanoSteps).foldl (nanoRef F known m) S

/-- `t` steps of the reference -/
noncomputable def runRef (F : Nat → α → Multiset (α × V) → α) (known : Int → Prop) (m : List (Entry V)) (nanoSteps t : Nat) (S : Int → α) : Int → α := (stepRef F known m nanoSteps)^[t] S

/-- the cell's update function depends on nano step, own state and the neighbors regardless of their order -/
def Implements (f : Nat → α → α → List (α × V) → α) (F : Nat → α → Multiset (α × V) → α) : Prop := ∀ i stale own l, f i stale own l = F i own ↑l

/-- no operation sets weights -/
def NoWeights (ops : List (Op α V)) : Prop := ∀ k m, Op.setWeights k m ∉ ops

/-- the initializer performs the operations; exceptions end the program -/
def initOf (P : Params α V) (ops : List (Op α V)) (g : RGrid α V) : Option (RGrid α V) := (run P ops g).bind fun r => if r.1 then none else some r.2

/-! ## proof -/

theorem writes_unique {op : Op α V} {id : Int} {v w : α} (h1 : Writes op id v) (h2 : Writes op id w) : v = w := by
  cases op with
  | set j x => exact h1.2.trans h2.2.symm
  | setStreak s vs => exact Option.some.inj (h1.2.2.symm.trans h2.2.2)
  | setEdge x => exact h1.elim
  | setWeights k m => exact h1.elim
  | load b region =>
    obtain ⟨a, ha, i, hi, hv⟩ := h1
    obtain ⟨a', ha', i', hi', hw⟩ := h2
    obtain rfl := enum_unique ha ha'
    have hnd : a.Nodup := ha.1.imp fun h => by omega
    have : i = i' := (List.getElem?_inj (List.getElem?_eq_some_iff.1 hi).1 hnd).1 (hi.trans hi'.symm)
    subst this
    exact Option.some.inj (hv.symm.trans hw)

theorem holds_append {d : α} {a b : List (Op α V)} {id : Int} {v : α} (h : Holds d (a ++ b) id v) :
    Holds d b id v ∨ ((∀ o ∈ b, ∀ w, ¬ Writes o id w) ∧ Holds d a id v) := by
  rcases h with ⟨pre, op, post, h1, h2, h3⟩ | ⟨h1, h2⟩
  · rcases List.append_eq_append_iff.1 h1 with ⟨c, e1, e2⟩ | ⟨c, e1, e2⟩
    · exact Or.inl (Or.inl ⟨c, op, post, e2, h2, h3⟩)
    · cases c with
      | nil =>
        rw [List.nil_append] at e2
        exact Or.inl (Or.inl ⟨[], op, post, by rw [← e2]; rfl, h2, h3⟩)
      | cons x c =>
        rw [List.cons_append, List.cons.injEq] at e2
        obtain ⟨rfl, rfl⟩ := e2
        exact Or.inr ⟨fun o ho => h3 o (List.mem_append_right _ ho), Or.inl ⟨pre, op, c, e1, h2, fun o ho => h3 o (List.mem_append_left _ ho)⟩⟩
  · exact Or.inl (Or.inr ⟨fun o ho => h1 o (List.mem_append_right _ ho), h2⟩)

theorem holds_twice {d : α} {a : List (Op α V)} {id : Int} {v : α} (h : Holds d (a ++ a) id v) : Holds d a id v := by
  rcases holds_append h with h | ⟨_, h⟩ <;> exact h

theorem holds_unique {d : α} {id : Int} : ∀ (ops : List (Op α V)) {v w : α}, Holds d ops id v → Holds d ops id w → v = w := by
  intro ops
  induction ops using List.reverseRecOn with
  | nil =>
    intro v w h1 h2
    rcases h1 with ⟨pre, op, post, h, _⟩ | ⟨_, rfl⟩
    · simp at h
    rcases h2 with ⟨pre, op, post, h, _⟩ | ⟨_, rfl⟩
    · simp at h
    rfl
  | append_singleton ops op ih =>
    intro v w h1 h2
    have key : ∀ {x}, Holds d (ops ++ [op]) id x → Writes op id x ∨ ((∀ y, ¬ Writes op id y) ∧ Holds d ops id x) := by
      intro x hx
      rcases holds_append hx with h | ⟨h, h'⟩
      · rcases h with ⟨pre, o, post, e, h3, h4⟩ | ⟨h3, h4⟩
        · left
          rcases pre with _ | ⟨p, pre⟩
          · rw [List.nil_append, List.cons.injEq] at e
            rwa [e.1]
          · simp at e
        · have h5 : ∀ y, ¬ Writes op id y := fun y => h3 op (List.mem_singleton.2 rfl) y
          rcases hx with ⟨pre, o, post, e, h6, h7⟩ | ⟨h6, h7⟩
          · rcases List.eq_nil_or_concat post with rfl | ⟨post', z, rfl⟩
            · obtain ⟨_, e⟩ := List.append_inj' e rfl
              rw [List.cons.injEq] at e
              exact absurd h6 (e.1 ▸ h5 x)
            · rw [List.concat_eq_append, ← List.cons_append, ← List.append_assoc] at e
              obtain ⟨e1, e2⟩ := List.append_inj' e rfl
              exact Or.inr ⟨h5, Or.inl ⟨pre, o, post', e1, h6, fun o ho => h7 o (by rw [List.concat_eq_append]; exact List.mem_append_left _ ho)⟩⟩
          · exact Or.inr ⟨h5, Or.inr ⟨fun o ho => h6 o (List.mem_append_left _ ho), h7⟩⟩
      · exact Or.inr ⟨fun y => h op (List.mem_singleton.2 rfl) y, h'⟩
    rcases key h1 with k1 | ⟨k1, k1'⟩ <;> rcases key h2 with k2 | ⟨k2, k2'⟩
    · exact writes_unique k1 k2
    · exact absurd k1 (k2 _)
    · exact absurd k2 (k1 _)
    · exact ih k1' k2'

theorem post_ok {P : Params α V} (hP : P.Ok) {N M : Nat} {ids : List Int} {ph : Int → Nat} (h0 : ∃ j ∈ ids, 0 ≤ j) : ∀ (post : List (Op α V)) {g : RGrid α V}, OK N M ids ph g →
    (∀ o ∈ post, Allowed g.nodeSet M o) → NoWeights post → ∃ g', run P post g = some (false, g') ∧ OK N M ids ph g' ∧ g'.nodeSet = g.nodeSet ∧ g'.mats = g.mats := by
  intro post
  induction post with
  | nil => intro g h _ _; exact ⟨g, rfl, h, rfl, rfl⟩
  | cons o post ih =>
    intro g h ha hw
    obtain ⟨N', ph', g', k1, k2, k3, _, _, _, _, k4⟩ := C39.step hP h h0 o (ha o List.mem_cons_self)
    obtain ⟨rfl, rfl, k5⟩ := k4 fun k m e => hw k m (e ▸ List.mem_cons_self)
    obtain ⟨g'', m1, m2, m3, m4⟩ := ih k2 (fun o ho => by rw [k3]; exact ha o (List.mem_cons_of_mem _ ho)) fun k m hm => hw k m (List.mem_cons_of_mem _ hm)
    refine ⟨g'', ?_, m2, m3.trans k3, m4.trans k5⟩
    unfold run
    rw [k1]
    exact m1

/-- after setting the weights `m`, positions depend only on the nodes and on `m` -/
theorem settled {P : Params α V} (hP : P.Ok) {nodes : Idx} (hn : RegOK 0 nodes) (h0 : ∃ id, Node nodes id ∧ 0 ≤ id) (m : List (Entry V)) :
    ∃ N ids ph, ∀ (M : Nat) (default edge : α) (pre : List (Op α V)) (k : Nat) (post : List (Op α V)), (∀ o ∈ pre ++ .setWeights k m :: post, Allowed nodes M o) → NoWeights post →
      ∃ g, C39.after P M nodes default edge (pre ++ .setWeights k m :: post) = some (false, g) ∧ OK N M ids ph g ∧ g.nodeSet = nodes ∧ Rows P.C k m ids ph g ∧
        ∀ id ∈ ids, ∃ v, rGet g id = some v ∧ Holds default (pre ++ .setWeights k m :: post) id v := by
  obtain ⟨ids, e1, _, e3⟩ := nodeIDs_spec hn
  obtain ⟨id0, hid0, hz⟩ := h0
  have h0' : ∃ j ∈ ids, 0 ≤ j := ⟨id0, (e3 id0).2 hid0, hz⟩
  obtain ⟨N, ph, hw⟩ := setWeights_ok hn e1 hP.C hP.sigma (by rintro rfl; obtain ⟨j, hj, _⟩ := h0'; simp at hj) P.zero hP.sort m
  refine ⟨N, ids, ph, fun M default edge pre k post ha hnw => ?_⟩
  obtain ⟨N0, ids0, ph0, g0, r1, r2, r3, _, _⟩ := reach hP hn ⟨id0, hid0, hz⟩ M default edge pre fun o ho => ha o (List.mem_append_left _ ho)
  have hi : ids0 = ids := by
    have := r2.nodes
    rw [r3, e1] at this
    exact (Option.some.inj this).symm
  subst hi
  obtain ⟨g1, k1, k2, k3, _, _, ⟨c, c1, c2⟩, _⟩ := hw P.dflt (k := k) r2 r3 (ha (.setWeights k m) (List.mem_append_right _ List.mem_cons_self))
  obtain ⟨g2, p1, p2, p3, p4⟩ := post_ok hP h0' post k2 (fun o ho => by rw [k3]; exact ha o (List.mem_append_right _ (List.mem_cons_of_mem _ ho))) hnw
  have hrun : C39.after P M nodes default edge (pre ++ .setWeights k m :: post) = some (false, g2) := by
    unfold C39.after at r1 ⊢
    obtain ⟨gi, i1, i2⟩ := Option.bind_eq_some_iff.1 r1
    rw [i1, Option.bind_some, run_append P pre _ gi g0 i2]
    unfold run exec
    dsimp only
    rw [k1]
    exact p1
  obtain ⟨N', ids', ph', g', q1, q2, q3, q4, _⟩ := reach hP hn ⟨id0, hid0, hz⟩ M default edge _ ha
  rw [hrun, Option.some.injEq, Prod.mk.injEq] at q1
  obtain ⟨_, rfl⟩ := q1
  have hi : ids' = ids0 := by
    have := q2.nodes
    rw [q3, e1] at this
    exact (Option.some.inj this).symm
  subst hi
  refine ⟨g2, hrun, p2, q3, ⟨c, by rw [p4]; exact c1, fun id hid => ?_⟩, q4⟩
  rw [q3]
  exact c2 id hid

theorem hood_eq {nodes : Idx} {m : List (Entry V)} {val : Int → α} {id : Int} {nb : List (α × V)} (h : Neighborhood nodes m val id nb) : (nb : Multiset (α × V)) = hood (Node nodes) m val id := by
  unfold hood
  by_cases hc : ∀ e ∈ m, e.1.1 = id → Node nodes e.1.2
  · rw [if_pos hc]
    exact Multiset.coe_eq_coe.2 (h.1 hc)
  · rw [if_neg hc, h.2 hc]
    rfl

/-- both grids are in order and have the same layout -/
structure Ready (C k : Nat) (m : List (Entry V)) (nodes : Idx) (N M : Nat) (ids : List Int) (ph : Int → Nat) (g : RGrid α V) : Prop where
  ok : OK N M ids ph g
  nodeSet : g.nodeSet = nodes
  rows : Rows C k m ids ph g

theorem nano_ok {C : Nat} (hC : 0 < C) {f : Nat → α → α → List (α × V) → α} {F : Nat → α → Multiset (α × V) → α} (hf : Implements f F) {k : Nat} {m : List (Entry V)} {nodes : Idx} {N M : Nat} {ids : List Int}
    {ph : Int → Nat} {area : Idx} (ha : RegOK 0 area) (harea : ∀ p : Int, Node area p ↔ ∃ id, Node nodes id ∧ p = ph id) {s : Grids α V} (h1 : Ready C k m nodes N M ids ph s.1) (h2 : Ready C k m nodes N M ids ph s.2)
    {S : Int → α} (hS : ∀ id ∈ ids, rGet s.1 id = some (S id)) (i : Nat) :
    ∃ s', simNano C f k area i s = some s' ∧ Ready C k m nodes N M ids ph s'.1 ∧ Ready C k m nodes N M ids ph s'.2 ∧ ∀ id ∈ ids, rGet s'.1 id = some (nanoRef F (Node nodes) m S i id) := by
  have hmem : ∀ id, id ∈ ids ↔ Node nodes id := fun id => by rw [h1.ok.mem, h1.nodeSet]
  obtain ⟨new', u1, u2, u3, u4, _, u5, _⟩ := updateRegion_ok hC (f i) h1.ok h2.ok h1.rows hS ha (fun id h => (hmem id).2 h) harea
  obtain ⟨c, c1, c2⟩ := h2.rows
  refine ⟨(new', s.1), by unfold simNano; rw [u1]; rfl, ⟨u2, u3.trans h2.nodeSet, ⟨c, by rw [u4]; exact c1, by rw [u3]; exact c2⟩⟩, h1, fun id hid => ?_⟩
  obtain ⟨stale, nb, n1, n2⟩ := u5 id ((hmem id).1 hid)
  rw [n2, hf, hood_eq n1, h1.nodeSet]
  rfl

theorem step_ok {C : Nat} (hC : 0 < C) {f : Nat → α → α → List (α × V) → α} {F : Nat → α → Multiset (α × V) → α} (hf : Implements f F) {k : Nat} {m : List (Entry V)} {nodes : Idx} {N M : Nat} {ids : List Int}
    {ph : Int → Nat} {area : Idx} (ha : RegOK 0 area) (harea : ∀ p : Int, Node area p ↔ ∃ id, Node nodes id ∧ p = ph id) : ∀ (n i : Nat) (s : Grids α V) (S : Int → α), Ready C k m nodes N M ids ph s.1 →
    Ready C k m nodes N M ids ph s.2 → (∀ id ∈ ids, rGet s.1 id = some (S id)) →
    ∃ s', simStep C f k area n i s = some s' ∧ Ready C k m nodes N M ids ph s'.1 ∧ Ready C k m nodes N M ids ph s'.2 ∧
      ∀ id ∈ ids, rGet s'.1 id = some ((List.range' i n).foldl (nanoRef F (Node nodes) m) S id) := by
  intro n
  induction n with
  | zero => intro i s S h1 h2 hS; exact ⟨s, rfl, h1, h2, hS⟩
  | succ n ih =>
    intro i s S h1 h2 hS
    obtain ⟨s1, a1, a2, a3, a4⟩ := nano_ok hC hf ha harea h1 h2 hS i
    obtain ⟨s2, b1, b2, b3, b4⟩ := ih (i + 1) s1 _ a2 a3 a4
    refine ⟨s2, by unfold simStep; rw [a1, Option.bind_some, b1], b2, b3, ?_⟩
    rw [List.range'_succ, List.foldl_cons]
    exact b4

theorem steps_ok {C : Nat} (hC : 0 < C) {f : Nat → α → α → List (α × V) → α} {F : Nat → α → Multiset (α × V) → α} (hf : Implements f F) {k : Nat} {m : List (Entry V)} {nodes : Idx} {N M : Nat} {ids : List Int}
    {ph : Int → Nat} {area : Idx} (ha : RegOK 0 area) (harea : ∀ p : Int, Node area p ↔ ∃ id, Node nodes id ∧ p = ph id) (nanoSteps : Nat) : ∀ (t : Nat) (s : Grids α V) (S : Int → α), Ready C k m nodes N M ids ph s.1 →
    Ready C k m nodes N M ids ph s.2 → (∀ id ∈ ids, rGet s.1 id = some (S id)) →
    ∃ s', simSteps C f k area nanoSteps t s = some s' ∧ ∀ id ∈ ids, rGet s'.1 id = some (runRef F (Node nodes) m nanoSteps t S id) := by
  intro t
  induction t with
  | zero => intro s S h1 h2 hS; exact ⟨s, rfl, hS⟩
  | succ t ih =>
    intro s S h1 h2 hS
    obtain ⟨s1, a1, a2, a3, a4⟩ := step_ok hC hf ha harea nanoSteps 0 s S h1 h2 hS
    rw [← List.range_eq_range'] at a4
    obtain ⟨s2, b1, b2⟩ := ih s1 _ a2 a3 a4
    refine ⟨s2, by unfold simSteps; rw [a1, Option.bind_some, b1], ?_⟩
    unfold runRef
    rw [Function.iterate_succ_apply]
    exact b2

/-- the nodes 0, ..., dim - 1 -/
theorem area_ok {dim : Int} (hd : 0 < dim) {fuel : Nat} (hf : 1 < fuel) : ∃ nodes, regInsertBox 0 emptyIdx ⟨fun _ => 0, fun _ => dim⟩ fuel = some nodes ∧ RegOK 0 nodes ∧ ∀ id, Node nodes id ↔ 0 ≤ id ∧ id < dim := by
  obtain ⟨⟨r, h1, h2, h3⟩, _⟩ := C42.box_insert_remove_partial 0 emptyIdx (regOK_empty 0) ⟨fun _ => 0, fun _ => dim⟩ (by dsimp only; omega) (fun k _ _ => by omega) (by dsimp only; omega) fuel (by
    rw [show C12.Volume 0 (C12.rows 0 ⟨fun _ => 0, fun _ => dim⟩) = 1 by unfold C12.Volume; rw [C12.rows_1d, if_pos hd]]
    exact hf)
  refine ⟨r, h1, h2, fun id => ?_⟩
  unfold Node
  rw [h3]
  constructor
  · rintro (h | h)
    · exact absurd h (regEmpty_mem 0 _)
    · have := h 0 (Nat.le_refl _)
      dsimp only at this
      omega
  · rintro ⟨h4, h5⟩
    right
    intro k _
    dsimp only
    omega

/-! ## theorems -/

/-- **C46, update of a region.** Two grids over the same nodes with any histories, whose weights were last set from the same matrix `m`; any region of nodes, remapped by the grid. Then the update runs without undefined
behaviour; each node of the region gets, by logical ID, the result of the cell's update for its own old state and its old neighbors with their weights in some order (the previous content of the new grid's
cell is passed as `stale`); all other nodes keep their state, and the weights stay the same. -/
theorem update {P : Params α V} (hP : P.Ok) {nodes : Idx} (hn : RegOK 0 nodes) (h0 : ∃ id, Node nodes id ∧ 0 ≤ id) (M : Nat) (m : List (Entry V)) (d d' e e' : α) (pre pre' post post' : List (Op α V)) (k k' : Nat)
    (ho : ∀ o ∈ pre ++ .setWeights k m :: post, Allowed nodes M o) (hw : NoWeights post) (ho' : ∀ o ∈ pre' ++ .setWeights k' m :: post', Allowed nodes M o) (hw' : NoWeights post') {region : Idx} (hr : RegOK 0 region)
    (hsub : ∀ id, Node region id → Node nodes id) (f : α → α → List (α × V) → α) :
    ∃ old new phys new', C39.after P M nodes d e (pre ++ .setWeights k m :: post) = some (false, old) ∧ C39.after P M nodes d' e' (pre' ++ .setWeights k' m :: post') = some (false, new) ∧
      remap old region = some (false, phys) ∧ updateRegion P.C f k phys old new = some new' ∧
      ∃ S : Int → α, (∀ id, Node nodes id → rGet old id = some (S id) ∧ Holds d (pre ++ .setWeights k m :: post) id (S id)) ∧
      (∀ id, Node region id → ∃ stale, ∃ nb : List (α × V), (nb : Multiset (α × V)) = hood (Node nodes) m S id ∧ rGet new' id = some (f stale (S id) nb)) ∧
      (∀ id, Node nodes id → ¬ Node region id → rGet new' id = rGet new id) ∧ new'.mats = new.mats ∧ rGetEdge new' = rGetEdge new := by
  obtain ⟨N, ids, ph, hs⟩ := settled hP hn h0 m
  obtain ⟨old, a1, a2, a3, a4, a5⟩ := hs M d e pre k post ho hw
  obtain ⟨new, b1, b2, b3, b4, _⟩ := hs M d' e' pre' k' post' ho' hw'
  have hmem : ∀ id, id ∈ ids ↔ Node nodes id := fun id => by rw [a2.mem, a3]
  have hS : ∃ S : Int → α, ∀ id ∈ ids, rGet old id = some (S id) ∧ Holds d (pre ++ .setWeights k m :: post) id (S id) := by
    have : ∀ id, ∃ v, id ∈ ids → rGet old id = some v ∧ Holds d (pre ++ .setWeights k m :: post) id v := by
      intro id
      by_cases h : id ∈ ids
      · obtain ⟨v, hv⟩ := a5 id h
        exact ⟨v, fun _ => hv⟩
      · exact ⟨d, fun h' => absurd h' h⟩
    choose S hS using this
    exact ⟨S, fun id h => hS id h⟩
  obtain ⟨S, hS⟩ := hS
  obtain ⟨phys, p1, p2, p3⟩ := (positions_of a2).2 region hr (fun x hx => by rw [a3]; exact hsub x hx)
  obtain ⟨new', u1, u2, u3, u4, u5, u6, u7⟩ := updateRegion_ok hP.C f a2 b2 a4 (fun id h => (hS id h).1) p2 (fun id h => (hmem id).2 (hsub id h)) p3
  refine ⟨old, new, phys, new', a1, b1, p1, u1, S, fun id h => hS id ((hmem id).2 h), fun id h => ?_, fun id h h' => u7 id ((hmem id).2 h) h', u4, u5⟩
  obtain ⟨stale, nb, n1, n2⟩ := u6 id h
  rw [a3] at n1
  exact ⟨stale, nb, hood_eq n1, n2⟩

/-- **C46, serial simulation.** The initializer performs any operations on the nodes 0, ..., dim - 1, the last `setWeights` being the one of matrix `k` to `m`; the cell's update does not depend on the order of its neighbors.
Then constructing a `SerialSimulator` and running it for `t` steps involves no undefined behaviour and no exception, and the grid contains the states of the reference simulation which starts with the initializer's values. -/
theorem serial {P : Params α V} (hP : P.Ok) {dim : Int} (hd : 0 < dim) {fuel : Nat} (hfuel : 1 < fuel) (M : Nat) (m : List (Entry V)) (pre post : List (Op α V)) (k : Nat)
    (ho : ∀ nodes, (∀ id, Node nodes id ↔ 0 ≤ id ∧ id < dim) → ∀ o ∈ pre ++ .setWeights k m :: post, Allowed nodes M o) (hw : NoWeights post) {f : Nat → α → α → List (α × V) → α}
    {F : Nat → α → Multiset (α × V) → α} (hf : Implements f F) (nanoSteps t : Nat) (S : Int → α) (hS : ∀ id, 0 ≤ id → id < dim → Holds P.dflt (pre ++ .setWeights k m :: post) id (S id)) :
    ∃ s, simRun P.C M P.dflt (initOf P (pre ++ .setWeights k m :: post)) dim fuel f k nanoSteps t = some s ∧
      ∀ id, 0 ≤ id → id < dim → rGet s.1 id = some (runRef F (fun id => 0 ≤ id ∧ id < dim) m nanoSteps t S id) := by
  obtain ⟨nodes, r1, r2, r3⟩ := area_ok hd hfuel
  have hknown : (fun id => 0 ≤ id ∧ id < dim) = Node nodes := funext fun id => propext (r3 id).symm
  have h0 : ∃ id, Node nodes id ∧ 0 ≤ id := ⟨0, (r3 0).2 ⟨Int.le_refl _, hd⟩, Int.le_refl _⟩
  have ho' := ho nodes r3
  obtain ⟨N, ids, ph, hs⟩ := settled hP r2 h0 m
  obtain ⟨g1, a1, a2, a3, a4, _⟩ := hs M P.dflt P.dflt pre k post ho' hw
  obtain ⟨g2, b1, b2, b3, b4, b5⟩ := hs M P.dflt P.dflt ((pre ++ .setWeights k m :: post) ++ pre) k post (fun o h => by
    rw [List.append_assoc] at h
    rcases List.mem_append.1 h with h | h
    · exact ho' o h
    · exact ho' o h) hw
  rw [List.append_assoc] at b1 b5
  have hmem : ∀ id, id ∈ ids ↔ Node nodes id := fun id => by rw [a2.mem, a3]
  obtain ⟨area, p1, p2, p3⟩ := (positions_of a2).2 nodes r2 (fun x hx => by rw [a3]; exact hx)
  obtain ⟨gi, i1, i2⟩ := Option.bind_eq_some_iff.1 a1
  have e1 : initOf P (pre ++ .setWeights k m :: post) gi = some g1 := by unfold initOf; rw [i2]; rfl
  have e2 : initOf P (pre ++ .setWeights k m :: post) g1 = some g2 := by
    unfold C39.after at b1
    rw [i1, Option.bind_some, run_append P _ _ gi g1 i2] at b1
    unfold initOf
    rw [b1]
    rfl
  have hmake : simMake P.C M P.dflt (initOf P (pre ++ .setWeights k m :: post)) dim fuel = some (area, g1, g1) := by
    unfold simMake
    rw [r1, Option.bind_some, i1, Option.bind_some, e1, Option.bind_some, Option.bind_some, p1]
    rfl
  obtain ⟨s, s1, s2⟩ := steps_ok hP.C hf p2 p3 nanoSteps t (g2, g1) S ⟨b2, b3, b4⟩ ⟨a2, a3, a4⟩ fun id hid => by
    obtain ⟨v, v1, v2⟩ := b5 id hid
    obtain ⟨hl, hr⟩ := (r3 id).1 ((hmem id).1 hid)
    rw [v1, holds_unique _ (holds_twice v2) (hS id hl hr)]
  refine ⟨s, ?_, fun id hl hr => ?_⟩
  · unfold simRun
    rw [hmake, Option.bind_some, e2, Option.bind_some, s1]
  · rw [hknown]
    exact s2 id ((hmem id).2 ((r3 id).2 ⟨hl, hr⟩))

/-! ## deviation and examples -/

/-- the weights of a chain of three nodes: node 1 has two neighbors and comes first in physical order -/
def chain : List (Entry Int) := [((0, 1), 10), ((1, 0), 20), ((1, 2), 21), ((2, 1), 30)]

/-- weights where node 2 has most neighbors -/
def star : List (Entry Int) := [((2, 0), 1), ((2, 1), 1)]

/-- the initializer of the examples -/
def setup : List (Op Int Int) := [.set 0 1, .set 1 2] ++ .setWeights 0 chain :: [.set 2 3]

theorem setup_allowed (nodes : Idx) (h : ∀ id, Node nodes id ↔ 0 ≤ id ∧ id < 3) : ∀ o ∈ setup, Allowed nodes 1 o := by
  intro o ho
  simp only [setup, List.cons_append, List.nil_append, List.mem_cons, List.not_mem_nil, or_false] at ho
  rcases ho with rfl | rfl | rfl | rfl
  · exact (h 0).2 (by omega)
  · exact (h 1).2 (by omega)
  · exact (by decide : 0 < 1)
  · exact (h 2).2 (by omega)

/-- own state plus the weighted sum of the neighbors' -/
def flow : Nat → Int → Int → List (Int × Int) → Int := fun i _ own l => own + i + (l.map fun x => x.1 * x.2).sum

theorem flow_implements : Implements flow fun i own l => own + i + (Multiset.map (fun x => x.1 * x.2) l).sum := fun i stale own l => by
  unfold flow
  dsimp only
  rw [Multiset.map_coe, Multiset.sum_coe]

example : ∃ s, simRun 2 1 0 (initOf sample setup) 3 2 flow 0 2 1 = some s ∧ rGet s.1 0 = some 872 ∧ rGet s.1 1 = some 1829 ∧ rGet s.1 2 = some 2614 := ⟨_, rfl, rfl, rfl, rfl⟩

example (nanoSteps t : Nat) := serial sample_ok (dim := 3) (by omega) (fuel := 2) (by omega) 1 chain [.set 0 1, .set 1 2] [.set 2 3] 0 setup_allowed (by intro k m h; simp at h) flow_implements nanoSteps t (fun id => id + 1)
  (fun id h1 h2 => by
    have : id = 0 ∨ id = 1 ∨ id = 2 := by omega
    rcases this with rfl | rfl | rfl
    · refine Or.inl ⟨[], .set 0 1, _, rfl, ⟨rfl, rfl⟩, ?_⟩
      intro o ho w hw
      rcases List.mem_cons.1 ho with rfl | ho
      · exact absurd hw.1 (by decide)
      rcases List.mem_cons.1 ho with rfl | ho
      · exact hw
      rw [List.mem_singleton.1 ho] at hw
      exact absurd hw.1 (by decide)
    · refine Or.inl ⟨[.set 0 1], .set 1 2, _, rfl, ⟨rfl, rfl⟩, ?_⟩
      intro o ho w hw
      rcases List.mem_cons.1 ho with rfl | ho
      · exact hw
      rw [List.mem_singleton.1 ho] at hw
      exact absurd hw.1 (by decide)
    · exact Or.inl ⟨[.set 0 1, .set 1 2, .setWeights 0 chain], .set 2 3, [], rfl, ⟨rfl, rfl⟩, by simp⟩)

example (region : Idx) (hr : RegOK 0 region) (hsub : ∀ id, Node region id → Node three id) := update sample_ok three_ok.1 ⟨3, (three_ok.2 3).2 (by omega), by omega⟩ 1 links 5 5 6 6 [.set 3 100] [] [.set 4 200] [] 0 0
  (by
    intro o ho
    simp only [List.cons_append, List.nil_append, List.mem_cons, List.not_mem_nil, or_false] at ho
    rcases ho with rfl | rfl | rfl
    · exact (three_ok.2 3).2 (by omega)
    · exact (by decide : 0 < 1)
    · exact (three_ok.2 4).2 (by omega))
  (by intro k m h; simp at h)
  (by
    intro o ho
    simp only [List.nil_append, List.mem_cons, List.not_mem_nil, or_false] at ho
    subst ho
    exact (by decide : 0 < 1))
  (by intro k m h; simp at h) hr hsub (flow 0)

/-- **C46, deviation.** The layouts of both grids have to agree. If a steerer sets new weights (on the current grid, the only one it gets), then the next update writes to positions of the other grid's layout: even if
cells just copy their state, the states of nodes 1 and 2 are exchanged. -/
theorem reweigh_negation : ∃ nodes s steered s', regInsertBox 0 emptyIdx ⟨fun _ => 0, fun _ => 3⟩ 2 = some nodes ∧ simMake 2 1 0 (initOf sample setup) 3 2 = some s ∧
    initOf sample [.setWeights 0 star] s.2.1 = some steered ∧ rGet steered 0 = some 1 ∧ rGet steered 1 = some 2 ∧ rGet steered 2 = some 3 ∧ simNano 2 (fun _ _ own _ => own) 0 s.1 0 (steered, s.2.2) = some s' ∧
    rGet s'.1 0 = some 1 ∧ rGet s'.1 1 = some 3 ∧ rGet s'.1 2 = some 2 :=
  ⟨_, _, _, _, rfl, rfl, rfl, rfl, rfl, rfl, rfl, rfl, rfl, rfl⟩

end LGD.C46
