import Verif.Unstr.ReorderLemmas
import Mathlib.Data.List.Induction
import Verif.Region.Literal

/-!
# C39: `ReorderingUnstructuredGrid` hides the physical reordering

Specification: `Holds default ops id v`: `v` is the value which the last operation of the history `ops` writing to node `id` wrote, or the default if there is none. `setWeights` writes no cells.
-/

namespace LGD.C39

open LGD.Sell LGD.Unstr

variable {α V : Type}

/-! ## specification -/

/-- the modifying operations: `set(Coord)`, `set(Streak)`, `setEdge`, `loadRegion` (without offset), `setWeights` -/
inductive Op (α V : Type) where
  | set (id : Int) (v : α)
  | setStreak (s : Streak) (vs : List α)
  | setEdge (v : α)
  | load (b : List α) (region : Idx)
  | setWeights (k : Nat) (m : List (Entry V))

/-- `ids` are the nodes of the set in ascending order -/
def Enum (r : Idx) (ids : List Int) : Prop := ids.Pairwise (· < ·) ∧ ∀ x, x ∈ ids ↔ Node r x

/-- the operation may be called on a grid with these nodes and number of matrices: only known nodes are written, buffers are large enough -/
def Allowed (nodes : Idx) (M : Nat) : Op α V → Prop
  | .set id _ => Node nodes id
  | .setStreak s vs => s.origin 0 ≤ s.endX ∧ (∀ x, s.origin 0 ≤ x → x < s.endX → Node nodes x) ∧ s.endX - s.origin 0 ≤ vs.length
  | .setEdge _ => True
  | .load b region => RegOK 0 region ∧ (∀ x, Node region x → Node nodes x) ∧ ∀ ids, Enum region ids → ids.length ≤ b.length
  | .setWeights k _ => k < M

/-- the operation writes `v` to node `id` -/
def Writes : Op α V → Int → α → Prop
  | .set id' v', id, v => id = id' ∧ v = v'
  | .setStreak s vs, id, v => s.origin 0 ≤ id ∧ id < s.endX ∧ vs[(id - s.origin 0).toNat]? = some v
  | .setEdge _, _, _ => False
  | .load b region, id, v => ∃ ids, Enum region ids ∧ ∃ i : Nat, ids[i]? = some id ∧ b[i]? = some v
  | .setWeights _ _, _, _ => False

/-- `v` was written last to node `id`, or nothing was written to it and `v` is the default -/
def Holds (default : α) (ops : List (Op α V)) (id : Int) (v : α) : Prop :=
  (∃ pre op post, ops = pre ++ op :: post ∧ Writes op id v ∧ ∀ o ∈ post, ∀ w, ¬ Writes o id w) ∨ ((∀ o ∈ ops, ∀ w, ¬ Writes o id w) ∧ v = default)

/-- the edge cell: set last, or given to the constructor -/
def EdgeHolds (edge : α) (ops : List (Op α V)) (v : α) : Prop :=
  (∃ pre post, ops = pre ++ .setEdge v :: post ∧ ∀ w, Op.setEdge w ∉ post) ∨ ((∀ w, Op.setEdge w ∉ ops) ∧ v = edge)

/-- the parameters of the class and of the call: chunk size, sorting scope, zero weight, default-constructed cell, `std::sort` -/
structure Params (α V : Type) where
  C : Nat
  sigma : Nat
  zero : V
  dflt : α
  sort : List (Entry V) → List (Entry V)

/-- sensible parameters -/
structure Params.Ok (P : Params α V) : Prop where
  C : 0 < P.C
  sigma : 0 < P.sigma
  sort : ∀ m, IsSort m (P.sort m)

/-- one operation of the model -/
def exec (P : Params α V) : Op α V → RGrid α V → Option (Bool × RGrid α V)
  | .set id v, g => (rSet g id v).map fun g => (false, g)
  | .setStreak s vs, g => (rSetStreak g s vs).map fun g => (false, g)
  | .setEdge v, g => some (false, rSetEdge g v)
  | .load b region, g => (rLoad g b region fun _ => 0).map fun g => (false, g)
  | .setWeights k m, g => rSetWeights P.C P.sigma P.zero P.dflt P.sort k m g

/-- a history of operations; it ends if there is an exception -/
def run (P : Params α V) : List (Op α V) → RGrid α V → Option (Bool × RGrid α V)
  | [], g => some (false, g)
  | o :: ops, g => (exec P o g).bind fun r => if r.1 then some r else run P ops r.2

/-- the grid after construction and a history of operations -/
def after (P : Params α V) (M : Nat) (nodes : Idx) (default edge : α) (ops : List (Op α V)) : Option (Bool × RGrid α V) := (rMake P.C M nodes default edge).bind (run P ops)

/-! ## proof -/

theorem enum_unique {r : Idx} {a b : List Int} (ha : Enum r a) (hb : Enum r b) : a = b :=
  List.Perm.eq_of_pairwise (fun x y _ _ h1 h2 => by omega) ha.1 hb.1
    ((List.perm_ext_iff_of_nodup (ha.1.imp fun h => by omega) (hb.1.imp fun h => by omega)).2 fun x => (ha.2 x).trans (hb.2 x).symm)

theorem step {P : Params α V} (hP : P.Ok) {N M : Nat} {ids : List Int} {ph : Int → Nat} {g : RGrid α V} (h : OK N M ids ph g) (h0 : ∃ j ∈ ids, 0 ≤ j) (op : Op α V) (ha : Allowed g.nodeSet M op) :
    ∃ N' ph' g', exec P op g = some (false, g') ∧ OK N' M ids ph' g' ∧ g'.nodeSet = g.nodeSet ∧ (∀ id ∈ ids, ∀ v, Writes op id v → rGet g' id = some v) ∧
      (∀ id ∈ ids, (∀ v, ¬ Writes op id v) → rGet g' id = rGet g id) ∧ (∀ v, op = .setEdge v → rGetEdge g' = v) ∧
      ((∀ v, op ≠ .setEdge v) → (∀ k m, op ≠ .setWeights k m) → rGetEdge g' = rGetEdge g) ∧
      ((∀ k m, op ≠ .setWeights k m) → N' = N ∧ ph' = ph ∧ g'.mats = g.mats) := by
  cases op with
  | set id v =>
    obtain ⟨g', h1, h2, h3, h4, h5, h6, h7⟩ := h.set ((h.mem id).2 ha) v
    refine ⟨N, ph, g', by unfold exec; dsimp only; rw [h1]; rfl, h2, h3, ?_, fun j hj hn => ?_, fun w hw => by simp at hw, fun _ _ => h5, fun _ => ⟨rfl, rfl, h4⟩⟩
    · rintro j hj w ⟨rfl, rfl⟩; exact h6
    · exact h7 j hj fun e => hn v ⟨e, rfl⟩
  | setStreak s vs =>
    obtain ⟨a1, a2, a3⟩ := ha
    have hmem : ∀ x, x ∈ streakIDs s ↔ s.origin 0 ≤ x ∧ x < s.endX := by
      intro x
      unfold streakIDs
      rw [List.mem_map]
      constructor
      · rintro ⟨i, hi, rfl⟩
        rw [List.mem_range] at hi
        omega
      · rintro ⟨h1, h2⟩
        exact ⟨(x - s.origin 0).toNat, List.mem_range.2 (by omega), by omega⟩
    obtain ⟨g', h1, h2, h3, h4, h5, h6, h7⟩ := h.setLoop (streakIDs s) vs (fun x hx => (h.mem x).2 (a2 x ((hmem x).1 hx).1 ((hmem x).1 hx).2)) (by unfold streakIDs; simp; omega) (by
      unfold streakIDs
      rw [List.Nodup, List.pairwise_map]
      exact List.pairwise_lt_range.imp fun h => by omega)
    refine ⟨N, ph, g', by unfold exec rSetStreak; dsimp only; rw [if_neg (by omega), h1]; rfl, h2, h3, ?_, fun j hj hn => ?_, fun w hw => by simp at hw, fun _ _ => h5, fun _ => ⟨rfl, rfl, h4⟩⟩
    · rintro j hj w ⟨h8, h9, h10⟩
      refine h6 (j - s.origin 0).toNat j w ?_ h10
      unfold streakIDs
      rw [List.getElem?_map, List.getElem?_range (by omega), Option.map_some]
      congr 1
      omega
    · refine h7 j hj fun hm => ?_
      obtain ⟨m1, m2⟩ := (hmem j).1 hm
      exact hn _ ⟨m1, m2, List.getElem?_eq_getElem (by omega)⟩
  | setEdge v =>
    obtain ⟨h1, h2, h3⟩ := h.setEdge v
    refine ⟨N, ph, _, rfl, h1, rfl, fun _ _ _ hw => hw.elim, fun j hj _ => h3 j hj, fun w hw => ?_, fun hn => absurd rfl (hn v), fun _ => ⟨rfl, rfl, rfl⟩⟩
    cases hw
    exact h2
  | load b region =>
    obtain ⟨a1, a2, a3⟩ := ha
    obtain ⟨js, e1, e2, e3⟩ := nodeIDs_spec a1
    obtain ⟨g', h1, h2, h3, h4, h5, h6, h7⟩ := h.load e1 (e2.imp fun h => by omega) (fun x hx => (h.mem x).2 (a2 x ((e3 x).1 hx))) h0 b (a3 js ⟨e2, e3⟩) (fun _ => 0)
    refine ⟨N, ph, g', by unfold exec; dsimp only; rw [h1]; rfl, h2, h3, ?_, fun j hj hn => ?_, fun w hw => by simp at hw, fun _ _ => h5, fun _ => ⟨rfl, rfl, h4⟩⟩
    · rintro j hj w ⟨ids', hen, i, h8, h9⟩
      rw [enum_unique hen ⟨e2, e3⟩] at h8
      exact h6 i j w h8 h9
    · refine h7 j hj fun hm => ?_
      obtain ⟨i, hi, rfl⟩ := List.getElem_of_mem hm
      exact hn _ ⟨js, ⟨e2, e3⟩, i, List.getElem?_eq_getElem hi, List.getElem?_eq_getElem (by have := a3 js ⟨e2, e3⟩; omega)⟩
  | setWeights k m =>
    obtain ⟨N', ph', hw⟩ := setWeights_ok h.reg h.nodes hP.C hP.sigma (by rintro rfl; obtain ⟨j, hj, _⟩ := h0; simp at hj) P.zero hP.sort m
    obtain ⟨g', h1, h2, h3, _, h5, _⟩ := hw P.dflt h rfl ha
    exact ⟨N', ph', g', h1, h2, h3, fun _ _ _ hw => hw.elim, fun j hj _ => h5 j hj, fun w hw => by simp at hw, fun _ hn => absurd rfl (hn k m), fun hn => absurd rfl (hn k m)⟩

theorem run_append (P : Params α V) (a b : List (Op α V)) : ∀ (g g' : RGrid α V), run P a g = some (false, g') → run P (a ++ b) g = run P b g' := by
  induction a with
  | nil => intro g g' h; cases h; rfl
  | cons o a ih =>
    intro g g' h
    unfold run at h
    rw [List.cons_append]
    conv_lhs => unfold run
    cases ho : exec P o g with
    | none => rw [ho] at h; simp at h
    | some r =>
      rw [ho, Option.bind_some] at h
      rw [Option.bind_some]
      by_cases hr : r.1 = true
      · rw [if_pos hr] at h
        cases h
        simp at hr
      · rw [if_neg hr] at h ⊢
        exact ih _ _ h

theorem holds_snoc_hit {default : α} {ops : List (Op α V)} {op : Op α V} {id : Int} {v : α} (h : Writes op id v) : Holds default (ops ++ [op]) id v :=
  Or.inl ⟨ops, op, [], rfl, h, by simp⟩

theorem holds_snoc_miss {default : α} {ops : List (Op α V)} {op : Op α V} {id : Int} {v : α} (h : ∀ w, ¬ Writes op id w) (hv : Holds default ops id v) : Holds default (ops ++ [op]) id v := by
  rcases hv with ⟨pre, o, post, rfl, h1, h2⟩ | ⟨h1, h2⟩
  · refine Or.inl ⟨pre, o, post ++ [op], by simp, h1, fun x hx w => ?_⟩
    rcases List.mem_append.1 hx with hx | hx
    · exact h2 x hx w
    · rw [List.mem_singleton.1 hx]; exact h w
  · refine Or.inr ⟨fun x hx w => ?_, h2⟩
    rcases List.mem_append.1 hx with hx | hx
    · exact h1 x hx w
    · rw [List.mem_singleton.1 hx]; exact h w

theorem reach {P : Params α V} (hP : P.Ok) {nodes : Idx} (hn : RegOK 0 nodes) (h0 : ∃ id, Node nodes id ∧ 0 ≤ id) (M : Nat) (default edge : α) (ops : List (Op α V)) :
    (∀ o ∈ ops, Allowed nodes M o) → ∃ N ids ph g, after P M nodes default edge ops = some (false, g) ∧ OK N M ids ph g ∧ g.nodeSet = nodes ∧
      (∀ id ∈ ids, ∃ v, rGet g id = some v ∧ Holds default ops id v) ∧ ((∀ k m, Op.setWeights k m ∉ ops) → EdgeHolds edge ops (rGetEdge g)) := by
  induction ops using List.reverseRecOn with
  | nil =>
    intro _
    obtain ⟨ids, ph, g, h1, h2, h3, h4, h5⟩ := rMake_ok (V := V) hn P.C M default edge
    exact ⟨_, ids, ph, g, by unfold after; rw [h1]; rfl, h2, h3, fun id hid => ⟨default, h5 id hid, Or.inr ⟨by simp, rfl⟩⟩, fun _ => Or.inr ⟨by simp, h4⟩⟩
  | append_singleton ops op ih =>
    intro hall
    obtain ⟨N, ids, ph, g, h1, h2, h3, h4, h5⟩ := ih fun o ho => hall o (List.mem_append_left _ ho)
    obtain ⟨N', ph', g', k1, k2, k3, k4, k5, k6, k7, _⟩ := step hP h2 (by
      obtain ⟨id, hid, hz⟩ := h0
      rw [← h3] at hid
      exact ⟨id, (h2.mem id).2 hid, hz⟩) op (by rw [h3]; exact hall op (List.mem_append_right _ (List.mem_singleton.2 rfl)))
    refine ⟨N', ids, ph', g', ?_, k2, k3.trans h3, fun id hid => ?_, fun hnw => ?_⟩
    · unfold after at h1 ⊢
      obtain ⟨g0, e1, e2⟩ := Option.bind_eq_some_iff.1 h1
      rw [e1, Option.bind_some, run_append P ops [op] g0 g e2]
      unfold run
      rw [k1]
      rfl
    · by_cases hw : ∃ v, Writes op id v
      · obtain ⟨v, hv⟩ := hw
        exact ⟨v, k4 id hid v hv, holds_snoc_hit hv⟩
      · obtain ⟨v, e1, e2⟩ := h4 id hid
        have hw' : ∀ v, ¬ Writes op id v := fun v hv => hw ⟨v, hv⟩
        exact ⟨v, by rw [k5 id hid hw', e1], holds_snoc_miss hw' e2⟩
    · have hold := h5 fun k m hm => hnw k m (List.mem_append_left _ hm)
      by_cases he : ∃ v, op = .setEdge v
      · obtain ⟨v, rfl⟩ := he
        rw [k6 v rfl]
        exact Or.inl ⟨ops, [], rfl, by simp⟩
      · have he' : ∀ v, op ≠ .setEdge v := fun v hv => he ⟨v, hv⟩
        rw [k7 he' fun k m hm => hnw k m (List.mem_append_right _ (by rw [hm]; exact List.mem_singleton.2 rfl))]
        rcases hold with ⟨pre, post, e1, e2⟩ | ⟨e1, e2⟩
        · refine Or.inl ⟨pre, post ++ [op], by rw [e1]; simp, fun w hw => ?_⟩
          rcases List.mem_append.1 hw with hw | hw
          · exact e2 w hw
          · exact he' w (List.mem_singleton.1 hw).symm
        · refine Or.inr ⟨fun w hw => ?_, e2⟩
          rcases List.mem_append.1 hw with hw | hw
          · exact e1 w hw
          · exact he' w (List.mem_singleton.1 hw).symm

/-! ## theorems -/

/-- **C39, histories (partial).** Any history of `set`, `setEdge`, `loadRegion` and `setWeights` on known nodes runs without undefined behaviour and without exception, and then `get` returns for every node
the value written last under its logical ID (so `setWeights`, which reorders the cells, changes none). Unknown IDs below the largest node yield the edge cell. The edge cell is the one set last, if the history
contains no `setWeights`; with `setWeights` that is wrong, see `edge_negation`. -/
theorem history_partial {P : Params α V} (hP : P.Ok) {nodes : Idx} (hn : RegOK 0 nodes) (h0 : ∃ id, Node nodes id ∧ 0 ≤ id) (M : Nat) (default edge : α) (ops : List (Op α V))
    (hops : ∀ o ∈ ops, Allowed nodes M o) :
    ∃ g, after P M nodes default edge ops = some (false, g) ∧ (∀ id, Node nodes id → ∃ v, rGet g id = some v ∧ Holds default ops id v) ∧
      (∀ id, ¬ Node nodes id → (∃ j, Node nodes j ∧ id < j) → rGet g id = some (rGetEdge g)) ∧ ((∀ k m, Op.setWeights k m ∉ ops) → EdgeHolds edge ops (rGetEdge g)) := by
  obtain ⟨N, ids, ph, g, h1, h2, h3, h4, h5⟩ := reach hP hn h0 M default edge ops hops
  have hmem : ∀ x, x ∈ ids ↔ Node nodes x := fun x => by rw [h2.mem, h3]
  refine ⟨g, h1, fun id hid => h4 id ((hmem id).2 hid), fun id hid ⟨j, hj, hlt⟩ => ?_, h5⟩
  exact h2.get_unknown (fun hm => hid ((hmem id).1 hm)) ⟨j, (hmem j).2 hj, hlt⟩

/-- **C39, `get(Streak)` and `saveRegion`.** After any history they deliver the same cells as `get` for each logical ID, in ascending order of IDs; `saveRegion` keeps the rest of the buffer. -/
theorem readers {P : Params α V} (hP : P.Ok) {nodes : Idx} (hn : RegOK 0 nodes) (h0 : ∃ id, Node nodes id ∧ 0 ≤ id) (M : Nat) (default edge : α) (ops : List (Op α V))
    (hops : ∀ o ∈ ops, Allowed nodes M o) :
    ∃ g, after P M nodes default edge ops = some (false, g) ∧
      (∀ s : Streak, s.origin 0 ≤ s.endX → (∀ x, s.origin 0 ≤ x → x < s.endX → Node nodes x) → ∃ l, rGetStreak g s = some l ∧ (l.length : Int) = s.endX - s.origin 0 ∧
        ∀ i : Nat, i < s.endX - s.origin 0 → l[i]? = rGet g (s.origin 0 + i)) ∧
      ∀ region, RegOK 0 region → (∀ x, Node region x → Node nodes x) → ∀ ids, Enum region ids → ∀ b : List α, ids.length ≤ b.length →
        ∃ l, rSave g b region (fun _ => 0) = some (l ++ b.drop ids.length) ∧ l.length = ids.length ∧ ∀ (i : Nat) id, ids[i]? = some id → l[i]? = rGet g id := by
  obtain ⟨N, ids, ph, g, h1, h2, h3, h4, h5⟩ := reach hP hn h0 M default edge ops hops
  have hmem : ∀ x, x ∈ ids ↔ Node nodes x := fun x => by rw [h2.mem, h3]
  refine ⟨g, h1, fun s hs hsub => ?_, fun region hr hsub js hjs b hb => ?_⟩
  · obtain ⟨l, l1, l2⟩ := h2.getLoop (streakIDs s) (fun x hx => by
      unfold streakIDs at hx
      obtain ⟨i, hi, rfl⟩ := List.mem_map.1 hx
      rw [List.mem_range] at hi
      exact (hmem _).2 (hsub _ (by omega) (by omega)))
    have hlen := congrArg List.length l2
    rw [List.length_map, List.length_map, streakIDs, List.length_map, List.length_range] at hlen
    refine ⟨l, by unfold rGetStreak; rw [if_neg (by omega), l1], by omega, fun i hi => ?_⟩
    have := congrArg (fun x => x[i]?) l2
    rw [List.getElem?_map, List.getElem?_map, streakIDs, List.getElem?_map, List.getElem?_range (by omega), List.getElem?_eq_getElem (by omega)] at this
    rw [List.getElem?_eq_getElem (by omega)]
    simpa using this
  · obtain ⟨js', e1, e2, e3⟩ := nodeIDs_spec hr
    rw [enum_unique ⟨e2, e3⟩ hjs] at e1
    obtain ⟨l, l1, l2⟩ := h2.save e1 (fun x hx => (hmem x).2 (hsub x ((hjs.2 x).1 hx))) (by
      obtain ⟨id, hid, hz⟩ := h0
      exact ⟨id, (hmem id).2 hid, hz⟩) b hb (fun _ => 0)
    have hlen := congrArg List.length l2
    rw [List.length_map, List.length_map] at hlen
    refine ⟨l, l1, hlen, fun i id hi => ?_⟩
    have := congrArg (fun x => x[i]?) l2
    rw [List.getElem?_map, List.getElem?_map, hi] at this
    have hil := (List.getElem?_eq_some_iff.1 hi).1
    rw [List.getElem?_eq_getElem (by omega)] at this ⊢
    simpa using this

/-- the nodes get distinct positions, and `remapRegion` replaces IDs by positions -/
def Positions (nodes : Idx) (g : RGrid α V) (ph : Int → Nat) : Prop :=
  (∀ i j, Node nodes i → Node nodes j → ph i = ph j → i = j) ∧
    ∀ region, RegOK 0 region → (∀ x, Node region x → Node nodes x) → ∃ r, remap g region = some (false, r) ∧ RegOK 0 r ∧ ∀ p : Int, Node r p ↔ ∃ id, Node region id ∧ p = ph id

theorem positions_of {N M : Nat} {ids : List Int} {ph : Int → Nat} {g : RGrid α V} (h : OK N M ids ph g) : Positions g.nodeSet g ph := by
  refine ⟨fun i j hi hj he => h.inj i ((h.mem i).2 hi) j ((h.mem j).2 hj) he, fun region hr hsub => ?_⟩
  obtain ⟨js, e1, _, e3⟩ := nodeIDs_spec hr
  obtain ⟨r, h1, h2, h3⟩ := h.remapLoop js emptyIdx (fun x hx => (h.mem x).2 (hsub x ((e3 x).1 hx))) (regOK_empty 0)
  refine ⟨r, by unfold remap; rw [e1, Option.bind_some, h1], h2, fun p => ?_⟩
  rw [h3]
  constructor
  · rintro (h | ⟨j, hj, rfl⟩)
    · exact absurd h (regEmpty_mem 0 _)
    · exact ⟨j, (e3 j).1 hj, rfl⟩
  · rintro ⟨j, hj, rfl⟩
    exact Or.inr ⟨j, (e3 j).2 hj, rfl⟩

/-- **C39, weights.** After any history and `setWeights`, the matrix contains for each node, in the row of its position (as given by `remapRegion`), exactly the entries of its row with the positions of the
neighbors, provided that all of its neighbors are nodes of the grid; otherwise the row is empty. -/
theorem weights {P : Params α V} (hP : P.Ok) {nodes : Idx} (hn : RegOK 0 nodes) (h0 : ∃ id, Node nodes id ∧ 0 ≤ id) (M : Nat) (default edge : α) (ops : List (Op α V))
    (hops : ∀ o ∈ ops, Allowed nodes M o) (k : Nat) (hk : k < M) (m : List (Entry V)) :
    ∃ g ph c, after P M nodes default edge (ops ++ [.setWeights k m]) = some (false, g) ∧ Positions nodes g ph ∧ g.mats[k]? = some c ∧ ∀ id, Node nodes id → ∃ l, getRow P.C c (ph id) = some l ∧
      ((∀ e ∈ m, e.1.1 = id → Node nodes e.1.2) → l.Perm ((m.filter fun e => decide (e.1.1 = id)).map fun e => ((ph e.1.2 : Int), e.2))) ∧
      ((∃ e ∈ m, e.1.1 = id ∧ ¬ Node nodes e.1.2) → l = []) := by
  obtain ⟨N, ids, ph, g, h1, h2, h3, _, _⟩ := reach hP hn h0 M default edge ops hops
  have hne : ids ≠ [] := by
    rintro rfl
    obtain ⟨id, hid, _⟩ := h0
    rw [← h3] at hid
    simpa using (h2.mem id).2 hid
  obtain ⟨N', ph', hw⟩ := setWeights_ok h2.reg h2.nodes hP.C hP.sigma hne P.zero hP.sort m
  obtain ⟨g', k1, k2, k3, _, _, ⟨c, k4, k5⟩, _⟩ := hw P.dflt h2 rfl hk
  refine ⟨g', ph', c, ?_, ?_, k4, fun id hid => ?_⟩
  · unfold after at h1 ⊢
    obtain ⟨g0, e1, e2⟩ := Option.bind_eq_some_iff.1 h1
    rw [e1, Option.bind_some, run_append P ops _ g0 g e2]
    unfold run exec
    dsimp only
    rw [k1]
    rfl
  · have := positions_of k2
    rwa [k3, h3] at this
  · rw [← h3] at hid
    obtain ⟨l, l1, l2, l3⟩ := k5 id ((h2.mem id).2 hid)
    rw [h3] at l2 l3
    refine ⟨l, l1, l2, fun ⟨e, he, he1, he2⟩ => l3 fun hc => he2 (hc e he he1)⟩

/-- **C39, unknown nodes.** After any history, `set` of an unknown ID is undefined behaviour (the edge cell is set and then the end iterator is dereferenced), and so is `get` of an ID above all nodes. -/
theorem unknown {P : Params α V} (hP : P.Ok) {nodes : Idx} (hn : RegOK 0 nodes) (h0 : ∃ id, Node nodes id ∧ 0 ≤ id) (M : Nat) (default edge : α) (ops : List (Op α V)) (hops : ∀ o ∈ ops, Allowed nodes M o) :
    ∃ g, after P M nodes default edge ops = some (false, g) ∧ (∀ id v, ¬ Node nodes id → rSet g id v = none) ∧ ∀ id, (∀ j, Node nodes j → j < id) → rGet g id = none := by
  obtain ⟨N, ids, ph, g, h1, h2, h3, _, _⟩ := reach hP hn h0 M default edge ops hops
  have hmem : ∀ x, x ∈ ids ↔ Node nodes x := fun x => by rw [h2.mem, h3]
  have hb : ∀ id, (∀ j, Node nodes j → j < id) → mapID id g.l2p = none := fun id hid => by rw [h2.map]; exact mapID_beyond ph fun j hj => hid j ((hmem j).1 hj)
  refine ⟨g, h1, fun id v hid => ?_, fun id hid => by unfold rGet; rw [hb id hid]; rfl⟩
  unfold rSet
  by_cases hlt : ∃ j ∈ ids, id < j
  · rw [h2.map, mapID_not ph (fun hm => hid ((hmem id).1 hm)) hlt]
    rfl
  · rw [hb id fun j hj => ?_]
    · rfl
    · by_contra hge
      refine hlt ⟨j, (hmem j).2 hj, ?_⟩
      rcases Int.lt_or_eq_of_le (Int.not_lt.1 hge) with h | h
      · exact h
      · exact absurd (h ▸ hj) hid

/-! ## deviations and examples -/

/-- a sort which satisfies the contract of `std::sort` -/
def stdSort (m : List (Entry Int)) : List (Entry Int) := m.insertionSort fun a b => ¬ (b.1.1 < a.1.1 ∨ (b.1.1 = a.1.1 ∧ b.1.2 < a.1.2))

theorem stdSort_ok (m : List (Entry Int)) : IsSort m (stdSort m) := by
  haveI : Std.Total fun a b : Entry Int => ¬ (b.1.1 < a.1.1 ∨ (b.1.1 = a.1.1 ∧ b.1.2 < a.1.2)) := ⟨fun a b => by omega⟩
  haveI : IsTrans (Entry Int) fun a b => ¬ (b.1.1 < a.1.1 ∨ (b.1.1 = a.1.1 ∧ b.1.2 < a.1.2)) := ⟨fun a b c => by omega⟩
  exact ⟨List.perm_insertionSort _ _, List.pairwise_insertionSort (fun a b : Entry Int => ¬ (b.1.1 < a.1.1 ∨ (b.1.1 = a.1.1 ∧ b.1.2 < a.1.2))) m⟩

/-- chunks of 2 rows, sorting scope 4 -/
def sample : Params Int Int := ⟨2, 4, 0, 0, stdSort⟩

theorem sample_ok : sample.Ok := ⟨by decide, by decide, stdSort_ok⟩

/-- the nodes 3, 4 and 7 -/
def three : Idx := fun k => if k = 0 then [(3, 5), (7, 8)] else []

theorem three_ok : RegOK 0 three ∧ ∀ x, Node three x ↔ x = 3 ∨ x = 4 ∨ x = 7 := by
  obtain ⟨h1, h2⟩ := regLit 0 [⟨fun _ => 3, 5⟩, ⟨fun _ => 7, 8⟩] three (by decide +kernel)
  refine ⟨h1, fun x => ?_⟩
  unfold Node
  rw [h2]
  unfold U
  constructor
  · rintro ⟨s, hs, h3⟩
    simp only [List.mem_cons, List.not_mem_nil, or_false] at hs
    obtain ⟨_, h4, h5⟩ := h3
    rcases hs with rfl | rfl <;> dsimp only at h4 h5 <;> omega
  · rintro (rfl | rfl | rfl)
    · exact ⟨⟨fun _ => 3, 5⟩, by simp, fun k _ _ => by omega, by decide, by decide⟩
    · exact ⟨⟨fun _ => 3, 5⟩, by simp, fun k _ _ => by omega, by decide, by decide⟩
    · exact ⟨⟨fun _ => 7, 8⟩, by simp, fun k _ _ => by omega, by decide, by decide⟩

/-- node 3 has one neighbor, node 4 has two, node 7 has an unknown neighbor -/
def links : List (Entry Int) := [((3, 4), 10), ((4, 3), 20), ((4, 7), 21), ((7, 4), 30), ((7, 9), 31)]

/-- **C39, deviation.** `setWeights` replaces the edge cell by a default-constructed cell: here the edge cell is set to 9, but afterwards it is 0 (and so are unknown nodes). -/
theorem edge_negation : ∃ g, after sample 1 three 5 6 [.setEdge 9, .setWeights 0 links] = some (false, g) ∧ EdgeHolds 6 [.setEdge 9, .setWeights 0 links] 9 ∧ rGetEdge g = 0 ∧ rGet g 5 = some 0 :=
  ⟨_, rfl, Or.inl ⟨[], [.setWeights 0 links], rfl, by simp⟩, rfl, rfl⟩

/-- **C39, deviation.** Setting the weights of one matrix discards all other matrices: row 1 of matrix 0 (the one of node 3) has an entry before and is empty afterwards. -/
theorem matrices_negation : ∃ g g' c c', after sample 2 three 5 6 [.setWeights 0 links] = some (false, g) ∧ g.mats[0]? = some c ∧ getRow 2 c 1 = some [(0, 10)] ∧
    after sample 2 three 5 6 [.setWeights 0 links, .setWeights 1 links] = some (false, g') ∧ g'.mats[0]? = some c' ∧ getRow 2 c' 1 = some [] :=
  ⟨_, _, _, _, rfl, rfl, rfl, rfl, rfl, rfl⟩

/-- **C39, deviation.** `saveRegion` and `loadRegion` ignore the offset: saving node 3 with offset 1 delivers node 3, not node 4. -/
theorem offset_negation : ∃ g, after sample 1 three 5 6 [.set 3 100, .set 4 200] = some (false, g) ∧ rSave g [0] (fun k => if k = 0 then [(3, 4)] else []) (fun _ => 1) = some [100] ∧
    rGet g (3 + 1) = some 200 ∧ ∃ g', rLoad g [7] (fun k => if k = 0 then [(3, 4)] else []) (fun _ => 1) = some g' ∧ rGet g' 3 = some 7 ∧ rGet g' 4 = some 200 :=
  ⟨_, rfl, rfl, rfl, _, rfl, rfl, rfl⟩

/-- **C39, deviation.** If all nodes are negative, then even saving a known node dereferences an end iterator, when the end of the region is looked up as if it were node 0. -/
theorem negative_negation : ∃ g, after sample 1 (fun k => if k = 0 then [(-5, -3)] else []) 5 6 [] = some (false, g) ∧ rGet g (-4) = some 5 ∧
    rSave g [0] (fun k => if k = 0 then [(-4, -3)] else []) (fun _ => 0) = none :=
  ⟨_, rfl, rfl, rfl⟩

/-- a non-trivial history: node 4 has more neighbors than node 3, so the cells are really reordered -/
def story : List (Op Int Int) := [.set 3 100, .setStreak ⟨fun _ => 3, 5⟩ [101, 201], .setWeights 0 links, .load [301, 701] (fun k => if k = 0 then [(4, 5), (7, 8)] else []), .set 7 702]

theorem story_allowed : ∀ o ∈ story, Allowed three 1 o := by
  intro o ho
  simp only [story, List.mem_cons, List.not_mem_nil, or_false] at ho
  have hn := three_ok.2
  rcases ho with rfl | rfl | rfl | rfl | rfl
  · exact (hn 3).2 (by omega)
  · exact ⟨by decide, fun x h1 h2 => (hn x).2 (by dsimp only at h1 h2; omega), by decide⟩
  · exact (by decide : 0 < 1)
  · obtain ⟨h1, h2⟩ := regLit 0 [⟨fun _ => 4, 5⟩, ⟨fun _ => 7, 8⟩] (fun k => if k = 0 then [(4, 5), (7, 8)] else []) (by decide +kernel)
    have hx : ∀ x, Node (fun k => if k = 0 then [(4, 5), (7, 8)] else []) x → x = 4 ∨ x = 7 := by
      intro x hx
      obtain ⟨s, hs, _, h4, h5⟩ := (h2 _).1 hx
      simp only [List.mem_cons, List.not_mem_nil, or_false] at hs
      rcases hs with rfl | rfl <;> dsimp only at h4 h5 <;> omega
    refine ⟨h1, fun x h => (hn x).2 (by have := hx x h; omega), fun ids he => ?_⟩
    have h3 : ids ⊆ [4, 7] := fun x h => by simpa using hx x ((he.2 x).1 h)
    exact (List.subperm_of_subset (he.1.imp fun h => by omega) h3).length_le
  · exact (hn 7).2 (by omega)

example : ∃ g, after sample 1 three 5 6 story = some (false, g) ∧ rGet g 3 = some 101 ∧ rGet g 4 = some 301 ∧ rGet g 7 = some 702 ∧ g.l2p = [(3, 1), (4, 0), (7, 2)] :=
  ⟨_, rfl, rfl, rfl, rfl, rfl⟩

example := history_partial sample_ok three_ok.1 ⟨3, (three_ok.2 3).2 (by omega), by omega⟩ 1 5 6 story story_allowed

example := weights sample_ok three_ok.1 ⟨3, (three_ok.2 3).2 (by omega), by omega⟩ 1 5 6 story story_allowed 0 (by decide) links

end LGD.C39
