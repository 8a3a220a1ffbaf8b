import Verif.Misc.TestCellModel
import Verif.Geom.Box

/-!
# C78: a simulation of valid `TestCell`s is a correct simulation of any model

A simulator is seen as a program which combines cells: it decides for each update which cells form the neighborhood and which nano step is passed. If the test cell which it obtains is valid, then the same program,
run with any other model, yields the cell of the reference simulation at the position and cycle of the test cell. Correct simulators never cause invalid cells. The assertions used by the tests ignore positions; one
further update reveals wrong positions, but not along periodic axes.
-/

namespace LGD.C78
open LGD.TC

/-- how a simulator obtained a cell: by the initializer at a coordinate, as the edge cell, by default construction, or by an update with some neighborhood -/
inductive Expr
  | init (c : Crd)
  | edge
  | dflt
  | update (hood : Crd → Expr) (nano : Nat)

/-- another model: initial cells, edge cell, default cell, update -/
structure User (U : Type) where
  init : Crd → U
  edge : U
  dflt : U
  update : (Crd → U) → Nat → U

variable {U : Type} (n : Nat) (wraps : Nat → Bool) (dims : Crd) (stencil : List Crd) (N start : Nat)

/-- the test cell which results -/
def evalT : Expr → Cell
  | .init c => initCell n wraps dims N start c
  | .edge => edgeCell n wraps dims
  | .dflt => dfltCell
  | .update hood nano => TC.update n wraps stencil N (fun d => evalT (hood d)) nano

/-- the cell of the other model which results; outside of the grid there is the edge cell -/
def evalU (u : User U) : Expr → U
  | .init c => if outOfBounds n wraps c dims then u.edge else u.init (topoNormalize n wraps c dims)
  | .edge => u.edge
  | .dflt => u.dflt
  | .update hood nano => u.update (fun d => evalU u (hood d)) nano

/-- reference: cell at `p` after `t` updates -/
def ref (u : User U) : Nat → Crd → U
  | 0, p => u.init p
  | t + 1, p => u.update (fun d => if outOfBounds n wraps (shift p d) dims then u.edge else ref u t (topoNormalize n wraps (shift p d) dims)) (t % N)

/-- updates of a cell -/
def steps : Expr → Nat
  | .update hood _ => steps (hood here) + 1
  | _ => 0

/-- the cycle counters don't overflow -/
def Short : Expr → Prop
  | .update hood nano => start * N + steps (.update hood nano) < 2 ^ 32 ∧ Short (hood here) ∧ ∀ d ∈ stencil, Short (hood d)
  | _ => start * N < 2 ^ 32

/-- the model reads cells within the stencil, and cells don't depend on meaningless components of coordinates -/
structure Proper (u : User U) : Prop where
  update : ∀ h h' nano, (∀ d ∈ stencil, h d = h' d) → u.update h nano = u.update h' nano
  init : ∀ a b : Crd, (∀ k ≤ n, a k = b k) → u.init a = u.init b

theorem outOfBounds_iff {c dims : Crd} : outOfBounds n wraps c dims = true ↔ ∃ k ≤ n, wraps k = false ∧ (c k < 0 ∨ dims k ≤ c k) := by
  unfold outOfBounds
  simp only [List.any_eq_true, List.mem_range, Bool.and_eq_true, Bool.not_eq_true', Bool.or_eq_true, decide_eq_true_eq]
  constructor
  · rintro ⟨k, h1, h2, h3⟩; exact ⟨k, by omega, h2, h3⟩
  · rintro ⟨k, h1, h2, h3⟩; exact ⟨k, by omega, h2, h3⟩

theorem inBounds_iff {c dims : Crd} : outOfBounds n wraps c dims = false ↔ ∀ k ≤ n, wraps k = false → 0 ≤ c k ∧ c k < dims k := by
  rw [← Bool.not_eq_true, outOfBounds_iff]
  constructor
  · intro h k h1 h2
    by_contra h3
    exact h ⟨k, h1, h2, by omega⟩
  · rintro h ⟨k, h1, h2, h3⟩
    have := h k h1 h2; omega

theorem outOfBounds_congr {a b dims : Crd} (h : ∀ k ≤ n, a k = b k) : outOfBounds n wraps a dims = outOfBounds n wraps b dims := by
  rw [Bool.eq_iff_iff, outOfBounds_iff, outOfBounds_iff]
  constructor
  · rintro ⟨k, h1, h2, h3⟩; exact ⟨k, h1, h2, by rw [← h k h1]; exact h3⟩
  · rintro ⟨k, h1, h2, h3⟩; exact ⟨k, h1, h2, by rw [h k h1]; exact h3⟩

theorem ref_congr {u : User U} (hu : Proper n stencil u) : ∀ (t : Nat) {a b : Crd}, (∀ k ≤ n, a k = b k) → ref n wraps dims N u t a = ref n wraps dims N u t b
  | 0, a, b, h => hu.init a b h
  | t + 1, a, b, h => by
    have hs : ∀ d : Crd, ∀ k ≤ n, shift a d k = shift b d k := fun d k hk => by simp only [shift, h k hk]
    simp only [ref]
    refine hu.update _ _ _ fun d _ => ?_
    rw [outOfBounds_congr n wraps (hs d)]
    split
    · rfl
    · refine ref_congr hu t fun k hk => ?_
      unfold topoNormalize normEdges
      rw [outOfBounds_congr n wraps (hs d)]
      split
      · rfl
      · simp only [hs d k hk]

/-- exactly what `checkNeighbor` accepts -/
theorem check_iff (c o : Cell) (d : Crd) : checkNeighbor n wraps c o d = true ↔ o.valid = true ∧ o.isEdge = outOfBounds n wraps (shift c.pos d) c.dims ∧
    (o.isEdge = false → o.counter = c.counter ∧ (∀ k ≤ n, o.dims k = c.dims k) ∧ ∀ k ≤ n, o.pos k = topoNormalize n wraps (shift c.pos d) c.dims k) := by
  unfold checkNeighbor
  cases hv : o.valid
  · simp
  · cases ho : outOfBounds n wraps (shift c.pos d) c.dims <;> cases he : o.isEdge <;> simp [crdEq_iff]

/-- **C78, one update**: the cell is valid afterwards exactly if it was valid and no edge cell, all neighbors are the right ones and the nano step is the expected one -/
theorem update_iff (hN : 0 < N) (hood : Crd → Cell) (nano : Nat) : (TC.update n wraps stencil N hood nano).valid = true ↔
    (hood here).isEdge = false ∧ (hood here).valid = true ∧ (∀ d ∈ stencil, checkNeighbor n wraps (hood here) (hood d) d = true) ∧ nano = (hood here).counter % N := by
  unfold TC.update
  dsimp only
  have hlt := Nat.mod_lt (hood here).counter hN
  by_cases he : (hood here).isEdge = true
  · rw [if_pos he]; simp [he]
  · rw [if_neg he]
    by_cases h1 : N ≤ nano
    · rw [if_pos h1]
      simp only [Bool.false_eq_true, false_iff]
      rintro ⟨_, _, _, h⟩; omega
    · rw [if_neg h1]
      by_cases h2 : nano = (hood here).counter % N
      · rw [if_neg (fun h => h h2)]
        simp only [Bool.and_eq_true, List.all_eq_true, Bool.not_eq_true] at he ⊢
        exact ⟨fun h => ⟨he, h.1, h.2, h2⟩, fun h => ⟨h.2.1, h.2.2.1⟩⟩
      · rw [if_pos h2]
        simp only [Bool.false_eq_true, false_iff]
        exact fun h => h2 h.2.2.2

/-- position and size don't change, the counter advances -/
theorem update_fields (hN : 0 < N) {hood : Crd → Cell} {nano : Nat} (h : (TC.update n wraps stencil N hood nano).valid = true) :
    TC.update n wraps stencil N hood nano = ⟨(hood here).pos, (hood here).dims, ((hood here).counter + 1) % 2 ^ 32, false, true⟩ := by
  have h0 := h
  rw [update_iff n wraps stencil N hN] at h
  obtain ⟨h1, h2, h3, h4⟩ := h
  have hlt := Nat.mod_lt (hood here).counter hN
  have hall : (stencil.all fun d => checkNeighbor n wraps (hood here) (hood d) d) = true := List.all_eq_true.2 h3
  unfold TC.update
  simp only [h1, Bool.false_eq_true, if_false, hall, h2, Bool.and_true]
  rw [if_neg (by omega), if_neg (by simpa using h4)]

/-- **C78, soundness.** Whatever the simulator did: if the resulting test cell is valid, then the same operations with any other model yield the reference's cell (or the edge cell, if the test cell is an edge cell) -/
theorem sound (hN : 0 < N) {u : User U} (hu : Proper n stencil u) : ∀ e : Expr, Short stencil N start e → (evalT n wraps dims stencil N start e).valid = true →
    ((evalT n wraps dims stencil N start e).isEdge = true → evalU n wraps dims u e = u.edge) ∧
    ((evalT n wraps dims stencil N start e).isEdge = false → (evalT n wraps dims stencil N start e).counter = start * N + steps e ∧ (evalT n wraps dims stencil N start e).dims = dims ∧
      evalU n wraps dims u e = ref n wraps dims N u (steps e) (evalT n wraps dims stencil N start e).pos)
  | .init c, hs, _ => by
    simp only [Short] at hs
    cases ho : outOfBounds n wraps c dims
    · refine ⟨fun h => ?_, fun _ => ?_⟩
      · exfalso
        -- wrapped coordinates are in bounds on the other axes
        simp only [evalT, initCell, make, topoNormalize, ho, Bool.false_eq_true, if_false] at h
        rw [outOfBounds_iff] at h
        rw [inBounds_iff] at ho
        obtain ⟨k, h1, h2, h3⟩ := h
        have := ho k h1 h2
        simp only [normEdges, wrap1] at h3
        split at h3
        · omega
        · split at h3 <;> omega
      · simp only [evalT, initCell, make, evalU, steps, ref, ho, Bool.false_eq_true, if_false]
        exact ⟨Nat.mod_eq_of_lt hs, trivial, trivial⟩
    · refine ⟨fun _ => by simp [evalU, ho], fun h => ?_⟩
      simp only [evalT, initCell, make, topoNormalize, ho, if_true] at h
      rw [inBounds_iff] at h
      rw [outOfBounds_iff] at ho
      obtain ⟨k, h1, h2, _⟩ := ho
      have := (h k h1 h2).1
      omega
  | .edge, _, _ => ⟨fun _ => rfl, fun h => by cases h⟩
  | .dflt, _, h => by cases h
  | .update hood nano, hs, hv => by
    obtain ⟨hs1, hs2, hs3⟩ := hs
    simp only [evalT] at hv ⊢
    have hf := update_fields n wraps stencil N hN hv
    rw [update_iff n wraps stencil N hN] at hv
    obtain ⟨h1, h2, h3, h4⟩ := hv
    obtain ⟨c1, c2, _⟩ := (sound hN hu (hood here) hs2 h2).2 h1
    rw [hf]
    simp only [steps] at hs1
    refine ⟨(by simp), fun _ => ⟨?_, c2, ?_⟩⟩
    · simp only [steps]
      rw [c1, Nat.mod_eq_of_lt (by omega)]; omega
    · simp only [evalU, steps, ref]
      rw [h4, c1, Nat.add_comm (start * N), Nat.add_mul_mod_self_right]
      refine hu.update _ _ _ fun d hd => ?_
      have hc := (check_iff n wraps _ _ d).1 (h3 d hd)
      obtain ⟨k1, k2, k3⟩ := hc
      obtain ⟨i1, i2⟩ := sound hN hu (hood d) (hs3 d hd) k1
      rw [c2] at k2 k3
      cases ho : outOfBounds n wraps (shift (evalT n wraps dims stencil N start (hood here)).pos d) dims
      · rw [ho] at k2
        obtain ⟨m1, m2, m3⟩ := k3 k2
        obtain ⟨j1, _, j3⟩ := i2 k2
        rw [j3]
        have hsteps : steps (hood d) = steps (hood here) := by omega
        rw [hsteps]
        simp only [Bool.false_eq_true, if_false]
        exact ref_congr n wraps dims stencil N hu _ m3
      · rw [ho] at k2
        simp only [if_true]
        exact i1 k2

/-- **C78, grids.** A grid which passes the assertions, in which all cells are at the right positions, is the reference's grid for any model -/
theorem grid_sound (hN : 0 < N) {u : User U} (hu : Proper n stencil u) (G : Crd → Expr) (t : Nat) (hs : ∀ p, Short stencil N start (G p))
    {p : Crd} (ha : assertCell (start * N + t) (evalT n wraps dims stencil N start (G p)) = true) (hp : ∀ k ≤ n, (evalT n wraps dims stencil N start (G p)).pos k = p k) :
    evalU n wraps dims u (G p) = ref n wraps dims N u t p := by
  simp only [assertCell, Bool.and_eq_true, Bool.not_eq_true', decide_eq_true_eq] at ha
  obtain ⟨⟨h1, h2⟩, h3⟩ := ha
  obtain ⟨i1, _, i3⟩ := (sound n wraps dims stencil N start hN hu (G p) (hs p) h1).2 h2
  rw [i3, show steps (G p) = t by omega]
  exact ref_congr n wraps dims stencil N hu t hp

/-! ## Correct simulators, positions -/

/-- the neighborhood of `p` in a grid `G` with edge cell `E` -/
def gridHood {α : Type} (G : Crd → α) (E : α) (p d : Crd) : α := if outOfBounds n wraps (shift p d) dims then E else G (topoNormalize n wraps (shift p d) dims)

/-- `p` is in the grid; meaningless axes have extents as well -/
def InBox (p : Crd) : Prop := ∀ k, 0 ≤ p k ∧ p k < dims k

theorem inBox_in {p : Crd} (h : InBox dims p) : outOfBounds n wraps p dims = false := (inBounds_iff n wraps).2 fun k _ _ => h k

theorem norm_inBox {p : Crd} (h : InBox dims p) : topoNormalize n wraps p dims = p := by
  unfold topoNormalize
  rw [inBox_in n wraps dims h]
  simp only [Bool.false_eq_true, if_false]
  funext k
  have := h k
  simp only [normEdges, wrap1]
  rw [if_neg (by omega), if_neg (by omega)]

theorem shift_here (p : Crd) : shift p here = p := by funext k; simp [shift, here]

theorem gridHood_here {α : Type} (G : Crd → α) (E : α) {p : Crd} (h : InBox dims p) : gridHood n wraps dims G E p here = G p := by
  unfold gridHood
  rw [shift_here, inBox_in n wraps dims h, norm_inBox n wraps dims h]; rfl

/-- the test cell at `p` after `t` updates -/
def cellAt (t : Nat) (p : Crd) : Cell := ⟨p, dims, start * N + t, false, true⟩

/-- **C78, no false alarms**: with the right neighborhoods and nano steps the cells remain valid -/
theorem no_false_alarm (hN : 0 < N) (t : Nat) (ht : start * N + t + 1 < 2 ^ 32) {p : Crd} (hp : InBox dims p) :
    TC.update n wraps stencil N (gridHood n wraps dims (cellAt dims N start t) (edgeCell n wraps dims) p) (t % N) = cellAt dims N start (t + 1) p := by
  have hh := gridHood_here n wraps dims (cellAt dims N start t) (edgeCell n wraps dims) hp
  have hv : (TC.update n wraps stencil N (gridHood n wraps dims (cellAt dims N start t) (edgeCell n wraps dims) p) (t % N)).valid = true := by
    rw [update_iff n wraps stencil N hN, hh]
    refine ⟨rfl, rfl, fun d _ => ?_, ?_⟩
    · rw [check_iff]
      simp only [cellAt, gridHood]
      cases ho : outOfBounds n wraps (shift p d) dims
      · simp
      · simp [edgeCell, make]
    · simp only [cellAt]
      rw [Nat.add_comm (start * N), Nat.add_mul_mod_self_right]
  rw [update_fields n wraps stencil N hN hv, hh]
  simp only [cellAt]
  rw [Nat.mod_eq_of_lt ht]
  rfl

/-- the initial grid consists of such cells -/
theorem init_cells (hs : start * N < 2 ^ 32) {p : Crd} (hp : InBox dims p) : initCell n wraps dims N start p = cellAt dims N start 0 p := by
  simp only [initCell, make, cellAt, norm_inBox n wraps dims hp, inBox_in n wraps dims hp, Nat.mod_eq_of_lt hs, Nat.add_zero]

/-- initial cells and the edge cell pass the assertions -/
theorem init_valid (hs : start * N < 2 ^ 32) {p : Crd} (hp : InBox dims p) : assertCell (start * N) (initCell n wraps dims N start p) = true := by
  rw [init_cells n wraps dims N start hs hp]; simp [assertCell, cellAt]

theorem edge_valid : assertEdge (edgeCell n wraps dims) = true := rfl

/-- step along an axis -/
def unit (k : Nat) (s : Int) : Crd := fun j => if j = k then s else 0

/-- **C78, positions.** If a grid passes the assertions, and one further update of it with the right neighborhoods does too, then all cells are at the right positions, as far as axes with constant boundaries are
concerned -/
theorem positions (hN : 0 < N) {G : Crd → Cell} {E : Cell} {cycle nano : Nat} (hdims : ∀ p, InBox dims p → (G p).dims = dims) (hE : E.isEdge = true)
    (ha : ∀ p, InBox dims p → assertCell cycle (G p) = true) (hn : ∀ p, InBox dims p → (TC.update n wraps stencil N (gridHood n wraps dims G E p) nano).valid = true)
    (h0 : here ∈ stencil) {k : Nat} (hk : k ≤ n) (hw : wraps k = false) (h1 : unit k 1 ∈ stencil) (h2 : unit k (-1) ∈ stencil) :
    ∀ (m : Nat) (p : Crd), InBox dims p → p k = m → (G p).pos k = m := by
  have chk : ∀ p, InBox dims p → ∀ d ∈ stencil, checkNeighbor n wraps (G p) (gridHood n wraps dims G E p d) d = true := fun p hp d hd => by
    have := ((update_iff n wraps stencil N hN _ _).1 (hn p hp)).2.2.1 d hd
    rwa [gridHood_here n wraps dims G E hp] at this
  have edge : ∀ p, InBox dims p → (G p).isEdge = false := fun p hp => by
    have := ha p hp
    simp only [assertCell, Bool.and_eq_true, Bool.not_eq_true'] at this
    exact this.1.2
  -- cells are within the grid
  have inb : ∀ p, InBox dims p → outOfBounds n wraps (G p).pos dims = false := fun p hp => by
    have := ((check_iff n wraps _ _ _).1 (chk p hp here h0)).2.1
    rw [gridHood_here n wraps dims G E hp, shift_here, edge p hp, hdims p hp] at this
    exact this.symm
  intro m
  induction m with
  | zero =>
    intro p hp hpk
    have hc := ((check_iff n wraps _ _ _).1 (chk p hp _ h2)).2.1
    have hout : outOfBounds n wraps (shift p (unit k (-1))) dims = true := (outOfBounds_iff n wraps).2 ⟨k, hk, hw, .inl (by simp [shift, unit, hpk])⟩
    unfold gridHood at hc
    rw [if_pos hout, hE, hdims p hp] at hc
    obtain ⟨j, j1, j2, j3⟩ := (outOfBounds_iff n wraps).1 hc.symm
    have hb := (inBounds_iff n wraps).1 (inb p hp)
    have hj := hb j j1 j2
    simp only [shift, unit] at j3
    by_cases hjk : j = k
    · subst hjk
      simp only [if_true] at j3
      simp only [Nat.cast_zero]
      omega
    · rw [if_neg hjk] at j3; omega
  | succ m ih =>
    intro p hp hpk
    have hq : InBox dims (shift p (unit k (-1))) := fun j => by
      have := hp j
      simp only [shift, unit]
      by_cases hj : j = k
      · subst hj; simp only [if_true]; omega
      · rw [if_neg hj]; omega
    have hqk : shift p (unit k (-1)) k = m := by simp [shift, unit, hpk]
    have hs : shift (shift p (unit k (-1))) (unit k 1) = p := by
      funext j; simp only [shift, unit]; split <;> omega
    have hi := ih _ hq hqk
    obtain ⟨_, c2, c3⟩ := (check_iff n wraps _ _ _).1 (chk _ hq _ h1)
    have hg : gridHood n wraps dims G E (shift p (unit k (-1))) (unit k 1) = G p := by
      unfold gridHood
      rw [hs, inBox_in n wraps dims hp, norm_inBox n wraps dims hp]; rfl
    rw [hg, edge p hp, hdims _ hq] at c2
    rw [hg, hdims _ hq] at c3
    have h3 := (c3 (edge p hp)).2.2 k hk
    have hb := (inBounds_iff n wraps).1 c2.symm k hk hw
    rw [h3]
    unfold topoNormalize
    rw [← c2]
    simp only [Bool.false_eq_true, if_false, normEdges, wrap1]
    simp only [shift, unit, if_true] at hb ⊢
    rw [if_neg (by omega), if_neg (by omega)]
    push_cast
    omega

/-- **negation**: positions aren't asserted; a grid which contains the same cell everywhere passes -/
theorem assert_ignores_position (t : Nat) (q : Crd) : ∀ _p : Crd, assertCell (start * N + t) (cellAt dims N start t q) = true := fun _ => by simp [assertCell, cellAt]

/-- **negation**: on tori the whole grid may be shifted; no update will ever reveal it -/
theorem torus_shift (hN : 0 < N) (hw : ∀ k, wraps k = true) (hst : ∀ d ∈ stencil, ∀ k, -1 ≤ d k ∧ d k ≤ 1) (t : Nat) (ht : start * N + t + 1 < 2 ^ 32) {p : Crd} (hp : InBox dims p) :
    TC.update n wraps stencil N (gridHood n wraps dims (fun q => cellAt dims N start t (normEdges (shift q fun _ => 1) dims)) (edgeCell n wraps dims) p) (t % N) =
      cellAt dims N start (t + 1) (normEdges (shift p fun _ => 1) dims) := by
  have hin : ∀ c, outOfBounds n wraps c dims = false := fun c => (inBounds_iff n wraps).2 fun k _ h => by rw [hw k] at h; cases h
  have hh := gridHood_here n wraps dims (fun q => cellAt dims N start t (normEdges (shift q fun _ => 1) dims)) (edgeCell n wraps dims) hp
  have hv : (TC.update n wraps stencil N (gridHood n wraps dims (fun q => cellAt dims N start t (normEdges (shift q fun _ => 1) dims)) (edgeCell n wraps dims) p) (t % N)).valid = true := by
    rw [update_iff n wraps stencil N hN, hh]
    refine ⟨rfl, rfl, fun d hd => ?_, ?_⟩
    · rw [check_iff]
      have hnorm : ∀ c, topoNormalize n wraps c dims = normEdges c dims := fun c => by unfold topoNormalize; rw [hin]; rfl
      simp only [cellAt, gridHood, hnorm, hin, Bool.false_eq_true, if_false, true_and]
      refine fun _ => ⟨fun _ _ => trivial, fun k _ => ?_⟩
      have h1 := hp k
      have h2 := hst d hd k
      simp only [normEdges, shift, wrap1]
      split_ifs <;> omega
    · simp only [cellAt]
      rw [Nat.add_comm (start * N), Nat.add_mul_mod_self_right]
  rw [update_fields n wraps stencil N hN hv, hh]
  simp only [cellAt]
  rw [Nat.mod_eq_of_lt ht]
  rfl

/-- **negation**: false alarm when the cycle counter overflows, as 2^32 is no multiple of the number of nano steps (27 or 3) -/
theorem counter_overflow (hN : 0 < N) (h : ¬N ∣ 2 ^ 32) {t : Nat} (ht : start * N + t = 2 ^ 32) (hood : Crd → Cell) (hc : (hood here).counter = (start * N + t) % 2 ^ 32) :
    (TC.update n wraps stencil N hood (t % N)).valid = false := by
  rw [← Bool.not_eq_true, update_iff n wraps stencil N hN]
  rintro ⟨_, _, _, h4⟩
  rw [hc, ht, Nat.mod_self, Nat.zero_mod] at h4
  apply h
  rw [← ht]
  exact (Nat.dvd_add_right (Nat.dvd_mul_left N start)).2 (Nat.dvd_of_mod_eq_zero h4)

/-! ## Examples -/

/-- 1D, three cells, constant boundaries -/
def e1 (p : Int) : Expr := .update (fun d => if p + d 0 < 0 ∨ 3 ≤ p + d 0 then .edge else .init (fun _ => p + d 0)) 0

def line : List Crd := [here, unit 0 1, unit 0 (-1)]

def d3 : Crd := fun _ => 3

example : (evalT 0 (fun _ => false) d3 line 27 0 (e1 0)).valid = true ∧ (evalT 0 (fun _ => false) d3 line 27 0 (e1 2)).counter = 1 := by decide

/-- a simulator which takes the wrong neighbor is detected -/
example : (evalT 0 (fun _ => false) d3 line 27 0 (.update (fun d => if d 0 = 1 then .init (fun _ => 0) else if d 0 = 0 then .init here else .edge) 0)).valid = false := by decide

/-- so is one which takes the new cell instead of the old one -/
example : (evalT 0 (fun _ => false) d3 line 27 0 (.update (fun d => if d 0 = 1 then e1 1 else if d 0 = 0 then .init here else .edge) 0)).valid = false := by decide

/-- a model: sums of the neighbors -/
def sums : User Int := ⟨fun c => c 0, 100, 0, fun h _ => h (unit 0 (-1)) + h here + h (unit 0 1)⟩

example : Proper 0 line sums := by
  refine ⟨fun h h' _ hh => ?_, fun a b hab => hab 0 (Nat.le_refl 0)⟩
  simp only [sums]
  rw [hh (unit 0 (-1)) (by simp [line]), hh here (by simp [line]), hh (unit 0 1) (by simp [line])]

example : ref 0 (fun _ => false) d3 27 sums 1 (fun _ => 2) = 103 ∧ evalU 0 (fun _ => false) d3 sums (e1 2) = 103 := by decide

example : Short line 27 0 (e1 2) := by
  refine ⟨by decide, ?_, fun d _ => ?_⟩
  · show Short line 27 0 (if _ then _ else _)
    split <;> simp [Short]
  · show Short line 27 0 (if _ then _ else _)
    split <;> simp [Short]

example : ¬27 ∣ 2 ^ 32 ∧ ¬3 ∣ 2 ^ 32 := by decide

end LGD.C78
