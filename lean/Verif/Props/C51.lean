import Verif.Props.C50Serial

/-!
# C51: bricks of values

Specification: the data file contains the selected member of all cells in row-major order (x fastest).
-/

namespace LGD.C51
open LGD.C13 LGD.C14 LGD.Store LGD.C33 LGD.IO
open LGD.Adapter (Event)
open LGD.C50 (Call origin_mem)

variable {B α : Type} {n : Nat} {wraps : Nat → Bool}

/-- what the code does in a call of `BOVWriter::stepFinished` -/
def ops (n : Nat) (wraps : Nat → Bool) (w : BOV B α) (dims : Crd) (c : Call α) : Option (List (WOp B)) := bovStepFinished n wraps w c.src c.region dims c.step c.event

/-- the call hands over cells of the simulation: `u t` are all cells at step `t` -/
structure Hands (n : Nat) (dims : Crd) (u : Nat → Crd → α) (c : Call α) : Prop where
  region : RegOK n c.region
  inside : ∀ x, RMem n c.region x → InDim n dims x
  cells : ∀ s : Streak, s.origin 0 < s.endX → (∀ x ∈ coordsOf s, RMem n c.region x) → c.src.get s = some ((coordsOf s).map (u c.step))

/-- **specification** of the data file: `width` bytes per cell -/
def IsBrick (n : Nat) (dims : Crd) (width : Nat) (member : α → List B) (u : Crd → α) (f : File B) : Prop :=
  ∀ c, InDim n dims c → BytesAt f ((lin dims n 0 c).toNat * width) (member (u c))

def ideal (n : Nat) (dims : Crd) (width : Nat) (member : α → List B) (u : Crd → α) : File B := fun i => (member (u (unlin dims n 0 ((i / width : Nat) : Int))))[i % width]?

theorem streak_agrees (hn : n ≤ 2) {dims : Crd} (hd : ∀ k, k ≤ n → 0 < dims k) {sel : Sel B α} (ha : sel.arity = 1) (hl : ∀ v, (sel.member v).length = sel.size)
    (pre : String) (period : Nat) (name : String) {u : Crd → α} (hu : ∀ a b, (∀ k, k ≤ n → a k = b k) → u a = u b) {src : Source α} {s : Streak} (hs : s.origin 0 < s.endX)
    (hin : ∀ x ∈ coordsOf s, InDim n dims x) (hget : src.get s = some ((coordsOf s).map u)) :
    ∃ op, bovStreakOp n wraps (bovSelector sel pre period) name dims src s = some op ∧ op.name = name ∧ Agrees (ideal n dims sel.size sel.member u) op ∧
      op.off = (lin dims n 0 s.origin).toNat * sel.size ∧ op.bytes.length = (coordsOf s).length * sel.size := by
  have ho := hin _ (origin_mem hs)
  obtain ⟨h1, _⟩ := (normalize_spec n wraps dims s.origin hd (onePeriod_of_inDim ho)).2 (not_outside_of_inDim ho)
  have h0 : 0 ≤ lin dims n 0 s.origin := lin_nonneg dims n 0 s.origin (fun j _ hj => (ho j (by omega)).1) (fun j _ hj => by have := hd j (by omega); omega)
  have e : toIndex n (topoNormalize n wraps s.origin dims) dims * (sel.size : Int) * (sel.arity : Int) = (((lin dims n 0 s.origin).toNat * sel.size : Nat) : Int) := by
    rw [toIndex_lin n hn, lin_congr dims n 0 _ s.origin fun j _ hj => by rw [h1 j (by omega), Int.emod_eq_of_lt (ho j (by omega)).1 (ho j (by omega)).2], ha]
    push_cast
    rw [Int.toNat_of_nonneg h0, Int.mul_one]
  have hlen := flatMap_length sel.member sel.size ((coordsOf s).map u) fun v _ => hl v
  rw [List.length_map] at hlen
  have etake : (((coordsOf s).map u).flatMap sel.member).take ((s.endX - s.origin 0).toNat * sel.size) = ((coordsOf s).map u).flatMap sel.member := by
    rw [List.take_of_length_le]
    rw [hlen, coordsOf_length]
  refine ⟨⟨name, (lin dims n 0 s.origin).toNat * sel.size, ((coordsOf s).map u).flatMap sel.member⟩, ?_, rfl, ?_, rfl, hlen⟩
  · show (if 0 ≤ toIndex n (topoNormalize n wraps s.origin dims) dims * (sel.size : Int) * (sel.arity : Int) then (src.get s).map fun vec =>
      (⟨name, (toIndex n (topoNormalize n wraps s.origin dims) dims * (sel.size : Int) * (sel.arity : Int)).toNat,
        (vec.flatMap sel.member).take ((s.endX - s.origin 0).toNat * sel.size)⟩ : WOp B) else none) = _
    rw [e, if_pos (by omega), hget, Option.map_some, etake, Int.toNat_natCast]
  · intro j hj
    simp only at hj ⊢
    have hpos : 0 < sel.size := by
      rcases Nat.eq_zero_or_pos sel.size with h | h
      · rw [hlen, h] at hj; omega
      · exact h
    have hi : j / sel.size < (coordsOf s).length := by rw [Nat.div_lt_iff_lt_mul hpos]; omega
    have hi' : j / sel.size < ((coordsOf s).map u).length := by rwa [List.length_map]
    have hr : j % sel.size < sel.size := Nat.mod_lt _ hpos
    unfold ideal
    rw [Nat.add_comm, Nat.add_mul_div_right _ _ hpos, Nat.add_mul_mod_self_right]
    have key := flatMap_get sel.member sel.size _ (fun v _ => hl v) (j / sel.size) hi' (j % sel.size) hr
    rw [Nat.div_add_mod' j sel.size] at key
    rw [← List.getElem?_eq_getElem hj, key, List.getElem_map]
    have hcell := hin _ (List.getElem_mem hi)
    rw [coordsOf_get] at hcell ⊢
    have e2 : ((j / sel.size + (lin dims n 0 s.origin).toNat : Nat) : Int) = lin dims n 0 (upd s.origin 0 (s.origin 0 + ((j / sel.size : Nat) : Int))) := by
      rw [lin_upd]; push_cast; rw [Int.toNat_of_nonneg h0]; ring
    rw [e2, hu _ (upd s.origin 0 (s.origin 0 + ((j / sel.size : Nat) : Int))) fun k hk =>
      unlin_lin dims n 0 _ (fun j _ hj => hcell j (by omega)) k (by omega) (by omega)]

theorem call_ops (hn : n ≤ 2) {dims : Crd} (hd : ∀ k, k ≤ n → 0 < dims k) {sel : Sel B α} (ha : sel.arity = 1) (hl : ∀ v, (sel.member v).length = sel.size)
    (pre : String) (period : Nat) {u : Nat → Crd → α} (hu : ∀ t a b, (∀ k, k ≤ n → a k = b k) → u t a = u t b) {c : Call α} (hv : Hands n dims u c) :
    ∃ l, ops n wraps (bovSelector sel pre period) dims c = some l ∧
      (¬ c.Due period → l = []) ∧
      (∀ op ∈ l, op.name = bovName pre c.step "data" ∧ Agrees (ideal n dims sel.size sel.member (u c.step)) op) ∧
      (c.Due period → ∀ x, RMem n c.region x → ∀ r, r < sel.size → ∃ op ∈ l, Covers (bovName pre c.step "data") ((lin dims n 0 x).toNat * sel.size + r) op) := by
  by_cases hdue : c.Due period
  · obtain ⟨ss, ess, _, hcan⟩ := toVector_spec hv.region
    have hmem : ∀ s ∈ ss, ∀ x ∈ coordsOf s, RMem n c.region x := by
      intro s hs x hx
      rw [mem_coordsOf s x (hcan.pos s hs)] at hx
      obtain ⟨y, h1, h2, rfl⟩ := hx
      exact (hcan.mem _).mpr ⟨s, hs, fun k hk _ => by simp [upd, show k ≠ 0 by omega], by simpa [upd] using h1, by simpa [upd] using h2⟩
    have hstreak : ∀ s ∈ ss, _ := fun s hs => streak_agrees (wraps := wraps) hn hd ha hl pre period (bovName pre c.step "data") (hu c.step) (hcan.pos s hs)
      (fun x hx => hv.inside x (hmem s hs x hx)) (hv.cells s (hcan.pos s hs) (hmem s hs))
    obtain ⟨l, el, hl'⟩ := mapM_some (bovStreakOp n wraps (bovSelector sel pre period) (bovName pre c.step "data") dims c.src) ss fun s hs => by
      obtain ⟨op, h, _⟩ := hstreak s hs; exact ⟨op, h⟩
    refine ⟨l, ?_, fun h => (h hdue).elim, ?_, ?_⟩
    · unfold ops bovStepFinished
      rw [if_neg (by rintro ⟨h1, h2⟩; exact h2 (hdue h1))]
      simp only [bovSelector, Option.bind_some]
      rw [ess, Option.bind_some]
      exact el
    · intro op hop
      obtain ⟨s, hs, e⟩ := (hl' op).mp hop
      obtain ⟨op', e', h1, h2, _⟩ := hstreak s hs
      rw [e'] at e
      cases e
      exact ⟨h1, h2⟩
    · intro _ x hx r hr
      obtain ⟨s, hs, h1, h2, h3⟩ := (hcan.mem x).mp hx
      obtain ⟨op, e, h4, _, h5, h6⟩ := hstreak s hs
      refine ⟨op, (hl' op).mpr ⟨s, hs, e⟩, h4, ?_, ?_⟩
      all_goals
        have ho := hv.inside _ (hmem s hs _ (origin_mem (hcan.pos s hs)))
        have h0 : 0 ≤ lin dims n 0 s.origin := lin_nonneg dims n 0 s.origin (fun j _ hj => (ho j (by omega)).1) (fun j _ hj => by have := hd j (by omega); omega)
        have e2 : lin dims n 0 x = lin dims n 0 s.origin + (x 0 - s.origin 0) := by
          rw [← lin_upd]
          refine lin_congr dims n 0 _ _ fun k _ hk => ?_
          unfold upd
          split
          · rename_i h; rw [h]
          · exact h1 k (by omega) (by omega)
        have e3 : (lin dims n 0 x).toNat = (lin dims n 0 s.origin).toNat + (x 0 - s.origin 0).toNat := by omega
        rw [h5, e3, Nat.add_mul]
      · omega
      · rw [h6, coordsOf_length]
        have : ((x 0 - s.origin 0).toNat + 1) * sel.size ≤ (s.endX - s.origin 0).toNat * sel.size := Nat.mul_le_mul_right _ (by omega)
        rw [Nat.add_mul] at this
        omega
  · refine ⟨[], ?_, fun _ => rfl, fun _ h => (List.not_mem_nil h).elim, fun h => (hdue h).elim⟩
    unfold ops bovStepFinished
    rw [if_pos]
    unfold Call.Due at hdue
    exact Classical.not_imp.mp hdue

/-- **C51, parallel bricks.** Whatever regions the processes hand over in whatever number of calls, in whatever order the individual writes of all processes reach
the file system, and whatever the files contained before: if the calls of step `t` are due and cover the simulation space, the data file for step `t` is the brick
of step `t`. (Only for scalar members and for writers created with a selector, see `arity_negation` and `member_negation`.) -/
theorem parallel_brick_partial (hn : n ≤ 2) (dims : Crd) (hd : ∀ k, k ≤ n → 0 < dims k) (sel : Sel B α) (ha : sel.arity = 1) (hl : ∀ v, (sel.member v).length = sel.size)
    (pre : String) (period : Nat) (u : Nat → Crd → α) (hu : ∀ t a b, (∀ k, k ≤ n → a k = b k) → u t a = u t b) (calls : List (Call α)) (hv : ∀ c ∈ calls, Hands n dims u c) :
    ∃ opss, calls.mapM (ops n wraps (bovSelector sel pre period) dims) = some opss ∧ ∀ (fs : Files B) (os : List (WOp B)), os.Perm opss.flatten →
      (∀ t, (∀ x, InDim n dims x → ∃ c ∈ calls, c.step = t ∧ c.Due period ∧ RMem n c.region x) →
        IsBrick n dims sel.size sel.member (u t) (applyOps fs os (bovName pre t "data"))) ∧
      ∀ name, (∀ c ∈ calls, c.Due period → name ≠ bovName pre c.step "data") → applyOps fs os name = fs name := by
  obtain ⟨opss, e, hmem⟩ := mapM_some (ops n wraps (bovSelector sel pre period) dims) calls fun c h => by
    obtain ⟨l, h, _⟩ := call_ops (wraps := wraps) hn hd ha hl pre period hu (hv c h); exact ⟨l, h⟩
  refine ⟨opss, e, fun fs os hperm => ⟨fun t hcov => ?_, fun name hname => ?_⟩⟩
  · have hag : ∀ op ∈ os, op.name = bovName pre t "data" → Agrees (ideal n dims sel.size sel.member (u t)) op := by
      intro op hop hname
      obtain ⟨l, hl', hol⟩ := List.mem_flatten.mp (hperm.mem_iff.mp hop)
      obtain ⟨c, hcc, ec⟩ := (hmem l).mp hl'
      obtain ⟨l', e', _, h2, _⟩ := call_ops (wraps := wraps) hn hd ha hl pre period hu (hv c hcc)
      rw [e'] at ec
      cases ec
      obtain ⟨h3, h4⟩ := h2 op hol
      obtain rfl := bovName_inj pre _ _ _ (h3.symm.trans hname)
      exact h4
    intro x hx r hr
    have hsz := hl (u t x)
    obtain ⟨c, hcc, et, hdc, hrx⟩ := hcov x hx
    obtain ⟨l, el, _, _, h4⟩ := call_ops (wraps := wraps) hn hd ha hl pre period hu (hv c hcc)
    obtain ⟨op, hop, hcv⟩ := h4 hdc x hrx r (by omega)
    rw [et] at hcv
    rw [applyOps_covered os _ _ _ hag fs ⟨op, hperm.mem_iff.mpr (List.mem_flatten.mpr ⟨l, (hmem l).mpr ⟨c, hcc, el⟩, hop⟩), hcv⟩]
    have hpos : 0 < sel.size := by omega
    have h0 : 0 ≤ lin dims n 0 x := lin_nonneg dims n 0 x (fun j _ hj => (hx j (by omega)).1) (fun j _ hj => by have := hd j (by omega); omega)
    unfold ideal
    rw [Nat.add_comm, Nat.add_mul_div_right _ _ hpos, Nat.add_mul_mod_self_right, Nat.div_eq_of_lt (by omega), Nat.mod_eq_of_lt (by omega), Nat.zero_add, Int.toNat_of_nonneg h0,
      hu _ _ x fun k hk => unlin_lin dims n 0 x (fun j _ hj => hx j (by omega)) k (by omega) (by omega), List.getElem?_eq_getElem hr]
  · funext i
    apply applyOps_other
    rintro op hop ⟨h1, _⟩
    obtain ⟨l, hl', hol⟩ := List.mem_flatten.mp (hperm.mem_iff.mp hop)
    obtain ⟨c, hcc, ec⟩ := (hmem l).mp hl'
    obtain ⟨l', e', h1', h2, _⟩ := call_ops (wraps := wraps) hn hd ha hl pre period hu (hv c hcc)
    rw [e'] at ec
    cases ec
    by_cases hdue : c.Due period
    · exact hname c hcc hdue (h1.symm.trans (h2 op hol).1)
    · rw [h1' hdue] at hol; cases hol

/-! ## what the grids deliver -/

/-- within the grid, bulk access to a member is the same as access to the cells -/
theorem memberStreak_eq {g : Grid α} {s : Streak} (h : streakInBounds n g.dim s = true) (hn : n ≤ 2) : gridMemberStreak n wraps g s = gridGetStreak n wraps g s := by
  unfold gridMemberStreak gridGetStreak
  rw [if_pos h, locate_inDim hn ((inBounds_iff s).mp h).1]

theorem gridMembers_get (hn : n ≤ 2) {g : Grid α} (hg : GridOK n g) {u : Crd → α} {s : Streak} (hs : s.origin 0 < s.endX) (hin : ∀ x ∈ coordsOf s, InDim n g.dim x)
    (h : ∀ x ∈ coordsOf s, gridRead n wraps g x = some (u x)) : (gridMembers n wraps g).get s = some ((coordsOf s).map u) := by
  have hb : streakInBounds n g.dim s = true := by
    rw [inBounds_iff]
    refine ⟨hin _ (origin_mem hs), ?_⟩
    have := (hin _ ((mem_coordsOf s _ hs).mpr ⟨s.endX - 1, by omega, by omega, rfl⟩) 0 (by omega)).2
    simp only [upd, if_true] at this
    omega
  show gridMemberStreak n wraps g s = _
  rw [memberStreak_eq hb hn]
  exact C50.gridSource_get hn hg hs hin h

/-- A displaced grid delivers the members of cells which it stores, also across the border of the simulation space, unless the streak wraps around within the grid
itself. -/
theorem dispMembers_get (hn : n ≤ 2) {d : DGrid α} (hd : DGridOK n wraps d) {u : Crd → α} {s : Streak} (hs : s.origin 0 < s.endX)
    (hin : ∀ x ∈ coordsOf s, Held n wraps d x ∧ ¬ DOutside n wraps d x)
    (hwr : (s.origin 0 - d.origin 0) % d.topo 0 + (s.endX - s.origin 0) ≤ d.topo 0)
    (h : ∀ x ∈ coordsOf s, dRead n wraps true d x = some (u x)) : (dispMembers n wraps d).get s = some ((coordsOf s).map u) := by
  have hrel : ∀ x ∈ coordsOf s, InDim n d.delegate.dim (dRel n wraps true d x) ∧ ∀ k, k ≤ n → dRel n wraps true d x k = (x k - d.origin k) % d.topo k :=
    fun x hx => dRel_inside hd (hin x hx).2 (hin x hx).1
  have ho := hrel _ (origin_mem hs)
  have htopo : ∀ k, k ≤ n → 0 < d.topo k := fun k hk => by have := hd.delegate.pos k hk; have := hd.fits k hk; omega
  have hnorm : ∀ k, k ≤ n → (normStreak n wraps true d.topo (relStreak d s)).origin k = dRel n wraps true d s.origin k := by
    intro k hk
    unfold normStreak
    rw [if_pos rfl]
    show topoNormalize n wraps (relStreak d s).origin d.topo k = _
    unfold dRel
    rw [if_pos rfl]
    rfl
  have hend : (normStreak n wraps true d.topo (relStreak d s)).endX = (s.origin 0 - d.origin 0) % d.topo 0 + (s.endX - s.origin 0) := by
    have h1 := hnorm 0 (by omega)
    rw [ho.2 0 (by omega)] at h1
    rw [← h1]
    unfold normStreak
    rw [if_pos rfl]
    simp only [relStreak]
    ring
  generalize hs' : normStreak n wraps true d.topo (relStreak d s) = s' at hnorm hend
  have e0 : s'.origin 0 = (s.origin 0 - d.origin 0) % d.topo 0 := by rw [hnorm 0 (by omega), ho.2 0 (by omega)]
  -- the cells of the normalized streak
  have hcell : ∀ i : Nat, (i : Int) < s.endX - s.origin 0 → ∀ k, k ≤ n → upd s'.origin 0 (s'.origin 0 + i) k = dRel n wraps true d (upd s.origin 0 (s.origin 0 + i)) k := by
    intro i hi k hk
    have hx : upd s.origin 0 (s.origin 0 + i) ∈ coordsOf s := (mem_coordsOf s _ hs).mpr ⟨_, by omega, by omega, rfl⟩
    rw [(hrel _ hx).2 k hk]
    by_cases hk0 : k = 0
    · subst hk0
      simp only [upd, if_true]
      rw [e0, show s.origin 0 + (i : Int) - d.origin 0 = (s.origin 0 - d.origin 0) + i by ring, ← Int.emod_add_emod]
      exact (Int.emod_eq_of_lt (by have := Int.emod_nonneg (s.origin 0 - d.origin 0) (by have := htopo 0 (by omega); omega : d.topo 0 ≠ 0); omega) (by omega)).symm
    · simp only [upd, if_neg hk0]
      rw [hnorm k hk, ho.2 k hk]
  have hlen : (coordsOf s').length = (coordsOf s).length := by rw [coordsOf_length, coordsOf_length, hend, e0]; congr 1; ring
  have hs1 : s'.origin 0 < s'.endX := by rw [e0, hend]; omega
  have hlast : s'.endX ≤ d.delegate.dim 0 := by
    have hx : upd s.origin 0 (s.origin 0 + ((s.endX - s.origin 0 - 1).toNat : Int)) ∈ coordsOf s := (mem_coordsOf s _ hs).mpr ⟨_, by omega, by omega, rfl⟩
    have h1 := hcell (s.endX - s.origin 0 - 1).toNat (by omega) 0 (by omega)
    have h2 := ((hrel _ hx).1 0 (by omega)).2
    rw [← h1] at h2
    simp only [upd, if_true] at h2
    omega
  have hb : streakInBounds n d.delegate.dim s' = true := by
    rw [inBounds_iff]
    exact ⟨fun k hk => by rw [hnorm k hk]; exact ho.1 k hk, hlast⟩
  show gridMemberStreak n wraps d.delegate (normStreak n wraps true d.topo (relStreak d s)) = _
  rw [hs', memberStreak_eq hb hn]
  have hin' : ∀ x ∈ coordsOf s', InDim n d.delegate.dim x := by
    intro x hx
    rw [mem_coordsOf s' x hs1] at hx
    obtain ⟨y, h1, h2, rfl⟩ := hx
    have hb' := (inBounds_iff s').mp hb
    intro k hk
    by_cases hk0 : k = 0
    · subst hk0
      have := hb'.1 0 hk
      simp only [upd, if_true]; omega
    · simp only [upd, if_neg hk0]; exact hb'.1 k hk
  obtain ⟨l, e, h1⟩ := streak_reads (wraps := wraps) hn d.delegate hd.delegate s' (le_of_lt hs1) fun c hc => onePeriod_of_inDim (hin' c hc)
  rw [e]
  congr 1
  apply C50.map_some_inj
  rw [h1, List.map_map]
  apply List.ext_getElem (by simp only [List.length_map]; exact hlen)
  intro i i1 i2
  rw [List.length_map] at i1 i2
  rw [List.getElem_map, List.getElem_map, coordsOf_get, coordsOf_get]
  have hx : upd s.origin 0 (s.origin 0 + (i : Int)) ∈ coordsOf s := by rw [← coordsOf_get s i i2]; exact List.getElem_mem _
  rw [Function.comp, ← h _ hx]
  rw [coordsOf_length] at i2
  exact read_congr hn _ (hcell i (by omega))

/-! ## the serial writer -/

theorem row_lin (hn : n ≤ 2) (dims : Crd) (i : Nat) (hi : (i : Int) < C12.Volume n (C12.rows n ⟨fun _ => 0, dims⟩)) :
    lin dims n 0 (boxAt n (fun _ => 0) (C12.rows n ⟨fun _ => 0, dims⟩) i) = dims 0 * i := by
  have : n = 0 ∨ n = 1 ∨ n = 2 := by omega
  rcases this with rfl | rfl | rfl
  · simp only [C12.Volume, C12.rows_1d] at hi
    have : (i : Int) = 0 := by split at hi <;> omega
    simp [lin, boxAt, unlin, this]
  · simp [lin, boxAt, unlin, C12.rows, upd]
  · simp only [lin, boxAt, unlin]
    rw [C12.rows_zero _ (by omega), C12.rows_pos _ (by omega) (by omega : (1 : Nat) ≠ 0)]
    simp only [Nat.zero_add, Int.zero_add, Int.emod_one, Int.ediv_one, if_true, show (1 : Nat) ≠ 0 by omega, if_false, show (1 : Nat) + 1 ≠ 0 by omega, show (1 : Nat) + 1 ≠ 1 by omega]
    rw [Int.emod_add_mul_ediv]

theorem take_drop_flatten (l : List α) (w : Nat) : ∀ m, m * w ≤ l.length → ((List.range m).map fun i => (l.drop (w * i)).take w).flatten = l.take (m * w) := by
  intro m
  induction m with
  | zero => intro _; simp
  | succ m ih =>
    intro h
    rw [Nat.add_mul] at h
    rw [List.range_succ, List.map_append, List.flatten_append, ih (by omega), Nat.add_mul, List.take_add]
    simp [Nat.mul_comm]

theorem volume_rows (dims : Crd) (hd : ∀ k, k ≤ n → 0 < dims k) (hn : n ≤ 2) : C12.Volume n (C12.rows n ⟨fun _ => 0, dims⟩) * dims 0 = C12.Volume n dims := by
  have : n = 0 ∨ n = 1 ∨ n = 2 := by omega
  rcases this with rfl | rfl | rfl
  · simp only [C12.Volume, C12.rows_1d]; rw [if_pos (hd 0 (by omega))]; ring
  · simp [C12.Volume, C12.rows, upd]; ring
  · simp [C12.Volume, C12.rows, upd]; ring

theorem mapM_map {γ δ : Type} (f : γ → Option δ) (h : γ → δ) (l : List γ) (e : ∀ a ∈ l, f a = some (h a)) : l.mapM f = some (l.map h) := by
  induction l with
  | nil => rfl
  | cons a l ih =>
    rw [List.mapM_cons, e a (List.mem_cons_self ..), ih fun a ha => e a (List.mem_cons_of_mem _ ha)]
    rfl

/-- the data file of the serial writer contains the members of the cell vector, for members of any arity -/
theorem writeGrid_spec (hn : n ≤ 2) (sel : Sel B α) (g : Grid α) (hg : GridOK n g) (fuel : Nat) (hf : (C12.Volume n (C12.rows n ⟨fun _ => 0, g.dim⟩)).toNat < fuel) :
    bovWriteGrid n wraps sel g fuel = some (g.cells.flatMap sel.member) := by
  have hd := hg.pos
  have hd0 := hd 0 (by omega)
  have hvol := volume_rows g.dim hd hn
  have hsz := hg.size
  have hpos : 0 ≤ C12.Volume n (C12.rows n ⟨fun _ => 0, g.dim⟩) := by
    by_contra hneg
    have : C12.Volume n (C12.rows n ⟨fun _ => 0, g.dim⟩) * g.dim 0 < 0 := Int.mul_neg_of_neg_of_pos (by omega) hd0
    omega
  unfold bovWriteGrid
  rw [C12.streaks_list n ⟨fun _ => 0, g.dim⟩ (fun k _ hk => hd k (by omega)) (fun _ => le_of_lt (hd n (le_refl _))) fuel hf, Option.bind_some]
  have hrow : ∀ i : Nat, i < (C12.Volume n (C12.rows n ⟨fun _ => 0, g.dim⟩)).toNat →
      gridMemberStreak n wraps g { origin := boxAt n (fun _ => 0) (C12.rows n ⟨fun _ => 0, g.dim⟩) i, endX := 0 + g.dim 0 } =
        some ((g.cells.drop ((g.dim 0).toNat * i)).take (g.dim 0).toNat) := by
    intro i hi
    obtain ⟨ss, es, hm, hx, _⟩ := C12.streaks_partial n ⟨fun _ => 0, g.dim⟩ (le_of_lt hd0) (fun k _ hk => hd k (by omega)) (le_of_lt (hd n (le_refl _))) fuel hf
    have hs := C12.streaks_list n ⟨fun _ => 0, g.dim⟩ (fun k _ hk => hd k (by omega)) (fun _ => le_of_lt (hd n (le_refl _))) fuel hf
    rw [es] at hs
    have hss := Option.some.inj hs
    have hmem : ({ origin := boxAt n (fun _ => 0) (C12.rows n ⟨fun _ => 0, g.dim⟩) i, endX := 0 + g.dim 0 } : Streak) ∈ ss := by
      rw [hss]
      exact List.mem_map.mpr ⟨i, List.mem_range.mpr hi, rfl⟩
    have h0 := (hx _ hmem).1
    simp only at h0
    have hin : InDim n g.dim (boxAt n (fun _ => 0) (C12.rows n ⟨fun _ => 0, g.dim⟩) i) := by
      have h := (hm (boxAt n (fun _ => 0) (C12.rows n ⟨fun _ => 0, g.dim⟩) i)).mp ⟨_, hmem, by simp only; omega, by simp only [h0]; omega, fun _ _ _ => rfl⟩
      intro k hk
      have := h k hk
      simp only at this
      omega
    have hlin := row_lin hn g.dim i (by omega)
    have hle : (g.dim 0) * ((i : Int) + 1) ≤ g.cells.length := by
      rw [hsz, ← hvol, Int.mul_comm]
      exact Int.mul_le_mul_of_nonneg_right (by omega) (le_of_lt hd0)
    rw [Int.mul_add, Int.mul_one] at hle
    have hnn : 0 ≤ g.dim 0 * (i : Int) := Int.mul_nonneg (by omega) (by omega)
    have key : ∀ s : Streak, s.origin 0 = 0 → s.endX = 0 + g.dim 0 → InDim n g.dim s.origin → lin g.dim n 0 s.origin = g.dim 0 * i →
        gridMemberStreak n wraps g s = some ((g.cells.drop ((g.dim 0).toNat * i)).take (g.dim 0).toNat) := by
      intro s k1 k2 k3 k4
      unfold gridMemberStreak
      rw [locate_inDim hn k3, k4, k1, k2]
      simp only
      rw [if_pos ⟨hnn, by omega, by omega⟩]
      congr 2
      · omega
      · congr 1
        rw [Int.toNat_mul (by omega) (by omega), Int.toNat_natCast]
    exact key _ h0 rfl hin hlin
  rw [mapM_map _ (fun s => ((gridMemberStreak n wraps g s).map fun vec => vec.flatMap sel.member).getD []) _ (by
    intro s hs
    obtain ⟨i, hi, rfl⟩ := List.mem_map.mp hs
    rw [hrow i (List.mem_range.mp hi)]
    rfl)]
  rw [Option.map_some, List.map_map]
  congr 1
  have e1 : (List.range (C12.Volume n (C12.rows n ⟨fun _ => 0, g.dim⟩)).toNat).map
      ((fun s => ((gridMemberStreak n wraps g s).map fun vec => vec.flatMap sel.member).getD []) ∘ fun i : Nat =>
        ({ origin := boxAt n (fun _ => 0) (C12.rows n ⟨fun _ => 0, g.dim⟩) i, endX := 0 + g.dim 0 } : Streak)) =
      ((List.range (C12.Volume n (C12.rows n ⟨fun _ => 0, g.dim⟩)).toNat).map fun i => (g.cells.drop ((g.dim 0).toNat * i)).take (g.dim 0).toNat).map fun vec => vec.flatMap sel.member := by
    rw [List.map_map]
    refine List.map_congr_left fun i hi => ?_
    simp only [Function.comp]
    rw [hrow i (List.mem_range.mp hi)]
    rfl
  rw [e1]
  have e2 : ∀ L : List (List α), (L.map fun vec => vec.flatMap sel.member).flatten = L.flatten.flatMap sel.member := by
    intro L
    induction L with
    | nil => rfl
    | cons a L ih => rw [List.map_cons, List.flatten_cons, ih, List.flatten_cons, List.flatMap_append]
  have hlen : (C12.Volume n (C12.rows n ⟨fun _ => 0, g.dim⟩)).toNat * (g.dim 0).toNat = g.cells.length := by
    rw [← Int.toNat_mul hpos (by omega), hvol, ← hsz, Int.toNat_natCast]
  rw [e2, take_drop_flatten _ _ _ (by omega), hlen, List.take_length]

/-- **C51, serial bricks.** The data file written by `SerialBOVWriter` is the brick of the grid, for scalar members and arrays. -/
theorem serial_brick (hn : n ≤ 2) (sel : Sel B α) (hl : ∀ v, (sel.member v).length = sel.size * sel.arity) (pre : String) (period : Nat) (g : Grid α) (hg : GridOK n g)
    (step : Nat) (event : Event) (hdue : event = .regular → step % period = 0) (fuel : Nat) (hf : (C12.Volume n (C12.rows n ⟨fun _ => 0, g.dim⟩)).toNat < fuel)
    (u : Crd → α) (hu : ∀ c, InDim n g.dim c → gridRead n wraps g c = some (u c)) :
    ∃ bytes, bovSerialStepFinished n wraps sel pre period g step event fuel = some (some (bovName pre step "data", bytes)) ∧
      (bytes.length : Int) = C12.Volume n g.dim * (sel.size * sel.arity) ∧ IsBrick n g.dim (sel.size * sel.arity) sel.member u fun i => bytes[i]? := by
  refine ⟨g.cells.flatMap sel.member, ?_, ?_, ?_⟩
  · unfold bovSerialStepFinished
    rw [if_neg (by rintro ⟨h1, h2⟩; exact h2 (hdue h1)), writeGrid_spec hn sel g hg fuel hf, Option.map_some]
  · rw [flatMap_length sel.member (sel.size * sel.arity) _ fun v _ => hl v, ← hg.size]
    push_cast
    ring
  · intro c hc j hj
    have h1 := locate_inDim (wraps := wraps) hn hc
    obtain ⟨h2, h3⟩ := locate_range hn hg (onePeriod_of_inDim hc) _ h1
    have h4 := hu c hc
    unfold gridRead at h4
    rw [h1] at h4
    simp only at h4
    rw [if_pos h2] at h4
    have hlt : (lin g.dim n 0 c).toNat < g.cells.length := by omega
    rw [List.getElem?_eq_getElem hlt] at h4
    have e := Option.some.inj h4
    show (g.cells.flatMap sel.member)[(lin g.dim n 0 c).toNat * (sel.size * sel.arity) + j]? = _
    rw [flatMap_get sel.member _ _ (fun v _ => hl v) _ hlt j (by rw [← hl (u c)]; exact hj), e, List.getElem?_eq_getElem hj]

/-- a brick has only one representation -/
theorem brick_unique {dims : Crd} (hd : ∀ k, k ≤ n → 0 < dims k) {width : Nat} {member : α → List B} (hl : ∀ v, (member v).length = width) {u : Crd → α} {f f' : File B}
    (h : IsBrick n dims width member u f) (h' : IsBrick n dims width member u f') (i : Nat) (hi : (i : Int) < C12.Volume n dims * width) : f i = f' i := by
  have hw : 0 < width := by
    rcases Nat.eq_zero_or_pos width with hz | hz
    · rw [hz, Nat.cast_zero, Int.mul_zero] at hi; omega
    · exact hz
  have hq : ((i / width : Nat) : Int) < vol dims n 0 := by
    rw [vol_prod, ← C12.volume_eq]
    by_contra hcon
    have h1 : C12.Volume n dims * width ≤ ((i / width : Nat) : Int) * width := Int.mul_le_mul_of_nonneg_right (by omega) (by omega)
    have h2 : (i / width) * width ≤ i := Nat.div_mul_le_self i width
    have h3 : (((i / width) * width : Nat) : Int) ≤ i := by exact_mod_cast h2
    push_cast at h1 h3
    omega
  have hin : InDim n dims (unlin dims n 0 ((i / width : Nat) : Int)) := fun k hk =>
    unlin_range dims n 0 _ (fun j _ hj => hd j (by omega)) (Int.natCast_nonneg _) hq k (by omega) (by omega)
  have e : (lin dims n 0 (unlin dims n 0 ((i / width : Nat) : Int))).toNat * width + i % width = i := by
    rw [lin_unlin, Int.toNat_natCast]
    exact Nat.div_add_mod' i width
  have hj : i % width < (member (u (unlin dims n 0 ((i / width : Nat) : Int)))).length := by rw [hl]; exact Nat.mod_lt _ hw
  rw [← e, h _ hin _ hj, h' _ hin _ hj]

/-- **C51, agreement.** Parallel and serial writers produce the same data file. -/
theorem parallel_eq_serial_partial (hn : n ≤ 2) (sel : Sel B α) (ha : sel.arity = 1) (hl : ∀ v, (sel.member v).length = sel.size) (pre : String) (period : Nat)
    (u : Nat → Crd → α) (hu : ∀ t a b, (∀ k, k ≤ n → a k = b k) → u t a = u t b) (g : Grid α) (hg : GridOK n g) (calls : List (Call α)) (hv : ∀ c ∈ calls, Hands n g.dim u c)
    (t : Nat) (hgu : ∀ c, InDim n g.dim c → gridRead n wraps g c = some (u t c)) (event : Event) (hdue : event = .regular → t % period = 0)
    (hcov : ∀ x, InDim n g.dim x → ∃ c ∈ calls, c.step = t ∧ c.Due period ∧ RMem n c.region x) (fuel : Nat)
    (hf : (C12.Volume n (C12.rows n ⟨fun _ => 0, g.dim⟩)).toNat < fuel) :
    ∃ opss bytes, calls.mapM (ops n wraps (bovSelector sel pre period) g.dim) = some opss ∧
      bovSerialStepFinished n wraps sel pre period g t event fuel = some (some (bovName pre t "data", bytes)) ∧
      ∀ (fs : Files B) (os : List (WOp B)), os.Perm opss.flatten → ∀ i (h : i < bytes.length), applyOps fs os (bovName pre t "data") i = some bytes[i] := by
  obtain ⟨opss, e1, h1⟩ := parallel_brick_partial (wraps := wraps) hn g.dim hg.pos sel ha hl pre period u hu calls hv
  obtain ⟨bytes, e2, h2, h3⟩ := serial_brick (wraps := wraps) hn sel (fun v => by rw [hl, ha, Nat.mul_one]) pre period g hg t event hdue fuel hf (u t) hgu
  rw [ha, Nat.mul_one] at h3
  rw [ha, Nat.cast_one, Int.mul_one] at h2
  refine ⟨opss, bytes, e1, e2, fun fs os hp i hi => ?_⟩
  rw [brick_unique hg.pos hl ((h1 fs os hp).1 t hcov) h3 i (by omega), List.getElem?_eq_getElem hi]

/-! ## examples -/

/-- an integer cell, one byte -/
def idSel : Sel Int Int := ⟨1, 1, fun v => [v]⟩

/-- process 0 hands over half of a grid, process 1 a displaced grid -/
def twoCalls : List (Call Int) :=
  [⟨1, dispMembers 0 (fun _ => false) C50.lastTwo, C50.idx24, 6, .regular⟩, ⟨0, gridMembers 0 (fun _ => false) C50.four, C50.idx02, 6, .regular⟩]

theorem twoCalls_hand : ∀ c ∈ twoCalls, Hands 0 C50.four.dim (fun _ c => 10 + c 0) c := by
  intro c hc
  simp only [twoCalls, List.mem_cons, List.not_mem_nil, or_false] at hc
  rcases hc with rfl | rfl
  · refine ⟨C50.idx24_ok.1, fun x hx k hk => ?_, fun s hs hx => ?_⟩
    · obtain rfl : k = 0 := by omega
      have := (C50.mem24 x).mp hx
      show 0 ≤ x 0 ∧ x 0 < 4
      omega
    · have ho := (C50.mem24 _).mp (hx _ (origin_mem hs))
      have he := (C50.mem24 _).mp (hx _ ((mem_coordsOf s _ hs).mpr ⟨s.endX - 1, by omega, by omega, rfl⟩))
      simp only [upd, if_true] at he
      refine dispMembers_get (by omega) C50.lastTwo_ok hs (fun x hxs => ⟨fun k _ h => by simp at h, ?_⟩) ?_ fun x hxs => C50.lastTwo_read x ((C50.mem24 x).mp (hx x hxs))
      · rintro ⟨k, hk, _, h⟩
        obtain rfl : k = 0 := by omega
        have := (C50.mem24 x).mp (hx x hxs)
        simp only [C50.lastTwo] at h
        omega
      · simp only [C50.lastTwo]
        omega
  · have hin : ∀ x, RMem 0 C50.idx02 x → InDim 0 (fun _ => 4) x := by
      intro x hx k hk
      obtain rfl : k = 0 := by omega
      have := (C50.mem02 x).mp hx
      show 0 ≤ x 0 ∧ x 0 < 4
      omega
    exact ⟨C50.idx02_ok.1, hin, fun s hs hx => gridMembers_get (by omega) C50.four_ok hs (fun x hxs => hin x (hx x hxs)) fun x hxs => C50.four_read x (hin x (hx x hxs))⟩

/-- non-vacuity: two processes write step 6 with period 3 -/
example : ∃ opss, twoCalls.mapM (ops 0 (fun _ => false) (bovSelector idSel "brick" 3) C50.four.dim) = some opss ∧
    ∀ (fs : Files Int) (os : List (WOp Int)), os.Perm opss.flatten → (List.range 4).map (applyOps fs os (bovName "brick" 6 "data")) = [some 10, some 11, some 12, some 13] := by
  obtain ⟨opss, bytes, e1, e2, h⟩ := parallel_eq_serial_partial (wraps := fun _ => false) (n := 0) (by omega) idSel rfl (fun _ => rfl) "brick" 3 (fun _ c => 10 + c 0)
    (fun _ a b h => by simp only [h 0 (le_refl _)]) C50.four C50.four_ok twoCalls twoCalls_hand 6 C50.four_read .regular (fun _ => rfl) (fun x hx => by
      obtain ⟨h1, h2⟩ := hx 0 (by omega)
      by_cases hlt : x 0 < 2
      · exact ⟨_, List.mem_cons_of_mem _ (List.mem_cons_self ..), rfl, fun _ => rfl, (C50.mem02 x).mpr ⟨h1, hlt⟩⟩
      · exact ⟨_, List.mem_cons_self .., rfl, fun _ => rfl, (C50.mem24 x).mpr ⟨by omega, h2⟩⟩) 9 (by decide)
  refine ⟨opss, e1, fun fs os hp => ?_⟩
  have e3 : bovSerialStepFinished 0 (fun _ => false) idSel "brick" 3 C50.four 6 .regular 9 = some (some (bovName "brick" 6 "data", [10, 11, 12, 13])) := rfl
  rw [e3] at e2
  simp only [Option.some.injEq, Prod.mk.injEq, true_and] at e2
  subst e2
  have h' := h fs os hp
  simp only [List.range, List.range.loop, List.map_cons, List.map_nil]
  rw [h' 0 (by decide), h' 1 (by decide), h' 2 (by decide), h' 3 (by decide)]
  rfl

/-- the members of a displaced grid can be accessed across the border (other than its cells, see `C33.displaced_streak_partial_negation`) -/
example : (dispMembers 0 (fun _ => true) ring).get ⟨fun _ => 0, 2⟩ = some [10, 11] := rfl

/-- non-vacuity: members of arity 2 -/
example : ∃ bytes, bovSerialStepFinished 0 (fun _ => true) (⟨1, 2, fun v => [v.1, v.2]⟩ : Sel Int (Int × Int)) "brick" 3 ⟨fun _ => 2, [(1, 2), (3, 4)], (0, 0)⟩ 5 .allDone 9 =
    some (some (bovName "brick" 5 "data", bytes)) ∧ bytes = [1, 2, 3, 4] := ⟨_, rfl, rfl⟩

/-! ## the code deviates -/

/-- two cells with a member of two components -/
def pairs : Grid (Int × Int) := ⟨fun _ => 2, [(1, 2), (3, 4)], (0, 0)⟩

/-- **C51, deviation.** For members with more than one component, `BOVWriter` writes only as many components per streak as it has cells. -/
theorem arity_negation :
    ∃ (sel : Sel Int (Int × Int)) (c : Call (Int × Int)), (∀ v, (sel.member v).length = sel.size * sel.arity) ∧ GridOK 0 pairs ∧ RegOK 0 c.region ∧
      (∀ x, RMem 0 c.region x ↔ InDim 0 pairs.dim x) ∧ c.src = gridMembers 0 (fun _ => true) pairs ∧ c.Due 1 ∧
      ∃ os, ops 0 (fun _ => true) (bovSelector sel "brick" 1) pairs.dim c = some os ∧
        (List.range 4).map (applyOps (fun _ _ => none) os (bovName "brick" 0 "data")) = [some 1, some 2, none, none] := by
  refine ⟨⟨1, 2, fun v => [v.1, v.2]⟩, ⟨0, gridMembers 0 (fun _ => true) pairs, C50.idx02, 0, .initialized⟩, fun _ => rfl, ⟨fun _ _ => by simp [pairs], by decide⟩, C50.idx02_ok.1,
    fun x => ?_, rfl, (fun h => by cases h), [⟨bovName "brick" 0 "data", 0, [1, 2]⟩], rfl, ?_⟩
  · rw [C50.mem02]
    constructor
    · intro h k hk
      obtain rfl : k = 0 := by omega
      exact h
    · intro h
      exact h 0 (by omega)
  · rw [C50.applyOps_patch _ _ (by simp)]
    rfl

/-- **C51, deviation.** The constructor which takes a pointer to the member does not store the communicator: each step which is due uses an indeterminate value. -/
theorem member_negation (sel : Sel B α) (pre : String) (period : Nat) (dims : Crd) (c : Call α) (hdue : c.Due period) :
    ops n wraps (bovMember sel pre period) dims c = none := by
  unfold ops bovStepFinished
  rw [if_neg (by rintro ⟨h1, h2⟩; exact h2 (hdue h1))]
  rfl

end LGD.C51
