import Verif.IO.FileLemmas

/-!
# C50: checkpoints

Specification: a snapshot file contains the dimensions of the simulation space, the step, the maximum number of steps, the edge cell, and then all cells in
row-major order (x fastest).
-/

namespace LGD.C50
open LGD.C13 LGD.C14 LGD.Store LGD.C33 LGD.IO LGD.Adapter

variable {B α : Type} {n : Nat} {wraps : Nat → Bool}

/-- one call of `ParallelMPIIOWriter::stepFinished` -/
structure Call (α : Type) where
  rank : Nat
  src : Source α
  region : Idx
  step : Nat
  event : Event

/-- what the code does -/
def Call.ops (n : Nat) (wraps : Nat → Bool) (F : Fmt B α) (pre : String) (period maxSteps : Nat) (dims : Crd) (c : Call α) : Option (List (WOp B)) :=
  mpiioStepFinished n wraps F pre period maxSteps c.rank c.src c.region dims c.step c.event

/-- a snapshot is due: first and last call, and each `period`-th step -/
def Call.Due (period : Nat) (c : Call α) : Prop := c.event = .regular → c.step % period = 0

/-- the call hands over cells of the simulation: `u t` are all cells at step `t`, `edge` is the edge cell -/
structure Call.Valid (n : Nat) (dims : Crd) (u : Nat → Crd → α) (edge : α) (c : Call α) : Prop where
  region : RegOK n c.region
  inside : ∀ x, RMem n c.region x → InDim n dims x
  cells : ∀ s : Streak, s.origin 0 < s.endX → (∀ x ∈ coordsOf s, RMem n c.region x) → c.src.get s = some ((coordsOf s).map (u c.step))
  edge : c.src.edge = edge

/-- components of the dimensions -/
def dimList (n : Nat) (dims : Crd) : List Int := (List.range (n + 1)).map dims

/-- the datatypes can store all values, those of the header have no padding -/
structure FmtOK (n : Nat) (F : Fmt B α) (dims : Crd) : Prop where
  coord : F.coordT.size = F.coordT.extent
  uint : F.uintT.size = F.uintT.extent
  dims : Stores F.coordT (dimList n dims)
  cell : ∀ v, Stores F.cellT v

/-- **specification** of the file format -/
structure IsSnapshot (n : Nat) (F : Fmt B α) (dims : Crd) (step maxSteps : Nat) (edge : α) (u : Crd → α) (f : File B) : Prop where
  hasDims : BytesAt f 0 (F.coordT.enc (dimList n dims))
  hasStep : BytesAt f F.coordT.size (F.uintT.enc step)
  hasMaxSteps : BytesAt f (F.coordT.size + F.uintT.size) (F.uintT.enc maxSteps)
  hasEdge : BytesAt f (F.coordT.size + 2 * F.uintT.size) (F.cellT.enc edge)
  hasCells : ∀ c, InDim n dims c → BytesAt f (F.coordT.size + 2 * F.uintT.size + F.cellT.size + (lin dims n 0 c).toNat * F.cellT.size) (F.cellT.enc (u c))

/-! ## the ideal content -/

def header (n : Nat) (F : Fmt B α) (dims : Crd) (step maxSteps : Nat) (edge : α) : List B :=
  F.coordT.enc (dimList n dims) ++ (F.uintT.enc step ++ (F.uintT.enc maxSteps ++ F.cellT.enc edge))

def ideal (n : Nat) (F : Fmt B α) (dims : Crd) (step maxSteps : Nat) (edge : α) (u : Crd → α) : File B := fun i =>
  if i < F.headerLength then (header n F dims step maxSteps edge)[i]?
  else (F.cellT.enc (u (unlin dims n 0 (((i - F.headerLength) / F.cellT.size : Nat) : Int))))[(i - F.headerLength) % F.cellT.size]?

theorem headerLength_eq {F : Fmt B α} {dims : Crd} (hF : FmtOK n F dims) (hc : F.cellT.size = F.cellT.extent) :
    F.headerLength = F.coordT.size + 2 * F.uintT.size + F.cellT.size := by
  unfold Fmt.headerLength; rw [hF.coord, hF.uint, hc]

theorem inDim_offset (hn : n ≤ 2) {dims : Crd} (hd : ∀ k, k ≤ n → 0 < dims k) (F : Fmt B α) {o : Crd} (ho : InDim n dims o) :
    F.offset n wraps o dims = ((F.headerLength + (lin dims n 0 o).toNat * F.cellT.extent : Nat) : Int) := by
  obtain ⟨h1, _⟩ := (normalize_spec n wraps dims o hd (onePeriod_of_inDim ho)).2 (not_outside_of_inDim ho)
  have h0 : 0 ≤ lin dims n 0 o := lin_nonneg dims n 0 o (fun j _ hj => (ho j (by omega)).1) (fun j _ hj => by have := hd j (by omega); omega)
  unfold Fmt.offset
  rw [toIndex_lin n hn, lin_congr dims n 0 _ o fun j _ hj => by rw [h1 j (by omega), Int.emod_eq_of_lt (ho j (by omega)).1 (ho j (by omega)).2]]
  push_cast
  rw [Int.toNat_of_nonneg h0]

theorem origin_mem {s : Streak} (hs : s.origin 0 < s.endX) : s.origin ∈ coordsOf s := by
  rw [mem_coordsOf s _ hs]
  exact ⟨s.origin 0, le_refl _, hs, (upd_self ..).symm⟩

theorem streak_agrees (hn : n ≤ 2) {dims : Crd} (hd : ∀ k, k ≤ n → 0 < dims k) {F : Fmt B α} (hF : FmtOK n F dims) (hc : F.cellT.size = F.cellT.extent) (name : String)
    (step maxSteps : Nat) (edge : α) {u : Crd → α} (hu : ∀ a b, (∀ k, k ≤ n → a k = b k) → u a = u b) {src : Source α} {s : Streak} (hs : s.origin 0 < s.endX)
    (hin : ∀ x ∈ coordsOf s, InDim n dims x) (hget : src.get s = some ((coordsOf s).map u)) :
    ∃ op, streakOp n wraps F name dims src s = some op ∧ op.name = name ∧ Agrees (ideal n F dims step maxSteps edge u) op ∧
      op.off = F.headerLength + (lin dims n 0 s.origin).toNat * F.cellT.size ∧ op.bytes.length = (coordsOf s).length * F.cellT.size := by
  have ho := hin _ (origin_mem hs)
  have e := inDim_offset (wraps := wraps) hn hd F ho
  have h0 : 0 ≤ lin dims n 0 s.origin := lin_nonneg dims n 0 s.origin (fun j _ hj => (ho j (by omega)).1) (fun j _ hj => by have := hd j (by omega); omega)
  have hl : ∀ v ∈ (coordsOf s).map u, (F.cellT.enc v).length = F.cellT.size := fun v _ => (hF.cell v).len
  have hlen := flatMap_length F.cellT.enc F.cellT.size _ hl
  rw [List.length_map] at hlen
  refine ⟨⟨name, F.headerLength + (lin dims n 0 s.origin).toNat * F.cellT.extent, ((coordsOf s).map u).flatMap F.cellT.enc⟩, ?_, rfl, ?_, by rw [hc], hlen⟩
  · unfold streakOp
    rw [e, if_pos (by omega), hget, Option.map_some]
    rfl
  · intro j hj
    simp only at hj ⊢
    have hpos : 0 < F.cellT.size := by
      rcases Nat.eq_zero_or_pos F.cellT.size with h | h
      · rw [hlen, h] at hj; omega
      · exact h
    have hi : j / F.cellT.size < (coordsOf s).length := by rw [Nat.div_lt_iff_lt_mul hpos]; omega
    have hi' : j / F.cellT.size < ((coordsOf s).map u).length := by rwa [List.length_map]
    have hr : j % F.cellT.size < F.cellT.size := Nat.mod_lt _ hpos
    rw [← hc]
    unfold ideal
    rw [if_neg (by omega), show F.headerLength + (lin dims n 0 s.origin).toNat * F.cellT.size + j - F.headerLength = j + (lin dims n 0 s.origin).toNat * F.cellT.size by omega,
      Nat.add_mul_div_right _ _ hpos, Nat.add_mul_mod_self_right]
    have key := flatMap_get F.cellT.enc F.cellT.size _ hl (j / F.cellT.size) hi' (j % F.cellT.size) hr
    rw [Nat.div_add_mod' j F.cellT.size] at key
    rw [← List.getElem?_eq_getElem hj, key, List.getElem_map]
    have hcell := hin _ (List.getElem_mem hi)
    rw [coordsOf_get] at hcell ⊢
    have e2 : ((j / F.cellT.size + (lin dims n 0 s.origin).toNat : Nat) : Int) = lin dims n 0 (upd s.origin 0 (s.origin 0 + ((j / F.cellT.size : Nat) : Int))) := by
      rw [lin_upd]; push_cast; rw [Int.toNat_of_nonneg h0]; ring
    rw [e2, hu _ (upd s.origin 0 (s.origin 0 + ((j / F.cellT.size : Nat) : Int))) fun k hk =>
      unlin_lin dims n 0 _ (fun j _ hj => hcell j (by omega)) k (by omega) (by omega)]

theorem header_agrees {dims : Crd} {F : Fmt B α} (hF : FmtOK n F dims) (hc : F.cellT.size = F.cellT.extent) (name : String) {step maxSteps : Nat} (h1 : Stores F.uintT step)
    (h2 : Stores F.uintT maxSteps) (edge : α) (u : Crd → α) : ∀ op ∈ headerOps n F name dims step maxSteps edge, op.name = name ∧ Agrees (ideal n F dims step maxSteps edge u) op := by
  have e1 := hF.dims.len
  have e2 := h1.len
  have e3 := h2.len
  have e4 := (hF.cell edge).len
  have hh := headerLength_eq hF hc
  have key : ∀ (a b c : List B) (off : Nat), header n F dims step maxSteps edge = a ++ (b ++ c) → a.length = off → Agrees (ideal n F dims step maxSteps edge u) ⟨name, off, b⟩ := by
    intro a b c off e ea j hj
    simp only at hj ⊢
    have hl : (header n F dims step maxSteps edge).length = F.headerLength := by
      unfold header; simp only [List.length_append, e1, e2, e3, e4]; omega
    have hl2 := congrArg List.length e
    simp only [List.length_append] at hl2
    unfold ideal
    rw [if_pos (by omega), e, List.getElem?_append_right (by omega), List.getElem?_append_left (by omega), ea, Nat.add_sub_cancel_left, List.getElem?_eq_getElem hj]
  intro op hop
  simp only [headerOps, List.mem_cons, List.not_mem_nil, or_false] at hop
  rcases hop with rfl | rfl | rfl | rfl
  · exact ⟨rfl, key [] _ _ 0 rfl rfl⟩
  · exact ⟨rfl, key (F.coordT.enc (dimList n dims)) _ (F.uintT.enc maxSteps ++ F.cellT.enc edge) _ rfl e1⟩
  · exact ⟨rfl, key (F.coordT.enc (dimList n dims) ++ F.uintT.enc step) _ (F.cellT.enc edge) _ (by simp [header]) (by rw [List.length_append, e1, e2])⟩
  · exact ⟨rfl, key (F.coordT.enc (dimList n dims) ++ (F.uintT.enc step ++ F.uintT.enc maxSteps)) _ [] _ (by simp [header]) (by simp only [List.length_append, e1, e2, e3]; omega)⟩

theorem call_ops (hn : n ≤ 2) {dims : Crd} (hd : ∀ k, k ≤ n → 0 < dims k) {F : Fmt B α} (hF : FmtOK n F dims) (hc : F.cellT.size = F.cellT.extent) (pre : String)
    (period maxSteps : Nat) {u : Nat → Crd → α} (hu : ∀ t a b, (∀ k, k ≤ n → a k = b k) → u t a = u t b) {edge : α} (hm : Stores F.uintT maxSteps) {c : Call α}
    (hv : c.Valid n dims u edge) (hs : Stores F.uintT c.step) :
    ∃ l, c.ops n wraps F pre period maxSteps dims = some l ∧
      (¬ c.Due period → l = []) ∧
      (∀ op ∈ l, op.name = mpiioName pre c.step ∧ Agrees (ideal n F dims c.step maxSteps edge (u c.step)) op) ∧
      (c.Due period → c.rank = 0 → ∀ op ∈ headerOps n F (mpiioName pre c.step) dims c.step maxSteps edge, op ∈ l) ∧
      (c.Due period → ∀ x, RMem n c.region x → ∀ r, r < F.cellT.size → ∃ op ∈ l, Covers (mpiioName pre c.step) (F.headerLength + (lin dims n 0 x).toNat * F.cellT.size + r) op) := by
  by_cases hdue : c.Due period
  · obtain ⟨ss, ess, _, hcan⟩ := toVector_spec hv.region
    have hmem : ∀ s ∈ ss, ∀ x ∈ coordsOf s, RMem n c.region x := by
      intro s hs x hx
      rw [mem_coordsOf s x (hcan.pos s hs)] at hx
      obtain ⟨y, h1, h2, rfl⟩ := hx
      exact (hcan.mem _).mpr ⟨s, hs, fun k hk _ => by simp [upd, show k ≠ 0 by omega], by simpa [upd] using h1, by simpa [upd] using h2⟩
    have hstreak : ∀ s ∈ ss, _ := fun s hs => streak_agrees (wraps := wraps) hn hd hF hc (mpiioName pre c.step) c.step maxSteps edge (hu c.step) (hcan.pos s hs)
      (fun x hx => hv.inside x (hmem s hs x hx)) (hv.cells s (hcan.pos s hs) (hmem s hs))
    obtain ⟨l, el, hl⟩ := mapM_some (streakOp n wraps F (mpiioName pre c.step) dims c.src) ss fun s hs => by
      obtain ⟨op, h, _⟩ := hstreak s hs; exact ⟨op, h⟩
    refine ⟨(if c.rank = 0 then headerOps n F (mpiioName pre c.step) dims c.step maxSteps c.src.edge else []) ++ l, ?_, fun h => (h hdue).elim, ?_, ?_, ?_⟩
    · unfold Call.ops mpiioStepFinished
      rw [if_neg (by rintro ⟨h1, h2⟩; exact h2 (hdue h1))]
      unfold writeRegion
      rw [ess, Option.bind_some, el, Option.map_some]
    · intro op hop
      rcases List.mem_append.mp hop with h | h
      · split at h
        · rw [hv.edge] at h
          exact header_agrees hF hc _ hs hm edge _ op h
        · cases h
      · obtain ⟨s, hs, e⟩ := (hl op).mp h
        obtain ⟨op', e', h1, h2, _⟩ := hstreak s hs
        rw [e'] at e
        cases e
        exact ⟨h1, h2⟩
    · intro _ hr op hop
      rw [if_pos hr, hv.edge]
      exact List.mem_append_left _ hop
    · intro _ x hx r hr
      obtain ⟨s, hs, h1, h2, h3⟩ := (hcan.mem x).mp hx
      obtain ⟨op, e, h4, _, h5, h6⟩ := hstreak s hs
      refine ⟨op, List.mem_append_right _ ((hl op).mpr ⟨s, hs, e⟩), h4, ?_, ?_⟩
      all_goals
        have ho := hv.inside _ (hmem s hs _ (origin_mem (hcan.pos s hs)))
        have h0 : 0 ≤ lin dims n 0 s.origin := lin_nonneg dims n 0 s.origin (fun j _ hj => (ho j (by omega)).1) (fun j _ hj => by have := hd j (by omega); omega)
        have e2 : lin dims n 0 x = lin dims n 0 s.origin + (x 0 - s.origin 0) := by
          rw [← lin_upd]
          refine lin_congr dims n 0 _ _ fun k _ hk => ?_
          unfold upd
          split
          · rename_i h; rw [h]
          · exact h1 k (by omega) (by omega)
        have e3 : (lin dims n 0 x).toNat = (lin dims n 0 s.origin).toNat + (x 0 - s.origin 0).toNat := by omega
        rw [h5, e3, Nat.add_mul]
      · omega
      · rw [h6, coordsOf_length]
        have : ((x 0 - s.origin 0).toNat + 1) * F.cellT.size ≤ (s.endX - s.origin 0).toNat * F.cellT.size := Nat.mul_le_mul_right _ (by omega)
        rw [Nat.add_mul] at this
        omega
  · refine ⟨[], ?_, fun _ => rfl, fun _ h => (List.not_mem_nil h).elim, fun h => (hdue h).elim, fun h => (hdue h).elim⟩
    unfold Call.ops mpiioStepFinished
    rw [if_pos]
    unfold Call.Due at hdue
    exact Classical.not_imp.mp hdue

/-! ## writing -/

/-- **C50, parallel checkpoints.** Whatever regions the processes hand over in whatever number of calls, in whatever order the individual writes of all processes
reach the file system, and whatever the files contained before: if the calls of step `t` are due, cover the simulation space, and process 0 takes part, the file
for step `t` is the snapshot of step `t`. -/
theorem parallel_snapshot (hn : n ≤ 2) (dims : Crd) (hd : ∀ k, k ≤ n → 0 < dims k) (F : Fmt B α) (hF : FmtOK n F dims) (hc : F.cellT.size = F.cellT.extent)
    (pre : String) (period maxSteps : Nat) (u : Nat → Crd → α) (hu : ∀ t a b, (∀ k, k ≤ n → a k = b k) → u t a = u t b) (edge : α)
    (calls : List (Call α)) (hm : Stores F.uintT maxSteps) (hv : ∀ c ∈ calls, c.Valid n dims u edge ∧ Stores F.uintT c.step) :
    ∃ opss, calls.mapM (Call.ops n wraps F pre period maxSteps dims) = some opss ∧ ∀ (fs : Files B) (ops : List (WOp B)), ops.Perm opss.flatten →
      (∀ t, (∃ c ∈ calls, c.step = t ∧ c.Due period ∧ c.rank = 0) → (∀ x, InDim n dims x → ∃ c ∈ calls, c.step = t ∧ c.Due period ∧ RMem n c.region x) →
        IsSnapshot n F dims t maxSteps edge (u t) (applyOps fs ops (mpiioName pre t))) ∧
      ∀ name, (∀ c ∈ calls, c.Due period → name ≠ mpiioName pre c.step) → applyOps fs ops name = fs name := by
  obtain ⟨opss, e, hmem⟩ := mapM_some (Call.ops n wraps F pre period maxSteps dims) calls fun c h => by
    obtain ⟨l, h, _⟩ := call_ops (wraps := wraps) hn hd hF hc pre period maxSteps hu hm (hv c h).1 (hv c h).2; exact ⟨l, h⟩
  refine ⟨opss, e, fun fs ops hperm => ⟨fun t h0 hcov => ?_, fun name hname => ?_⟩⟩
  · have hag : ∀ op ∈ ops, op.name = mpiioName pre t → Agrees (ideal n F dims t maxSteps edge (u t)) op := by
      intro op hop hname
      obtain ⟨l, hl, hol⟩ := List.mem_flatten.mp (hperm.mem_iff.mp hop)
      obtain ⟨c, hcc, ec⟩ := (hmem l).mp hl
      obtain ⟨l', e', _, h2, _⟩ := call_ops (wraps := wraps) hn hd hF hc pre period maxSteps hu hm (hv c hcc).1 (hv c hcc).2
      rw [e'] at ec
      cases ec
      obtain ⟨h3, h4⟩ := h2 op hol
      obtain rfl := mpiioName_inj pre _ _ (h3.symm.trans hname)
      exact h4
    have hin : ∀ (c : Call α) l, c ∈ calls → c.ops n wraps F pre period maxSteps dims = some l → ∀ op ∈ l, op ∈ ops := fun c l hcc el op hop =>
      hperm.mem_iff.mpr (List.mem_flatten.mpr ⟨l, (hmem l).mpr ⟨c, hcc, el⟩, hop⟩)
    have hread : ∀ op ∈ ops, op.name = mpiioName pre t → BytesAt (applyOps fs ops (mpiioName pre t)) op.off op.bytes := by
      intro op hop hname j hj
      rw [applyOps_covered ops (ideal n F dims t maxSteps edge (u t)) (mpiioName pre t) (op.off + j) hag fs ⟨op, hop, hname, by omega, by omega⟩]
      exact hag op hop hname j hj
    obtain ⟨c0, hc0, rfl, hdue, hr0⟩ := h0
    obtain ⟨l0, e0, _, _, h3, _⟩ := call_ops (wraps := wraps) hn hd hF hc pre period maxSteps hu hm (hv c0 hc0).1 (hv c0 hc0).2
    have hh := h3 hdue hr0
    simp only [headerOps, List.mem_cons, List.not_mem_nil, or_false, forall_eq_or_imp, forall_eq] at hh
    obtain ⟨m1, m2, m3, m4⟩ := hh
    refine ⟨hread _ (hin c0 l0 hc0 e0 _ m1) rfl, hread _ (hin c0 l0 hc0 e0 _ m2) rfl, hread _ (hin c0 l0 hc0 e0 _ m3) rfl, hread _ (hin c0 l0 hc0 e0 _ m4) rfl, ?_⟩
    intro x hx r hr
    have hsz := (hF.cell (u c0.step x)).len
    obtain ⟨c, hcc, et, hdc, hrx⟩ := hcov x hx
    obtain ⟨l, el, _, _, _, h4⟩ := call_ops (wraps := wraps) hn hd hF hc pre period maxSteps hu hm (hv c hcc).1 (hv c hcc).2
    obtain ⟨op, hop, hcv⟩ := h4 hdc x hrx r (by omega)
    rw [et] at hcv
    rw [← headerLength_eq hF hc, applyOps_covered ops _ _ _ hag fs ⟨op, hin c l hcc el op hop, hcv⟩]
    have hpos : 0 < F.cellT.size := by omega
    have h0 : 0 ≤ lin dims n 0 x := lin_nonneg dims n 0 x (fun j _ hj => (hx j (by omega)).1) (fun j _ hj => by have := hd j (by omega); omega)
    unfold ideal
    rw [if_neg (by omega), show F.headerLength + (lin dims n 0 x).toNat * F.cellT.size + r - F.headerLength = r + (lin dims n 0 x).toNat * F.cellT.size by omega,
      Nat.add_mul_div_right _ _ hpos, Nat.add_mul_mod_self_right, Nat.div_eq_of_lt (by omega), Nat.mod_eq_of_lt (by omega), Nat.zero_add, Int.toNat_of_nonneg h0,
      hu _ _ x fun k hk => unlin_lin dims n 0 x (fun j _ hj => hx j (by omega)) k (by omega) (by omega), List.getElem?_eq_getElem hr]
  · funext i
    apply applyOps_other
    rintro op hop ⟨h1, _⟩
    obtain ⟨l, hl, hol⟩ := List.mem_flatten.mp (hperm.mem_iff.mp hop)
    obtain ⟨c, hcc, ec⟩ := (hmem l).mp hl
    obtain ⟨l', e', h1', h2, _⟩ := call_ops (wraps := wraps) hn hd hF hc pre period maxSteps hu hm (hv c hcc).1 (hv c hcc).2
    rw [e'] at ec
    cases ec
    by_cases hdue : c.Due period
    · exact hname c hcc hdue (h1.symm.trans (h2 op hol).1)
    · rw [h1' hdue] at hol; cases hol

theorem map_some_inj {γ : Type} {l m : List γ} (h : l.map some = m.map some) : l = m := List.map_injective_iff.mpr (fun _ _ h => Option.some.inj h) h

/-- a `Grid` which holds the cells of the simulation delivers them -/
theorem gridSource_get (hn : n ≤ 2) {g : Grid α} (hg : GridOK n g) {u : Crd → α} {s : Streak} (hs : s.origin 0 < s.endX) (hin : ∀ x ∈ coordsOf s, InDim n g.dim x)
    (h : ∀ x ∈ coordsOf s, gridRead n wraps g x = some (u x)) : (gridSource n wraps g).get s = some ((coordsOf s).map u) := by
  obtain ⟨l, e, h1⟩ := streak_reads (wraps := wraps) hn g hg s (le_of_lt hs) fun c hc => onePeriod_of_inDim (hin c hc)
  unfold gridSource
  simp only
  rw [e, map_some_inj (h1.trans (by rw [List.map_map]; exact List.map_congr_left h))]

/-- a `DisplacedGrid` which holds cells of the simulation delivers them, if they are within its bounding box -/
theorem dispSource_get (hn : n ≤ 2) {d : DGrid α} (hd : DGridOK n wraps d) {u : Crd → α} {s : Streak} (hs : s.origin 0 < s.endX) (hin : ∀ x ∈ coordsOf s, C33.InBox n d x)
    (h : ∀ x ∈ coordsOf s, dRead n wraps true d x = some (u x)) : (dispSource n wraps d).get s = some ((coordsOf s).map u) := by
  obtain ⟨⟨l, e, h1⟩, _⟩ := displaced_streak_partial hn d hd s (le_of_lt hs) hin
  unfold dispSource
  simp only
  rw [e, map_some_inj (h1.trans (by rw [List.map_map]; exact List.map_congr_left h))]

/-! ## reading -/

/-- **C50, metadata.** -/
theorem metadata {dims : Crd} {F : Fmt B α} (hF : FmtOK n F dims) {step maxSteps : Nat} (h1 : Stores F.uintT step) (h2 : Stores F.uintT maxSteps) {edge : α} {u : Crd → α}
    {f : File B} (h : IsSnapshot n F dims step maxSteps edge u f) :
    ∃ dims', readMetadata F f = some (dims', step, maxSteps) ∧ ∀ k, k ≤ n → dims' k = dims k := by
  refine ⟨crdOf (dimList n dims), ?_, fun k hk => ?_⟩
  · unfold readMetadata readDims
    rw [readItem_of h.hasDims hF.dims, Option.map_some, Option.bind_some, readItem_of h.hasStep h1, Option.bind_some, readItem_of h.hasMaxSteps h2, Option.map_some]
  · unfold crdOf dimList
    rw [List.getD_eq_getElem?_getD, List.getElem?_map, List.getElem?_range (by omega)]
    rfl

theorem offset_congr (hn : n ≤ 2) (F : Fmt B α) {dims dims' : Crd} (h : ∀ k, k ≤ n → dims' k = dims k) (o : Crd) : F.offset n wraps o dims' = F.offset n wraps o dims := by
  have e1 : outOfBounds n wraps o dims' = outOfBounds n wraps o dims := by
    unfold outOfBounds
    rw [Bool.eq_iff_iff, List.any_eq_true, List.any_eq_true]
    constructor
    · rintro ⟨k, hk, h'⟩; exact ⟨k, hk, by rwa [← h k (by have := List.mem_range.mp hk; omega)]⟩
    · rintro ⟨k, hk, h'⟩; exact ⟨k, hk, by rwa [h k (by have := List.mem_range.mp hk; omega)]⟩
  have e2 : ∀ k, k ≤ n → topoNormalize n wraps o dims' k = topoNormalize n wraps o dims k := by
    intro k hk
    unfold topoNormalize
    rw [e1]
    split
    · rfl
    · simp only [normEdges, h k hk]
  unfold Fmt.offset
  congr 2
  have : n = 0 ∨ n = 1 ∨ n = 2 := by omega
  rcases this with rfl | rfl | rfl
  · exact e2 0 (by omega)
  · simp only [toIndex]; rw [e2 0 (by omega), e2 1 (by omega), h 0 (by omega)]
  · simp only [toIndex]; rw [e2 0 (by omega), e2 1 (by omega), e2 2 (by omega), h 0 (by omega), h 1 (by omega)]

/-- the part of a row is contained in one period of the simulation space -/
def NoCross (dims : Crd) (lo hi : Int) : Prop := ∃ m : Int, m * dims 0 ≤ lo ∧ hi ≤ (m + 1) * dims 0

/-- a streak which does not cross the border of the simulation space is read correctly -/
theorem readStreak_spec (hn : n ≤ 2) {dims dims' : Crd} (hd : ∀ k, k ≤ n → 0 < dims k) (hdd : ∀ k, k ≤ n → dims' k = dims k) {F : Fmt B α} (hF : FmtOK n F dims)
    (hc : F.cellT.size = F.cellT.extent) {step maxSteps : Nat} {edge : α} {u : Crd → α} {f : File B}
    (h : IsSnapshot n F dims step maxSteps edge u f) {s : Streak} (hs : s.origin 0 < s.endX) (hp : OnePeriod n wraps dims s.origin) (ho : ¬ Outside n wraps dims s.origin)
    (hx : NoCross dims (s.origin 0) s.endX) :
    readStreak n wraps F f dims' s = some ((coordsOf s).map fun c => u fun k => c k % dims k) := by
  obtain ⟨h1, h2, _⟩ := (normalize_spec n wraps dims s.origin hd hp).2 ho
  have hq : InDim n dims fun k => s.origin k % dims k := fun k hk => by have := h2 k hk; rwa [h1 k hk] at this
  have hpos : ∀ a : Crd, InDim n dims a → 0 ≤ lin dims n 0 a := fun a ha => lin_nonneg dims n 0 a (fun j _ hj => (ha j (by omega)).1) (fun j _ hj => by have := hd j (by omega); omega)
  have eo : F.offset n wraps s.origin dims' = ((F.headerLength + (lin dims n 0 fun k => s.origin k % dims k).toNat * F.cellT.size : Nat) : Int) := by
    rw [offset_congr hn F hdd]
    unfold Fmt.offset
    rw [toIndex_lin n hn, lin_congr dims n 0 _ (fun k => s.origin k % dims k) fun j _ hj => h1 j (by omega)]
    push_cast
    rw [Int.toNat_of_nonneg (hpos _ hq), hc]
  unfold readStreak
  rw [eo, if_pos (by omega), Int.toNat_natCast, ← coordsOf_length]
  have := readItems_of (f := f) (off := F.headerLength + (lin dims n 0 fun k => s.origin k % dims k).toNat * F.cellT.size) (T := F.cellT)
    (vs := (coordsOf s).map fun c => u fun k => c k % dims k) ?_ (fun v _ => hF.cell v)
  · rwa [List.length_map] at this
  intro i hi
  rw [List.length_map] at hi
  rw [List.getElem_map, coordsOf_get]
  rw [coordsOf_length] at hi
  obtain ⟨m, m1, m2⟩ := hx
  have hmod : ∀ x : Int, m * dims 0 ≤ x → x < (m + 1) * dims 0 → x % dims 0 = x - m * dims 0 := by
    intro x x1 x2
    rw [show x = (x - m * dims 0) + m * dims 0 by ring, Int.add_mul_emod_self_right, Int.emod_eq_of_lt (by omega) (by rw [Int.add_mul] at x2; omega)]
    ring
  have g1 := hmod (s.origin 0) m1 (by omega)
  have g2 := hmod (s.origin 0 + i) (by omega) (by omega)
  have hcell : ∀ k, k ≤ n → (fun k => upd s.origin 0 (s.origin 0 + (i : Int)) k % dims k) k = upd (fun k => s.origin k % dims k) 0 (s.origin 0 % dims 0 + i) k := by
    intro k hk
    simp only [upd]
    split
    · rename_i h; rw [h, g2, g1]; ring
    · rfl
  have hin : InDim n dims fun k => upd s.origin 0 (s.origin 0 + (i : Int)) k % dims k := fun k hk => ⟨Int.emod_nonneg _ (by have := hd k hk; omega), Int.emod_lt_of_pos _ (hd k hk)⟩
  have hb := h.hasCells _ hin
  have el : lin dims n 0 (fun k => upd s.origin 0 (s.origin 0 + (i : Int)) k % dims k) = lin dims n 0 (fun k => s.origin k % dims k) + i := by
    rw [lin_congr dims n 0 _ _ fun j _ hj => hcell j (by omega), lin_upd]
    ring
  have e0 := hpos _ hq
  rw [el, show (lin dims n 0 (fun k => s.origin k % dims k) + (i : Int)).toNat = (lin dims n 0 (fun k => s.origin k % dims k)).toNat + i by omega, Nat.add_mul,
    ← headerLength_eq hF hc, ← Nat.add_assoc] at hb
  exact hb

/-! ### filling a grid -/

theorem writeAll_fill (hn : n ≤ 2) {w : Crd → α} (hw : ∀ a b, (∀ k, k ≤ n → a k = b k) → w a = w b) (cs : List Crd) : ∀ (g : Grid α), GridOK n g → (∀ c ∈ cs, InDim n g.dim c) →
    ∃ g', writeAll n wraps (cs.zip (cs.map w)) g = some g' ∧ GridOK n g' ∧ g'.dim = g.dim ∧ g'.edge = g.edge ∧
      ∀ c, InDim n g.dim c → ((∃ c0 ∈ cs, ∀ k, k ≤ n → c0 k = c k) ∨ gridRead n wraps g c = some (w c)) → gridRead n wraps g' c = some (w c) := by
  induction cs with
  | nil => intro g hg _; exact ⟨g, rfl, hg, rfl, rfl, fun c _ h => h.elim (fun ⟨_, h, _⟩ => by cases h) id⟩
  | cons c0 cs ih =>
    intro g hg hin
    have h0 := hin c0 (List.mem_cons_self ..)
    obtain ⟨g1, e1, h1, h2, _, h3, h4⟩ := write_spec (wraps := wraps) hn hg (onePeriod_of_inDim h0) (w c0)
    obtain ⟨g', e2, h5, h6, h7, h8⟩ := ih g1 h1 fun c hc => by rw [h2]; exact hin c (List.mem_cons_of_mem _ hc)
    refine ⟨g', by rw [List.map_cons, List.zip_cons_cons, writeAll, e1, Option.bind_some, e2], h5, h6.trans h2, h7.trans (h3 (not_outside_of_inDim h0)), fun c hc hor => ?_⟩
    apply h8 c (by rwa [h2])
    by_cases hs : Same n wraps g.dim c0 c
    · right
      rw [((h4 c (onePeriod_of_inDim hc)).1 hs), hw c0 c ((same_inDim h0 hc).mp hs)]
    · rcases hor with ⟨c1, hc1, hk⟩ | hor
      · rcases List.mem_cons.mp hc1 with rfl | hc1
        · exact (hs ((same_inDim h0 hc).mpr hk)).elim
        · exact Or.inl ⟨c1, hc1, hk⟩
      · right
        rw [(h4 c (onePeriod_of_inDim hc)).2 hs, hor]

/-- the grid holds `w` wherever `S` says so -/
theorem dSet_fill (hn : n ≤ 2) {w : Crd → α} (hw : ∀ a b, (∀ k, k ≤ n → a k = b k) → w a = w b) {d : DGrid α} (hd : DGridOK n wraps d) {s : Streak} (hs : s.origin 0 < s.endX)
    (hin : ∀ c ∈ coordsOf s, C33.InBox n d c) :
    ∃ d', dSetStreak n wraps d s ((coordsOf s).map w) = some d' ∧ DGridOK n wraps d' ∧ d'.origin = d.origin ∧ d'.topo = d.topo ∧ d'.delegate.dim = d.delegate.dim ∧
      d'.delegate.edge = d.delegate.edge ∧ ∀ c, C33.InBox n d c → (SMem n s c ∨ dRead n wraps true d c = some (w c)) → dRead n wraps true d' c = some (w c) := by
  have hdim : ∀ c, C33.InBox n d c → InDim n d.delegate.dim fun k => c k - d.origin k := fun c hc k hk => by have := hc k hk; constructor <;> simp only <;> omega
  have hread : ∀ (d' : DGrid α), DGridOK n wraps d' → d'.origin = d.origin → d'.topo = d.topo → d'.delegate.dim = d.delegate.dim → ∀ c, C33.InBox n d c →
      dRead n wraps true d' c = gridRead n wraps d'.delegate fun k => c k - d.origin k := by
    intro d' hd' e1 e2 e3 c hc
    unfold dRead
    refine read_congr hn _ fun k hk => ?_
    rw [(inBox_rel hd' (c := c) (fun k hk => by rw [e1, e3]; exact hc k hk)).2 k hk, e1]
  have hrel := relStreak_coords (n := n) d s
  have hlen : (coordsOf (relStreak d s)).length = (coordsOf s).length := by have := congrArg List.length hrel; simpa only [List.length_map] using this
  have hlen2 := coordsOf_length s
  obtain ⟨g', e, h1, h2, h3, h4⟩ := writeAll_fill (wraps := wraps) hn (w := fun c => w fun k => c k + d.origin k) (fun a b h => hw _ _ fun k hk => by rw [h k hk])
    ((coordsOf s).map fun c k => c k - d.origin k) d.delegate hd.delegate (fun c hc => by
      obtain ⟨c0, hc0, rfl⟩ := List.mem_map.mp hc
      exact hdim c0 (hin c0 hc0))
  have ev : ((coordsOf s).map fun c k => c k - d.origin k).map (fun c => w fun k => c k + d.origin k) = (coordsOf s).map w := by
    rw [List.map_map]
    refine List.map_congr_left fun c _ => ?_
    simp
  rw [ev] at e
  have hok : DGridOK n wraps { d with delegate := g' } := ⟨h1, by simpa only [h2] using hd.fits, hd.origin⟩
  refine ⟨{ d with delegate := g' }, ?_, hok, rfl, rfl, h2, h3, fun c hc hor => ?_⟩
  · unfold dSetStreak
    rw [setStreak_eq hn hd.delegate _ (by simp only [relStreak]; omega) _ (by simp only [relStreak, List.length_map]; omega), writeAll_congr hn _ _ _ hrel, e]
    rfl
  · rw [hread _ hok rfl rfl h2 c hc]
    have h5 := h4 _ (hdim c hc)
    simp only [Int.sub_add_cancel] at h5
    apply h5
    rcases hor with ⟨p1, p2, p3⟩ | hor
    · left
      refine ⟨_, List.mem_map.mpr ⟨upd s.origin 0 (c 0), (mem_coordsOf s _ hs).mpr ⟨c 0, p2, p3, rfl⟩, rfl⟩, fun k hk => ?_⟩
      simp only [upd]
      split
      · rename_i h; rw [h]
      · rw [p1 k (by omega) hk]
    · right
      rw [← hread d hd rfl rfl rfl c hc, hor]

/-- the box of a displaced grid as a region -/
theorem box_region {d : DGrid α} (hdg : DGridOK n wraps d) (fuel : Nat) (hf : (C12.Volume n (C12.rows n (dBox d))).toNat < fuel) :
    ∃ region ss, regInsertBox n emptyIdx (dBox d) fuel = some region ∧ RegOK n region ∧ toVector n region = some ss ∧ Canon n ss (C33.InBox n d) ∧
      (∀ c, RMem n region c ↔ C33.InBox n d c) ∧ ∀ s ∈ ss, ∀ x ∈ coordsOf s, C33.InBox n d x := by
  have hpos := hdg.delegate.pos
  obtain ⟨⟨region, er, hr, hm⟩, _⟩ := C42.box_insert_remove_partial n emptyIdx (regOK_empty n) (dBox d) (le_of_lt (hpos 0 (by omega))) (fun k _ hk => hpos k (by omega))
    (le_of_lt (hpos n (le_refl _))) fuel hf
  obtain ⟨ss, ess, _, hcan⟩ := toVector_spec hr
  have hbox : ∀ c, RMem n region c ↔ C33.InBox n d c := fun c => by
    rw [hm]
    exact ⟨fun h => h.elim (fun h => (regEmpty_mem n c h).elim) id, Or.inr⟩
  refine ⟨region, ss, er, hr, ess, ⟨fun c => (hbox c).symm.trans (hcan.mem c), hcan.pos, hcan.sorted⟩, hbox, fun s hs x hx => ?_⟩
  rw [mem_coordsOf s x (hcan.pos s hs)] at hx
  obtain ⟨y, h1, h2, rfl⟩ := hx
  exact (hbox _).mp ((hcan.mem _).mpr ⟨s, hs, fun k hk _ => by simp [upd, show k ≠ 0 by omega], by simpa [upd] using h1, by simpa [upd] using h2⟩)

/-- if all streaks are read correctly, so is the grid -/
theorem initGrid_of_reads (hn : n ≤ 2) {F : Fmt B α} {f : File B} {dims' : Crd} {edge : α} {w : Crd → α} (hw : ∀ a b, (∀ k, k ≤ n → a k = b k) → w a = w b)
    (edims : readDims F f = some dims') (eedge : readItem f F.cellT (F.headerLength - F.cellT.extent) = some edge) {d : DGrid α} (hdg : DGridOK n wraps d) (fuel : Nat)
    (hf : (C12.Volume n (C12.rows n (dBox d))).toNat < fuel)
    (hr : ∀ region ss, regInsertBox n emptyIdx (dBox d) fuel = some region → toVector n region = some ss → ∀ s ∈ ss, readStreak n wraps F f dims' s = some ((coordsOf s).map w)) :
    ∃ d', initGrid n wraps F f fuel d = some d' ∧ DGridOK n wraps d' ∧ d'.origin = d.origin ∧ d'.topo = d.topo ∧ d'.delegate.dim = d.delegate.dim ∧ d'.delegate.edge = edge ∧
      ∀ c, C33.InBox n d c → dRead n wraps true d' c = some (w c) := by
  obtain ⟨region, ss, er, _, ess, hcan, _, hmem⟩ := box_region hdg fuel hf
  have hstreak := hr region ss er ess
  have loop : ∀ (l : List Streak) (d0 : DGrid α), (∀ s ∈ l, s ∈ ss) → DGridOK n wraps d0 → d0.origin = d.origin → d0.topo = d.topo → d0.delegate.dim = d.delegate.dim →
      ∃ d', l.foldlM (fun g s => (readStreak n wraps F f dims' s).bind fun vec => dSetStreak n wraps g s vec) d0 = some d' ∧ DGridOK n wraps d' ∧ d'.origin = d.origin ∧
        d'.topo = d.topo ∧ d'.delegate.dim = d.delegate.dim ∧ d'.delegate.edge = d0.delegate.edge ∧
        ∀ c, C33.InBox n d c → ((∃ s ∈ l, SMem n s c) ∨ dRead n wraps true d0 c = some (w c)) → dRead n wraps true d' c = some (w c) := by
    intro l
    induction l with
    | nil => intro d0 _ h1 h2 h3 h4; exact ⟨d0, rfl, h1, h2, h3, h4, rfl, fun c _ h => h.elim (fun ⟨_, h, _⟩ => by cases h) id⟩
    | cons s l ih =>
      intro d0 hl h1 h2 h3 h4
      have hsin := hl s (List.mem_cons_self ..)
      have hbox0 : ∀ c, C33.InBox n d0 c ↔ C33.InBox n d c := fun c => by unfold C33.InBox; rw [h2, h4]
      obtain ⟨d1, e1, g1, g2, g3, g4, g5, g6⟩ := dSet_fill hn hw h1 (hcan.pos s hsin) fun c hc => (hbox0 c).mpr (hmem s hsin c hc)
      obtain ⟨d', e2, k1, k2, k3, k4, k5, k6⟩ := ih d1 (fun s hs => hl s (List.mem_cons_of_mem _ hs)) g1 (g2.trans h2) (g3.trans h3) (g4.trans h4)
      refine ⟨d', ?_, k1, k2, k3, k4, k5.trans g5, fun c hcb hor => ?_⟩
      · rw [List.foldlM_cons, hstreak s hsin]
        simp only [Option.bind_some]
        rw [e1]
        exact e2
      · apply k6 c hcb
        rcases hor with ⟨s', hs', hm'⟩ | hor
        · rcases List.mem_cons.mp hs' with rfl | hs'
          · exact Or.inr (g6 c ((hbox0 c).mpr hcb) (Or.inl hm'))
          · exact Or.inl ⟨s', hs', hm'⟩
        · exact Or.inr (g6 c ((hbox0 c).mpr hcb) (Or.inr hor))
  obtain ⟨d', e, k1, k2, k3, k4, k5, k6⟩ := loop ss (dSetEdge d edge) (fun _ h => h) ⟨⟨hdg.delegate.pos, hdg.delegate.size⟩, hdg.fits, hdg.origin⟩ rfl rfl rfl
  refine ⟨d', ?_, k1, k2, k3, k4, k5, fun c hcb => k6 c hcb (Or.inl ((hcan.mem c).mp hcb))⟩
  unfold initGrid readRegion
  rw [er, Option.bind_some, edims, Option.bind_some, eedge, Option.bind_some, ess, Option.bind_some, e]

theorem readDims_of {F : Fmt B α} {f : File B} {dims : Crd} (h : BytesAt f 0 (F.coordT.enc (dimList n dims))) (hs : Stores F.coordT (dimList n dims)) :
    ∃ dims', readDims F f = some dims' ∧ ∀ k, k ≤ n → dims' k = dims k := by
  refine ⟨crdOf (dimList n dims), by unfold readDims; rw [readItem_of h hs, Option.map_some], fun k hk => ?_⟩
  unfold crdOf dimList
  rw [List.getD_eq_getElem?_getD, List.getElem?_map, List.getElem?_range (by omega)]
  rfl

theorem readEdge_of {F : Fmt B α} {f : File B} {dims : Crd} (hF : FmtOK n F dims) {edge : α} (h : BytesAt f (F.coordT.size + 2 * F.uintT.size) (F.cellT.enc edge)) :
    readItem f F.cellT (F.headerLength - F.cellT.extent) = some edge := by
  have : F.headerLength - F.cellT.extent = F.coordT.size + 2 * F.uintT.size := by unfold Fmt.headerLength; rw [hF.coord, hF.uint]; omega
  rw [this]
  exact readItem_of h (hF.cell edge)

/-- **C50, restart.** A grid whose bounding box does not cross the x border of the simulation space receives all of its cells from a snapshot, along with the edge
cell. (Boxes which cross the border receive wrong cells, see `restart_partial_negation`.) -/
theorem restart_partial (hn : n ≤ 2) (dims : Crd) (hd : ∀ k, k ≤ n → 0 < dims k) (F : Fmt B α) (hF : FmtOK n F dims) (hc : F.cellT.size = F.cellT.extent)
    (step maxSteps : Nat) (edge : α) (u : Crd → α) (hu : ∀ a b, (∀ k, k ≤ n → a k = b k) → u a = u b) (f : File B) (h : IsSnapshot n F dims step maxSteps edge u f)
    (d : DGrid α) (hdg : DGridOK n wraps d) (hper : ∀ k, k ≤ n → wraps k = true → -dims k ≤ d.origin k ∧ d.origin k + d.delegate.dim k ≤ 2 * dims k)
    (hcut : ∀ k, k ≤ n → wraps k = false → 0 ≤ d.origin k ∧ d.origin k + d.delegate.dim k ≤ dims k)
    (hx : NoCross dims (d.origin 0) (d.origin 0 + d.delegate.dim 0)) (fuel : Nat) (hf : (C12.Volume n (C12.rows n (dBox d))).toNat < fuel) :
    ∃ d', initGrid n wraps F f fuel d = some d' ∧ DGridOK n wraps d' ∧ d'.origin = d.origin ∧ d'.topo = d.topo ∧ d'.delegate.dim = d.delegate.dim ∧ d'.delegate.edge = edge ∧
      ∀ c, C33.InBox n d c → dRead n wraps true d' c = some (u fun k => c k % dims k) := by
  obtain ⟨dims', edims, hdd⟩ := readDims_of h.hasDims hF.dims
  refine initGrid_of_reads hn (w := fun c => u fun k => c k % dims k) (fun a b hab => hu _ _ fun k hk => by simp only [hab k hk]) edims (readEdge_of hF h.hasEdge) hdg fuel hf ?_
  obtain ⟨region, ss, er, _, ess, hcan, _, hmem⟩ := box_region hdg fuel hf
  intro region' ss' er' ess' s hs
  rw [er] at er'; cases er'
  rw [ess] at ess'; cases ess'
  have ho := hmem s hs _ (origin_mem (hcan.pos s hs))
  refine readStreak_spec hn hd hdd hF hc h (hcan.pos s hs) (fun k hk hwk => ?_) ?_ ?_
  · have := ho k hk; have := hper k hk hwk; omega
  · rintro ⟨k, hk, hwk, hno⟩
    have := ho k hk; have := hcut k hk hwk
    exact hno (by omega)
  · obtain ⟨m, m1, m2⟩ := hx
    have h1 := ho 0 (by omega)
    have h2 : upd s.origin 0 (s.endX - 1) ∈ coordsOf s := (mem_coordsOf s _ (hcan.pos s hs)).mpr ⟨s.endX - 1, by have := hcan.pos s hs; omega, by omega, rfl⟩
    have h3 := hmem s hs _ h2 0 (by omega)
    simp only [upd, if_true] at h3
    exact ⟨m, by omega, by omega⟩

/-- **C50, round trip.** What `ParallelMPIIOWriter` wrote for step `t` with one decomposition is what `MPIIOInitializer` delivers with any other one (within one
period of the x axis). -/
theorem checkpoint_restart_partial (hn : n ≤ 2) (dims : Crd) (hd : ∀ k, k ≤ n → 0 < dims k) (F : Fmt B α) (hF : FmtOK n F dims) (hc : F.cellT.size = F.cellT.extent)
    (pre : String) (period maxSteps : Nat) (u : Nat → Crd → α) (hu : ∀ t a b, (∀ k, k ≤ n → a k = b k) → u t a = u t b) (edge : α)
    (calls : List (Call α)) (hm : Stores F.uintT maxSteps) (hv : ∀ c ∈ calls, c.Valid n dims u edge ∧ Stores F.uintT c.step) :
    ∃ opss, calls.mapM (Call.ops n wraps F pre period maxSteps dims) = some opss ∧ ∀ (fs : Files B) (ops : List (WOp B)), ops.Perm opss.flatten →
      ∀ t, (∃ c ∈ calls, c.step = t ∧ c.Due period ∧ c.rank = 0) → (∀ x, InDim n dims x → ∃ c ∈ calls, c.step = t ∧ c.Due period ∧ RMem n c.region x) →
        (∃ dims', readMetadata F (applyOps fs ops (mpiioName pre t)) = some (dims', t, maxSteps) ∧ ∀ k, k ≤ n → dims' k = dims k) ∧
        ∀ (d : DGrid α), DGridOK n wraps d → (∀ k, k ≤ n → wraps k = true → -dims k ≤ d.origin k ∧ d.origin k + d.delegate.dim k ≤ 2 * dims k) →
          (∀ k, k ≤ n → wraps k = false → 0 ≤ d.origin k ∧ d.origin k + d.delegate.dim k ≤ dims k) → NoCross dims (d.origin 0) (d.origin 0 + d.delegate.dim 0) →
          ∀ fuel, (C12.Volume n (C12.rows n (dBox d))).toNat < fuel →
            ∃ d', initGrid n wraps F (applyOps fs ops (mpiioName pre t)) fuel d = some d' ∧ d'.delegate.edge = edge ∧
              ∀ c, C33.InBox n d c → dRead n wraps true d' c = some (u t fun k => c k % dims k) := by
  obtain ⟨opss, e, h⟩ := parallel_snapshot (wraps := wraps) hn dims hd F hF hc pre period maxSteps u hu edge calls hm hv
  refine ⟨opss, e, fun fs ops hp t h0 hcov => ?_⟩
  have hsnap := (h fs ops hp).1 t h0 hcov
  refine ⟨?_, fun d hdg h1 h2 h3 fuel hf => ?_⟩
  · obtain ⟨c, hcc, rfl, _⟩ := h0
    exact metadata hF (hv c hcc).2 hm hsnap
  · obtain ⟨d', e1, _, _, _, _, e2, e3⟩ := restart_partial hn dims hd F hF hc t maxSteps edge (u t) (hu t) _ hsnap d hdg h1 h2 h3 fuel hf
    exact ⟨d', e1, e2, e3⟩

end LGD.C50
