import Verif.Unstr.SoaGridModel
import Verif.Props.C47
import Mathlib.Data.List.Induction
import Mathlib.Tactic.Linarith

/-!
# C73 – `UnstructuredSoAGrid` compared with `UnstructuredGrid`
-/

namespace LGD.C73
open LGD.C13 LGD.C14 LGD.Store LGD.Soa LGD.USoa

variable {α μ : Type} {radius : Nat}

/-- Spec: the topology of `UnstructuredGrid` (unstructuredgrid.h:390) -/
abbrev cube : Nat → Bool := fun _ => false

/-- **C73 (padding).** The number of cells is the least multiple of `C` which is not less than the number of nodes. -/
theorem padded_spec {C dim : Int} (hC : 0 < C) (hd : 0 < dim) : C ∣ padded C dim ∧ dim ≤ padded C dim ∧ ∀ m, C ∣ m → dim ≤ m → padded C dim ≤ m := by
  unfold padded
  rw [Int.tdiv_eq_ediv_of_nonneg (by omega)]
  have h1 := Int.emod_add_mul_ediv (dim - 1) C
  have h2 := Int.emod_nonneg (dim - 1) (by omega : C ≠ 0)
  have h3 := Int.emod_lt_of_pos (dim - 1) hC
  generalize (dim - 1) / C = q at *
  refine ⟨Dvd.intro_left _ rfl, by nlinarith, ?_⟩
  rintro m ⟨k, rfl⟩ hm
  have : q < k := by
    by_contra hk
    have : C * k ≤ C * q := Int.mul_le_mul_of_nonneg_left (by omega) (by omega)
    omega
  nlinarith

/-- **C73 (empty grids).** A grid without nodes has `C` cells, unless `C` is 1. -/
theorem padded_zero {C : Int} : (1 < C → padded C 0 = C) ∧ padded 1 0 = 0 := by
  refine ⟨fun h => ?_, rfl⟩
  unfold padded
  have : (0 - 1 : Int).tdiv C = 0 := by
    rw [show (0 - 1 : Int) = -1 from rfl, Int.neg_tdiv, Int.tdiv_eq_zero_of_lt (by omega) h]; rfl
  rw [this]; ring

/-- Spec: the grid is a new one, or the result of operations on one. -/
structure Good (radius : Nat) (C : Int) (g : UGrid α μ) : Prop where
  ok : C47.Good 0 torus radius false g.elements
  org : ∀ k, g.elements.org k = 0
  dim : ∀ k, g.elements.dim k = padded C g.dimension
  pos : 0 < g.dimension
  chunk : 0 < C

theorem radii (k : Nat) : edgeRadii 0 torus radius k = 0 := by unfold edgeRadii torus; simp

theorem get_eq {C : Int} {g : UGrid α μ} (hg : Good radius C g) (c : Crd) : USoa.get radius g c = memAt g.elements.mem (c 0) := by
  have hidx : ∀ c, genIdx 0 torus radius g.elements c = c 0 := by
    intro c
    unfold genIdx
    rw [lin2]
    simp [radii]
  have ho : outOfBounds 0 torus (soaRel 0 torus false g.elements c) g.elements.dim = false := by
    unfold outOfBounds torus; simp
  unfold USoa.get soaGet
  simp only [ho, Bool.false_eq_true, if_false]
  rw [hidx]
  unfold soaRel
  simp [hg.org 0]

/-- operations on nodes, of both grid classes -/
def execS (radius : Nat) (g : UGrid α μ) : C33.Op α → Except Err (UGrid α μ)
  | .set c v => set radius g c v
  | .setEdge v => setEdge radius g v
  | .setStreak s src => setStreak radius g s src
  | .loadRegion b r off => loadRegion radius g b r off

def runS (radius : Nat) (g : UGrid α μ) (ops : List (C33.Op α)) : Except Err (UGrid α μ) := ops.foldlM (execS radius) g

/-- Spec: all accessed nodes exist, buffers are large enough. -/
def InBounds (dim : Int) : C33.Op α → Prop
  | .set c _ => 0 ≤ c 0 ∧ c 0 < dim
  | .setEdge _ => True
  | .setStreak s src => 0 ≤ s.origin 0 ∧ s.origin 0 < s.endX ∧ s.endX ≤ dim ∧ s.endX - s.origin 0 ≤ src.length
  | .loadRegion b r off => RegOK 0 r ∧ (C33.regionCells 0 r off).length ≤ b.length ∧ ∀ c ∈ C33.regionCells 0 r off, 0 ≤ c 0 ∧ c 0 < dim

/-- Spec: both grids have the same nodes and the same edge element. -/
def Agree (radius : Nat) (a : Grid α) (g : UGrid α μ) : Prop :=
  a.dim 0 = g.dimension ∧ a.edge = g.elements.edge ∧ ∀ c : Crd, 0 ≤ c 0 → c 0 < g.dimension → ∃ v, gridRead 0 cube a c = some v ∧ USoa.get radius g c = .ok v

/-! ## proofs -/

def conv : C33.Op α → C47.Op α Unit
  | .set c v => .set c v
  | .setEdge v => .setEdge v
  | .setStreak s src => .setStreak s src
  | .loadRegion b r off => .loadRegion b r off

theorem exec_conv (g : UGrid α μ) (op : C33.Op α) :
    execS radius g op = (C47.exec 0 torus radius false (fun v (_ : Unit) => v) g.elements (conv op)).bind fun e => .ok { g with elements := e } := by
  cases op <;> rfl

theorem run_conv (ops : List (C33.Op α)) : ∀ (g : UGrid α μ) (e : SGrid α), C47.run 0 torus radius false (fun v (_ : Unit) => v) g.elements (ops.map conv) = .ok e →
    runS radius g ops = .ok { g with elements := e } := by
  induction ops with
  | nil => intro g e h; cases h; rfl
  | cons op ops ih =>
    intro g e h
    unfold C47.run at h
    rw [List.map_cons, List.foldlM_cons] at h
    unfold runS
    rw [List.foldlM_cons, exec_conv]
    cases he : C47.exec 0 torus radius false (fun v (_ : Unit) => v) g.elements (conv op) with
    | error x => rw [he] at h; cases h
    | ok e1 =>
      rw [he] at h
      exact ih { g with elements := e1 } e h

theorem no_sout (f : C47.Frame) (c : Crd) : ¬ C47.SOut 0 torus false f c := by
  rintro (⟨h, _⟩ | ⟨k, _, h, _⟩)
  · cases h
  · cases h

theorem sin_of {C : Int} {g : UGrid α μ} (hg : Good radius C g) {c : Crd} (h0 : 0 ≤ c 0) (h1 : c 0 < g.dimension) : C47.SIn 0 torus false (C47.fr g.elements) c := by
  refine ⟨no_sout _ _, fun k hk => ?_⟩
  have hk0 : k = 0 := by omega
  subst hk0
  have := (padded_spec hg.chunk hg.pos).2.1
  simp only [C47.place, C47.fr, hg.org, hg.dim, Bool.false_eq_true, false_and, if_false]
  omega

theorem addr_of {C : Int} {g : UGrid α μ} (hg : Good radius C g) {c : Crd} (h0 : 0 ≤ c 0) (h1 : c 0 < g.dimension) : C47.Addr 0 torus false (C47.fr g.elements) (some c) :=
  ⟨fun h => (by cases h), Or.inr (sin_of hg h0 h1)⟩

theorem ok_of {C : Int} {g : UGrid α μ} (hg : Good radius C g) (op : C33.Op α) (h : InBounds g.dimension op) : (conv op).OK 0 torus false (C47.fr g.elements) := by
  cases op with
  | set c v => exact addr_of hg h.1 h.2
  | setEdge v => trivial
  | setStreak s src =>
    refine ⟨h.2.1, h.2.2.2, fun c hc => ?_⟩
    unfold coordsOf at hc
    obtain ⟨j, hj, rfl⟩ := (C47.mem_coordsFrom _ _ _ _).1 hc
    have e : (LGD.upd s.origin 0 (s.origin 0 + j)) 0 = s.origin 0 + j := by simp [LGD.upd]
    obtain ⟨a1, a2, a3, a4⟩ := h
    refine ⟨addr_of hg (by rw [e]; omega) (by rw [e]; omega), sin_of hg (by rw [e]; omega) (by rw [e]; omega), ?_⟩
    simp only [C47.place, Bool.false_eq_true, false_and, if_false]
    rw [e]; omega
  | loadRegion b r off =>
    refine ⟨h.1, h.2.1, fun c hc => ⟨fun k hk => ?_, fun h => by cases h⟩⟩
    have hk0 : k = 0 := by omega
    subst hk0
    have := h.2.2 c hc
    have hp := (padded_spec hg.chunk hg.pos).2.1
    simp only [C47.fr, hg.org, hg.dim]
    omega

theorem ok_aos {a : Grid α} {dim : Int} (op : C33.Op α) (h : InBounds dim op) : op.OK 0 cube a.dim := by
  have hp : ∀ c, OnePeriod 0 cube a.dim c := fun c k _ hw => by cases hw
  cases op with
  | set c v => exact hp c
  | setEdge v => trivial
  | setStreak s src => exact ⟨by have := h.2.1; omega, h.2.2.2, fun c _ => hp c⟩
  | loadRegion b r off => exact ⟨h.1, h.2.1, fun c _ => hp c⟩

theorem writes_conv (op : C33.Op α) : (conv op).writes 0 (fun v (_ : Unit) => v) = (op.writes 0).map fun w => (w.1, fun _ => w.2) := by
  cases op <;> simp [conv, C47.Op.writes, C33.Op.writes, Function.comp_def]

theorem writes_in {dim : Int} (op : C33.Op α) (h : InBounds dim op) (c : Crd) (v : α) (hw : (some c, v) ∈ op.writes 0) : 0 ≤ c 0 ∧ c 0 < dim := by
  cases op with
  | set c' v' =>
    simp only [C33.Op.writes, List.mem_singleton, Prod.mk.injEq, Option.some.injEq] at hw
    rw [hw.1]; exact h
  | setEdge v => simp [C33.Op.writes] at hw
  | setStreak s src =>
    simp only [C33.Op.writes, List.mem_map, Prod.mk.injEq, Option.some.injEq] at hw
    obtain ⟨p, hp, rfl, _⟩ := hw
    have hc := (List.of_mem_zip hp).1
    unfold coordsOf at hc
    obtain ⟨j, hj, e⟩ := (C47.mem_coordsFrom _ _ _ _).1 hc
    rw [e]
    have e : (LGD.upd s.origin 0 (s.origin 0 + j)) 0 = s.origin 0 + j := by simp [LGD.upd]
    obtain ⟨a1, a2, a3, a4⟩ := h
    rw [e]; omega
  | loadRegion b r off =>
    simp only [C33.Op.writes, List.mem_map, Prod.mk.injEq, Option.some.injEq] at hw
    obtain ⟨p, hp, rfl, _⟩ := hw
    exact h.2.2 _ (List.of_mem_zip hp).1

theorem last_or_none (same : Crd → Crd → Prop) (out : Crd → Prop) (ws : List (C33.W α)) (d : Crd) :
    (∃ v, C33.Last same out ws d v) ∨ ∀ w ∈ ws, ¬ C33.Hits same out w d := by
  induction ws using List.reverseRecOn with
  | nil => exact Or.inr fun w hw => by cases hw
  | append_singleton ws w ih =>
    by_cases h : C33.Hits same out w d
    · exact Or.inl ⟨w.2, ws, w, [], rfl, h, rfl, fun w' hw' => by cases hw'⟩
    · rcases ih with ⟨v, a, u, b, e, h1, h2, h3⟩ | hn
      · refine Or.inl ⟨v, a, u, b ++ [w], by rw [e]; simp, h1, h2, fun w' hw' => ?_⟩
        rcases List.mem_append.1 hw' with hb | hb
        · exact h3 w' hb
        · rw [List.mem_singleton.1 hb]; exact h
      · refine Or.inr fun w' hw' => ?_
        rcases List.mem_append.1 hw' with hb | hb
        · exact hn w' hb
        · rw [List.mem_singleton.1 hb]; exact h

/-- the two descriptions of histories -/
theorem replay_last (f : C47.Frame) (same : Crd → Crd → Prop) (out : Crd → Prop) (ws : List (C33.W α)) (d : Option Crd) (d' : Crd)
    (h : ∀ w ∈ ws, C47.Hit 0 torus false f w.1 d ↔ C33.Hits same out w d') (v : α) :
    (∀ u, C33.Last same out ws d' u → C47.replay 0 torus false f (ws.map fun w => (w.1, fun _ => w.2)) d v = u) ∧
    ((∀ w ∈ ws, ¬ C33.Hits same out w d') → C47.replay 0 torus false f (ws.map fun w => (w.1, fun _ => w.2)) d v = v) := by
  have hn : ∀ (b : List (C33.W α)) (v : α), (∀ w ∈ b, ¬ C47.Hit 0 torus false f w.1 d) → C47.replay 0 torus false f (b.map fun w => (w.1, fun _ => w.2)) d v = v := by
    intro b v hb
    refine C47.replay_none _ d v fun w hw => ?_
    obtain ⟨w', hw', rfl⟩ := List.mem_map.1 hw
    exact hb w' hw'
  refine ⟨?_, fun hno => hn ws v fun w hw hh => hno w hw ((h w hw).1 hh)⟩
  rintro u ⟨a, w, b, rfl, h1, rfl, h3⟩
  have hw : C47.Hit 0 torus false f w.1 d := (h w (by simp)).2 h1
  have hb := hn b w.2 fun w' hw' hh => h3 w' hw' ((h w' (by simp [hw'])).1 hh)
  unfold C47.replay at hb ⊢
  rw [List.map_append, List.foldl_append, List.map_cons, List.foldl_cons, if_pos hw]
  exact hb

theorem outside_read (a : Grid α) (c : Crd) (h : ¬ (0 ≤ c 0 ∧ c 0 < a.dim 0)) : gridRead 0 cube a c = some a.edge := by
  have : outOfBounds 0 cube c a.dim = true := (outOfBounds_iff 0 cube c a.dim).2 ⟨0, le_refl _, rfl, h⟩
  unfold gridRead topoLocate
  rw [this]
  rfl

/-- **C73 (agreement).** On existing nodes both grid classes behave the same: after any sequence of writes of nodes, streaks, regions and the edge element, none of which is undefined, all nodes and the edge
elements are equal again. -/
theorem agree {C : Int} (a : Grid α) (g : UGrid α μ) (ha : GridOK 0 a) (hg : Good radius C g) (h : Agree radius a g) (ops : List (C33.Op α)) (ho : ∀ op ∈ ops, InBounds g.dimension op) :
    ∃ a' g', C33.run 0 cube a ops = some a' ∧ runS radius g ops = .ok g' ∧ GridOK 0 a' ∧ Good radius C g' ∧ Agree radius a' g' ∧ g'.dimension = g.dimension ∧ g'.matrices = g.matrices := by
  obtain ⟨h1, h2, h3⟩ := h
  obtain ⟨a', ra, ga, da, reads⟩ := C33.history (by omega) a ha ops (fun op hop => ok_aos op (ho op hop))
  obtain ⟨e, re, ge, fe, reade⟩ := C47.history (by omega) (fun v (_ : Unit) => v) g.elements hg.ok (ops.map conv) (fun op hop => by
    obtain ⟨o, hoo, rfl⟩ := List.mem_map.1 hop
    exact ok_of hg o (ho o hoo))
  have hws : (ops.map conv).flatMap (C47.Op.writes 0 (fun v (_ : Unit) => v)) = (ops.flatMap (C33.Op.writes 0)).map fun w => (w.1, fun _ => w.2) := by
    rw [List.flatMap_map, List.map_flatMap]
    exact List.flatMap_congr fun op _ => writes_conv op
  rw [hws] at reade
  have hin : ∀ w ∈ ops.flatMap (C33.Op.writes 0), ∀ c, w.1 = some c → 0 ≤ c 0 ∧ c 0 < g.dimension := by
    intro w hw c hc
    obtain ⟨op, hop, hw⟩ := List.mem_flatMap.1 hw
    obtain ⟨w1, w2⟩ := w
    simp only at hc
    subst hc
    exact writes_in op (ho op hop) c w2 hw
  have hp : ∀ c, OnePeriod 0 cube a.dim c := fun c k _ hw => by cases hw
  have hdim : ∀ c : Crd, 0 ≤ c 0 → c 0 < g.dimension → InDim 0 a.dim c := fun c c0 c1 k hk => by
    have : k = 0 := by omega
    subst this
    rw [h1]; exact ⟨c0, c1⟩
  have hfr := fe
  simp only [C47.fr, C47.Frame.mk.injEq] at hfr
  have hg' : Good radius C ({ g with elements := e } : UGrid α μ) := ⟨ge, fun k => by rw [hfr.1]; exact hg.org k, fun k => by rw [hfr.2.1]; exact hg.dim k, hg.pos, hg.chunk⟩
  refine ⟨a', { g with elements := e }, ra, run_conv ops g e re, ga, hg', ⟨by rw [da]; exact h1, ?_, ?_⟩, rfl, rfl⟩
  · -- the edge element
    have hit : ∀ w ∈ ops.flatMap (C33.Op.writes 0), C47.Hit 0 torus false (C47.fr g.elements) w.1 none ↔
        C33.Hits (Same 0 cube a.dim) (Outside 0 cube a.dim) w (fun _ => -1) := by
      intro w hw
      have hout : Outside 0 cube a.dim (fun _ => -1) := ⟨0, le_refl _, rfl, by simp⟩
      cases hw1 : w.1 with
      | none =>
        unfold C33.Hits
        rw [hw1]
        exact ⟨fun _ => hout, fun _ => Or.inl ⟨trivial, trivial⟩⟩
      | some c =>
        have hc := hin w hw c hw1
        unfold C33.Hits
        rw [hw1]
        constructor
        · rintro (⟨hh, _⟩ | ⟨c', d', _, hd, _⟩)
          · exact (no_sout _ _ hh).elim
          · cases hd
        · intro hh
          exfalso
          rcases hh with ⟨hh, _⟩ | ⟨_, hh, _⟩
          · obtain ⟨k, hk, _, hb⟩ := hh
            exact hb (hdim c hc.1 hc.2 k hk)
          · exact hh hout
    have r1 := reads (fun _ => -1) (hp _)
    have ro := outside_read a (fun _ => -1) (by simp)
    have ro' := outside_read a' (fun _ => -1) (by simp)
    obtain ⟨v, v1, v2⟩ := reade none trivial
    have v1' : g.elements.edge = v := Except.ok.inj v1
    have v2' := Except.ok.inj v2
    have rl := replay_last (C47.fr g.elements) _ _ _ none _ hit v
    rcases last_or_none (Same 0 cube a.dim) (Outside 0 cube a.dim) (ops.flatMap (C33.Op.writes 0)) (fun _ => -1) with ⟨u, hu⟩ | hno
    · have := r1.1 u hu
      rw [ro'] at this
      rw [Option.some.inj this, v2', rl.1 u hu]
    · have := r1.2 hno
      rw [ro', ro] at this
      rw [Option.some.inj this, v2', rl.2 hno, h2, v1']
  · intro c c0 c1
    have hit : ∀ w ∈ ops.flatMap (C33.Op.writes 0), C47.Hit 0 torus false (C47.fr g.elements) w.1 (some c) ↔
        C33.Hits (Same 0 cube a.dim) (Outside 0 cube a.dim) w c := by
      intro w hw
      have hnout : ¬ Outside 0 cube a.dim c := fun ⟨k, hk, _, hb⟩ => hb (hdim c c0 c1 k hk)
      cases hw1 : w.1 with
      | none =>
        unfold C33.Hits
        rw [hw1]
        constructor
        · rintro (⟨_, hh⟩ | ⟨c', d', hd, _⟩)
          · exact (no_sout _ _ hh).elim
          · cases hd
        · intro hh; exact (hnout hh).elim
      | some c' =>
        have hc := hin w hw c' hw1
        unfold C33.Hits
        rw [hw1]
        simp only
        rw [C33.same_inDim (hdim c' hc.1 hc.2) (hdim c c0 c1)]
        constructor
        · rintro (⟨hh, _⟩ | ⟨x, y, hx, hy, _, _, he⟩)
          · exact (no_sout _ _ hh).elim
          · cases hx; cases hy
            intro k hk
            have hk0 : k = 0 := by omega
            subst hk0
            have := he 0 (le_refl _)
            simp only [C47.place, Bool.false_eq_true, false_and, if_false] at this
            omega
        · intro he
          refine Or.inr ⟨c', c, rfl, rfl, sin_of hg hc.1 hc.2, sin_of hg c0 c1, fun k hk => ?_⟩
          simp only [C47.place, Bool.false_eq_true, false_and, if_false]
          rw [he k hk]
    have r1 := reads c (hp _)
    obtain ⟨v0, v01, v02⟩ := h3 c c0 c1
    obtain ⟨v, v1, v2⟩ := reade (some c) (addr_of hg c0 c1)
    have v1' : (Except.ok v0 : Except Err α) = .ok v := by rw [← v02]; exact v1
    have v1' := Except.ok.inj v1'
    have rl := replay_last (C47.fr g.elements) _ _ _ (some c) _ hit v
    rcases last_or_none (Same 0 cube a.dim) (Outside 0 cube a.dim) (ops.flatMap (C33.Op.writes 0)) c with ⟨u, hu⟩ | hno
    · refine ⟨u, r1.1 u hu, ?_⟩
      rw [rl.1 u hu] at v2
      exact v2
    · refine ⟨v0, by rw [r1.2 hno]; exact v01, ?_⟩
      rw [rl.2 hno, ← v1'] at v2
      exact v2

/-- **C73 (new grids).** All nodes and the padding of a new grid hold the default element; the matrices are empty. -/
theorem fresh {C dim : Int} (hC : 0 < C) (hd : 0 < dim) (matrices : Nat) (empty : Int → μ) (fit : Crd) (hf : padded C dim ≤ fit 0 ∧ 1 ≤ fit 1 ∧ 1 ≤ fit 2) (junk default edge : α) :
    ∃ g, make radius C matrices empty fit junk dim default edge = .ok g ∧ Good radius C g ∧ g.dimension = dim ∧ g.elements.edge = edge ∧ g.matrices = List.replicate matrices (empty dim) ∧
      ∀ c : Crd, 0 ≤ c 0 → c 0 < padded C dim → USoa.get radius g c = .ok default := by
  have hp := (padded_spec hC hd).2.1
  obtain ⟨e, h1, h2, h3, h4, h5⟩ := C47.fresh (n := 0) (wraps := torus) (radius := radius) (tc := false) (fun _ => 0) (fun _ => padded C dim) (fun _ => 0) fit (fun k _ => by omega) (fun h => by cases h)
    (fun k hk => by
      unfold actualDim
      simp only [radii]
      rcases k with _ | _ | _ | k
      · simpa using hf.1
      · simpa using hf.2.1
      · simpa using hf.2.2
      · omega) junk default edge
  simp only [C47.fr, C47.Frame.mk.injEq] at h3
  refine ⟨⟨e, List.replicate matrices (empty dim), dim⟩, ?_, ⟨h2, fun k => by simp only [h3.1], fun k => by simp only [h3.2.1], hd, hC⟩, rfl, h4, rfl, fun c c0 c1 => ?_⟩
  · unfold make; rw [h1]; rfl
  · have hin : C47.SIn 0 torus false ⟨fun _ => 0, fun _ => padded C dim, fun _ => 0⟩ c := by
      refine ⟨no_sout _ _, fun k hk => ?_⟩
      have hk0 : k = 0 := by omega
      subst hk0
      simp only [C47.place, Bool.false_eq_true, false_and, if_false]
      omega
    exact (h5 c ⟨fun h => (by cases h), Or.inr hin⟩).2 hin

/-- **C73 (communication).** `saveRegion` stores the nodes of the region in order. -/
theorem save_spec {C : Int} {g : UGrid α μ} (hg : Good radius C g) (r : Idx) (hr : RegOK 0 r) (off : Crd) (h : ∀ c ∈ C33.regionCells 0 r off, 0 ≤ c 0 ∧ c 0 < g.dimension) :
    ∃ l, saveRegion radius g r off = .ok l ∧ l.map .ok = (C33.regionCells 0 r off).map (USoa.get radius g) :=
  C47.save_spec g.elements hg.ok r hr off fun c hc => ⟨fun k hk => by
    have hk0 : k = 0 := by omega
    subst hk0
    have := h c hc
    have hp := (padded_spec hg.chunk hg.pos).2.1
    simp only [C47.fr, hg.org, hg.dim]
    omega, fun h => by cases h⟩

/-- **C73 (outside).** Other than `UnstructuredGrid`, the grid returns the edge element for no coordinate: reads with a negative index are undefined. -/
theorem get_negative {C : Int} {g : UGrid α μ} (hg : Good radius C g) {a : Grid α} (h : Agree radius a g) (c : Crd) (hc : c 0 < 0) :
    USoa.get radius g c = .error .undefined ∧ gridRead 0 cube a c = some g.elements.edge := by
  refine ⟨?_, by rw [outside_read a c (by omega), h.2.1]⟩
  rw [get_eq hg, memAt, if_neg (by omega)]

/-- **C73 (outside).** A new grid returns the default element for indices in the padding, where `UnstructuredGrid` returns the edge element. -/
theorem get_padding {C dim : Int} (hC : 0 < C) (hd : 0 < dim) (matrices : Nat) (empty : Int → μ) (fit : Crd) (hf : padded C dim ≤ fit 0 ∧ 1 ≤ fit 1 ∧ 1 ≤ fit 2) (junk default edge : α) (c : Crd)
    (h0 : dim ≤ c 0) (h1 : c 0 < padded C dim) :
    (∃ g, make radius C matrices empty fit junk dim default edge = .ok g ∧ USoa.get radius g c = .ok default) ∧ gridRead 0 cube (gridMake 0 (fun _ => dim) default edge) c = some edge := by
  obtain ⟨g, e, _, _, _, _, h⟩ := fresh (radius := radius) hC hd matrices empty fit hf junk default edge
  refine ⟨⟨g, e, h c (by omega) h1⟩, ?_⟩
  rw [outside_read]
  · rfl
  · simp only [gridMake]; omega

/-- **C73 (outside).** Writing nodes never changes the edge element, whatever the coordinate is; it is undefined for indices which aren't within the memory. -/
theorem set_edge {C : Int} {g : UGrid α μ} (hg : Good radius C g) (c : Crd) (v : α) :
    (¬ (0 ≤ c 0 ∧ c 0 < g.elements.mem.length) → USoa.set radius g c v = .error .undefined) ∧
    (0 ≤ c 0 ∧ c 0 < g.elements.mem.length → ∃ g', USoa.set radius g c v = .ok g' ∧ g'.elements.edge = g.elements.edge ∧
      (Good radius C g' → USoa.get radius g' c = .ok v ∧ ∀ d : Crd, d 0 ≠ c 0 → USoa.get radius g' d = USoa.get radius g d)) := by
  have hidx : genIdx 0 torus radius g.elements (soaRel 0 torus false g.elements c) = c 0 := by
    unfold genIdx soaRel
    rw [lin2]
    simp [radii, hg.org 0]
  have ho : outOfBounds 0 torus (soaRel 0 torus false g.elements c) g.elements.dim = false := by
    unfold outOfBounds torus; simp
  unfold USoa.set soaSet
  simp only [ho, Bool.false_eq_true, if_false, hidx, memSet]
  refine ⟨fun h => by rw [if_neg h]; rfl, fun h => ?_⟩
  rw [if_pos h]
  refine ⟨_, rfl, rfl, fun hg' => ⟨?_, fun d hd => ?_⟩⟩
  · rw [get_eq hg']
    simp only [memAt, if_pos h.1]
    rw [List.getElem?_set_self (by omega)]
  · rw [get_eq hg', get_eq hg]
    simp only [memAt]
    by_cases h0 : 0 ≤ d 0
    · rw [if_pos h0, if_pos h0, List.getElem?_set_ne (by omega)]
    · rw [if_neg h0, if_neg h0]

/-- **C73 (resize).** `resize` overwrites all nodes with the element of node 0; the edge element is kept, weights are dropped. -/
theorem resize_spec {C dim origin : Int} {g : UGrid α μ} (hg : Good radius C g) (ho : origin ≤ 0) (hd : 0 < dim) (empty : Int → μ) (fit : Crd)
    (hf : padded C dim ≤ fit 0 ∧ 1 ≤ fit 1 ∧ 1 ≤ fit 2) (junk first : α) (h0 : USoa.get radius g (fun _ => 0) = .ok first) :
    ∃ g', resize radius C empty fit junk g origin dim = .ok g' ∧ Good radius C g' ∧ g'.dimension = dim ∧ g'.elements.edge = g.elements.edge ∧
      g'.matrices = List.replicate g.matrices.length (empty dim) ∧ ∀ c : Crd, 0 ≤ c 0 → c 0 < dim → USoa.get radius g' c = .ok first := by
  have hp := (padded_spec hg.chunk hd).2.1
  obtain ⟨g', e, r1, r2, r3, r4, r5⟩ := fresh (radius := radius) hg.chunk hd g.matrices.length empty fit hf junk first g.elements.edge
  refine ⟨g', ?_, r1, r2, r3, r4, fun c c0 c1 => r5 c c0 (by omega)⟩
  have h0' : soaGet 0 torus radius false g.elements (fun _ => 0) = .ok first := h0
  unfold resize
  rw [if_neg (by omega), h0']
  exact e

/-- **C73 (resize, `UnstructuredGrid`).** There, nodes which exist before and afterwards are kept, and so is the edge element. -/
theorem aosResize_spec {a : Grid α} (ha : GridOK 0 a) {dim origin : Int} (ho : origin ≤ 0) (hd : 0 < dim) (init : α) :
    ∃ a', aosResize init a origin dim = .ok a' ∧ GridOK 0 a' ∧ a'.dim 0 = dim ∧ a'.edge = a.edge ∧
      ∀ c : Crd, 0 ≤ c 0 → c 0 < dim → gridRead 0 cube a' c = if c 0 < a.dim 0 then gridRead 0 cube a c else some init := by
  have hrd : ∀ (b : Grid α) (c : Crd), 0 ≤ c 0 → c 0 < b.dim 0 → gridRead 0 cube b c = b.cells[(c 0).toNat]? := by
    intro b c c0 c1
    have hb : outOfBounds 0 cube c b.dim = false := by
      by_contra hb
      obtain ⟨k, hk, _, hbk⟩ := (outOfBounds_iff 0 cube c b.dim).1 (by simpa using hb)
      have : k = 0 := by omega
      subst this
      exact hbk ⟨c0, c1⟩
    unfold gridRead topoLocate
    rw [hb]
    have hn : normEdges c b.dim 0 = c 0 := by
      unfold normEdges wrap1; split_ifs <;> omega
    simp [toIndex, hn, c0]
  have hlen : (a.cells.length : Int) = a.dim 0 := by
    have := ha.2
    rw [C12.volume_eq] at this
    simpa [crdProd] using this
  refine ⟨{ a with dim := fun _ => dim, cells := a.cells.take dim.toNat ++ List.replicate (dim.toNat - a.cells.length) init }, by unfold aosResize; rw [if_neg (by omega)], ⟨fun k hk => hd, ?_⟩, rfl, rfl, fun c c0 c1 => ?_⟩
  · rw [C12.volume_eq]; simp [crdProd]; omega
  · rw [hrd _ c c0 c1]
    simp only
    by_cases hc : c 0 < a.dim 0
    · rw [if_pos hc, hrd a c c0 hc, List.getElem?_append_left (by simp; omega), List.getElem?_take_of_lt (by omega)]
    · rw [if_neg hc, List.getElem?_append_right (by simp; omega), List.getElem?_replicate, if_pos (by simp; omega)]

/-- **C73 (resize, negative origins).** Both classes reject positive origins only. -/
theorem resize_origin {C dim origin : Int} (g : UGrid α μ) (a : Grid α) (h : 0 < origin) (empty : Int → μ) (fit : Crd) (junk : α) :
    resize radius C empty fit junk g origin dim = .error .logicError ∧ aosResize junk a origin dim = .error .logicError := by
  unfold resize aosResize
  rw [if_pos h, if_pos h]
  exact ⟨rfl, rfl⟩

theorem fold_same [DecidableEq α] (f h : Nat → Except Err α) (l : List Nat) (hl : ∀ i ∈ l, ∃ x y, f i = .ok x ∧ h i = .ok y) : ∀ b : Bool, ∃ r : Bool,
    l.foldlM (fun b i => if b then (f i).bind fun x => (h i).bind fun y => .ok (decide (x = y)) else .ok false) b = .ok r ∧ (r = true ↔ b = true ∧ ∀ i ∈ l, f i = h i) := by
  induction l with
  | nil => intro b; exact ⟨b, rfl, by simp⟩
  | cons i l ih =>
    intro b
    rw [List.foldlM_cons]
    cases b with
    | false =>
      obtain ⟨r, h1, h2⟩ := ih (fun j hj => hl j (List.mem_cons_of_mem _ hj)) false
      exact ⟨r, h1, by rw [h2]; simp⟩
    | true =>
      obtain ⟨x, y, hx, hy⟩ := hl i (List.mem_cons_self ..)
      obtain ⟨r, h1, h2⟩ := ih (fun j hj => hl j (List.mem_cons_of_mem _ hj)) (decide (x = y))
      refine ⟨r, ?_, ?_⟩
      · simp only [if_true, hx, hy]
        exact h1
      · rw [h2]
        simp only [decide_eq_true_eq, List.mem_cons, forall_eq_or_imp, hx, hy, Except.ok.injEq, true_and]

theorem get_ok {C : Int} {g : UGrid α μ} (hg : Good radius C g) (i : Nat) (h : (i : Int) < padded C g.dimension) : ∃ x, USoa.get radius g (fun _ => (i : Int)) = .ok x := by
  have hin : C47.SIn 0 torus false (C47.fr g.elements) (fun _ => (i : Int)) := by
    refine ⟨no_sout _ _, fun k hk => ?_⟩
    have hk0 : k = 0 := by omega
    subst hk0
    simp only [C47.place, C47.fr, hg.org, hg.dim, Bool.false_eq_true, false_and, if_false]
    omega
  obtain ⟨e, re, ge, fe, reade⟩ := C47.history (by omega) (fun v (_ : Unit) => v) g.elements hg.ok [] (fun op hop => by cases hop)
  obtain ⟨v, hv, _⟩ := reade (some fun _ => (i : Int)) ⟨fun h => (by cases h), Or.inr hin⟩
  exact ⟨v, hv⟩

/-- **C73 (comparison).** Grids with nodes are equal iff the number of cells including the padding, the edge elements, all cells including the padding and the matrices are equal. -/
theorem equal_spec [DecidableEq α] [DecidableEq μ] {C : Int} {g h : UGrid α μ} (hg : Good radius C g) (hh : Good radius C h) :
    ∃ b, USoa.equal radius g h = .ok b ∧ (b = true ↔ g.elements.edge = h.elements.edge ∧ padded C g.dimension = padded C h.dimension ∧ g.matrices = h.matrices ∧
      ∀ i : Nat, (i : Int) < padded C g.dimension → USoa.get radius g (fun _ => (i : Int)) = USoa.get radius h (fun _ => (i : Int))) := by
  have hp := hg.pos
  unfold USoa.equal
  rw [if_neg (by omega), hg.dim, hh.dim]
  by_cases he : g.elements.edge = h.elements.edge
  · rw [if_neg (by simpa using he)]
    by_cases hd : padded C g.dimension = padded C h.dimension
    · rw [if_neg (by simpa using hd)]
      obtain ⟨r, h1, h2⟩ := fold_same (fun i : Nat => USoa.get radius g (fun _ => (i : Int))) (fun i : Nat => USoa.get radius h (fun _ => (i : Int))) (List.range (padded C g.dimension).toNat)
        (fun i hi => by
          have hi := List.mem_range.1 hi
          obtain ⟨x, hx⟩ := get_ok hg i (by omega)
          obtain ⟨y, hy⟩ := get_ok hh i (by omega)
          exact ⟨x, y, hx, hy⟩) true
      refine ⟨r && decide (g.matrices = h.matrices), ?_, ?_⟩
      · unfold sameCells; rw [h1]; rfl
      · rw [Bool.and_eq_true, decide_eq_true_eq, h2]
        constructor
        · rintro ⟨⟨_, a⟩, b⟩
          exact ⟨he, hd, b, fun i hi => a i (List.mem_range.2 (by omega))⟩
        · rintro ⟨_, _, b, a⟩
          exact ⟨⟨rfl, fun i hi => a i (by have := List.mem_range.1 hi; omega)⟩, b⟩
    · rw [if_pos hd]
      exact ⟨false, rfl, by simp [hd]⟩
  · rw [if_pos he]
    exact ⟨false, rfl, by simp [he]⟩

/-- **C73 (comparison, empty grids).** Grids without nodes are always equal, even if the edge elements differ. -/
theorem equal_empty [DecidableEq α] [DecidableEq μ] (g h : UGrid α μ) (hg : g.dimension = 0) (hh : h.dimension = 0) : USoa.equal radius g h = .ok true := by
  unfold USoa.equal; rw [if_pos ⟨hg, hh⟩]

/-- **C73 (comparison, different edge elements).** If one of the grids has nodes, grids with different edge elements aren't equal. -/
theorem equal_edge [DecidableEq α] [DecidableEq μ] (g h : UGrid α μ) (hd : g.dimension ≠ 0 ∨ h.dimension ≠ 0) (he : g.elements.edge ≠ h.elements.edge) : USoa.equal radius g h = .ok false := by
  unfold USoa.equal; rw [if_neg (by omega), if_pos he]

/-! ## examples -/

def fit0 : Crd := fun k => if k = 0 then 8 else 1

/-- the grid of the examples: 5 nodes, `C = 4`, default element 1, edge element 9 -/
def g0 : UGrid Int (List Int) := ⟨⟨fun _ => 0, fun _ => 8, fun _ => 0, fit0, 9, List.replicate 8 1⟩, [[]], 5⟩

theorem g0_make : make 1 4 1 (fun _ => ([] : List Int)) fit0 (77 : Int) 5 1 9 = .ok g0 := by rfl

theorem g0_good : Good 1 4 g0 := by
  obtain ⟨g, e, h, _⟩ := fresh (radius := 1) (C := 4) (dim := 5) (by omega) (by omega) 1 (fun _ => ([] : List Int)) fit0 (by decide) (77 : Int) 1 9
  rw [g0_make] at e
  cases e
  exact h

/-- operations on nodes -/
def ops0 : List (C33.Op Int) := [.set (fun _ => 3) 5, .setStreak ⟨fun _ => 1, 3⟩ [6, 7], .setEdge 8, .set (fun _ => 1) 4]

example : ∀ op ∈ ops0, InBounds 5 op := by
  intro op hop
  simp only [ops0, List.mem_cons, List.not_mem_nil, or_false] at hop
  rcases hop with rfl | rfl | rfl | rfl <;> simp [InBounds]

example : Agree 1 (gridMake 0 (fun _ => 5) 1 9) g0 := by
  refine ⟨rfl, rfl, fun c c0 c1 => ⟨1, ?_, ?_⟩⟩
  · refine ((C33.fresh (n := 0) (wraps := cube) (by omega) (fun _ => 5) (fun _ _ => by decide) (1 : Int) 9).2 c (fun k _ hw => by cases hw)).2 ?_
    rintro ⟨k, hk, _, hb⟩
    have : k = 0 := by omega
    subst this
    exact hb ⟨c0, c1⟩
  · obtain ⟨g, e, _, _, _, _, h⟩ := fresh (radius := 1) (C := 4) (dim := 5) (by omega) (by omega) 1 (fun _ => ([] : List Int)) fit0 (by decide) (77 : Int) 1 9
    rw [g0_make] at e
    cases e
    exact h c c0 (by have : padded 4 5 = 8 := by decide
                     have : c 0 < 5 := c1
                     omega)

example : (runS 1 g0 ops0).toOption.map (fun g => (g.elements.mem, g.elements.edge)) = some ([1, 4, 7, 5, 1, 1, 1, 1], 8) := by rfl
example : (C33.run 0 cube (gridMake 0 (fun _ => 5) 1 9) ops0).map (fun g => (g.cells, g.edge)) = some ([1, 4, 7, 5, 1], 8) := by decide

/-- **C73 (comparison, negation).** Two grids whose nodes, edge elements and weights are equal may compare unequal: here a write to "node" 5 of a grid with 5 nodes changed the padding. -/
theorem equal_padding : ∃ g1 : UGrid Int (List Int), USoa.set 1 g0 (fun _ => 5) 3 = .ok g1 ∧ (∀ c : Crd, 0 ≤ c 0 → c 0 < 5 → USoa.get 1 g1 c = USoa.get 1 g0 c) ∧
    g1.elements.edge = g0.elements.edge ∧ g1.matrices = g0.matrices ∧ g1.dimension = g0.dimension ∧ USoa.equal 1 g1 g0 = .ok false := by
  refine ⟨_, rfl, fun c c0 c1 => ?_, rfl, rfl, rfl, by decide⟩
  have : c 0 = 0 ∨ c 0 = 1 ∨ c 0 = 2 ∨ c 0 = 3 ∨ c 0 = 4 := by omega
  have hidx : ∀ g : SGrid Int, g.org = (fun _ => 0) → soaGet 0 torus 1 false g c = memAt g.mem (c 0) := by
    intro g ho
    have hb : outOfBounds 0 torus (soaRel 0 torus false g c) g.dim = false := by unfold outOfBounds torus; simp
    unfold soaGet
    simp only [hb, Bool.false_eq_true, if_false]
    unfold genIdx soaRel
    rw [lin2]
    simp [radii, ho]
  unfold USoa.get
  rw [hidx _ rfl, hidx _ rfl]
  rcases this with h | h | h | h | h <;> rw [h] <;> rfl

/-- **C73 (resize, negation).** Resizing to the same size overwrites the nodes, while `UnstructuredGrid` keeps them. -/
theorem resize_loses : ∃ (g : UGrid Int (List Int)) (a : Grid Int) (g' : UGrid Int (List Int)) (a' : Grid Int), runS 1 g0 ops0 = .ok g ∧ C33.run 0 cube (gridMake 0 (fun _ => 5) 1 9) ops0 = some a ∧
    resize 1 4 (fun _ => ([] : List Int)) fit0 77 g 0 5 = .ok g' ∧ aosResize 0 a 0 5 = .ok a' ∧
    USoa.get 1 g (fun _ => 3) = .ok 5 ∧ USoa.get 1 g' (fun _ => 3) = .ok 1 ∧ gridRead 0 cube a' (fun _ => 3) = some 5 := by
  exact ⟨_, _, _, _, rfl, rfl, rfl, rfl, rfl, rfl, rfl⟩

example : USoa.get 1 g0 (fun _ => -1) = .error .undefined := by rfl
example : USoa.get 1 g0 (fun _ => 5) = .ok 1 := by rfl
example : USoa.get 1 g0 (fun _ => 8) = .error .undefined := by rfl
example : gridRead 0 cube (gridMake 0 (fun _ => 5) (1 : Int) 9) (fun _ => -1) = some 9 := by decide
example : padded 4 5 = 8 ∧ padded 4 8 = 8 ∧ padded 1 5 = 5 ∧ padded 4 0 = 4 := by decide

end LGD.C73
