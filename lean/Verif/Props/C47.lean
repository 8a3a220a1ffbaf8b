import Verif.Store.SoaLemmas
import Verif.Props.C33Displaced

/-!
# C47: `SoAGrid`

Specification: a coordinate denotes the edge cell (`SOut`), or a cell of the box of the grid (`SIn`, at position `place`). An operation stands for a list of modifications of
single cells; a read returns the value it returned before the operations, modified by those modifications which hit the same cell, in order (`replay`).
-/

namespace LGD.C47
open LGD.C13 LGD.C14 LGD.Store LGD.C33 LGD.Step LGD.Soa

variable {α β : Type} {n : Nat} {wraps : Nat → Bool} {radius : Nat} {tc : Bool}

/-- where the grid is, and the extents of the simulation space -/
structure Frame where
  org : Crd
  dim : Crd
  topo : Crd

/-- frame of a grid -/
def fr (g : SGrid α) : Frame := ⟨g.org, g.dim, g.topo⟩

/-- position in the box: relative to the origin, topologically correct grids wrap periodic axes -/
def place (wraps : Nat → Bool) (tc : Bool) (f : Frame) (c : Crd) : Crd := fun k =>
  if tc = true ∧ wraps k = true then (c k - f.org k) % f.topo k else c k - f.org k

/-- the coordinate is beyond the boundary of a constant axis -/
def SOut (n : Nat) (wraps : Nat → Bool) (tc : Bool) (f : Frame) (c : Crd) : Prop :=
  (tc = true ∧ Outside n wraps f.topo fun k => c k - f.org k) ∨ Outside n wraps f.dim fun k => c k - f.org k

/-- the coordinate denotes a cell of the grid -/
def SIn (n : Nat) (wraps : Nat → Bool) (tc : Bool) (f : Frame) (c : Crd) : Prop := ¬ SOut n wraps tc f c ∧ InDim n f.dim (place wraps tc f c)

/-- coordinates which may be accessed: the edge cell (`none`, `getEdge`), or coordinates at most one period outside which denote a cell or the edge cell -/
def Addr (n : Nat) (wraps : Nat → Bool) (tc : Bool) (f : Frame) : Option Crd → Prop
  | none => True
  | some c => (tc = true → OnePeriod n wraps f.topo fun k => c k - f.org k) ∧ (SOut n wraps tc f c ∨ SIn n wraps tc f c)

/-- denotes the edge cell -/
def IsEdge (n : Nat) (wraps : Nat → Bool) (tc : Bool) (f : Frame) : Option Crd → Prop
  | none => True
  | some c => SOut n wraps tc f c

/-- both denote the same cell -/
def Hit (n : Nat) (wraps : Nat → Bool) (tc : Bool) (f : Frame) (a b : Option Crd) : Prop :=
  (IsEdge n wraps tc f a ∧ IsEdge n wraps tc f b) ∨
    ∃ c d, a = some c ∧ b = some d ∧ SIn n wraps tc f c ∧ SIn n wraps tc f d ∧ ∀ k, k ≤ n → place wraps tc f c k = place wraps tc f d k

open Classical in
/-- the value of a cell after some modifications -/
noncomputable def replay (n : Nat) (wraps : Nat → Bool) (tc : Bool) (f : Frame) (ws : List (Option Crd × (α → α))) (d : Option Crd) (v : α) : α :=
  ws.foldl (fun v w => if Hit n wraps tc f w.1 d then w.2 v else v) v

/-- what a user reads: `getEdge`, `get` -/
def read (n : Nat) (wraps : Nat → Bool) (radius : Nat) (tc : Bool) (g : SGrid α) : Option Crd → Except Err α
  | none => .ok g.edge
  | some c => soaGet n wraps radius tc g c

/-- operations which modify a grid -/
inductive Op (α β : Type) where
  | set (c : Crd) (v : α)
  | setEdge (v : α)
  | setStreak (s : Streak) (src : List α)
  | loadRegion (buffer : List α) (region : Idx) (offset : Crd)
  | loadMember (src : List β) (region : Idx)

/-- what the code does; `put` replaces a member -/
def exec (n : Nat) (wraps : Nat → Bool) (radius : Nat) (tc : Bool) (put : α → β → α) (g : SGrid α) : Op α β → Except Err (SGrid α)
  | .set c v => soaSet n wraps radius tc g c v
  | .setEdge v => soaSetEdge n wraps radius g v
  | .setStreak s src => soaSetStreak n wraps radius tc g s src
  | .loadRegion b r off => soaLoad n wraps radius g b r off
  | .loadMember b r => soaLoadMember n wraps radius put g b r

/-- the modifications an operation stands for -/
def Op.writes (n : Nat) (put : α → β → α) : Op α β → List (Option Crd × (α → α))
  | .set c v => [(some c, fun _ => v)]
  | .setEdge v => [(none, fun _ => v)]
  | .setStreak s src => ((coordsOf s).zip src).map fun p => (some p.1, fun _ => p.2)
  | .loadRegion b r off => ((regionCells n r off).zip b).map fun p => (some p.1, fun _ => p.2)
  | .loadMember b r => ((regionCells n r fun _ => 0).zip b).map fun p => (some p.1, fun v => put v p.2)

/-- inside of the box, without wrapping around -/
def Direct (n : Nat) (tc : Bool) (f : Frame) (c : Crd) : Prop := (InDim n f.dim fun k => c k - f.org k) ∧ (tc = true → InDim n f.topo fun k => c k - f.org k)

/-- the streak is inside of the box; it may have been displaced by a period, but it is not cut by the periodic boundary -/
def Straight (n : Nat) (wraps : Nat → Bool) (tc : Bool) (f : Frame) (s : Streak) : Prop :=
  ∀ c ∈ coordsOf s, Addr n wraps tc f (some c) ∧ SIn n wraps tc f c ∧ place wraps tc f c 0 = place wraps tc f s.origin 0 + (c 0 - s.origin 0)

/-- preconditions: cells are inside of the box, buffers are large enough -/
def Op.OK (n : Nat) (wraps : Nat → Bool) (tc : Bool) (f : Frame) : Op α β → Prop
  | .set c _ => Addr n wraps tc f (some c)
  | .setEdge _ => True
  | .setStreak s src => s.origin 0 < s.endX ∧ s.endX - s.origin 0 ≤ src.length ∧ Straight n wraps tc f s
  | .loadRegion b r off => RegOK n r ∧ (regionCells n r off).length ≤ b.length ∧ ∀ c ∈ regionCells n r off, Direct n tc f c
  | .loadMember b r => RegOK n r ∧ (regionCells n r fun _ => 0).length ≤ b.length ∧ ∀ c ∈ regionCells n r fun _ => 0, Direct n tc f c

/-- a history of operations -/
def run (n : Nat) (wraps : Nat → Bool) (radius : Nat) (tc : Bool) (put : α → β → α) (g : SGrid α) (ops : List (Op α β)) : Except Err (SGrid α) :=
  ops.foldlM (exec n wraps radius tc put) g

/-- a well-formed grid; topologically correct grids know the extents of the simulation space -/
structure Good (n : Nat) (wraps : Nat → Bool) (radius : Nat) (tc : Bool) (g : SGrid α) : Prop where
  ok : SoaOK n wraps radius g
  topo : tc = true → ∀ k, k ≤ n → 0 < g.topo k

/-! ## relative coordinates -/

theorem rel_out {g : SGrid α} (hg : Good n wraps radius tc g) {c : Crd} (hc : Addr n wraps tc (fr g) (some c)) (h : SOut n wraps tc (fr g) c) :
    Outside n wraps g.dim (soaRel n wraps tc g c) := by
  unfold soaRel
  cases tc with
  | false =>
    rcases h with ⟨h, _⟩ | h
    · cases h
    · exact h
  | true =>
    rw [if_pos rfl]
    have hs := normalize_spec n wraps g.topo (fun k => c k - g.org k) (hg.topo rfl) (hc.1 rfl)
    by_cases ho : Outside n wraps g.topo fun k => c k - g.org k
    · obtain ⟨k, h1, h2, h3⟩ := ho
      exact ⟨k, h1, h2, by rw [hs.1 ⟨k, h1, h2, h3⟩ k]; omega⟩
    · rcases h with ⟨_, h⟩ | ⟨k, h1, h2, h3⟩
      · exact (ho h).elim
      · refine ⟨k, h1, h2, ?_⟩
        rw [(hs.2 ho).1 k h1]
        have : 0 ≤ c k - g.org k ∧ c k - g.org k < g.topo k := Classical.not_not.mp fun hh => ho ⟨k, h1, h2, hh⟩
        rw [Int.emod_eq_of_lt this.1 this.2]
        exact h3

theorem rel_in {g : SGrid α} (hg : Good n wraps radius tc g) {c : Crd} (hc : Addr n wraps tc (fr g) (some c)) (h : SIn n wraps tc (fr g) c) :
    ∀ k, k ≤ n → soaRel n wraps tc g c k = place wraps tc (fr g) c k := by
  intro k hk
  unfold soaRel place
  cases tc with
  | false => simp [fr]
  | true =>
    rw [if_pos rfl]
    have hs := normalize_spec n wraps g.topo (fun k => c k - g.org k) (hg.topo rfl) (hc.1 rfl)
    have ho : ¬ Outside n wraps g.topo fun k => c k - g.org k := fun ho => h.1 (Or.inl ⟨rfl, ho⟩)
    rw [(hs.2 ho).1 k hk]
    cases hw : wraps k with
    | true => simp [fr]
    | false =>
      have : 0 ≤ c k - g.org k ∧ c k - g.org k < g.topo k := Classical.not_not.mp fun hh => ho ⟨k, hk, hw, hh⟩
      rw [Int.emod_eq_of_lt this.1 this.2]
      simp [fr]

theorem inDim_congr {dim a b : Crd} (h : ∀ k, k ≤ n → a k = b k) (ha : InDim n dim a) : InDim n dim b := fun k hk => by rw [← h k hk]; exact ha k hk

theorem get_out {g : SGrid α} (hg : Good n wraps radius tc g) {c : Crd} (hc : Addr n wraps tc (fr g) (some c)) (h : SOut n wraps tc (fr g) c) :
    soaGet n wraps radius tc g c = .ok g.edge := by
  unfold soaGet
  simp only
  rw [if_pos ((outOfBounds_iff _ _ _ _).mpr (rel_out hg hc h))]

theorem get_in {g : SGrid α} (hg : Good n wraps radius tc g) {c : Crd} (hc : Addr n wraps tc (fr g) (some c)) (h : SIn n wraps tc (fr g) c) :
    soaGet n wraps radius tc g c = cell n wraps radius g (place wraps tc (fr g) c) := by
  have e := rel_in hg hc h
  unfold soaGet cell
  simp only
  rw [if_neg, idx_congr g e]
  intro ho
  exact not_outside_of_inDim h.2 (outside_congr e ((outOfBounds_iff _ _ _ _).mp ho))

theorem direct_in {f : Frame} {c : Crd} (h : Direct n tc f c) :
    Addr n wraps tc f (some c) ∧ SIn n wraps tc f c ∧ ∀ k, k ≤ n → place wraps tc f c k = c k - f.org k := by
  have e : ∀ k, k ≤ n → place wraps tc f c k = c k - f.org k := by
    intro k hk
    unfold place
    split
    · rename_i ht
      have := h.2 ht.1 k hk
      exact Int.emod_eq_of_lt this.1 this.2
    · rfl
  have ho : ¬ SOut n wraps tc f c := by
    rintro (⟨ht, h'⟩ | h')
    · exact not_outside_of_inDim (h.2 ht) h'
    · exact not_outside_of_inDim h.1 h'
  have hi : SIn n wraps tc f c := ⟨ho, inDim_congr (fun k hk => (e k hk).symm) h.1⟩
  exact ⟨⟨fun ht => onePeriod_of_inDim (h.2 ht), Or.inr hi⟩, hi, e⟩

/-! ## effects -/

/-- `g'` results from `g` by some modifications -/
structure Eff (n : Nat) (wraps : Nat → Bool) (radius : Nat) (tc : Bool) (g : SGrid α) (ws : List (Option Crd × (α → α))) (g' : SGrid α) : Prop where
  good : Good n wraps radius tc g'
  frame : fr g' = fr g
  ext : g'.ext = g.ext
  reads : ∀ d, Addr n wraps tc (fr g) d → ∃ v, read n wraps radius tc g d = .ok v ∧ read n wraps radius tc g' d = .ok (replay n wraps tc (fr g) ws d v)

theorem read_ok {g : SGrid α} (hg : Good n wraps radius tc g) (d : Option Crd) (hd : Addr n wraps tc (fr g) d) : ∃ v, read n wraps radius tc g d = .ok v := by
  cases d with
  | none => exact ⟨_, rfl⟩
  | some c =>
    rcases hd.2 with h | h
    · exact ⟨_, get_out hg hd h⟩
    · obtain ⟨v, e⟩ := cell_ok hg.ok h.2
      exact ⟨v, by rw [read, get_in hg hd h]; exact e⟩

theorem Eff.nil {g : SGrid α} (hg : Good n wraps radius tc g) : Eff n wraps radius tc g [] g :=
  ⟨hg, rfl, rfl, fun d hd => by obtain ⟨v, e⟩ := read_ok hg d hd; exact ⟨v, e, e⟩⟩

theorem Eff.append {g g1 g2 : SGrid α} {a b : List (Option Crd × (α → α))} (h1 : Eff n wraps radius tc g a g1) (h2 : Eff n wraps radius tc g1 b g2) :
    Eff n wraps radius tc g (a ++ b) g2 := by
  refine ⟨h2.good, h2.frame.trans h1.frame, h2.ext.trans h1.ext, fun d hd => ?_⟩
  obtain ⟨v, e1, e2⟩ := h1.reads d hd
  obtain ⟨w, e3, e4⟩ := h2.reads d (by rw [h1.frame]; exact hd)
  rw [e2] at e3
  cases e3
  refine ⟨v, e1, ?_⟩
  rw [e4, h1.frame]
  unfold replay
  rw [List.foldl_append]

open Classical in
theorem replay_single (f : Frame) (w : Option Crd × (α → α)) (d : Option Crd) (v : α) : replay n wraps tc f [w] d v = if Hit n wraps tc f w.1 d then w.2 v else v := rfl

theorem eff_edge {g : SGrid α} (hg : Good n wraps radius tc g) (v : α) (a : Option Crd) (ha : IsEdge n wraps tc (fr g) a) :
    ∃ g', soaSetEdge n wraps radius g v = .ok g' ∧ Eff n wraps radius tc g [(a, fun _ => v)] g' := by
  obtain ⟨g', e, h1, h2, h3, h4, h5, h6, h7⟩ := setEdge_ok hg.ok v
  have hf : fr g' = fr g := by unfold fr; rw [h2, h3, h4]
  have hg' : Good n wraps radius tc g' := ⟨h1, by rw [h4]; exact hg.topo⟩
  refine ⟨g', e, hg', hf, h6, fun d hd => ?_⟩
  have hedge : IsEdge n wraps tc (fr g) d → read n wraps radius tc g' d = .ok v := by
    cases d with
    | none => intro _; rw [read, h5]
    | some c => intro h; rw [read, get_out hg' (by rw [hf]; exact hd) (by rw [hf]; exact h), h5]
  obtain ⟨w, ew⟩ := read_ok hg d hd
  refine ⟨w, ew, ?_⟩
  rw [replay_single]
  simp only
  by_cases hde : IsEdge n wraps tc (fr g) d
  · have hh : Hit n wraps tc (fr g) a d := Or.inl ⟨ha, hde⟩
    rw [if_pos hh, hedge hde]
  · rw [if_neg]
    · cases d with
      | none => exact (hde trivial).elim
      | some c =>
        have hin : SIn n wraps tc (fr g) c := hd.2.resolve_left hde
        rw [← ew, read, read, get_in hg' (by rw [hf]; exact hd) (by rw [hf]; exact hin), get_in hg hd hin, hf]
        exact h7 _ hin.2
    · rintro (h | ⟨c, d', rfl, rfl, h, _⟩)
      · exact hde h.2
      · exact h.1 ha

theorem eff_put {g : SGrid α} (hg : Good n wraps radius tc g) (hn : n ≤ 2) (c : Crd) (hin : SIn n wraps tc (fr g) c) (f : α → α) (i : Int)
    (hi : i = genIdx n wraps radius g (place wraps tc (fr g) c)) :
    ∃ v m, memAt g.mem i = .ok v ∧ memSet g.mem i (f v) = .ok m ∧ Eff n wraps radius tc g [(some c, f)] { g with mem := m } := by
  subst hi
  obtain ⟨v, ev⟩ := cell_ok hg.ok hin.2
  obtain ⟨m, e, h1, h2, h3⟩ := put_ok hg.ok hn hin.2 (f v)
  have hg' : Good n wraps radius tc { g with mem := m } := ⟨h1, hg.topo⟩
  refine ⟨v, m, ev, e, hg', rfl, rfl, fun d hd => ?_⟩
  obtain ⟨w, ew⟩ := read_ok hg d hd
  refine ⟨w, ew, ?_⟩
  rw [replay_single]
  simp only
  cases d with
  | none =>
    rw [if_neg]
    · cases ew; rfl
    · rintro (h | ⟨_, _, _, h, _⟩)
      · exact hin.1 h.1
      · cases h
  | some d =>
    rcases hd.2 with ho | hi
    · rw [if_neg]
      · rw [read, get_out hg' hd ho]
        rw [read, get_out hg hd ho] at ew
        exact ew
      · rintro (h | ⟨_, d', _, h, _, h', _⟩)
        · exact hin.1 h.1
        · cases h; exact h'.1 ho
    · rw [read, get_in hg' hd hi]
      rw [read, get_in hg hd hi] at ew
      by_cases hk : ∀ k, k ≤ n → place wraps tc (fr g) c k = place wraps tc (fr g) d k
      · have hh : Hit n wraps tc (fr g) (some c) (some d) := Or.inr ⟨c, d, rfl, rfl, hin, hi, hk⟩
        rw [if_pos hh]
        have hv : w = v := by
          have : cell n wraps radius g (place wraps tc (fr g) d) = cell n wraps radius g (place wraps tc (fr g) c) := by
            unfold cell; rw [idx_congr g hk]
          rw [this, ev] at ew
          cases ew; rfl
        rw [hv, ← h2]
        unfold cell
        exact congrArg _ (idx_congr _ fun k hk' => (hk k hk').symm)
      · rw [if_neg, ← ew]
        · exact h3 _ hi.2 hk
        · rintro (h | ⟨c', d', h, h', _, _, h''⟩)
          · exact hin.1 h.1
          · cases h; cases h'; exact hk h''

/-- the cells are stored one after the other, beginning at `i` -/
def Consec (n : Nat) (wraps : Nat → Bool) (radius : Nat) (tc : Bool) (g : SGrid α) : Int → List Crd → Prop
  | _, [] => True
  | i, c :: cs => SIn n wraps tc (fr g) c ∧ i = genIdx n wraps radius g (place wraps tc (fr g) c) ∧ Consec n wraps radius tc g (i + 1) cs

theorem genIdx_ext {g g' : SGrid α} (h : g'.ext = g.ext) (c : Crd) : genIdx n wraps radius g' c = genIdx n wraps radius g c := by unfold genIdx; rw [h]

theorem consec_frame {g g' : SGrid α} (hf : fr g' = fr g) (he : g'.ext = g.ext) (i : Int) (cs : List Crd) (h : Consec n wraps radius tc g i cs) :
    Consec n wraps radius tc g' i cs := by
  induction cs generalizing i with
  | nil => trivial
  | cons c cs ih =>
    obtain ⟨h1, h2, h3⟩ := h
    exact ⟨by rw [hf]; exact h1, by rw [hf, genIdx_ext he]; exact h2, ih _ h3⟩

theorem eff_row (hn : n ≤ 2) (cs : List Crd) : ∀ (vs : List α) (g : SGrid α) (i : Int), Good n wraps radius tc g → Consec n wraps radius tc g i cs → vs.length = cs.length →
    ∃ m, setRow g.mem i (vs.map some) = .ok m ∧ Eff n wraps radius tc g ((cs.zip vs).map fun p => (some p.1, fun _ => p.2)) { g with mem := m } := by
  induction cs with
  | nil =>
    intro vs g i hg _ hl
    have : vs = [] := List.eq_nil_of_length_eq_zero hl
    subst this
    exact ⟨g.mem, rfl, Eff.nil hg⟩
  | cons c cs ih =>
    intro vs g i hg hc hl
    cases vs with
    | nil => simp at hl
    | cons v vs =>
      obtain ⟨h1, h2, h3⟩ := hc
      obtain ⟨_, m1, _, e1, hE⟩ := eff_put hg hn c h1 (fun _ => v) i h2
      obtain ⟨m2, e2, hE2⟩ := ih vs { g with mem := m1 } (i + 1) hE.good (consec_frame (g := g) (g' := { g with mem := m1 }) rfl rfl _ _ h3) (by simpa using hl)
      refine ⟨m2, ?_, ?_⟩
      · rw [List.map_cons, setRow, e1]; exact e2
      · exact Eff.append hE hE2

theorem eff_memberRow (hn : n ≤ 2) (put : α → β → α) (cs : List Crd) : ∀ (vs : List β) (g : SGrid α) (i : Int), Good n wraps radius tc g → Consec n wraps radius tc g i cs →
    vs.length = cs.length →
    ∃ m, memberRow put g.mem i vs = .ok m ∧ Eff n wraps radius tc g ((cs.zip vs).map fun p => (some p.1, fun v => put v p.2)) { g with mem := m } := by
  induction cs with
  | nil =>
    intro vs g i hg _ hl
    have : vs = [] := List.eq_nil_of_length_eq_zero hl
    subst this
    exact ⟨g.mem, rfl, Eff.nil hg⟩
  | cons c cs ih =>
    intro vs g i hg hc hl
    cases vs with
    | nil => simp at hl
    | cons v vs =>
      obtain ⟨h1, h2, h3⟩ := hc
      obtain ⟨w, m1, e0, e1, hE⟩ := eff_put hg hn c h1 (fun w => put w v) i h2
      obtain ⟨m2, e2, hE2⟩ := ih vs { g with mem := m1 } (i + 1) hE.good (consec_frame (g := g) (g' := { g with mem := m1 }) rfl rfl _ _ h3) (by simpa using hl)
      refine ⟨m2, ?_, ?_⟩
      · rw [memberRow, e0]; simp only [Except.bind]; rw [e1]; exact e2
      · exact Eff.append hE hE2

theorem getRow_spec {g : SGrid α} (hg : Good n wraps radius tc g) (cs : List Crd) : ∀ (i : Int), Consec n wraps radius tc g i cs → (∀ c ∈ cs, Addr n wraps tc (fr g) (some c)) →
    ∃ l, getRow g.mem i cs.length = .ok l ∧ l.map .ok = cs.map (soaGet n wraps radius tc g) := by
  induction cs with
  | nil => intro i _ _; exact ⟨[], rfl, rfl⟩
  | cons c cs ih =>
    intro i h ha
    obtain ⟨h1, h2, h3⟩ := h
    obtain ⟨l, e, hl⟩ := ih (i + 1) h3 (fun c hc => ha c (List.mem_cons_of_mem _ hc))
    obtain ⟨v, ev⟩ := cell_ok hg.ok h1.2
    refine ⟨v :: l, ?_, ?_⟩
    · have : memAt g.mem i = .ok v := by rw [h2]; exact ev
      rw [List.length_cons, getRow, this]
      simp only [Except.bind]
      rw [e]
    · rw [List.map_cons, List.map_cons, hl, get_in hg (ha c (List.mem_cons_self ..)) h1, ev]

/-! ## streaks and regions -/

theorem genIdx_upd (g : SGrid α) (c : Crd) (x : Int) : genIdx n wraps radius g (upd c 0 x) = genIdx n wraps radius g c + (x - c 0) := by
  unfold genIdx
  rw [lin2, lin2]
  simp [upd]
  ring

theorem mem_coordsFrom (s : Streak) (m : Nat) (x : Int) (c : Crd) : c ∈ coordsFrom s m x ↔ ∃ j : Nat, j < m ∧ c = upd s.origin 0 (x + j) := by
  induction m generalizing x with
  | zero => simp [coordsFrom]
  | succ m ih =>
    rw [coordsFrom, List.mem_cons, ih]
    constructor
    · rintro (rfl | ⟨j, hj, rfl⟩)
      · exact ⟨0, by omega, by simp⟩
      · exact ⟨j + 1, by omega, by congr 1; push_cast; ring⟩
    · rintro ⟨j, hj, rfl⟩
      cases j with
      | zero => exact Or.inl (by simp)
      | succ j => exact Or.inr ⟨j, by omega, by congr 1; push_cast; ring⟩

theorem straight_consec {g : SGrid α} (s : Streak) (m : Nat) : ∀ x, (∀ c ∈ coordsFrom s m x, SIn n wraps tc (fr g) c ∧ place wraps tc (fr g) c 0 = place wraps tc (fr g) s.origin 0 + (c 0 - s.origin 0)) →
    Consec n wraps radius tc g (genIdx n wraps radius g (place wraps tc (fr g) s.origin) + (x - s.origin 0)) (coordsFrom s m x) := by
  induction m with
  | zero => intro x _; trivial
  | succ m ih =>
    intro x h
    rw [coordsFrom] at h ⊢
    obtain ⟨h1, h2⟩ := h _ (List.mem_cons_self ..)
    refine ⟨h1, ?_, ?_⟩
    · have e : place wraps tc (fr g) (upd s.origin 0 x) = upd (place wraps tc (fr g) s.origin) 0 (place wraps tc (fr g) s.origin 0 + (x - s.origin 0)) := by
        funext k
        by_cases hk : k = 0
        · subst hk
          rw [h2]; simp [upd]
        · simp [place, upd, hk]
      rw [e, genIdx_upd]
      ring
    · have := ih (x + 1) fun c hc => h c (List.mem_cons_of_mem _ hc)
      rw [show genIdx n wraps radius g (place wraps tc (fr g) s.origin) + (x - s.origin 0) + 1 =
        genIdx n wraps radius g (place wraps tc (fr g) s.origin) + (x + 1 - s.origin 0) by ring]
      exact this

theorem origin_mem (s : Streak) (h : s.origin 0 < s.endX) : s.origin ∈ coordsOf s := by
  unfold coordsOf
  rw [mem_coordsFrom]
  exact ⟨0, by omega, by simp [upd_self]⟩

theorem streak_start {g : SGrid α} (hg : Good n wraps radius tc g) (s : Streak) (hs : s.origin 0 < s.endX) (h : Straight n wraps tc (fr g) s) :
    genIdx n wraps radius g (soaRel n wraps tc g s.origin) = genIdx n wraps radius g (place wraps tc (fr g) s.origin) ∧
      Consec n wraps radius tc g (genIdx n wraps radius g (soaRel n wraps tc g s.origin)) (coordsOf s) := by
  obtain ⟨h1, h2, _⟩ := h _ (origin_mem s hs)
  have e := idx_congr (wraps := wraps) (radius := radius) g (rel_in hg h1 h2)
  refine ⟨e, ?_⟩
  rw [e]
  have := straight_consec (radius := radius) (g := g) s (s.endX - s.origin 0).toNat (s.origin 0) (fun c hc => ⟨(h c hc).2.1, (h c hc).2.2⟩)
  rw [sub_self, add_zero] at this
  exact this

theorem eff_streak (hn : n ≤ 2) {g : SGrid α} (hg : Good n wraps radius tc g) (s : Streak) (src : List α) (hs : s.origin 0 < s.endX) (hl : s.endX - s.origin 0 ≤ src.length)
    (h : Straight n wraps tc (fr g) s) :
    ∃ g', soaSetStreak n wraps radius tc g s src = .ok g' ∧ Eff n wraps radius tc g (((coordsOf s).zip src).map fun p => (some p.1, fun _ => p.2)) g' := by
  obtain ⟨_, h2⟩ := streak_start hg s hs h
  have hlen := coordsOf_length s
  obtain ⟨m, e, hE⟩ := eff_row hn (coordsOf s) (src.take (s.endX - s.origin 0).toNat) g _ hg h2 (by rw [List.length_take]; omega)
  refine ⟨{ g with mem := m }, ?_, ?_⟩
  · unfold soaSetStreak
    rw [if_pos hl, e]
    rfl
  · have ez : (coordsOf s).zip src = (coordsOf s).zip (src.take (s.endX - s.origin 0).toNat) := by
      rw [← hlen]
      conv_lhs => rw [← List.take_append_drop (coordsOf s).length src]
      rw [← List.append_nil (coordsOf s), List.zip_append (by simp; omega)]
      simp
    rw [ez]
    exact hE

/-- cells of a streak, displaced -/
def offCoords (off : Crd) (s : Streak) : List Crd := (coordsOf s).map fun c k => c k + off k

theorem direct_consec {g : SGrid α} (off : Crd) (s : Streak) (m : Nat) : ∀ x, (∀ c ∈ (coordsFrom s m x).map fun c k => c k + off k, Direct n tc (fr g) c) →
    Consec n wraps radius tc g (genIdx n wraps radius g (fun k => -g.org k + off k + s.origin k) + (x - s.origin 0)) ((coordsFrom s m x).map fun c k => c k + off k) := by
  induction m with
  | zero => intro x _; trivial
  | succ m ih =>
    intro x h
    rw [coordsFrom, List.map_cons] at h ⊢
    obtain ⟨_, h2, h3⟩ := direct_in (wraps := wraps) (h _ (List.mem_cons_self ..))
    refine ⟨h2, ?_, ?_⟩
    · rw [idx_congr g h3]
      have e : (fun k => upd s.origin 0 x k + off k - (fr g).org k) = upd (fun k => -g.org k + off k + s.origin k) 0 (-g.org 0 + off 0 + x) := by
        funext k
        by_cases hk : k = 0
        · subst hk; simp [upd, fr]; ring
        · simp [upd, hk, fr]; ring
      rw [e, genIdx_upd]
      ring
    · have := ih (x + 1) fun c hc => h c (List.mem_cons_of_mem _ hc)
      rw [show genIdx n wraps radius g (fun k => -g.org k + off k + s.origin k) + (x - s.origin 0) + 1 =
        genIdx n wraps radius g (fun k => -g.org k + off k + s.origin k) + (x + 1 - s.origin 0) by ring]
      exact this

theorem row_consec {g : SGrid α} (off : Crd) (s : Streak) (h : ∀ c ∈ offCoords off s, Direct n tc (fr g) c) :
    Consec n wraps radius tc g (genIdx n wraps radius g (fun k => -g.org k + off k + s.origin k)) (offCoords off s) := by
  have := direct_consec (wraps := wraps) (radius := radius) (g := g) off s (s.endX - s.origin 0).toNat (s.origin 0) h
  rw [sub_self, add_zero] at this
  exact this

theorem offCoords_length (off : Crd) (s : Streak) : (offCoords off s).length = (s.endX - s.origin 0).toNat := by
  unfold offCoords; rw [List.length_map, coordsOf_length]

theorem regionRows_cons (g : SGrid α) (off : Crd) (s : Streak) (ss : List Streak) : regionRows n wraps radius g off (s :: ss) =
    (genIdx n wraps radius g (fun k => -g.org k + off k + s.origin k), (s.endX - s.origin 0).toNat) :: regionRows n wraps radius g off ss := rfl

theorem regionRows_frame {g g' : SGrid α} (hf : fr g' = fr g) (he : g'.ext = g.ext) (off : Crd) (ss : List Streak) : regionRows n wraps radius g' off ss = regionRows n wraps radius g off ss := by
  have : g'.org = g.org := congrArg Frame.org hf
  unfold regionRows
  rw [he, this]

theorem eff_loadRows (hn : n ≤ 2) (off : Crd) (ss : List Streak) : ∀ (b : List α) (g : SGrid α), Good n wraps radius tc g → (∀ c ∈ ss.flatMap (offCoords off), Direct n tc (fr g) c) →
    (ss.flatMap (offCoords off)).length ≤ b.length →
    ∃ m, loadRows (regionRows n wraps radius g off ss) b g.mem = .ok m ∧
      Eff n wraps radius tc g (((ss.flatMap (offCoords off)).zip b).map fun p => (some p.1, fun _ => p.2)) { g with mem := m } := by
  induction ss with
  | nil => intro b g hg _ _; exact ⟨g.mem, rfl, Eff.nil hg⟩
  | cons s ss ih =>
    intro b g hg hd hl
    rw [List.flatMap_cons] at hd hl ⊢
    rw [List.length_append, offCoords_length] at hl
    obtain ⟨m1, e1, hE1⟩ := eff_row hn (offCoords off s) (b.take (s.endX - s.origin 0).toNat) g _ hg (row_consec off s fun c hc => hd c (List.mem_append_left _ hc))
      (by rw [List.length_take, offCoords_length]; omega)
    obtain ⟨m2, e2, hE2⟩ := ih (b.drop (s.endX - s.origin 0).toNat) { g with mem := m1 } hE1.good (fun c hc => hd c (List.mem_append_right _ hc)) (by rw [List.length_drop]; omega)
    refine ⟨m2, ?_, ?_⟩
    · rw [regionRows_cons, loadRows, if_pos (by simp only; omega), e1]
      exact e2
    · have := Eff.append hE1 hE2
      rw [← List.map_append, ← List.zip_append (by rw [List.length_take, offCoords_length]; omega), List.take_append_drop] at this
      exact this

theorem eff_memberRows (hn : n ≤ 2) (put : α → β → α) (off : Crd) (ss : List Streak) : ∀ (b : List β) (g : SGrid α), Good n wraps radius tc g →
    (∀ c ∈ ss.flatMap (offCoords off), Direct n tc (fr g) c) → (ss.flatMap (offCoords off)).length ≤ b.length →
    ∃ m, memberRows put (regionRows n wraps radius g off ss) b g.mem = .ok m ∧
      Eff n wraps radius tc g (((ss.flatMap (offCoords off)).zip b).map fun p => (some p.1, fun v => put v p.2)) { g with mem := m } := by
  induction ss with
  | nil => intro b g hg _ _; exact ⟨g.mem, rfl, Eff.nil hg⟩
  | cons s ss ih =>
    intro b g hg hd hl
    rw [List.flatMap_cons] at hd hl ⊢
    rw [List.length_append, offCoords_length] at hl
    obtain ⟨m1, e1, hE1⟩ := eff_memberRow hn put (offCoords off s) (b.take (s.endX - s.origin 0).toNat) g _ hg (row_consec off s fun c hc => hd c (List.mem_append_left _ hc))
      (by rw [List.length_take, offCoords_length]; omega)
    obtain ⟨m2, e2, hE2⟩ := ih (b.drop (s.endX - s.origin 0).toNat) { g with mem := m1 } hE1.good (fun c hc => hd c (List.mem_append_right _ hc)) (by rw [List.length_drop]; omega)
    refine ⟨m2, ?_, ?_⟩
    · rw [regionRows_cons, memberRows, if_pos (by simp only; omega), e1]
      exact e2
    · have := Eff.append hE1 hE2
      rw [← List.map_append, ← List.zip_append (by rw [List.length_take, offCoords_length]; omega), List.take_append_drop] at this
      exact this

theorem place_congr {f : Frame} {a b : Crd} (h : ∀ k, k ≤ n → a k = b k) (k : Nat) (hk : k ≤ n) : place wraps tc f a k = place wraps tc f b k := by
  unfold place; rw [h k hk]

theorem sout_congr {f : Frame} {a b : Crd} (h : ∀ k, k ≤ n → a k = b k) (ha : SOut n wraps tc f a) : SOut n wraps tc f b := by
  rcases ha with ⟨ht, h'⟩ | h'
  · exact Or.inl ⟨ht, outside_congr (fun k hk => by rw [h k hk]) h'⟩
  · exact Or.inr (outside_congr (fun k hk => by rw [h k hk]) h')

theorem sin_congr {f : Frame} {a b : Crd} (h : ∀ k, k ≤ n → a k = b k) (ha : SIn n wraps tc f a) : SIn n wraps tc f b :=
  ⟨fun hb => ha.1 (sout_congr (fun k hk => (h k hk).symm) hb), inDim_congr (place_congr h) ha.2⟩

theorem hit_congr {f : Frame} {a b : Crd} (h : ∀ k, k ≤ n → a k = b k) (d : Option Crd) (ha : Hit n wraps tc f (some a) d) : Hit n wraps tc f (some b) d := by
  rcases ha with ⟨h1, h2⟩ | ⟨c, d', h1, h2, h3, h4, h5⟩
  · exact Or.inl ⟨sout_congr h h1, h2⟩
  · cases h1
    exact Or.inr ⟨b, d', rfl, h2, sin_congr h h3, h4, fun k hk => by rw [← place_congr h k hk]; exact h5 k hk⟩

theorem replay_congr (f : Frame) (a b : List Crd) (h : a.map (restrict n) = b.map (restrict n)) (F : β → α → α) (l : List β) (d : Option Crd) (v : α) :
    replay n wraps tc f ((a.zip l).map fun p => (some p.1, F p.2)) d v = replay n wraps tc f ((b.zip l).map fun p => (some p.1, F p.2)) d v := by
  induction a generalizing b l v with
  | nil =>
    cases b with
    | nil => rfl
    | cons _ _ => simp at h
  | cons c a ih =>
    cases b with
    | nil => simp at h
    | cons c' b =>
      rw [List.map_cons, List.map_cons] at h
      obtain ⟨h1, h2⟩ := List.cons.inj h
      cases l with
      | nil => rfl
      | cons x l =>
        have hk : ∀ k, k ≤ n → c k = c' k := fun k hk => congrFun h1 ⟨k, by omega⟩
        have e : Hit n wraps tc f (some c) d ↔ Hit n wraps tc f (some c') d := ⟨hit_congr hk d, hit_congr (fun k hk' => (hk k hk').symm) d⟩
        have := fun v => ih b h2 l v
        unfold replay at this ⊢
        rw [List.zip_cons_cons, List.zip_cons_cons, List.map_cons, List.map_cons, List.foldl_cons, List.foldl_cons]
        rw [this]
        congr 1
        by_cases hh : Hit n wraps tc f (some c) d
        · rw [if_pos hh, if_pos (e.mp hh)]
        · rw [if_neg hh, if_neg fun h => hh (e.mpr h)]

theorem region_streaks (r : Idx) (hr : RegOK n r) (off : Crd) :
    ∃ ss, streaksOf n r = .ok ss ∧ (ss.flatMap (offCoords off)).map (restrict n) = (regionCells n r off).map (restrict n) := by
  obtain ⟨ss, e, _, h⟩ := streaks_spec r hr (fun _ => 0)
  refine ⟨ss, by unfold streaksOf; rw [e], ?_⟩
  have h' := congrArg (List.map fun (c : Vec n) (k : Fin (n + 1)) => c k + off k) h
  unfold regionCells at h' ⊢
  simp only [List.map_map, List.map_flatMap, offCoords] at h' ⊢
  have e1 : (fun (c : Vec n) (k : Fin (n + 1)) => c k + off k) ∘ restrict n = restrict n ∘ fun (c : Crd) k => c k + off k := rfl
  simp only [e1] at h'
  rw [h']
  apply List.map_congr_left
  intro c _
  funext k
  simp [restrict]

theorem direct_congr {f : Frame} {a b : Crd} (h : ∀ k, k ≤ n → a k = b k) (ha : Direct n tc f a) : Direct n tc f b :=
  ⟨inDim_congr (fun k hk => by rw [h k hk]) ha.1, fun ht => inDim_congr (fun k hk => by rw [h k hk]) (ha.2 ht)⟩

theorem region_ready {g : SGrid α} (r : Idx) (hr : RegOK n r) (off : Crd) (hd : ∀ c ∈ regionCells n r off, Direct n tc (fr g) c) :
    ∃ ss, streaksOf n r = .ok ss ∧ (ss.flatMap (offCoords off)).map (restrict n) = (regionCells n r off).map (restrict n) ∧
      (ss.flatMap (offCoords off)).length = (regionCells n r off).length ∧ ∀ c ∈ ss.flatMap (offCoords off), Direct n tc (fr g) c := by
  obtain ⟨ss, e, h⟩ := region_streaks r hr off
  refine ⟨ss, e, h, by simpa only [List.length_map] using congrArg List.length h, fun c hc => ?_⟩
  obtain ⟨d, hd', hk⟩ := mem_restrict h hc
  exact direct_congr hk (hd d hd')

theorem rows_sum (g : SGrid α) (off : Crd) (ss : List Streak) : ((regionRows n wraps radius g off ss).map (·.2)).sum = (ss.flatMap (offCoords off)).length := by
  induction ss with
  | nil => rfl
  | cons s ss ih =>
    rw [regionRows_cons, List.map_cons, List.sum_cons, ih, List.flatMap_cons, List.length_append, offCoords_length]

theorem exec_eff (hn : n ≤ 2) (put : α → β → α) {g : SGrid α} (hg : Good n wraps radius tc g) (op : Op α β) (h : op.OK n wraps tc (fr g)) :
    ∃ g', exec n wraps radius tc put g op = .ok g' ∧ Eff n wraps radius tc g (op.writes n put) g' := by
  cases op with
  | set c v =>
    simp only [exec, Op.writes]
    have hc : Addr n wraps tc (fr g) (some c) := h
    unfold soaSet
    simp only
    rcases hc.2 with ho | hi
    · rw [if_pos ((outOfBounds_iff _ _ _ _).mpr (rel_out hg hc ho))]
      exact eff_edge hg v (some c) ho
    · have e := rel_in hg hc hi
      have hno : ¬ outOfBounds n wraps (soaRel n wraps tc g c) g.dim = true := fun hh => not_outside_of_inDim hi.2 (outside_congr e ((outOfBounds_iff _ _ _ _).mp hh))
      rw [if_neg hno, idx_congr g e]
      obtain ⟨_, m, _, e1, hE⟩ := eff_put hg hn c hi (fun _ => v) _ rfl
      exact ⟨_, by rw [e1]; rfl, hE⟩
  | setEdge v => exact eff_edge hg v none trivial
  | setStreak s src =>
    obtain ⟨h1, h2, h3⟩ := h
    exact eff_streak hn hg s src h1 h2 h3
  | loadRegion b r off =>
    obtain ⟨h1, h2, h3⟩ := h
    obtain ⟨ss, e, h4, h5, h6⟩ := region_ready r h1 off h3
    obtain ⟨m, e1, hE⟩ := eff_loadRows hn off ss b g hg h6 (by omega)
    refine ⟨{ g with mem := m }, ?_, hE.good, hE.frame, hE.ext, fun d hd => ?_⟩
    · simp only [exec, soaLoad]
      rw [e]
      simp only [Except.bind]
      rw [if_neg (by rw [rows_sum]; omega), e1]
    · obtain ⟨v, e2, e3⟩ := hE.reads d hd
      refine ⟨v, e2, ?_⟩
      rw [e3, Op.writes]
      rw [replay_congr (fr g) _ _ h4 (fun (x : α) _ => x) b d v]
  | loadMember b r =>
    obtain ⟨h1, h2, h3⟩ := h
    obtain ⟨ss, e, h4, h5, h6⟩ := region_ready r h1 (fun _ => 0) h3
    obtain ⟨m, e1, hE⟩ := eff_memberRows hn put (fun _ => 0) ss b g hg h6 (by omega)
    refine ⟨{ g with mem := m }, ?_, hE.good, hE.frame, hE.ext, fun d hd => ?_⟩
    · simp only [exec, soaLoadMember]
      rw [e]
      simp only [Except.bind]
      rw [e1]
    · obtain ⟨v, e2, e3⟩ := hE.reads d hd
      refine ⟨v, e2, ?_⟩
      rw [e3, Op.writes]
      rw [replay_congr (fr g) _ _ h4 (fun (x : β) v => put v x) b d v]

/-! ## theorems -/

/-- **C47, histories.** After any sequence of writes of cells, streaks, regions, members and of the edge cell, none of which causes undefined behaviour or an exception, reads
(`get`, `getEdge`) return what they returned before, modified by those writes which hit the same cell. -/
theorem history (hn : n ≤ 2) (put : α → β → α) (g : SGrid α) (hg : Good n wraps radius tc g) (ops : List (Op α β)) (h : ∀ op ∈ ops, op.OK n wraps tc (fr g)) :
    ∃ g', run n wraps radius tc put g ops = .ok g' ∧ Good n wraps radius tc g' ∧ fr g' = fr g ∧
      ∀ d, Addr n wraps tc (fr g) d → ∃ v, read n wraps radius tc g d = .ok v ∧
        read n wraps radius tc g' d = .ok (replay n wraps tc (fr g) (ops.flatMap (Op.writes n put)) d v) := by
  have key : ∀ (ops : List (Op α β)) (g : SGrid α), Good n wraps radius tc g → (∀ op ∈ ops, op.OK n wraps tc (fr g)) →
      ∃ g', run n wraps radius tc put g ops = .ok g' ∧ Eff n wraps radius tc g (ops.flatMap (Op.writes n put)) g' := by
    intro ops
    induction ops with
    | nil => intro g hg _; exact ⟨g, rfl, Eff.nil hg⟩
    | cons op ops ih =>
      intro g hg h
      obtain ⟨g1, e1, hE1⟩ := exec_eff hn put hg op (h op (List.mem_cons_self ..))
      obtain ⟨g2, e2, hE2⟩ := ih g1 hE1.good (fun op' ho => by rw [hE1.frame]; exact h op' (List.mem_cons_of_mem _ ho))
      refine ⟨g2, ?_, ?_⟩
      · unfold run at e2 ⊢
        rw [List.foldlM_cons, e1]
        exact e2
      · rw [List.flatMap_cons]
        exact Eff.append hE1 hE2
  obtain ⟨g', e, hE⟩ := key ops g hg h
  exact ⟨g', e, hE.good, hE.frame, hE.reads⟩

/-- **C47, new grids.** A new grid contains the default cell everywhere and the edge cell outside; `fit` are the extents chosen by the flat array. -/
theorem fresh (org dim topo fit : Crd) (hd : ∀ k, k ≤ n → 0 < dim k) (ht : tc = true → ∀ k, k ≤ n → 0 < topo k)
    (hf : ∀ k, k < 3 → actualDim n wraps radius dim k ≤ fit k) (junk default edge : α) :
    ∃ g, soaMake n wraps radius org dim topo fit junk default edge = .ok g ∧ Good n wraps radius tc g ∧ fr g = ⟨org, dim, topo⟩ ∧ g.edge = edge ∧
      ∀ c, Addr n wraps tc ⟨org, dim, topo⟩ (some c) → (SOut n wraps tc ⟨org, dim, topo⟩ c → soaGet n wraps radius tc g c = .ok edge) ∧
        (SIn n wraps tc ⟨org, dim, topo⟩ c → soaGet n wraps radius tc g c = .ok default) := by
  have hpos : 0 ≤ vol fit 2 0 := by
    have h0 : Phys (actualDim n wraps radius dim) (pos n wraps radius fun _ => 0) := pos_phys fun k hk => ⟨le_refl _, hd k hk⟩
    have := lin_range (h0.mono hf)
    omega
  obtain ⟨m, e, hl, hp⟩ := setContent_spec (actualDim n wraps radius dim) (edgeRadii n wraps radius) fit (gdim_ok (fun k hk => by have := hd k hk; omega)) hf true edge default
    (List.replicate (vol fit 2 0).toNat junk) (by rw [List.length_replicate]; omega)
  have hg : Good n wraps radius tc (⟨org, dim, topo, fit, edge, m⟩ : SGrid α) :=
    ⟨⟨hd, hf, by simp only [hl, List.length_replicate]; omega, fun p h1 h2 => (hp p h1).1 h2⟩, ht⟩
  refine ⟨⟨org, dim, topo, fit, edge, m⟩, by unfold soaMake; rw [e]; rfl, hg, rfl, rfl, fun c hc => ⟨fun ho => get_out hg hc ho, fun hi => ?_⟩⟩
  rw [get_in hg hc hi]
  have := (hp _ (pos_phys hi.2)).2 (pos_inner hi.2)
  simpa [cell, genIdx_eq, fr] using this

/-- **C47, resize.** The edge cell survives, also in the padding; if the extents don't change, the cells keep their positions relative to the origin. -/
theorem resize_spec (g : SGrid α) (hg : Good n wraps radius tc g) (org dim fit : Crd) (hd : ∀ k, k ≤ n → 0 < dim k) (hf : ∀ k, k < 3 → actualDim n wraps radius dim k ≤ fit k) (junk : α) :
    ∃ g', soaResize n wraps radius g org dim fit junk = .ok g' ∧ Good n wraps radius tc g' ∧ fr g' = ⟨org, dim, g.topo⟩ ∧ g'.edge = g.edge ∧
      ((∀ k, k ≤ n → dim k = g.dim k) → ∀ c d, Addr n wraps tc (fr g) (some c) → Addr n wraps tc (fr g') (some d) → SIn n wraps tc (fr g) c → SIn n wraps tc (fr g') d →
        (∀ k, k ≤ n → c k - g.org k = d k - org k) → soaGet n wraps radius tc g' d = soaGet n wraps radius tc g c) := by
  have hpos : 0 ≤ vol fit 2 0 := by
    have h0 : Phys (actualDim n wraps radius dim) (pos n wraps radius fun _ => 0) := pos_phys fun k hk => ⟨le_refl _, hd k hk⟩
    have := lin_range (h0.mono hf)
    omega
  have hsame : ((List.range 3).all fun k => decide (actualDim n wraps radius g.dim k = actualDim n wraps radius dim k)) = true ↔
      ∀ k, k < 3 → actualDim n wraps radius g.dim k = actualDim n wraps radius dim k := by
    simp [List.all_eq_true]
  unfold soaResize
  simp only
  by_cases hs : ((List.range 3).all fun k => decide (actualDim n wraps radius g.dim k = actualDim n wraps radius dim k)) = true
  · simp only [if_pos hs]
    have hs' := hsame.mp hs
    have hf' : ∀ k, k < 3 → actualDim n wraps radius dim k ≤ g.ext k := fun k hk => by rw [← hs' k hk]; exact hg.ok.fits k hk
    obtain ⟨m, e, hl, hp⟩ := setContent_spec (actualDim n wraps radius dim) (edgeRadii n wraps radius) g.ext (gdim_ok (fun k hk => by have := hd k hk; omega)) hf' false g.edge g.edge
      g.mem hg.ok.size
    have hg' : Good n wraps radius tc (⟨org, dim, g.topo, g.ext, g.edge, m⟩ : SGrid α) :=
      ⟨⟨hd, hf', by simp only [hl]; exact hg.ok.size, fun p h1 h2 => (hp p h1).1 h2⟩, hg.topo⟩
    refine ⟨⟨org, dim, g.topo, g.ext, g.edge, m⟩, by rw [e]; rfl, hg', rfl, rfl, fun _ c d hc hd' hci hdi hk => ?_⟩
    rw [get_in hg' hd' hdi, get_in hg hc hci]
    have hpl : ∀ k, k ≤ n → place wraps tc (fr (⟨org, dim, g.topo, g.ext, g.edge, m⟩ : SGrid α)) d k = place wraps tc (fr g) c k := by
      intro k hk'
      have := hk k hk'
      unfold place fr
      simp only
      rw [← this]
    have := (hp _ (pos_phys hdi.2)).2 (pos_inner hdi.2)
    simp only [Bool.false_eq_true, if_false] at this
    unfold cell
    rw [genIdx_eq]
    rw [this, ← genIdx_eq, idx_congr g hpl]
  · simp only [if_neg hs]
    obtain ⟨m, e, hl, hp⟩ := setContent_spec (actualDim n wraps radius dim) (edgeRadii n wraps radius) fit (gdim_ok (fun k hk => by have := hd k hk; omega)) hf false g.edge g.edge
      (List.replicate (vol fit 2 0).toNat junk) (by rw [List.length_replicate]; omega)
    refine ⟨⟨org, dim, g.topo, fit, g.edge, m⟩, by rw [e]; rfl, ⟨⟨hd, hf, by simp only [hl, List.length_replicate]; omega, fun p h1 h2 => (hp p h1).1 h2⟩, hg.topo⟩, rfl, rfl, ?_⟩
    intro hdim
    refine (hs (hsame.mpr fun k _ => ?_)).elim
    unfold actualDim
    split
    · rename_i hk; rw [hdim k hk]
    · rfl

/-- **C47, streak-wise reads.** Reading a streak which is not cut by a periodic boundary is the same as reading its cells one by one. -/
theorem streak_reads (g : SGrid α) (hg : Good n wraps radius tc g) (s : Streak) (hs : s.origin 0 < s.endX) (h : Straight n wraps tc (fr g) s) :
    ∃ l, soaGetStreak n wraps radius tc g s = .ok l ∧ l.map .ok = (coordsOf s).map (soaGet n wraps radius tc g) := by
  obtain ⟨_, h2⟩ := streak_start hg s hs h
  obtain ⟨l, e, hl⟩ := getRow_spec hg (coordsOf s) _ h2 (fun c hc => (h c hc).1)
  refine ⟨l, ?_, hl⟩
  unfold soaGetStreak
  rw [← coordsOf_length]
  exact e

theorem get_congr (g : SGrid α) {a b : Crd} (h : ∀ k, k ≤ n → a k = b k) : soaGet n wraps radius tc g a = soaGet n wraps radius tc g b := by
  have hr : ∀ k, k ≤ n → soaRel n wraps tc g a k = soaRel n wraps tc g b k := by
    intro k hk
    unfold soaRel
    split
    · have e : outOfBounds n wraps (fun k => a k - g.org k) g.topo = outOfBounds n wraps (fun k => b k - g.org k) g.topo := by
        rw [Bool.eq_iff_iff, outOfBounds_iff, outOfBounds_iff]
        exact ⟨outside_congr fun k hk => by rw [h k hk], outside_congr fun k hk => by rw [h k hk]⟩
      unfold topoNormalize
      rw [e]
      split
      · rfl
      · unfold normEdges; simp only; rw [h k hk]
    · simp only; rw [h k hk]
  unfold soaGet
  simp only
  rw [idx_congr g hr]
  have e : outOfBounds n wraps (soaRel n wraps tc g a) g.dim = outOfBounds n wraps (soaRel n wraps tc g b) g.dim := by
    rw [Bool.eq_iff_iff, outOfBounds_iff, outOfBounds_iff]
    exact ⟨outside_congr hr, outside_congr fun k hk => (hr k hk).symm⟩
  rw [e]

theorem map_get_congr (g : SGrid α) (a b : List Crd) (h : a.map (restrict n) = b.map (restrict n)) : a.map (soaGet n wraps radius tc g) = b.map (soaGet n wraps radius tc g) := by
  induction a generalizing b with
  | nil =>
    cases b with
    | nil => rfl
    | cons _ _ => simp at h
  | cons c a ih =>
    cases b with
    | nil => simp at h
    | cons d b =>
      rw [List.map_cons, List.map_cons] at h
      obtain ⟨h1, h2⟩ := List.cons.inj h
      rw [List.map_cons, List.map_cons, ih b h2, get_congr g (a := c) (b := d) fun k hk => congrFun h1 ⟨k, by omega⟩]

theorem saveRows_spec {g : SGrid α} (hg : Good n wraps radius tc g) (off : Crd) (ss : List Streak) (hd : ∀ c ∈ ss.flatMap (offCoords off), Direct n tc (fr g) c) :
    ∃ l, saveRows g.mem (regionRows n wraps radius g off ss) = .ok l ∧ l.map .ok = (ss.flatMap (offCoords off)).map (soaGet n wraps radius tc g) := by
  induction ss with
  | nil => exact ⟨[], rfl, rfl⟩
  | cons s ss ih =>
    rw [List.flatMap_cons] at hd ⊢
    obtain ⟨l2, e2, h2⟩ := ih fun c hc => hd c (List.mem_append_right _ hc)
    obtain ⟨l1, e1, h1⟩ := getRow_spec hg (offCoords off s) _ (row_consec (radius := radius) (wraps := wraps) off s fun c hc => hd c (List.mem_append_left _ hc))
      (fun c hc => (direct_in (hd c (List.mem_append_left _ hc))).1)
    rw [offCoords_length] at e1
    refine ⟨l1 ++ l2, ?_, by rw [List.map_append, List.map_append, h1, h2]⟩
    rw [regionRows_cons, saveRows, e1]
    simp only [Except.bind]
    rw [e2]

/-- **C47, `saveRegion`.** The buffer holds the cells of the region in iteration order. -/
theorem save_spec (g : SGrid α) (hg : Good n wraps radius tc g) (r : Idx) (hr : RegOK n r) (off : Crd) (hd : ∀ c ∈ regionCells n r off, Direct n tc (fr g) c) :
    ∃ l, soaSave n wraps radius g r off = .ok l ∧ l.map .ok = (regionCells n r off).map (soaGet n wraps radius tc g) := by
  obtain ⟨ss, e, h4, _, h6⟩ := region_ready r hr off hd
  obtain ⟨l, e1, h1⟩ := saveRows_spec hg off ss h6
  refine ⟨l, by unfold soaSave; rw [e]; exact e1, ?_⟩
  rw [h1, map_get_congr g _ _ h4]

/-- **C47, `saveMember`.** The target holds the member of the cells of the region in iteration order. -/
theorem save_member_spec (out : α → β) (g : SGrid α) (hg : Good n wraps radius tc g) (r : Idx) (hr : RegOK n r) (hd : ∀ c ∈ regionCells n r (fun _ => 0), Direct n tc (fr g) c) :
    ∃ l : List α, soaSaveMember n wraps radius out g r = .ok (l.map out) ∧ l.map .ok = (regionCells n r fun _ => 0).map (soaGet n wraps radius tc g) := by
  obtain ⟨ss, e, h4, _, h6⟩ := region_ready r hr (fun _ => 0) hd
  obtain ⟨l, e1, h1⟩ := saveRows_spec hg (fun _ => 0) ss h6
  refine ⟨l, by unfold soaSaveMember; rw [e]; simp only [Except.bind]; rw [e1], ?_⟩
  rw [h1, map_get_congr g _ _ h4]

/-- a buffer which is too small is rejected -/
theorem load_short (g : SGrid α) (b : List α) (r : Idx) (hr : RegOK n r) (off : Crd) (hl : b.length < (regionCells n r off).length) : soaLoad n wraps radius g b r off = .error .logicError := by
  obtain ⟨ss, e, h⟩ := region_streaks r hr off
  have : (ss.flatMap (offCoords off)).length = (regionCells n r off).length := by simpa only [List.length_map] using congrArg List.length h
  unfold soaLoad
  rw [e]
  simp only [Except.bind]
  rw [if_pos (by rw [rows_sum]; omega)]

theorem hit_in {f : Frame} {c d : Crd} (hc : SIn n wraps tc f c) (hd : SIn n wraps tc f d) :
    Hit n wraps tc f (some c) (some d) ↔ ∀ k, k ≤ n → place wraps tc f c k = place wraps tc f d k := by
  constructor
  · rintro (h | ⟨c', d', h, h', _, _, h''⟩)
    · exact (hc.1 h.1).elim
    · cases h; cases h'; exact h''
  · exact fun h => Or.inr ⟨c, d, rfl, rfl, hc, hd, h⟩

theorem replay_none {f : Frame} (ws : List (Option Crd × (α → α))) (d : Option Crd) (v : α) (h : ∀ w ∈ ws, ¬ Hit n wraps tc f w.1 d) : replay n wraps tc f ws d v = v := by
  unfold replay
  induction ws generalizing v with
  | nil => rfl
  | cons w ws ih =>
    rw [List.foldl_cons, if_neg (h w (List.mem_cons_self ..))]
    exact ih v fun w hw => h w (List.mem_cons_of_mem _ hw)

/-- one modification hits -/
theorem replay_one {f : Frame} (a b : List (Option Crd × (α → α))) (w : Option Crd × (α → α)) (d : Option Crd) (v : α) (ha : ∀ w ∈ a, ¬ Hit n wraps tc f w.1 d)
    (hb : ∀ w ∈ b, ¬ Hit n wraps tc f w.1 d) (hw : Hit n wraps tc f w.1 d) : replay n wraps tc f (a ++ w :: b) d v = w.2 v := by
  have h1 := replay_none a d v ha
  have h2 := replay_none b d (w.2 v) hb
  unfold replay at h1 h2 ⊢
  rw [List.foldl_append, h1, List.foldl_cons, if_pos hw, h2]

/-- one modification per cell of a region -/
theorem replay_region {f : Frame} (r : Idx) (hr : RegOK n r) (off : Crd) (hd : ∀ c ∈ regionCells n r off, Direct n tc f c) (F : β → α → α) (b : List β)
    (hl : (regionCells n r off).length ≤ b.length) :
    (∀ i, (h : i < (regionCells n r off).length) → ∀ v, replay n wraps tc f (((regionCells n r off).zip b).map fun p => (some p.1, F p.2)) (some (regionCells n r off)[i]) v = F (b[i]'(by omega)) v) ∧
    (∀ d, IsEdge n wraps tc f d → ∀ v, replay n wraps tc f (((regionCells n r off).zip b).map fun p => (some p.1, F p.2)) d v = v) ∧
    (∀ d, SIn n wraps tc f d → (∀ c ∈ regionCells n r off, ∃ k, k ≤ n ∧ place wraps tc f c k ≠ place wraps tc f d k) →
      ∀ v, replay n wraps tc f (((regionCells n r off).zip b).map fun p => (some p.1, F p.2)) (some d) v = v) := by
  refine ⟨fun i hi v => ?_, fun d hde v => ?_, fun d hdi hno v => ?_⟩
  · have hne : ∀ j, (hj : j < (regionCells n r off).length) → j ≠ i → ¬ Hit n wraps tc f (some (regionCells n r off)[j]) (some (regionCells n r off)[i]) := by
      intro j hj hji hh
      obtain ⟨_, i2, i3⟩ := direct_in (wraps := wraps) (hd _ (List.getElem_mem hi))
      obtain ⟨_, j2, j3⟩ := direct_in (wraps := wraps) (hd _ (List.getElem_mem hj))
      have hk := (hit_in j2 i2).mp hh
      obtain ⟨hi', ei⟩ := regionCells_getElem r off i hi
      obtain ⟨hj', ej⟩ := regionCells_getElem r off j hj
      have : (regCoords n r)[j] = (regCoords n r)[i] := ext_inj fun k hk' => by
        have h := hk k hk'
        rw [i3 k hk', j3 k hk', ei, ej] at h
        simp only at h
        omega
      exact hji ((List.Nodup.getElem_inj_iff (regCoords_nodup n r hr)).mp this)
    have hlen : (((regionCells n r off).zip b).map fun p => ((some p.1 : Option Crd), F p.2)).length = (regionCells n r off).length := by
      rw [List.length_map, List.length_zip]; omega
    have hi2 : i < (((regionCells n r off).zip b).map fun p => ((some p.1 : Option Crd), F p.2)).length := by rw [hlen]; exact hi
    have hsplit : (((regionCells n r off).zip b).map fun p => ((some p.1 : Option Crd), F p.2)) =
        (((regionCells n r off).zip b).map fun p => ((some p.1 : Option Crd), F p.2)).take i ++ (some (regionCells n r off)[i], F (b[i]'(by omega))) ::
          (((regionCells n r off).zip b).map fun p => ((some p.1 : Option Crd), F p.2)).drop (i + 1) := by
      conv_lhs => rw [← List.take_append_drop i (((regionCells n r off).zip b).map fun p => ((some p.1 : Option Crd), F p.2))]
      rw [List.drop_eq_getElem_cons hi2]
      simp
    rw [hsplit, replay_one]
    · intro w hw
      obtain ⟨j, hj, rfl⟩ := List.mem_iff_getElem.mp hw
      simp only [List.length_take, List.length_map, List.length_zip] at hj
      simp only [List.getElem_take, List.getElem_map, List.getElem_zip]
      exact hne j (by omega) (by omega)
    · intro w hw
      obtain ⟨j, hj, rfl⟩ := List.mem_iff_getElem.mp hw
      simp only [List.length_drop, List.length_map, List.length_zip] at hj
      simp only [List.getElem_drop, List.getElem_map, List.getElem_zip]
      exact hne (i + 1 + j) (by omega) (by omega)
    · obtain ⟨_, i2, _⟩ := direct_in (wraps := wraps) (hd _ (List.getElem_mem hi))
      exact (hit_in i2 i2).mpr fun _ _ => rfl
  · refine replay_none _ _ _ fun w hw => ?_
    obtain ⟨p, hp, rfl⟩ := List.mem_map.mp hw
    obtain ⟨_, c2, _⟩ := direct_in (wraps := wraps) (hd _ (List.of_mem_zip hp).1)
    rintro (h | ⟨c, d', h, h', _, h4, _⟩)
    · exact c2.1 h.1
    · cases h'; exact h4.1 hde
  · refine replay_none _ _ _ fun w hw => ?_
    obtain ⟨p, hp, rfl⟩ := List.mem_map.mp hw
    obtain ⟨_, c2, _⟩ := direct_in (wraps := wraps) (hd _ (List.of_mem_zip hp).1)
    obtain ⟨k, hk, hne⟩ := hno _ (List.of_mem_zip hp).1
    exact fun h => hne ((hit_in c2 hdi).mp h k hk)

/-- **C47, region transfer.** Cells of a region saved from one grid and loaded into another one: every cell of the region gets the value it has in the source, all other
cells and the edge cell keep their values. -/
theorem roundtrip (hn : n ≤ 2) (g1 g2 : SGrid α) (hg1 : Good n wraps radius tc g1) (hg2 : Good n wraps radius tc g2) (r : Idx) (hr : RegOK n r) (off1 off2 : Crd)
    (h1 : ∀ c, RMem n r c → Direct n tc (fr g1) fun k => c k + off1 k) (h2 : ∀ c, RMem n r c → Direct n tc (fr g2) fun k => c k + off2 k) :
    ∃ b g', soaSave n wraps radius g1 r off1 = .ok b ∧ soaLoad n wraps radius g2 b r off2 = .ok g' ∧ Good n wraps radius tc g' ∧ fr g' = fr g2 ∧ g'.edge = g2.edge ∧
      (∀ c, RMem n r c → soaGet n wraps radius tc g' (fun k => c k + off2 k) = soaGet n wraps radius tc g1 (fun k => c k + off1 k)) ∧
      (∀ c, Direct n tc (fr g2) c → ¬ RMem n r (fun k => c k - off2 k) → soaGet n wraps radius tc g' c = soaGet n wraps radius tc g2 c) := by
  have hd : ∀ (off : Crd) (f : Frame), (∀ c, RMem n r c → Direct n tc f fun k => c k + off k) → ∀ c ∈ regionCells n r off, Direct n tc f c := by
    intro off f h c hc
    obtain ⟨v, hv, rfl⟩ := List.mem_map.mp hc
    exact h _ (((regCoords_spec n r hr).2 v).mp hv)
  obtain ⟨b, eb, hb⟩ := save_spec g1 hg1 r hr off1 (hd off1 _ h1)
  have hlen : b.length = (regCoords n r).length := by
    have := congrArg List.length hb
    simpa [regionCells_length] using this
  obtain ⟨g', e, hE⟩ := exec_eff hn (fun (v : α) (_ : Unit) => v) hg2 (.loadRegion b r off2) ⟨hr, by rw [regionCells_length]; omega, hd off2 _ h2⟩
  obtain ⟨r1, r2, r3⟩ := replay_region (wraps := wraps) r hr off2 (hd off2 _ h2) (fun (x : α) _ => x) b (by rw [regionCells_length]; omega)
  refine ⟨b, g', eb, e, hE.good, hE.frame, ?_, fun c hc => ?_, fun c hc hno => ?_⟩
  · obtain ⟨v, e1, e2⟩ := hE.reads none trivial
    rw [Op.writes, r2 none trivial] at e2
    rw [read] at e1 e2
    rw [← e1] at e2
    exact Except.ok.inj e2
  · obtain ⟨i, hi, e5⟩ := List.mem_iff_getElem.mp (((regCoords_spec n r hr).2 (restrict n c)).mpr (rmem_congr hr (fun k hk => (ext_restrict n c k hk).symm) hc))
    have hi1 : i < (regionCells n r off1).length := by rw [regionCells_length]; exact hi
    have hi2 : i < (regionCells n r off2).length := by rw [regionCells_length]; exact hi
    have hk : ∀ k, k ≤ n → ext (regCoords n r)[i] k = c k := fun k hk => by rw [e5]; exact ext_restrict n c k hk
    obtain ⟨_, ei1⟩ := regionCells_getElem r off1 i hi1
    obtain ⟨_, ei2⟩ := regionCells_getElem r off2 i hi2
    obtain ⟨v, e1, e2⟩ := hE.reads (some (regionCells n r off2)[i]) (direct_in (hd off2 _ h2 _ (List.getElem_mem hi2))).1
    rw [Op.writes, r1 i hi2] at e2
    rw [get_congr g' (b := (regionCells n r off2)[i]) fun k hk' => by rw [ei2, ← hk k hk']]
    rw [read] at e2
    rw [e2, get_congr g1 (b := (regionCells n r off1)[i]) fun k hk' => by rw [ei1, ← hk k hk']]
    have e6 : (b.map Except.ok)[i]'(by rw [List.length_map]; omega) = ((regionCells n r off1).map (soaGet n wraps radius tc g1))[i]'(by simpa using hi1) := by
      simp only [hb]
    rwa [List.getElem_map, List.getElem_map] at e6
  · obtain ⟨c1, c2, c3⟩ := direct_in (wraps := wraps) hc
    obtain ⟨v, e1, e2⟩ := hE.reads (some c) c1
    rw [Op.writes, r3 c c2] at e2
    · rw [read] at e1 e2
      rw [e2, e1]
    · intro d hdd
      obtain ⟨_, _, d3⟩ := direct_in (wraps := wraps) (hd off2 _ h2 d hdd)
      by_contra hcon
      refine hno (rmem_congr hr (fun k hk => ?_) (mem_regionCells hr hdd))
      have : place wraps tc (fr g2) d k = place wraps tc (fr g2) c k := Classical.not_not.mp fun hh => hcon ⟨k, hk, hh⟩
      rw [c3 k hk, d3 k hk] at this
      omega

/-- **C47, members.** Members of the cells of a region, saved from one grid and loaded into another one: every cell of the region gets the member of the source cell and keeps its other
members (as defined by `put`); all other cells and the edge cell keep their values. -/
theorem roundtrip_member (hn : n ≤ 2) (out : α → β) (put : α → β → α) (g1 g2 : SGrid α) (hg1 : Good n wraps radius tc g1) (hg2 : Good n wraps radius tc g2) (r : Idx) (hr : RegOK n r)
    (h1 : ∀ c, RMem n r c → Direct n tc (fr g1) c) (h2 : ∀ c, RMem n r c → Direct n tc (fr g2) c) :
    ∃ b g', soaSaveMember n wraps radius out g1 r = .ok b ∧ soaLoadMember n wraps radius put g2 b r = .ok g' ∧ Good n wraps radius tc g' ∧ fr g' = fr g2 ∧ g'.edge = g2.edge ∧
      (∀ c, RMem n r c → ∃ v1 v2, soaGet n wraps radius tc g1 c = .ok v1 ∧ soaGet n wraps radius tc g2 c = .ok v2 ∧ soaGet n wraps radius tc g' c = .ok (put v2 (out v1))) ∧
      (∀ c, Direct n tc (fr g2) c → ¬ RMem n r c → soaGet n wraps radius tc g' c = soaGet n wraps radius tc g2 c) := by
  have hd : ∀ (f : Frame), (∀ c, RMem n r c → Direct n tc f c) → ∀ c ∈ regionCells n r (fun _ => 0), Direct n tc f c := by
    intro f h c hc
    obtain ⟨v, hv, rfl⟩ := List.mem_map.mp hc
    have := h _ (((regCoords_spec n r hr).2 v).mp hv)
    exact direct_congr (fun k _ => by simp) this
  obtain ⟨b, eb, hb⟩ := save_member_spec out g1 hg1 r hr (hd _ h1)
  have hlen : b.length = (regCoords n r).length := by
    have := congrArg List.length hb
    simpa [regionCells_length] using this
  obtain ⟨g', e, hE⟩ := exec_eff hn put hg2 (.loadMember (b.map out) r) ⟨hr, by rw [regionCells_length, List.length_map]; omega, hd _ h2⟩
  obtain ⟨r1, r2, r3⟩ := replay_region (wraps := wraps) r hr (fun _ => 0) (hd _ h2) (fun (x : β) v => put v x) (b.map out) (by rw [regionCells_length, List.length_map]; omega)
  refine ⟨b.map out, g', eb, e, hE.good, hE.frame, ?_, fun c hc => ?_, fun c hc hno => ?_⟩
  · obtain ⟨v, e1, e2⟩ := hE.reads none trivial
    rw [Op.writes, r2 none trivial] at e2
    rw [read] at e1 e2
    rw [← e1] at e2
    exact Except.ok.inj e2
  · obtain ⟨i, hi, e5⟩ := List.mem_iff_getElem.mp (((regCoords_spec n r hr).2 (restrict n c)).mpr (rmem_congr hr (fun k hk => (ext_restrict n c k hk).symm) hc))
    have hi1 : i < (regionCells n r fun _ => 0).length := by rw [regionCells_length]; exact hi
    have hk : ∀ k, k ≤ n → ext (regCoords n r)[i] k = c k := fun k hk => by rw [e5]; exact ext_restrict n c k hk
    obtain ⟨_, ei1⟩ := regionCells_getElem r (fun _ => 0) i hi1
    have hck : ∀ k, k ≤ n → c k = (regionCells n r fun _ => 0)[i] k := fun k hk' => by rw [ei1, ← hk k hk']; simp
    obtain ⟨v, e1, e2⟩ := hE.reads (some (regionCells n r fun _ => 0)[i]) (direct_in (hd _ h2 _ (List.getElem_mem hi1))).1
    rw [Op.writes, r1 i hi1] at e2
    rw [read] at e1 e2
    refine ⟨b[i]'(by omega), v, ?_, ?_, ?_⟩
    · rw [get_congr g1 hck]
      have e6 : (b.map Except.ok)[i]'(by rw [List.length_map]; omega) = ((regionCells n r fun _ => 0).map (soaGet n wraps radius tc g1))[i]'(by simpa using hi1) := by
        simp only [hb]
      rw [List.getElem_map, List.getElem_map] at e6
      exact e6.symm
    · rw [get_congr g2 hck]; exact e1
    · rw [get_congr g' hck, e2, List.getElem_map]
  · obtain ⟨c1, c2, c3⟩ := direct_in (wraps := wraps) hc
    obtain ⟨v, e1, e2⟩ := hE.reads (some c) c1
    rw [Op.writes, r3 c c2] at e2
    · rw [read] at e1 e2
      rw [e2, e1]
    · intro d hdd
      obtain ⟨_, _, d3⟩ := direct_in (wraps := wraps) (hd _ h2 d hdd)
      by_contra hcon
      refine hno (rmem_congr hr (fun k hk => ?_) (mem_regionCells hr hdd))
      have : place wraps tc (fr g2) d k = place wraps tc (fr g2) c k := Classical.not_not.mp fun hh => hcon ⟨k, hk, hh⟩
      rw [c3 k hk, d3 k hk] at this
      omega

/-! ## the code deviates -/

/-- periodic, 4 x 3 cells; rows are padded to 8 cells -/
def torus : SGrid Int := ⟨fun _ => 0, fun k => if k = 0 then 4 else 3, fun k => if k = 0 then 4 else 3, fun k => if k = 0 then 8 else if k = 1 then 4 else 1, -1,
  [10, 11, 12, 13, 99, 99, 99, 99, 20, 21, 22, 23, 99, 99, 99, 99, 30, 31, 32, 33, 99, 99, 99, 99, 99, 99, 99, 99, 99, 99, 99, 99]⟩

theorem torus_good (tc : Bool) : Good 1 (fun _ => true) 1 tc torus := by
  refine ⟨⟨fun k hk => ?_, fun k hk => ?_, by decide, fun p h1 h2 => ?_⟩, fun _ k hk => ?_⟩
  · simp only [torus]; split <;> omega
  · rcases (by omega : k = 0 ∨ k = 1 ∨ k = 2) with rfl | rfl | rfl <;> decide
  · obtain ⟨k, hk, h⟩ := h2
    have := h1 k hk
    have e : edgeRadii 1 (fun _ => true) 1 k = 0 := by simp [edgeRadii]
    rw [e] at h
    omega
  · simp only [torus]; split <;> omega

/-- the cell (-1, 1) -/
def westCell : Idx := fun k => if k = 0 then [(-1, 0)] else if k = 1 then [(1, 0)] else []

theorem westCell_ok : RegOK 1 westCell := by
  obtain ⟨r, e, ⟨t, h⟩, _⟩ := insAll_spec 1 [⟨fun k => if k = 0 then -1 else 1, 0⟩] emptyIdx (regOK_empty 1)
  have h0 : (insAll 1 emptyIdx [⟨fun k => if k = 0 then -1 else 1, 0⟩]).map (fun r => (r 0, r 1)) = some (westCell 0, westCell 1) := by decide +kernel
  rw [e] at h0
  simp only [Option.map_some, Option.some.injEq, Prod.mk.injEq] at h0
  refine ⟨t, h.ok, fun k hk => ?_⟩
  rw [← h.eq k hk]
  rcases (by omega : k = 0 ∨ k = 1) with rfl | rfl
  · exact h0.1.symm
  · exact h0.2.symm

theorem cells_of {r : Idx} {l : List (Int × Int)} (h : (regionCells 1 r fun _ => 0).map (fun c => (c 0, c 1)) = l) (c : Crd) (hc : c ∈ regionCells 1 r fun _ => 0) : (c 0, c 1) ∈ l := by
  rw [← h]; exact List.mem_map.mpr ⟨c, hc, rfl⟩

/-- **C47, deviation.** Topologically correct grids wrap coordinates of single cells, but `saveRegion` (likewise `loadRegion` and the member accessors) doesn't: it stores memory which
belongs to no cell at all, without any error. -/
theorem region_wrap_negation :
    ∃ (g : SGrid Int) (r : Idx), Good 1 (fun _ => true) 1 true g ∧ RegOK 1 r ∧ (∀ c ∈ regionCells 1 r (fun _ => 0), Addr 1 (fun _ => true) true (fr g) (some c) ∧ SIn 1 (fun _ => true) true (fr g) c) ∧
      ((regionCells 1 r fun _ => 0).map fun c => (soaGet 1 (fun _ => true) 1 true g c).toOption) = [some 23] ∧ (soaSave 1 (fun _ => true) 1 g r fun _ => 0).toOption = some [99] := by
  refine ⟨torus, westCell, torus_good true, westCell_ok, fun c hc => ?_, by decide +kernel, by decide +kernel⟩
  have h := cells_of (l := [(-1, 1)]) (by decide +kernel) c hc
  simp only [List.mem_singleton, Prod.mk.injEq] at h
  have hi : SIn 1 (fun _ => true) true (fr torus) c := by
    constructor
    · rintro (⟨_, k, _, h, _⟩ | ⟨k, _, h, _⟩) <;> cases h
    · intro k hk
      rcases (by omega : k = 0 ∨ k = 1) with rfl | rfl
      · simp [place, fr, torus, h.1]
      · simp [place, fr, torus, h.2]
  refine ⟨⟨fun _ k hk _ => ?_, Or.inr hi⟩, hi⟩
  rcases (by omega : k = 0 ∨ k = 1) with rfl | rfl
  · simp [fr, torus, h.1]
  · simp [fr, torus, h.2]

/-- **C47, deviation.** Without `TOPOLOGICALLY_CORRECT` coordinates beyond a periodic boundary are not wrapped either (`Grid` does): the access leaves the memory. -/
theorem plain_wrap_negation :
    ∃ (g : SGrid Int) (c : Crd), Good 1 (fun _ => true) 1 false g ∧ ¬ Outside 1 (fun _ => true) g.dim c ∧ OnePeriod 1 (fun _ => true) g.dim c ∧
      (match soaGet 1 (fun _ => true) 1 false g c with | .error .undefined => true | _ => false) = true := by
  refine ⟨torus, fun k => if k = 0 then -1 else 0, torus_good false, ?_, fun k hk _ => ?_, by decide +kernel⟩
  · rintro ⟨k, _, h, _⟩; cases h
  · rcases (by omega : k = 0 ∨ k = 1) with rfl | rfl <;> simp [torus]

/-- three cells with constant boundaries -/
def lineGrid : SGrid Int := ⟨fun _ => 0, fun _ => 3, fun _ => 3, fun k => if k = 0 then 8 else 1, -1, [-1, 10, 11, 12, -1, 99, 99, 99]⟩

theorem lineGrid_good (tc : Bool) : Good 0 (fun _ => false) 1 tc lineGrid := by
  refine ⟨⟨fun k hk => by simp [lineGrid], fun k hk => ?_, by decide, fun p h1 h2 => ?_⟩, fun _ k hk => by simp [lineGrid]⟩
  · rcases (by omega : k = 0 ∨ k = 1 ∨ k = 2) with rfl | rfl | rfl <;> decide
  · obtain ⟨k, hk, h⟩ := h2
    have e0 : actualDim 0 (fun _ => false) 1 lineGrid.dim 0 = 5 := by decide
    have e1 : actualDim 0 (fun _ => false) 1 lineGrid.dim 1 = 1 := by decide
    have e2 : actualDim 0 (fun _ => false) 1 lineGrid.dim 2 = 1 := by decide
    have r0 : edgeRadii 0 (fun _ => false) 1 0 = 1 := by decide
    have r1 : edgeRadii 0 (fun _ => false) 1 1 = 0 := by decide
    have r2 : edgeRadii 0 (fun _ => false) 1 2 = 0 := by decide
    have p0 := h1 0 (by omega)
    have p1 := h1 1 (by omega)
    have p2 := h1 2 (by omega)
    rw [e0] at p0
    rw [e1] at p1
    rw [e2] at p2
    have hp : p 0 = 0 ∨ p 0 = 4 := by
      rcases (by omega : k = 0 ∨ k = 1 ∨ k = 2) with rfl | rfl | rfl
      · rw [e0, r0] at h; omega
      · rw [e1, r1] at h; omega
      · rw [e2, r2] at h; omega
    rw [lin2, show p 1 = 0 by omega, show p 2 = 0 by omega]
    rcases hp with hp | hp <;> rw [hp] <;> rfl

/-- **C47, deviation.** Writing a streak beyond a constant boundary neither sets the edge cell (as writing a single cell does, and as `Grid` does), nor is it ignored: it overwrites the
padding, so that afterwards reads of cells and reads of streaks (and updates, which read the padding) disagree. -/
theorem streak_padding_negation :
    ∃ (g : SGrid Int) (s : Streak), Good 0 (fun _ => false) 1 false g ∧ (∀ c ∈ coordsOf s, Addr 0 (fun _ => false) false (fr g) (some c)) ∧
      ((soaSetStreak 0 (fun _ => false) 1 false g s [7]).bind fun g' => (soaGetStreak 0 (fun _ => false) 1 false g' s).bind fun l =>
        (soaGet 0 (fun _ => false) 1 false g' s.origin).bind fun v => .ok (l, v)).toOption = some ([7], -1) := by
  refine ⟨lineGrid, ⟨fun _ => -1, 0⟩, lineGrid_good false, fun c hc => ?_, by decide +kernel⟩
  have : c = upd (fun _ => -1) 0 (-1) := by simpa [coordsOf, coordsFrom] using hc
  subst this
  exact ⟨fun h => (by cases h), Or.inl (Or.inr ⟨0, by omega, rfl, by simp [fr, lineGrid, upd]⟩)⟩

/-! ## examples -/

/-- a history: a cell, a streak, a cell outside of the boundary (which sets the edge cell), a region, a member; the operations meet their preconditions -/
example : ∀ op ∈ ([.set (fun _ => 1) 5, .setStreak ⟨fun _ => 1, 3⟩ [7, 8], .set (fun _ => -1) 6] : List (Op Int Int)), op.OK 0 (fun _ => false) false (fr lineGrid) := by
  have hin : ∀ c : Crd, 0 ≤ c 0 → c 0 < 3 → Direct 0 false (fr lineGrid) c := by
    intro c h0 h1
    refine ⟨fun k hk => ?_, fun h => (by cases h)⟩
    obtain rfl : k = 0 := by omega
    simp [fr, lineGrid]; omega
  intro op hop
  simp only [List.mem_cons, List.not_mem_nil, or_false] at hop
  rcases hop with rfl | rfl | rfl
  · exact (direct_in (hin _ (by omega) (by omega))).1
  · refine ⟨by decide, by decide, fun c hc => ?_⟩
    have : c = upd (fun _ => 1) 0 1 ∨ c = upd (fun _ => 1) 0 2 := by simpa [coordsOf, coordsFrom] using hc
    have hd : Direct 0 false (fr lineGrid) c := by rcases this with rfl | rfl <;> exact hin _ (by simp [upd]) (by simp [upd])
    obtain ⟨h1, h2, _⟩ := direct_in (wraps := fun _ => false) hd
    refine ⟨h1, h2, ?_⟩
    rcases this with rfl | rfl <;> simp [place, upd, fr, lineGrid]
  · exact ⟨fun h => (by cases h), Or.inl (Or.inr ⟨0, by omega, rfl, by simp [fr, lineGrid]⟩)⟩

example : ((run 0 (fun _ => false) 1 false (fun (a b : Int) => a + 100 * b) lineGrid
      [.set (fun _ => 1) 5, .setStreak ⟨fun _ => 1, 3⟩ [7, 8], .set (fun _ => -1) 6, .loadRegion [1] (fun k => if k = 0 then [(1, 2)] else []) (fun _ => -1),
       .loadMember [2] (fun k => if k = 0 then [(1, 2)] else [])]).bind fun g =>
    ([-2, -1, 0, 1, 2, 3] : List Int).mapM fun x => soaGet 0 (fun _ => false) 1 false g fun _ => x).toOption = some [6, 6, 1, 207, 8, 6] := by
  decide +kernel

/-- wrapped accesses of single cells and streaks on the torus -/
example : ((soaSet 1 (fun _ => true) 1 true torus (fun k => if k = 0 then -1 else 3) 5).bind fun g => (soaGet 1 (fun _ => true) 1 true g fun k => if k = 0 then 3 else 0).bind fun a =>
    (soaGetStreak 1 (fun _ => true) 1 true g ⟨fun k => if k = 0 then -3 else -1, -1⟩).bind fun l => .ok (a, l)).toOption = some (5, [31, 32]) := by
  decide +kernel

/-- a streak on the torus which is displaced by a period -/
example : Straight 1 (fun _ => true) true (fr torus) ⟨fun k => if k = 0 then -3 else -1, -1⟩ := by
  intro c hc
  have : c = upd (fun k => if k = 0 then -3 else -1) 0 (-3) ∨ c = upd (fun k => if k = 0 then -3 else -1) 0 (-2) := by simpa [coordsOf, coordsFrom] using hc
  have hi : SIn 1 (fun _ => true) true (fr torus) c := by
    constructor
    · rintro (⟨_, k, _, h, _⟩ | ⟨k, _, h, _⟩) <;> cases h
    · intro k hk
      rcases this with rfl | rfl <;> rcases (by omega : k = 0 ∨ k = 1) with rfl | rfl <;> simp [place, fr, torus, upd]
  refine ⟨⟨fun _ k hk _ => ?_, Or.inr hi⟩, hi, ?_⟩
  · rcases this with rfl | rfl <;> rcases (by omega : k = 0 ∨ k = 1) with rfl | rfl <;> simp [fr, torus, upd]
  · rcases this with rfl | rfl <;> simp [place, fr, torus, upd]

/-- the hypotheses of the region theorems: the cell (1, 1) of the torus, transferred to (2, 1) -/
example : ∃ r, RegOK 1 r ∧ (∀ c ∈ regionCells 1 r (fun k => if k = 0 then 2 else 0), Direct 1 true (fr torus) c) ∧ (regionCells 1 r fun k => if k = 0 then 2 else 0).length = 1 ∧
    (soaSave 1 (fun _ => true) 1 torus r fun k => if k = 0 then 2 else 0).toOption = some [21] := by
  refine ⟨westCell, westCell_ok, fun c hc => ?_, by decide +kernel, by decide +kernel⟩
  have h : (c 0, c 1) ∈ ([(1, 1)] : List (Int × Int)) := by
    rw [← show (regionCells 1 westCell fun k => if k = 0 then 2 else 0).map (fun c => (c 0, c 1)) = [(1, 1)] by decide +kernel]
    exact List.mem_map.mpr ⟨c, hc, rfl⟩
  simp only [List.mem_singleton, Prod.mk.injEq] at h
  have hd : InDim 1 (fun k => if k = 0 then 4 else 3) c := by
    intro k hk
    rcases (by omega : k = 0 ∨ k = 1) with rfl | rfl
    · simp [h.1]
    · simp [h.2]
  constructor
  · simpa [fr, torus] using hd
  · intro _; simpa [fr, torus] using hd

end LGD.C47
