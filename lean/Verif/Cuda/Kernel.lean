import Verif.Cuda.KernelModel
import Mathlib.Tactic.Linarith
import Mathlib.Tactic.Ring
import Mathlib.Data.List.Nodup

/-!
# Threads of the CUDA kernels
-/

namespace LGD.Cuda

/-! ## Indices of threads -/

theorem ids_eq (n b : Nat) : ids n b = List.range (n * b) := by
  induction n with
  | zero => simp [ids]
  | succ n ih =>
    unfold ids at ih ⊢
    rw [List.range_succ, List.flatMap_append, ih, Nat.succ_mul, List.range_add]
    simp

theorem ceil_cover {a b : Nat} (hb : 0 < b) : a ≤ Cfg.ceilDiv a b * b := by
  unfold Cfg.ceilDiv
  have := Nat.div_add_mod (a + b - 1) b
  have := Nat.mod_lt (a + b - 1) hb
  rw [Nat.mul_comm]
  omega

theorem ceil_pos {a b : Nat} (ha : 0 < a) (hb : 0 < b) : 0 < Cfg.ceilDiv a b := by
  by_contra h
  have := ceil_cover (a := a) hb
  have h0 : Cfg.ceilDiv a b = 0 := by omega
  rw [h0] at this
  omega

theorem wl_pos (c : Cfg) : 0 < c.wl := by
  unfold Cfg.wl
  dsimp only
  generalize (if c.D = 1 then 1 else if c.D = 2 then Cfg.ceilDiv c.dy c.bY else Cfg.ceilDiv c.dz c.bz) = w
  split
  · exact Nat.one_pos
  · next h => exact Nat.pos_of_ne_zero h

/-! ## Along the last axis -/

/-- corrections for the cell at position `k` -/
def below (wrap : Bool) (aw : Int) (k : Int) : Int := if wrap ∧ k = 0 then aw else 0

def above (wrap : Bool) (dim : Int) (aw : Int) (k : Int) : Int := if wrap ∧ k = dim - 1 then -aw else 0

theorem below_pos {aw k : Int} (h : k = 0) : below true aw k = aw := if_pos ⟨rfl, h⟩

theorem below_neg {wrap : Bool} {aw k : Int} (h : k ≠ 0) : below wrap aw k = 0 := if_neg fun e => h e.2

theorem above_pos {dim aw k : Int} (h : k = dim - 1) : above true dim aw k = -aw := if_pos ⟨rfl, h⟩

theorem above_neg {wrap : Bool} {dim aw k : Int} (h : k ≠ dim - 1) : above wrap dim aw k = 0 := if_neg fun e => h e.2

theorem sweep_eq (wrap : Bool) (lo hi dim off aw idx : Int) (h : wrap = true → 0 < lo ∧ hi < dim) :
    sweep lo hi off idx = (List.range (hi - lo).toNat).map fun i : Nat => (idx + i * off, below wrap aw (lo + i), above wrap dim aw (lo + i)) := by
  unfold sweep
  apply List.map_congr_left
  intro i hi'
  rw [List.mem_range] at hi'
  unfold below above
  by_cases hw : wrap = true
  · have := h hw
    rw [if_neg (by omega), if_neg (by omega)]
  · rw [if_neg (fun e => hw e.1), if_neg (fun e => hw e.1)]

/-- a thread which isn't idle updates the cells in its range -/
theorem column_eq (wrap : Bool) (lo hi dim off aw idx : Int) (h : wrap = true → 0 ≤ lo ∧ lo < hi ∧ hi ≤ dim ∧ 2 ≤ dim) :
    column wrap lo hi dim off aw idx = (List.range (hi - lo).toNat).map fun i : Nat => (idx + i * off, below wrap aw (lo + i), above wrap dim aw (lo + i)) := by
  unfold column
  by_cases hw : wrap = true
  · obtain ⟨h0, h1, h2, h3⟩ := h hw
    subst hw
    simp only [Bool.true_and, decide_eq_true_eq]
    by_cases hl : lo = 0
    · subst hl
      simp only [if_true]
      by_cases hh : hi = dim
      · subst hh
        rw [if_pos rfl]
        obtain ⟨k, rfl⟩ : ∃ k : Nat, hi = (k : Int) + 2 := ⟨(hi - 2).toNat, by omega⟩
        have e1 : ((k : Int) + 2 - 0).toNat = (k + 1) + 1 := by omega
        have e2 : ((k : Int) + 2 - 1 - (0 + 1)).toNat = k := by omega
        rw [e1, List.range_succ_eq_map, List.range_succ, sweep_eq true _ _ (k + 2) off aw _ (fun _ => by omega), e2]
        simp only [List.map_cons, List.map_append, List.map_map, List.map_nil, List.cons_append, List.nil_append]
        congr 1
        · simp [below, above]; omega
        · congr 1
          · apply List.map_congr_left
            intro i _
            simp only [Function.comp, Nat.succ_eq_add_one]
            refine Prod.ext (by push_cast; ring) (Prod.ext ?_ ?_) <;> simp only [below, above] <;> push_cast <;> congr 2 <;> ring_nf
          · rw [below_neg (by push_cast; omega), above_pos (by push_cast; omega)]
            congr 2
            push_cast
            ring
      · rw [if_neg hh]
        obtain ⟨k, rfl⟩ : ∃ k : Nat, hi = (k : Int) + 1 := ⟨(hi - 1).toNat, by omega⟩
        have e1 : ((k : Int) + 1 - 0).toNat = k + 1 := by omega
        have e2 : ((k : Int) + 1 - (0 + 1)).toNat = k := by omega
        rw [e1, List.range_succ_eq_map, sweep_eq true _ _ dim off aw _ (fun _ => by omega), e2]
        simp only [List.map_cons, List.map_map, List.cons_append, List.nil_append]
        congr 1
        · rw [below_pos (by simp), above_neg (by push_cast; omega)]
          congr 1
          push_cast
          ring
        · apply List.map_congr_left
          intro i _
          simp only [Function.comp, Nat.succ_eq_add_one]
          refine Prod.ext (by push_cast; ring) (Prod.ext ?_ ?_) <;> simp only [below, above] <;> push_cast <;> congr 2 <;> ring_nf
    · simp only [if_neg hl]
      by_cases hh : hi = dim
      · subst hh
        rw [if_pos rfl]
        obtain ⟨k, hk⟩ : ∃ k : Nat, hi = lo + (k : Int) + 1 := ⟨(hi - lo - 1).toNat, by omega⟩
        have e1 : (hi - lo).toNat = k + 1 := by omega
        have e2 : (hi - 1 - lo).toNat = k := by omega
        rw [e1, List.range_succ, sweep_eq true _ _ hi off aw _ (fun _ => by omega), e2]
        simp only [List.map_append, List.map_cons, List.map_nil, List.nil_append]
        congr 1
        rw [below_neg (by omega), above_pos (by omega)]
      · rw [if_neg hh, sweep_eq true _ _ dim off aw _ (fun _ => by omega)]
        simp
  · have : wrap = false := by simpa using hw
    subst this
    simp only [Bool.false_and]
    rw [if_neg (by simp), sweep_eq false _ _ dim off aw _ (fun h => by cases h)]
    simp

/-- an idle thread on a periodic axis updates a cell beyond the grid -/
theorem column_idle (lo hi dim off aw idx : Int) (h0 : 0 < lo) (h1 : hi ≤ lo) (h2 : hi = dim) : (idx, 0, -aw) ∈ column true lo hi dim off aw idx := by
  unfold column
  simp only [Bool.true_and, decide_eq_true_eq]
  simp only [if_neg (show lo ≠ 0 by omega), if_pos h2]
  have : (hi - 1 - lo).toNat = 0 := by omega
  rw [this]
  simp [sweep]

/-- on a periodic axis with one cell a second cell is updated -/
theorem column_single (off aw idx : Int) : (idx + off, 0, -aw) ∈ column true 0 1 1 off aw idx := by
  unfold column
  simp [sweep]

/-! ## Addresses -/

namespace Cfg
variable (c : Cfg)

/-- address of a cell; padding included -/
def addr (p : P) : Int := (p.z + c.pz) * c.offZ + (p.y + c.py) * c.offY + (p.x + c.px)

/-- cells of the grid -/
def Inside (p : P) : Prop := (0 ≤ p.x ∧ p.x < c.dx) ∧ (0 ≤ p.y ∧ p.y < c.dy) ∧ (0 ≤ p.z ∧ p.z < c.dz)

instance (p : P) : Decidable (c.Inside p) := by unfold Inside; infer_instance

/-- cells of the padded grid -/
def Padded (p : P) : Prop := (-(c.px : Int) ≤ p.x ∧ p.x < c.dx + c.px) ∧ (-(c.py : Int) ≤ p.y ∧ p.y < c.dy + c.py) ∧ (-(c.pz : Int) ≤ p.z ∧ p.z < c.dz + c.pz)

theorem Inside.padded {c : Cfg} {p : P} (h : c.Inside p) : c.Padded p := by
  obtain ⟨h1, h2, h3⟩ := h
  refine ⟨?_, ?_, ?_⟩ <;> constructor <;> omega

end Cfg

/-- a number is determined by quotient and remainder -/
theorem digits {m a b q r : Int} (h : q * m + a = r * m + b) (ha : 0 ≤ a) (ha' : a < m) (hb : 0 ≤ b) (hb' : b < m) : q = r ∧ a = b := by
  have e : (q - r) * m = b - a := by linarith
  rcases lt_trichotomy q r with hq | hq | hq
  · have : (q - r) * m ≤ -1 * m := mul_le_mul_of_nonneg_right (by omega) (by omega)
    omega
  · subst hq; exact ⟨rfl, by omega⟩
  · have : 1 * m ≤ (q - r) * m := mul_le_mul_of_nonneg_right (by omega) (by omega)
    omega

theorem below_mul {m n a q : Int} (hm : 0 ≤ a) (ha : a < m) (hq : 0 ≤ q) (hq' : q < n) : 0 ≤ q * m + a ∧ q * m + a < n * m := by
  have h1 : 0 ≤ q * m := mul_nonneg hq (by omega)
  have h2 : (q + 1) * m ≤ n * m := mul_le_mul_of_nonneg_right (by omega) (by omega)
  rw [add_mul] at h2
  constructor <;> linarith

theorem addr_row (c : Cfg) {p : P} (h : c.Padded p) : 0 ≤ (p.y + c.py) * c.offY + (p.x + c.px) ∧ (p.y + c.py) * c.offY + (p.x + c.px) < c.offZ := by
  obtain ⟨h1, h2, -⟩ := h
  have := below_mul (m := c.offY) (n := c.dy + 2 * c.py) (a := p.x + c.px) (q := p.y + c.py) (by omega) (by unfold Cfg.offY; omega) (by omega) (by omega)
  have e : c.offZ = (c.dy + 2 * c.py) * c.offY := by unfold Cfg.offZ Cfg.offY; ring
  rw [e]
  exact this

theorem addr_valid (c : Cfg) {p : P} (h : c.Padded p) : c.Valid (c.addr p) := by
  have hr := addr_row c h
  obtain ⟨-, -, h3⟩ := h
  have := below_mul (m := c.offZ) (n := c.dz + 2 * c.pz) (q := p.z + c.pz) hr.1 hr.2 (by omega) (by omega)
  have e : c.size = (c.dz + 2 * c.pz) * c.offZ := by unfold Cfg.size Cfg.offZ; ring
  unfold Cfg.Valid Cfg.addr
  rw [e, add_assoc]
  exact this

theorem addr_inj (c : Cfg) {p q : P} (hp : c.Padded p) (hq : c.Padded q) (h : c.addr p = c.addr q) : p = q := by
  have r1 := addr_row c hp
  have r2 := addr_row c hq
  unfold Cfg.addr at h
  rw [add_assoc, add_assoc] at h
  obtain ⟨e1, e2⟩ := digits h r1.1 r1.2 r2.1 r2.2
  obtain ⟨hp1, -, -⟩ := hp
  obtain ⟨hq1, -, -⟩ := hq
  obtain ⟨e3, e4⟩ := digits e2 (by omega) (by unfold Cfg.offY; omega) (by omega) (by unfold Cfg.offY; omega)
  ext <;> omega

/-! ## Updates of a launch -/

/-- the update of a cell -/
def evOf (c : Cfg) (p : P) : Ev where
  idx := c.addr p
  w := below c.wx c.awx p.x
  e := above c.wx c.dx c.awx p.x
  t := below c.wy c.awy p.y
  b := above c.wy c.dy c.awy p.y
  s := if c.D = 3 then below c.wz c.awz p.z else 0
  n := if c.D = 3 then above c.wz c.dz c.awz p.z else 0

/-- length of the last axis, number of threads along it, periodicity -/
def Cfg.dLast (c : Cfg) : Nat := if c.D = 3 then c.dz else c.dy

def Cfg.bLast (c : Cfg) : Nat := if c.D = 3 then c.bz else c.bY

def Cfg.wLast (c : Cfg) : Bool := if c.D = 3 then c.wz else c.wy

/-- grids and blocks which aren't empty, axes which don't exist have length 1 -/
structure Sane (c : Cfg) : Prop where
  D1 : 1 ≤ c.D
  D3 : c.D ≤ 3
  x : 0 < c.dx
  y : 0 < c.dy
  z : 0 < c.dz
  y1 : c.D < 2 → c.dy = 1
  z1 : c.D < 3 → c.dz = 1
  bx : 0 < c.bx
  bY : 0 < c.bY
  bz : 0 < c.bz

/-- if the last axis is periodic: at least two cells, and no idle threads -/
def Fits (c : Cfg) : Prop := c.wLast = true → 2 ≤ c.dLast ∧ (c.bLast - 1) * c.wl < c.dLast

/-- threads along the last axis cover it -/
theorem last_cover {c : Cfg} (hs : Sane c) : c.dLast ≤ c.bLast * c.wl := by
  have := hs.D1
  have := hs.D3
  have key : ∀ d b : Nat, 0 < b → d ≤ b * (if Cfg.ceilDiv d b = 0 then 1 else Cfg.ceilDiv d b) := by
    intro d b hb
    have := ceil_cover (a := d) hb
    split
    · next h => rw [h] at this; omega
    · rw [Nat.mul_comm]; exact this
  unfold Cfg.dLast Cfg.bLast Cfg.wl
  dsimp only
  by_cases h3 : c.D = 3
  · rw [if_pos h3, if_pos h3, if_neg (show ¬ c.D = 1 by omega), if_neg (show ¬ c.D = 2 by omega)]
    exact key _ _ hs.bz
  · rw [if_neg h3, if_neg h3]
    by_cases h1 : c.D = 1
    · rw [if_pos h1, hs.y1 (by omega)]
      have := hs.bY
      simp
      omega
    · rw [if_neg h1, if_pos (show c.D = 2 by omega)]
      exact key _ _ hs.bY

/-- cells of the thread at position `l` along an axis of length `d` -/
def part (wl d l : Nat) : List Nat := (List.range (min ((l + 1) * wl) d - l * wl)).map (l * wl + ·)

theorem mem_part {wl d l k : Nat} : k ∈ part wl d l ↔ l * wl ≤ k ∧ k < (l + 1) * wl ∧ k < d := by
  unfold part
  rw [List.mem_map]
  constructor
  · rintro ⟨i, hi, rfl⟩
    rw [List.mem_range] at hi
    omega
  · rintro ⟨h1, h2, h3⟩
    exact ⟨k - l * wl, by rw [List.mem_range]; omega, by omega⟩

theorem column_part {wrap : Bool} {l wl d b pad : Nat} {off aw idx : Int} (hp : wrap = true → pad = 0) (hl : l < b) (hw : 0 < wl) (hf : wrap = true → 2 ≤ d ∧ (b - 1) * wl < d) :
    column wrap ((l : Int) * wl + pad) (min (((l : Int) + 1) * wl + pad) (d + pad)) d off aw idx =
      (part wl d l).map fun k : Nat => (idx + ((k : Int) - l * wl) * off, below wrap aw k, above wrap d aw k) := by
  rw [column_eq]
  · unfold part
    rw [List.map_map]
    have e : (min (((l : Int) + 1) * wl + pad) (d + pad) - (l * wl + pad)).toNat = min ((l + 1) * wl) d - l * wl := by
      have : ((l : Int) + 1) * wl = ((l + 1) * wl : Nat) := by push_cast; ring
      have : ((l : Int)) * wl = (l * wl : Nat) := by push_cast; ring
      omega
    rw [e]
    apply List.map_congr_left
    intro i _
    simp only [Function.comp]
    by_cases hwr : wrap = true
    · rw [hp hwr]
      refine Prod.ext (by push_cast; ring) (Prod.ext ?_ ?_) <;> simp only <;> congr 1
    · refine Prod.ext (by push_cast; ring) (Prod.ext ?_ ?_) <;> simp [below, above, hwr]
  · intro hwr
    obtain ⟨h2, h3⟩ := hf hwr
    rw [hp hwr]
    have h4 : l * wl ≤ (b - 1) * wl := Nat.mul_le_mul_right _ (by omega)
    have h5 : ((l : Int) + 1) * wl = (l * wl : Nat) + wl := by push_cast; ring
    have h6 : ((l : Int)) * wl = (l * wl : Nat) := by push_cast; ring
    omega

theorem pad_y {c : Cfg} (h : c.wy = true) : c.py = 0 := if_pos (Or.inr h)

theorem pad_z {c : Cfg} (h : c.wz = true) : c.pz = 0 := if_pos (Or.inr h)

/-- thread of `kernel2D` -/
theorem kernel2D_eq {c : Cfg} (hs : Sane c) (hf : Fits c) (h3 : c.D ≠ 3) (lx ly : Nat) (hl : ly < c.bY) :
    kernel2D c lx ly = if c.dx ≤ lx then [] else (part c.wl c.dy ly).map fun k : Nat => evOf c ⟨lx, k, 0⟩ := by
  unfold kernel2D
  dsimp only
  split
  · rfl
  · unfold Fits Cfg.wLast Cfg.dLast Cfg.bLast at hf
    rw [if_neg h3, if_neg h3, if_neg h3] at hf
    rw [column_part (fun h => pad_y h) hl (wl_pos c) hf, List.map_map]
    apply List.map_congr_left
    intro k _
    simp only [Function.comp]
    have hz : c.pz = 0 := if_pos (Or.inl (by have := hs.D3; omega))
    unfold evOf
    ext <;> simp only [Cfg.addr, hz, below, above, if_neg h3, Bool.and_eq_true, decide_eq_true_eq, Int.natCast_eq_zero]
    push_cast
    ring

/-- thread of `kernel3D` -/
theorem kernel3D_eq {c : Cfg} (hf : Fits c) (h3 : c.D = 3) (lx ly lz : Nat) (hl : lz < c.bz) :
    kernel3D c lx ly lz = if c.dx ≤ lx ∨ c.dy ≤ ly then [] else (part c.wl c.dz lz).map fun k : Nat => evOf c ⟨lx, ly, k⟩ := by
  unfold kernel3D
  dsimp only
  split
  · rfl
  · unfold Fits Cfg.wLast Cfg.dLast Cfg.bLast at hf
    rw [if_pos h3, if_pos h3, if_pos h3] at hf
    rw [column_part (fun h => pad_z h) hl (wl_pos c) hf, List.map_map]
    apply List.map_congr_left
    intro k _
    simp only [Function.comp]
    unfold evOf
    ext <;> simp only [Cfg.addr, below, above, if_pos h3, Bool.and_eq_true, decide_eq_true_eq, Int.natCast_eq_zero]
    ring

/-! ## Every cell is updated -/

/-- cells, in the order of the threads -/
def cells (c : Cfg) : List P :=
  if c.D = 3 then (List.range c.bz).flatMap fun lz => (List.range (c.ny * c.bY)).flatMap fun ly => (List.range (c.nx * c.bx)).flatMap fun lx =>
    if c.dx ≤ lx ∨ c.dy ≤ ly then [] else (part c.wl c.dz lz).map fun k : Nat => ⟨lx, ly, k⟩
  else (List.range c.bz).flatMap fun _ => (List.range c.bY).flatMap fun ly => (List.range (c.nx * c.bx)).flatMap fun lx =>
    if c.dx ≤ lx then [] else (part c.wl c.dy ly).map fun k : Nat => ⟨lx, k, 0⟩

theorem flatMap_congr {β γ : Type} {l : List β} {f g : β → List γ} (h : ∀ a ∈ l, f a = g a) : l.flatMap f = l.flatMap g := by
  induction l with
  | nil => rfl
  | cons a l ih =>
    rw [List.flatMap_cons, List.flatMap_cons, h a (by simp), ih fun b hb => h b (List.mem_cons_of_mem _ hb)]

theorem launch_eq {c : Cfg} (hs : Sane c) (hf : Fits c) : launch c = (cells c).map (evOf c) := by
  unfold launch cells
  by_cases h3 : c.D = 3
  · rw [if_pos h3, if_pos h3]
    simp only [ids_eq, Nat.one_mul, List.map_flatMap]
    refine flatMap_congr fun lz hz => flatMap_congr fun ly _ => flatMap_congr fun lx _ => ?_
    rw [kernel3D_eq hf h3 lx ly lz (List.mem_range.1 hz)]
    split
    · rfl
    · rw [List.map_map]; rfl
  · rw [if_neg h3, if_neg h3]
    simp only [ids_eq, Nat.one_mul, List.map_flatMap]
    refine flatMap_congr fun _ _ => flatMap_congr fun ly hy => flatMap_congr fun lx _ => ?_
    rw [kernel2D_eq hs hf h3 lx ly (List.mem_range.1 hy)]
    split
    · rfl
    · rw [List.map_map]; rfl

/-- position of the thread which updates cell `k` of the last axis -/
theorem thread_of {c : Cfg} (hs : Sane c) {k : Nat} (hk : k < c.dLast) : ∃ l, l < c.bLast ∧ k ∈ part c.wl c.dLast l := by
  have hw := wl_pos c
  refine ⟨k / c.wl, ?_, mem_part.2 ⟨Nat.div_mul_le_self _ _, ?_, hk⟩⟩
  · exact (Nat.div_lt_iff_lt_mul hw).2 (lt_of_lt_of_le hk (last_cover hs))
  · rw [← Nat.div_lt_iff_lt_mul hw]
    exact Nat.lt_succ_self _

theorem mem_cells {c : Cfg} (hs : Sane c) (p : P) : p ∈ cells c ↔ c.Inside p := by
  have hx : c.dx ≤ c.nx * c.bx := ceil_cover hs.bx
  unfold cells
  by_cases h3 : c.D = 3
  · have hy : c.dy ≤ c.ny * c.bY := by unfold Cfg.ny; rw [if_pos h3]; exact ceil_cover hs.bY
    rw [if_pos h3]
    simp only [List.mem_flatMap, List.mem_range]
    constructor
    · rintro ⟨lz, -, ly, -, lx, -, hp⟩
      split at hp
      · cases hp
      · obtain ⟨k, hk, rfl⟩ := List.mem_map.1 hp
        have := mem_part.1 hk
        refine ⟨?_, ?_, ?_⟩ <;> dsimp only <;> constructor <;> omega
    · rintro ⟨⟨h1, h2⟩, ⟨h4, h5⟩, ⟨h6, h7⟩⟩
      have hz : p.z.toNat < c.dLast := by unfold Cfg.dLast; rw [if_pos h3]; omega
      obtain ⟨l, hl, hm⟩ := thread_of hs hz
      unfold Cfg.bLast at hl
      unfold Cfg.dLast at hm
      rw [if_pos h3] at hl hm
      refine ⟨l, hl, p.y.toNat, by omega, p.x.toNat, by omega, ?_⟩
      rw [if_neg (by omega)]
      refine List.mem_map.2 ⟨_, hm, ?_⟩
      ext <;> simp only <;> omega
  · have hz1 := hs.z1 (by have := hs.D3; omega)
    have hbz := hs.bz
    rw [if_neg h3]
    simp only [List.mem_flatMap, List.mem_range]
    constructor
    · rintro ⟨lz, -, ly, -, lx, -, hp⟩
      split at hp
      · cases hp
      · obtain ⟨k, hk, rfl⟩ := List.mem_map.1 hp
        have := mem_part.1 hk
        refine ⟨?_, ?_, ?_⟩ <;> dsimp only <;> constructor <;> omega
    · rintro ⟨⟨h1, h2⟩, ⟨h4, h5⟩, ⟨h6, h7⟩⟩
      have hz : p.y.toNat < c.dLast := by unfold Cfg.dLast; rw [if_neg h3]; omega
      obtain ⟨l, hl, hm⟩ := thread_of hs hz
      unfold Cfg.bLast at hl
      unfold Cfg.dLast at hm
      rw [if_neg h3] at hl hm
      refine ⟨0, by omega, l, hl, p.x.toNat, by omega, ?_⟩
      rw [if_neg (by omega)]
      refine List.mem_map.2 ⟨_, hm, ?_⟩
      ext <;> simp only <;> omega

theorem part_nodup (wl d l : Nat) : (part wl d l).Nodup := List.Nodup.map (fun _ _ h => Nat.add_left_cancel h) List.nodup_range

/-- threads at different positions have different cells -/
theorem part_disjoint {wl d l m k : Nat} (h1 : k ∈ part wl d l) (h2 : k ∈ part wl d m) : l = m := by
  rw [mem_part] at h1 h2
  rcases Nat.lt_trichotomy l m with h | h | h
  · have : (l + 1) * wl ≤ m * wl := Nat.mul_le_mul_right _ h
    omega
  · exact h
  · have : (m + 1) * wl ≤ l * wl := Nat.mul_le_mul_right _ h
    omega

theorem nodup_flatMap' {β γ : Type} {l : List β} {f : β → List γ} (hl : l.Nodup) (h1 : ∀ a ∈ l, (f a).Nodup) (h2 : ∀ a ∈ l, ∀ b ∈ l, ∀ x, x ∈ f a → x ∈ f b → a = b) : (l.flatMap f).Nodup := by
  induction l with
  | nil => simp
  | cons a l ih =>
    rw [List.nodup_cons] at hl
    rw [List.flatMap_cons, List.nodup_append]
    refine ⟨h1 a (by simp), ih hl.2 (fun b hb => h1 b (List.mem_cons_of_mem _ hb)) (fun b hb d hd => h2 b (List.mem_cons_of_mem _ hb) d (List.mem_cons_of_mem _ hd)), ?_⟩
    rintro x hx y hy rfl
    obtain ⟨b, hb, hxb⟩ := List.mem_flatMap.1 hy
    exact hl.1 (h2 a (by simp) b (List.mem_cons_of_mem _ hb) x hx hxb ▸ hb)

theorem cells_nodup {c : Cfg} (h : c.D = 3 ∨ c.bz = 1) : (cells c).Nodup := by
  unfold cells
  by_cases h3 : c.D = 3
  · rw [if_pos h3]
    have inner : ∀ lz ly lx x, x ∈ (if c.dx ≤ lx ∨ c.dy ≤ ly then [] else (part c.wl c.dz lz).map fun k : Nat => (⟨lx, ly, k⟩ : P)) → x.x = lx ∧ x.y = ly ∧ ∃ k ∈ part c.wl c.dz lz, x.z = (k : Nat) := by
      intro lz ly lx x hx
      split at hx
      · cases hx
      · obtain ⟨k, hk, rfl⟩ := List.mem_map.1 hx
        exact ⟨rfl, rfl, k, hk, rfl⟩
    refine nodup_flatMap' List.nodup_range (fun lz _ => nodup_flatMap' List.nodup_range (fun ly _ => nodup_flatMap' List.nodup_range (fun lx _ => ?_) ?_) ?_) ?_
    · split
      · exact List.nodup_nil
      · exact List.Nodup.map (fun a b e => by simpa using e) (part_nodup _ _ _)
    · intro a _ b _ x ha hb
      have := (inner _ _ _ _ ha).1
      have := (inner _ _ _ _ hb).1
      omega
    · intro a _ b _ x ha hb
      obtain ⟨_, -, ha⟩ := List.mem_flatMap.1 ha
      obtain ⟨_, -, hb⟩ := List.mem_flatMap.1 hb
      have := (inner _ _ _ _ ha).2.1
      have := (inner _ _ _ _ hb).2.1
      omega
    · intro a _ b _ x ha hb
      obtain ⟨_, -, ha⟩ := List.mem_flatMap.1 ha
      obtain ⟨_, -, hb⟩ := List.mem_flatMap.1 hb
      obtain ⟨_, -, ha⟩ := List.mem_flatMap.1 ha
      obtain ⟨_, -, hb⟩ := List.mem_flatMap.1 hb
      obtain ⟨k, hk, ek⟩ := (inner _ _ _ _ ha).2.2
      obtain ⟨m, hm, em⟩ := (inner _ _ _ _ hb).2.2
      have : k = m := by omega
      subst this
      exact part_disjoint hk hm
  · have hb : c.bz = 1 := h.resolve_left h3
    rw [if_neg h3, hb]
    have inner : ∀ ly lx x, x ∈ (if c.dx ≤ lx then [] else (part c.wl c.dy ly).map fun k : Nat => (⟨lx, k, 0⟩ : P)) → x.x = lx ∧ ∃ k ∈ part c.wl c.dy ly, x.y = (k : Nat) := by
      intro ly lx x hx
      split at hx
      · cases hx
      · obtain ⟨k, hk, rfl⟩ := List.mem_map.1 hx
        exact ⟨rfl, k, hk, rfl⟩
    refine nodup_flatMap' List.nodup_range (fun lz _ => nodup_flatMap' List.nodup_range (fun ly _ => nodup_flatMap' List.nodup_range (fun lx _ => ?_) ?_) ?_) ?_
    · split
      · exact List.nodup_nil
      · exact List.Nodup.map (fun a b e => by simpa using e) (part_nodup _ _ _)
    · intro a _ b _ x ha hb
      have := (inner _ _ _ ha).1
      have := (inner _ _ _ hb).1
      omega
    · intro a _ b _ x ha hb
      obtain ⟨_, -, ha⟩ := List.mem_flatMap.1 ha
      obtain ⟨_, -, hb⟩ := List.mem_flatMap.1 hb
      obtain ⟨k, hk, ek⟩ := (inner _ _ _ ha).2
      obtain ⟨m, hm, em⟩ := (inner _ _ _ hb).2
      have : k = m := by omega
      subst this
      exact part_disjoint hk hm
    · intro a ha b hb
      rw [List.mem_range] at ha hb
      intros
      omega

/-! ## Neighbors -/

/-- position on a periodic or on a finite axis -/
def turn (w : Bool) (d x : Int) : Int := if w then x % d else x

/-- coordinates beyond a constant boundary -/
def Cfg.Outside (c : Cfg) (p : P) : Prop :=
  (c.wx = false ∧ ¬ (0 ≤ p.x ∧ p.x < c.dx)) ∨ (c.wy = false ∧ ¬ (0 ≤ p.y ∧ p.y < c.dy)) ∨ (c.wz = false ∧ ¬ (0 ≤ p.z ∧ p.z < c.dz))

instance (c : Cfg) (p : P) : Decidable (c.Outside p) := by unfold Cfg.Outside; infer_instance

/-- the cell at some coordinate, which may be beyond the boundaries -/
def Cfg.look {α : Type} (c : Cfg) (g : P → α) (edge : α) (p : P) : α := if c.Outside p then edge else g ⟨turn c.wx c.dx p.x, turn c.wy c.dy p.y, turn c.wz c.dz p.z⟩

/-- neighbors at distance 1, along axes which exist -/
def Near (c : Cfg) (o : P) : Prop := (-1 ≤ o.x ∧ o.x ≤ 1) ∧ (-1 ≤ o.y ∧ o.y ≤ 1) ∧ (-1 ≤ o.z ∧ o.z ≤ 1) ∧ (c.D < 2 → o.y = 0) ∧ (c.D < 3 → o.z = 0)

theorem turn_cases (w : Bool) {d k o : Int} (h0 : 0 ≤ k) (h1 : k < d) (h2 : -1 ≤ o) (h3 : o ≤ 1) :
    turn w d (k + o) = if w ∧ k + o < 0 then k + o + d else if w ∧ k + o = d then 0 else k + o := by
  unfold turn
  cases w with
  | false => simp
  | true =>
    simp only [if_true, true_and]
    by_cases hn : k + o < 0
    · rw [if_pos hn, ← Int.add_emod_right, Int.emod_eq_of_lt (by omega) (by omega)]
    · rw [if_neg hn]
      by_cases he : k + o = d
      · rw [if_pos he, he, Int.emod_self]
      · rw [if_neg he, Int.emod_eq_of_lt (by omega) (by omega)]

theorem axis (w : Bool) {d k o : Int} (off : Int) (h0 : 0 ≤ k) (h1 : k < d) (h2 : -1 ≤ o) (h3 : o ≤ 1) :
    (if o < 0 then below w (d * off) k + o * off else 0) + (if 0 < o then above w d (d * off) k + o * off else 0) = (turn w d (k + o) - k) * off := by
  rw [turn_cases w h0 h1 h2 h3]
  have ho : o = -1 ∨ o = 0 ∨ o = 1 := by omega
  unfold below above
  cases w with
  | false => rcases ho with rfl | rfl | rfl <;> simp
  | true =>
    rcases ho with rfl | rfl | rfl
    · by_cases hk : k = 0
      · subst hk; simp; ring
      · have : ¬ k + -1 < 0 := by omega
        have : ¬ k + -1 = d := by omega
        simp [*]
    · have : ¬ k < 0 := by omega
      have : ¬ k = d := by omega
      simp [*]
    · by_cases hk : k = d - 1
      · subst hk
        have : ¬ d < 0 := by omega
        simp [*]
        ring
      · have : ¬ k + 1 < 0 := by omega
        have : ¬ k + 1 = d := by omega
        simp [*]

theorem hood_eq {c : Cfg} (hs : Sane c) {p o : P} (hp : c.Inside p) (ho : Near c o) : hood c (evOf c p) o = c.addr ⟨turn c.wx c.dx (p.x + o.x), turn c.wy c.dy (p.y + o.y), turn c.wz c.dz (p.z + o.z)⟩ := by
  obtain ⟨⟨h1, h2⟩, ⟨h3, h4⟩, ⟨h5, h6⟩⟩ := hp
  obtain ⟨⟨o1, o2⟩, ⟨o3, o4⟩, ⟨o5, o6⟩, -, o8⟩ := ho
  have ex := axis c.wx 1 h1 h2 o1 o2
  have ey := axis c.wy c.offY h3 h4 o3 o4
  have ez : (if o.z < 0 then (evOf c p).s + o.z * c.offZ else 0) + (if 0 < o.z then (evOf c p).n + o.z * c.offZ else 0) = (turn c.wz c.dz (p.z + o.z) - p.z) * c.offZ := by
    by_cases hD : c.D = 3
    · have := axis c.wz c.offZ h5 h6 o5 o6
      simp only [evOf, if_pos hD]
      exact this
    · have h0 := o8 (by have := hs.D3; omega)
      have e : turn c.wz c.dz (p.z + 0) = p.z := by
        rw [turn_cases _ h5 h6 (by omega) (by omega), if_neg (by omega), if_neg (by omega)]
        omega
      rw [h0, e]
      simp
  have : hood c (evOf c p) o = c.addr p + ((if o.x < 0 then below c.wx (c.dx * 1) p.x + o.x * 1 else 0) + (if 0 < o.x then above c.wx c.dx (c.dx * 1) p.x + o.x * 1 else 0)) +
      ((if o.y < 0 then below c.wy (c.dy * c.offY) p.y + o.y * c.offY else 0) + (if 0 < o.y then above c.wy c.dy (c.dy * c.offY) p.y + o.y * c.offY else 0)) +
      ((if o.z < 0 then (evOf c p).s + o.z * c.offZ else 0) + (if 0 < o.z then (evOf c p).n + o.z * c.offZ else 0)) := by
    unfold hood
    simp only [mul_one]
    show c.addr p + _ + _ + _ + _ + _ + _ = _
    simp only [evOf, Cfg.awx, Cfg.awy]
    ring
  rw [this, ex, ey, ez]
  unfold Cfg.addr
  ring

end LGD.Cuda
