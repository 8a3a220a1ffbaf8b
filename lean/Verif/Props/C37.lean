import Verif.Store.BoxCellLemmas
import Verif.Store.GridLemmas
import Mathlib.Data.Int.ModEq
import Mathlib.Algebra.Order.BigOperators.Group.List

/-!
# C37: `BoxCell` conserves particles

Specification: the simulation space is divided by boundaries on each axis; a particle belongs to the box which contains its position.
-/

namespace LGD.C37
open LGD.Store LGD.FixedA LGD.C13 LGD.C14 LGD.BoxC

variable {R P : Type} [LinearOrder R] [Add R] {n : Nat} {wraps : Nat → Bool}

/-! ## specification -/

/-- the particles in a container -/
def parts (b : BoxCell R P) : List P := C35.content b.particles

/-- all particles of a grid -/
def inhabitants (g : Grid (BoxCell R P)) : List P := g.cells.flatMap parts

/-- the position of a particle is in the box `c`: boundaries `bd k (c k)` (included) and `bd k (c k + 1)` (excluded) -/
def Home (n : Nat) (pos : P → Nat → R) (bd : Nat → Int → R) (c : Crd) (p : P) : Prop := ∀ k, k ≤ n → bd k (c k) ≤ pos p k ∧ pos p k < bd k (c k + 1)

/-- neighboring boxes (or the same), with respect to the topology -/
def Adjacent (n : Nat) (wraps : Nat → Bool) (dim a b : Crd) : Prop :=
  ∀ k, k ≤ n → ∃ e : Int, -1 ≤ e ∧ e ≤ 1 ∧ if wraps k then (a k + e) % dim k = b k % dim k else a k + e = b k

/-- a grid of boxes: at least three on each periodic axis, no particles in the edge cell, containers within their capacity, and the boxes' corners agree with the boundaries -/
structure World (n : Nat) (wraps : Nat → Bool) (g : Grid (BoxCell R P)) (bd : Nat → Int → R) (size : Nat) : Prop where
  grid : GridOK n g
  three : ∀ k, k ≤ n → wraps k = true → 3 ≤ g.dim k
  cap : ∀ b ∈ g.cells, C35.OK size b.particles
  edge : C35.OK size g.edge.particles ∧ parts g.edge = []
  mono : ∀ k, k ≤ n → ∀ x y, 0 ≤ x → x < y → y ≤ g.dim k → bd k x < bd k y
  boxes : ∀ c, InDim n g.dim c → ∀ b, gridRead n wraps g c = some b → ∀ k, k ≤ n → b.origin k = bd k (c k) ∧ b.origin k + b.dimension k = bd k (c k + 1)

/-- no particle has moved further than to a neighboring box -/
def Settled (n : Nat) (wraps : Nat → Bool) (pos : P → Nat → R) (g : Grid (BoxCell R P)) (bd : Nat → Int → R) : Prop :=
  ∀ c, InDim n g.dim c → ∀ b, gridRead n wraps g c = some b → ∀ p ∈ parts b, ∃ c', InDim n g.dim c' ∧ Adjacent n wraps g.dim c c' ∧ Home n pos bd c' p

/-! ## lists -/

theorem flatMap_filter {β : Type} (F : Nat → List β) (l : List Nat) : (l.filter (fun i => !(F i).isEmpty)).flatMap F = l.flatMap F := by
  induction l with
  | nil => rfl
  | cons i l ih =>
    rw [List.filter_cons]
    cases h : F i with
    | nil => simp only [List.isEmpty_nil, Bool.not_true, Bool.false_eq_true, if_false, ih, List.flatMap_cons, h, List.nil_append]
    | cons x y => simp only [List.isEmpty_cons, Bool.not_false, if_true, List.flatMap_cons, ih]

theorem flatMap_sub {β : Type} (F : Nat → List β) (I J : List Nat) (hI : I.Nodup) (hJ : J.Nodup) (h1 : ∀ i ∈ I, i ∈ J) (h2 : ∀ i ∈ J, F i ≠ [] → i ∈ I) :
    (I.flatMap F).Perm (J.flatMap F) := by
  rw [← flatMap_filter F I, ← flatMap_filter F J]
  refine List.Perm.flatMap_right F ((List.perm_ext_iff_of_nodup (hI.filter _) (hJ.filter _)).2 fun i => ?_)
  simp only [List.mem_filter, Bool.not_eq_true', List.isEmpty_eq_false_iff]
  exact ⟨fun ⟨a, b⟩ => ⟨h1 i a, b⟩, fun ⟨a, b⟩ => ⟨h2 i a b, b⟩⟩

theorem flatMap_one {β : Type} (p : β) (G : Nat → List β) (q : Nat → Bool) (i0 : Nat) (l : List Nat) (hn : l.Nodup) (hi : i0 ∈ l) (hq : q i0 = true) (hu : ∀ i ∈ l, q i = true → i = i0) :
    (l.flatMap fun i => if q i then p :: G i else G i).Perm (p :: l.flatMap G) := by
  induction l with
  | nil => simp at hi
  | cons i l ih =>
    rw [List.nodup_cons] at hn
    rw [List.flatMap_cons, List.flatMap_cons]
    by_cases e : i = i0
    · subst e
      rw [if_pos hq]
      have : (l.flatMap fun j => if q j then p :: G j else G j) = l.flatMap G := by
        unfold List.flatMap
        congr 1
        refine List.map_congr_left fun j hj => ?_
        rw [if_neg]
        intro hqj
        exact hn.1 (hu j (List.mem_cons_of_mem _ hj) hqj ▸ hj)
      rw [this, List.cons_append]
    · rw [if_neg (fun h => e (hu i (List.mem_cons_self ..) h))]
      have hi' : i0 ∈ l := by
        rw [List.mem_cons] at hi
        rcases hi with h | h
        · exact absurd h.symm e
        · exact h
      have := ih hn.2 hi' (fun j hj => hu j (List.mem_cons_of_mem _ hj))
      exact (List.Perm.append_left _ this).trans List.perm_middle

theorem partition_perm {β : Type} (q : Nat → β → Bool) (l : List Nat) (hn : l.Nodup) (T : List β) (h : ∀ p ∈ T, ∃ i ∈ l, q i p = true ∧ ∀ j ∈ l, q j p = true → j = i) :
    (l.flatMap fun i => T.filter (q i)).Perm T := by
  induction T with
  | nil => simp
  | cons p T ih =>
    obtain ⟨i0, h1, h2, h3⟩ := h p (List.mem_cons_self ..)
    have := flatMap_one p (fun i => T.filter (q i)) (fun i => q i p) i0 l hn h1 h2 h3
    simp only [List.filter_cons]
    exact this.trans (List.Perm.cons _ (ih fun x hx => h x (List.mem_cons_of_mem _ hx)))

theorem filterMap_nodup {β : Type} (f : β → Option Nat) (l : List β) (h : l.Pairwise fun a b => ∀ i, f a = some i → f b = some i → False) : (l.filterMap f).Nodup := by
  induction l with
  | nil => simp
  | cons a l ih =>
    rw [List.pairwise_cons] at h
    cases ha : f a with
    | none => rw [List.filterMap_cons_none ha]; exact ih h.2
    | some i =>
      rw [List.filterMap_cons_some ha, List.nodup_cons]
      refine ⟨fun hm => ?_, ih h.2⟩
      obtain ⟨b, hb, e⟩ := List.mem_filterMap.1 hm
      exact h.1 b hb i ha e

theorem flatMap_filterMap {β γ : Type} (f : β → Option Nat) (F : Nat → List γ) (l : List β) : (l.filterMap f).flatMap F = l.flatMap fun a => (f a).elim [] F := by
  induction l with
  | nil => rfl
  | cons a l ih =>
    cases ha : f a with
    | none => rw [List.filterMap_cons_none ha, List.flatMap_cons, ha, ih]; rfl
    | some i => rw [List.filterMap_cons_some ha, List.flatMap_cons, List.flatMap_cons, ha, ih]; rfl

/-! ## the neighborhood of a box -/

/-- the particles of the container with a given index -/
def partsAt (g : Grid (BoxCell R P)) (i : Nat) : List P := (g.cells[i]?).elim [] parts

theorem inhabitants_eq (g : Grid (BoxCell R P)) : inhabitants g = (List.range g.cells.length).flatMap (partsAt g) := by
  unfold inhabitants List.flatMap
  congr 1
  apply List.ext_getElem (by simp)
  intro i h1 h2
  simp only [List.length_map] at h1
  simp [partsAt, List.getElem?_eq_getElem h1]

theorem deref_eq (g : Grid (BoxCell R P)) (c d : Crd) : deref g (hoodAddr n wraps g c d) = gridRead n wraps g (fun k => c k + d k) := by
  unfold deref hoodAddr gridRead
  cases topoLocate n wraps (fun k => c k + d k) g.dim <;> rfl

theorem near_period {dim c d : Crd} (hd : ∀ k, k ≤ n → 0 < dim k) (hc : InDim n dim c) (h : C36.Near n d) : OnePeriod n wraps dim (fun k => c k + d k) := by
  intro k hk _
  have := hd k hk
  have := hc k hk
  have := h k hk
  simp only
  omega

/-- the container at a relative coordinate -/
def hoodOf (n : Nat) (wraps : Nat → Bool) (g : Grid (BoxCell R P)) (c d : Crd) : BoxCell R P := (gridRead n wraps g (fun k => c k + d k)).getD g.edge

theorem read_cases (hn : n ≤ 2) {g : Grid (BoxCell R P)} (hg : GridOK n g) {c : Crd} (hc : OnePeriod n wraps g.dim c) :
    (topoLocate n wraps c g.dim = none ∧ gridRead n wraps g c = some g.edge) ∨
    ∃ i : Nat, topoLocate n wraps c g.dim = some (i : Int) ∧ ∃ h : i < g.cells.length, gridRead n wraps g c = some g.cells[i] := by
  cases h : topoLocate n wraps c g.dim with
  | none => left; exact ⟨rfl, by unfold gridRead; rw [h]⟩
  | some i =>
    right
    have := locate_range hn hg hc i h
    refine ⟨i.toNat, by rw [Int.toNat_of_nonneg this.1], by omega, ?_⟩
    unfold gridRead
    rw [h]
    simp only
    rw [if_pos this.1, List.getElem?_eq_getElem (by omega)]

theorem hood_ok (hn : n ≤ 2) {g : Grid (BoxCell R P)} {bd : Nat → Int → R} {size : Nat} (w : World n wraps g bd size) {c : Crd} (hc : InDim n g.dim c) :
    Hood n wraps g c (hoodOf n wraps g c) := by
  have key : ∀ d, C36.Near n d → gridRead n wraps g (fun k => c k + d k) = some (hoodOf n wraps g c d) ∧ C35.OK size (hoodOf n wraps g c d).particles := by
    intro d hd
    unfold hoodOf
    rcases read_cases hn w.grid (near_period (wraps := wraps) w.grid.pos hc hd) with ⟨_, h2⟩ | ⟨i, _, h2, h3⟩
    · rw [h2]; exact ⟨rfl, w.edge.1⟩
    · rw [h3]; exact ⟨rfl, w.cap _ (List.getElem_mem _)⟩
  refine ⟨fun d hd => by rw [deref_eq]; exact (key d hd).1, fun d hd => ?_⟩
  have := (key d hd).2
  rw [this.len]
  exact this.le

theorem addr_congr (hn : n ≤ 2) (g : Grid (BoxCell R P)) (c a b : Crd) (h : ∀ j, j ≤ n → a j = b j) : hoodAddr n wraps g c a = hoodAddr n wraps g c b := by
  unfold hoodAddr
  exact locate_congr hn fun k hk => by rw [h k hk]

theorem home_unique {pos : P → Nat → R} {g : Grid (BoxCell R P)} {bd : Nat → Int → R} {size : Nat} (w : World n wraps g bd size) {a b : Crd} (ha : InDim n g.dim a) (hb : InDim n g.dim b)
    {p : P} (h1 : Home n pos bd a p) (h2 : Home n pos bd b p) : ∀ k, k ≤ n → a k = b k := by
  intro k hk
  have h1 := h1 k hk
  have h2 := h2 k hk
  have ha := ha k hk
  have hb := hb k hk
  have key : ∀ x y : Int, 0 ≤ x → x < y → y < g.dim k → bd k y ≤ pos p k → pos p k < bd k (x + 1) → False := by
    intro x y hx hxy hy h3 h4
    have : bd k (x + 1) ≤ bd k y := by
      by_cases e : x + 1 = y
      · rw [e]
      · exact le_of_lt (w.mono k hk _ _ (by omega) (by omega) (by omega))
    exact absurd (lt_of_lt_of_le h4 this) (not_lt.2 h3)
  rcases Int.lt_trichotomy (a k) (b k) with h | h | h
  · exact (key _ _ ha.1 h hb.2 h2.1 h1.2).elim
  · exact h
  · exact (key _ _ hb.1 h ha.2 h1.1 h2.2).elim

/-- the index of a container, if it isn't the edge cell -/
def idxOf (n : Nat) (wraps : Nat → Bool) (g : Grid (BoxCell R P)) (c d : Crd) : Option Nat := (hoodAddr n wraps g c d).map Int.toNat

theorem parts_hood (hn : n ≤ 2) {g : Grid (BoxCell R P)} {bd : Nat → Int → R} {size : Nat} (w : World n wraps g bd size) {c d : Crd} (hc : InDim n g.dim c) (hd : C36.Near n d) :
    parts (hoodOf n wraps g c d) = (idxOf n wraps g c d).elim [] (partsAt g) := by
  unfold hoodOf idxOf hoodAddr
  rcases read_cases hn w.grid (near_period (wraps := wraps) w.grid.pos hc hd) with ⟨h1, h2⟩ | ⟨i, h1, h2, h3⟩
  · rw [h1, h2]; exact w.edge.2
  · rw [h1, h3]
    simp [partsAt, List.getElem?_eq_getElem h2]

theorem idx_inj (hn : n ≤ 2) {g : Grid (BoxCell R P)} {bd : Nat → Int → R} {size : Nat} (w : World n wraps g bd size) {c a b : Crd} (hc : InDim n g.dim c) (ha : C36.Near n a) (hb : C36.Near n b)
    (i : Nat) (h1 : idxOf n wraps g c a = some i) (h2 : idxOf n wraps g c b = some i) : ∀ k, k ≤ n → a k = b k := by
  have pa := near_period (wraps := wraps) w.grid.pos hc ha
  have pb := near_period (wraps := wraps) w.grid.pos hc hb
  have e : topoLocate n wraps (fun k => c k + a k) g.dim = topoLocate n wraps (fun k => c k + b k) g.dim := by
    unfold idxOf hoodAddr at h1 h2
    rcases read_cases hn w.grid pa with ⟨h3, _⟩ | ⟨i1, h3, _, _⟩
    · rw [h3] at h1; cases h1
    · rcases read_cases hn w.grid pb with ⟨h4, _⟩ | ⟨i2, h4, _, _⟩
      · rw [h4] at h2; cases h2
      · rw [h3] at h1; rw [h4] at h2; rw [h3, h4]
        simp only [Option.map_some, Int.toNat_natCast, Option.some.injEq] at h1 h2
        rw [h1, h2]
  rw [← same_locate hn w.grid.pos pa pb] at e
  rcases e with ⟨⟨k, h3, h4, h5⟩, h6⟩ | ⟨_, _, h⟩
  · unfold idxOf hoodAddr at h1
    rw [(locate_spec n hn wraps g.dim _ w.grid.pos pa).1 ⟨k, h3, h4, h5⟩] at h1
    cases h1
  · intro k hk
    have h := h k hk
    have h3 := ha k hk
    have h4 := hb k hk
    by_cases hw : wraps k = true
    · rw [if_pos hw] at h
      have := w.three k hk hw
      have : g.dim k ∣ (c k + a k) - (c k + b k) := Int.ModEq.dvd (Eq.symm h)
      obtain ⟨m, hm⟩ := this
      have hm0 : m = 0 := by
        by_contra hne
        rcases Int.lt_or_gt_of_ne hne with h5 | h5
        · have : g.dim k * m ≤ g.dim k * (-1) := Int.mul_le_mul_of_nonneg_left (by omega) (by omega)
          omega
        · have : g.dim k * 1 ≤ g.dim k * m := Int.mul_le_mul_of_nonneg_left (by omega) (by omega)
          omega
      rw [hm0, Int.mul_zero] at hm
      omega
    · rw [if_neg hw] at h
      simp only at h
      omega

theorem adjacent_idx (hn : n ≤ 2) {g : Grid (BoxCell R P)} {bd : Nat → Int → R} {size : Nat} (w : World n wraps g bd size) {a b : Crd} (ha : InDim n g.dim a) (hb : InDim n g.dim b)
    (h : Adjacent n wraps g.dim a b) : ∃ d, C36.Near n d ∧ idxOf n wraps g b d = some (lin g.dim n 0 a).toNat := by
  have : ∀ k, ∃ e : Int, k ≤ n → -1 ≤ e ∧ e ≤ 1 ∧ if wraps k then (a k + e) % g.dim k = b k % g.dim k else a k + e = b k := by
    intro k
    by_cases hk : k ≤ n
    · obtain ⟨e, h1⟩ := h k hk
      exact ⟨e, fun _ => h1⟩
    · exact ⟨0, fun h => absurd h hk⟩
  choose e he using this
  have hd : C36.Near n (fun k => - e k) := fun k hk => by have := he k hk; simp only; omega
  refine ⟨fun k => - e k, hd, ?_⟩
  have pa := onePeriod_of_inDim (wraps := wraps) ha
  have pb := near_period (wraps := wraps) w.grid.pos hb hd
  have hs : Same n wraps g.dim (fun k => b k + - e k) a := by
    right
    have key : ∀ k, k ≤ n → wraps k = false → b k + - e k = a k := by
      intro k hk hw
      have := (he k hk).2.2
      rw [hw] at this
      simp only [Bool.false_eq_true, if_false] at this
      omega
    refine ⟨?_, not_outside_of_inDim ha, fun k hk => ?_⟩
    · rintro ⟨k, hk, hw, h3⟩
      simp only [key k hk hw] at h3
      exact h3 (ha k hk)
    · by_cases hw : wraps k = true
      · rw [if_pos hw]
        have := (he k hk).2.2
        rw [if_pos hw] at this
        have h2 := (Int.ModEq.sub_right (e k) (show a k + e k ≡ b k [ZMOD g.dim k] from this)).symm
        have h3 : b k - e k ≡ a k [ZMOD g.dim k] := by simpa using h2
        rw [sub_eq_add_neg] at h3
        exact h3
      · rw [if_neg hw]
        exact key k hk (by simpa using hw)
  rw [same_locate hn w.grid.pos pb pa] at hs
  unfold idxOf hoodAddr
  rw [hs, locate_inDim hn ha]
  rfl

theorem inDim_idx (hn : n ≤ 2) {g : Grid (BoxCell R P)} (hg : GridOK n g) (i : Nat) (hi : i < g.cells.length) :
    InDim n g.dim (indexToCoord n g.dim i) ∧ lin g.dim n 0 (indexToCoord n g.dim i) = i ∧ gridRead n wraps g (indexToCoord n g.dim i) = some g.cells[i] := by
  obtain ⟨h1, h2⟩ := (index_bijection n hn g.dim hg.pos).2.1 i (by omega) (by have := hg.size; omega)
  rw [toIndex_lin n hn] at h2
  refine ⟨h1, h2, ?_⟩
  unfold gridRead
  rw [locate_inDim hn h1, h2]
  simp only
  rw [if_pos (by omega), Int.toNat_natCast, List.getElem?_eq_getElem hi]

/-- the particles a box selects from its neighborhood are all particles of the grid which belong to it -/
theorem select_perm (hn : n ≤ 2) {pos : P → Nat → R} {g : Grid (BoxCell R P)} {bd : Nat → Int → R} {size : Nat} (w : World n wraps g bd size) (hs : Settled n wraps pos g bd) {c : Crd}
    (hc : InDim n g.dim c) (q : P → Bool) (hq : ∀ p, q p = true ↔ Home n pos bd c p) (l : List Crd) (hl1 : ∀ x, (∃ x' ∈ l, ∀ k, k ≤ n → x' k = x k) ↔ C36.Near n x)
    (hl2 : l.Pairwise (fun a b => ∃ k, k ≤ n ∧ a k ≠ b k)) :
    ((l.flatMap fun d => parts (hoodOf n wraps g c d)).filter q).Perm ((inhabitants g).filter q) := by
  have hnear : ∀ x ∈ l, C36.Near n x := fun x hx => (hl1 x).1 ⟨x, hx, fun _ _ => rfl⟩
  have e1 : (l.flatMap fun d => parts (hoodOf n wraps g c d)).filter q = (l.filterMap (idxOf n wraps g c)).flatMap fun i => (partsAt g i).filter q := by
    rw [flatMap_filterMap, List.filter_flatMap]
    unfold List.flatMap
    congr 1
    refine List.map_congr_left fun d hd => ?_
    rw [parts_hood hn w hc (hnear d hd)]
    cases idxOf n wraps g c d <;> rfl
  rw [e1, inhabitants_eq, List.filter_flatMap]
  refine flatMap_sub _ _ _ ?_ List.nodup_range (fun i hi => ?_) (fun i hi hne => ?_)
  · refine filterMap_nodup _ _ ?_
    refine List.Pairwise.imp_of_mem ?_ hl2
    intro a b ha hb ⟨k, hk, hne⟩ i h1 h2
    exact hne (idx_inj hn w hc (hnear a ha) (hnear b hb) i h1 h2 k hk)
  · obtain ⟨d, hd, e⟩ := List.mem_filterMap.1 hi
    rw [List.mem_range]
    unfold idxOf hoodAddr at e
    rcases read_cases hn w.grid (near_period (wraps := wraps) w.grid.pos hc (hnear d hd)) with ⟨h3, _⟩ | ⟨i1, h3, h4, _⟩
    · rw [h3] at e; cases e
    · rw [h3] at e
      simp only [Option.map_some, Int.toNat_natCast, Option.some.injEq] at e
      rw [← e]; exact h4
  · rw [List.mem_range] at hi
    obtain ⟨p, hp⟩ := List.exists_mem_of_ne_nil _ hne
    rw [List.mem_filter, hq] at hp
    obtain ⟨hin, hlin, hread⟩ := inDim_idx (wraps := wraps) hn w.grid i hi
    have hp1 : p ∈ parts g.cells[i] := by simpa [partsAt, List.getElem?_eq_getElem hi] using hp.1
    obtain ⟨c', h1, h2, h3⟩ := hs _ hin _ hread p hp1
    have hcc := home_unique w h1 hc h3 hp.2
    have h2' : Adjacent n wraps g.dim (indexToCoord n g.dim i) c := by
      intro k hk
      rw [← hcc k hk]; exact h2 k hk
    obtain ⟨d, hd, e⟩ := adjacent_idx hn w hin hc h2'
    rw [hlin, Int.toNat_natCast] at e
    obtain ⟨d', hd', he⟩ := (hl1 d).2 hd
    refine List.mem_filterMap.2 ⟨d', hd', ?_⟩
    rw [← e]
    unfold idxOf
    rw [addr_congr hn g c d' d he]

theorem inBox_iff {pos : P → Nat → R} {g : Grid (BoxCell R P)} {bd : Nat → Int → R} {size : Nat} (w : World n wraps g bd size) {c : Crd} (hc : InDim n g.dim c) {b : BoxCell R P}
    (hb : gridRead n wraps g c = some b) (p : P) : inBox n pos b.origin (fun k => b.origin k + b.dimension k) p = true ↔ Home n pos bd c p := by
  unfold inBox Home
  simp only [List.all_eq_true, List.mem_range, Bool.and_eq_true, decide_eq_true_eq]
  constructor
  · intro h k hk
    obtain ⟨h1, h2⟩ := w.boxes c hc b hb k hk
    rw [← h1, ← h2]
    exact h k (by omega)
  · intro h k hk
    obtain ⟨h1, h2⟩ := w.boxes c hc b hb k (by omega)
    rw [h2, h1]
    exact h k (by omega)

open Classical in
theorem gather_aux (hn : n ≤ 2) {pos : P → Nat → R} {g : Grid (BoxCell R P)} {bd : Nat → Int → R} {size : Nat} (w : World n wraps g bd size) (hs : Settled n wraps pos g bd) {c : Crd}
    (hc : InDim n g.dim c) (self : BoxCell R P) (hself : self.particles.store.length = size) :
    ∃ (l : List Crd) (mine : List P), (∀ x, (∃ x' ∈ l, ∀ k, k ≤ n → x' k = x k) ↔ C36.Near n x) ∧ l.Pairwise (fun a b => ∃ k, k ≤ n ∧ a k ≠ b k) ∧
    mine.Perm ((inhabitants g).filter fun p => decide (Home n pos bd c p)) ∧
    ∃ F, ∀ fuel, F ≤ fuel → visible n wraps g c fuel = some (l.flatMap fun d => parts (hoodOf n wraps g c d)) ∧ ∃ t b', copyOver n wraps pos g c fuel 0 self = some (t, b') ∧
      (t = true ↔ size < mine.length) ∧
      (t = false → parts b' = mine ∧ C35.OK size b'.particles ∧ ∃ b, gridRead n wraps g c = some b ∧ b'.origin = b.origin ∧ b'.dimension = b.dimension) := by
  have hh := hood_ok hn w hc
  obtain ⟨l, hl1, hl2, hv⟩ := visible_ok hh (fun a b => addr_congr hn g c a b)
  have h0 : deref g (hoodAddr n wraps g c (fun _ => 0)) = some (hoodOf n wraps g c (fun _ => 0)) := hh.get _ (fun j _ => by simp)
  have hr : gridRead n wraps g c = some (hoodOf n wraps g c (fun _ => 0)) := by
    rw [deref_eq] at h0
    simpa using h0
  have hq := fun p => inBox_iff (pos := pos) w hc hr p
  have hperm := select_perm hn w hs hc _ hq l hl1 hl2
  have e2 : (inhabitants g).filter (inBox n pos (hoodOf n wraps g c (fun _ => 0)).origin (fun k => (hoodOf n wraps g c (fun _ => 0)).origin k + (hoodOf n wraps g c (fun _ => 0)).dimension k)) =
      (inhabitants g).filter fun p => decide (Home n pos bd c p) := by
    apply List.filter_congr
    intro p _
    rw [Bool.eq_iff_iff, hq p, decide_eq_true_eq]
  rw [e2] at hperm
  refine ⟨l, _, hl1, hl2, hperm, (l.flatMap fun d => C35.content (hoodOf n wraps g c d).particles).length + 1, fun fuel hf => ?_⟩
  have hv : visible n wraps g c fuel = some (l.flatMap fun d => parts (hoodOf n wraps g c d)) := hv fuel (Nat.lt_of_succ_le hf)
  refine ⟨hv, ?_⟩
  have hok : C35.OK size { self.particles with elements := 0 } := ⟨hself, Nat.zero_le _⟩
  have hpush := pushAll_ok ((l.flatMap fun d => parts (hoodOf n wraps g c d)).filter (inBox n pos (hoodOf n wraps g c (fun _ => 0)).origin
    (fun k => (hoodOf n wraps g c (fun _ => 0)).origin k + (hoodOf n wraps g c (fun _ => 0)).dimension k))) _ hok
  rw [Nat.zero_add] at hpush
  unfold copyOver
  rw [h0, Option.bind_some, if_pos rfl, hv, Option.bind_some]
  generalize ((l.flatMap fun d => parts (hoodOf n wraps g c d)).filter (inBox n pos (hoodOf n wraps g c (fun _ => 0)).origin
    (fun k => (hoodOf n wraps g c (fun _ => 0)).origin k + (hoodOf n wraps g c (fun _ => 0)).dimension k))) = mine at hpush
  by_cases hsz : mine.length ≤ size
  · obtain ⟨a', e, h1, h2⟩ := hpush.1 hsz
    refine ⟨false, ⟨(hoodOf n wraps g c (fun _ => 0)).origin, (hoodOf n wraps g c (fun _ => 0)).dimension, a'⟩, ?_, ?_, fun _ => ⟨?_, h1, _, hr, rfl, rfl⟩⟩
    · exact congrArg (Option.map _) e
    · simp only [Bool.false_eq_true, false_iff]; omega
    · unfold parts
      simp only
      rw [h2]
      simp [C35.content]
  · obtain ⟨a', e⟩ := hpush.2 (by omega)
    refine ⟨true, ⟨(hoodOf n wraps g c (fun _ => 0)).origin, (hoodOf n wraps g c (fun _ => 0)).dimension, a'⟩, ?_, ?_, by simp⟩
    · exact congrArg (Option.map _) e
    · simp only [true_iff]; omega

open Classical in
/-- **C37, one box.** At the beginning of a step (`nanoStep = 0`), a box takes over exactly the particles of the grid whose positions it contains (each as often as it occurs in the grid).
An exception is thrown exactly if they exceed the capacity of the container. -/
theorem gather (hn : n ≤ 2) {pos : P → Nat → R} {g : Grid (BoxCell R P)} {bd : Nat → Int → R} {size : Nat} (w : World n wraps g bd size) (hs : Settled n wraps pos g bd) {c : Crd}
    (hc : InDim n g.dim c) (self : BoxCell R P) (hself : self.particles.store.length = size) :
    ∃ F, ∀ fuel, F ≤ fuel → ∃ t b', copyOver n wraps pos g c fuel 0 self = some (t, b') ∧
      (t = true ↔ size < ((inhabitants g).filter fun p => decide (Home n pos bd c p)).length) ∧
      (t = false → (parts b').Perm ((inhabitants g).filter fun p => decide (Home n pos bd c p)) ∧ C35.OK size b'.particles ∧
        ∃ b, gridRead n wraps g c = some b ∧ b'.origin = b.origin ∧ b'.dimension = b.dimension) := by
  obtain ⟨l, mine, _, _, hp, F, h⟩ := gather_aux hn w hs hc self hself
  refine ⟨F, fun fuel hf => ?_⟩
  obtain ⟨_, t, b', h1, h2, h3⟩ := h fuel hf
  exact ⟨t, b', h1, hp.length_eq ▸ h2, fun ht => ⟨(h3 ht).1 ▸ hp, (h3 ht).2⟩⟩

open Classical in
/-- **C37, conservation.** If no box is overcrowded, then the boxes taken together hold the same particles as before, and each particle is in the box which contains its position. -/
theorem conservation (hn : n ≤ 2) {pos : P → Nat → R} {g : Grid (BoxCell R P)} {bd : Nat → Int → R} {size : Nat} (w : World n wraps g bd size) (hs : Settled n wraps pos g bd)
    (hcap : ∀ c, InDim n g.dim c → ((inhabitants g).filter fun p => decide (Home n pos bd c p)).length ≤ size) (tgt : Nat → BoxCell R P) (ht : ∀ i, (tgt i).particles.store.length = size) :
    ∃ F, ∀ fuel, F ≤ fuel → ∃ new : Nat → BoxCell R P, (∀ i, i < g.cells.length → copyOver n wraps pos g (indexToCoord n g.dim i) fuel 0 (tgt i) = some (false, new i)) ∧
      ((List.range g.cells.length).flatMap fun i => parts (new i)).Perm (inhabitants g) ∧
      ∀ i, i < g.cells.length → ∀ p ∈ parts (new i), Home n pos bd (indexToCoord n g.dim i) p := by
  have hin : ∀ i, i < g.cells.length → InDim n g.dim (indexToCoord n g.dim i) := fun i hi => (inDim_idx (wraps := wraps) hn w.grid i hi).1
  have : ∀ i, ∃ F, i < g.cells.length → ∀ fuel, F ≤ fuel → ∃ b', copyOver n wraps pos g (indexToCoord n g.dim i) fuel 0 (tgt i) = some (false, b') ∧
      (parts b').Perm ((inhabitants g).filter fun p => decide (Home n pos bd (indexToCoord n g.dim i) p)) := by
    intro i
    by_cases hi : i < g.cells.length
    · obtain ⟨F, h⟩ := gather hn w hs (hin i hi) (tgt i) (ht i)
      refine ⟨F, fun _ fuel hf => ?_⟩
      obtain ⟨t, b', h1, h2, h3⟩ := h fuel hf
      cases t with
      | true => exact absurd (h2.1 rfl) (by have := hcap _ (hin i hi); omega)
      | false => exact ⟨b', h1, (h3 rfl).1⟩
    · exact ⟨0, fun h => absurd h hi⟩
  choose F hF using this
  refine ⟨((List.range g.cells.length).map F).sum, fun fuel hf => ?_⟩
  have hle : ∀ i, i < g.cells.length → F i ≤ fuel := fun i hi => le_trans (List.single_le_sum (by simp) _ (List.mem_map.2 ⟨i, List.mem_range.2 hi, rfl⟩)) hf
  have : ∀ i, ∃ b', i < g.cells.length → copyOver n wraps pos g (indexToCoord n g.dim i) fuel 0 (tgt i) = some (false, b') ∧
      (parts b').Perm ((inhabitants g).filter fun p => decide (Home n pos bd (indexToCoord n g.dim i) p)) := by
    intro i
    by_cases hi : i < g.cells.length
    · obtain ⟨b', h⟩ := hF i hi fuel (hle i hi)
      exact ⟨b', fun _ => h⟩
    · exact ⟨tgt i, fun h => absurd h hi⟩
  choose new hnew using this
  refine ⟨new, fun i hi => (hnew i hi).1, ?_, fun i hi p hp => ?_⟩
  · have e : ((List.range g.cells.length).flatMap fun i => parts (new i)).Perm
        ((List.range g.cells.length).flatMap fun i : Nat => (inhabitants g).filter fun p => decide (Home n pos bd (indexToCoord n g.dim i) p)) :=
      List.Perm.flatMap_left _ fun i hi => (hnew i (List.mem_range.1 hi)).2
    refine e.trans (partition_perm _ _ List.nodup_range _ fun p hp => ?_)
    unfold inhabitants at hp
    rw [List.mem_flatMap] at hp
    obtain ⟨b, hb, hpb⟩ := hp
    obtain ⟨i, hi, rfl⟩ := List.getElem_of_mem hb
    obtain ⟨h1, _, h3⟩ := inDim_idx (wraps := wraps) hn w.grid i hi
    obtain ⟨c', h4, _, h5⟩ := hs _ h1 _ h3 p hpb
    have h6 := (index_bijection n hn g.dim w.grid.pos).1 c' h4
    have hsz := w.grid.size
    have hc' : ∀ k, k ≤ n → indexToCoord n g.dim ((toIndex n c' g.dim).toNat : Int) k = c' k := by
      rw [Int.toNat_of_nonneg h6.1]; exact h6.2.2
    refine ⟨(toIndex n c' g.dim).toNat, List.mem_range.2 (by omega), ?_, fun j hj hq => ?_⟩
    · rw [decide_eq_true_eq]
      intro k hk
      rw [hc' k hk]; exact h5 k hk
    · rw [decide_eq_true_eq] at hq
      have hj := List.mem_range.1 hj
      have h7 := home_unique w (hin j hj) h4 hq h5
      have h8 := (inDim_idx (wraps := wraps) hn w.grid j hj).2.1
      rw [lin_congr g.dim n 0 _ c' (fun k _ hk => h7 k (by omega)), ← toIndex_lin n hn] at h8
      omega
  · have := (hnew i hi).2.mem_iff.1 hp
    rw [List.mem_filter, decide_eq_true_eq] at this
    exact this.2

/-! ## update of the particles -/

theorem set_ok {size : Nat} {a : FA P} (h : C35.OK size a) (A B : List P) (p p' : P) (hc : C35.content a = A ++ p :: B) :
    FixedA.get a A.length = some p ∧ ∃ a', FixedA.set a A.length p' = some (false, a') ∧ C35.OK size a' ∧ C35.content a' = A ++ p' :: B ∧ a'.elements = a.elements := by
  have hl := congrArg List.length hc
  rw [C35.content_length h] at hl
  simp only [List.length_append, List.length_cons] at hl
  have hle := h.le
  have hlt : A.length < a.store.length := by rw [h.len]; omega
  constructor
  · have := congrArg (fun x => x[A.length]?) hc
    simp only [C35.content, List.getElem?_append_right (Nat.le_refl _), Nat.sub_self, List.getElem?_cons_zero] at this
    rw [List.getElem?_take_of_lt (by omega)] at this
    exact this
  · refine ⟨{ a with store := a.store.set A.length p' }, by unfold FixedA.set; rw [if_pos hlt], ⟨by simpa using h.len, h.le⟩, ?_, rfl⟩
    unfold C35.content at hc ⊢
    simp only
    rw [List.take_set, hc, List.set_append_right _ _ (Nat.le_refl _)]
    simp

theorem cargo_ok {size : Nat} (f : P → P × List P) (B : List P) : ∀ (A E : List P) (a : FA P), C35.OK size a → C35.content a = A ++ B ++ E →
    ∃ t a', cargoLoop f B.length A.length a = some (t, a') ∧ (t = true ↔ size < (A ++ B ++ E).length + (B.flatMap fun p => (f p).2).length) ∧
      (t = false → C35.OK size a' ∧ C35.content a' = A ++ B.map (fun p => (f p).1) ++ E ++ B.flatMap fun p => (f p).2) := by
  induction B with
  | nil =>
    intro A E a h hc
    have hl := congrArg List.length hc
    rw [C35.content_length h] at hl
    have := h.le
    refine ⟨false, a, rfl, ?_, fun _ => ⟨h, by simpa using hc⟩⟩
    simp only [Bool.false_eq_true, List.flatMap_nil, List.length_nil, Nat.add_zero, false_iff]
    omega
  | cons p B ih =>
    intro A E a h hc
    obtain ⟨e1, a1, e2, h1, hc1, he⟩ := set_ok h A (B ++ E) p (f p).1 (by simpa using hc)
    have hl := congrArg List.length hc1
    rw [C35.content_length h1] at hl
    have hlen : (A ++ p :: B ++ E).length = a1.elements := by rw [hl]; simp
    have hpush := pushAll_ok (f p).2 a1 h1
    by_cases hs : a1.elements + (f p).2.length ≤ size
    · obtain ⟨a2, e3, h2, hc2⟩ := hpush.1 hs
      have hc2' : C35.content a2 = (A ++ [(f p).1]) ++ B ++ (E ++ (f p).2) := by rw [hc2, hc1]; simp
      obtain ⟨t, a', e4, h3, h4⟩ := ih (A ++ [(f p).1]) (E ++ (f p).2) a2 h2 hc2'
      refine ⟨t, a', ?_, ?_, fun ht => ?_⟩
      · simp only [List.length_cons, cargoLoop, e1, Option.bind_some, e2, e3, Bool.false_eq_true, if_false]
        simpa using e4
      · rw [h3]
        simp only [List.length_append, List.length_cons, List.length_nil, List.flatMap_cons]
        constructor <;> intro <;> omega
      · obtain ⟨h5, h6⟩ := h4 ht
        exact ⟨h5, by rw [h6]; simp⟩
    · obtain ⟨a2, e3⟩ := hpush.2 (by omega)
      refine ⟨true, a2, ?_, ?_, by simp⟩
      · simp only [List.length_cons, cargoLoop, e1, Option.bind_some, e2, e3, if_true]
      · rw [hlen]
        simp only [List.flatMap_cons, List.length_append, true_iff]
        omega

open Classical in
/-- **C37, update.** In the first nano step, a box takes over its particles (`gather`), then each of them is updated once. The update function sees the particles of the old grid in the Moore
neighborhood of the box (`seen`: the containers at all coordinates at most 1 away, each once); particles added by the update functions are appended and not updated in this step. An exception is thrown
exactly if the capacity is exceeded. -/
theorem update (hn : n ≤ 2) {pos : P → Nat → R} {g : Grid (BoxCell R P)} {bd : Nat → Int → R} {size : Nat} (w : World n wraps g bd size) (hs : Settled n wraps pos g bd) {c : Crd}
    (hc : InDim n g.dim c) (self : BoxCell R P) (hself : self.particles.store.length = size) (f : List P → Nat → P → P × List P) :
    ∃ (near : List Crd) (seen mine : List P), (∀ x, (∃ x' ∈ near, ∀ k, k ≤ n → x' k = x k) ↔ C36.Near n x) ∧ near.Pairwise (fun a b => ∃ k, k ≤ n ∧ a k ≠ b k) ∧
      (∃ bs : List (BoxCell R P), bs.map some = near.map (fun d => gridRead n wraps g (fun k => c k + d k)) ∧ seen = bs.flatMap parts) ∧
      mine.Perm ((inhabitants g).filter fun p => decide (Home n pos bd c p)) ∧
      ∃ F, ∀ fuel, F ≤ fuel → ∃ t b', BoxC.update n wraps pos f g c fuel 0 self = some (t, b') ∧
        (t = true ↔ size < mine.length + (mine.flatMap fun p => (f seen 0 p).2).length) ∧
        (t = false → parts b' = (mine.map fun p => (f seen 0 p).1) ++ mine.flatMap fun p => (f seen 0 p).2) := by
  obtain ⟨l, mine, hl1, hl2, hp, F, h⟩ := gather_aux hn w hs hc self hself
  refine ⟨l, _, mine, hl1, hl2, ⟨l.map (hoodOf n wraps g c), ?_, rfl⟩, hp, F, fun fuel hf => ?_⟩
  · rw [List.map_map]
    refine List.map_congr_left fun d hd => ?_
    have := (hood_ok hn w hc).get d ((hl1 d).1 ⟨d, hd, fun _ _ => rfl⟩)
    rw [deref_eq] at this
    exact this.symm
  · obtain ⟨hv, t, b', h1, h2, h3⟩ := h fuel hf
    rw [List.flatMap_map]
    unfold BoxC.update
    rw [hv, Option.bind_some, h1, Option.bind_some]
    cases t with
    | true =>
      refine ⟨true, b', rfl, ?_, by simp⟩
      have := h2.1 rfl
      simp only [true_iff]; omega
    | false =>
      obtain ⟨h4, h5, _⟩ := h3 rfl
      rw [if_neg (by simp)]
      obtain ⟨t', a', h6, h7, h8⟩ := cargo_ok (f (l.flatMap fun d => parts (hoodOf n wraps g c d)) 0) mine [] [] b'.particles h5 (by simpa [parts] using h4)
      have hl : mine.length = b'.particles.elements := by rw [← h4]; exact C35.content_length h5
      rw [← hl]
      simp only [List.length_nil] at h6
      refine ⟨t', { b' with particles := a' }, by rw [h6]; rfl, by simpa using h7, fun ht => ?_⟩
      simpa [parts] using (h8 ht).2

/-- **C37, later nano steps.** The particles stay where they are; each is updated once, in order. -/
theorem update_later (hn : n ≤ 2) {pos : P → Nat → R} {g : Grid (BoxCell R P)} {bd : Nat → Int → R} {size : Nat} (w : World n wraps g bd size) {c : Crd} (hc : InDim n g.dim c)
    (self : BoxCell R P) (f : List P → Nat → P → P × List P) (nano : Nat) (hnano : nano ≠ 0) :
    ∃ (near : List Crd) (seen : List P) (old : BoxCell R P), (∀ x, (∃ x' ∈ near, ∀ k, k ≤ n → x' k = x k) ↔ C36.Near n x) ∧ near.Pairwise (fun a b => ∃ k, k ≤ n ∧ a k ≠ b k) ∧
      (∃ bs : List (BoxCell R P), bs.map some = near.map (fun d => gridRead n wraps g (fun k => c k + d k)) ∧ seen = bs.flatMap parts) ∧ gridRead n wraps g c = some old ∧
      ∃ F, ∀ fuel, F ≤ fuel → ∃ t b', BoxC.update n wraps pos f g c fuel nano self = some (t, b') ∧
        (t = true ↔ size < (parts old).length + ((parts old).flatMap fun p => (f seen nano p).2).length) ∧
        (t = false → parts b' = ((parts old).map fun p => (f seen nano p).1) ++ (parts old).flatMap fun p => (f seen nano p).2) := by
  have hh := hood_ok hn w hc
  obtain ⟨l, hl1, hl2, hv⟩ := visible_ok hh (fun a b => addr_congr hn g c a b)
  have h0 : deref g (hoodAddr n wraps g c (fun _ => 0)) = some (hoodOf n wraps g c (fun _ => 0)) := hh.get _ (fun j _ => by simp)
  have hr : gridRead n wraps g c = some (hoodOf n wraps g c (fun _ => 0)) := by
    rw [deref_eq] at h0
    simpa using h0
  have hok : C35.OK size (hoodOf n wraps g c (fun _ => 0)).particles := by
    rcases read_cases hn w.grid (onePeriod_of_inDim (wraps := wraps) hc) with ⟨_, h2⟩ | ⟨i, _, h2, h3⟩
    · rw [h2, Option.some.injEq] at hr
      exact hr ▸ w.edge.1
    · rw [h3, Option.some.injEq] at hr
      exact hr ▸ w.cap _ (List.getElem_mem _)
  refine ⟨l, _, _, hl1, hl2, ⟨l.map (hoodOf n wraps g c), ?_, rfl⟩, hr, (l.flatMap fun d => C35.content (hoodOf n wraps g c d).particles).length + 1, fun fuel hf => ?_⟩
  · rw [List.map_map]
    refine List.map_congr_left fun d hd => ?_
    have := hh.get d ((hl1 d).1 ⟨d, hd, fun _ _ => rfl⟩)
    rw [deref_eq] at this
    exact this.symm
  · have hv : visible n wraps g c fuel = some (l.flatMap fun d => parts (hoodOf n wraps g c d)) := hv fuel (Nat.lt_of_succ_le hf)
    rw [List.flatMap_map]
    unfold BoxC.update copyOver
    rw [hv, h0, Option.bind_some, Option.bind_some, if_neg hnano, Option.bind_some, if_neg (by simp)]
    generalize hoodOf n wraps g c (fun _ => 0) = b at hok
    obtain ⟨t', a', h6, h7, h8⟩ := cargo_ok (f (l.flatMap fun d => parts (hoodOf n wraps g c d)) nano) (parts b) [] [] b.particles hok (by simp [parts])
    have hl : (parts b).length = b.particles.elements := C35.content_length hok
    rw [hl] at h6
    refine ⟨t', { b with particles := a' }, by simp only [List.length_nil] at h6; rw [h6]; rfl, by simpa using h7, fun ht => ?_⟩
    simpa [parts] using (h8 ht).2

/-! ## examples -/

/-- a torus of `m` boxes of width 10; the box with the index 0 holds a particle at 12, the box with index `m - 1` one at 3 and one at `10 * m - 1` -/
def ring (m : Nat) : Grid (BoxCell Int Int) :=
  ⟨fun _ => m, (List.range m).map fun i : Nat => ⟨fun _ => 10 * i, fun _ => 10, ⟨(if i = 0 then [12, 0, 0] else if i + 1 = m then [3, 10 * m - 1, 0] else [0, 0, 0]),
    if i = 0 then 1 else if i + 1 = m then 2 else 0⟩⟩, ⟨fun _ => 0, fun _ => 0, ⟨[0, 0, 0], 0⟩⟩⟩

def here (p : Int) (_ : Nat) : Int := p
def tens (_ : Nat) (x : Int) : Int := 10 * x
def always (_ : Nat) : Bool := true

theorem ring_world : World 0 always (ring 4) tens 3 ∧ Settled 0 always here (ring 4) tens := by
  have hrd : ∀ c, InDim 0 (ring 4).dim c → c 0 = 0 ∨ c 0 = 1 ∨ c 0 = 2 ∨ c 0 = 3 := by
    intro c hc
    have h1 := hc 0 (Nat.le_refl _)
    have h2 : (ring 4).dim 0 = 4 := rfl
    rw [h2] at h1
    omega
  have hg : GridOK 0 (ring 4) := ⟨fun k _ => by show (0 : Int) < 4; omega, by decide⟩
  have hread : ∀ c, InDim 0 (ring 4).dim c → gridRead 0 always (ring 4) c = (ring 4).cells[(c 0).toNat]? := by
    intro c hc
    rw [show gridRead 0 always (ring 4) c = gridRead 0 always (ring 4) (fun _ => c 0) from read_congr (by omega) _ fun k hk => by rw [Nat.le_zero.1 hk]]
    rcases hrd c hc with h | h | h | h <;> rw [h] <;> rfl
  refine ⟨⟨hg, fun k _ _ => by show (3 : Int) ≤ 4; omega, ?_, ⟨⟨rfl, by decide⟩, rfl⟩, ?_, ?_⟩, ?_⟩
  · intro b hb
    simp only [ring, List.mem_map, List.mem_range] at hb
    obtain ⟨i, hi, rfl⟩ := hb
    rcases i with _ | _ | _ | _ | i
    · exact ⟨rfl, by decide⟩
    · exact ⟨rfl, by decide⟩
    · exact ⟨rfl, by decide⟩
    · exact ⟨rfl, by decide⟩
    · omega
  · intro k _ x y _ h _
    simp only [tens]; omega
  · intro c hc b hb k hk
    rw [hread c hc] at hb
    have hk0 : k = 0 := by omega
    subst hk0
    rcases hrd c hc with h | h | h | h <;> rw [h] at hb ⊢ <;> obtain rfl := Option.some.inj hb <;> exact ⟨rfl, rfl⟩
  · intro c hc b hb p hp
    rw [hread c hc] at hb
    have mk : ∀ x : Int, 0 ≤ x → x < 4 → InDim 0 (ring 4).dim (fun _ => x) := fun x h1 h2 k _ => ⟨h1, h2⟩
    rcases hrd c hc with h | h | h | h <;> rw [h] at hb <;> obtain rfl := Option.some.inj hb
    · have hp : p ∈ [(12 : Int)] := hp
      rw [List.mem_singleton] at hp
      subst hp
      refine ⟨fun _ => 1, mk 1 (by omega) (by omega), fun k hk => ⟨1, by omega, by omega, ?_⟩, fun k _ => by simp [tens, here]⟩
      obtain rfl := Nat.le_zero.1 hk
      rw [h]; decide
    · exact absurd hp (by show p ∉ ([] : List Int); simp)
    · exact absurd hp (by show p ∉ ([] : List Int); simp)
    · have hp : p ∈ [(3 : Int), 39] := hp
      simp only [List.mem_cons, List.not_mem_nil, or_false] at hp
      rcases hp with hp | hp <;> subst hp
      · refine ⟨fun _ => 0, mk 0 (by omega) (by omega), fun k hk => ⟨1, by omega, by omega, ?_⟩, fun k _ => by simp [tens, here]⟩
        obtain rfl := Nat.le_zero.1 hk
        rw [h]; decide
      · refine ⟨fun _ => 3, mk 3 (by omega) (by omega), fun k hk => ⟨0, by omega, by omega, ?_⟩, fun k _ => by simp [tens, here]⟩
        obtain rfl := Nat.le_zero.1 hk
        rw [h]; decide

/-- the hypotheses of `gather` and `conservation` hold for `ring 4`: the particles move to the boxes 1, 0 and 3 -/
example : (List.range 4).map (fun i : Nat => (copyOver 0 always here (ring 4) (fun _ => i) 100 0 ⟨fun _ => 0, fun _ => 0, ⟨[7, 7, 7], 3⟩⟩).map fun r => (r.1, parts r.2)) =
    [some (false, [3]), some (false, [12]), some (false, []), some (false, [39])] := by decide +kernel

/-- **C37, deviation.** With fewer than three boxes on a periodic axis, a neighbor is visited twice and a particle which moves to another box is duplicated: on a torus of two boxes the
particle at 12 (in the box 0) moves to box 1 twice, the one at 3 moves to box 0 twice. -/
theorem two_boxes_negation : Settled 0 always here (ring 2) tens ∧ inhabitants (ring 2) = [12, 3, 19] ∧
    (List.range 2).map (fun i : Nat => (copyOver 0 always here (ring 2) (fun _ => i) 100 0 ⟨fun _ => 0, fun _ => 0, ⟨[7, 7, 7], 3⟩⟩).map fun r => (r.1, parts r.2)) =
      [some (false, [3, 3]), some (false, [12, 19, 12])] := by
  refine ⟨?_, by decide +kernel, by decide +kernel⟩
  have hrd : ∀ c, InDim 0 (ring 2).dim c → c 0 = 0 ∨ c 0 = 1 := by
    intro c hc
    have h1 := hc 0 (Nat.le_refl _)
    have h2 : (ring 2).dim 0 = 2 := rfl
    rw [h2] at h1
    omega
  have hread : ∀ c, InDim 0 (ring 2).dim c → gridRead 0 always (ring 2) c = (ring 2).cells[(c 0).toNat]? := by
    intro c hc
    rw [show gridRead 0 always (ring 2) c = gridRead 0 always (ring 2) (fun _ => c 0) from read_congr (by omega) _ fun k hk => by rw [Nat.le_zero.1 hk]]
    rcases hrd c hc with h | h <;> rw [h] <;> rfl
  intro c hc b hb p hp
  rw [hread c hc] at hb
  have mk : ∀ x : Int, 0 ≤ x → x < 2 → InDim 0 (ring 2).dim (fun _ => x) := fun x h1 h2 k _ => ⟨h1, h2⟩
  rcases hrd c hc with h | h <;> rw [h] at hb <;> obtain rfl := Option.some.inj hb
  · have hp : p ∈ [(12 : Int)] := hp
    rw [List.mem_singleton] at hp
    subst hp
    refine ⟨fun _ => 1, mk 1 (by omega) (by omega), fun k hk => ⟨1, by omega, by omega, ?_⟩, fun k _ => by simp [tens, here]⟩
    obtain rfl := Nat.le_zero.1 hk
    rw [h]; decide
  · have hp : p ∈ [(3 : Int), 19] := hp
    simp only [List.mem_cons, List.not_mem_nil, or_false] at hp
    rcases hp with hp | hp <;> subst hp
    · refine ⟨fun _ => 0, mk 0 (by omega) (by omega), fun k hk => ⟨1, by omega, by omega, ?_⟩, fun k _ => by simp [tens, here]⟩
      obtain rfl := Nat.le_zero.1 hk
      rw [h]; decide
    · refine ⟨fun _ => 1, mk 1 (by omega) (by omega), fun k hk => ⟨0, by omega, by omega, ?_⟩, fun k _ => by simp [tens, here]⟩
      obtain rfl := Nat.le_zero.1 hk
      rw [h]; decide

end LGD.C37
