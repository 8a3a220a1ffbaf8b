import Verif.Store.SoaModel
import Verif.Props.C33

/-!
# `SoAGrid` (lemmas)
-/

namespace LGD.Soa
open LGD.C13 LGD.C14 LGD.Store LGD.C33 LGD.Step

variable {α β : Type} {n : Nat} {wraps : Nat → Bool} {radius : Nat}

theorem memAt_ok (m : List α) (i : Int) (h0 : 0 ≤ i) (h1 : i < m.length) : memAt m i = .ok (m[i.toNat]'(by omega)) := by
  unfold memAt
  rw [if_pos h0, List.getElem?_eq_getElem (by omega)]

theorem memSet_spec (m : List α) (i : Int) (v : α) (h0 : 0 ≤ i) (h1 : i < m.length) :
    ∃ m', memSet m i v = .ok m' ∧ m'.length = m.length ∧ ∀ j, memAt m' j = if j = i then .ok v else memAt m j := by
  refine ⟨m.set i.toNat v, by unfold memSet; rw [if_pos ⟨h0, h1⟩], by simp, fun j => ?_⟩
  unfold memAt
  split
  · rename_i hj
    rw [List.getElem?_set]
    by_cases h : j = i
    · subst h
      rw [if_pos rfl, if_pos rfl, if_pos (by omega)]
    · rw [if_neg (by omega), if_neg h]
  · rename_i hj
    rw [if_neg (by omega)]

/-- what a write of `vs[k]` does to a cell -/
def over (o : Option (Option α)) (old : Except Err α) : Except Err α := match o with | some (some v) => .ok v | _ => old

theorem setRow_spec (vs : List (Option α)) : ∀ (m : List α) (i : Int), 0 ≤ i → i + vs.length ≤ m.length →
    ∃ m', setRow m i vs = .ok m' ∧ m'.length = m.length ∧ ∀ j, memAt m' j = if i ≤ j ∧ j < i + vs.length then over vs[(j - i).toNat]? (memAt m j) else memAt m j := by
  induction vs with
  | nil =>
    intro m i _ _
    refine ⟨m, rfl, rfl, fun j => ?_⟩
    rw [if_neg]
    simp
  | cons v vs ih =>
    intro m i h0 h1
    simp only [List.length_cons] at h1 ⊢
    have key : ∀ m1 : List α, m1.length = m.length → (∀ j, memAt m1 j = if j = i then over (some v) (memAt m j) else memAt m j) →
        ∃ m', setRow m1 (i + 1) vs = .ok m' ∧ m'.length = m.length ∧
          ∀ j, memAt m' j = if i ≤ j ∧ j < i + ((vs.length + 1 : Nat) : Int) then over (v :: vs)[(j - i).toNat]? (memAt m j) else memAt m j := by
      intro m1 hl hm
      obtain ⟨m', e, hl', hj⟩ := ih m1 (i + 1) (by omega) (by rw [hl]; omega)
      refine ⟨m', e, by omega, fun j => ?_⟩
      rw [hj]
      by_cases hji : j = i
      · subst hji
        rw [if_neg (by omega), if_pos (by omega), hm, if_pos rfl]
        simp
      · by_cases h2 : i + 1 ≤ j ∧ j < i + 1 + vs.length
        · rw [if_pos h2, if_pos (by omega), hm, if_neg hji]
          rw [show (j - i).toNat = (j - (i + 1)).toNat + 1 by omega, List.getElem?_cons_succ]
        · rw [if_neg h2, if_neg (by omega), hm, if_neg hji]
    cases v with
    | none =>
      obtain ⟨m', e, h⟩ := key m rfl (fun j => by simp [over])
      exact ⟨m', by rw [setRow]; exact e, h⟩
    | some v =>
      obtain ⟨m1, e1, hl1, hm1⟩ := memSet_spec m i v h0 (by omega)
      obtain ⟨m', e, h⟩ := key m1 hl1 (fun j => by rw [hm1]; simp [over])
      refine ⟨m', ?_, h⟩
      rw [setRow, e1]
      exact e

/-- coordinates inside of the memory layout -/
def Phys (gdim p : Crd) : Prop := ∀ k, k < 3 → 0 ≤ p k ∧ p k < gdim k

theorem lin2 (d p : Crd) : lin d 2 0 p = p 0 + d 0 * (p 1 + d 1 * p 2) := rfl

theorem lin_inj {d a b : Crd} (ha : Phys d a) (hb : Phys d b) (h : lin d 2 0 a = lin d 2 0 b) : ∀ k, k < 3 → a k = b k := by
  intro k hk
  rw [← unlin_lin d 2 0 a (fun j _ h2 => ha j (by omega)) k (by omega) (by omega), h, unlin_lin d 2 0 b (fun j _ h2 => hb j (by omega)) k (by omega) (by omega)]

theorem lin_range {d a : Crd} (ha : Phys d a) : 0 ≤ lin d 2 0 a ∧ lin d 2 0 a < vol d 2 0 :=
  ⟨lin_nonneg d 2 0 a (fun j _ h => (ha j (by omega)).1) (fun j _ h => by have := ha j (by omega); omega), lin_lt_vol d 2 0 a (fun j _ h => ha j (by omega))⟩

theorem Phys.mono {d e p : Crd} (h : Phys d p) (hf : ∀ k, k < 3 → d k ≤ e k) : Phys e p := fun k hk => by
  have := h k hk
  have := hf k hk
  omega

theorem row_index {d e p : Crd} (hf : ∀ k, k < 3 → d k ≤ e k) (hp : Phys d p) (y z : Int) (hy : 0 ≤ y ∧ y < d 1) (hz : 0 ≤ z ∧ z < d 2) :
    (z * e 0 * e 1 + y * e 0 ≤ lin e 2 0 p ∧ lin e 2 0 p < z * e 0 * e 1 + y * e 0 + d 0) ↔ (p 1 = y ∧ p 2 = z) := by
  constructor
  · rintro ⟨h1, h2⟩
    have h0 := hf 0 (by omega)
    have hx : ∃ x, x = lin e 2 0 p - (z * e 0 * e 1 + y * e 0) := ⟨_, rfl⟩
    obtain ⟨x, hx⟩ := hx
    have hq : Phys d (fun k => if k = 0 then x else if k = 1 then y else z) := by
      intro k hk
      match k, hk with
      | 0, _ => simp; omega
      | 1, _ => simpa using hy
      | 2, _ => simpa using hz
    have := lin_inj (hp.mono hf) (hq.mono hf) (by simp only [lin2] at *; simp only [show (1 : Nat) ≠ 0 by omega, show (2 : Nat) ≠ 0 by omega, show (2 : Nat) ≠ 1 by omega, if_true, if_false]; rw [hx]; ring)
    exact ⟨this 1 (by omega), this 2 (by omega)⟩
  · rintro ⟨h1, h2⟩
    have h3 := hp 0 (by omega)
    rw [lin2, h1, h2]
    have : e 0 * (y + e 1 * z) = z * e 0 * e 1 + y * e 0 := by ring
    omega

/-- a position in the padding -/
def OnEdge (gdim rad p : Crd) : Prop := ∃ k, k < 3 ∧ (p k < rad k ∨ gdim k - rad k ≤ p k)

theorem onEdge_congr {gdim rad p q : Crd} (h : ∀ k, k < 3 → p k = q k) (hp : OnEdge gdim rad p) : OnEdge gdim rad q := by
  obtain ⟨k, hk, h1⟩ := hp
  exact ⟨k, hk, by rw [← h k hk]; exact h1⟩

theorem rowContent_length (gdim rad : Crd) (hr : ∀ k, k < 3 → 0 ≤ rad k ∧ 2 * rad k ≤ gdim k) (init : Bool) (edge inner : α) (y z : Int) :
    ((rowContent gdim rad init edge inner y z).length : Int) = gdim 0 := by
  have := hr 0 (by omega)
  simp only [rowContent, List.length_append, List.length_replicate]
  omega

theorem rowContent_get (gdim rad : Crd) (hr : ∀ k, k < 3 → 0 ≤ rad k ∧ 2 * rad k ≤ gdim k) (init : Bool) (edge inner : α) (p : Crd) (hp : Phys gdim p) (old : Except Err α) :
    (OnEdge gdim rad p → over (rowContent gdim rad init edge inner (p 1) (p 2))[(p 0).toNat]? old = .ok edge) ∧
    (¬ OnEdge gdim rad p → over (rowContent gdim rad init edge inner (p 1) (p 2))[(p 0).toNat]? old = if init then .ok inner else old) := by
  have h0 := hr 0 (by omega)
  have hp0 := hp 0 (by omega)
  have e0 : ∀ (o : Option α), (List.replicate (rad 0).toNat (some edge) ++ List.replicate (gdim 0 - rad 0 - rad 0).toNat o ++ List.replicate (gdim 0 - (gdim 0 - rad 0)).toNat (some edge))[(p 0).toNat]? =
      if p 0 < rad 0 ∨ gdim 0 - rad 0 ≤ p 0 then some (some edge) else some o := by
    intro o
    by_cases h1 : p 0 < rad 0
    · rw [if_pos (Or.inl h1), List.append_assoc, List.getElem?_append_left (by rw [List.length_replicate]; omega), List.getElem?_replicate, if_pos (by omega)]
    · by_cases h2 : gdim 0 - rad 0 ≤ p 0
      · rw [if_pos (Or.inr h2), List.getElem?_append_right (by rw [List.length_append, List.length_replicate, List.length_replicate]; omega), List.getElem?_replicate, if_pos]
        rw [List.length_append, List.length_replicate, List.length_replicate]; omega
      · rw [if_neg (by omega), List.getElem?_append_left (by rw [List.length_append, List.length_replicate, List.length_replicate]; omega),
          List.getElem?_append_right (by rw [List.length_replicate]; omega), List.getElem?_replicate, if_pos]
        rw [List.length_replicate]; omega
  unfold rowContent
  simp only [e0]
  constructor
  · rintro ⟨k, hk, h⟩
    match k, hk, h with
    | 0, _, h => rw [if_pos h]; rfl
    | 1, _, h =>
      split
      · rfl
      · have : (decide (p 1 < rad 1) || decide (p 1 ≥ gdim 1 - rad 1)) = true := by simpa using h
        rw [this]
        simp [over]
    | 2, _, h =>
      split
      · rfl
      · have : (decide (p 2 < rad 2) || decide (p 2 ≥ gdim 2 - rad 2)) = true := by simpa using h
        rw [this]
        simp [over]
  · intro h
    have f0 : ¬ (p 0 < rad 0 ∨ gdim 0 - rad 0 ≤ p 0) := fun h' => h ⟨0, by omega, h'⟩
    have f1 : (decide (p 1 < rad 1) || decide (p 1 ≥ gdim 1 - rad 1)) = false := by
      have : ¬ (p 1 < rad 1 ∨ gdim 1 - rad 1 ≤ p 1) := fun h' => h ⟨1, by omega, h'⟩
      simp; omega
    have f2 : (decide (p 2 < rad 2) || decide (p 2 ≥ gdim 2 - rad 2)) = false := by
      have : ¬ (p 2 < rad 2 ∨ gdim 2 - rad 2 ≤ p 2) := fun h' => h ⟨2, by omega, h'⟩
      simp; omega
    rw [if_neg f0, f1, f2]
    cases init <;> simp [over]

theorem mem_rows (gdim : Crd) (y z : Int) : (y, z) ∈ rows gdim ↔ (0 ≤ y ∧ y < gdim 1) ∧ (0 ≤ z ∧ z < gdim 2) := by
  unfold rows
  simp only [List.mem_flatMap, List.mem_range, List.mem_map, Prod.mk.injEq]
  constructor
  · rintro ⟨a, ha, b, hb, rfl, rfl⟩
    omega
  · rintro ⟨h1, h2⟩
    exact ⟨z.toNat, by omega, y.toNat, by omega, by omega, by omega⟩

theorem setContent_spec (gdim rad ext : Crd) (hr : ∀ k, k < 3 → 0 ≤ rad k ∧ 2 * rad k ≤ gdim k) (hf : ∀ k, k < 3 → gdim k ≤ ext k) (init : Bool) (edge inner : α) (m : List α)
    (hm : (m.length : Int) = vol ext 2 0) :
    ∃ m', setContent gdim rad ext init edge inner m = .ok m' ∧ m'.length = m.length ∧ ∀ p, Phys gdim p →
      (OnEdge gdim rad p → memAt m' (lin ext 2 0 p) = .ok edge) ∧ (¬ OnEdge gdim rad p → memAt m' (lin ext 2 0 p) = if init then .ok inner else memAt m (lin ext 2 0 p)) := by
  have key : ∀ (rs : List (Int × Int)) (m : List α), (∀ q ∈ rs, (0 ≤ q.1 ∧ q.1 < gdim 1) ∧ (0 ≤ q.2 ∧ q.2 < gdim 2)) → (m.length : Int) = vol ext 2 0 →
      ∃ m', rs.foldlM (fun m q => setRow m (q.2 * ext 0 * ext 1 + q.1 * ext 0) (rowContent gdim rad init edge inner q.1 q.2)) m = .ok m' ∧ m'.length = m.length ∧
        ∀ p, Phys gdim p → ((p 1, p 2) ∈ rs → (OnEdge gdim rad p → memAt m' (lin ext 2 0 p) = .ok edge) ∧
          (¬ OnEdge gdim rad p → memAt m' (lin ext 2 0 p) = if init then .ok inner else memAt m (lin ext 2 0 p))) ∧
          ((p 1, p 2) ∉ rs → memAt m' (lin ext 2 0 p) = memAt m (lin ext 2 0 p)) := by
    intro rs
    induction rs with
    | nil => intro m _ _; exact ⟨m, rfl, rfl, fun p _ => ⟨fun h => by simp at h, fun _ => rfl⟩⟩
    | cons q rs ih =>
      intro m hq hm
      obtain ⟨hy, hz⟩ := hq q (List.mem_cons_self ..)
      have hl := rowContent_length gdim rad hr init edge inner q.1 q.2
      by_cases h0 : gdim 0 = 0
      · -- no cells at all
        have hnil : rowContent gdim rad init edge inner q.1 q.2 = [] := List.eq_nil_of_length_eq_zero (by omega)
        obtain ⟨m', e, hl', hp'⟩ := ih m (fun q hq' => hq q (List.mem_cons_of_mem _ hq')) hm
        refine ⟨m', ?_, hl', fun p hp => ?_⟩
        · rw [List.foldlM_cons, hnil]; exact e
        · have := hp 0 (by omega); omega
      have hq0 : Phys gdim (fun k => if k = 0 then 0 else if k = 1 then q.1 else q.2) := by
        intro k hk
        match k, hk with
        | 0, _ => have := hr 0 (by omega); simp; omega
        | 1, _ => simpa using hy
        | 2, _ => simpa using hz
      have hq1 : Phys gdim (fun k => if k = 0 then gdim 0 - 1 else if k = 1 then q.1 else q.2) := by
        intro k hk
        match k, hk with
        | 0, _ => have := hr 0 (by omega); simp; omega
        | 1, _ => simpa using hy
        | 2, _ => simpa using hz
      have r0 := lin_range (hq0.mono hf)
      have r1 := lin_range (hq1.mono hf)
      simp only [lin2, if_true, show (1 : Nat) ≠ 0 by omega, show (2 : Nat) ≠ 0 by omega, show (2 : Nat) ≠ 1 by omega, if_false] at r0 r1
      have ering : ext 0 * (q.1 + ext 1 * q.2) = q.2 * ext 0 * ext 1 + q.1 * ext 0 := by ring
      rw [ering] at r0 r1
      obtain ⟨m1, e1, hl1, hj1⟩ := setRow_spec (rowContent gdim rad init edge inner q.1 q.2) m (q.2 * ext 0 * ext 1 + q.1 * ext 0) (by omega) (by omega)
      obtain ⟨m', e, hl', hp'⟩ := ih m1 (fun q hq' => hq q (List.mem_cons_of_mem _ hq')) (by omega)
      have hrow : ∀ p, Phys gdim p → ((p 1 = q.1 ∧ p 2 = q.2) → (OnEdge gdim rad p → memAt m1 (lin ext 2 0 p) = .ok edge) ∧
          (¬ OnEdge gdim rad p → memAt m1 (lin ext 2 0 p) = if init then .ok inner else memAt m (lin ext 2 0 p))) ∧
          (¬ (p 1 = q.1 ∧ p 2 = q.2) → memAt m1 (lin ext 2 0 p) = memAt m (lin ext 2 0 p)) := by
        intro p hp
        constructor
        · intro hpq
          have := (row_index hf hp q.1 q.2 hy hz).mpr hpq
          rw [hj1, if_pos (by omega)]
          have e2 : lin ext 2 0 p - (q.2 * ext 0 * ext 1 + q.1 * ext 0) = p 0 := by
            rw [lin2, hpq.1, hpq.2]; ring
          rw [e2, ← hpq.1, ← hpq.2]
          exact rowContent_get gdim rad hr init edge inner p hp _
        · intro hpq
          rw [hj1, if_neg]
          intro h
          exact hpq ((row_index hf hp q.1 q.2 hy hz).mp (by omega))
      refine ⟨m', ?_, by omega, fun p hp => ?_⟩
      · rw [List.foldlM_cons, e1]
        exact e
      · obtain ⟨h1, h2⟩ := hp' p hp
        obtain ⟨h3, h4⟩ := hrow p hp
        by_cases hpq : p 1 = q.1 ∧ p 2 = q.2
        · have h5 := h3 hpq
          refine ⟨fun _ => ?_, fun hn => (hn (by rw [hpq.1, hpq.2]; exact List.mem_cons_self ..)).elim⟩
          by_cases hin : (p 1, p 2) ∈ rs
          · refine ⟨(h1 hin).1, fun ho => ?_⟩
            rw [(h1 hin).2 ho, h5.2 ho]
            split <;> rfl
          · rw [h2 hin]; exact h5
        · have h5 := h4 hpq
          have hne : (p 1, p 2) ≠ q := fun h => hpq (by rw [← h]; exact ⟨rfl, rfl⟩)
          refine ⟨fun hin => ?_, fun hnin => ?_⟩
          · have hin' : (p 1, p 2) ∈ rs := (List.mem_cons.mp hin).resolve_left hne
            rw [← h5]
            exact h1 hin'
          · rw [h2 (fun h => hnin (List.mem_cons_of_mem _ h)), h5]
  obtain ⟨m', e, hl, hp⟩ := key (rows gdim) m (fun q hq => (mem_rows gdim q.1 q.2).mp hq) hm
  exact ⟨m', e, hl, fun p hpp => (hp p hpp).1 ((mem_rows gdim _ _).mpr ⟨hpp 1 (by omega), hpp 2 (by omega)⟩)⟩

theorem radii_nonneg (k : Nat) : 0 ≤ edgeRadii n wraps radius k := by unfold edgeRadii; split <;> omega

/-- physical position of a relative coordinate -/
def pos (n : Nat) (wraps : Nat → Bool) (radius : Nat) (c : Crd) : Crd := fun k => edgeRadii n wraps radius k + (if k ≤ n then c k else 0)

theorem genIdx_eq (g : SGrid α) (c : Crd) : genIdx n wraps radius g c = lin g.ext 2 0 (pos n wraps radius c) := rfl

/-- invariant of SoA grids: the memory is large enough, the padding consists of copies of the edge cell -/
structure SoaOK (n : Nat) (wraps : Nat → Bool) (radius : Nat) (g : SGrid α) : Prop where
  dim : ∀ k, k ≤ n → 0 < g.dim k
  fits : ∀ k, k < 3 → actualDim n wraps radius g.dim k ≤ g.ext k
  size : (g.mem.length : Int) = vol g.ext 2 0
  pad : ∀ p, Phys (actualDim n wraps radius g.dim) p → OnEdge (actualDim n wraps radius g.dim) (edgeRadii n wraps radius) p → memAt g.mem (lin g.ext 2 0 p) = .ok g.edge

theorem pos_phys {dim c : Crd} (h : InDim n dim c) : Phys (actualDim n wraps radius dim) (pos n wraps radius c) := by
  intro k hk
  have hr := radii_nonneg (n := n) (wraps := wraps) (radius := radius) k
  unfold pos actualDim
  by_cases hkn : k ≤ n
  · have := h k hkn
    rw [if_pos hkn, if_pos hkn]; omega
  · rw [if_neg hkn, if_neg hkn]
    omega

theorem pos_inner {dim c : Crd} (h : InDim n dim c) : ¬ OnEdge (actualDim n wraps radius dim) (edgeRadii n wraps radius) (pos n wraps radius c) := by
  rintro ⟨k, hk, h'⟩
  unfold pos actualDim at h'
  by_cases hkn : k ≤ n
  · have := h k hkn
    rw [if_pos hkn, if_pos hkn] at h'; omega
  · rw [if_neg hkn, if_neg hkn] at h'
    omega

theorem idx_range {g : SGrid α} (hg : SoaOK n wraps radius g) {c : Crd} (h : InDim n g.dim c) : 0 ≤ genIdx n wraps radius g c ∧ genIdx n wraps radius g c < g.mem.length := by
  rw [genIdx_eq, hg.size]
  exact lin_range ((pos_phys h).mono hg.fits)

theorem idx_inj {g : SGrid α} (hg : SoaOK n wraps radius g) (hn : n ≤ 2) {a b : Crd} (ha : InDim n g.dim a) (hb : InDim n g.dim b)
    (h : genIdx n wraps radius g a = genIdx n wraps radius g b) : ∀ k, k ≤ n → a k = b k := by
  intro k hk
  have := lin_inj ((pos_phys (wraps := wraps) (radius := radius) ha).mono hg.fits) ((pos_phys (wraps := wraps) (radius := radius) hb).mono hg.fits) h k (by omega)
  unfold pos at this
  rw [if_pos hk, if_pos hk] at this
  omega

theorem idx_congr (g : SGrid α) {a b : Crd} (h : ∀ k, k ≤ n → a k = b k) : genIdx n wraps radius g a = genIdx n wraps radius g b := by
  rw [genIdx_eq, genIdx_eq]
  refine lin_congr _ _ _ _ _ fun j _ _ => ?_
  unfold pos
  split
  · rename_i hj; rw [h j hj]
  · rfl

theorem gdim_ok {dim : Crd} (hd : ∀ k, k ≤ n → 0 ≤ dim k) (k : Nat) (_ : k < 3) :
    0 ≤ edgeRadii n wraps radius k ∧ 2 * edgeRadii n wraps radius k ≤ actualDim n wraps radius dim k := by
  have hr := radii_nonneg (n := n) (wraps := wraps) (radius := radius) k
  refine ⟨hr, ?_⟩
  unfold actualDim
  split
  · rename_i hkn; have := hd k hkn; omega
  · omega

/-- cell at a relative coordinate -/
def cell (n : Nat) (wraps : Nat → Bool) (radius : Nat) (g : SGrid α) (c : Crd) : Except Err α := memAt g.mem (genIdx n wraps radius g c)

theorem cell_ok {g : SGrid α} (hg : SoaOK n wraps radius g) {c : Crd} (h : InDim n g.dim c) : ∃ v, cell n wraps radius g c = .ok v := by
  obtain ⟨h0, h1⟩ := idx_range hg h
  exact ⟨_, memAt_ok g.mem _ h0 h1⟩

theorem setEdge_ok {g : SGrid α} (hg : SoaOK n wraps radius g) (v : α) :
    ∃ g', soaSetEdge n wraps radius g v = .ok g' ∧ SoaOK n wraps radius g' ∧ g'.dim = g.dim ∧ g'.org = g.org ∧ g'.topo = g.topo ∧ g'.edge = v ∧ g'.ext = g.ext ∧
      ∀ c, InDim n g.dim c → cell n wraps radius g' c = cell n wraps radius g c := by
  obtain ⟨m, e, hl, hp⟩ := setContent_spec (actualDim n wraps radius g.dim) (edgeRadii n wraps radius) g.ext (gdim_ok (fun k hk => by have := hg.dim k hk; omega)) hg.fits false v v g.mem hg.size
  refine ⟨{ g with edge := v, mem := m }, by unfold soaSetEdge; rw [e]; rfl, ⟨hg.dim, hg.fits, by simp only [hl]; exact hg.size, fun p h1 h2 => (hp p h1).1 h2⟩, rfl, rfl, rfl, rfl, rfl, fun c hc => ?_⟩
  have := (hp _ (pos_phys hc)).2 (pos_inner hc)
  simpa [cell, genIdx_eq] using this

theorem put_ok {g : SGrid α} (hg : SoaOK n wraps radius g) (hn : n ≤ 2) {c : Crd} (hc : InDim n g.dim c) (v : α) :
    ∃ m, memSet g.mem (genIdx n wraps radius g c) v = .ok m ∧ SoaOK n wraps radius { g with mem := m } ∧
      cell n wraps radius { g with mem := m } c = .ok v ∧ ∀ d, InDim n g.dim d → ¬ (∀ k, k ≤ n → c k = d k) → cell n wraps radius { g with mem := m } d = cell n wraps radius g d := by
  obtain ⟨h0, h1⟩ := idx_range hg hc
  obtain ⟨m, e, hl, hj⟩ := memSet_spec g.mem _ v h0 h1
  refine ⟨m, e, ⟨hg.dim, hg.fits, by simp only [hl]; exact hg.size, fun p h1 h2 => ?_⟩, ?_, fun d hd hne => ?_⟩
  · simp only at h1 h2 ⊢
    rw [hj, if_neg, hg.pad p h1 h2]
    intro heq
    have := lin_inj (h1.mono hg.fits) ((pos_phys (wraps := wraps) (radius := radius) hc).mono hg.fits) heq
    exact pos_inner hc (onEdge_congr this h2)
  · unfold cell
    have : genIdx n wraps radius { g with mem := m } c = genIdx n wraps radius g c := rfl
    rw [this, hj, if_pos rfl]
  · unfold cell
    have : genIdx n wraps radius { g with mem := m } d = genIdx n wraps radius g d := rfl
    rw [this, hj, if_neg]
    intro heq
    exact hne fun k hk => (idx_inj hg hn hd hc heq k hk).symm

end LGD.Soa
