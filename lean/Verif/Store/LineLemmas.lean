import Verif.Store.LineModel
import Verif.Props.C33Displaced

/-!
# Lemmas on the update of streaks
-/

namespace LGD.Line
open LGD.C13 LGD.C14 LGD.Store LGD.C33

variable {α : Type} {n : Nat} {wraps : Nat → Bool}

/-- a stencil whose `OffsetHelper` inverts `Coords`, which has radius 1 and contains, along with each coordinate, the center of its row -/
structure StencilOK (n : Nat) (st : Stencil) : Prop where
  x : ∀ r ∈ st.coords, r.1 = -1 ∨ r.1 = 0 ∨ r.1 = 1
  y : ∀ r ∈ st.coords, r.2.1 = -1 ∨ r.2.1 = 0 ∨ r.2.1 = 1
  z : ∀ r ∈ st.coords, r.2.2 = -1 ∨ r.2.2 = 0 ∨ r.2.2 = 1
  y0 : n < 1 → ∀ r ∈ st.coords, r.2.1 = 0
  z0 : n < 2 → ∀ r ∈ st.coords, r.2.2 = 0
  row : ∀ r ∈ st.coords, (0, r.2) ∈ st.coords
  offset : ∀ r ∈ st.coords, 0 ≤ st.offset r ∧ st.coords[(st.offset r).toNat]? = some r

instance (n : Nat) (st : Stencil) : Decidable (StencilOK n st) :=
  decidable_of_iff ((∀ r ∈ st.coords, r.1 = -1 ∨ r.1 = 0 ∨ r.1 = 1) ∧ (∀ r ∈ st.coords, r.2.1 = -1 ∨ r.2.1 = 0 ∨ r.2.1 = 1) ∧
    (∀ r ∈ st.coords, r.2.2 = -1 ∨ r.2.2 = 0 ∨ r.2.2 = 1) ∧ (n < 1 → ∀ r ∈ st.coords, r.2.1 = 0) ∧ (n < 2 → ∀ r ∈ st.coords, r.2.2 = 0) ∧
    (∀ r ∈ st.coords, (0, r.2) ∈ st.coords) ∧ (∀ r ∈ st.coords, 0 ≤ st.offset r ∧ st.coords[(st.offset r).toNat]? = some r))
    ⟨fun ⟨a, b, c, d, e, f, g⟩ => ⟨a, b, c, d, e, f, g⟩, fun ⟨a, b, c, d, e, f, g⟩ => ⟨a, b, c, d, e, f, g⟩⟩

theorem stencils_ok (n : Nat) (hn : n ≤ 2) : StencilOK n (moore n) ∧ StencilOK n (vonNeumann n) := by
  match n, hn with
  | 0, _ => exact ⟨by decide +kernel, by decide +kernel⟩
  | 1, _ => exact ⟨by decide +kernel, by decide +kernel⟩
  | 2, _ => exact ⟨by decide +kernel, by decide +kernel⟩

/-- what `operator[]` of a grid delivers -/
def rd (v : View α) (c : Crd) : Option α := (addr v.mem (v.loc c)).bind fun p => load v.mem p 0

/-- coordinate in the row `(r.2)` of a streak -/
def rowAt (s : Streak) (r : Rel) (x : Int) : Crd := fun k => if k = 0 then x else s.origin k + relCrd r k

theorem cell_add (s : Streak) (r : Rel) (x : Int) : (fun k => upd s.origin 0 x k + relCrd r k) = rowAt s r (x + r.1) := by
  funext k
  unfold rowAt upd
  split
  · rename_i h; subst h; rfl
  · rfl

/-- a row of a streak is behind a constant boundary -/
def Flagged (fl : Flags) (r : Rel) : Prop :=
  (fl.top = true ∧ r.2.1 = -1) ∨ (fl.bottom = true ∧ r.2.1 = 1) ∨ (fl.north = true ∧ r.2.2 = 1) ∨ (fl.south = true ∧ r.2.2 = -1)

/-- the rows around a streak are contiguous in memory, or behind a constant boundary and flagged -/
structure RowsOK (st : Stencil) (fl : Flags) (v : View α) (s : Streak) : Prop where
  row : ∀ r ∈ st.coords, (Flagged fl r ∧ ∀ x, s.origin 0 ≤ x → x < s.endX → v.loc (rowAt s r x) = none) ∨
    (¬ Flagged fl r ∧ ∃ i, ∀ x, s.origin 0 ≤ x → x < s.endX → v.loc (rowAt s r x) = some (i + (x - s.origin 0)) ∧
      0 ≤ i + (x - s.origin 0) ∧ i + (x - s.origin 0) < v.mem.cells.length)
  ends : ∀ r ∈ st.coords, ∀ c, lineCoord s r = some c → ∃ p, addr v.mem (v.loc c) = some p

theorem mapM_some {β γ : Type} (f : β → Option γ) (l : List β) (h : ∀ b ∈ l, ∃ c, f b = some c) : ∃ l', l.mapM f = some l' ∧
    ∀ (i : Nat) b, l[i]? = some b → ∃ c, f b = some c ∧ l'[i]? = some c := by
  induction l with
  | nil => exact ⟨[], rfl, fun i b hb => by simp at hb⟩
  | cons a l ih =>
    obtain ⟨c, hc⟩ := h a (List.mem_cons_self ..)
    obtain ⟨l', e, hl⟩ := ih (fun b hb => h b (List.mem_cons_of_mem _ hb))
    refine ⟨c :: l', by rw [List.mapM_cons, hc, e]; rfl, fun i b hb => ?_⟩
    cases i with
    | zero =>
      simp only [List.getElem?_cons_zero, Option.some.injEq] at hb
      subst hb
      exact ⟨c, hc, rfl⟩
    | succ i =>
      rw [List.getElem?_cons_succ] at hb ⊢
      exact hl i b hb

theorem mapM_congr {β γ : Type} (f g : β → Option γ) (l : List β) (h : ∀ b ∈ l, f b = g b) : l.mapM f = l.mapM g := by
  induction l with
  | nil => rfl
  | cons a l ih => rw [List.mapM_cons, List.mapM_cons, h a (List.mem_cons_self ..), ih fun b hb => h b (List.mem_cons_of_mem _ hb)]

theorem lineCoord_eq (s : Streak) (r : Rel) (hr : r.1 = -1 ∨ r.1 = 0 ∨ r.1 = 1) :
    lineCoord s r = some (rowAt s r (if r.1 = -1 then s.origin 0 - 1 else if r.1 = 0 then s.origin 0 else s.endX)) := by
  unfold lineCoord calcX
  split
  · rfl
  · split
    · rfl
    · rw [if_pos (by omega)]
      rfl

/-- the pointers of a streak exist -/
theorem assemble_ok {st : Stencil} (hst : StencilOK n st) {fl : Flags} {v : View α} {s : Streak} (h : RowsOK st fl v s) :
    ∃ ptrs, assemble st v s = some ptrs ∧ ∀ r ∈ st.coords, ∀ k, atPtr st v.mem ptrs r k = (addr v.mem (v.loc
      (rowAt s r (if r.1 = -1 then s.origin 0 - 1 else if r.1 = 0 then s.origin 0 else s.endX)))).bind fun p => load v.mem p k := by
  unfold assemble
  obtain ⟨ptrs, e, hp⟩ := mapM_some (fun r => (lineCoord s r).bind fun c => addr v.mem (v.loc c)) st.coords (fun r hr => by
    obtain ⟨p, hp⟩ := h.ends r hr _ (lineCoord_eq s r (hst.x r hr))
    exact ⟨p, by rw [lineCoord_eq s r (hst.x r hr)]; exact hp⟩)
  refine ⟨ptrs, e, fun r hr k => ?_⟩
  obtain ⟨h0, ho⟩ := hst.offset r hr
  obtain ⟨p, hp1, hp2⟩ := hp _ r ho
  rw [lineCoord_eq s r (hst.x r hr), Option.bind_some] at hp1
  unfold atPtr
  rw [if_pos h0, hp2, hp1]

/-- **Each cell sees the neighbors which a lookup in the grid delivers.** -/
theorem access_eq {st : Stencil} (hst : StencilOK n st) {fl : Flags} {v : View α} {s : Streak} (h : RowsOK st fl v s) {ptrs : List Ptr}
    (hp : ∀ r ∈ st.coords, ∀ k, atPtr st v.mem ptrs r k = (addr v.mem (v.loc
      (rowAt s r (if r.1 = -1 then s.origin 0 - 1 else if r.1 = 0 then s.origin 0 else s.endX)))).bind fun p => load v.mem p k)
    (x : Int) (hx1 : s.origin 0 ≤ x) (hx2 : x < s.endX) (w e : Bool) (hw : w = true ↔ x = s.origin 0) (he : e = true ↔ x + 1 = s.endX) (r : Rel) (hr : r ∈ st.coords) :
    access st { fl with west := w, east := e } v.mem ptrs (x - s.origin 0) r = rd v (rowAt s r (x + r.1)) := by
  obtain ⟨r1, r2, r3⟩ := r
  unfold access rd
  simp only
  by_cases c1 : w = true ∧ r1 = -1
  · obtain ⟨c1, rfl⟩ := c1
    rw [if_pos ⟨c1, rfl⟩, hp _ hr, hw.mp c1]
    rfl
  rw [if_neg c1]
  by_cases c2 : e = true ∧ r1 = 1
  · obtain ⟨c2, rfl⟩ := c2
    rw [if_pos ⟨c2, rfl⟩, hp _ hr]
    simp only
    rw [if_neg (by omega), if_neg (by omega), ← he.mp c2]
  rw [if_neg c2]
  have hx : s.origin 0 ≤ x + r1 ∧ x + r1 < s.endX := by
    have h1 : r1 = -1 → x ≠ s.origin 0 := fun a b => c1 ⟨hw.mpr b, a⟩
    have h2 : r1 = 1 → x + 1 ≠ s.endX := fun a b => c2 ⟨he.mpr b, a⟩
    rcases hst.x _ hr with rr | rr | rr <;> simp only at rr
    · have := h1 rr; omega
    · omega
    · have := h2 rr; omega
  have hr0 := hst.row _ hr
  simp only at hr0
  have hpt := hp _ hr0
  simp only at hpt
  rw [if_neg (by omega), if_pos trivial] at hpt
  have hrow : ∀ x, rowAt s (0, r2, r3) x = rowAt s (r1, r2, r3) x := by
    intro x
    funext k
    unfold rowAt relCrd
    split
    · rfl
    · rfl
  rw [hrow] at hpt
  rcases h.row _ hr with ⟨hf, hl⟩ | ⟨hf, i, hi⟩
  · have e0 : atPtr st v.mem ptrs (0, r2, r3) 0 = some v.mem.edge := by
      rw [hpt, hl _ (le_refl _) (by omega)]; rfl
    have e1 : (addr v.mem (v.loc (rowAt s (r1, r2, r3) (x + r1)))).bind (fun p => load v.mem p 0) = some v.mem.edge := by
      rw [hl _ hx.1 hx.2]; rfl
    rw [e1]
    by_cases d1 : fl.top = true ∧ r2 = -1
    · obtain ⟨d1, rfl⟩ := d1
      rw [if_pos ⟨d1, rfl⟩, e0]
    rw [if_neg d1]
    by_cases d2 : fl.bottom = true ∧ r2 = 1
    · obtain ⟨d2, rfl⟩ := d2
      rw [if_pos ⟨d2, rfl⟩, e0]
    rw [if_neg d2]
    by_cases d3 : fl.north = true ∧ r3 = 1
    · obtain ⟨d3, rfl⟩ := d3
      rw [if_pos ⟨d3, rfl⟩, e0]
    rw [if_neg d3]
    by_cases d4 : fl.south = true ∧ r3 = -1
    · obtain ⟨d4, rfl⟩ := d4
      rw [if_pos ⟨d4, rfl⟩, e0]
    rcases hf with hf | hf | hf | hf
    · exact (d1 hf).elim
    · exact (d2 hf).elim
    · exact (d3 hf).elim
    · exact (d4 hf).elim
  · rw [if_neg (fun hh => hf (Or.inl hh)), if_neg (fun hh => hf (Or.inr (Or.inl hh))), if_neg (fun hh => hf (Or.inr (Or.inr (Or.inl hh)))),
      if_neg (fun hh => hf (Or.inr (Or.inr (Or.inr hh)))), hpt]
    obtain ⟨a1, a2, a3⟩ := hi (s.origin 0) (le_refl _) (by omega)
    obtain ⟨b1, b2, b3⟩ := hi (x + r1) hx.1 hx.2
    rw [a1, b1]
    simp only [addr]
    rw [if_pos ⟨a2, a3⟩, if_pos ⟨b2, b3⟩]
    simp only [Option.bind_some, load]
    rw [show i + (s.origin 0 - s.origin 0) + (r1 + (x - s.origin 0)) = i + (x + r1 - s.origin 0) + 0 by ring]

theorem lineHood_eq {st : Stencil} (hst : StencilOK n st) {fl : Flags} {v : View α} {s : Streak} (h : RowsOK st fl v s) {ptrs : List Ptr}
    (hp : ∀ r ∈ st.coords, ∀ k, atPtr st v.mem ptrs r k = (addr v.mem (v.loc
      (rowAt s r (if r.1 = -1 then s.origin 0 - 1 else if r.1 = 0 then s.origin 0 else s.endX)))).bind fun p => load v.mem p k)
    (x : Int) (hx1 : s.origin 0 ≤ x) (hx2 : x < s.endX) (w e : Bool) (hw : w = true ↔ x = s.origin 0) (he : e = true ↔ x + 1 = s.endX) :
    lineHood st { fl with west := w, east := e } v.mem ptrs (x - s.origin 0) = st.coords.mapM fun r => rd v (fun k => upd s.origin 0 x k + relCrd r k) := by
  unfold lineHood
  refine mapM_congr _ _ _ fun r hr => ?_
  rw [access_eq hst h hp x hx1 hx2 w e hw he r hr, cell_add]

/-! ## loops -/

theorem store_len {g g' : Grid α} {p : Ptr} {k : Int} {v : α} (h : store g p k v = some g') : g'.cells.length = g.cells.length := by
  cases p with
  | edge =>
    simp only [store] at h
    split at h
    · cases h; rfl
    · cases h
  | cell i =>
    simp only [store] at h
    split at h
    · cases h; simp
    · cases h

theorem wrapper_eq {st : Stencil} {upd' : Nat → α → List α → α} {nano : Nat} {v : View α} {loc' : Crd → Option Int} {ptrs : List Ptr} {fl : Flags} {i : Int} (o t : Crd)
    (m : Nat) : ∀ (j : Int) (g : Grid α),
      (∀ j', j ≤ j' → j' < j + m → lineHood st fl v.mem ptrs j' = vanHood st v (upd o 0 (o 0 + j'))) →
      (∀ j', j ≤ j' → j' < j + m → loc' (upd t 0 (t 0 + j')) = some (i + j') ∧ 0 ≤ i + j' ∧ i + j' < g.cells.length) →
      wrapper st fl upd' nano v.mem ptrs (.cell i) m j g = vanLoop st upd' nano v loc' m (upd o 0 (o 0 + j)) (upd t 0 (t 0 + j)) g := by
  induction m with
  | zero => intro j g _ _; rfl
  | succ m ih =>
    intro j g hh ht
    rw [wrapper, vanLoop, hh j (le_refl _) (by omega)]
    obtain ⟨t1, t2, t3⟩ := ht j (le_refl _) (by omega)
    rw [t1]
    cases vanHood st v (upd o 0 (o 0 + j)) with
    | none => rfl
    | some hood =>
      rw [Option.bind_some, Option.bind_some]
      simp only [addr]
      rw [if_pos ⟨t2, t3⟩, Option.bind_some]
      have e1 : load g (.cell (i + j)) 0 = load g (.cell i) j := by simp only [load, add_zero]
      have e2 : ∀ v, store g (.cell (i + j)) 0 v = store g (.cell i) j v := by intro v; simp only [store, add_zero]
      rw [e1]
      cases load g (.cell i) j with
      | none => rfl
      | some self =>
        rw [Option.bind_some, Option.bind_some, e2]
        cases e3 : store g (.cell i) j (upd' nano self hood) with
        | none => rfl
        | some g' =>
          rw [Option.bind_some, Option.bind_some]
          rw [ih (j + 1) g' (fun j' h1 h2 => hh j' (by omega) (by push_cast; omega)) (fun j' h1 h2 => by
            rw [store_len e3]; exact ht j' (by omega) (by push_cast; omega))]
          rw [upd_upd, upd_upd]
          simp only [upd, if_true]
          rw [show o 0 + j + 1 = o 0 + (j + 1) by ring, show t 0 + j + 1 = t 0 + (j + 1) by ring]

theorem vanLoop_add {st : Stencil} {upd' : Nat → α → List α → α} {nano : Nat} {v : View α} {loc' : Crd → Option Int} (b : Nat) (a : Nat) : ∀ (c t : Crd) (g : Grid α),
    vanLoop st upd' nano v loc' (a + b) c t g =
      (vanLoop st upd' nano v loc' a c t g).bind fun g => vanLoop st upd' nano v loc' b (upd c 0 (c 0 + a)) (upd t 0 (t 0 + a)) g := by
  induction a with
  | zero => intro c t g; simp [vanLoop, upd_self]
  | succ a ih =>
    intro c t g
    rw [show a + 1 + b = (a + b) + 1 by omega, vanLoop, vanLoop]
    cases vanHood st v c with
    | none => rfl
    | some hood =>
      rw [Option.bind_some, Option.bind_some]
      cases addr g (loc' t) with
      | none => rfl
      | some p =>
        rw [Option.bind_some, Option.bind_some]
        cases load g p 0 with
        | none => rfl
        | some self =>
          rw [Option.bind_some, Option.bind_some]
          cases store g p 0 (upd' nano self hood) with
          | none => rfl
          | some g' =>
            rw [Option.bind_some, Option.bind_some, ih, upd_upd, upd_upd]
            simp only [upd, if_true]
            push_cast
            rw [show c 0 + 1 + (a : Int) = c 0 + (a + 1) by ring, show t 0 + 1 + (a : Int) = t 0 + (a + 1) by ring]

theorem vanLoop_len {st : Stencil} {upd' : Nat → α → List α → α} {nano : Nat} {v : View α} {loc' : Crd → Option Int} (a : Nat) : ∀ (c t : Crd) (g g' : Grid α),
    vanLoop st upd' nano v loc' a c t g = some g' → g'.cells.length = g.cells.length := by
  induction a with
  | zero => intro c t g g' h; cases h; rfl
  | succ a ih =>
    intro c t g g' h
    rw [vanLoop] at h
    obtain ⟨_, _, h⟩ := Option.bind_eq_some_iff.mp h
    obtain ⟨_, _, h⟩ := Option.bind_eq_some_iff.mp h
    obtain ⟨_, _, h⟩ := Option.bind_eq_some_iff.mp h
    obtain ⟨g1, h1, h⟩ := Option.bind_eq_some_iff.mp h
    rw [ih _ _ _ _ h, store_len h1]

/-- the line pointer functor performs the vanilla loop -/
theorem lineFunctor_eq {st : Stencil} (hst : StencilOK n st) {fl : Flags} {v : View α} {s : Streak} (h : RowsOK st fl v s) (hs : s.origin 0 < s.endX) {ptrs : List Ptr}
    (hp : ∀ r ∈ st.coords, ∀ k, atPtr st v.mem ptrs r k = (addr v.mem (v.loc
      (rowAt s r (if r.1 = -1 then s.origin 0 - 1 else if r.1 = 0 then s.origin 0 else s.endX)))).bind fun p => load v.mem p k)
    (hv : ∀ x, s.origin 0 ≤ x → x < s.endX → vanHood st v (upd s.origin 0 x) = st.coords.mapM fun r => rd v (fun k => upd s.origin 0 x k + relCrd r k))
    {upd' : Nat → α → List α → α} {nano : Nat} {loc' : Crd → Option Int} {i : Int} (t : Crd) (g : Grid α)
    (ht : ∀ j, 0 ≤ j → j < s.endX - s.origin 0 → loc' (upd t 0 (t 0 + j)) = some (i + j) ∧ 0 ≤ i + j ∧ i + j < g.cells.length) :
    lineFunctor st fl upd' nano s v.mem ptrs (.cell i) g = vanLoop st upd' nano v loc' (s.endX - s.origin 0).toNat s.origin t g := by
  have hood : ∀ (w e : Bool) (j : Int), 0 ≤ j → j < s.endX - s.origin 0 → (w = true ↔ j = 0) → (e = true ↔ j + 1 = s.endX - s.origin 0) →
      lineHood st { fl with west := w, east := e } v.mem ptrs j = vanHood st v (upd s.origin 0 (s.origin 0 + j)) := by
    intro w e j h1 h2 hw he
    rw [hv _ (by omega) (by omega), ← lineHood_eq hst h hp (s.origin 0 + j) (by omega) (by omega) w e (by rw [hw]; omega) (by rw [he]; omega)]
    rw [show s.origin 0 + j - s.origin 0 = j by ring]
  have e0 : vanLoop st upd' nano v loc' (s.endX - s.origin 0).toNat s.origin t g =
      vanLoop st upd' nano v loc' (s.endX - s.origin 0).toNat (upd s.origin 0 (s.origin 0 + 0)) (upd t 0 (t 0 + 0)) g := by
    rw [add_zero, add_zero, upd_self, upd_self]
  unfold lineFunctor
  by_cases h1 : s.endX = s.origin 0 + 1
  · rw [if_pos h1, e0]
    exact wrapper_eq s.origin t _ 0 g (fun j' a b => hood true true j' a (by omega) (by simp; omega) (by simp; omega)) (fun j' a b => ht j' a (by omega))
  · rw [if_neg h1, show max 1 (s.endX - s.origin 0 - 1) = s.endX - s.origin 0 - 1 by omega]
    have em : (s.endX - s.origin 0).toNat = 1 + ((s.endX - s.origin 0 - 1 - 1).toNat + (s.endX - s.origin 0 - (s.endX - s.origin 0 - 1)).toNat) := by omega
    rw [em, vanLoop_add]
    rw [wrapper_eq (loc' := loc') s.origin t 1 0 g (fun j' a b => hood true false j' a (by omega) (by simp; omega) (by simp; omega)) (fun j' a b => ht j' a (by omega)), add_zero,
      add_zero, upd_self, upd_self]
    cases e1 : vanLoop st upd' nano v loc' 1 s.origin t g with
    | none => rfl
    | some g1 =>
      have l1 := vanLoop_len _ _ _ _ _ e1
      rw [Option.bind_some, Option.bind_some, vanLoop_add]
      rw [wrapper_eq (loc' := loc') s.origin t _ 1 g1 (fun j' a b => hood false false j' (by omega) (by omega) (by simp; omega) (by simp; omega))
        (fun j' a b => by rw [l1]; exact ht j' (by omega) (by omega))]
      rw [show ((1 : Nat) : Int) = 1 from rfl]
      cases e2 : vanLoop st upd' nano v loc' (s.endX - s.origin 0 - 1 - 1).toNat (upd s.origin 0 (s.origin 0 + 1)) (upd t 0 (t 0 + 1)) g1 with
      | none => rfl
      | some g2 =>
        have l2 := vanLoop_len _ _ _ _ _ e2
        rw [Option.bind_some, Option.bind_some]
        rw [wrapper_eq (loc' := loc') s.origin t _ (s.endX - s.origin 0 - 1) g2 (fun j' a b => hood false true j' (by omega) (by omega) (by simp; omega) (by simp; omega))
          (fun j' a b => by rw [l2, l1]; exact ht j' (by omega) (by omega))]
        rw [upd_upd, upd_upd]
        simp only [upd, if_true]
        rw [show s.origin 0 + 1 + (((s.endX - s.origin 0 - 1 - 1).toNat : Nat) : Int) = s.origin 0 + (s.endX - s.origin 0 - 1) by omega,
          show t 0 + 1 + (((s.endX - s.origin 0 - 1 - 1).toNat : Nat) : Int) = t 0 + (s.endX - s.origin 0 - 1) by omega]

/-! ## the result of a loop over cells -/

/-- update of one cell -/
def cellStep (st : Stencil) (upd' : Nat → α → List α → α) (nano : Nat) (v : View α) (loc' : Crd → Option Int) (srcOff tgtOff : Crd) (c : Crd) (g : Grid α) : Option (Grid α) :=
  (vanHood st v fun k => c k + srcOff k).bind fun hood => (addr g (loc' fun k => c k + tgtOff k)).bind fun p => (load g p 0).bind fun self =>
    store g p 0 (upd' nano self hood)

theorem upd_add (c o : Crd) (x : Int) : (fun k => upd c 0 x k + o k) = upd (fun k => c k + o k) 0 (x + o 0) := by
  funext k
  unfold upd
  split
  · rename_i h; subst h; rfl
  · rfl

theorem vanLoop_cells {st : Stencil} {upd' : Nat → α → List α → α} {nano : Nat} {v : View α} {loc' : Crd → Option Int} (srcOff tgtOff : Crd) (s : Streak) (m : Nat) :
    ∀ (x : Int) (g : Grid α), vanLoop st upd' nano v loc' m (fun k => upd s.origin 0 x k + srcOff k) (fun k => upd s.origin 0 x k + tgtOff k) g =
      (coordsFrom s m x).foldlM (fun g c => cellStep st upd' nano v loc' srcOff tgtOff c g) g := by
  induction m with
  | zero => intro x g; rfl
  | succ m ih =>
    intro x g
    rw [vanLoop, coordsFrom, List.foldlM_cons]
    unfold cellStep
    cases vanHood st v (fun k => upd s.origin 0 x k + srcOff k) with
    | none => rfl
    | some hood =>
      simp only [Option.bind_some, Option.bind_eq_bind]
      cases addr g (loc' fun k => upd s.origin 0 x k + tgtOff k) with
      | none => rfl
      | some p =>
        simp only [Option.bind_some]
        cases load g p 0 with
        | none => rfl
        | some self =>
          simp only [Option.bind_some]
          cases store g p 0 (upd' nano self hood) with
          | none => rfl
          | some g' =>
            simp only [Option.bind_some]
            have := ih (x + 1) g'
            unfold cellStep at this
            rw [← this, upd_add, upd_add, upd_upd, upd_upd, upd_add, upd_add]
            simp only [upd, if_true]
            rw [show x + srcOff 0 + 1 = x + 1 + srcOff 0 by ring, show x + tgtOff 0 + 1 = x + 1 + tgtOff 0 by ring]

theorem vanStreak_cells {st : Stencil} {upd' : Nat → α → List α → α} {nano : Nat} {v : View α} {loc' : Crd → Option Int} (srcOff tgtOff : Crd) (s : Streak) (g : Grid α) :
    vanStreak st upd' nano srcOff tgtOff v loc' s g = (coordsOf s).foldlM (fun g c => cellStep st upd' nano v loc' srcOff tgtOff c g) g := by
  unfold vanStreak coordsOf
  rw [← vanLoop_cells, show s.endX + srcOff 0 - (s.origin 0 + srcOff 0) = s.endX - s.origin 0 by ring, upd_self]

/-- the result of updating a list of cells at distinct locations -/
theorem cells_spec {st : Stencil} {upd' : Nat → α → List α → α} {nano : Nat} {v : View α} {loc' : Crd → Option Int} (srcOff tgtOff : Crd) (T : Crd → Int)
    (hood : Crd → List α) (cs : List Crd) : ∀ (g : Grid α),
      (∀ c ∈ cs, vanHood st v (fun k => c k + srcOff k) = some (hood c)) →
      (∀ c ∈ cs, loc' (fun k => c k + tgtOff k) = some (T c) ∧ 0 ≤ T c ∧ T c < g.cells.length) → (cs.map T).Nodup →
      ∃ g', cs.foldlM (fun g c => cellStep st upd' nano v loc' srcOff tgtOff c g) g = some g' ∧ g'.dim = g.dim ∧ g'.edge = g.edge ∧ g'.cells.length = g.cells.length ∧
        (∀ c ∈ cs, g'.cells[(T c).toNat]? = (g.cells[(T c).toNat]?).map fun self => upd' nano self (hood c)) ∧
        (∀ i : Nat, (∀ c ∈ cs, (T c).toNat ≠ i) → g'.cells[i]? = g.cells[i]?) := by
  induction cs with
  | nil => intro g _ _ _; exact ⟨g, rfl, rfl, rfl, rfl, fun c hc => by simp at hc, fun i _ => rfl⟩
  | cons c cs ih =>
    intro g hh ht hd
    obtain ⟨t1, t2, t3⟩ := ht c (List.mem_cons_self ..)
    rw [List.map_cons, List.nodup_cons] at hd
    have hlt : (T c).toNat < g.cells.length := by omega
    have hstep : cellStep st upd' nano v loc' srcOff tgtOff c g = some { g with cells := g.cells.set (T c).toNat (upd' nano (g.cells[(T c).toNat]) (hood c)) } := by
      unfold cellStep
      rw [hh c (List.mem_cons_self ..), Option.bind_some, t1]
      simp only [addr]
      rw [if_pos ⟨t2, t3⟩]
      simp only [Option.bind_some, load, add_zero]
      rw [if_pos t2, List.getElem?_eq_getElem hlt, Option.bind_some]
      simp only [store, add_zero]
      rw [if_pos ⟨t2, t3⟩]
    obtain ⟨g', e, e1, e2, e3, e4, e5⟩ := ih { g with cells := g.cells.set (T c).toNat (upd' nano (g.cells[(T c).toNat]) (hood c)) } (fun c' hc' => hh c' (List.mem_cons_of_mem _ hc')) (fun c' hc' => by
      have := ht c' (List.mem_cons_of_mem _ hc')
      exact ⟨this.1, this.2.1, by
        show T c' < ((g.cells.set (T c).toNat (upd' nano (g.cells[(T c).toNat]) (hood c))).length : Nat)
        rw [List.length_set]; exact this.2.2⟩) hd.2
    have hne : ∀ c' ∈ cs, (T c').toNat ≠ (T c).toNat := by
      intro c' hc' heq
      have := (ht c' (List.mem_cons_of_mem _ hc')).2.1
      exact hd.1 (List.mem_map.mpr ⟨c', hc', by omega⟩)
    simp only at e1 e2 e3 e4 e5
    refine ⟨g', ?_, e1, e2, by rw [e3, List.length_set], ?_, ?_⟩
    · rw [List.foldlM_cons, hstep]
      exact e
    · intro c' hc'
      rcases List.mem_cons.mp hc' with rfl | hc'
      · rw [e5 _ hne, List.getElem?_set_self hlt, List.getElem?_eq_getElem hlt]
        rfl
      · rw [e4 c' hc', List.getElem?_set_ne (Ne.symm (hne c' hc'))]
    · intro i hi
      rw [e5 i (fun c' hc' => hi c' (List.mem_cons_of_mem _ hc')), List.getElem?_set_ne (hi c (List.mem_cons_self ..))]

end LGD.Line
