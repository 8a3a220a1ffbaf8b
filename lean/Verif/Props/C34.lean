import Verif.Store.LineLemmas
import Verif.Region.Literal

/-!
# C34: updates via line pointers and via generic neighborhoods

Specification: after the update of a region, each of its cells contains the result of `update`, applied to its previous content in the target grid and to the cells which `get` delivers in the
source grid at the coordinates of the stencil; all other cells are unchanged.
-/

namespace LGD.C34
open LGD.C13 LGD.C14 LGD.Store LGD.C33 LGD.Line

variable {α : Type} {n : Nat} {wraps : Nat → Bool}

/-! ## any grid -/

theorem mapM_map {β γ : Type} (f : β → Option γ) (l : List β) (l' : List γ) (h : l.mapM f = some l') : l'.map some = l.map f := by
  induction l generalizing l' with
  | nil => cases h; rfl
  | cons a l ih =>
    rw [List.mapM_cons] at h
    cases ha : f a with
    | none => rw [ha] at h; cases h
    | some b =>
      rw [ha] at h
      cases hl : l.mapM f with
      | none => rw [hl] at h; cases h
      | some l2 =>
        rw [hl] at h
        cases h
        rw [List.map_cons, List.map_cons, ha, ih l2 hl]

theorem hood_some {st : Stencil} {v : View α} {c : Crd} (h : ∀ r ∈ st.coords, v.nb c r = v.loc (fun k => c k + relCrd r k) ∧ ∃ p, rd v (fun k => c k + relCrd r k) = some p) :
    ∃ hood, vanHood st v c = some hood ∧ hood.map some = st.coords.map fun r => rd v (fun k => c k + relCrd r k) := by
  have e : vanHood st v c = st.coords.mapM fun r => rd v (fun k => c k + relCrd r k) := by
    unfold vanHood
    refine mapM_congr _ _ _ fun r hr => ?_
    rw [(h r hr).1]
    rfl
  obtain ⟨l, e1, _⟩ := mapM_some (fun r => rd v (fun k => c k + relCrd r k)) st.coords (fun r hr => (h r hr).2)
  exact ⟨l, by rw [e, e1], mapM_map _ _ _ e1⟩

theorem foldlM_flatMap {β γ : Type} (f : γ → β → Option γ) (F : Streak → List β) (ss : List Streak) (g : γ) :
    (ss.flatMap F).foldlM f g = ss.foldlM (fun g s => (F s).foldlM f g) g := by
  induction ss generalizing g with
  | nil => rfl
  | cons s ss ih =>
    rw [List.flatMap_cons, List.foldlM_append, List.foldlM_cons]
    cases (F s).foldlM f g with
    | none => rfl
    | some g' => exact ih g'

/-- the loops over streaks which the update functor may select: the vanilla path, or (only without source offset) the line pointer path -/
inductive IsPath (n : Nat) (wraps : Nat → Bool) (st : Stencil) (upd' : Nat → α → List α → α) (nano : Nat) (srcOff tgtOff : Crd) (v : View α) (loc' : Crd → Option Int) :
    (Streak → Grid α → Option (Grid α)) → Prop
  | vanilla : IsPath n wraps st upd' nano srcOff tgtOff v loc' (vanStreak st upd' nano srcOff tgtOff v loc')
  | line (h : srcOff = fun _ => 0) : IsPath n wraps st upd' nano srcOff tgtOff v loc' (lineStreak n wraps st upd' nano srcOff tgtOff v loc')

theorem update_view {st : Stencil} (hst : StencilOK n st) (upd' : Nat → α → List α → α) (nano : Nat) (v : View α) (loc' : Crd → Option Int) (g : Grid α) (srcOff tgtOff : Crd)
    (region : Idx) (ss : List Streak) (hss : allStreaks n region (fun _ => 0) 0 = some ss) (hlen : ∀ s ∈ ss, s.origin 0 < s.endX)
    (hline : (srcOff = fun _ => 0) → ∀ s ∈ ss, RowsOK st (rowFlags n wraps v s.origin) v s ∧
      ∃ i, ∀ j, 0 ≤ j → j < s.endX - s.origin 0 → loc' (upd (fun k => s.origin k + tgtOff k) 0 (s.origin 0 + tgtOff 0 + j)) = some (i + j) ∧ 0 ≤ i + j ∧
        i + j < g.cells.length)
    (hsrc : ∀ c ∈ ss.flatMap coordsOf, ∀ r ∈ st.coords, v.nb (fun k => c k + srcOff k) r = v.loc (fun k => c k + srcOff k + relCrd r k) ∧
      ∃ p, rd v (fun k => c k + srcOff k + relCrd r k) = some p)
    (T : Crd → Int) (htgt : ∀ c ∈ ss.flatMap coordsOf, loc' (fun k => c k + tgtOff k) = some (T c) ∧ 0 ≤ T c ∧ T c < g.cells.length)
    (hdist : ((ss.flatMap coordsOf).map T).Nodup) :
    ∃ g', (∀ body, IsPath n wraps st upd' nano srcOff tgtOff v loc' body → updateRegion n body region g = some g') ∧ g'.dim = g.dim ∧ g'.edge = g.edge ∧ g'.cells.length = g.cells.length ∧
      (∀ c ∈ ss.flatMap coordsOf, ∃ hood, hood.map some = st.coords.map (fun r => rd v (fun k => c k + srcOff k + relCrd r k)) ∧
        g'.cells[(T c).toNat]? = (g.cells[(T c).toNat]?).map fun self => upd' nano self hood) ∧
      (∀ i : Nat, (∀ c ∈ ss.flatMap coordsOf, (T c).toNat ≠ i) → g'.cells[i]? = g.cells[i]?) := by
  have hhood : ∀ c, ∃ hood, c ∈ ss.flatMap coordsOf → vanHood st v (fun k => c k + srcOff k) = some hood ∧
      hood.map some = st.coords.map fun r => rd v (fun k => c k + srcOff k + relCrd r k) := by
    intro c
    by_cases hc : c ∈ ss.flatMap coordsOf
    · obtain ⟨hood, h1, h2⟩ := hood_some (st := st) (v := v) (c := fun k => c k + srcOff k) (hsrc c hc)
      exact ⟨hood, fun _ => ⟨h1, h2⟩⟩
    · exact ⟨[], fun h => (hc h).elim⟩
  choose hood hh using hhood
  have hvan : ∀ g : Grid α, ss.foldlM (fun g i => vanStreak st upd' nano srcOff tgtOff v loc' i g) g =
      (ss.flatMap coordsOf).foldlM (fun g c => cellStep st upd' nano v loc' srcOff tgtOff c g) g := by
    intro g
    rw [foldlM_flatMap]
    congr 1
    funext g s
    exact vanStreak_cells srcOff tgtOff s g
  have hall : ∀ body, IsPath n wraps st upd' nano srcOff tgtOff v loc' body → updateRegion n body region g = (ss.flatMap coordsOf).foldlM (fun g c => cellStep st upd' nano v loc' srcOff tgtOff c g) g := by
    intro body hb
    unfold updateRegion
    rw [hss, Option.bind_some, ← hvan]
    rcases hb with _ | h0
    · rfl
    · have hrows := hline h0
      have : ∀ (l : List Streak) (g1 : Grid α), (∀ s ∈ l, s ∈ ss) → g1.cells.length = g.cells.length →
          l.foldlM (fun g i => lineStreak n wraps st upd' nano srcOff tgtOff v loc' i g) g1 = l.foldlM (fun g i => vanStreak st upd' nano srcOff tgtOff v loc' i g) g1 := by
        intro l
        induction l with
        | nil => intro g1 _ _; rfl
        | cons s l ih =>
          intro g1 hl hg1
          have hs := hl s (List.mem_cons_self ..)
          obtain ⟨hr, i, hi⟩ := hrows s hs
          have hstreak : lineStreak n wraps st upd' nano srcOff tgtOff v loc' s g1 = vanStreak st upd' nano srcOff tgtOff v loc' s g1 := by
            obtain ⟨ptrs, e1, hp⟩ := assemble_ok hst hr
            have hne := hlen s hs
            have e2 : (⟨fun k => s.origin k + srcOff k, s.endX + srcOff 0⟩ : Streak) = s := by
              subst h0
              cases s
              simp
            unfold lineStreak
            rw [e2, e1]
            simp only [Option.bind_some]
            have h00 := hi 0 (le_refl _) (by omega)
            have e3 : loc' (fun k => s.origin k + tgtOff k) = some i := by
              have := h00.1
              rw [add_zero, add_zero] at this
              rw [← this]
              congr 1
              exact (upd_self _ _).symm
            rw [e3]
            have : addr g1 (some i) = some (.cell i) := by
              have h1 := h00.2.1
              have h2 := h00.2.2
              simp only [addr]
              rw [if_pos (by omega)]
            rw [this, Option.bind_some, lineFunctor_eq (loc' := loc') hst hr hne hp (t := fun k => s.origin k + tgtOff k) (g := g1)]
            · unfold vanStreak
              subst h0
              simp
            · intro x hx1 hx2
              have hc : upd s.origin 0 x ∈ ss.flatMap coordsOf := List.mem_flatMap.mpr ⟨s, hs, coordsOf_cells s x hx1 hx2⟩
              have := hsrc _ hc
              subst h0
              simp only [add_zero] at this
              unfold vanHood
              refine mapM_congr _ _ _ fun r hr => ?_
              rw [(this r hr).1]
              rfl
            · intro j hj1 hj2
              rw [hg1]
              exact hi j hj1 hj2
          rw [List.foldlM_cons, List.foldlM_cons, hstreak]
          cases e : vanStreak st upd' nano srcOff tgtOff v loc' s g1 with
          | none => rfl
          | some g2 =>
            refine ih g2 (fun s' hs' => hl s' (List.mem_cons_of_mem _ hs')) ?_
            rw [← hg1]
            unfold vanStreak at e
            exact vanLoop_len _ _ _ _ _ e
      exact this ss g (fun _ h => h) rfl
  obtain ⟨g', e, e1, e2, e3, e4, e5⟩ := cells_spec (st := st) (upd' := upd') (nano := nano) (v := v) (loc' := loc') srcOff tgtOff T hood (ss.flatMap coordsOf) g
    (fun c hc => (hh c hc).1) htgt hdist
  exact ⟨g', fun body hb => by rw [hall body hb, e], e1, e2, e3, fun c hc => ⟨hood c, (hh c hc).2, e4 c hc⟩, e5⟩

/-- what `update_view` needs: rows of the line pointer path, neighbors in the source, and distinct locations `T` in the target -/
structure Ready (n : Nat) (wraps : Nat → Bool) (st : Stencil) (v : View α) (loc' : Crd → Option Int) (g : Grid α) (srcOff tgtOff : Crd) (ss : List Streak) (T : Crd → Int) : Prop where
  len : ∀ s ∈ ss, s.origin 0 < s.endX
  line : (srcOff = fun _ => 0) → ∀ s ∈ ss, RowsOK st (rowFlags n wraps v s.origin) v s ∧
      ∃ i, ∀ j, 0 ≤ j → j < s.endX - s.origin 0 → loc' (upd (fun k => s.origin k + tgtOff k) 0 (s.origin 0 + tgtOff 0 + j)) = some (i + j) ∧ 0 ≤ i + j ∧
        i + j < g.cells.length
  src : ∀ c ∈ ss.flatMap coordsOf, ∀ r ∈ st.coords, v.nb (fun k => c k + srcOff k) r = v.loc (fun k => c k + srcOff k + relCrd r k) ∧
      ∃ p, rd v (fun k => c k + srcOff k + relCrd r k) = some p
  tgt : ∀ c ∈ ss.flatMap coordsOf, loc' (fun k => c k + tgtOff k) = some (T c) ∧ 0 ≤ T c ∧ T c < g.cells.length
  dist : ((ss.flatMap coordsOf).map T).Nodup

/-! ## `DisplacedGrid` -/

theorem rd_disp (d : DGrid α) (c : Crd) : rd (dispView n wraps d) c = dRead n wraps true d c := by
  unfold rd dRead gridRead dispView
  simp only
  cases topoLocate n wraps (dRel n wraps true d c) d.delegate.dim with
  | none => rfl
  | some i =>
    simp only [addr]
    by_cases h : 0 ≤ i
    · rw [if_pos h]
      by_cases h2 : i < d.delegate.cells.length
      · rw [if_pos ⟨h, h2⟩]
        simp only [Option.bind_some, load, add_zero]
        rw [if_pos h]
      · rw [if_neg (fun hh => h2 hh.2), List.getElem?_eq_none (by omega)]
        rfl
    · rw [if_neg (fun hh => h hh.1), if_neg h]
      rfl

theorem loc_outside {d : DGrid α} (hd : DGridOK n wraps d) {c : Crd} (ho : DOutside n wraps d c) : (dispView n wraps d).loc c = none := by
  unfold dispView topoLocate
  simp only
  rw [if_pos ((outOfBounds_iff n wraps _ _).2 (dRel_outside hd ho))]

theorem loc_inside (hn : n ≤ 2) {d : DGrid α} (hd : DGridOK n wraps d) {c : Crd} (ho : ¬ DOutside n wraps d c) (hh : Held n wraps d c) :
    (dispView n wraps d).loc c = some (lin d.delegate.dim n 0 (dRel n wraps true d c)) ∧ 0 ≤ lin d.delegate.dim n 0 (dRel n wraps true d c) ∧
      lin d.delegate.dim n 0 (dRel n wraps true d c) < d.delegate.cells.length := by
  have e := locate_inDim (wraps := wraps) hn (dRel_inside hd ho hh).1
  exact ⟨e, locate_range hn hd.delegate (dRel_onePeriod hd hh) _ e⟩

theorem seam {a o t e : Int} (ht : 0 < t) (h : ∀ x, a ≤ x → x + 1 < e → (x + 1 - o) % t ≠ 0) (j : Nat) (hj : a + j < e) : (a + j - o) % t = (a - o) % t + j := by
  induction j with
  | zero => simp
  | succ j ih =>
    have ih := ih (by push_cast at hj; omega)
    have hs := h (a + j) (by omega) (by push_cast at hj; omega)
    push_cast
    have e1 : (a + (j + 1) - o) % t = ((a + j - o) % t + 1) % t := by
      rw [Int.emod_add_emod]
      congr 1
      ring
    have e2 : a + j + 1 - o = a + (j + 1) - o := by ring
    rw [e2, e1] at hs
    rw [e1, ← add_assoc, ← ih]
    have h1 := Int.emod_lt_of_pos (a + j - o) ht
    have h2 := Int.emod_nonneg (a + j - o) (b := t) (by omega)
    by_cases h3 : (a + j - o) % t + 1 = t
    · rw [h3, Int.emod_self] at hs
      exact (hs rfl).elim
    · exact Int.emod_eq_of_lt (by omega) (by omega)

/-- cells which are next to each other on the x axis are contiguous in memory, unless the streak crosses the seam of a periodic axis -/
theorem contiguous (hn : n ≤ 2) {d : DGrid α} (hd : DGridOK n wraps d) (b : Crd) (a e : Int) (hae : a < e)
    (hc : ∀ x, a ≤ x → x < e → ¬ DOutside n wraps d (upd b 0 x) ∧ Held n wraps d (upd b 0 x))
    (hs : wraps 0 = true → ∀ x, a ≤ x → x + 1 < e → (x + 1 - d.origin 0) % d.topo 0 ≠ 0) :
    ∃ i, ∀ x, a ≤ x → x < e → (dispView n wraps d).loc (upd b 0 x) = some (i + (x - a)) ∧ 0 ≤ i + (x - a) ∧ i + (x - a) < d.delegate.cells.length := by
  have ha := hc a (le_refl _) hae
  refine ⟨lin d.delegate.dim n 0 (dRel n wraps true d (upd b 0 a)), fun x h1 h2 => ?_⟩
  have hx := hc x h1 h2
  have hl := loc_inside hn hd hx.1 hx.2
  have e0 : lin d.delegate.dim n 0 (dRel n wraps true d (upd b 0 x)) = lin d.delegate.dim n 0 (dRel n wraps true d (upd b 0 a)) + (x - a) := by
    have hra := (dRel_inside hd ha.1 ha.2).2
    have hrx := (dRel_inside hd hx.1 hx.2).2
    have hpos : 0 < d.topo 0 := by
      have := hd.delegate.pos 0 (by omega)
      have := hd.fits 0 (by omega)
      omega
    have h0 : dRel n wraps true d (upd b 0 x) 0 = dRel n wraps true d (upd b 0 a) 0 + (x - a) := by
      rw [hra 0 (by omega), hrx 0 (by omega)]
      simp only [upd, if_true]
      cases hw : wraps 0 with
      | true =>
        have := seam hpos (hs hw) (x - a).toNat (by omega)
        rw [show a + ((x - a).toNat : Int) = x by omega] at this
        rw [this]
        omega
      | false =>
        have q : ∀ x, a ≤ x → x < e → d.origin 0 ≤ x ∧ x < d.origin 0 + d.delegate.dim 0 := by
          intro y hy1 hy2
          by_contra hcon
          refine (hc y hy1 hy2).1 ⟨0, by omega, hw, ?_⟩
          simpa [upd] using hcon
        have q1 := q x h1 h2
        have q2 := q a (le_refl _) hae
        have := hd.fits 0 (by omega)
        rw [Int.emod_eq_of_lt (by omega) (by omega), Int.emod_eq_of_lt (by omega) (by omega)]
        ring
    have : lin d.delegate.dim n 0 (dRel n wraps true d (upd b 0 x)) =
        lin d.delegate.dim n 0 (upd (dRel n wraps true d (upd b 0 a)) 0 (dRel n wraps true d (upd b 0 a) 0 + (x - a))) := by
      refine lin_congr _ _ _ _ _ (fun j _ hj => ?_)
      by_cases hj0 : j = 0
      · subst hj0
        rw [h0]
        simp [upd]
      · have hjn : j ≤ n := by omega
        rw [hrx j hjn]
        simp only [upd]
        rw [if_neg hj0, if_neg hj0, hra j hjn]
        simp only [upd]
        rw [if_neg hj0]
    rw [this, lin_upd]
    ring
  rw [← e0]
  exact hl

theorem relCrd_range {st : Stencil} (hst : StencilOK n st) {r : Rel} (hr : r ∈ st.coords) (k : Nat) : -1 ≤ relCrd r k ∧ relCrd r k ≤ 1 := by
  have hx := hst.x r hr
  have hy := hst.y r hr
  have hz := hst.z r hr
  unfold relCrd
  split
  · omega
  · split
    · omega
    · split <;> omega

/-- the neighborhood object, which refers to the delegate, selects the same cells as `operator[]` -/
theorem nb_eq (hn : n ≤ 2) {st : Stencil} (hst : StencilOK n st) {d : DGrid α} (hd : DGridOK n wraps d) {c : Crd} (ho : ¬ DOutside n wraps d c) (hh : Held n wraps d c)
    {r : Rel} (hr : r ∈ st.coords) (hh' : Held n wraps d (fun k => c k + relCrd r k)) :
    (dispView n wraps d).nb c r = (dispView n wraps d).loc (fun k => c k + relCrd r k) := by
  obtain ⟨h1, h2⟩ := dRel_inside hd ho hh
  have hconst : ∀ k, k ≤ n → wraps k = false → dRel n wraps true d c k = c k - d.origin k := by
    intro k hk hw
    rw [h2 k hk]
    have : d.origin k ≤ c k ∧ c k < d.origin k + d.delegate.dim k := by
      by_contra hcon
      exact ho ⟨k, hk, hw, hcon⟩
    have := hd.fits k hk
    exact Int.emod_eq_of_lt (by omega) (by omega)
  have hnb : (dispView n wraps d).nb c r = topoLocate n wraps (fun k => dRel n wraps true d c k + relCrd r k) d.delegate.dim := rfl
  by_cases ho' : DOutside n wraps d (fun k => c k + relCrd r k)
  · rw [loc_outside hd ho', hnb]
    unfold topoLocate
    rw [if_pos ((outOfBounds_iff n wraps _ _).2 ?_)]
    obtain ⟨k, hk, hw, hc⟩ := ho'
    refine ⟨k, hk, hw, ?_⟩
    simp only at hc ⊢
    rw [hconst k hk hw]
    omega
  · obtain ⟨h3, h4⟩ := dRel_inside hd ho' hh'
    have hloc : (dispView n wraps d).loc (fun k => c k + relCrd r k) = topoLocate n wraps (dRel n wraps true d (fun k => c k + relCrd r k)) d.delegate.dim := rfl
    rw [hnb, hloc]
    refine (same_locate hn hd.delegate.pos ?_ (onePeriod_of_inDim h3)).1 (Or.inr ⟨?_, not_outside_of_inDim h3, fun k hk => ?_⟩)
    · intro k hk _
      have := h1 k hk
      have := relCrd_range hst hr k
      have := hd.delegate.pos k hk
      simp only
      omega
    · rintro ⟨k, hk, hw, hc⟩
      refine ho' ⟨k, hk, hw, ?_⟩
      simp only at hc ⊢
      rw [hconst k hk hw] at hc
      omega
    · have hfit := hd.fits k hk
      have hpos := hd.delegate.pos k hk
      cases hw : wraps k with
      | false =>
        simp only [Bool.false_eq_true, if_false]
        rw [hconst k hk hw, h4 k hk]
        have : d.origin k ≤ c k + relCrd r k ∧ c k + relCrd r k < d.origin k + d.delegate.dim k := by
          by_contra hcon
          exact ho' ⟨k, hk, hw, hcon⟩
        rw [Int.emod_eq_of_lt (by omega) (by omega)]
        ring
      | true =>
        simp only [if_true]
        have hheld := (hh' k hk hw).1
        have e : dRel n wraps true d (fun k => c k + relCrd r k) k = (dRel n wraps true d c k + relCrd r k) % d.topo k := by
          rw [h4 k hk, h2 k hk, Int.emod_add_emod]
          congr 1
          ring
        rw [← h4 k hk, e] at hheld
        rw [e]
        have h5 := h1 k hk
        have h6 := relCrd_range hst hr k
        by_cases hdt : d.delegate.dim k = d.topo k
        · rw [hdt, Int.emod_emod_of_dvd _ (dvd_refl _)]
        · by_cases hneg : dRel n wraps true d c k + relCrd r k < 0
          · exfalso
            have : dRel n wraps true d c k + relCrd r k = -1 := by omega
            rw [this] at hheld
            have e2 : (-1 : Int) % d.topo k = d.topo k - 1 := by
              rw [← Int.add_emod_right, Int.emod_eq_of_lt (by omega) (by omega)]
              ring
            rw [e2] at hheld
            omega
          · rw [Int.emod_eq_of_lt (a := dRel n wraps true d c k + relCrd r k) (b := d.topo k) (by omega) (by omega)]

/-- all cells of a region (displaced by an offset) are stored in the grid, and so are their neighbors on periodic axes -/
def Covers (n : Nat) (wraps : Nat → Bool) (d : DGrid α) (region : Idx) (off : Crd) (rels : List Rel) : Prop :=
  ∀ c, RMem n region c → ¬ DOutside n wraps d (fun k => c k + off k) ∧ Held n wraps d (fun k => c k + off k) ∧
    ∀ r ∈ rels, Held n wraps d (fun k => c k + off k + relCrd r k)

/-- no streak of the region crosses the border of the grid on a periodic x axis -/
def NoSeam (n : Nat) (wraps : Nat → Bool) (d : DGrid α) (region : Idx) (off : Crd) : Prop :=
  wraps 0 = true → ∀ c, RMem n region c → RMem n region (upd c 0 (c 0 + 1)) → (c 0 + 1 + off 0 - d.origin 0) % d.topo 0 ≠ 0

/-- no two cells of the region are images of each other -/
def Distinct (n : Nat) (wraps : Nat → Bool) (d : DGrid α) (region : Idx) (off : Crd) : Prop :=
  ∀ a b, RMem n region a → RMem n region b → DSame n wraps d (fun k => a k + off k) (fun k => b k + off k) → ∀ k, k ≤ n → a k = b k

theorem rows_disp (hn : n ≤ 2) {st : Stencil} (hst : StencilOK n st) {d : DGrid α} (hd : DGridOK n wraps d) (s : Streak) (hs : s.origin 0 < s.endX)
    (hin : ∀ x, s.origin 0 ≤ x → x < s.endX → ¬ DOutside n wraps d (upd s.origin 0 x) ∧ Held n wraps d (upd s.origin 0 x) ∧
      ∀ r ∈ st.coords, Held n wraps d (fun k => upd s.origin 0 x k + relCrd r k))
    (hseam : wraps 0 = true → ∀ x, s.origin 0 ≤ x → x + 1 < s.endX → (x + 1 - d.origin 0) % d.topo 0 ≠ 0) :
    RowsOK st (rowFlags n wraps (dispView n wraps d) s.origin) (dispView n wraps d) s := by
  have hheld : ∀ r ∈ st.coords, ∀ x, s.origin 0 ≤ x → x < s.endX → Held n wraps d (rowAt s r (x + r.1)) := by
    intro r hr x h1 h2
    rw [← cell_add]
    exact (hin x h1 h2).2.2 r hr
  have hrow0 : ∀ r : Rel, ∀ x, rowAt s (0, r.2) x = rowAt s r x := by
    intro r x
    funext k
    unfold rowAt relCrd
    split <;> rfl
  have hmid : ∀ r ∈ st.coords, ∀ x, s.origin 0 ≤ x → x < s.endX → Held n wraps d (rowAt s r x) := by
    intro r hr x h1 h2
    have := hheld _ (hst.row r hr) x h1 h2
    rwa [hrow0, add_zero] at this
  have hbox : ∀ k, 1 ≤ k → k ≤ n → wraps k = false → d.origin k ≤ s.origin k ∧ s.origin k < d.origin k + d.delegate.dim k := by
    intro k hk1 hk hw
    by_contra hcon
    refine (hin (s.origin 0) (le_refl _) hs).1 ⟨k, hk, hw, ?_⟩
    rw [upd_self]
    exact hcon
  have hflag : ∀ r ∈ st.coords, ∀ x, s.origin 0 ≤ x → x < s.endX →
      (Flagged (rowFlags n wraps (dispView n wraps d) s.origin) r ↔ DOutside n wraps d (rowAt s r x)) := by
    intro r hr x h1 h2
    have hy := hst.y r hr
    have hz := hst.z r hr
    unfold Flagged rowFlags dispView
    simp only [Bool.and_eq_true, decide_eq_true_eq, Bool.not_eq_true']
    constructor
    · rintro (⟨⟨⟨a, b⟩, c⟩, e⟩ | ⟨⟨⟨a, b⟩, c⟩, e⟩ | ⟨⟨⟨a, b⟩, c⟩, e⟩ | ⟨⟨⟨a, b⟩, c⟩, e⟩)
      · refine ⟨1, a, b, ?_⟩
        unfold rowAt relCrd
        simp only [one_ne_zero, if_false, if_true]
        omega
      · refine ⟨1, a, b, ?_⟩
        unfold rowAt relCrd
        simp only [one_ne_zero, if_false, if_true]
        omega
      · refine ⟨2, a, b, ?_⟩
        unfold rowAt relCrd
        simp only [OfNat.ofNat_ne_zero, OfNat.ofNat_ne_one, if_false, if_true]
        omega
      · refine ⟨2, a, b, ?_⟩
        unfold rowAt relCrd
        simp only [OfNat.ofNat_ne_zero, OfNat.ofNat_ne_one, if_false, if_true]
        omega
    · rintro ⟨k, hk, hw, hc⟩
      have hk3 : k = 0 ∨ k = 1 ∨ k = 2 := by omega
      rcases hk3 with rfl | rfl | rfl
      · exfalso
        refine (hin x h1 h2).1 ⟨0, hk, hw, ?_⟩
        simpa [rowAt, upd] using hc
      · have := hbox 1 (le_refl _) hk hw
        unfold rowAt relCrd at hc
        simp only [one_ne_zero, if_false, if_true] at hc
        by_cases h : r.2.1 = -1
        · exact Or.inl ⟨⟨⟨hk, hw⟩, by omega⟩, h⟩
        · exact Or.inr (Or.inl ⟨⟨⟨hk, hw⟩, by omega⟩, by omega⟩)
      · have := hbox 2 (by omega) hk hw
        unfold rowAt relCrd at hc
        simp only [OfNat.ofNat_ne_zero, OfNat.ofNat_ne_one, if_false, if_true] at hc
        by_cases h : r.2.2 = -1
        · exact Or.inr (Or.inr (Or.inr ⟨⟨⟨hk, hw⟩, by omega⟩, h⟩))
        · exact Or.inr (Or.inr (Or.inl ⟨⟨⟨hk, hw⟩, by omega⟩, by omega⟩))
  refine ⟨fun r hr => ?_, fun r hr c hc => ?_⟩
  · by_cases hf : Flagged (rowFlags n wraps (dispView n wraps d) s.origin) r
    · exact Or.inl ⟨hf, fun x h1 h2 => loc_outside hd ((hflag r hr x h1 h2).1 hf)⟩
    · refine Or.inr ⟨hf, ?_⟩
      have e : ∀ x, rowAt s r x = upd (fun k => s.origin k + relCrd r k) 0 x := by
        intro x
        funext k
        unfold rowAt upd
        rfl
      simp only [e]
      refine contiguous hn hd _ (s.origin 0) s.endX hs (fun x h1 h2 => ?_) hseam
      rw [← e]
      exact ⟨fun ho => hf ((hflag r hr x h1 h2).2 ho), hmid r hr x h1 h2⟩
  · rw [lineCoord_eq s r (hst.x r hr)] at hc
    have hh : Held n wraps d c := by
      cases hc
      rcases hst.x r hr with h | h | h
      · rw [if_pos h]
        have := hheld r hr (s.origin 0) (le_refl _) hs
        rwa [h] at this
      · rw [if_neg (by omega), if_pos h]
        exact hmid r hr _ (le_refl _) hs
      · rw [if_neg (by omega), if_neg (by omega)]
        have := hheld r hr (s.endX - 1) (by omega) (by omega)
        rwa [h, sub_add_cancel] at this
    by_cases ho : DOutside n wraps d c
    · exact ⟨.edge, by rw [loc_outside hd ho]; rfl⟩
    · obtain ⟨h1, h2, h3⟩ := loc_inside hn hd ho hh
      refine ⟨.cell (lin d.delegate.dim n 0 (dRel n wraps true d c)), ?_⟩
      rw [h1]
      simp only [addr]
      exact if_pos ⟨h2, h3⟩

theorem dOutside_congr {d : DGrid α} {a b : Crd} (h : ∀ k, k ≤ n → a k = b k) (ha : DOutside n wraps d a) : DOutside n wraps d b := by
  obtain ⟨k, h1, h2, h3⟩ := ha
  exact ⟨k, h1, h2, by rwa [← h k h1]⟩

theorem held_congr {d : DGrid α} {a b : Crd} (h : ∀ k, k ≤ n → a k = b k) (ha : Held n wraps d a) : Held n wraps d b := fun k hk hw => by
  rw [← h k hk]; exact ha k hk hw

/-- the coordinates visited by the loop over streaks are those of the region -/
theorem visited (region : Idx) (hr : RegOK n region) : ∃ ss, allStreaks n region (fun _ => 0) 0 = some ss ∧ (∀ s ∈ ss, s.origin 0 < s.endX) ∧
    (∀ c ∈ ss.flatMap coordsOf, RMem n region c) ∧
    (∀ c, RMem n region c → ∃ c' ∈ ss.flatMap coordsOf, ∀ k, k ≤ n → c' k = c k) ∧
    ((ss.flatMap coordsOf).map (Step.restrict n)).Nodup := by
  obtain ⟨ss, e, h1, h2⟩ := streaks_spec region hr (fun _ => 0)
  have hspec := Step.regCoords_spec n region hr
  have hcells : regionCells n region (fun _ => 0) = (Step.regCoords n region).map Step.ext := by
    unfold regionCells
    simp
  rw [hcells] at h2
  refine ⟨ss, e, h1, fun c hc => ?_, fun c hc => ?_, ?_⟩
  · obtain ⟨d, hd, hk⟩ := mem_restrict h2 hc
    obtain ⟨v, hv, rfl⟩ := List.mem_map.mp hd
    exact rmem_congr hr hk ((hspec.2 v).1 hv)
  · have hm : Step.restrict n c ∈ Step.regCoords n region := (hspec.2 _).2 (rmem_congr hr (fun k hk => (Step.ext_restrict n c k hk).symm) hc)
    have : Step.ext (Step.restrict n c) ∈ (Step.regCoords n region).map Step.ext := List.mem_map.mpr ⟨_, hm, rfl⟩
    obtain ⟨d, hd, hk⟩ := mem_restrict h2.symm this
    refine ⟨d, hd, fun k hkn => ?_⟩
    rw [hk k hkn, Step.ext_restrict n c k hkn]
  · rw [h2, List.map_map]
    have : (Step.restrict n) ∘ Step.ext = (id : Step.Vec n → Step.Vec n) := by
      funext v
      exact Step.restrict_ext v
    rw [this, List.map_id]
    exact Step.regCoords_nodup n region hr

theorem ready_disp (hn : n ≤ 2) {st : Stencil} (hst : StencilOK n st) (old new : DGrid α) (ho : DGridOK n wraps old)
    (hnew : DGridOK n wraps new) (srcOff tgtOff : Crd) (region : Idx) (hsrc : Covers n wraps old region srcOff st.coords)
    (htgt : Covers n wraps new region tgtOff []) (hdist : Distinct n wraps new region tgtOff)
    (hseam : NoSeam n wraps old region srcOff ∧ NoSeam n wraps new region tgtOff) (ss : List Streak) (h1 : ∀ s ∈ ss, s.origin 0 < s.endX)
    (h2 : ∀ c ∈ ss.flatMap coordsOf, RMem n region c) (h4 : ((ss.flatMap coordsOf).map (Step.restrict n)).Nodup) :
    Ready n wraps st (dispView n wraps old) (dispView n wraps new).loc new.delegate srcOff tgtOff ss
      (fun c => lin new.delegate.dim n 0 (dRel n wraps true new fun k => c k + tgtOff k)) := by
  have hmemS : ∀ s ∈ ss, ∀ x, s.origin 0 ≤ x → x < s.endX → RMem n region (upd s.origin 0 x) := fun s hs x a b =>
    h2 _ (List.mem_flatMap.mpr ⟨s, hs, coordsOf_cells s x a b⟩)
  have hT : ∀ c, RMem n region c → (dispView n wraps new).loc (fun k => c k + tgtOff k) =
      some (lin new.delegate.dim n 0 (dRel n wraps true new fun k => c k + tgtOff k)) ∧ 0 ≤ lin new.delegate.dim n 0 (dRel n wraps true new fun k => c k + tgtOff k) ∧
      lin new.delegate.dim n 0 (dRel n wraps true new fun k => c k + tgtOff k) < new.delegate.cells.length :=
    fun c hc => loc_inside hn hnew (htgt c hc).1 (htgt c hc).2.1
  have hseamS : ∀ (d : DGrid α) (off : Crd), NoSeam n wraps d region off → ∀ s ∈ ss, wraps 0 = true → ∀ x, s.origin 0 ≤ x → x + 1 < s.endX →
      (x + off 0 + 1 - d.origin 0) % d.topo 0 ≠ 0 := by
    intro d off h s hs hw x a b
    have := h hw _ (hmemS s hs x a (by omega)) (by
      rw [upd_upd]
      simp only [upd, if_true]
      have := hmemS s hs (x + 1) (by omega) b
      exact this)
    simp only [upd, if_true] at this
    rwa [show x + off 0 + 1 = x + 1 + off 0 by ring]
  refine ⟨h1,
    (by
        intro h0 s hs
        refine ⟨?_, ?_⟩
        · subst h0
          refine rows_disp hn hst ho s (h1 s hs) (fun x a b => ?_) ?_
          · have := hsrc _ (hmemS s hs x a b)
            simpa only [add_zero] using this
          · have := hseamS old _ hseam.1 s hs
            simpa only [add_zero] using this
        · have hn0 := h1 s hs
          obtain ⟨i, hi⟩ := contiguous hn hnew (fun k => s.origin k + tgtOff k) (s.origin 0 + tgtOff 0) (s.endX + tgtOff 0) (by omega) (fun x a b => by
            have := htgt _ (hmemS s hs (x - tgtOff 0) (by omega) (by omega))
            rw [upd_add, sub_add_cancel] at this
            exact ⟨this.1, this.2.1⟩) (fun hw x a b => by
            have := hseamS new _ hseam.2 s hs hw (x - tgtOff 0) (by omega) (by omega)
            rwa [sub_add_cancel] at this)
          refine ⟨i, fun j hj1 hj2 => ?_⟩
          have := hi (s.origin 0 + tgtOff 0 + j) (by omega) (by omega)
          rwa [show s.origin 0 + tgtOff 0 + j - (s.origin 0 + tgtOff 0) = j by ring] at this),
    (fun c hc r hrr => by
      obtain ⟨a1, a2, a3⟩ := hsrc c (h2 c hc)
      refine ⟨nb_eq hn hst ho a1 a2 hrr (a3 r hrr), ?_⟩
      rw [rd_disp]
      exact read_some hn ho.delegate (dRel_onePeriod ho (a3 r hrr))),
    fun c hc => hT c (h2 c hc),
    (by
      rw [List.Nodup, List.pairwise_map] at h4 ⊢
      refine h4.imp_of_mem fun {a b} ha hb' hne heq => hne ?_
      have ma := h2 a ha
      have mb := h2 b hb'
      have hl : topoLocate n wraps (dRel n wraps true new fun k => a k + tgtOff k) new.delegate.dim = topoLocate n wraps (dRel n wraps true new fun k => b k + tgtOff k) new.delegate.dim :=
        (hT a ma).1.trans ((congrArg some heq).trans (hT b mb).1.symm)
      have hs := (same_locate hn hnew.delegate.pos (dRel_onePeriod hnew (htgt a ma).2.1) (dRel_onePeriod hnew (htgt b mb).2.1)).2 hl
      have := hdist a b ma mb ((dSame_iff hnew (htgt a ma).2.1 (htgt b mb).2.1).1 hs)
      funext k
      exact this k (by omega))⟩

/-- **C34, `DisplacedGrid`.** Both paths, for any region covered by source and target: each cell is updated with the neighbors which `get` delivers in the source grid, all other cells keep their content. -/
theorem update_displaced_partial (hn : n ≤ 2) {st : Stencil} (hst : StencilOK n st) (upd' : Nat → α → List α → α) (nano : Nat) (old new : DGrid α) (ho : DGridOK n wraps old)
    (hnew : DGridOK n wraps new) (srcOff tgtOff : Crd) (region : Idx) (hr : RegOK n region) (hsrc : Covers n wraps old region srcOff st.coords)
    (htgt : Covers n wraps new region tgtOff []) (hdist : Distinct n wraps new region tgtOff)
    (hseam : NoSeam n wraps old region srcOff ∧ NoSeam n wraps new region tgtOff) :
    ∃ g', (∀ body, IsPath n wraps st upd' nano srcOff tgtOff (dispView n wraps old) (dispView n wraps new).loc body → updateRegion n body region new.delegate = some g') ∧ DGridOK n wraps { new with delegate := g' } ∧ g'.dim = new.delegate.dim ∧
      (∀ c, RMem n region c → ∃ self hood, dRead n wraps true new (fun k => c k + tgtOff k) = some self ∧
        hood.map some = st.coords.map (fun r => dRead n wraps true old (fun k => c k + srcOff k + relCrd r k)) ∧
        dRead n wraps true { new with delegate := g' } (fun k => c k + tgtOff k) = some (upd' nano self hood)) ∧
      (∀ c', Held n wraps new c' → (∀ c, RMem n region c → ¬ DSame n wraps new (fun k => c k + tgtOff k) c') →
        dRead n wraps true { new with delegate := g' } c' = dRead n wraps true new c') := by
  obtain ⟨ss, e, h1, h2, h3, h4⟩ := visited region hr
  have hT : ∀ c, RMem n region c → (dispView n wraps new).loc (fun k => c k + tgtOff k) =
      some (lin new.delegate.dim n 0 (dRel n wraps true new fun k => c k + tgtOff k)) ∧ 0 ≤ lin new.delegate.dim n 0 (dRel n wraps true new fun k => c k + tgtOff k) ∧
      lin new.delegate.dim n 0 (dRel n wraps true new fun k => c k + tgtOff k) < new.delegate.cells.length :=
    fun c hc => loc_inside hn hnew (htgt c hc).1 (htgt c hc).2.1
  have hready := ready_disp hn hst old new ho hnew srcOff tgtOff region hsrc htgt hdist hseam ss h1 h2 h4
  obtain ⟨g', e1, e2, e3, e4, e5, e6⟩ := update_view (wraps := wraps) hst upd' nano (dispView n wraps old) (dispView n wraps new).loc new.delegate srcOff tgtOff region ss e h1
    hready.line hready.src _ hready.tgt hready.dist
  have hsize : GridOK n g' := ⟨by rw [e2]; exact hnew.delegate.pos, by rw [e2, e4]; exact hnew.delegate.size⟩
  have hlook : ∀ (g : Grid α) c i, g.dim = new.delegate.dim → (dispView n wraps new).loc c = some i → 0 ≤ i →
      dRead n wraps true { new with delegate := g } c = g.cells[i.toNat]? := by
    intro g c i hg hl h0
    unfold dRead gridRead
    have : topoLocate n wraps (dRel n wraps true { new with delegate := g } c) g.dim = some i := by rw [hg]; exact hl
    simp only
    rw [this]
    simp only
    rw [if_pos h0]
  refine ⟨g', e1, ⟨hsize, by simpa only [e2] using hnew.fits, hnew.origin⟩, e2, fun c hc => ?_, fun c' hc' hne => ?_⟩
  · obtain ⟨c0, hc0, hk⟩ := h3 c hc
    obtain ⟨hood, b1, b2⟩ := e5 c0 hc0
    obtain ⟨self, hself⟩ := read_some hn hnew.delegate (dRel_onePeriod hnew (htgt c hc).2.1)
    have hT0 := hT c0 (h2 c0 hc0)
    have ec : (dispView n wraps new).loc (fun k => c k + tgtOff k) = (dispView n wraps new).loc (fun k => c0 k + tgtOff k) := by
      refine locate_congr hn fun k hkn => dRel_congr (fun k hk' => ?_) k hkn
      rw [hk k hk']
    have r1 := hlook new.delegate (fun k => c k + tgtOff k) _ rfl (ec.trans hT0.1) hT0.2.1
    have r2 := hlook g' (fun k => c k + tgtOff k) _ e2 (ec.trans hT0.1) hT0.2.1
    have hself' : dRead n wraps true new (fun k => c k + tgtOff k) = some self := hself
    refine ⟨self, hood, hself', ?_, ?_⟩
    · rw [b1]
      refine List.map_congr_left fun r hr' => ?_
      rw [rd_disp]
      unfold dRead
      refine read_congr hn _ fun k hkn => dRel_congr (fun k hk' => ?_) k hkn
      rw [hk k hk']
    · rw [r2, b2, ← r1, hself']
      rfl
  · by_cases hout : DOutside n wraps new c'
    · have hl : topoLocate n wraps (dRel n wraps true new c') new.delegate.dim = none := loc_outside hnew hout
      unfold dRead gridRead
      have h' : topoLocate n wraps (dRel n wraps true { new with delegate := g' } c') g'.dim = none := by rw [e2]; exact hl
      simp only
      rw [h', hl]
      simp only
      rw [e3]
    · obtain ⟨l1, l2, l3⟩ := loc_inside hn hnew hout hc'
      rw [hlook g' c' _ e2 l1 l2]
      have := hlook new.delegate c' _ rfl l1 l2
      rw [show ({ new with delegate := new.delegate } : DGrid α) = new from rfl] at this
      rw [this]
      refine e6 _ fun c hc heq => ?_
      have mc := h2 c hc
      have hTc := hT c mc
      refine hne c mc ((dSame_iff hnew (htgt c mc).2.1 hc').1 ((same_locate hn hnew.delegate.pos (dRel_onePeriod hnew (htgt c mc).2.1) (dRel_onePeriod hnew hc')).2 ?_))
      have ei : lin new.delegate.dim n 0 (dRel n wraps true new fun k => c k + tgtOff k) = lin new.delegate.dim n 0 (dRel n wraps true new c') := by
        have := hTc.2.1
        omega
      exact hTc.1.trans ((congrArg some ei).trans l1.symm)

/-! ## `Grid` -/

/-- a `Grid` as a displaced grid -/
def embed (g : Grid α) : DGrid α := ⟨g, fun _ => 0, g.dim⟩

theorem embed_ok {g : Grid α} (hg : GridOK n g) : DGridOK n wraps (embed g) :=
  ⟨hg, fun _ _ => le_refl _, fun k hk _ => by have := hg.pos k hk; simp only [embed]; omega⟩

theorem embed_held {g : Grid α} (hg : GridOK n g) {c : Crd} (h : OnePeriod n wraps g.dim c) : Held n wraps (embed g) c := fun k hk hw => by
  have := h k hk hw
  have hp := hg.pos k hk
  simp only [embed, sub_zero]
  exact ⟨Int.emod_lt_of_pos _ hp, this⟩

theorem embed_outside {g : Grid α} {c : Crd} : DOutside n wraps (embed g) c ↔ Outside n wraps g.dim c := by
  unfold DOutside Outside embed
  simp only [zero_add]

theorem embed_loc (hn : n ≤ 2) {g : Grid α} (hg : GridOK n g) {c : Crd} (h : OnePeriod n wraps g.dim c) :
    (dispView n wraps (embed g)).loc c = (gridView n wraps g).loc c := by
  have hd := embed_ok (wraps := wraps) hg
  have hh := embed_held hg h
  by_cases ho : DOutside n wraps (embed g) c
  · rw [loc_outside hd ho]
    unfold gridView topoLocate
    simp only
    rw [if_pos ((outOfBounds_iff n wraps _ _).2 (embed_outside.1 ho))]
  · obtain ⟨h1, h2⟩ := dRel_inside hd ho hh
    refine (same_locate hn hg.pos (onePeriod_of_inDim h1) h).1 (Or.inr ⟨not_outside_of_inDim h1, fun h' => ho (embed_outside.2 h'), fun k hk => ?_⟩)
    have e : dRel n wraps true (embed g) c k = c k % g.dim k := by
      rw [h2 k hk]
      simp only [embed, sub_zero]
    cases hw : wraps k with
    | true =>
      simp only [if_true]
      rw [e, Int.emod_emod_of_dvd _ (dvd_refl _)]
    | false =>
      simp only [Bool.false_eq_true, if_false]
      rw [e]
      have : 0 ≤ c k ∧ c k < g.dim k := by
        by_contra hcon
        exact ho (embed_outside.2 ⟨k, hk, hw, hcon⟩)
      exact Int.emod_eq_of_lt this.1 this.2

theorem rd_grid (g : Grid α) (c : Crd) : rd (gridView n wraps g) c = gridRead n wraps g c := by
  unfold rd gridRead gridView
  simp only
  cases topoLocate n wraps c g.dim with
  | none => rfl
  | some i =>
    simp only [addr]
    by_cases h : 0 ≤ i
    · rw [if_pos h]
      by_cases h2 : i < g.cells.length
      · rw [if_pos ⟨h, h2⟩]
        simp only [Option.bind_some, load, add_zero]
        rw [if_pos h]
      · rw [if_neg (fun hh => h2 hh.2), List.getElem?_eq_none (by omega)]
        rfl
    · rw [if_neg (fun hh => h hh.1), if_neg h]
      rfl

theorem near_onePeriod {st : Stencil} (hst : StencilOK n st) {g : Grid α} (hg : GridOK n g) {c : Crd} (hc : InDim n g.dim c) {r : Rel} (hr : r ∈ st.coords) :
    OnePeriod n wraps g.dim (fun k => c k + relCrd r k) := fun k hk _ => by
  have := hc k hk
  have := relCrd_range hst hr k
  have := hg.pos k hk
  simp only
  omega

theorem rows_grid (hn : n ≤ 2) {st : Stencil} (hst : StencilOK n st) {g : Grid α} (hg : GridOK n g) (s : Streak) (hs : s.origin 0 < s.endX)
    (hin : ∀ x, s.origin 0 ≤ x → x < s.endX → InDim n g.dim (upd s.origin 0 x)) :
    RowsOK st (rowFlags n wraps (gridView n wraps g) s.origin) (gridView n wraps g) s := by
  have h := rows_disp (wraps := wraps) hn hst (embed_ok hg) s hs (fun x a b =>
    ⟨fun ho => not_outside_of_inDim (hin x a b) (embed_outside.1 ho), embed_held hg (onePeriod_of_inDim (hin x a b)),
      fun r hr => embed_held hg (near_onePeriod hst hg (hin x a b) hr)⟩) (fun hw x a b => by
    have h1 := hin x a (by omega) 0 (by omega)
    have h2 := hin (x + 1) (by omega) b 0 (by omega)
    simp only [upd, if_true] at h1 h2
    simp only [embed, sub_zero]
    rw [Int.emod_eq_of_lt h2.1 h2.2]
    omega)
  have hrow : ∀ r ∈ st.coords, ∀ x y, s.origin 0 ≤ x → x < s.endX → x - 1 ≤ y → y ≤ x + 1 → OnePeriod n wraps g.dim (rowAt s r y) := by
    intro r hr x y a b c e k hk hw
    have h1 := hin x a b k hk
    have h2 := relCrd_range hst hr k
    have h3 := hg.pos k hk
    unfold rowAt
    unfold upd at h1
    split
    · rename_i h0
      subst h0
      simp only [if_true] at h1
      omega
    · rename_i h0
      rw [if_neg h0] at h1
      omega
  refine ⟨fun r hr => ?_, fun r hr c hc => ?_⟩
  · rcases h.row r hr with ⟨a, b⟩ | ⟨a, i, b⟩
    · refine Or.inl ⟨a, fun x h1 h2 => ?_⟩
      rw [← embed_loc hn hg (hrow r hr x x h1 h2 (by omega) (by omega))]
      exact b x h1 h2
    · refine Or.inr ⟨a, i, fun x h1 h2 => ?_⟩
      rw [← embed_loc hn hg (hrow r hr x x h1 h2 (by omega) (by omega))]
      exact b x h1 h2
  · have := h.ends r hr c hc
    rw [lineCoord_eq s r (hst.x r hr)] at hc
    cases hc
    rw [← embed_loc hn hg]
    · exact this
    · split
      · exact hrow r hr (s.origin 0) _ (le_refl _) hs (by omega) (by omega)
      · split
        · exact hrow r hr (s.origin 0) _ (le_refl _) hs (by omega) (by omega)
        · exact hrow r hr (s.endX - 1) _ (by omega) (by omega) (by omega) (by omega)

theorem ready_grid (hn : n ≤ 2) {st : Stencil} (hst : StencilOK n st) (old new : Grid α) (ho : GridOK n old)
    (hnew : GridOK n new) (srcOff tgtOff : Crd) (region : Idx) (hsrc : ∀ c, RMem n region c → InDim n old.dim (fun k => c k + srcOff k))
    (htgt : ∀ c, RMem n region c → InDim n new.dim (fun k => c k + tgtOff k)) (ss : List Streak) (h1 : ∀ s ∈ ss, s.origin 0 < s.endX)
    (h2 : ∀ c ∈ ss.flatMap coordsOf, RMem n region c) (h4 : ((ss.flatMap coordsOf).map (Step.restrict n)).Nodup) :
    Ready n wraps st (gridView n wraps old) (gridView n wraps new).loc new srcOff tgtOff ss (fun c => lin new.dim n 0 fun k => c k + tgtOff k) := by
  have hmemS : ∀ s ∈ ss, ∀ x, s.origin 0 ≤ x → x < s.endX → RMem n region (upd s.origin 0 x) := fun s hs x a b =>
    h2 _ (List.mem_flatMap.mpr ⟨s, hs, coordsOf_cells s x a b⟩)
  have hT : ∀ c, RMem n region c → (gridView n wraps new).loc (fun k => c k + tgtOff k) = some (lin new.dim n 0 fun k => c k + tgtOff k) ∧
      0 ≤ lin new.dim n 0 (fun k => c k + tgtOff k) ∧ lin new.dim n 0 (fun k => c k + tgtOff k) < new.cells.length := fun c hc => by
    have e := locate_inDim (wraps := wraps) hn (htgt c hc)
    exact ⟨e, locate_range hn hnew (onePeriod_of_inDim (htgt c hc)) _ e⟩
  refine ⟨h1,
    (by
        intro h0 s hs
        refine ⟨?_, lin new.dim n 0 (fun k => s.origin k + tgtOff k), fun j hj1 hj2 => ?_⟩
        · subst h0
          refine rows_grid hn hst ho s (h1 s hs) (fun x a b => ?_)
          have := hsrc _ (hmemS s hs x a b)
          simpa only [add_zero] using this
        · have := hT _ (hmemS s hs (s.origin 0 + j) (by omega) (by omega))
          rw [upd_add, lin_upd, show s.origin 0 + j + tgtOff 0 = s.origin 0 + tgtOff 0 + j by ring] at this
          simp only [add_sub_cancel_left] at this
          exact this),
    (fun c hc r hrr => by
      refine ⟨rfl, ?_⟩
      rw [rd_grid]
      exact read_some hn ho (near_onePeriod hst ho (hsrc c (h2 c hc)) hrr)),
    fun c hc => hT c (h2 c hc),
    (by
      rw [List.Nodup, List.pairwise_map] at h4 ⊢
      refine h4.imp_of_mem fun {a b} ha hb' hne heq => hne ?_
      have ma := h2 a ha
      have mb := h2 b hb'
      have hl : topoLocate n wraps (fun k => a k + tgtOff k) new.dim = topoLocate n wraps (fun k => b k + tgtOff k) new.dim :=
        (hT a ma).1.trans ((congrArg some heq).trans (hT b mb).1.symm)
      have hs := (same_locate hn hnew.pos (onePeriod_of_inDim (htgt a ma)) (onePeriod_of_inDim (htgt b mb))).2 hl
      rw [same_inDim (htgt a ma) (htgt b mb)] at hs
      funext k
      have := hs k (by omega)
      unfold Step.restrict
      omega)⟩

/-- **C34, `Grid`.** Both paths, for any region which is inside of source and target grid (after displacement): each cell of the region is updated with the neighbors which `get` delivers in the
source grid (wrapped around on periodic axes, the edge cell behind constant boundaries), and nothing else changes. -/
theorem update_grid_partial (hn : n ≤ 2) {st : Stencil} (hst : StencilOK n st) (upd' : Nat → α → List α → α) (nano : Nat) (old new : Grid α) (ho : GridOK n old)
    (hnew : GridOK n new) (srcOff tgtOff : Crd) (region : Idx) (hr : RegOK n region) (hsrc : ∀ c, RMem n region c → InDim n old.dim (fun k => c k + srcOff k))
    (htgt : ∀ c, RMem n region c → InDim n new.dim (fun k => c k + tgtOff k)) :
    ∃ g', (∀ body, IsPath n wraps st upd' nano srcOff tgtOff (gridView n wraps old) (gridView n wraps new).loc body → updateRegion n body region new = some g') ∧ GridOK n g' ∧ g'.dim = new.dim ∧
      (∀ c, RMem n region c → ∃ self hood, gridRead n wraps new (fun k => c k + tgtOff k) = some self ∧
        hood.map some = st.coords.map (fun r => gridRead n wraps old (fun k => c k + srcOff k + relCrd r k)) ∧
        gridRead n wraps g' (fun k => c k + tgtOff k) = some (upd' nano self hood)) ∧
      (∀ c', OnePeriod n wraps new.dim c' → (∀ c, RMem n region c → ¬ Same n wraps new.dim (fun k => c k + tgtOff k) c') →
        gridRead n wraps g' c' = gridRead n wraps new c') := by
  obtain ⟨ss, e, h1, h2, h3, h4⟩ := visited region hr
  have hT : ∀ c, RMem n region c → (gridView n wraps new).loc (fun k => c k + tgtOff k) = some (lin new.dim n 0 fun k => c k + tgtOff k) ∧
      0 ≤ lin new.dim n 0 (fun k => c k + tgtOff k) ∧ lin new.dim n 0 (fun k => c k + tgtOff k) < new.cells.length := fun c hc => by
    have e := locate_inDim (wraps := wraps) hn (htgt c hc)
    exact ⟨e, locate_range hn hnew (onePeriod_of_inDim (htgt c hc)) _ e⟩
  have hready := ready_grid (wraps := wraps) hn hst old new ho hnew srcOff tgtOff region hsrc htgt ss h1 h2 h4
  obtain ⟨g', e1, e2, e3, e4, e5, e6⟩ := update_view (wraps := wraps) hst upd' nano (gridView n wraps old) (gridView n wraps new).loc new srcOff tgtOff region ss e h1
    hready.line hready.src _ hready.tgt hready.dist
  have hlook : ∀ (g : Grid α) c i, g.dim = new.dim → (gridView n wraps new).loc c = some i → 0 ≤ i → gridRead n wraps g c = g.cells[i.toNat]? := by
    intro g c i hg hl h0
    unfold gridRead
    have : topoLocate n wraps c g.dim = some i := by rw [hg]; exact hl
    rw [this]
    simp only
    rw [if_pos h0]
  refine ⟨g', e1, ⟨by rw [e2]; exact hnew.pos, by rw [e2, e4]; exact hnew.size⟩, e2, fun c hc => ?_, fun c' hc' hne => ?_⟩
  · obtain ⟨c0, hc0, hk⟩ := h3 c hc
    obtain ⟨hood, b1, b2⟩ := e5 c0 hc0
    obtain ⟨self, hself⟩ := read_some (wraps := wraps) hn hnew (onePeriod_of_inDim (htgt c hc))
    have hT0 := hT c0 (h2 c0 hc0)
    have ec : (gridView n wraps new).loc (fun k => c k + tgtOff k) = (gridView n wraps new).loc (fun k => c0 k + tgtOff k) := by
      refine locate_congr hn fun k hkn => ?_
      rw [hk k hkn]
    have r1 := hlook new (fun k => c k + tgtOff k) _ rfl (ec.trans hT0.1) hT0.2.1
    have r2 := hlook g' (fun k => c k + tgtOff k) _ e2 (ec.trans hT0.1) hT0.2.1
    refine ⟨self, hood, hself, ?_, ?_⟩
    · rw [b1]
      refine List.map_congr_left fun r hr' => ?_
      rw [rd_grid]
      refine read_congr hn _ fun k hkn => ?_
      rw [hk k hkn]
    · rw [r2, b2, ← r1, hself]
      rfl
  · cases hl : topoLocate n wraps c' new.dim with
    | none =>
      unfold gridRead
      rw [e2, hl]
      simp only
      rw [e3]
    | some i =>
      have hi := locate_range hn hnew hc' i hl
      rw [hlook g' c' i e2 hl hi.1, hlook new c' i rfl hl hi.1]
      refine e6 _ fun c hc heq => ?_
      have mc := h2 c hc
      have hTc := hT c mc
      refine hne c mc ((same_locate hn hnew.pos (onePeriod_of_inDim (htgt c mc)) hc').2 ?_)
      have ei : lin new.dim n 0 (fun k => c k + tgtOff k) = i := by
        have := hTc.2.1
        omega
      rw [hl, ← ei]
      exact hTc.1

/-- the six stencils of radius 1 -/
theorem stencils (hn : n ≤ 2) : StencilOK n (moore n) ∧ StencilOK n (vonNeumann n) := stencils_ok n hn

/-! ## the line pointer path ignores the source offset -/

/-- four cells in a row -/
def strip : Grid Int := ⟨fun _ => 4, [10, 11, 12, 13], -1⟩

/-- the first cell of a row -/
def first : Idx := fun k => if k = 0 then [(0, 1)] else []

theorem first_ok : RegOK 0 first ∧ ∀ c, RMem 0 first c ↔ c 0 = 0 := by
  obtain ⟨h1, h2⟩ := regLit 0 [⟨fun _ => 0, 1⟩] first (by decide +kernel)
  refine ⟨h1, fun c => ?_⟩
  rw [h2]
  simp only [U, List.mem_cons, List.not_mem_nil, or_false, exists_eq_left, SMem]
  constructor
  · rintro ⟨_, a, b⟩; omega
  · intro h; exact ⟨fun k a b => by omega, by omega, by omega⟩

/-- **C34, deviation.** With a source offset, the line pointer path updates a cell with the neighbors of the cell without offset, the vanilla path with the neighbors which `get` delivers. -/
theorem source_offset_negation :
    ∃ (old new : Grid Int) (region : Idx) (srcOff : Crd) (upd' : Nat → Int → List Int → Int), GridOK 0 old ∧ GridOK 0 new ∧ RegOK 0 region ∧
      (∀ c, RMem 0 region c → InDim 0 old.dim (fun k => c k + srcOff k) ∧ InDim 0 new.dim c) ∧
      (moore 0).coords.map (fun r => gridRead 0 (fun _ => false) old (fun k => 0 + srcOff k + relCrd r k)) = [some 10, some 11, some 12] ∧
      (updateRegion 0 (vanStreak (moore 0) upd' 0 srcOff (fun _ => 0) (gridView 0 (fun _ => false) old) (gridView 0 (fun _ => false) new).loc) region new).map (fun g => g.cells) =
        some [11, 0, 0, 0] ∧
      (updateRegion 0 (lineStreak 0 (fun _ => false) (moore 0) upd' 0 srcOff (fun _ => 0) (gridView 0 (fun _ => false) old) (gridView 0 (fun _ => false) new).loc) region new).map
        (fun g => g.cells) = some [10, 0, 0, 0] := by
  refine ⟨strip, { strip with cells := [0, 0, 0, 0] }, first, fun _ => 1, fun _ _ hood => hood.getD 1 0, ⟨fun _ _ => by simp [strip], by decide⟩, ⟨fun _ _ => by simp [strip], by decide⟩,
    first_ok.1, fun c hc => ?_, by decide +kernel, by decide +kernel, by decide +kernel⟩
  have h0 := (first_ok.2 c).1 hc
  constructor
  · intro k hk
    obtain rfl : k = 0 := by omega
    simp only [strip]
    omega
  · intro k hk
    obtain rfl : k = 0 := by omega
    simp only [strip]
    omega

/-! ## examples -/

/-- a grid of 4 x 3 cells -/
def sheet : Grid Int := ⟨fun k => if k = 0 then 4 else 3, [0, 1, 2, 3, 10, 11, 12, 13, 20, 21, 22, 23], -1⟩

/-- the whole first row, and two cells of the last row -/
def patch : Idx := fun k => if k = 0 then [(0, 4), (1, 3)] else if k = 1 then [(0, 0), (2, 1)] else []

theorem patch_ok : RegOK 1 patch ∧ ∀ c, RMem 1 patch c → InDim 1 sheet.dim c := by
  obtain ⟨h1, h2⟩ := regLit 1 [⟨fun _ => 0, 4⟩, ⟨fun k => if k = 0 then 1 else 2, 3⟩] patch (by decide +kernel)
  refine ⟨h1, fun c hc k hk => ?_⟩
  rw [h2] at hc
  simp only [U, List.mem_cons, List.not_mem_nil, or_false, exists_eq_or_imp, exists_eq_left, SMem] at hc
  have hk2 : k = 0 ∨ k = 1 := by omega
  rcases hc with ⟨a, b, c⟩ | ⟨a, b, c⟩ <;> have a := a 1 (le_refl _) (le_refl _) <;> rcases hk2 with rfl | rfl <;> simp [sheet] at * <;> omega

/-- both paths, x axis periodic, y axis constant: every updated cell collects its five neighbors -/
example : GridOK 1 sheet ∧ RegOK 1 patch ∧ (∀ c, RMem 1 patch c → InDim 1 sheet.dim (fun k => c k + 0)) ∧
    (updateRegion 1 (lineStreak 1 (fun k => decide (k = 0)) (vonNeumann 1) (fun _ self hood => hood.foldl (fun a b => 100 * a + b) self) 0 (fun _ => 0) (fun _ => 0)
      (gridView 1 (fun k => decide (k = 0)) sheet) (gridView 1 (fun k => decide (k = 0)) { sheet with cells := List.replicate 12 0 }).loc) patch
      { sheet with cells := List.replicate 12 0 }).map (fun g => g.cells) =
      some [-96999890, -99989789, -98979688, -97969987, 0, 0, 0, 0, 0, 1120212199, 1221222299, 0] := by
  refine ⟨⟨fun k hk => by simp only [sheet]; split <;> omega, by decide⟩, patch_ok.1, fun c hc => by simpa using patch_ok.2 c hc, by decide +kernel⟩

/-- a displaced grid with the cells 8, 9, 0, 1, 2 of a ring of ten; the cells 9, 0 and 1 may be updated -/
example : ∃ (d : DGrid Int) (r : Idx), DGridOK 0 (fun _ => true) d ∧ RegOK 0 r ∧ Covers 0 (fun _ => true) d r (fun _ => 0) (moore 0).coords ∧ Covers 0 (fun _ => true) d r (fun _ => 0) [] ∧
    Distinct 0 (fun _ => true) d r (fun _ => 0) ∧ NoSeam 0 (fun _ => true) d r (fun _ => 0) ∧
    (updateRegion 0 (lineStreak 0 (fun _ => true) (moore 0) (fun _ self hood => hood.foldl (fun a b => 100 * a + b) self) 0 (fun _ => 0) (fun _ => 0)
      (dispView 0 (fun _ => true) d) (dispView 0 (fun _ => true) { d with delegate := { d.delegate with cells := List.replicate 5 0 } }).loc) r
      { d.delegate with cells := List.replicate 5 0 }).map (fun g => g.cells) = some [0, 181910, 191011, 101112, 0] := by
  obtain ⟨h1, h2⟩ := regLit 0 [⟨fun _ => 0, 2⟩, ⟨fun _ => 9, 10⟩] (fun k => if k = 0 then [(0, 2), (9, 10)] else []) (by decide +kernel)
  have hm : ∀ c, RMem 0 (fun k => if k = 0 then [(0, 2), (9, 10)] else []) c → c 0 = 0 ∨ c 0 = 1 ∨ c 0 = 9 := by
    intro c hc
    rw [h2] at hc
    simp only [U, List.mem_cons, List.not_mem_nil, or_false, exists_eq_or_imp, exists_eq_left, SMem] at hc
    omega
  have hcov : Covers 0 (fun _ => true) (⟨⟨fun _ => 5, [18, 19, 10, 11, 12], -1⟩, fun _ => 8, fun _ => 10⟩ : DGrid Int) (fun k => if k = 0 then [(0, 2), (9, 10)] else []) (fun _ => 0)
      (moore 0).coords := by
    intro c hc
    have := hm c hc
    refine ⟨fun ⟨k, _, h, _⟩ => (by cases h), fun k hk _ => ?_, fun r hr k hk _ => ?_⟩
    · obtain rfl : k = 0 := by omega
      simp only
      omega
    · obtain rfl : k = 0 := by omega
      have hr' : relCrd r 0 = -1 ∨ relCrd r 0 = 0 ∨ relCrd r 0 = 1 := by
        simp [moore] at hr
        rcases hr with rfl | rfl | rfl <;> simp [relCrd]
      simp only
      omega
  refine ⟨⟨⟨fun _ => 5, [18, 19, 10, 11, 12], -1⟩, fun _ => 8, fun _ => 10⟩, fun k => if k = 0 then [(0, 2), (9, 10)] else [], ⟨⟨fun _ _ => by simp, by decide⟩, fun _ _ => by simp,
    fun _ _ _ => by simp⟩, h1, hcov, fun c hc => ⟨(hcov c hc).1, (hcov c hc).2.1, fun r hr => by simp at hr⟩, ?_, ?_, by decide +kernel⟩
  · intro a b ha hb hs k hk
    obtain rfl : k = 0 := by omega
    have h3 := hm a ha
    have h4 := hm b hb
    rcases hs with ⟨⟨_, _, h, _⟩, _⟩ | ⟨_, _, h⟩
    · cases h
    · have := h 0 (le_refl _)
      simp only [if_true] at this
      omega
  · intro _ c hc _
    have := hm c hc
    simp only
    omega

end LGD.C34
