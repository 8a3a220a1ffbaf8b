import Verif.Props.C33

/-!
# C33 for `DisplacedGrid`
-/

namespace LGD.C33
open LGD.C13 LGD.C14 LGD.Store LGD.Step

variable {α : Type} {n : Nat} {wraps : Nat → Bool}

/-! ## without topological correctness: a shifted `Grid` -/

/-- **C33, `DisplacedGrid<…, false>`.** All accessors are those of a `Grid`, at coordinates relative to the origin. -/
theorem displaced_plain (hn : n ≤ 2) (d : DGrid α) (c : Crd) (v : α) :
    dRead n wraps false d c = gridRead n wraps d.delegate (fun k => c k - d.origin k) ∧
      dWrite n wraps false d c v = (gridWrite n wraps d.delegate (fun k => c k - d.origin k) v).map (fun g => { d with delegate := g }) ∧
      (∀ s : Streak, GridOK n d.delegate → s.origin 0 ≤ s.endX → (∀ c ∈ coordsOf s, OnePeriod n wraps d.delegate.dim (fun k => c k - d.origin k)) →
        ∃ l, dGetStreak n wraps d s = some l ∧ l.map some = (coordsOf s).map (dRead n wraps false d)) ∧
      (∀ (b : List α) (r : Idx) (off : Crd), RegOK n r → dSave n wraps false d b r off = gridSave n wraps d.delegate b r (fun k => off k - d.origin k)) ∧
      (∀ (b : List α) (r : Idx) (off : Crd), RegOK n r →
        dLoad n wraps false d b r off = (gridLoad n wraps d.delegate b r (fun k => off k - d.origin k)).map (fun g => { d with delegate := g })) := by
  have hloop : ∀ (r : Idx) (off : Crd) fuel it, normLoop n wraps false d.topo r off fuel it = streakLoop n r off 0 fuel it := by
    intro r off fuel
    induction fuel with
    | zero => intro it; rfl
    | succ fuel ih =>
      intro it
      rw [normLoop, streakLoop]
      split
      · rfl
      · cases siNext n r off 0 it with
        | none => rfl
        | some it' =>
          simp only [Option.bind_some, Option.bind_eq_bind]
          rw [show normStreak n wraps false d.topo it'.streak = it'.streak from rfl, ih it']
          cases streakLoop n r off 0 fuel it' <;> rfl
  have hstreaks : ∀ (r : Idx) (off : Crd), normStreaks n wraps false d.topo r off = allStreaks n r off 0 := by
    intro r off
    unfold normStreaks allStreaks
    congr 1
    funext it
    rw [show normStreak n wraps false d.topo it.streak = it.streak from rfl, hloop]
  refine ⟨rfl, rfl, ?_, ?_, ?_⟩
  · intro s hg hs hc
    have e : ∀ m x, (coordsFrom (relStreak d s) m (x - d.origin 0)).map (restrict n) = ((coordsFrom s m x).map fun c k => c k - d.origin k).map (restrict n) := by
      intro m
      induction m with
      | zero => intro x; rfl
      | succ m ih =>
        intro x
        rw [coordsFrom, coordsFrom, List.map_cons, List.map_cons, List.map_cons, show x - d.origin 0 + 1 = x + 1 - d.origin 0 by ring, ih]
        congr 1
        funext k
        simp only [restrict, upd, relStreak]
        split
        · rename_i h; rw [h]
        · rfl
    have e' : (coordsOf (relStreak d s)).map (restrict n) = ((coordsOf s).map fun c k => c k - d.origin k).map (restrict n) := by
      unfold coordsOf
      rw [← e]
      simp only [relStreak]
      congr 2
      congr 1
      ring
    unfold dGetStreak
    rw [getStreak_eq hn hg _ (by simp only [relStreak]; omega), readAll_congr hn _ _ _ e']
    have : ∀ cs : List Crd, (∀ c ∈ cs, OnePeriod n wraps d.delegate.dim (fun k => c k - d.origin k)) →
        ∃ l, readAll n wraps d.delegate (cs.map fun c k => c k - d.origin k) = some l ∧ l.map some = cs.map (dRead n wraps false d) := by
      intro cs
      induction cs with
      | nil => intro _; exact ⟨[], rfl, rfl⟩
      | cons c cs ih =>
        intro h
        obtain ⟨v, e⟩ := read_some hn hg (h c (List.mem_cons_self ..))
        obtain ⟨l, e1, e2⟩ := ih (fun c hc => h c (List.mem_cons_of_mem _ hc))
        refine ⟨v :: l, by rw [List.map_cons, readAll, e, e1]; rfl, ?_⟩
        rw [List.map_cons, List.map_cons, e2, ← e]
        rfl
    exact this _ hc
  · intro b r off hr
    unfold dSave gridSave
    rw [hstreaks]
  · intro b r off hr
    unfold dLoad gridLoad
    rw [hstreaks]

/-! ## with topological correctness -/

/-- A displaced grid which covers a box within a simulation space of extent `topo`. The origin may be outside of the simulation space on periodic axes (by at
most one period). -/
structure DGridOK (n : Nat) (wraps : Nat → Bool) (d : DGrid α) : Prop where
  delegate : GridOK n d.delegate
  fits : ∀ k, k ≤ n → d.delegate.dim k ≤ d.topo k
  origin : ∀ k, k ≤ n → wraps k = true → -d.topo k ≤ d.origin k ∧ d.origin k ≤ d.topo k

/-- outside of the box on a constant axis -/
def DOutside (n : Nat) (wraps : Nat → Bool) (d : DGrid α) (c : Crd) : Prop :=
  ∃ k, k ≤ n ∧ wraps k = false ∧ ¬ (d.origin k ≤ c k ∧ c k < d.origin k + d.delegate.dim k)

/-- on periodic axes, `c` is an image of a coordinate of the box, and not further than one period away from its origin -/
def Held (n : Nat) (wraps : Nat → Bool) (d : DGrid α) (c : Crd) : Prop :=
  ∀ k, k ≤ n → wraps k = true → (c k - d.origin k) % d.topo k < d.delegate.dim k ∧ -d.topo k ≤ c k - d.origin k ∧ c k - d.origin k < 2 * d.topo k

/-- two coordinates denote the same cell of the simulation space -/
def DSame (n : Nat) (wraps : Nat → Bool) (d : DGrid α) (a b : Crd) : Prop :=
  (DOutside n wraps d a ∧ DOutside n wraps d b) ∨
    (¬ DOutside n wraps d a ∧ ¬ DOutside n wraps d b ∧ ∀ k, k ≤ n → if wraps k then a k % d.topo k = b k % d.topo k else a k = b k)

theorem emod_sub_iff (a b o t : Int) : (a - o) % t = (b - o) % t ↔ a % t = b % t := by
  rw [Int.emod_eq_emod_iff_emod_sub_eq_zero, Int.emod_eq_emod_iff_emod_sub_eq_zero, show a - o - (b - o) = a - b by ring]

theorem topoNormalize_inside {dim c : Crd} (hp : OnePeriod n wraps dim c) (ho : ¬ Outside n wraps dim c) (k : Nat) (hk : k ≤ n) :
    topoNormalize n wraps c dim k = c k % dim k := by
  unfold topoNormalize
  rw [if_neg (fun hh => ho ((outOfBounds_iff n wraps c dim).1 hh))]
  exact normEdges_mod n wraps dim c hp ho k hk

theorem dRel_outside {d : DGrid α} (hd : DGridOK n wraps d) {c : Crd} (ho : DOutside n wraps d c) : Outside n wraps d.delegate.dim (dRel n wraps true d c) := by
  unfold dRel
  rw [if_pos rfl]
  obtain ⟨k, hk, hw, h⟩ := ho
  unfold topoNormalize
  split
  · exact ⟨k, hk, hw, by simp⟩
  · rename_i hh
    have := hd.fits k hk
    refine ⟨k, hk, hw, ?_⟩
    have hin : 0 ≤ c k - d.origin k ∧ c k - d.origin k < d.topo k := by
      by_contra hc
      exact hh ((outOfBounds_iff n wraps _ d.topo).2 ⟨k, hk, hw, hc⟩)
    have e : normEdges (fun k => c k - d.origin k) d.topo k = c k - d.origin k := by
      unfold normEdges wrap1
      simp only
      rw [if_neg (by omega), if_neg (by omega)]
    rw [e]
    omega

theorem dRel_inside {d : DGrid α} (hd : DGridOK n wraps d) {c : Crd} (ho : ¬ DOutside n wraps d c) (hh : Held n wraps d c) :
    InDim n d.delegate.dim (dRel n wraps true d c) ∧ ∀ k, k ≤ n → dRel n wraps true d c k = (c k - d.origin k) % d.topo k := by
  have h1 : ∀ k, k ≤ n → wraps k = false → 0 ≤ c k - d.origin k ∧ c k - d.origin k < d.delegate.dim k := by
    intro k hk hw
    by_contra hc
    exact ho ⟨k, hk, hw, by omega⟩
  have hp : OnePeriod n wraps d.topo (fun k => c k - d.origin k) := fun k hk hw => (hh k hk hw).2
  have ho' : ¬ Outside n wraps d.topo (fun k => c k - d.origin k) := by
    rintro ⟨k, hk, hw, hc⟩
    have := h1 k hk hw
    have := hd.fits k hk
    exact hc (by simp only; omega)
  have e : ∀ k, k ≤ n → dRel n wraps true d c k = (c k - d.origin k) % d.topo k := by
    intro k hk
    unfold dRel
    rw [if_pos rfl]
    exact topoNormalize_inside hp ho' k hk
  refine ⟨fun k hk => ?_, e⟩
  have hpos := hd.delegate.pos k hk
  have hfit := hd.fits k hk
  rw [e k hk]
  refine ⟨Int.emod_nonneg _ (by omega), ?_⟩
  cases hw : wraps k with
  | true => exact (hh k hk hw).1
  | false =>
    have := h1 k hk hw
    rw [Int.emod_eq_of_lt this.1 (by omega)]
    exact this.2

theorem dRel_onePeriod {d : DGrid α} (hd : DGridOK n wraps d) {c : Crd} (hh : Held n wraps d c) : OnePeriod n wraps d.delegate.dim (dRel n wraps true d c) := by
  by_cases ho : DOutside n wraps d c
  · unfold dRel
    rw [if_pos rfl]
    unfold topoNormalize
    split
    · intro k hk _
      have := hd.delegate.pos k hk
      simp only
      omega
    · rename_i hb
      intro k hk hw
      have ho' : ¬ Outside n wraps d.topo (fun k => c k - d.origin k) := fun h => hb ((outOfBounds_iff n wraps _ d.topo).2 h)
      rw [normEdges_mod n wraps d.topo _ (fun k hk hw => (hh k hk hw).2) ho' k hk]
      have h1 := (hh k hk hw).1
      have h2 := hd.delegate.pos k hk
      have h3 := hd.fits k hk
      have h4 := Int.emod_nonneg (c k - d.origin k) (b := d.topo k) (by omega)
      omega
  · exact onePeriod_of_inDim (dRel_inside hd ho hh).1

theorem dSame_iff {d : DGrid α} (hd : DGridOK n wraps d) {a b : Crd} (ha : Held n wraps d a) (hb : Held n wraps d b) :
    Same n wraps d.delegate.dim (dRel n wraps true d a) (dRel n wraps true d b) ↔ DSame n wraps d a b := by
  by_cases oa : DOutside n wraps d a
  · by_cases ob : DOutside n wraps d b
    · exact ⟨fun _ => Or.inl ⟨oa, ob⟩, fun _ => Or.inl ⟨dRel_outside hd oa, dRel_outside hd ob⟩⟩
    · constructor
      · rintro (h | h)
        · exact (not_outside_of_inDim (dRel_inside hd ob hb).1 h.2).elim
        · exact (h.1 (dRel_outside hd oa)).elim
      · rintro (h | h)
        · exact (ob h.2).elim
        · exact (h.1 oa).elim
  · by_cases ob : DOutside n wraps d b
    · constructor
      · rintro (h | h)
        · exact (not_outside_of_inDim (dRel_inside hd oa ha).1 h.1).elim
        · exact (h.2.1 (dRel_outside hd ob)).elim
      · rintro (h | h)
        · exact (oa h.1).elim
        · exact (h.2.1 ob).elim
    · obtain ⟨a1, a2⟩ := dRel_inside hd oa ha
      obtain ⟨b1, b2⟩ := dRel_inside hd ob hb
      rw [same_inDim a1 b1]
      have hconst : ∀ c, ¬ DOutside n wraps d c → ∀ k, k ≤ n → wraps k = false → (c k - d.origin k) % d.topo k = c k - d.origin k := by
        intro c hc k hk hw
        have : d.origin k ≤ c k ∧ c k < d.origin k + d.delegate.dim k := by
          by_contra hh
          exact hc ⟨k, hk, hw, hh⟩
        have := hd.fits k hk
        exact Int.emod_eq_of_lt (by omega) (by omega)
      constructor
      · intro h
        refine Or.inr ⟨oa, ob, fun k hk => ?_⟩
        have := h k hk
        rw [a2 k hk, b2 k hk] at this
        cases hw : wraps k with
        | true => simpa using (emod_sub_iff _ _ _ _).mp this
        | false =>
          rw [hconst a oa k hk hw, hconst b ob k hk hw] at this
          simp only [Bool.false_eq_true, if_false]
          omega
      · rintro (h | ⟨_, _, h⟩) k hk
        · exact (oa h.1).elim
        · rw [a2 k hk, b2 k hk]
          have := h k hk
          cases hw : wraps k with
          | true =>
            rw [hw] at this
            exact (emod_sub_iff _ _ _ _).mpr this
          | false =>
            rw [hw] at this
            simp only [Bool.false_eq_true, if_false] at this
            rw [this]

/-- **C33, `DisplacedGrid<…, true>`, single cells.** For coordinates held by the grid, a write changes what is read at the coordinates which denote the same cell
of the simulation space, and nothing else. -/
theorem displaced_write_read (hn : n ≤ 2) (d : DGrid α) (hd : DGridOK n wraps d) (c : Crd) (hc : Held n wraps d c) (v : α) :
    ∃ d', dWrite n wraps true d c v = some d' ∧ DGridOK n wraps d' ∧ d'.origin = d.origin ∧ d'.topo = d.topo ∧ d'.delegate.dim = d.delegate.dim ∧
      ∀ c', Held n wraps d c' → (DSame n wraps d c c' → dRead n wraps true d' c' = some v) ∧
        (¬ DSame n wraps d c c' → dRead n wraps true d' c' = dRead n wraps true d c') := by
  obtain ⟨g', e, h1, h2, _, _, h3⟩ := write_spec hn hd.delegate (dRel_onePeriod hd hc) v
  refine ⟨{ d with delegate := g' }, by unfold dWrite; rw [e]; rfl, ⟨h1, by simpa only [h2] using hd.fits, hd.origin⟩, rfl, rfl, h2, fun c' hc' => ?_⟩
  have := h3 _ (dRel_onePeriod hd hc')
  rw [dSame_iff hd hc hc'] at this
  exact this

/-! ### regions -/

/-- streaks agree on the axes of the simulation space -/
def SAgree (n : Nat) (a b : Streak) : Prop := a.endX = b.endX ∧ ∀ k, k ≤ n → a.origin k = b.origin k

theorem siUp_rel (topo : Crd) (idx : Idx) (off : Crd) (r : Nat) : ∀ (i : Nat) (it it2 it' : SIter), 1 ≤ i → it2.pos = it.pos → it2.streak.endX = it.streak.endX →
    it2.streak.origin 0 = it.streak.origin 0 → (∀ k, 1 ≤ k → k ≤ n → it2.streak.origin k = it.streak.origin k ∨ it2.streak.origin k = wrap1 (it.streak.origin k) (topo k)) →
    siUp idx off r i it = some it' →
    ∃ it2', siUp idx off r i it2 = some it2' ∧ it2'.pos = it'.pos ∧ it2'.streak.endX = it'.streak.endX ∧ it2'.streak.origin 0 = it'.streak.origin 0 ∧
      ∀ k, 1 ≤ k → k ≤ n → it2'.streak.origin k = it'.streak.origin k ∨ it2'.streak.origin k = wrap1 (it'.streak.origin k) (topo k) := by
  induction r with
  | zero =>
    intro i it it2 it' hi h1 h2 h3 h4 h
    cases h
    exact ⟨it2, rfl, h1, h2, h3, h4⟩
  | succ r ih =>
    intro i it it2 it' hi h1 h2 h3 h4 h
    rw [siUp] at h ⊢
    rw [h1]
    split at h
    · rename_i hh
      rw [if_pos hh]
      cases h
      exact ⟨it2, rfl, h1, h2, h3, h4⟩
    · rename_i hh
      rw [if_neg hh]
      cases he : (idx i)[it.pos i + 1]? with
      | none => rw [he] at h; cases h
      | some e =>
        rw [he, Option.bind_some] at h
        rw [Option.bind_some]
        cases hq : toPos e.2 with
        | none => rw [hq] at h; cases h
        | some q =>
          rw [hq, Option.bind_some] at h
          rw [Option.bind_some]
          split at h
          · rename_i hne
            rw [if_pos hne]
            cases h
            exact ⟨it2, rfl, h1, h2, h3, h4⟩
          · rename_i hne
            rw [if_neg hne]
            refine ih (i + 1) ({ pos := fun k => if k = i then it.pos i + 1 else it.pos k, streak := { it.streak with origin := upd it.streak.origin i (e.1 + off i) } }) ({ pos := fun k => if k = i then it.pos i + 1 else it.pos k, streak := { it2.streak with origin := upd it2.streak.origin i (e.1 + off i) } }) it' (by omega) rfl h2 ?_ ?_ h
            · simp only [upd]
              rw [if_neg (by omega), if_neg (by omega)]
              exact h3
            · intro k hk hkn
              simp only [upd]
              split
              · exact Or.inl rfl
              · exact h4 k hk hkn

theorem siNext_rel (topo : Crd) (idx : Idx) (off : Crd) (it it2 it' : SIter) (h1 : it2.pos = it.pos)
    (h4 : ∀ k, 1 ≤ k → k ≤ n → it2.streak.origin k = it.streak.origin k ∨ it2.streak.origin k = wrap1 (it.streak.origin k) (topo k))
    (h : siNext n idx off 0 it = some it') :
    ∃ it2', siNext n idx off 0 it2 = some it2' ∧ it2'.pos = it'.pos ∧ (siEq n it' (siEnd idx) = true ∨
      it2'.streak.endX = it'.streak.endX ∧ it2'.streak.origin 0 = it'.streak.origin 0 ∧
      ∀ k, 1 ≤ k → k ≤ n → it2'.streak.origin k = it'.streak.origin k ∨ it2'.streak.origin k = wrap1 (it'.streak.origin k) (topo k)) := by
  unfold siNext at h ⊢
  rw [h1]
  split at h
  · rename_i hh
    rw [if_pos hh]
    cases h
    refine ⟨_, rfl, rfl, Or.inl ?_⟩
    unfold siEq siEnd
    rw [List.all_eq_true]
    intro k _
    simp only [decide_eq_true_eq]
    split
    · rename_i hk; subst hk; exact hh
    · rfl
  · rename_i hh
    rw [if_neg hh]
    cases he : (idx 0)[it.pos 0 + 1]? with
    | none => rw [he] at h; cases h
    | some e =>
      rw [he, Option.bind_some] at h
      rw [Option.bind_some]
      obtain ⟨it2', a1, a2, a3, a4, a5⟩ := siUp_rel (n := n) topo idx off n 1
        ({ pos := fun k => if k = 0 then it.pos 0 + 1 else it.pos k, streak := { origin := upd it.streak.origin 0 (e.1 + off 0), endX := e.2 + off 0 + 0 } })
        ({ pos := fun k => if k = 0 then it.pos 0 + 1 else it.pos k, streak := { origin := upd it2.streak.origin 0 (e.1 + off 0), endX := e.2 + off 0 + 0 } }) it'
        (le_refl _) rfl rfl (by simp [upd]) (by
          intro k hk hkn
          simp only [upd]
          rw [if_neg (by omega), if_neg (by omega)]
          exact h4 k hk hkn) h
      exact ⟨it2', a1, a2, Or.inr ⟨a3, a4, a5⟩⟩

/-- a streak whose origin is inside of the simulation space (up to one period) -/
def Inner (n : Nat) (wraps : Nat → Bool) (topo : Crd) (s : Streak) : Prop := OnePeriod n wraps topo s.origin ∧ ¬ Outside n wraps topo s.origin

theorem norm_agree {topo : Crd} (hpos : ∀ k, k ≤ n → 0 < topo k) {s s2 : Streak} (hs : Inner n wraps topo s) (h1 : s2.endX = s.endX) (h2 : s2.origin 0 = s.origin 0)
    (h3 : ∀ k, 1 ≤ k → k ≤ n → s2.origin k = s.origin k ∨ s2.origin k = wrap1 (s.origin k) (topo k)) :
    SAgree n (normStreak n wraps true topo s2) (normStreak n wraps true topo s) := by
  have hm : ∀ k, k ≤ n → wrap1 (s.origin k) (topo k) = s.origin k % topo k := fun k hk => normEdges_mod n wraps topo s.origin hs.1 hs.2 k hk
  have h3' : ∀ k, k ≤ n → s2.origin k = s.origin k ∨ s2.origin k = s.origin k % topo k := by
    intro k hk
    by_cases hk0 : k = 0
    · subst hk0; exact Or.inl h2
    · rcases h3 k (by omega) hk with h | h
      · exact Or.inl h
      · exact Or.inr (by rw [h, hm k hk])
  have hin : ∀ k, k ≤ n → wraps k = false → 0 ≤ s.origin k ∧ s.origin k < topo k := by
    intro k hk hw
    by_contra hh
    exact hs.2 ⟨k, hk, hw, hh⟩
  have hp2 : OnePeriod n wraps topo s2.origin := by
    intro k hk hw
    have h4 := hs.1 k hk hw
    have := hpos k hk
    rcases h3' k hk with h | h
    · rw [h]; exact h4
    · have h5 := Int.emod_nonneg (s.origin k) (b := topo k) (by omega)
      have h6 := Int.emod_lt_of_pos (s.origin k) this
      rw [h]; omega
  have ho2 : ¬ Outside n wraps topo s2.origin := by
    rintro ⟨k, hk, hw, hh⟩
    have := hin k hk hw
    rcases h3' k hk with h | h
    · exact hh (by rw [h]; exact this)
    · exact hh (by rw [h, Int.emod_eq_of_lt this.1 this.2]; exact this)
  have hk : ∀ k, k ≤ n → topoNormalize n wraps s2.origin topo k = topoNormalize n wraps s.origin topo k := by
    intro k hk
    rw [topoNormalize_inside hp2 ho2 k hk, topoNormalize_inside hs.1 hs.2 k hk]
    rcases h3' k hk with h | h
    · rw [h]
    · rw [h, Int.emod_emod_of_dvd _ (dvd_refl _)]
  refine ⟨?_, fun k hk' => ?_⟩
  · simp only [normStreak, if_true]
    rw [hk 0 (by omega), h1, h2]
  · simp only [normStreak, if_true]
    exact hk k hk'

theorem normLoop_spec {topo : Crd} (hpos : ∀ k, k ≤ n → 0 < topo k) (idx : Idx) (off : Crd) (fuel : Nat) : ∀ (it it2 : SIter) (l : List Streak),
    it2.pos = it.pos → (l ≠ [] → SAgree n it2.streak (normStreak n wraps true topo it.streak)) → streakLoop n idx off 0 fuel it = some l →
    (∀ s ∈ l, Inner n wraps topo s) →
    ∃ l2, normLoop n wraps true topo idx off fuel it2 = some l2 ∧ List.Forall₂ (SAgree n) l2 (l.map (normStreak n wraps true topo)) := by
  induction fuel with
  | zero => intro it it2 l _ _ h; cases h
  | succ fuel ih =>
    intro it it2 l h1 h2 h hl
    rw [streakLoop] at h
    rw [normLoop]
    have heq : siEq n it2 (siEnd idx) = siEq n it (siEnd idx) := by unfold siEq; rw [h1]
    rw [heq]
    by_cases he : siEq n it (siEnd idx) = true
    · rw [if_pos he] at h ⊢
      cases h
      exact ⟨[], rfl, List.Forall₂.nil⟩
    · rw [if_neg he] at h ⊢
      cases hn : siNext n idx off 0 it with
      | none => rw [hn] at h; cases h
      | some it' =>
        rw [hn] at h
        simp only [Option.bind_eq_bind, Option.bind_some] at h
        cases hr : streakLoop n idx off 0 fuel it' with
        | none => rw [hr] at h; cases h
        | some rest =>
          rw [hr] at h
          simp only [Option.bind_some, Option.some.injEq] at h
          subst h
          have h2 := h2 (by simp)
          have hin := hl it.streak (List.mem_cons_self ..)
          obtain ⟨it2', a1, a2, a3⟩ := siNext_rel (n := n) topo idx off it it2 it' h1 (by
            intro k hk hkn
            refine Or.inr ?_
            rw [h2.2 k hkn]
            simp only [normStreak, if_true]
            unfold topoNormalize
            rw [if_neg (fun hh => hin.2 ((outOfBounds_iff n wraps _ topo).1 hh))]
            rfl) hn
          obtain ⟨l2, b1, b2⟩ := ih it' { it2' with streak := normStreak n wraps true topo it2'.streak } rest a2 (by
            intro hne
            rcases a3 with a3 | ⟨a3, a4, a5⟩
            · cases fuel with
              | zero => cases hr
              | succ fuel =>
                rw [streakLoop, if_pos a3] at hr
                exact (hne (Option.some.inj hr).symm).elim
            · have hin' : Inner n wraps topo it'.streak := by
                cases fuel with
                | zero => cases hr
                | succ fuel =>
                  rw [streakLoop] at hr
                  split at hr
                  · exact (hne (Option.some.inj hr).symm).elim
                  · cases h5 : siNext n idx off 0 it' with
                    | none => rw [h5] at hr; cases hr
                    | some it'' =>
                      rw [h5] at hr
                      simp only [Option.bind_eq_bind, Option.bind_some] at hr
                      cases h6 : streakLoop n idx off 0 fuel it'' with
                      | none => rw [h6] at hr; cases hr
                      | some r' =>
                        rw [h6] at hr
                        simp only [Option.bind_some, Option.some.injEq] at hr
                        exact hl _ (List.mem_cons_of_mem _ (by rw [← hr]; exact List.mem_cons_self ..))
              exact norm_agree hpos hin' a3 a4 a5) hr (fun s hs => hl s (List.mem_cons_of_mem _ hs))
          exact ⟨it2.streak :: l2, by rw [a1, Option.bind_some, b1]; rfl, List.Forall₂.cons h2 b2⟩

/-- coordinates of the simulation space which are stored in the grid -/
structure Stored (n : Nat) (wraps : Nat → Bool) (d : DGrid α) (c : Crd) : Prop where
  inside : InDim n d.topo c
  held : ∀ k, k ≤ n → if wraps k then (c k - d.origin k) % d.topo k < d.delegate.dim k else d.origin k ≤ c k ∧ c k < d.origin k + d.delegate.dim k

theorem Stored.isHeld {d : DGrid α} (hd : DGridOK n wraps d) {c : Crd} (h : Stored n wraps d c) : Held n wraps d c ∧ ¬ DOutside n wraps d c := by
  constructor
  · intro k hk hw
    have h1 := h.held k hk
    rw [hw] at h1
    have h2 := h.inside k hk
    have h3 := hd.origin k hk hw
    exact ⟨h1, by omega, by omega⟩
  · rintro ⟨k, hk, hw, hh⟩
    have h1 := h.held k hk
    rw [hw] at h1
    exact hh (by simpa using h1)

/-- one cell of a normalized streak -/
theorem norm_cell (hn : n ≤ 2) {d : DGrid α} (hd : DGridOK n wraps d) (s : Streak) (hlen : s.endX - s.origin 0 ≤ d.topo 0)
    (hs : ∀ x, s.origin 0 ≤ x → x < s.endX → Held n wraps d (fun k => upd s.origin 0 x k + d.origin k) ∧ ¬ DOutside n wraps d (fun k => upd s.origin 0 x k + d.origin k))
    (j : Int) (h0 : 0 ≤ j) (h1 : s.origin 0 + j < s.endX) :
    OnePeriod n wraps d.delegate.dim (upd (normStreak n wraps true d.topo s).origin 0 ((normStreak n wraps true d.topo s).origin 0 + j)) ∧
      topoLocate n wraps (upd (normStreak n wraps true d.topo s).origin 0 ((normStreak n wraps true d.topo s).origin 0 + j)) d.delegate.dim =
        topoLocate n wraps (dRel n wraps true d (fun k => upd s.origin 0 (s.origin 0 + j) k + d.origin k)) d.delegate.dim := by
  have hcell : ∀ i, 0 ≤ i → s.origin 0 + i < s.endX → InDim n d.delegate.dim (dRel n wraps true d (fun k => upd s.origin 0 (s.origin 0 + i) k + d.origin k)) ∧
      ∀ k, k ≤ n → dRel n wraps true d (fun k => upd s.origin 0 (s.origin 0 + i) k + d.origin k) k = upd s.origin 0 (s.origin 0 + i) k % d.topo k := by
    intro i hi hi'
    obtain ⟨a, b⟩ := hs (s.origin 0 + i) (by omega) hi'
    obtain ⟨c1, c2⟩ := dRel_inside hd b a
    refine ⟨c1, fun k hk => ?_⟩
    rw [c2 k hk]
    simp
  -- the origin
  have hself : upd s.origin 0 (s.origin 0) = s.origin := upd_self s.origin 0
  obtain ⟨o1, o2⟩ := hs (s.origin 0) (le_refl _) (by omega)
  rw [hself] at o1 o2
  have hp : OnePeriod n wraps d.topo s.origin := fun k hk hw => by
    have := (o1 k hk hw).2
    simpa using this
  have ho : ¬ Outside n wraps d.topo s.origin := by
    rintro ⟨k, hk, hw, hh⟩
    have h2 : d.origin k ≤ s.origin k + d.origin k ∧ s.origin k + d.origin k < d.origin k + d.delegate.dim k := by
      by_contra hc
      exact o2 ⟨k, hk, hw, hc⟩
    have := hd.fits k hk
    exact hh (by omega)
  have hnorm : ∀ k, k ≤ n → (normStreak n wraps true d.topo s).origin k = s.origin k % d.topo k := by
    intro k hk
    simp only [normStreak, if_true]
    exact topoNormalize_inside hp ho k hk
  obtain ⟨c1, c2⟩ := hcell j h0 h1
  have ht := hd.fits 0 (by omega)
  have hdp := hd.delegate.pos 0 (by omega)
  have hy0 := Int.emod_nonneg (s.origin 0) (b := d.topo 0) (by omega)
  have hy1 := Int.emod_lt_of_pos (s.origin 0) (b := d.topo 0) (by omega)
  have hres : ∀ i, (s.origin 0 + i) % d.topo 0 = (s.origin 0 % d.topo 0 + i) % d.topo 0 := fun i => by rw [Int.emod_add_emod]
  by_cases hcase : s.origin 0 % d.topo 0 + j < d.topo 0
  · -- no seam
    have e : ∀ k, k ≤ n → upd (normStreak n wraps true d.topo s).origin 0 ((normStreak n wraps true d.topo s).origin 0 + j) k =
        dRel n wraps true d (fun k => upd s.origin 0 (s.origin 0 + j) k + d.origin k) k := by
      intro k hk
      rw [c2 k hk]
      unfold upd
      split
      · rename_i hk0
        subst hk0
        rw [hnorm 0 hk, hres, Int.emod_eq_of_lt (by omega) hcase]
      · exact hnorm k hk
    exact ⟨onePeriod_congr (fun k hk => (e k hk).symm) (onePeriod_of_inDim c1), locate_congr hn e⟩
  · -- the streak crosses the seam: the grid covers the whole axis
    have hw : wraps 0 = true := by
      by_contra hw
      have hw : wraps 0 = false := by simpa using hw
      have h2 : 0 ≤ s.origin 0 + j ∧ s.origin 0 + j < d.topo 0 := by
        obtain ⟨_, b⟩ := hs (s.origin 0 + j) (by omega) h1
        by_contra hc
        apply b
        refine ⟨0, by omega, hw, ?_⟩
        simp only [upd, if_true]
        omega
      have h3 : 0 ≤ s.origin 0 ∧ s.origin 0 < d.topo 0 := by
        by_contra hc
        exact ho ⟨0, by omega, hw, hc⟩
      rw [Int.emod_eq_of_lt h3.1 h3.2] at hcase
      omega
    have hfull : d.delegate.dim 0 = d.topo 0 := by
      obtain ⟨a1, a2⟩ := hcell (d.topo 0 - 1 - s.origin 0 % d.topo 0) (by omega) (by omega)
      have h3 := (a1 0 (by omega)).2
      rw [a2 0 (by omega)] at h3
      simp only [upd, if_true] at h3
      rw [hres, show s.origin 0 % d.topo 0 + (d.topo 0 - 1 - s.origin 0 % d.topo 0) = d.topo 0 - 1 by ring, Int.emod_eq_of_lt (by omega) (by omega)] at h3
      omega
    have hone : OnePeriod n wraps d.delegate.dim (upd (normStreak n wraps true d.topo s).origin 0 ((normStreak n wraps true d.topo s).origin 0 + j)) := by
      intro k hk hwk
      unfold upd
      split
      · rename_i hk0
        subst hk0
        rw [hnorm 0 hk, hfull]
        omega
      · rename_i hk0
        have := c1 k hk
        rw [c2 k hk] at this
        unfold upd at this
        rw [if_neg hk0] at this
        rw [hnorm k hk]
        omega
    refine ⟨hone, (same_locate hn hd.delegate.pos hone (onePeriod_of_inDim c1)).mp ?_⟩
    have hko : ∀ k, k ≤ n → k ≠ 0 → upd (normStreak n wraps true d.topo s).origin 0 ((normStreak n wraps true d.topo s).origin 0 + j) k =
        dRel n wraps true d (fun k => upd s.origin 0 (s.origin 0 + j) k + d.origin k) k := by
      intro k hk hk0
      rw [c2 k hk]
      unfold upd
      rw [if_neg hk0, if_neg hk0]
      exact hnorm k hk
    refine Or.inr ⟨?_, not_outside_of_inDim c1, fun k hk => ?_⟩
    · rintro ⟨k, hk, hwk, hh⟩
      have hk0 : k ≠ 0 := by rintro rfl; rw [hw] at hwk; cases hwk
      rw [hko k hk hk0] at hh
      exact hh (c1 k hk)
    · by_cases hk0 : k = 0
      · subst hk0
        rw [if_pos hw, c2 0 hk]
        simp only [upd, if_true]
        rw [hnorm 0 hk, hres, hfull]
        exact (Int.emod_emod_of_dvd _ (dvd_refl _)).symm
      · rw [hko k hk hk0]
        split <;> rfl

/-- same storage location, which exists -/
def LocEq (n : Nat) (wraps : Nat → Bool) (dim a b : Crd) : Prop := OnePeriod n wraps dim a ∧ topoLocate n wraps a dim = topoLocate n wraps b dim

theorem readAll_loc (g : Grid α) (a b : List Crd) (h : List.Forall₂ (LocEq n wraps g.dim) a b) : readAll n wraps g a = readAll n wraps g b := by
  induction h with
  | nil => rfl
  | cons h _ ih => rw [readAll, readAll, ih]; unfold gridRead; rw [h.2]

theorem write_dim {g g' : Grid α} {c : Crd} {v : α} (h : gridWrite n wraps g c v = some g') : g'.dim = g.dim := by
  unfold gridWrite at h
  split at h
  · cases h; rfl
  · split at h
    · cases h; rfl
    · cases h

theorem writeAll_loc (a b : List Crd) (g : Grid α) (h : List.Forall₂ (LocEq n wraps g.dim) a b) (l : List α) :
    writeAll n wraps (a.zip l) g = writeAll n wraps (b.zip l) g := by
  induction a generalizing b g l with
  | nil => cases h; rfl
  | cons x a ih =>
    cases h with
    | @cons _ y _ b' h1 h2 =>
      cases l with
      | nil => rfl
      | cons v l =>
        rw [List.zip_cons_cons, List.zip_cons_cons, writeAll, writeAll]
        have e : gridWrite n wraps g x v = gridWrite n wraps g y v := by unfold gridWrite; rw [h1.2]
        simp only
        rw [e]
        cases hw : gridWrite n wraps g y v with
        | none => rfl
        | some g' => exact ih b' g' (by rw [write_dim hw]; exact h2) l

theorem dRel_congr {d : DGrid α} {a b : Crd} (h : ∀ k, k ≤ n → a k = b k) (k : Nat) (hk : k ≤ n) : dRel n wraps true d a k = dRel n wraps true d b k := by
  unfold dRel
  rw [if_pos rfl, if_pos rfl]
  have e : outOfBounds n wraps (fun k => a k - d.origin k) d.topo = outOfBounds n wraps (fun k => b k - d.origin k) d.topo := by
    rw [Bool.eq_iff_iff, outOfBounds_iff, outOfBounds_iff]
    exact ⟨outside_congr (fun k hk => by rw [h k hk]), outside_congr fun k hk => by rw [h k hk]⟩
  unfold topoNormalize
  rw [e]
  split
  · rfl
  · unfold normEdges
    simp only
    rw [h k hk]

theorem coordsFrom_rel (hn : n ≤ 2) {d : DGrid α} (hd : DGridOK n wraps d) (s s2 : Streak) (hlen : s.endX - s.origin 0 ≤ d.topo 0)
    (ha : SAgree n s2 (normStreak n wraps true d.topo s))
    (hs : ∀ x, s.origin 0 ≤ x → x < s.endX → Held n wraps d (fun k => upd s.origin 0 x k + d.origin k) ∧ ¬ DOutside n wraps d (fun k => upd s.origin 0 x k + d.origin k))
    (m : Nat) : ∀ j : Int, 0 ≤ j → s.origin 0 + j + m ≤ s.endX →
      List.Forall₂ (LocEq n wraps d.delegate.dim) (coordsFrom s2 m (s2.origin 0 + j))
        ((coordsFrom s m (s.origin 0 + j)).map fun c => dRel n wraps true d (fun k => c k + d.origin k)) := by
  induction m with
  | zero => intro j _ _; exact List.Forall₂.nil
  | succ m ih =>
    intro j h0 h1
    rw [coordsFrom, coordsFrom, List.map_cons]
    refine List.Forall₂.cons ?_ ?_
    · obtain ⟨e1, e2⟩ := norm_cell hn hd s hlen hs j h0 (by omega)
      have e : ∀ k, k ≤ n → upd s2.origin 0 (s2.origin 0 + j) k = upd (normStreak n wraps true d.topo s).origin 0 ((normStreak n wraps true d.topo s).origin 0 + j) k := by
        intro k hk
        unfold upd
        split
        · rw [ha.2 0 (by omega)]
        · exact ha.2 k hk
      exact ⟨onePeriod_congr (fun k hk => (e k hk).symm) e1, (locate_congr hn e).trans e2⟩
    · have := ih (j + 1) (by omega) (by push_cast at h1 ⊢; omega)
      rw [← add_assoc, ← add_assoc] at this
      exact this

theorem coordsOf_cells (s : Streak) (x : Int) (h0 : s.origin 0 ≤ x) (h1 : x < s.endX) : upd s.origin 0 x ∈ coordsOf s := by
  have : ∀ (m : Nat) (y : Int), y ≤ x → x < y + m → upd s.origin 0 x ∈ coordsFrom s m y := by
    intro m
    induction m with
    | zero => intro y h2 h3; simp at h3; omega
    | succ m ih =>
      intro y h2 h3
      rw [coordsFrom]
      by_cases h : y = x
      · subst h; exact List.mem_cons_self ..
      · exact List.mem_cons_of_mem _ (ih (y + 1) (by omega) (by push_cast at h3 ⊢; omega))
  exact this _ _ h0 (by omega)

theorem stored_congr {d : DGrid α} {a b : Crd} (h : ∀ k, k ≤ n → a k = b k) (ha : Stored n wraps d a) : Stored n wraps d b :=
  ⟨fun k hk => by rw [← h k hk]; exact ha.inside k hk, fun k hk => by rw [← h k hk]; exact ha.held k hk⟩

theorem normStreaks_spec (hn : n ≤ 2) {d : DGrid α} (hd : DGridOK n wraps d) (r : Idx) (off : Crd) (hr : RegOK n r)
    (hc : ∀ c ∈ regionCells n r off, Stored n wraps d c) :
    ∃ ss, normStreaks n wraps true d.topo r (fun k => off k - d.origin k) = some ss ∧ (∀ s ∈ ss, s.origin 0 ≤ s.endX) ∧
      List.Forall₂ (LocEq n wraps d.delegate.dim) (ss.flatMap coordsOf) ((regionCells n r off).map (dRel n wraps true d)) := by
  obtain ⟨ss, e, h1, h2⟩ := streaks_spec (n := n) r hr (fun k => off k - d.origin k)
  have hst : ∀ s ∈ ss, ∀ c ∈ coordsOf s, Stored n wraps d (fun k => c k + d.origin k) := by
    intro s hs c hcs
    obtain ⟨c', hc', e'⟩ := mem_restrict h2 (List.mem_flatMap.mpr ⟨s, hs, hcs⟩)
    obtain ⟨v, hv, rfl⟩ := List.mem_map.mp hc'
    have := hc _ (List.mem_map.mpr ⟨v, hv, rfl⟩)
    refine stored_congr (fun k hk => ?_) this
    have := e' k hk
    simp only at this ⊢
    omega
  have hpos : ∀ k, k ≤ n → 0 < d.topo k := fun k hk => lt_of_lt_of_le (hd.delegate.pos k hk) (hd.fits k hk)
  have hcell : ∀ s ∈ ss, ∀ x, s.origin 0 ≤ x → x < s.endX → Stored n wraps d (fun k => upd s.origin 0 x k + d.origin k) :=
    fun s hs x h3 h4 => hst s hs _ (coordsOf_cells s x h3 h4)
  have hinner : ∀ s ∈ ss, Inner n wraps d.topo s := by
    intro s hs
    have h3 := hcell s hs (s.origin 0) (le_refl _) (h1 s hs)
    rw [upd_self] at h3
    obtain ⟨h4, h5⟩ := h3.isHeld hd
    refine ⟨fun k hk hw => ?_, ?_⟩
    · have := (h4 k hk hw).2
      simpa using this
    · rintro ⟨k, hk, hw, hh⟩
      have h6 : d.origin k ≤ s.origin k + d.origin k ∧ s.origin k + d.origin k < d.origin k + d.delegate.dim k := by
        by_contra hc
        exact h5 ⟨k, hk, hw, hc⟩
      have := hd.fits k hk
      exact hh (by omega)
  have hnorm : ∃ l2, normStreaks n wraps true d.topo r (fun k => off k - d.origin k) = some l2 ∧
      List.Forall₂ (SAgree n) l2 (ss.map (normStreak n wraps true d.topo)) := by
    unfold normStreaks
    unfold allStreaks at e
    cases hb : siBegin n r (fun k => off k - d.origin k) 0 with
    | none => rw [hb] at e; cases e
    | some it =>
      rw [hb, Option.bind_some] at e
      rw [Option.bind_some]
      exact normLoop_spec hpos r _ _ it _ ss rfl (fun _ => ⟨rfl, fun _ _ => rfl⟩) e hinner
  obtain ⟨l2, e2, ha⟩ := hnorm
  have hmain : ∀ (ss l2 : List Streak), (∀ s ∈ ss, s.origin 0 < s.endX) → (∀ s ∈ ss, ∀ x, s.origin 0 ≤ x → x < s.endX → Stored n wraps d (fun k => upd s.origin 0 x k + d.origin k)) →
      List.Forall₂ (SAgree n) l2 (ss.map (normStreak n wraps true d.topo)) →
      (∀ s ∈ l2, s.origin 0 ≤ s.endX) ∧ List.Forall₂ (LocEq n wraps d.delegate.dim) (l2.flatMap coordsOf)
        ((ss.flatMap coordsOf).map fun c => dRel n wraps true d (fun k => c k + d.origin k)) := by
    intro ss
    induction ss with
    | nil => intro l2 _ _ h; cases h; exact ⟨by simp, List.Forall₂.nil⟩
    | cons s ss ih =>
      intro l2 h1 hcell h
      rw [List.map_cons] at h
      cases h with
      | @cons s2 _ l2' _ h3 h4 =>
        obtain ⟨i1, i2⟩ := ih l2' (fun s hs => h1 s (List.mem_cons_of_mem _ hs)) (fun s hs => hcell s (List.mem_cons_of_mem _ hs)) h4
        have hlen := h1 s (List.mem_cons_self ..)
        have hsc := hcell s (List.mem_cons_self ..)
        have hle : s.endX - s.origin 0 ≤ d.topo 0 := by
          have a1 := (hsc (s.origin 0) (le_refl _) hlen).inside 0 (by omega)
          have a2 := (hsc (s.endX - 1) (by omega) (by omega)).inside 0 (by omega)
          simp only [upd, if_true] at a1 a2
          omega
        have hlen2 : s2.endX - s2.origin 0 = s.endX - s.origin 0 := by
          rw [h3.1, h3.2 0 (by omega)]
          simp only [normStreak, if_true]
          ring
        refine ⟨fun s' hs' => ?_, ?_⟩
        · rcases List.mem_cons.mp hs' with rfl | hs'
          · omega
          · exact i1 s' hs'
        · rw [List.flatMap_cons, List.flatMap_cons, List.map_append]
          refine List.rel_append ?_ i2
          have := coordsFrom_rel hn hd s s2 hle h3 (fun x h5 h6 => (hsc x h5 h6).isHeld hd) (s.endX - s.origin 0).toNat 0 (le_refl _) (by omega)
          rw [add_zero, add_zero] at this
          unfold coordsOf
          rw [hlen2]
          exact this
  obtain ⟨m1, m2⟩ := hmain ss l2 h1 hcell ha
  refine ⟨l2, e2, m1, ?_⟩
  have hfin : ∀ (a : List Crd) (b : List Crd), a.map (restrict n) = b.map (restrict n) → ∀ c : List Crd,
      List.Forall₂ (LocEq n wraps d.delegate.dim) c (a.map fun c => dRel n wraps true d (fun k => c k + d.origin k)) →
      List.Forall₂ (LocEq n wraps d.delegate.dim) c (b.map fun c => dRel n wraps true d (fun k => c k + d.origin k)) := by
    intro a
    induction a with
    | nil =>
      intro b h c h3
      cases b with
      | nil => exact h3
      | cons _ _ => simp at h
    | cons x a ih =>
      intro b h c h3
      cases b with
      | nil => simp at h
      | cons y b =>
        rw [List.map_cons, List.map_cons] at h
        obtain ⟨h4, h5⟩ := List.cons.inj h
        rw [List.map_cons] at h3 ⊢
        cases h3 with
        | cons h6 h7 =>
          refine List.Forall₂.cons ⟨h6.1, h6.2.trans (locate_congr hn fun k hk => dRel_congr (fun k hk => ?_) k hk)⟩ (ih b h5 _ h7)
          have : x k = y k := congrFun h4 ⟨k, by omega⟩
          rw [this]
  have := hfin _ _ h2 _ m2
  convert this using 1
  unfold regionCells
  rw [List.map_map, List.map_map]
  apply List.map_congr_left
  intro v _
  simp only [Function.comp]
  congr 1
  funext k
  ring

/-- **C33, `DisplacedGrid<…, true>::saveRegion`.** For a region of cells stored in the grid, the buffer receives the cells in iteration order. -/
theorem displaced_save (hn : n ≤ 2) (d : DGrid α) (hd : DGridOK n wraps d) (b : List α) (r : Idx) (off : Crd) (hr : RegOK n r)
    (hl : (regionCells n r off).length ≤ b.length) (hc : ∀ c ∈ regionCells n r off, Stored n wraps d c) :
    ∃ l, dSave n wraps true d b r off = some (l ++ b.drop l.length) ∧ l.map some = (regionCells n r off).map (dRead n wraps true d) := by
  obtain ⟨ss, e, h1, h2⟩ := normStreaks_spec hn hd r off hr hc
  have hlen := h2.length_eq
  rw [List.length_map] at hlen
  obtain ⟨l, e1, e2⟩ := saveLoop_eq hn hd.delegate ss b 0 h1 (fun c hcc => by
    obtain ⟨i, hi, rfl⟩ := List.mem_iff_getElem.mp hcc
    exact (List.forall₂_iff_get.mp h2).2 i hi (by rw [List.length_map]; omega) |>.1) (by omega)
  rw [readAll_loc _ _ _ h2] at e1
  refine ⟨l, ?_, ?_⟩
  · unfold dSave
    rw [e, Option.bind_some, e2]
    simp
  · rw [readAll_map _ _ _ e1, List.map_map]
    rfl

/-- **C33, `DisplacedGrid<…, true>::loadRegion`.** Loading a buffer into a region of cells stored in the grid gives each cell of the region its value from the
buffer, and changes no other cell. -/
theorem displaced_load (hn : n ≤ 2) (d : DGrid α) (hd : DGridOK n wraps d) (b : List α) (r : Idx) (off : Crd) (hr : RegOK n r)
    (hl : (regionCells n r off).length ≤ b.length) (hc : ∀ c ∈ regionCells n r off, Stored n wraps d c) :
    ∃ d', dLoad n wraps true d b r off = some d' ∧ DGridOK n wraps d' ∧ d'.origin = d.origin ∧ d'.topo = d.topo ∧ d'.delegate.dim = d.delegate.dim ∧
      (∀ i (h : i < (regionCells n r off).length), dRead n wraps true d' (regionCells n r off)[i] = some (b[i]'(lt_of_lt_of_le h hl))) ∧
      ∀ c', Held n wraps d c' → (∀ c ∈ regionCells n r off, ¬ DSame n wraps d c c') → dRead n wraps true d' c' = dRead n wraps true d c' := by
  obtain ⟨ss, e, h1, h2⟩ := normStreaks_spec hn hd r off hr hc
  have hlen := h2.length_eq
  rw [List.length_map] at hlen
  have eload : loadLoop n wraps ss b d.delegate = writeAll n wraps (((regionCells n r off).map (dRel n wraps true d)).zip b) d.delegate := by
    rw [loadLoop_eq hn ss b d.delegate hd.delegate h1 (fun c hcc => by
      obtain ⟨i, hi, rfl⟩ := List.mem_iff_getElem.mp hcc
      exact (List.forall₂_iff_get.mp h2).2 i hi (by rw [List.length_map]; omega) |>.1) (by omega)]
    exact writeAll_loc _ _ _ h2 b
  have hheld : ∀ c ∈ regionCells n r off, Held n wraps d c := fun c h => ((hc c h).isHeld hd).1
  obtain ⟨g', e1, h3, h4, h5⟩ := applyW_spec hn ((((regionCells n r off).map (dRel n wraps true d)).zip b).map fun p => ((some p.1 : Option Crd), p.2)) d.delegate hd.delegate
    (fun c v hcv => by
      obtain ⟨p, hp, ep⟩ := List.mem_map.mp hcv
      cases ep
      obtain ⟨c0, hc0, ec⟩ := List.mem_map.mp (List.of_mem_zip hp).1
      rw [← ec]
      exact dRel_onePeriod hd (hheld c0 hc0))
  rw [applyW_cells] at e1
  refine ⟨{ d with delegate := g' }, ?_, ⟨h3, by simpa only [h4] using hd.fits, hd.origin⟩, rfl, rfl, h4, ?_, ?_⟩
  · unfold dLoad
    rw [e, Option.bind_some, eload, e1]
    rfl
  · intro i hi
    have hmem := List.getElem_mem hi
    refine (h5 _ (dRel_onePeriod hd (hheld _ hmem))).1 _ ?_
    have hi' : i < ((regionCells n r off).map (dRel n wraps true d)).length := by rw [List.length_map]; exact hi
    refine last_of_zip _ _ _ b i hi' (lt_of_lt_of_le hi hl) _ ?_ ?_
    · rw [List.getElem_map, dSame_iff hd (hheld _ hmem) (hheld _ hmem)]
      exact Or.inr ⟨((hc _ hmem).isHeld hd).2, ((hc _ hmem).isHeld hd).2, fun k _ => by split <;> rfl⟩
    · intro j hj hjl
      rw [List.length_map] at hjl
      have hmem' := List.getElem_mem hjl
      rw [List.getElem_map, dSame_iff hd (hheld _ hmem') (hheld _ hmem)]
      intro hs
      rcases hs with hs | ⟨_, _, hs⟩
      · exact ((hc _ hmem').isHeld hd).2 hs.1
      · obtain ⟨a1, a2⟩ := regionCells_getElem r off i hi
        obtain ⟨b1, b2⟩ := regionCells_getElem r off j hjl
        have heq : (regCoords n r)[j] = (regCoords n r)[i] := by
          apply ext_inj
          intro k hk
          have h6 := hs k hk
          have h7 := (hc _ hmem').inside k hk
          have h8 := (hc _ hmem).inside k hk
          have h9 : (regionCells n r off)[j] k = (regionCells n r off)[i] k := by
            split at h6
            · rwa [Int.emod_eq_of_lt h7.1 h7.2, Int.emod_eq_of_lt h8.1 h8.2] at h6
            · exact h6
          rw [a2, b2] at h9
          simp only at h9
          omega
        have := (List.Nodup.getElem_inj_iff (regCoords_nodup n r hr)).mp heq
        omega
  · intro c' hc' hno
    refine (h5 _ (dRel_onePeriod hd hc')).2 ?_
    intro w hw
    obtain ⟨p, hp, ep⟩ := List.mem_map.mp hw
    obtain ⟨c0, hc0, ec⟩ := List.mem_map.mp (List.of_mem_zip hp).1
    rw [← ep]
    unfold Hits
    simp only
    rw [← ec, dSame_iff hd (hheld c0 hc0) hc']
    exact hno c0 hc0

/-- a coordinate of the box itself (not of one of its periodic images) -/
def InBox (n : Nat) (d : DGrid α) (c : Crd) : Prop := ∀ k, k ≤ n → d.origin k ≤ c k ∧ c k < d.origin k + d.delegate.dim k

theorem inBox_rel {d : DGrid α} (hd : DGridOK n wraps d) {c : Crd} (h : InBox n d c) :
    Held n wraps d c ∧ (∀ k, k ≤ n → dRel n wraps true d c k = c k - d.origin k) := by
  have hm : ∀ k, k ≤ n → (c k - d.origin k) % d.topo k = c k - d.origin k := fun k hk => by
    have := h k hk
    have := hd.fits k hk
    exact Int.emod_eq_of_lt (by omega) (by omega)
  have hh : Held n wraps d c := fun k hk _ => by
    have := h k hk
    have := hd.fits k hk
    rw [hm k hk]
    omega
  refine ⟨hh, fun k hk => ?_⟩
  rw [(dRel_inside hd (fun ⟨k, hk, _, hn⟩ => hn (h k hk)) hh).2 k hk, hm k hk]

theorem relStreak_coords (d : DGrid α) (s : Streak) : (coordsOf (relStreak d s)).map (restrict n) = ((coordsOf s).map fun c k => c k - d.origin k).map (restrict n) := by
  have e : ∀ m x, (coordsFrom (relStreak d s) m (x - d.origin 0)).map (restrict n) = ((coordsFrom s m x).map fun c k => c k - d.origin k).map (restrict n) := by
    intro m
    induction m with
    | zero => intro x; rfl
    | succ m ih =>
      intro x
      rw [coordsFrom, coordsFrom, List.map_cons, List.map_cons, List.map_cons, show x - d.origin 0 + 1 = x + 1 - d.origin 0 by ring, ih]
      congr 1
      funext k
      simp only [restrict, upd, relStreak]
      split
      · rename_i h; rw [h]
      · rfl
  unfold coordsOf
  rw [← e]
  simp only [relStreak]
  congr 2
  congr 1
  ring

/-- cell by cell writes to a displaced grid -/
def dWriteAll (n : Nat) (wraps : Nat → Bool) (d : DGrid α) (ws : List (Crd × α)) : Option (DGrid α) := ws.foldlM (fun d w => dWrite n wraps true d w.1 w.2) d

/-- **C33, `DisplacedGrid<…, true>`, streaks.** Within the box, streak-wise accesses are the same as cell-wise ones. (Not so for periodic images of the box, see
`displaced_streak_partial_negation`.) -/
theorem displaced_streak_partial (hn : n ≤ 2) (d : DGrid α) (hd : DGridOK n wraps d) (s : Streak) (hs : s.origin 0 ≤ s.endX) (hc : ∀ c ∈ coordsOf s, InBox n d c) :
    (∃ l, dGetStreak n wraps d s = some l ∧ l.map some = (coordsOf s).map (dRead n wraps true d)) ∧
      ∀ src : List α, s.endX - s.origin 0 ≤ src.length → dSetStreak n wraps d s src = dWriteAll n wraps d ((coordsOf s).zip src) := by
  have hrel : (coordsOf (relStreak d s)).map (restrict n) = ((coordsOf s).map (dRel n wraps true d)).map (restrict n) := by
    rw [relStreak_coords, List.map_map, List.map_map]
    apply List.map_congr_left
    intro c h
    funext k
    exact ((inBox_rel hd (hc c h)).2 k (by omega)).symm
  constructor
  · unfold dGetStreak
    rw [getStreak_eq hn hd.delegate _ (by simp only [relStreak]; omega), readAll_congr hn _ _ _ hrel]
    have : ∀ cs : List Crd, (∀ c ∈ cs, InBox n d c) → ∃ l, readAll n wraps d.delegate (cs.map (dRel n wraps true d)) = some l ∧ l.map some = cs.map (dRead n wraps true d) := by
      intro cs
      induction cs with
      | nil => intro _; exact ⟨[], rfl, rfl⟩
      | cons c cs ih =>
        intro h
        obtain ⟨v, e⟩ := read_some hn hd.delegate (dRel_onePeriod hd (inBox_rel hd (h c (List.mem_cons_self ..))).1)
        obtain ⟨l, e1, e2⟩ := ih (fun c hc => h c (List.mem_cons_of_mem _ hc))
        refine ⟨v :: l, by rw [List.map_cons, readAll, e, e1]; rfl, ?_⟩
        rw [List.map_cons, List.map_cons, e2, ← e]
        rfl
    exact this _ hc
  · intro src hl
    unfold dSetStreak
    rw [setStreak_eq hn hd.delegate _ (by simp only [relStreak]; omega) src (by simp only [relStreak]; omega), writeAll_congr hn _ _ src hrel]
    have : ∀ (cs : List Crd) (src : List α) (g : Grid α), (writeAll n wraps ((cs.map (dRel n wraps true d)).zip src) g).map (fun g => { d with delegate := g }) =
        dWriteAll n wraps { d with delegate := g } (cs.zip src) := by
      intro cs
      induction cs with
      | nil => intro src g; rfl
      | cons c cs ih =>
        intro src g
        cases src with
        | nil => rfl
        | cons v src =>
          rw [List.map_cons, List.zip_cons_cons, List.zip_cons_cons, writeAll]
          unfold dWriteAll
          rw [List.foldlM_cons]
          simp only [dWrite]
          have e : dRel n wraps true { d with delegate := g } c = dRel n wraps true d c := rfl
          rw [e]
          cases gridWrite n wraps g (dRel n wraps true d c) v with
          | none => rfl
          | some g' => exact ih src g'
    exact this _ src d.delegate

/-! ## the code deviates -/

/-- four cells at x = 8, 9, 0, 1 of a ring of ten -/
def ring : DGrid Int := { delegate := { dim := fun _ => 4, cells := [18, 19, 10, 11], edge := -1 }, origin := fun _ => 8, topo := fun _ => 10 }

theorem ring_ok : DGridOK 0 (fun _ => true) ring :=
  ⟨⟨fun _ _ => by simp [ring], by decide⟩, fun _ _ => by simp [ring], fun _ _ _ => by simp [ring]⟩

/-- **C33, deviation.** Cells which are stored in a topologically correct displaced grid can be accessed one by one, but the streak accessors forget the
periodicity of the simulation space and leave the allocated memory. -/
theorem displaced_streak_partial_negation :
    ∃ (d : DGrid Int) (s : Streak), DGridOK 0 (fun _ => true) d ∧ (∀ c ∈ coordsOf s, Stored 0 (fun _ => true) d c) ∧
      (coordsOf s).map (dRead 0 (fun _ => true) true d) = [some 10, some 11] ∧ dGetStreak 0 (fun _ => true) d s = none ∧
      dSetStreak 0 (fun _ => true) d s [20, 21] = none := by
  refine ⟨ring, ⟨fun _ => 0, 2⟩, ring_ok, ?_, by decide, by decide, ?_⟩
  · intro c hc
    have hk : c 0 = 0 ∨ c 0 = 1 := by
      have : c = upd (fun _ => 0) 0 0 ∨ c = upd (fun _ => 0) 0 1 := by simpa [coordsOf, coordsFrom] using hc
      rcases this with rfl | rfl <;> simp [upd]
    constructor
    · intro k hk'
      obtain rfl : k = 0 := by omega
      simp only [ring]
      omega
    · intro k hk'
      obtain rfl : k = 0 := by omega
      simp only [ring, if_true]
      omega
  · unfold dSetStreak
    rw [Option.map_eq_none_iff]
    have : (gridSetStreak 0 (fun _ => true) ring.delegate (relStreak ring ⟨fun _ => 0, 2⟩) [20, 21]).isNone = true := by decide
    exact Option.isNone_iff_eq_none.mp this

/-- one row of three cells in a grid with constant boundaries -/
def row : DGrid Int :=
  { delegate := { dim := fun k => if k = 0 then 3 else 1, cells := [12, 13, 14], edge := -1 }, origin := fun k => if k = 0 then 2 else 0,
    topo := fun k => if k = 0 then 10 else 5 }

/-- the cells (0,0) and (3,0) -/
def gapRegion : Idx := fun k => if k = 0 then [(0, 1), (3, 4)] else if k = 1 then [(0, 0)] else []

/-- **C33, deviation.** `saveRegion` of a topologically correct displaced grid: once a streak of a row starts outside of a constant boundary, the following streaks
of the same row are taken to be outside, too, so that the edge cell is stored instead of the actual cell. -/
theorem displaced_save_partial_negation :
    ∃ (d : DGrid Int) (r : Idx), DGridOK 1 (fun _ => false) d ∧ RegOK 1 r ∧ (∀ c ∈ regionCells 1 r (fun _ => 0), Held 1 (fun _ => false) d c) ∧
      (regionCells 1 r (fun _ => 0)).map (dRead 1 (fun _ => false) true d) = [some (-1), some 13] ∧
      dSave 1 (fun _ => false) true d [0, 0] r (fun _ => 0) = some [-1, -1] := by
  have hr : RegOK 1 gapRegion := by
    obtain ⟨r, e, ⟨t, h⟩, _⟩ := insAll_spec 1 [⟨fun _ => 0, 1⟩, ⟨fun k => if k = 0 then 3 else 0, 4⟩] emptyIdx (regOK_empty 1)
    have h0 : (insAll 1 emptyIdx [⟨fun _ => 0, 1⟩, ⟨fun k => if k = 0 then 3 else 0, 4⟩]).map (fun r => (r 0, r 1)) = some (gapRegion 0, gapRegion 1) := by decide +kernel
    rw [e] at h0
    simp only [Option.map_some, Option.some.injEq, Prod.mk.injEq] at h0
    refine ⟨t, h.ok, fun k hk => ?_⟩
    rw [← h.eq k hk]
    rcases (by omega : k = 0 ∨ k = 1) with rfl | rfl
    · exact h0.1.symm
    · exact h0.2.symm
  refine ⟨row, gapRegion, ⟨⟨?_, by decide⟩, ?_, fun _ _ h => by cases h⟩, hr, fun c _ k _ h => (by cases h), by decide +kernel, by decide +kernel⟩
  · intro k hk; simp only [row]; split <;> omega
  · intro k hk; simp only [row]; split <;> omega

/-! ## examples -/

/-- a region which crosses the seam of the ring: its cells are stored in the grid, and transferred correctly -/
example : ∃ r, RegOK 0 r ∧ (∀ c ∈ regionCells 0 r (fun _ => 0), Stored 0 (fun _ => true) ring c) ∧ (regionCells 0 r (fun _ => 0)).length = 4 ∧
    dSave 0 (fun _ => true) true ring [0, 0, 0, 0, 7] r (fun _ => 0) = some [10, 11, 18, 19, 7] := by
  refine ⟨fun k => if k = 0 then [(0, 2), (8, 10)] else [], ?_, ?_, by decide +kernel, by decide +kernel⟩
  · obtain ⟨r, e, ⟨t, h⟩, _⟩ := insAll_spec 0 [⟨fun _ => 0, 2⟩, ⟨fun _ => 8, 10⟩] emptyIdx (regOK_empty 0)
    have h0 : (insAll 0 emptyIdx [⟨fun _ => 0, 2⟩, ⟨fun _ => 8, 10⟩]).map (fun r => r 0) = some [(0, 2), (8, 10)] := by decide +kernel
    rw [e] at h0
    simp only [Option.map_some, Option.some.injEq] at h0
    refine ⟨t, h.ok, fun k hk => ?_⟩
    rw [← h.eq k hk]
    obtain rfl : k = 0 := by omega
    exact h0.symm
  · have key : ∀ c ∈ regionCells 0 (fun k => if k = 0 then [(0, 2), (8, 10)] else []) (fun _ => 0), c 0 ∈ [(0 : Int), 1, 8, 9] := by
      intro c hc
      have : c 0 ∈ (regionCells 0 (fun k => if k = 0 then [(0, 2), (8, 10)] else []) (fun _ => 0)).map (fun c => c 0) := List.mem_map.mpr ⟨c, hc, rfl⟩
      rwa [show (regionCells 0 (fun k => if k = 0 then [(0, 2), (8, 10)] else []) (fun _ => 0)).map (fun c => c 0) = [(0 : Int), 1, 8, 9] by decide +kernel] at this
    intro c hc
    have h := key c hc
    simp only [List.mem_cons, List.not_mem_nil, or_false] at h
    constructor
    · intro k hk
      obtain rfl : k = 0 := by omega
      simp only [ring]
      omega
    · intro k hk
      obtain rfl : k = 0 := by omega
      simp only [ring, if_true]
      omega

/-- a history: cell, streak across the periodic border, cell outside of the constant border, read -/
example : ((run 1 (fun k => decide (k = 0)) (gridMake 1 (fun k => if k = 0 then 4 else 3) (0 : Int) (-1))
      [.set (fun _ => 1) 5, .setStreak ⟨fun k => if k = 0 then 3 else 1, 6⟩ [7, 8, 9], .set (fun k => if k = 0 then 1 else -1) 6]).map fun g =>
    ([(-1, 1), (0, 1), (1, 1), (2, 1), (2, 3), (7, 2)] : List (Int × Int)).map fun c => gridRead 1 (fun k => decide (k = 0)) g (fun k => if k = 0 then c.1 else c.2)) =
    some [some 7, some 8, some 9, some 0, some 6, some 0] := by
  decide +kernel

end LGD.C33
