import Verif.Store.CudaGridLemmas

/-!
# C67: a grid in CUDA memory agrees with a grid in host memory

`Fine` are the coordinates which `get` and `set` may be given, `InBox` the ones which streaks and regions may consist of.
-/

namespace LGD.C67
open LGD.C13 LGD.C14 LGD.C33 LGD.Store LGD.Step

variable {α : Type} {n : Nat} {wraps : Nat → Bool} {tc : Bool}

/-! ## Which coordinates are fine -/

/-- Without periodic axes, all coordinates are. -/
theorem fine_cube (g : CGrid α) (c : Crd) : Fine n (fun _ => false) tc g c := by
  by_cases h : InDim n g.dim (cRel n (fun _ => false) tc g c)
  · exact Or.inl h
  · refine Or.inr ⟨?_, fun k _ hw => (by cases hw)⟩
    unfold InDim at h
    push Not at h
    obtain ⟨k, hk, hh⟩ := h
    exact ⟨k, hk, rfl, fun h' => absurd (hh h'.1) (by omega)⟩

/-- With periodic axes, the ones at most one period away from the box if the grid is topologically correct and covers the whole simulation space. -/
theorem fine_torus {g : CGrid α} (hpos : ∀ k, k ≤ n → 0 < g.dim k) (htopo : ∀ k, k ≤ n → g.topo k = g.dim k) (c : Crd)
    (hc : OnePeriod n wraps g.dim fun k => c k - g.origin k) : Fine n wraps true g c := by
  have hc' : OnePeriod n wraps g.topo fun k => c k - g.origin k := fun k hk hw => by rw [htopo k hk]; exact hc k hk hw
  obtain ⟨h1, h2⟩ := normalize_spec n wraps g.topo (fun k => c k - g.origin k) (fun k hk => by rw [htopo k hk]; exact hpos k hk) hc'
  have e : cRel n wraps true g c = topoNormalize n wraps (fun k => c k - g.origin k) g.topo := by simp [cRel]
  unfold Fine
  rw [e]
  by_cases ho : Outside n wraps g.topo fun k => c k - g.origin k
  · right
    obtain ⟨k, hk, hw, _⟩ := id ho
    refine ⟨⟨k, hk, hw, ?_⟩, ?_⟩
    · rw [h1 ho k]
      omega
    · intro j hj _
      rw [h1 ho j]
      have := hpos j hj
      omega
  · left
    intro k hk
    have := (h2 ho).2.1 k hk
    rw [htopo k hk] at this
    exact this

/-- Coordinates in the box always are. -/
theorem fine_box {g : CGrid α} (h : CGridOK n tc g) {c : Crd} (hc : InBox n g c) : Fine n wraps tc g c := Or.inl (rel_inDim h hc)

/-! ## Histories -/

/-- operations which modify a grid -/
inductive Op (α : Type) where
  | set (c : Crd) (v : α)
  | setEdge (v : α)
  | setStreak (s : Streak) (src : List α)
  | loadRegion (buffer : List α) (region : Idx) (offset : Crd)

/-- what the code does; `region.size()` is the number of coordinates (C04) -/
def exec (n : Nat) (wraps : Nat → Bool) (tc : Bool) (g : CGrid α) : Op α → Except CErr (CGrid α)
  | .set c v => cSet n wraps tc g c v
  | .setEdge v => .ok (cSetEdge g v)
  | .setStreak s src => cSetStreak n wraps tc g s src
  | .loadRegion b r off => cLoad n wraps tc g b r (regCoords n r).length off

def run (n : Nat) (wraps : Nat → Bool) (tc : Bool) (g : CGrid α) (ops : List (Op α)) : Except CErr (CGrid α) := ops.foldlM (exec n wraps tc) g

/-- the writes which an operation stands for -/
def Op.writes (n : Nat) : Op α → List (W α)
  | .set c v => [(some c, v)]
  | .setEdge v => [(none, v)]
  | .setStreak s src => ((coordsOf s).zip src).map fun p => (some p.1, p.2)
  | .loadRegion b r off => ((regionCells n r off).zip b).map fun p => (some p.1, p.2)

/-- preconditions -/
def Op.OK (n : Nat) (wraps : Nat → Bool) (tc : Bool) (g : CGrid α) : Op α → Prop
  | .set c _ => Fine n wraps tc g c
  | .setEdge _ => True
  | .setStreak s src => StreakIn n g s ∧ sLen s ≤ src.length
  | .loadRegion b r off => RegOK n r ∧ (regionCells n r off).length ≤ b.length ∧ ∀ c ∈ regionCells n r off, InBox n g c

/-- the same operation on a host grid at relative coordinates -/
def Op.toHost (n : Nat) (wraps : Nat → Bool) (tc : Bool) (g : CGrid α) : Op α → C33.Op α
  | .set c v => .set (cRel n wraps tc g c) v
  | .setEdge v => .setEdge v
  | .setStreak s src => .setStreak (relS g s) src
  | .loadRegion b r off => .loadRegion b r fun k => off k - g.origin k

theorem regionCells_rel (r : Idx) (off o : Crd) : regionCells n r (fun k => off k - o k) = (regionCells n r off).map fun c k => c k - o k := by
  unfold regionCells
  rw [List.map_map]
  congr 1
  funext c k
  simp only [Function.comp]
  omega

theorem coordsFrom_rel (s : Streak) (o : Crd) (e : Int) (m : Nat) (x : Int) :
    coordsFrom ⟨fun k => s.origin k - o k, e⟩ m (x - o 0) = (coordsFrom s m x).map fun c k => c k - o k := by
  induction m generalizing x with
  | zero => rfl
  | succ m ih =>
    rw [coordsFrom, coordsFrom, List.map_cons]
    congr 1
    · funext k
      unfold upd
      split
      · rename_i h; rw [h]
      · rfl
    · rw [show x - o 0 + 1 = x + 1 - o 0 by ring]
      exact ih (x + 1)

theorem coordsOf_rel (g : CGrid α) (s : Streak) : coordsOf (relS g s) = (coordsOf s).map fun c k => c k - g.origin k := by
  unfold coordsOf
  have e : ((relS g s).endX - (relS g s).origin 0).toNat = (s.endX - s.origin 0).toNat := by
    simp only [relS]
    congr 1
    ring
  rw [e]
  exact coordsFrom_rel s g.origin _ _ _

theorem mem_coordsOf {s : Streak} {c : Crd} (hc : c ∈ coordsOf s) : ∃ x, c = upd s.origin 0 x ∧ s.origin 0 ≤ x ∧ x < s.endX := by
  have : ∀ (m : Nat) (x : Int), c ∈ coordsFrom s m x → ∃ y, c = upd s.origin 0 y ∧ x ≤ y ∧ y < x + m := by
    intro m
    induction m with
    | zero => intro x h; simp [coordsFrom] at h
    | succ m ih =>
      intro x h
      rw [coordsFrom] at h
      rcases List.mem_cons.1 h with h | h
      · exact ⟨x, h, by omega, by push_cast; omega⟩
      · obtain ⟨y, h1, h2, h3⟩ := ih _ h
        exact ⟨y, h1, by omega, by push_cast; omega⟩
  obtain ⟨x, h1, h2, h3⟩ := this _ _ hc
  exact ⟨x, h1, h2, by omega⟩

theorem streak_cells_in {g : CGrid α} {s : Streak} (hs : StreakIn n g s) {c : Crd} (hc : c ∈ coordsOf s) : InBox n g c := by
  obtain ⟨x, rfl, h1, h2⟩ := mem_coordsOf hc
  obtain ⟨a, _, b⟩ := hs
  have a0 : 0 ≤ s.origin 0 - g.origin 0 ∧ s.origin 0 - g.origin 0 < g.dim 0 := a 0 (by omega)
  intro k hk
  change 0 ≤ upd s.origin 0 x k - g.origin k ∧ upd s.origin 0 x k - g.origin k < g.dim k
  unfold upd
  split
  · rename_i h
    subst h
    omega
  · exact a k hk

theorem onePeriod_rel {g : CGrid α} {c : Crd} (h : Fine n wraps tc g c) : OnePeriod n wraps g.dim (cRel n wraps tc g c) := by
  rcases h with h | h
  · exact onePeriod_of_inDim h
  · exact h.2

theorem toHost_ok {g : CGrid α} (op : Op α) (h : op.OK n wraps tc g) : (op.toHost n wraps tc g).OK n wraps g.dim := by
  cases op with
  | set c v => exact onePeriod_rel h
  | setEdge v => trivial
  | setStreak s src =>
    obtain ⟨h1, h2⟩ := h
    have h0 := h1.2.1
    refine ⟨?_, ?_, ?_⟩
    · simp only [relS]; omega
    · simp only [relS]; unfold sLen at h2; omega
    · intro c hc
      rw [coordsOf_rel] at hc
      obtain ⟨d, hd, rfl⟩ := List.mem_map.1 hc
      exact onePeriod_of_inDim (streak_cells_in h1 hd)
  | loadRegion b r off =>
    obtain ⟨h1, h2, h3⟩ := h
    refine ⟨h1, ?_, ?_⟩
    · rw [regionCells_rel, List.length_map]; exact h2
    · intro c hc
      rw [regionCells_rel] at hc
      obtain ⟨d, hd, rfl⟩ := List.mem_map.1 hc
      exact onePeriod_of_inDim (h3 d hd)

/-- the streaks of a region, moved to relative coordinates -/
theorem region_streaks {g : CGrid α} {r : Idx} (hr : RegOK n r) (off : Crd) (hin : ∀ c ∈ regionCells n r off, InBox n g c) :
    ∃ ss, toVector n r = some ss ∧ (∀ s ∈ ss, StreakIn n g (moveS off s)) ∧ (ss.map sLen).sum = (regCoords n r).length ∧
      ((ss.map fun s => relS g (moveS off s)).flatMap coordsOf).map (restrict n) = (regionCells n r (fun k => off k - g.origin k)).map (restrict n) := by
  obtain ⟨ss, e, _, hc⟩ := toVector_spec hr
  have hcells : (ss.map fun s => relS g (moveS off s)).flatMap coordsOf = ss.flatMap fun s => (coordsOf s).map fun c k => c k - (g.origin k - off k) := by
    rw [List.flatMap_map]
    congr 1
    funext s
    rw [coordsOf_rel]
    unfold coordsOf
    have e1 : ((moveS off s).endX - (moveS off s).origin 0).toNat = (s.endX - s.origin 0).toNat := sLen_move off s
    rw [e1]
    have := coordsFrom_rel s (fun k => - off k) (s.endX + off 0) (s.endX - s.origin 0).toNat (s.origin 0)
    have e2 : moveS off s = ⟨fun k => s.origin k - - off k, s.endX + off 0⟩ := by
      unfold moveS plus
      congr 1
      funext k
      omega
    have e3 : (moveS off s).origin 0 = s.origin 0 - (fun k => - off k) 0 := by
      simp only [moveS, plus]
      omega
    rw [e3, e2, this, List.map_map]
    apply List.map_congr_left
    intro c _
    funext k
    simp only [Function.comp]
    omega
  have hreg : (regionCells n r (fun k => off k - g.origin k)).map (restrict n) =
      ((ss.flatMap coordsOf).map fun c k => c k - (g.origin k - off k)).map (restrict n) := by
    unfold regionCells regCoords
    rw [e, Option.getD_some, List.map_map, List.map_map, List.map_map]
    apply List.map_congr_left
    intro c _
    funext k
    simp only [Function.comp, restrict]
    rw [show ext (restrict n c) k = c k from ext_restrict n c k (by omega)]
    omega
  have hpos := hc.pos
  have hlen : (ss.map sLen).sum = (regCoords n r).length := by
    unfold regCoords
    rw [e, Option.getD_some, List.length_map, List.length_flatMap]
    congr 1
    apply List.map_congr_left
    intro s _
    rw [coordsOf_length]
    rfl
  refine ⟨ss, e, ?_, hlen, ?_⟩
  · intro s hs
    have hp := hpos s hs
    -- first and last cell of the streak
    have hmem : ∀ x, s.origin 0 ≤ x → x < s.endX → InDim n g.dim fun k => upd s.origin 0 x k - (g.origin k - off k) := by
      intro x h1 h2
      have hx : upd s.origin 0 x ∈ coordsOf s := by
        have : ∀ (m : Nat) (y : Int), y ≤ x → x < y + m → upd s.origin 0 x ∈ coordsFrom s m y := by
          intro m
          induction m with
          | zero => intro y a b; exfalso; push_cast at b; omega
          | succ m ih =>
            intro y a b
            rw [coordsFrom]
            by_cases hxy : x = y
            · rw [hxy]; simp
            · exact List.mem_cons_of_mem _ (ih (y + 1) (by omega) (by push_cast at b ⊢; omega))
        exact this _ _ h1 (by omega)
      have h3 : restrict n (fun k => upd s.origin 0 x k - (g.origin k - off k)) ∈ (regionCells n r (fun k => off k - g.origin k)).map (restrict n) := by
        rw [hreg]
        exact List.mem_map.2 ⟨_, List.mem_map.2 ⟨_, List.mem_flatMap.2 ⟨s, hs, hx⟩, rfl⟩, rfl⟩
      obtain ⟨d, hd, hde⟩ := List.mem_map.1 h3
      rw [regionCells_rel] at hd
      obtain ⟨d', hd', rfl⟩ := List.mem_map.1 hd
      intro k hk
      have := congrFun hde ⟨k, by omega⟩
      simp only [restrict] at this
      change 0 ≤ upd s.origin 0 x k - (g.origin k - off k) ∧ upd s.origin 0 x k - (g.origin k - off k) < g.dim k
      rw [← this]
      exact hin d' hd' k hk
    refine ⟨?_, ?_, ?_⟩
    · intro k hk
      have := hmem (s.origin 0) (by omega) hp k hk
      rw [upd_self] at this
      have this : 0 ≤ s.origin k - (g.origin k - off k) ∧ s.origin k - (g.origin k - off k) < g.dim k := this
      change 0 ≤ s.origin k + off k - g.origin k ∧ s.origin k + off k - g.origin k < g.dim k
      omega
    · simp only [moveS, plus]
      omega
    · have := hmem (s.endX - 1) (by omega) (by omega) 0 (by omega)
      simp only [upd, if_true, moveS] at this ⊢
      omega
  · rw [hcells, hreg, ← List.map_flatMap]

theorem load_host (hn : n ≤ 2) {g : CGrid α} (h : CGridOK n tc g) {b : List α} {r : Idx} {off : Crd} (hr : RegOK n r) (hb : (regionCells n r off).length ≤ b.length)
    (hin : ∀ c ∈ regionCells n r off, InBox n g c) :
    ∃ g', cLoad n wraps tc g b r (regCoords n r).length off = .ok g' ∧ CGridOK n tc g' ∧ g'.origin = g.origin ∧ g'.dim = g.dim ∧ g'.topo = g.topo ∧
      gridLoad n wraps (host g) b r (fun k => off k - g.origin k) = some (host g') := by
  obtain ⟨ss, e, h1, h2, h3⟩ := region_streaks hr off hin
  rw [regionCells_length] at hb
  obtain ⟨g', e1, k1, k2, k3, k4, e2⟩ := loadLoop_host (wraps := wraps) hn off ss b g h h1 (by omega)
  refine ⟨g', ?_, k1, k2, k3, k4, ?_⟩
  · unfold cLoad
    rw [if_neg (by omega), e]
    exact e1
  · have hp : ∀ c ∈ regionCells n r (fun k => off k - g.origin k), OnePeriod n wraps (host g).dim c := by
      intro c hc
      rw [regionCells_rel] at hc
      obtain ⟨d, hd, rfl⟩ := List.mem_map.1 hc
      exact onePeriod_of_inDim (hin d hd)
    have hlen : ((ss.map fun s => relS g (moveS off s)).flatMap coordsOf).length = (regCoords n r).length := by
      have := congrArg List.length h3
      simpa only [List.length_map, regionCells_length] using this
    rw [load_eq hn (host_ok h) b r _ hr (by rw [regionCells_length]; omega) hp, ← writeAll_congr hn _ _ b h3, ← e2]
    symm
    refine loadLoop_eq hn _ b (host g) (host_ok h) ?_ ?_ (by omega)
    · intro s hs
      obtain ⟨s', hs', rfl⟩ := List.mem_map.1 hs
      have := (h1 s' hs').2.1
      simp only [relS]
      omega
    · intro c hcc
      obtain ⟨d, hd, hk⟩ := mem_restrict h3 hcc
      exact onePeriod_congr hk (hp d hd)

/-- one operation -/
theorem exec_host (hn : n ≤ 2) {g : CGrid α} (h : CGridOK n tc g) (op : Op α) (ho : op.OK n wraps tc g) :
    ∃ g', exec n wraps tc g op = .ok g' ∧ CGridOK n tc g' ∧ g'.origin = g.origin ∧ g'.dim = g.dim ∧ g'.topo = g.topo ∧
      C33.exec n wraps (host g) (op.toHost n wraps tc g) = some (host g') := by
  cases op with
  | set c v => exact set_eq hn h ho v
  | setEdge v => exact ⟨cSetEdge g v, rfl, ⟨h.pos, h.size, h.cap, rfl, h.topo⟩, rfl, rfl, rfl, rfl⟩
  | setStreak s src => exact setStreak_host hn h ho.1 src ho.2 rfl
  | loadRegion b r off => exact load_host hn h ho.1 ho.2.1 ho.2.2

theorem ok_congr {g g' : CGrid α} (ho : g'.origin = g.origin) (hd : g'.dim = g.dim) (ht : g'.topo = g.topo) (op : Op α) (h : op.OK n wraps tc g) : op.OK n wraps tc g' := by
  have hr : ∀ c, cRel n wraps tc g' c = cRel n wraps tc g c := fun c => by unfold cRel; rw [ho, ht]
  cases op with
  | set c v =>
    have h : Fine n wraps tc g c := h
    change Fine n wraps tc g' c
    unfold Fine at h ⊢
    rw [hr, hd]
    exact h
  | setEdge v => trivial
  | setStreak s src =>
    have h : StreakIn n g s ∧ _ := h
    change StreakIn n g' s ∧ _
    unfold StreakIn InBox at h ⊢
    rw [ho, hd]
    exact h
  | loadRegion b r off =>
    have h : RegOK n r ∧ _ ∧ ∀ c ∈ regionCells n r off, InBox n g c := h
    change RegOK n r ∧ _ ∧ ∀ c ∈ regionCells n r off, InBox n g' c
    unfold InBox at h ⊢
    rw [ho, hd]
    exact h

/-- **C67, agreement with the host.** After the same history of writes – cell-wise, streak-wise, region-wise, and of the edge cell – a grid in CUDA memory has the same contents as one in host
memory; none of these operations leaves its block of memory, and `getEdge()` returns the edge cell which kernels see. -/
theorem agrees_with_host (hn : n ≤ 2) (ops : List (Op α)) : ∀ {g : CGrid α}, CGridOK n tc g → (∀ op ∈ ops, op.OK n wraps tc g) →
    ∃ g', run n wraps tc g ops = .ok g' ∧ CGridOK n tc g' ∧ g'.origin = g.origin ∧ g'.dim = g.dim ∧ g'.topo = g.topo ∧
      C33.run n wraps (host g) (ops.map (Op.toHost n wraps tc g)) = some (host g') ∧ g'.edgeMem = [cGetEdge g'] := by
  induction ops with
  | nil => intro g h _; exact ⟨g, rfl, h, rfl, rfl, rfl, rfl, h.edge⟩
  | cons op ops ih =>
    intro g h ho
    obtain ⟨g1, e1, h1, o1, d1, t1, c1⟩ := exec_host (wraps := wraps) hn h op (ho op (by simp))
    obtain ⟨g2, e2, h2, o2, d2, t2, c2, s2⟩ := ih h1 (fun op' hm => ok_congr o1 d1 t1 op' (ho op' (by simp [hm])))
    refine ⟨g2, ?_, h2, o2.trans o1, d2.trans d1, t2.trans t1, ?_, s2⟩
    · unfold run at e2 ⊢
      rw [List.foldlM_cons, e1]
      exact e2
    · have hh : Op.toHost n wraps tc g1 = Op.toHost (α := α) n wraps tc g := by
        funext op
        cases op <;> simp only [Op.toHost, cRel, relS, o1, t1]
      rw [hh] at c2
      unfold C33.run at c2 ⊢
      rw [List.map_cons, List.foldlM_cons, c1]
      exact c2

/-- two lists of writes with the same effect on a cell -/
theorem last_transfer {same same' : Crd → Crd → Prop} {out out' : Crd → Prop} {d d' : Crd} {ws ws' : List (W α)}
    (h : List.Forall₂ (fun w w' => w.2 = w'.2 ∧ (Hits same out w d ↔ Hits same' out' w' d')) ws ws') :
    (∀ v, Last same out ws d v → Last same' out' ws' d' v) ∧ ((∀ w ∈ ws, ¬ Hits same out w d) → ∀ w ∈ ws', ¬ Hits same' out' w d') := by
  induction h with
  | nil =>
    refine ⟨?_, fun _ w hw => by simp at hw⟩
    rintro v ⟨a, w, b, hab, _⟩
    simp at hab
  | @cons w w' ws ws' hw _ ih =>
    refine ⟨?_, ?_⟩
    · rintro v ⟨a, x, b, hab, hx, hv, hb⟩
      cases a with
      | nil =>
        obtain ⟨rfl, rfl⟩ := List.cons.inj hab
        exact ⟨[], w', ws', rfl, hw.2.1 hx, hw.1 ▸ hv, ih.2 hb⟩
      | cons y a =>
        obtain ⟨a', x', b', h1, h2, h3, h4⟩ := ih.1 v ⟨a, x, b, (List.cons.inj hab).2, hx, hv, hb⟩
        exact ⟨w' :: a', x', b', by rw [h1]; rfl, h2, h3, h4⟩
    · intro hno x hx
      rcases List.mem_cons.1 hx with rfl | hx
      · exact fun hh => hno w (by simp) (hw.2.2 hh)
      · exact ih.2 (fun y hy => hno y (by simp [hy])) x hx

theorem same_congr {dim a a' b : Crd} (h : ∀ k, k ≤ n → a k = a' k) : Same n wraps dim a b ↔ Same n wraps dim a' b := by
  have key : ∀ {a a' : Crd}, (∀ k, k ≤ n → a k = a' k) → Same n wraps dim a b → Same n wraps dim a' b := by
    intro a a' h
    rintro (⟨h1, h2⟩ | ⟨h1, h2, h3⟩)
    · exact Or.inl ⟨outside_congr h h1, h2⟩
    · refine Or.inr ⟨fun hh => h1 (outside_congr (fun k hk => (h k hk).symm) hh), h2, fun k hk => ?_⟩
      rw [← h k hk]
      exact h3 k hk
  exact ⟨key h, key fun k hk => (h k hk).symm⟩

theorem forall₂_zip {cs : List Crd} {f : Crd → Crd} {l : List α} {R : W α → W α → Prop} (h : ∀ c ∈ cs, ∀ v, R (some c, v) (some (f c), v)) :
    List.Forall₂ R ((cs.zip l).map fun p => (some p.1, p.2)) (((cs.map f).zip l).map fun p => (some p.1, p.2)) := by
  induction cs generalizing l with
  | nil => simp
  | cons c cs ih =>
    cases l with
    | nil => simp
    | cons v l => exact List.Forall₂.cons (h c (by simp) v) (ih fun c' hc' => h c' (by simp [hc']))

/-- what a read depends on, and which coordinates denote the same cell -/
def SameCell (n : Nat) (wraps : Nat → Bool) (tc : Bool) (g : CGrid α) (a b : Crd) : Prop := Same n wraps g.dim (cRel n wraps tc g a) (cRel n wraps tc g b)

/-- **C67, histories.** A read returns the last value written to the same cell, or to the edge cell, or what it returned before. -/
theorem reads_last_write (hn : n ≤ 2) (ops : List (Op α)) {g : CGrid α} (h : CGridOK n tc g) (ho : ∀ op ∈ ops, op.OK n wraps tc g) :
    ∃ g', run n wraps tc g ops = .ok g' ∧ ∀ d, Fine n wraps tc g d →
      (∀ v, Last (SameCell n wraps tc g) (fun c => Outside n wraps g.dim (cRel n wraps tc g c)) (ops.flatMap (Op.writes n)) d v → cGet n wraps tc g' d = .ok v) ∧
      ((∀ w ∈ ops.flatMap (Op.writes n), ¬ Hits (SameCell n wraps tc g) (fun c => Outside n wraps g.dim (cRel n wraps tc g c)) w d) →
        cGet n wraps tc g' d = cGet n wraps tc g d) := by
  obtain ⟨g', e, h', o', d', t', c', _⟩ := agrees_with_host hn ops h ho
  obtain ⟨g2, e2, _, _, h4⟩ := history (wraps := wraps) hn (host g) (host_ok h) (ops.map (Op.toHost n wraps tc g)) (by
    intro op hop
    obtain ⟨op', hop', rfl⟩ := List.mem_map.1 hop
    exact toHost_ok op' (ho op' hop'))
  rw [c'] at e2
  cases e2
  refine ⟨g', e, ?_⟩
  intro d hd
  have hfine' : Fine n wraps tc g' d := by
    unfold Fine cRel at hd ⊢
    rw [o', d', t']
    exact hd
  have hrel : cRel n wraps tc g' d = cRel n wraps tc g d := by unfold cRel; rw [o', t']
  obtain ⟨v', r1, r2⟩ := get_eq hn h' hfine'
  obtain ⟨v0, r3, r4⟩ := get_eq hn h hd
  rw [hrel] at r2
  have hf : List.Forall₂ (fun w w' => w.2 = w'.2 ∧ (Hits (SameCell n wraps tc g) (fun c => Outside n wraps g.dim (cRel n wraps tc g c)) w d ↔
      Hits (Same n wraps (host g).dim) (Outside n wraps (host g).dim) w' (cRel n wraps tc g d))) (ops.flatMap (Op.writes n))
      ((ops.map (Op.toHost n wraps tc g)).flatMap (C33.Op.writes n)) := by
    clear e h4 c'
    induction ops with
    | nil => simp
    | cons op ops ih =>
      rw [List.map_cons, List.flatMap_cons, List.flatMap_cons]
      refine List.rel_append ?_ (ih fun op' hm => ho op' (by simp [hm]))
      have hop := ho op (by simp)
      cases op with
      | set c v => exact List.Forall₂.cons ⟨rfl, Iff.rfl⟩ List.Forall₂.nil
      | setEdge v => exact List.Forall₂.cons ⟨rfl, Iff.rfl⟩ List.Forall₂.nil
      | setStreak s src =>
        simp only [Op.writes, Op.toHost, C33.Op.writes, coordsOf_rel]
        refine forall₂_zip fun c hc v => ⟨rfl, ?_⟩
        exact same_congr (rel_in h (streak_cells_in hop.1 hc))
      | loadRegion b r off =>
        simp only [Op.writes, Op.toHost, C33.Op.writes, regionCells_rel]
        refine forall₂_zip fun c hc v => ⟨rfl, ?_⟩
        exact same_congr (rel_in h (hop.2.2 c hc))
  obtain ⟨k1, k2⟩ := last_transfer hf
  obtain ⟨m1, m2⟩ := h4 _ (onePeriod_rel hd)
  constructor
  · intro v hv
    have := m1 v (k1 v hv)
    rw [r2] at this
    rw [r1, Option.some.inj this]
  · intro hno
    have := m2 (k2 hno)
    rw [r2, r4] at this
    rw [r1, r3, Option.some.inj this]

/-- A new grid contains the default cell in its box, and the edge cell elsewhere. -/
theorem fresh (hn : n ≤ 2) {origin dim topo : Crd} (hd : ∀ k, k ≤ n → 0 < dim k) (ht : tc = true → ∀ k, k ≤ n → dim k ≤ topo k) (dflt edge : α) :
    CGridOK n tc (cMake n origin dim dflt edge topo) ∧
      ∀ c, (InDim n dim (fun k => c k - origin k) → cGet n wraps tc (cMake n origin dim dflt edge topo) c = .ok dflt) ∧
        (Outside n wraps dim (cRel n wraps tc (cMake n origin dim dflt edge topo) c) → cGet n wraps tc (cMake n origin dim dflt edge topo) c = .ok edge) := by
  have hv : 0 ≤ crdProd n dim := by
    rw [← vol_prod]
    exact vol_nonneg dim n 0 fun j _ hj => (hd j (by omega)).le
  have hok : CGridOK n tc (cMake n origin dim dflt edge topo) := by
    refine ⟨hd, ?_, ?_, rfl, ht⟩
    · simp only [cMake]
      rw [C12.volume_eq]
      omega
    · simp [cMake]
  refine ⟨hok, fun c => ⟨fun hc => ?_, fun hc => ?_⟩⟩
  · have hin := rel_inDim (wraps := wraps) hok (c := c) hc
    have hb := lin_bounds hok hin
    unfold cGet
    rw [address_in hn hin, devRead, if_pos]
    · simp only [cMake, List.drop_replicate, List.take_replicate] at hb ⊢
      rw [Nat.min_eq_left (by omega)]
      rfl
    · have : (cMake n origin dim dflt edge topo).mem.length = (cMake n origin dim dflt edge topo).size := by simp [cMake]
      omega
  · unfold cGet
    rw [address_out hc]
    rfl

/-! ## Reading streaks and regions -/

/-- Reading a streak inside of the box is the same as reading its cells one by one. -/
theorem streak_reads (hn : n ≤ 2) {g : CGrid α} (h : CGridOK n tc g) {s : Streak} (hs : StreakIn n g s) :
    ∃ l, cGetStreak n wraps tc g s = .ok l ∧ l.map Except.ok = (coordsOf s).map (cGet n wraps tc g) := by
  obtain ⟨l, e1, _, e3⟩ := getStreak_host (wraps := wraps) hn h hs rfl
  refine ⟨l, e1, ?_⟩
  have hs0 := hs.2.1
  rw [getStreak_eq hn (host_ok h) _ (by simp only [relS]; omega), coordsOf_rel] at e3
  have := readAll_map _ _ _ e3
  rw [List.map_map] at this
  have hl : l.length = (coordsOf s).length := by simpa using congrArg List.length this
  refine List.ext_getElem (by simpa using hl) fun i h1 h2 => ?_
  simp only [List.length_map] at h1 h2
  have hi : (l.map some)[i]'(by simpa using h1) = ((coordsOf s).map (gridRead n wraps (host g) ∘ fun c k => c k - g.origin k))[i]'(by simpa using h2) := by
    simp only [this]
  rw [List.getElem_map, List.getElem_map] at hi ⊢
  have hbox := streak_cells_in hs (List.getElem_mem h2)
  obtain ⟨v, r1, r2⟩ := get_eq (wraps := wraps) hn h (fine_box h hbox)
  rw [r1]
  simp only [Function.comp] at hi
  rw [read_congr hn (host g) (fun k hk => (rel_in (wraps := wraps) h hbox k hk).symm), r2] at hi
  rw [Option.some.inj hi]

/-- `saveRegion` stores the cells of the region in iteration order at the beginning of the buffer; it throws if the buffer is too small. -/
theorem save_spec (hn : n ≤ 2) {g : CGrid α} (h : CGridOK n tc g) (b : List α) {r : Idx} (hr : RegOK n r) {off : Crd} (hin : ∀ c ∈ regionCells n r off, InBox n g c) :
    (b.length < (regionCells n r off).length → cSave n wraps tc g b r (regCoords n r).length off = .error .logic) ∧
    ((regionCells n r off).length ≤ b.length → ∃ l, cSave n wraps tc g b r (regCoords n r).length off = .ok (l ++ b.drop l.length) ∧
      l.map Except.ok = (regionCells n r off).map (cGet n wraps tc g)) := by
  constructor
  · intro hb
    rw [regionCells_length] at hb
    unfold cSave
    rw [if_pos hb]
  · intro hb
    obtain ⟨ss, e, h1, h2, h3⟩ := region_streaks hr off hin
    rw [regionCells_length] at hb
    obtain ⟨b', e1, e2⟩ := saveLoop_host (wraps := wraps) hn h off ss b 0 h1 (by omega)
    have hp : ∀ c ∈ regionCells n r (fun k => off k - g.origin k), OnePeriod n wraps (host g).dim c := by
      intro c hc
      rw [regionCells_rel] at hc
      obtain ⟨d, hd, rfl⟩ := List.mem_map.1 hc
      exact onePeriod_of_inDim (hin d hd)
    have hlen : ((ss.map fun s => relS g (moveS off s)).flatMap coordsOf).length = (regCoords n r).length := by
      have := congrArg List.length h3
      simpa only [List.length_map, regionCells_length] using this
    obtain ⟨l, e3, e4⟩ := saveLoop_eq (wraps := wraps) hn (host_ok h) (ss.map fun s => relS g (moveS off s)) b 0 (by
      intro s hs
      obtain ⟨s', hs', rfl⟩ := List.mem_map.1 hs
      have := (h1 s' hs').2.1
      simp only [relS]
      omega) (by
      intro c hcc
      obtain ⟨d, hd, hk⟩ := mem_restrict h3 hcc
      exact onePeriod_congr hk (hp d hd)) (by omega)
    rw [readAll_congr hn _ _ _ h3, regionCells_rel] at e3
    rw [e2] at e4
    have e4' := Option.some.inj e4
    refine ⟨l, ?_, ?_⟩
    · unfold cSave
      rw [if_neg (by omega), e]
      simp only
      rw [e1, e4']
      simp
    · have hm := readAll_map _ _ _ e3
      rw [List.map_map] at hm
      have hl : l.length = (regionCells n r off).length := by simpa using congrArg List.length hm
      refine List.ext_getElem (by simpa using hl) fun i h1 h2 => ?_
      simp only [List.length_map] at h1 h2
      have hi : (l.map some)[i]'(by simpa using h1) = ((regionCells n r off).map (gridRead n wraps (host g) ∘ fun c k => c k - g.origin k))[i]'(by simpa using h2) := by
        simp only [hm]
      rw [List.getElem_map, List.getElem_map] at hi ⊢
      have hbox := hin _ (List.getElem_mem h2)
      obtain ⟨v, r1, r2⟩ := get_eq (wraps := wraps) hn h (fine_box h hbox)
      rw [r1]
      simp only [Function.comp] at hi
      rw [read_congr hn (host g) (fun k hk => (rel_in (wraps := wraps) h hbox k hk).symm), r2] at hi
      rw [Option.some.inj hi]

/-- `loadRegion` throws if the buffer is too small, and leaves the grid alone. -/
theorem load_too_small (g : CGrid α) {b : List α} {r : Idx} {off : Crd} (hb : b.length < (regionCells n r off).length) :
    exec n wraps tc g (.loadRegion b r off) = .error .logic := by
  rw [regionCells_length] at hb
  simp only [exec]
  unfold cLoad
  rw [if_pos hb]

/-- On a torus, coordinates which differ by a period denote the same cell. -/
theorem torus_same {g : CGrid α} (h : CGridOK n true g) (htopo : ∀ k, k ≤ n → g.topo k = g.dim k) {a b : Crd}
    (ha : OnePeriod n wraps g.dim fun k => a k - g.origin k) (hb : OnePeriod n wraps g.dim fun k => b k - g.origin k) (hn : n ≤ 2)
    (hs : Same n wraps g.dim (fun k => a k - g.origin k) (fun k => b k - g.origin k)) : cGet n wraps true g a = cGet n wraps true g b := by
  have conv : ∀ {c : Crd}, OnePeriod n wraps g.dim (fun k => c k - g.origin k) → OnePeriod n wraps g.topo fun k => c k - g.origin k :=
    fun hc k hk hw => by rw [htopo k hk]; exact hc k hk hw
  have out : ∀ {c : Crd}, Outside n wraps g.dim (fun k => c k - g.origin k) ↔ Outside n wraps g.topo fun k => c k - g.origin k := by
    intro c
    constructor
    · rintro ⟨k, hk, hw, hh⟩
      exact ⟨k, hk, hw, by rw [htopo k hk]; exact hh⟩
    · rintro ⟨k, hk, hw, hh⟩
      exact ⟨k, hk, hw, by rw [← htopo k hk]; exact hh⟩
  have hpos : ∀ k, k ≤ n → 0 < g.topo k := fun k hk => by rw [htopo k hk]; exact h.pos k hk
  obtain ⟨a1, a2⟩ := normalize_spec n wraps g.topo _ hpos (conv ha)
  obtain ⟨b1, b2⟩ := normalize_spec n wraps g.topo _ hpos (conv hb)
  have ea : ∀ c, cRel n wraps true g c = topoNormalize n wraps (fun k => c k - g.origin k) g.topo := fun c => by simp [cRel]
  have key : ∀ k, k ≤ n → cRel n wraps true g a k = cRel n wraps true g b k := by
    intro k hk
    rw [ea, ea]
    rcases hs with ⟨h1, h2⟩ | ⟨h1, h2, h3⟩
    · rw [a1 (out.1 h1), b1 (out.1 h2)]
    · rw [(a2 fun hh => h1 (out.2 hh)).1 k hk, (b2 fun hh => h2 (out.2 hh)).1 k hk, htopo k hk]
      have := h3 k hk
      split at this
      · exact this
      · have this : a k - g.origin k = b k - g.origin k := this
        rw [this]
  obtain ⟨v, r1, r2⟩ := get_eq hn h (fine_torus h.pos htopo a ha)
  obtain ⟨w, r3, r4⟩ := get_eq hn h (fine_torus h.pos htopo b hb)
  rw [read_congr hn _ key, r4] at r2
  rw [r1, r3, Option.some.inj r2]

/-! ## Resizing -/

/-- `resize` keeps cells at their position in memory: the cell with linear index `i` in the new box is the one which had this index before. -/
theorem resize_keeps_index (hn : n ≤ 2) {g : CGrid α} (h : CGridOK n false g) {origin dim : Crd} (hd : ∀ k, k ≤ n → 0 < dim k) (junk : List α)
    (hj : (crdProd n dim).toNat ≤ g.size + junk.length) :
    CGridOK n false (cResize n g origin dim junk) ∧ ∀ c, InDim n dim (fun k => c k - origin k) → (hi : (lin dim n 0 fun k => c k - origin k).toNat < g.size) →
      cGet n wraps false (cResize n g origin dim junk) c = .ok (g.mem[(lin dim n 0 fun k => c k - origin k).toNat]'(lt_of_lt_of_le hi h.cap)) := by
  have hv : 0 ≤ crdProd n dim := by
    rw [← vol_prod]
    exact vol_nonneg dim n 0 fun j _ hj => (hd j (by omega)).le
  have hcap := h.cap
  have hok : CGridOK n false (cResize n g origin dim junk) := by
    unfold cResize
    simp only
    split
    · refine ⟨hd, ?_, by assumption, h.edge, fun ht => by cases ht⟩
      simp only
      rw [C12.volume_eq]
      omega
    · refine ⟨hd, ?_, ?_, h.edge, fun ht => by cases ht⟩
      · simp only
        rw [C12.volume_eq]
        omega
      · simp only [List.length_append, List.length_take]
        omega
  refine ⟨hok, fun c hc hi => ?_⟩
  have hin : InDim n (cResize n g origin dim junk).dim (cRel n wraps false (cResize n g origin dim junk) c) := by
    have : (cResize n g origin dim junk).dim = dim ∧ (cResize n g origin dim junk).origin = origin := by
      unfold cResize
      simp only
      split <;> exact ⟨rfl, rfl⟩
    unfold cRel
    rw [this.1, this.2]
    simpa using hc
  have hl := lin_bounds hok hin
  have hrel : lin (cResize n g origin dim junk).dim n 0 (cRel n wraps false (cResize n g origin dim junk) c) = lin dim n 0 fun k => c k - origin k := by
    unfold cResize cRel
    simp only
    split <;> simp
  unfold cGet
  rw [address_in hn hin, hrel, devRead, if_pos]
  · rw [List.drop_eq_getElem_cons (by have := hok.cap; rw [hrel] at hl; omega)]
    simp only [List.take_succ_cons, Except.bind]
    congr 1
    unfold cResize
    simp only
    split
    · rfl
    · simp only
      rw [List.getElem_append_left (by rw [List.length_take]; omega), List.getElem_take]
  · have := hok.cap
    rw [hrel] at hl
    omega

/-- **Violation**: cells added by `resize` aren't initialized: the last one can have any value. -/
theorem resize_uninitialised (hn : n ≤ 2) {g : CGrid α} (h : CGridOK n false g) {origin dim : Crd} (hd : ∀ k, k ≤ n → 0 < dim k) (hlarge : g.mem.length < (crdProd n dim).toNat) (v : α) :
    ∃ junk : List α, junk.length = (crdProd n dim).toNat - g.size ∧
      cGet n wraps false (cResize n g origin dim junk) (fun k => origin k + (dim k - 1)) = .ok v := by
  have hcap := h.cap
  refine ⟨List.replicate ((crdProd n dim).toNat - g.size) v, by simp, ?_⟩
  obtain ⟨hok, _⟩ := resize_keeps_index (wraps := wraps) hn h (origin := origin) hd (List.replicate ((crdProd n dim).toNat - g.size) v) (by rw [List.length_replicate]; omega)
  generalize hg : cResize n g origin dim (List.replicate ((crdProd n dim).toNat - g.size) v) = g' at hok
  have e : g'.dim = dim ∧ g'.origin = origin ∧ g'.size = (crdProd n dim).toNat ∧
      g'.mem = g.mem.take g.size ++ List.replicate ((crdProd n dim).toNat - g.size) v := by
    rw [← hg]
    unfold cResize
    simp only
    rw [if_neg (by omega)]
    refine ⟨rfl, rfl, rfl, ?_⟩
    simp
  obtain ⟨e1, e2, e3, e4⟩ := e
  have hrel : cRel n wraps false g' (fun k => origin k + (dim k - 1)) = fun k => dim k - 1 := by
    unfold cRel
    rw [e2]
    funext k
    simp
  have hin : InDim n g'.dim (cRel n wraps false g' (fun k => origin k + (dim k - 1))) := by
    rw [hrel, e1]
    intro k hk
    have := hd k hk
    change 0 ≤ dim k - 1 ∧ dim k - 1 < dim k
    omega
  have hlast : ∀ r i, (∀ j, i ≤ j → j ≤ i + r → 0 < dim j) → lin dim r i (fun k => dim k - 1) = vol dim r i - 1 := by
    intro r
    induction r with
    | zero => intro i _; rfl
    | succ r ih =>
      intro i hp
      rw [lin, vol, ih (i + 1) (fun j a b => hp j (by omega) (by omega))]
      ring
  have hl := lin_bounds hok hin
  have hidx : (lin g'.dim n 0 (cRel n wraps false g' (fun k => origin k + (dim k - 1)))) = crdProd n dim - 1 := by
    rw [hrel, e1, hlast n 0 (fun j _ hj => hd j (by omega)), vol_prod]
  unfold cGet
  rw [address_in hn hin, hidx, devRead, if_pos]
  · have hlen : g'.mem.length = (crdProd n dim).toNat := by
      rw [e4, List.length_append, List.length_take, List.length_replicate]
      omega
    rw [List.drop_eq_getElem_cons (by omega)]
    simp only [List.take_succ_cons, Except.bind]
    congr 1
    simp only [e4]
    rw [List.getElem_append_right (by rw [List.length_take]; omega), List.getElem_replicate]
  · have hlen : g'.mem.length = (crdProd n dim).toNat := by
      rw [e4, List.length_append, List.length_take, List.length_replicate]
      omega
    omega

/-! ## Where grids in CUDA memory differ -/

/-- **Violation**: unless it is topologically correct, a grid with periodic boundaries reads and writes outside of its memory for coordinates next to its box; a host grid wraps them. -/
theorem torus_out_of_bounds {g : CGrid α} (hn : n ≤ 2) (hw : wraps 0 = true) (h : CGridOK n false g) {c : Crd} (h0 : c 0 - g.origin 0 = -1)
    (hk : ∀ k, 0 < k → k ≤ n → c k - g.origin k = 0) (v : α) :
    cGet n wraps false g c = .error .ub ∧ cSet n wraps false g c v = .error .ub ∧ ∃ w, gridRead n wraps (host g) (fun k => c k - g.origin k) = some w := by
  have hrel : cRel n wraps false g c = fun k => c k - g.origin k := by simp [cRel]
  have hno : ¬ Outside n wraps g.dim fun k => c k - g.origin k := by
    rintro ⟨k, hk', hw', hh⟩
    by_cases hk0 : k = 0
    · subst hk0
      rw [hw] at hw'
      cases hw'
    · have := h.pos k hk'
      have hh : ¬ (0 ≤ c k - g.origin k ∧ c k - g.origin k < g.dim k) := hh
      rw [hk k (by omega) hk'] at hh
      omega
  have hlin : ∀ r i, 0 < i → i + r ≤ n → lin g.dim r i (fun k => c k - g.origin k) = 0 := by
    intro r
    induction r with
    | zero => intro i h1 h2; exact hk i h1 (by omega)
    | succ r ih =>
      intro i h1 h2
      rw [lin, ih (i + 1) (by omega) (by omega), hk i h1 (by omega)]
      ring
  have hi : lin g.dim n 0 (fun k => c k - g.origin k) = -1 := by
    cases n with
    | zero => exact h0
    | succ m =>
      rw [lin, hlin m 1 (by omega) (by omega), h0]
      ring
  have ha : cAddress n wraps false g c = .data (-1) := by
    unfold cAddress
    rw [hrel, if_neg (by rw [outOfBounds_iff]; exact hno), toIndex_lin n hn, hi]
  refine ⟨?_, ?_, ?_⟩
  · unfold cGet
    rw [ha, devRead, if_neg (by omega)]
    rfl
  · unfold cSet
    rw [ha]
    simp only [devWrite]
    rw [if_pos (by simp), if_neg (by omega)]
  · refine read_some hn (host_ok h) ?_
    intro k hk' _
    have := h.pos k hk'
    by_cases hk0 : k = 0
    · subst hk0
      change -g.dim 0 ≤ c 0 - g.origin 0 ∧ c 0 - g.origin 0 < 2 * g.dim 0
      omega
    · change -g.dim k ≤ c k - g.origin k ∧ c k - g.origin k < 2 * g.dim k
      rw [hk k (by omega) hk']
      omega

/-- **Violation**: a streak of two or more cells which starts outside of a constant boundary overruns the memory of the single edge cell, in `get` as well as in `set`. -/
theorem outside_streak_overruns {g : CGrid α} (h : CGridOK n tc g) {s : Streak} (ho : Outside n wraps g.dim (cRel n wraps tc g s.origin)) (hl : 2 ≤ sLen s) (src : List α) :
    cGetStreak n wraps tc g s = .error .ub ∧ cSetStreak n wraps tc g s src = .error .ub := by
  have he : g.edgeMem.length = 1 := by rw [h.edge]; rfl
  constructor
  · unfold cGetStreak
    rw [address_out ho, devRead, if_neg (by omega)]
  · unfold cSetStreak
    rw [address_out ho, devWrite]
    split
    · rw [if_neg (by omega)]
    · rfl

/-- **Violation**: a streak of one cell there changes the edge cell on the device, but not the one returned by `getEdge()`. -/
theorem outside_streak_desyncs {g : CGrid α} (h : CGridOK n tc g) {s : Streak} (ho : Outside n wraps g.dim (cRel n wraps tc g s.origin)) (hl : sLen s = 1) (v : α) :
    ∃ g', cSetStreak n wraps tc g s [v] = .ok g' ∧ cGet n wraps tc g' s.origin = .ok v ∧ cGetEdge g' = cGetEdge g := by
  refine ⟨{ g with edgeMem := [v] }, ?_, ?_, rfl⟩
  · unfold cSetStreak
    rw [address_out ho, hl, devWrite, h.edge]
    rfl
  · unfold cGet
    have : cAddress n wraps tc { g with edgeMem := [v] } s.origin = .edge := by
      have := address_out ho
      unfold cAddress cRel at this ⊢
      exact this
    rw [this]
    rfl

/-! ## Non-vacuity -/

def box22 : CGrid Nat := { cMake 1 (fun k => if k = 0 then 10 else 20) (fun _ => 2) 0 9 (fun _ => 2) with mem := [1, 2, 3, 4] }

def at2 (x y : Int) : Crd := fun k => if k = 0 then x else if k = 1 then y else 0

example : CGridOK 1 true box22 := by
  refine ⟨fun k _ => ?_, ?_, ?_, rfl, fun _ k _ => ?_⟩ <;> simp [box22, cMake, crdProd, C12.Volume]

/-- inside, and one period away on a torus -/
example : cGet 1 (fun _ => true) true box22 (at2 11 20) = .ok 2 ∧ cGet 1 (fun _ => true) true box22 (at2 9 20) = .ok 2 ∧
    cGet 1 (fun _ => false) true box22 (at2 9 20) = .ok 9 ∧ cGet 1 (fun _ => true) false box22 (at2 9 20) = .error .ub := by decide +kernel

/-- **Violation**: a streak which leaves its row continues in the next one; a host grid yields the edge cell there. -/
theorem streak_continues_in_next_row :
    cGetStreak 1 (fun _ => false) false box22 ⟨at2 11 20, 13⟩ = .ok [2, 3] ∧
      gridGetStreak 1 (fun _ => false) (host box22) (relS box22 ⟨at2 11 20, 13⟩) = some [2, 9] ∧
      cGet 1 (fun _ => false) false box22 (at2 12 20) = .ok 9 := by decide +kernel

/-- **Violation**: if a grid is a part of a torus, coordinates outside of its box denote cells of other rows or memory of others, even if it's topologically correct. -/
theorem part_of_torus : cGet 1 (fun _ => true) true { box22 with topo := fun _ => 4 } (at2 12 20) = .ok 3 ∧
    cGet 1 (fun _ => true) true { box22 with topo := fun _ => 4 } (at2 13 21) = .error .ub := by decide +kernel

/-- a history: a row of two cells, then one cell, read across the periodic boundary -/
example : ((run 1 (fun _ => true) true box22 [.setStreak ⟨at2 10 21, 12⟩ [7, 8], .set (at2 12 21) 5]).bind fun g => cGet 1 (fun _ => true) true g (at2 10 19)) = .ok 5 := by
  decide +kernel

example : cGetStreak 1 (fun _ => false) false box22 ⟨at2 9 20, 11⟩ = .error .ub := by decide +kernel

end LGD.C67
