import Verif.Store.MeshlessOpt

/-!
# C55 – `MeshlessAdapter`: search of neighbors and choice of the box size
-/

namespace LGD.C55
open LGD.Store LGD.Meshless

variable {n : Nat} {wraps : Nat → Bool}

/-- Spec: some periodic image of `q` is closer to `p` than `r` -/
def Near (n : Nat) (wraps : Nat → Bool) (dims : Pos) (r : ℚ) (p q : Pos) : Prop :=
  ∃ z : Nat → Int, (∀ k, wraps k = false → z k = 0) ∧ ∑ k ∈ Finset.range (n + 1), (p k - q k + z k * dims k) ^ 2 < r ^ 2

/-- Spec: the vertex lies in the simulation space, as far as periodic axes are concerned -/
def InSpace (n : Nat) (wraps : Nat → Bool) (dims p : Pos) : Prop := ∀ k, k ≤ n → wraps k = true → 0 ≤ p k ∧ p k ≤ dims k

/-- an adapter as left behind by the constructor (which calls `resetBoxSize`) -/
def adapter (dims : Pos) (bs : ℚ) : Adapter := ⟨dims, bs, discreteDim dims bs⟩

theorem adapter_ok (dims : Pos) {bs : ℚ} (h : 0 < bs) : AOK n (adapter dims bs) := ⟨h, fun _ _ => rfl⟩

theorem near_iff {a : Adapter} {p q : Pos} (hp : InSpace n wraps a.dims p) (hq : InSpace n wraps a.dims q) :
    distance2 n wraps a p q < a.bs * a.bs ↔ Near n wraps a.dims a.bs p q := by
  rw [distance2_eq, ← pow_two]
  constructor
  · intro h
    have ex := fun k => axisDist_attained (wraps k) (a.dims k) (p k) (q k)
    choose z hz using ex
    refine ⟨z, fun k => (hz k).1, ?_⟩
    rwa [← Finset.sum_congr rfl fun k _ => (hz k).2]
  · rintro ⟨z, h1, h2⟩
    refine lt_of_le_of_lt (Finset.sum_le_sum fun k hk => ?_) h2
    have hk : k ≤ n := by rw [Finset.mem_range] at hk; omega
    exact axisDist_le (hp k hk) (hq k hk) (z k) (h1 k)

/-- **C55, search.** Vertices are inserted into a new container grid, in any order, with any IDs. `search` then reports exactly the IDs of those vertices
of which some periodic image is closer than the box size, and whether there are any. Axes may be periodic or not; on the latter ones vertices may even lie
outside of the simulation space. -/
theorem search_exact (hn : n ≤ 2) (dims : Pos) {bs : ℚ} (hb : 0 < bs) (vs : List (Pos × Int)) (hv : ∀ v ∈ vs, InSpace n wraps dims v.1) (p : Pos)
    (hp : InSpace n wraps dims p) :
    ∃ g, insertAll n wraps (adapter dims bs) (newGrid n (adapter dims bs)) vs = some g ∧ ∃ r, search n wraps (adapter dims bs) g p = some r ∧
      (∀ id, id ∈ r.2 ↔ ∃ q, (q, id) ∈ vs ∧ Near n wraps dims bs p q) ∧ (r.1 = true ↔ ∃ v ∈ vs, Near n wraps dims bs p v.1) := by
  have ha := adapter_ok (n := n) dims hb
  obtain ⟨g, h1, h2⟩ := holds_insertAll hn ha vs hv (holds_new (wraps := wraps) hn ha)
  obtain ⟨r, r1, r2, r3⟩ := search_spec hn ha h2 (by rw [List.nil_append]; exact hv) (p := p) hp
  have hm : ∀ id, id ∈ r.2 ↔ ∃ q, (q, id) ∈ vs ∧ Near n wraps dims bs p q := fun id => by
    rw [r3]
    simp only [List.nil_append]
    exact exists_congr fun q => and_congr_right fun h => near_iff (a := adapter dims bs) hp (hv _ h)
  refine ⟨g, h1, r, r1, hm, ?_⟩
  rw [r2]
  constructor
  · intro h
    obtain ⟨id, hi⟩ := List.exists_mem_of_ne_nil _ h
    obtain ⟨q, h3, h4⟩ := (hm id).1 hi
    exact ⟨_, h3, h4⟩
  · rintro ⟨v, h3, h4⟩ h5
    have := (hm v.2).2 ⟨v.1, h3, h4⟩
    rw [h5] at this
    simp at this

/-- Spec: for every edge of the graph the neighbor is stored in the container cell of the vertex or in one adjacent to it (via the topology) -/
def EdgesCovered (n : Nat) (wraps : Nat → Bool) (a : Adapter) (g : Grid (List (Pos × Int))) (ps : List (Pos × Int)) (graph : List (List Nat)) : Prop :=
  ∀ (i : Nat) (ms : List Nat), graph[i]? = some ms → ∀ m ∈ ms, ∀ p q : Pos × Int, ps[i]? = some p → ps[m]? = some q →
    ∃ e : Crd, (∀ k, k ≤ n → -1 ≤ e k ∧ e k ≤ 1) ∧ ∃ l, gridRead n wraps g (fun k => posToCoord a p.1 k + e k) = some l ∧ q ∈ l

theorem covered (hn : n ≤ 2) {a : Adapter} (ha : AOK n a) {ps : List (Pos × Int)} {graph : List (List Nat)} (hv : ∀ v ∈ ps, InSpace n wraps a.dims v.1)
    (h : EdgesOK n wraps a ps graph) : ∃ g, insertAll n wraps a (newGrid n a) ps = some g ∧ EdgesCovered n wraps a g ps graph := by
  obtain ⟨g, h1, h2⟩ := holds_insertAll hn ha ps hv (holds_new (wraps := wraps) hn ha)
  refine ⟨g, h1, fun i ms hi m hm p q hp hq => ?_⟩
  have p1 := hv p (List.mem_of_getElem? hp)
  have q1 := hv q (List.mem_of_getElem? hq)
  obtain ⟨e, e1, e2⟩ := step_of_adj (wraps := wraps) ha p1 q1 ((manhattan_iff a p.1 q.1).1 (h i ms hi m hm p q hp hq))
  obtain ⟨l, hl, hc⟩ := h2.read _ (coord_onePeriod ha p1 e e1)
  exact ⟨e, e1, l, hl, (hc q).2 ⟨by simpa using List.mem_of_getElem? hq, e2⟩⟩

/-- **C55, checking a box size.** `checkBoxSize` never accesses anything but the given positions; if it accepts the box size, then all edges are covered by
the Moore neighborhood of container cells. -/
theorem check_sound (hn : n ≤ 2) (dims : Pos) {bs : ℚ} (hb : 0 < bs) (ps : List (Pos × Int)) (graph : List (List Nat)) (hg : GraphOK ps graph)
    (hv : ∀ v ∈ ps, InSpace n wraps dims v.1) :
    ∃ b, checkBoxSize n wraps (adapter dims bs) ps graph = some b ∧
      (b = true → ∃ g, insertAll n wraps (adapter dims bs) (newGrid n (adapter dims bs)) ps = some g ∧ EdgesCovered n wraps (adapter dims bs) g ps graph) := by
  obtain ⟨b, h1, h2⟩ := check_spec (n := n) (wraps := wraps) (adapter dims bs) hg
  exact ⟨b, h1, fun h => covered hn (adapter_ok dims hb) hv (h2.1 h)⟩

/-- **C55, choice of the box size.** `findOptimumBoxSize` ends for every graph and any initial box size. If it returns a size `b`, then this is the
adapter's new box size, there are at most `MAX_SIZE` container cells, and all edges of the graph are covered by the Moore neighborhood of container cells. -/
theorem optimum (hn : n ≤ 2) (dims : Pos) (hd : ∀ k, k ≤ n → 0 < dims k) {bs : ℚ} (hb : 0 < bs) (ps : List (Pos × Int)) (graph : List (List Nat))
    (hg : GraphOK ps graph) (hv : ∀ v ∈ ps, InSpace n wraps dims v.1) :
    ∃ m, ∀ fuel, m ≤ fuel → ∃ o, findOptimum n wraps fuel (adapter dims bs) ps graph = some o ∧ ∀ a b, o = .ret a b →
      0 < b ∧ (∀ k, k ≤ n → a.dd k = discreteDim dims b k) ∧ a.bs = b ∧ crdProd n a.dd ≤ 300000 ∧
        ∃ g, insertAll n wraps a (newGrid n a) ps = some g ∧ EdgesCovered n wraps a g ps graph := by
  obtain ⟨m, h⟩ := findOptimum_spec (n := n) (wraps := wraps) (a := adapter dims bs) hb rfl hg hd
  refine ⟨m, fun fuel hf => ?_⟩
  obtain ⟨o, h1, h2⟩ := h fuel hf
  refine ⟨o, h1, fun a b ho => ?_⟩
  have G := h2 a b ho
  have hD : a.dims = dims := G.dims
  refine ⟨by rw [← G.bs]; exact G.ok.bs, fun k hk => ?_, G.bs, G.small, covered hn G.ok (by rw [hD]; exact hv) G.edges⟩
  rw [G.ok.dd k hk, hD, G.bs]; rfl

/-- **C55, negation.** If all edges connect vertices at the same place – e.g. because there are no edges –, every box size is acceptable, and
`findOptimumBoxSize` never returns one: it throws since it halves the box size until there are too many container cells. -/
theorem no_edges_throws (dims : Pos) (hd : ∀ k, k ≤ n → 0 < dims k) {bs : ℚ} (hb : 0 < bs) (ps : List (Pos × Int)) (graph : List (List Nat))
    (hg : GraphOK ps graph) (he : ∀ (i : Nat) (ms : List Nat), graph[i]? = some ms → ∀ m ∈ ms, ∀ p q : Pos × Int, ps[i]? = some p → ps[m]? = some q → p.1 = q.1) :
    ∃ m, ∀ fuel, m ≤ fuel → findOptimum n wraps fuel (adapter dims bs) ps graph = some .tooMany := by
  have all : ∀ a : Adapter, EdgesOK n wraps a ps graph := fun a i ms hi m hm p q hp hq => by
    rw [he i ms hi m hm p q hp hq, manhattan_iff]
    exact fun k _ => Or.inl (by simp)
  have chk : ∀ a : Adapter, checkBoxSize n wraps a ps graph = some true := fun a => by
    obtain ⟨b, h1, h2⟩ := check_spec (n := n) (wraps := wraps) a hg
    rw [h1, h2.2 (all a)]
  by_cases hr : (reset n (adapter dims bs) (bs * (1 / 2))).2
  · refine ⟨0, fun fuel _ => ?_⟩
    simp only [findOptimum, chk, Option.bind_some, if_true]
    exact if_pos hr
  · obtain ⟨m, hm⟩ := exists_pow (((MAX_SIZE : ℚ) + 1) * (bs * (1 / 2))) (dims 0) (hd 0 (by omega))
    refine ⟨m + 1, fun fuel hf => ?_⟩
    obtain ⟨f, rfl⟩ : ∃ f, fuel = f + 1 := ⟨fuel - 1, by omega⟩
    obtain ⟨r, h1, h2⟩ := backOff_halve (wraps := wraps) hg f (reset n (adapter dims bs) (bs * (1 / 2))).1 (reset_ok _ (by positivity)) (hm f (by omega))
    have : r.2 = true := by
      by_contra hc
      exact (h2 (by simpa using hc)).2.2.2.2 (all r.1)
    simp only [findOptimum, chk, Option.bind_some, if_true]
    rw [if_neg (show ¬ (reset n (adapter dims bs) ((adapter dims bs).bs * (1 / 2))).2 = true from hr)]
    rw [show backOff n wraps ps graph true (1 / 2) (f + 1) (reset n (adapter dims bs) ((adapter dims bs).bs * (1 / 2))).1 = some r from h1]
    simp [this]

/-- **C55, negation.** On a periodic axis vertices outside of the simulation space are missed: `(-9, 0)` is the periodic image of `(1, 0)`, two units away from
`(9, 0)`, but not found with a box size of 3. -/
theorem outside_missed :
    ((insertAll 1 (fun _ => true) (adapter (fun _ => 10) 3) (newGrid 1 (adapter (fun _ => 10) 3)) [(fun k => if k = 0 then -9 else 0, 7)]).bind fun g =>
      search 1 (fun _ => true) (adapter (fun _ => 10) 3) g (fun k => if k = 0 then 9 else 0)) = some (false, []) ∧
    Near 1 (fun _ => true) (fun _ => 10) 3 (fun k => if k = 0 then 9 else 0) (fun k => if k = 0 then -9 else 0) := by
  refine ⟨by decide +kernel, fun k => if k = 0 then -2 else 0, by simp, ?_⟩
  norm_num [Finset.sum_range_succ]

/-! ## Examples -/

def pt (x y : ℚ) : Pos := fun k => if k = 0 then x else y

/-- a domain of 10 × 7, periodic on the x-axis only; the box size 2 leaves 5 × 3 container cells -/
def stripe : Nat → Bool := fun k => k == 0

def vertices : List (Pos × Int) := [(pt (1/2) 1, 4), (pt (19/2) 1, 5), (pt 1 (13/2), 6), (pt 3 3, 7), (pt (1/2) (-1/2), 8)]

/-- vertex 5 is found across the border, 6 (which would be close on a torus) is not, 8 is found although it is outside -/
example : ((insertAll 1 stripe (adapter (pt 10 7) 2) (newGrid 1 (adapter (pt 10 7) 2)) vertices).bind fun g => search 1 stripe (adapter (pt 10 7) 2) g (pt (1/4) (1/2))) =
    some (true, [5, 4, 8]) := by decide +kernel

/-- IDs and the graph of the edges 0-1, 1-2 -/
def ring : List (Pos × Int) := [(pt (1/2) 1, 0), (pt (19/2) 1, 1), (pt (15/2) 3, 2)]

def outcome : Option Outcome → Option (ℚ × Int × Int)
  | some (.ret a b) => some (b, a.dd 0, a.dd 1)
  | _ => none

/-- from the initial size 5/2 the search arrives at 7/4, which means 5 × 4 container cells -/
example : outcome (findOptimum 1 stripe 10 (adapter (pt 10 7) (5/2)) ring [[1], [0, 2], [1]]) = some (7/4, 5, 4) := by decide +kernel

end LGD.C55
