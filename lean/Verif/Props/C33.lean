import Verif.Store.GridLemmas

/-!
# C33: grids

Specification: a history of writes of single cells (and of the edge cell); a read returns the value of the last write to the same cell.
-/

namespace LGD.C33
open LGD.C13 LGD.C14 LGD.Store LGD.Step

variable {α : Type} {n : Nat} {wraps : Nat → Bool}

/-- a write: to a coordinate, or to the edge cell (`none`) -/
abbrev W (α : Type) := Option Crd × α

/-- a write affects what is read at `d`; `same` tells which coordinates denote the same cell and `out` which ones the edge cell -/
def Hits (same : Crd → Crd → Prop) (out : Crd → Prop) (w : W α) (d : Crd) : Prop :=
  match w.1 with
  | none => out d
  | some c => same c d

/-- `v` is the value of the last write which affects `d` -/
def Last (same : Crd → Crd → Prop) (out : Crd → Prop) (ws : List (W α)) (d : Crd) (v : α) : Prop :=
  ∃ a w b, ws = a ++ w :: b ∧ Hits same out w d ∧ w.2 = v ∧ ∀ w' ∈ b, ¬ Hits same out w' d

/-- the coordinates of a region, displaced by an offset, in iteration order -/
def regionCells (n : Nat) (idx : Idx) (off : Crd) : List Crd := (regCoords n idx).map fun c k => ext c k + off k

/-! ## `Grid` -/

/-- operations which modify a grid -/
inductive Op (α : Type) where
  | set (c : Crd) (v : α)
  | setEdge (v : α)
  | setStreak (s : Streak) (src : List α)
  | loadRegion (buffer : List α) (region : Idx) (offset : Crd)

/-- what the code does -/
def exec (n : Nat) (wraps : Nat → Bool) (g : Grid α) : Op α → Option (Grid α)
  | .set c v => gridWrite n wraps g c v
  | .setEdge v => some (gridSetEdge g v)
  | .setStreak s src => gridSetStreak n wraps g s src
  | .loadRegion b r off => gridLoad n wraps g b r off

/-- the writes which an operation stands for -/
def Op.writes (n : Nat) : Op α → List (W α)
  | .set c v => [(some c, v)]
  | .setEdge v => [(none, v)]
  | .setStreak s src => ((coordsOf s).zip src).map fun p => (some p.1, p.2)
  | .loadRegion b r off => ((regionCells n r off).zip b).map fun p => (some p.1, p.2)

/-- preconditions: coordinates are at most one period outside, buffers are large enough -/
def Op.OK (n : Nat) (wraps : Nat → Bool) (dim : Crd) : Op α → Prop
  | .set c _ => OnePeriod n wraps dim c
  | .setEdge _ => True
  | .setStreak s src => s.origin 0 ≤ s.endX ∧ s.endX - s.origin 0 ≤ src.length ∧ ∀ c ∈ coordsOf s, OnePeriod n wraps dim c
  | .loadRegion b r off => RegOK n r ∧ (regionCells n r off).length ≤ b.length ∧ ∀ c ∈ regionCells n r off, OnePeriod n wraps dim c

/-- a history of operations -/
def run (n : Nat) (wraps : Nat → Bool) (g : Grid α) (ops : List (Op α)) : Option (Grid α) := ops.foldlM (exec n wraps) g

/-- apply writes -/
def applyW (n : Nat) (wraps : Nat → Bool) : List (W α) → Grid α → Option (Grid α)
  | [], g => some g
  | (none, v) :: ws, g => applyW n wraps ws (gridSetEdge g v)
  | (some c, v) :: ws, g => (gridWrite n wraps g c v).bind fun g => applyW n wraps ws g

theorem applyW_append (a b : List (W α)) (g : Grid α) : applyW n wraps (a ++ b) g = (applyW n wraps a g).bind fun g => applyW n wraps b g := by
  induction a generalizing g with
  | nil => rfl
  | cons w a ih =>
    obtain ⟨c, v⟩ := w
    cases c with
    | none => rw [List.cons_append, applyW, applyW, ih]
    | some c =>
      rw [List.cons_append, applyW, applyW]
      cases gridWrite n wraps g c v with
      | none => rfl
      | some g' => exact ih g'

theorem applyW_cells (l : List (Crd × α)) (g : Grid α) : applyW n wraps (l.map fun p => (some p.1, p.2)) g = writeAll n wraps l g := by
  induction l generalizing g with
  | nil => rfl
  | cons p l ih =>
    rw [List.map_cons, applyW, writeAll]
    cases gridWrite n wraps g p.1 p.2 with
    | none => rfl
    | some g' => exact ih g'

theorem applyW_spec (hn : n ≤ 2) (ws : List (W α)) : ∀ (g : Grid α), GridOK n g → (∀ c v, (some c, v) ∈ ws → OnePeriod n wraps g.dim c) →
    ∃ g', applyW n wraps ws g = some g' ∧ GridOK n g' ∧ g'.dim = g.dim ∧ ∀ d, OnePeriod n wraps g.dim d →
      (∀ v, Last (Same n wraps g.dim) (Outside n wraps g.dim) ws d v → gridRead n wraps g' d = some v) ∧
      ((∀ w ∈ ws, ¬ Hits (Same n wraps g.dim) (Outside n wraps g.dim) w d) → gridRead n wraps g' d = gridRead n wraps g d) := by
  induction ws with
  | nil =>
    intro g hg _
    refine ⟨g, rfl, hg, rfl, fun d hd => ⟨?_, fun _ => rfl⟩⟩
    rintro v ⟨a, w, b, h, _⟩
    simp at h
  | cons w ws ih =>
    intro g hg hw
    have hone : ∃ g1, applyW n wraps [w] g = some g1 ∧ GridOK n g1 ∧ g1.dim = g.dim ∧ ∀ d, OnePeriod n wraps g.dim d →
        (Hits (Same n wraps g.dim) (Outside n wraps g.dim) w d → gridRead n wraps g1 d = some w.2) ∧
        (¬ Hits (Same n wraps g.dim) (Outside n wraps g.dim) w d → gridRead n wraps g1 d = gridRead n wraps g d) := by
      obtain ⟨c, v⟩ := w
      cases c with
      | none =>
        refine ⟨gridSetEdge g v, rfl, ⟨hg.pos, hg.size⟩, rfl, fun d hd => ?_⟩
        obtain ⟨l1, l2⟩ := locate_spec n hn wraps g.dim d hg.pos hd
        unfold Hits gridRead gridSetEdge
        simp only
        constructor
        · intro ho; rw [l1 ho]
        · intro ho
          obtain ⟨i, e, _⟩ := l2 ho
          rw [e]
      | some c =>
        obtain ⟨g1, e1, h1, h2, _, _, h3⟩ := write_spec hn hg (hw c v (List.mem_cons_self ..)) v
        exact ⟨g1, by rw [applyW, e1]; rfl, h1, h2, h3⟩
    obtain ⟨g1, e1, h1, h2, h3⟩ := hone
    obtain ⟨g2, e2, h4, h5, h6⟩ := ih g1 h1 (fun c v hc => by rw [h2]; exact hw c v (List.mem_cons_of_mem _ hc))
    rw [h2] at h6 h5
    refine ⟨g2, ?_, h4, h5, fun d hd => ?_⟩
    · rw [show w :: ws = [w] ++ ws from rfl, applyW_append, e1, Option.bind_some, e2]
    · obtain ⟨h7, h8⟩ := h6 d hd
      constructor
      · rintro v ⟨a, w', b, hab, hh, hv, hb⟩
        cases a with
        | nil =>
          obtain ⟨rfl, rfl⟩ := List.cons.inj hab
          rw [h8 hb, (h3 d hd).1 hh, hv]
        | cons x a =>
          exact h7 v ⟨a, w', b, (List.cons.inj hab).2, hh, hv, hb⟩
      · intro hno
        rw [h8 (fun w' hw' => hno w' (List.mem_cons_of_mem _ hw'))]
        exact (h3 d hd).2 (hno w (List.mem_cons_self ..))

theorem readAll_congr (hn : n ≤ 2) (g : Grid α) (a b : List Crd) (h : a.map (restrict n) = b.map (restrict n)) : readAll n wraps g a = readAll n wraps g b := by
  induction a generalizing b with
  | nil =>
    cases b with
    | nil => rfl
    | cons _ _ => simp at h
  | cons c a ih =>
    cases b with
    | nil => simp at h
    | cons d b =>
      rw [List.map_cons, List.map_cons] at h
      obtain ⟨h1, h2⟩ := List.cons.inj h
      rw [readAll, readAll, ih b h2, read_congr hn g (a := c) (b := d)]
      intro k hk
      have := congrFun h1 ⟨k, by omega⟩
      exact this

theorem writeAll_congr (hn : n ≤ 2) (a b : List Crd) (l : List α) (h : a.map (restrict n) = b.map (restrict n)) (g : Grid α) :
    writeAll n wraps (a.zip l) g = writeAll n wraps (b.zip l) g := by
  induction a generalizing b l g with
  | nil =>
    cases b with
    | nil => rfl
    | cons _ _ => simp at h
  | cons c a ih =>
    cases b with
    | nil => simp at h
    | cons d b =>
      rw [List.map_cons, List.map_cons] at h
      obtain ⟨h1, h2⟩ := List.cons.inj h
      cases l with
      | nil => rfl
      | cons v l =>
        rw [List.zip_cons_cons, List.zip_cons_cons, writeAll, writeAll]
        simp only
        rw [write_congr hn g v (a := c) (b := d) (fun k hk => congrFun h1 ⟨k, by omega⟩)]
        cases gridWrite n wraps g d v with
        | none => rfl
        | some g' => exact ih b l h2 g'

theorem coordsFrom_shift (s : Streak) (off : Crd) (m : Nat) (x : Int) :
    (coordsFrom (shiftS n off 0 s) m (x + off 0)).map (restrict n) = ((coordsFrom s m x).map (restrict n)).map fun (c : Vec n) (k : Fin (n + 1)) => c k + off k := by
  induction m generalizing x with
  | zero => rfl
  | succ m ih =>
    rw [coordsFrom, coordsFrom, List.map_cons, List.map_cons, List.map_cons]
    congr 1
    · funext k
      simp only [restrict, upd, shiftS]
      have : (k : Nat) ≤ n := by omega
      rw [if_pos this]
      split
      · rename_i h; rw [h]
      · rfl
    · rw [show x + off 0 + 1 = x + 1 + off 0 by ring]
      exact ih (x + 1)

theorem streaks_spec (idx : Idx) (h : RegOK n idx) (off : Crd) :
    ∃ ss, allStreaks n idx off 0 = some ss ∧ (∀ s ∈ ss, s.origin 0 < s.endX) ∧
      (ss.flatMap coordsOf).map (restrict n) = (regionCells n idx off).map (restrict n) := by
  obtain ⟨l, el, _, hc⟩ := toVector_spec h
  obtain ⟨t, ht⟩ := h
  have e := allStreaks_eq ht off 0
  have el' := toVector_eq ht
  have hl : l = (List.range (idx 0).length).map (streakAt n idx) := by rw [el] at el'; exact Option.some.inj el'
  refine ⟨_, e, ?_, ?_⟩
  · intro s hs
    obtain ⟨i, hi, rfl⟩ := List.mem_map.mp hs
    have := hc.pos (streakAt n idx i) (by rw [hl]; exact List.mem_map.mpr ⟨i, hi, rfl⟩)
    simp only [shiftS, Nat.zero_le, if_true]
    omega
  · unfold regionCells regCoords
    rw [el, Option.getD_some, hl]
    rw [List.map_map, List.flatMap_map, List.flatMap_map, List.map_flatMap, List.map_flatMap, List.map_flatMap]
    congr 1
    funext i
    have := coordsFrom_shift (n := n) (streakAt n idx i) off ((streakAt n idx i).endX - (streakAt n idx i).origin 0).toNat ((streakAt n idx i).origin 0)
    unfold coordsOf
    have e1 : (shiftS n off 0 (streakAt n idx i)).origin 0 = (streakAt n idx i).origin 0 + off 0 := by simp [shiftS]
    have e2 : ((shiftS n off 0 (streakAt n idx i)).endX - (shiftS n off 0 (streakAt n idx i)).origin 0).toNat =
        ((streakAt n idx i).endX - (streakAt n idx i).origin 0).toNat := by rw [e1]; simp only [shiftS]; congr 1; ring
    rw [e2, e1, this]
    apply List.map_congr_left
    intro c _
    funext k
    simp only [Function.comp, restrict]
    unfold ext
    rw [dif_pos k.2]

theorem mem_restrict {cs ds : List Crd} (h : cs.map (restrict n) = ds.map (restrict n)) {c : Crd} (hc : c ∈ cs) : ∃ d ∈ ds, ∀ k, k ≤ n → d k = c k := by
  have : restrict n c ∈ ds.map (restrict n) := by rw [← h]; exact List.mem_map.mpr ⟨c, hc, rfl⟩
  obtain ⟨d, hd, e⟩ := List.mem_map.mp this
  exact ⟨d, hd, fun k hk => congrFun e ⟨k, by omega⟩⟩

theorem onePeriod_congr {dim a b : Crd} (h : ∀ k, k ≤ n → a k = b k) (ha : OnePeriod n wraps dim a) : OnePeriod n wraps dim b := fun k hk hw => by
  rw [← h k hk]; exact ha k hk hw

theorem load_eq (hn : n ≤ 2) {g : Grid α} (hg : GridOK n g) (b : List α) (r : Idx) (off : Crd) (hr : RegOK n r) (hl : (regionCells n r off).length ≤ b.length)
    (hc : ∀ c ∈ regionCells n r off, OnePeriod n wraps g.dim c) : gridLoad n wraps g b r off = writeAll n wraps ((regionCells n r off).zip b) g := by
  obtain ⟨ss, e, h1, h2⟩ := streaks_spec r hr off
  have hlen : (ss.flatMap coordsOf).length = (regionCells n r off).length := by
    have := congrArg List.length h2
    simpa only [List.length_map] using this
  unfold gridLoad
  rw [e, Option.bind_some, loadLoop_eq hn ss b g hg (fun s hs => by have := h1 s hs; omega) ?_ (by omega)]
  · exact writeAll_congr hn _ _ b h2 g
  · intro c hcc
    obtain ⟨d, hd, hk⟩ := mem_restrict h2 hcc
    exact onePeriod_congr hk (hc d hd)

theorem exec_eq (hn : n ≤ 2) {g : Grid α} (hg : GridOK n g) (op : Op α) (h : op.OK n wraps g.dim) : exec n wraps g op = applyW n wraps (op.writes n) g := by
  cases op with
  | set c v => simp only [exec, Op.writes, applyW]; cases gridWrite n wraps g c v <;> rfl
  | setEdge v => rfl
  | setStreak s src =>
    obtain ⟨h1, h2, _⟩ := h
    simp only [exec, Op.writes]
    rw [applyW_cells, setStreak_eq hn hg s h1 src h2]
  | loadRegion b r off =>
    obtain ⟨h1, h2, h3⟩ := h
    simp only [exec, Op.writes]
    rw [applyW_cells, load_eq hn hg b r off h1 h2 h3]

theorem writes_ok {dim : Crd} (op : Op α) (h : op.OK n wraps dim) (c : Crd) (v : α) (hc : (some c, v) ∈ op.writes n) : OnePeriod n wraps dim c := by
  cases op with
  | set c' v' =>
    obtain ⟨rfl, rfl⟩ : c = c' ∧ v = v' := by simpa [Op.writes] using hc
    exact h
  | setEdge v' => simp [Op.writes] at hc
  | setStreak s src =>
    obtain ⟨p, hp, e⟩ := List.mem_map.mp hc
    cases e
    exact h.2.2 _ (List.of_mem_zip hp).1
  | loadRegion b r off =>
    obtain ⟨p, hp, e⟩ := List.mem_map.mp hc
    cases e
    exact h.2.2 _ (List.of_mem_zip hp).1

/-- **C33, histories.** After any sequence of cell-wise, streak-wise and region-wise writes and of changes of the edge cell, none of which causes an illegal
memory access, a read at `d` returns the last value written to the same cell (or, outside of the constant boundaries, to any coordinate outside), and otherwise
what it returned before. -/
theorem history (hn : n ≤ 2) (g : Grid α) (hg : GridOK n g) (ops : List (Op α)) (h : ∀ op ∈ ops, op.OK n wraps g.dim) :
    ∃ g', run n wraps g ops = some g' ∧ GridOK n g' ∧ g'.dim = g.dim ∧ ∀ d, OnePeriod n wraps g.dim d →
      (∀ v, Last (Same n wraps g.dim) (Outside n wraps g.dim) (ops.flatMap (Op.writes n)) d v → gridRead n wraps g' d = some v) ∧
      ((∀ w ∈ ops.flatMap (Op.writes n), ¬ Hits (Same n wraps g.dim) (Outside n wraps g.dim) w d) → gridRead n wraps g' d = gridRead n wraps g d) := by
  have key : ∀ (ops : List (Op α)) (g : Grid α), GridOK n g → (∀ op ∈ ops, op.OK n wraps g.dim) → run n wraps g ops = applyW n wraps (ops.flatMap (Op.writes n)) g := by
    intro ops
    induction ops with
    | nil => intro g _ _; rfl
    | cons op ops ih =>
      intro g hg h
      have ho := h op (List.mem_cons_self ..)
      have e := exec_eq hn hg op ho
      obtain ⟨g1, e1, h1, h2, _⟩ := applyW_spec hn (op.writes n) g hg (fun c v hc => writes_ok op ho c v hc)
      rw [List.flatMap_cons, applyW_append, e1, Option.bind_some, ← ih g1 h1 (fun op' ho' => by rw [h2]; exact h op' (List.mem_cons_of_mem _ ho'))]
      unfold run
      rw [List.foldlM_cons, e, e1]
      rfl
  rw [key ops g hg h]
  refine applyW_spec hn _ g hg (fun c v hc => ?_)
  obtain ⟨op, ho, hw⟩ := List.mem_flatMap.mp hc
  exact writes_ok op (h op ho) c v hw

/-- a new grid contains the default cell everywhere and the edge cell outside -/
theorem fresh (hn : n ≤ 2) (dim : Crd) (hd : ∀ k, k ≤ n → 0 < dim k) (d e : α) :
    GridOK n (gridMake n dim d e) ∧ ∀ c, OnePeriod n wraps dim c → (Outside n wraps dim c → gridRead n wraps (gridMake n dim d e) c = some e) ∧
      (¬ Outside n wraps dim c → gridRead n wraps (gridMake n dim d e) c = some d) := by
  have hg : GridOK n (gridMake n dim d e) := by
    refine ⟨hd, ?_⟩
    have : 0 ≤ crdProd n dim := by
      rw [← C12.volume_eq]
      have := (index_bijection n hn dim hd).1 (fun _ => 0) (fun k hk => ⟨le_refl _, hd k hk⟩)
      omega
    simp only [gridMake, List.length_replicate, C12.volume_eq]
    omega
  refine ⟨hg, fun c hc => ?_⟩
  obtain ⟨h1, h2⟩ := locate_spec n hn wraps dim c hd hc
  constructor
  · intro ho
    unfold gridRead
    rw [show (gridMake n dim d e).dim = dim from rfl, h1 ho]
    rfl
  · intro ho
    obtain ⟨i, e1, _⟩ := h2 ho
    obtain ⟨h3, h4⟩ := locate_range hn hg (c := c) hc i e1
    unfold gridRead
    rw [show (gridMake n dim d e).dim = dim from rfl, e1]
    simp only
    rw [if_pos h3]
    simp only [gridMake, List.length_replicate] at h4 ⊢
    rw [List.getElem?_replicate, if_pos (by omega)]

/-- **C33, streak-wise reads.** Reading a streak is the same as reading its cells one by one. -/
theorem streak_reads (hn : n ≤ 2) (g : Grid α) (hg : GridOK n g) (s : Streak) (hs : s.origin 0 ≤ s.endX) (hc : ∀ c ∈ coordsOf s, OnePeriod n wraps g.dim c) :
    ∃ l, gridGetStreak n wraps g s = some l ∧ l.map some = (coordsOf s).map (gridRead n wraps g) := by
  rw [getStreak_eq hn hg s hs]
  have : ∀ cs : List Crd, (∀ c ∈ cs, OnePeriod n wraps g.dim c) → ∃ l, readAll n wraps g cs = some l ∧ l.map some = cs.map (gridRead n wraps g) := by
    intro cs
    induction cs with
    | nil => intro _; exact ⟨[], rfl, rfl⟩
    | cons c cs ih =>
      intro h
      obtain ⟨v, e⟩ := read_some hn hg (h c (List.mem_cons_self ..))
      obtain ⟨l, e1, e2⟩ := ih (fun c hc => h c (List.mem_cons_of_mem _ hc))
      exact ⟨v :: l, by rw [readAll, e, e1]; rfl, by rw [List.map_cons, List.map_cons, e2, e]⟩
  exact this _ hc

theorem readAll_map (g : Grid α) (cs : List Crd) (l : List α) (h : readAll n wraps g cs = some l) : l.map some = cs.map (gridRead n wraps g) := by
  induction cs generalizing l with
  | nil => cases h; rfl
  | cons c cs ih =>
    rw [readAll] at h
    cases h1 : gridRead n wraps g c with
    | none => rw [h1] at h; cases h
    | some v =>
      rw [h1] at h
      cases h2 : readAll n wraps g cs with
      | none => rw [h2] at h; cases h
      | some r =>
        rw [h2] at h
        cases h
        rw [List.map_cons, List.map_cons, ih r h2, h1]

/-- **C33, `saveRegion`.** The cells of the region are stored at the beginning of the buffer, in iteration order; the rest of the buffer is unchanged. -/
theorem save_spec (hn : n ≤ 2) (g : Grid α) (hg : GridOK n g) (b : List α) (r : Idx) (off : Crd) (hr : RegOK n r) (hl : (regionCells n r off).length ≤ b.length)
    (hc : ∀ c ∈ regionCells n r off, OnePeriod n wraps g.dim c) :
    ∃ l, gridSave n wraps g b r off = some (l ++ b.drop l.length) ∧ l.map some = (regionCells n r off).map (gridRead n wraps g) := by
  obtain ⟨ss, e, h1, h2⟩ := streaks_spec r hr off
  have hlen : (ss.flatMap coordsOf).length = (regionCells n r off).length := by
    have := congrArg List.length h2
    simpa only [List.length_map] using this
  obtain ⟨l, e1, e2⟩ := saveLoop_eq hn hg ss b 0 (fun s hs => by have := h1 s hs; omega) (fun c hcc => by
    obtain ⟨d, hd, hk⟩ := mem_restrict h2 hcc
    exact onePeriod_congr hk (hc d hd)) (by omega)
  rw [readAll_congr hn g _ _ h2] at e1
  refine ⟨l, ?_, readAll_map g _ _ e1⟩
  unfold gridSave
  rw [e, Option.bind_some, e2]
  simp

theorem mem_regionCells {r : Idx} (hr : RegOK n r) {off c : Crd} (hc : c ∈ regionCells n r off) : RMem n r (fun k => c k - off k) := by
  obtain ⟨v, hv, rfl⟩ := List.mem_map.mp hc
  have := ((regCoords_spec n r hr).2 v).mp hv
  simpa using this

theorem last_of_zip (same : Crd → Crd → Prop) (out : Crd → Prop) (cs : List Crd) (l : List α) (i : Nat) (h1 : i < cs.length) (h2 : i < l.length) (d : Crd)
    (hh : same cs[i] d) (hb : ∀ j, i < j → (hj : j < cs.length) → ¬ same cs[j] d) :
    Last same out ((cs.zip l).map fun p => ((some p.1 : Option Crd), p.2)) d l[i] := by
  refine ⟨((cs.zip l).map fun p => ((some p.1 : Option Crd), p.2)).take i, (some cs[i], l[i]), ((cs.zip l).map fun p => ((some p.1 : Option Crd), p.2)).drop (i + 1), ?_, hh, rfl, ?_⟩
  · have hi : i < ((cs.zip l).map fun p => ((some p.1 : Option Crd), p.2)).length := by simp; omega
    conv_lhs => rw [← List.take_append_drop i ((cs.zip l).map fun p => ((some p.1 : Option Crd), p.2))]
    rw [List.drop_eq_getElem_cons hi]
    simp
  · intro w hw
    obtain ⟨j, hj, rfl⟩ := List.mem_iff_getElem.mp hw
    simp only [List.length_drop, List.length_map, List.length_zip] at hj
    simp only [List.getElem_drop, List.getElem_map, List.getElem_zip]
    exact hb (i + 1 + j) (by omega) (by omega)

theorem regionCells_getElem (r : Idx) (off : Crd) (i : Nat) (h : i < (regionCells n r off).length) :
    ∃ h' : i < (regCoords n r).length, (regionCells n r off)[i] = fun k => ext (regCoords n r)[i] k + off k := by
  have h' : i < (regCoords n r).length := by simpa [regionCells] using h
  exact ⟨h', by simp [regionCells]⟩

theorem regionCells_length (r : Idx) (off : Crd) : (regionCells n r off).length = (regCoords n r).length := by simp [regionCells]

theorem rmem_congr {r : Idx} (hr : RegOK n r) {a b : Crd} (h : ∀ k, k ≤ n → a k = b k) (ha : RMem n r a) : RMem n r b := by
  obtain ⟨l, _, _, hc⟩ := toVector_spec hr
  rw [hc.mem] at ha ⊢
  obtain ⟨s, hs, h1, h2, h3⟩ := ha
  refine ⟨s, hs, fun k hk hk' => ?_, ?_, ?_⟩
  · rw [← h k hk']; exact h1 k hk hk'
  · rw [← h 0 (by omega)]; exact h2
  · rw [← h 0 (by omega)]; exact h3

theorem same_inDim {dim a b : Crd} (ha : InDim n dim a) (hb : InDim n dim b) : Same n wraps dim a b ↔ ∀ k, k ≤ n → a k = b k := by
  constructor
  · rintro (h | ⟨_, _, h⟩) k hk
    · exact (not_outside_of_inDim ha h.1).elim
    · have := h k hk
      split at this
      · rwa [Int.emod_eq_of_lt (ha k hk).1 (ha k hk).2, Int.emod_eq_of_lt (hb k hk).1 (hb k hk).2] at this
      · exact this
  · intro h
    refine Or.inr ⟨not_outside_of_inDim ha, not_outside_of_inDim hb, fun k hk => ?_⟩
    split <;> rw [h k hk]

/-- **C33, region transfer.** Cells of a region saved from one grid and loaded into another one (possibly the same; the grids and the offsets may differ): every
cell of the region gets the value it has in the source, nothing else is changed, neither cells nor the edge cell. -/
theorem roundtrip (hn : n ≤ 2) (g1 g2 : Grid α) (hg1 : GridOK n g1) (hg2 : GridOK n g2) (r : Idx) (hr : RegOK n r) (off1 off2 : Crd)
    (h1 : ∀ c, RMem n r c → InDim n g1.dim (fun k => c k + off1 k)) (h2 : ∀ c, RMem n r c → InDim n g2.dim (fun k => c k + off2 k))
    (b : List α) (hb : (regionCells n r off1).length ≤ b.length) :
    ∃ b' g', gridSave n wraps g1 b r off1 = some b' ∧ gridLoad n wraps g2 b' r off2 = some g' ∧ GridOK n g' ∧ g'.dim = g2.dim ∧
      (∀ c, RMem n r c → gridRead n wraps g' (fun k => c k + off2 k) = gridRead n wraps g1 (fun k => c k + off1 k)) ∧
      (∀ c, InDim n g2.dim c → ¬ RMem n r (fun k => c k - off2 k) → gridRead n wraps g' c = gridRead n wraps g2 c) ∧
      (∀ c, OnePeriod n wraps g2.dim c → Outside n wraps g2.dim c → gridRead n wraps g' c = gridRead n wraps g2 c) := by
  have hmem : ∀ i (h : i < (regCoords n r).length), RMem n r (ext (regCoords n r)[i]) := fun i h => ((regCoords_spec n r hr).2 _).mp (List.getElem_mem h)
  have c1 : ∀ c ∈ regionCells n r off1, InDim n g1.dim c := by
    intro c hc
    obtain ⟨v, hv, rfl⟩ := List.mem_map.mp hc
    exact h1 _ (((regCoords_spec n r hr).2 v).mp hv)
  have c2 : ∀ c ∈ regionCells n r off2, InDim n g2.dim c := by
    intro c hc
    obtain ⟨v, hv, rfl⟩ := List.mem_map.mp hc
    exact h2 _ (((regCoords_spec n r hr).2 v).mp hv)
  obtain ⟨l, e1, e2⟩ := save_spec (wraps := wraps) hn g1 hg1 b r off1 hr hb (fun c hc => onePeriod_of_inDim (c1 c hc))
  have hl : l.length = (regCoords n r).length := by
    have := congrArg List.length e2
    simpa [regionCells_length] using this
  have hop : Op.OK n wraps g2.dim (.loadRegion (l ++ b.drop l.length) r off2) :=
    ⟨hr, by rw [regionCells_length, List.length_append]; omega, fun c hc => onePeriod_of_inDim (c2 c hc)⟩
  obtain ⟨g', e3, h3, h4, h5⟩ := history (wraps := wraps) hn g2 hg2 [.loadRegion (l ++ b.drop l.length) r off2] (by simpa using hop)
  have e4 : gridLoad n wraps g2 (l ++ b.drop l.length) r off2 = some g' := by
    have := e3
    simp only [run, List.foldlM_cons, List.foldlM_nil, exec] at this
    simpa using this
  refine ⟨_, g', e1, e4, h3, h4, ?_, ?_, ?_⟩
  · intro c hc
    obtain ⟨i, hi, e5⟩ := List.mem_iff_getElem.mp (((regCoords_spec n r hr).2 (restrict n c)).mpr (rmem_congr hr (fun k hk => (ext_restrict n c k hk).symm) hc))
    have hi1 : i < (regionCells n r off1).length := by rw [regionCells_length]; exact hi
    have hi2 : i < (regionCells n r off2).length := by rw [regionCells_length]; exact hi
    have hk : ∀ k, k ≤ n → ext (regCoords n r)[i] k = c k := fun k hk => by rw [e5]; exact ext_restrict n c k hk
    have hv : some l[i] = gridRead n wraps g1 (fun k => c k + off1 k) := by
      have e6 : (l.map some)[i]'(by simpa using by omega) = ((regionCells n r off1).map (gridRead n wraps g1))[i]'(by simpa using hi1) := by
        simp only [e2]
      rw [List.getElem_map, List.getElem_map] at e6
      obtain ⟨_, e7⟩ := regionCells_getElem r off1 i hi1
      rw [e6, e7]
      exact read_congr hn g1 (fun k hk' => by rw [hk k hk'])
    rw [← hv]
    have := (h5 (fun k => c k + off2 k) (onePeriod_of_inDim (h2 c hc))).1 l[i]
    apply this
    simp only [List.flatMap_cons, List.flatMap_nil, List.append_nil, Op.writes]
    have hlast := last_of_zip (Same n wraps g2.dim) (Outside n wraps g2.dim) (regionCells n r off2) (l ++ b.drop l.length) i hi2 (by rw [List.length_append]; omega)
      (fun k => c k + off2 k) ?_ ?_
    · rwa [List.getElem_append_left (by omega)] at hlast
    · obtain ⟨_, e7⟩ := regionCells_getElem r off2 i hi2
      rw [e7, same_inDim (h2 _ (hmem i hi)) (h2 c hc)]
      intro k hk'
      rw [hk k hk']
    · intro j hij hj
      obtain ⟨hj', e7⟩ := regionCells_getElem r off2 j hj
      rw [e7, same_inDim (h2 _ (hmem j hj')) (h2 c hc)]
      intro hh
      have : (regCoords n r)[i] = (regCoords n r)[j] := ext_inj fun k hk' => by
        have := hh k hk'
        rw [hk k hk']
        omega
      exact absurd ((List.Nodup.getElem_inj_iff (regCoords_nodup n r hr)).mp this) (by omega)
  · intro c hc hnot
    refine (h5 c (onePeriod_of_inDim hc)).2 ?_
    intro w hw
    simp only [List.flatMap_cons, List.flatMap_nil, List.append_nil, Op.writes] at hw
    obtain ⟨p, hp, rfl⟩ := List.mem_map.mp hw
    have hp1 := (List.of_mem_zip hp).1
    change ¬ Same n wraps g2.dim p.1 c
    rw [same_inDim (c2 _ hp1) hc]
    intro hh
    exact hnot (rmem_congr hr (fun k hk => by rw [hh k hk]) (mem_regionCells hr hp1))
  · intro c hc ho
    refine (h5 c hc).2 ?_
    intro w hw
    simp only [List.flatMap_cons, List.flatMap_nil, List.append_nil, Op.writes] at hw
    obtain ⟨p, hp, rfl⟩ := List.mem_map.mp hw
    have hp1 := (List.of_mem_zip hp).1
    change ¬ Same n wraps g2.dim p.1 c
    rintro (hh | hh)
    · exact not_outside_of_inDim (c2 _ hp1) hh.1
    · exact hh.2.1 ho

end LGD.C33
