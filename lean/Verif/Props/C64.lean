import Verif.Part.ScotchDist
import Verif.Part.ScotchGraph
import Verif.Part.ScotchFloat
import Verif.Props.C52
import Mathlib.Tactic.IntervalCases

/-!
# C64: Partitions based on SCOTCH

Whatever the graph partitioner answers: the regions are exactly the parts it chose. It is handed the graph of neighboring cells. On the way, `createRegions`
always reads one element behind the end of its array. In the distributed variant all ranks end up with the same regions, but beyond 2²⁴ cells
some cells belong to no region, and others which don't exist belong to one.
-/

namespace LGD.C64
open LGD.Mpi LGD.Gather LGD.Scotch LGD.C52 LGD.C14

/-! ## The graph -/

/-- Regular grids (2D and 3D): no store exceeds the allocated arrays, and all elements are filled; the edges of each cell are, without
repetition, the numbers of the cells in the grid which differ by one in exactly one coordinate. -/
theorem graph_correct {n : Nat} (hn : n = 1 ∨ n = 2) {dim : Crd} (hd : ∀ k, k ≤ n → 0 < dim k) :
    ∃ vert tab, Scotch.graph n dim = some (vert, tab) ∧ (tab.length : Int) = edgeNbr n dim ∧ (vert.length : Int) = crdProd n dim + 1 ∧
      vert[0]? = some 0 ∧ vert.getLast? = some (tab.length : Int) ∧
      ∀ p, InDim n dim p → ∃ lo hi : Nat, vert[(lin dim n 0 p).toNat]? = some (lo : Int) ∧ vert[(lin dim n 0 p).toNat + 1]? = some (hi : Int) ∧
        lo ≤ hi ∧ hi ≤ tab.length ∧ ((tab.drop lo).take (hi - lo)).Nodup ∧
        ∀ j, j ∈ (tab.drop lo).take (hi - lo) ↔ ∃ q, InDim n dim q ∧ Adj n p q ∧ lin dim n 0 q = j := by
  have hpos : 0 < crdProd n dim := by
    rcases hn with rfl | rfl
    · simp only [crdProd, Nat.zero_add]
      exact mul_pos (hd 0 (by omega)) (hd 1 (by omega))
    · simp only [crdProd, Nat.zero_add, Nat.reduceAdd]
      exact mul_pos (mul_pos (hd 0 (by omega)) (hd 1 (by omega))) (hd 2 (by omega))
  have tn : ∀ i, 0 ≤ total n dim i := fun i => by rw [← flat_length]; omega
  have tmono : ∀ i j : Nat, i ≤ j → total n dim i ≤ total n dim j := by
    intro i j h
    induction j, h using Nat.le_induction with
    | base => exact le_rfl
    | succ j _ ih => rw [total_succ]; omega
  refine ⟨_, _, graph_some hn hd, ?_, ?_, ?_, ?_, ?_⟩
  · rw [flat_length, total_eq hn hd]
  · simp only [List.length_map, List.length_range]
    push_cast
    omega
  · simp [total]
  · rw [flat_length]
    simp [List.range_succ]
  · intro p hp
    have h0 : 0 ≤ lin dim n 0 p := lin_nonneg dim n 0 _ (fun j _ hj => (hp j (by omega)).1) (fun j _ hj => by have := hp j (by omega); omega)
    have h1 : lin dim n 0 p < crdProd n dim := by
      rw [← vol_prod]
      exact lin_lt_vol dim n 0 _ (fun j _ hj => hp j (by omega))
    obtain ⟨m, hm⟩ := Int.eq_ofNat_of_zero_le h0
    have hm' : m < (crdProd n dim).toNat := by omega
    have e := flat_slice n dim hm'
    refine ⟨(total n dim m).toNat, (total n dim (m + 1)).toNat, ?_, ?_, ?_, ?_, ?_, ?_⟩
    · rw [hm, List.getElem?_map, List.getElem?_range (by omega)]
      simp [tn]
    · rw [hm, List.getElem?_map, List.getElem?_range (by omega)]
      simp [tn]
    · have := tmono m (m + 1) (by omega); omega
    · have := tmono (m + 1) _ hm'
      have h2 := flat_length n dim (crdProd n dim).toNat
      omega
    · rw [e]
      have := cellEdges_nodup hn hp
      rwa [hm] at this
    · intro j
      rw [e]
      have := cellEdges_adj hn hp j
      rwa [hm] at this

/-- a grid of 3 × 2 cells: 14 edges, four of which belong to cell 1 or 4 and so on -/
example : ∃ vert tab, Scotch.graph 1 (fun k => if k = 0 then 3 else 2) = some (vert, tab) ∧ (tab.length : Int) = 14 ∧ (vert.length : Int) = 7 := by
  obtain ⟨v, t, h1, h2, h3, -⟩ := graph_correct (n := 1) (Or.inl rfl) (dim := fun k => if k = 0 then 3 else 2) (fun k _ => by split <;> omega)
  exact ⟨v, t, h1, by rw [h2]; decide, by rw [h3]; decide⟩

/-! ## From the answer to regions -/

/-- Regular grids, whatever is stored behind the last element of `indices`: region `r` consists of exactly the cells which were assigned to `r`. -/
theorem regions_partial {n : Nat} (hn : n = 1 ∨ n = 2) {origin dim : Crd} (hd : ∀ k, k ≤ n → 0 < dim k) {fuel : Nat} (hf : 2 ≤ fuel) {k : Nat}
    {ind : List Int} (hlen : (ind.length : Int) = crdProd n dim) (hind : ∀ v ∈ ind, 0 ≤ v ∧ v < k) (behind : Int) :
    ∃ regs, createRegions n origin dim fuel k ind (some behind) = some regs ∧ regs.length = k ∧
      ∀ (r : Nat) idx, regs[r]? = some idx → RegOK n idx ∧
        ∀ c, RMem n idx c ↔ C12.InBox n ⟨origin, dim⟩ c ∧ ind[(lin dim n 0 fun j => c j - origin j).toNat]? = some (r : Int) := by
  obtain ⟨regs, h1, h2⟩ := createRegions_spec hn hd hf hlen hind behind
  exact ⟨regs, h1, h2.len, fun r idx h => ⟨h2.ok r idx h, h2.mem r idx h⟩⟩

/-- … but the element behind the last one is read in every single run: undefined behavior. -/
theorem reads_behind_end (n : Nat) (origin dim : Crd) (fuel k : Nat) (ind : List Int) : createRegions n origin dim fuel k ind none = none :=
  createRegions_none n origin dim fuel k ind

/-- 2 × 2 cells at (5, 7), assigned to the parts 1, 1, 0, 1: the second region has the upper row and the last cell -/
example : ∃ regs, createRegions 1 (fun k => if k = 0 then 5 else 7) (fun _ => 2) 2 2 [1, 1, 0, 1] (some (-42)) = some regs ∧
    regs.length = 2 ∧ ∀ idx, regs[1]? = some idx → RMem 1 idx (fun k => if k = 0 then 6 else 7) ∧ ¬ RMem 1 idx (fun k => if k = 0 then 5 else 8) := by
  obtain ⟨regs, h1, h2, h3⟩ := regions_partial (n := 1) (Or.inl rfl) (origin := fun k => if k = 0 then 5 else 7) (dim := fun _ => 2) (fun _ _ => by simp) le_rfl
    (k := 2) (ind := [1, 1, 0, 1]) (by decide) (by decide) (-42)
  refine ⟨regs, h1, h2, fun idx h => ?_⟩
  obtain ⟨-, h4⟩ := h3 1 idx h
  rw [h4, h4]
  refine ⟨⟨fun k hk => ?_, by decide⟩, fun h => ?_⟩
  · interval_cases k <;> simp
  · exact absurd h.2 (by decide)

/-- Unstructured grids: likewise; `origin` has no influence. -/
theorem unstructured {k : Nat} {ind : List Int} (hind : ∀ v ∈ ind, 0 ≤ v ∧ v < k) :
    ∃ regs, unstructuredRegions k ind = some regs ∧ regs.length = k ∧ ∀ (r : Nat) idx, regs[r]? = some idx → RegOK 0 idx ∧
      ∀ c, RMem 0 idx c ↔ 0 ≤ c 0 ∧ ind[(c 0).toNat]? = some (r : Int) := by
  obtain ⟨regs, h1, h2⟩ := insertIds_spec ind 0 _ _ hind (holds_empty 0 k)
  refine ⟨regs, h1, h2.len, fun r idx h => ⟨h2.ok r idx h, fun c => ?_⟩⟩
  rw [h2.mem r idx h]
  unfold Frag
  constructor
  · rintro (h | ⟨m, h1, h2⟩)
    · exact h.elim
    · have : (c 0).toNat = m := by omega
      exact ⟨by omega, by rw [this]; exact h1⟩
  · rintro ⟨h1, h2⟩
    exact Or.inr ⟨(c 0).toNat, h2, by omega⟩

example : ∃ regs, unstructuredRegions 3 [2, 0, 2, 1] = some regs ∧ regs.length = 3 ∧ ∀ idx, regs[2]? = some idx → RMem 0 idx (fun _ => 2) ∧ ¬ RMem 0 idx fun _ => 3 := by
  obtain ⟨regs, h1, h2, h3⟩ := unstructured (k := 3) (ind := [2, 0, 2, 1]) (by decide)
  refine ⟨regs, h1, h2, fun idx h => ?_⟩
  rw [(h3 2 idx h).2, (h3 2 idx h).2]
  decide

/-! ## The distributed variant -/

/-- what rank `r < N` runs; `ind r` is the partitioner's answer for the cells of rank `r` -/
def progs (N cells : Nat) (ind : Nat → List Int) (r : Nat) : Prg := if r < N then distProg N r (startEnd N cells r).1 (ind r) else .done

/-- answers for the `end - start` cells of each rank -/
structure Answers (N cells : Nat) (ind : Nat → List Int) : Prop where
  len : ∀ r, r < N → ((ind r).length : Int) = (startEnd N cells r).2 - (startEnd N cells r).1
  val : ∀ r, r < N → ∀ v ∈ ind r, 0 ≤ v ∧ v < N

/-- All executions, with any buffering, end without errors; then every rank has produced one vector of regions. Its `k`-th region consists of the
nodes which any rank's answer assigns to part `k`. -/
theorem distributed (eager : Ch → Nat → Bool) {N cells : Nat} {ind : Nat → List Int} (ha : Answers N cells ind) (mem : Nat → Loc → Idx) :
    ∃ t, AlwaysEnds eager (start (progs N cells ind) mem) t ∧ ∀ r, r < N → ∃ regs, (t.ranks r).out = [result regs] ∧ regs.length = N ∧
      ∀ (k : Nat) idx, regs[k]? = some idx → RegOK 0 idx ∧ ∀ c, RMem 0 idx c ↔ ∃ i, i < N ∧ bound N cells i ≤ c 0 ∧ c 0 < bound N cells (i + 1) ∧
        (ind i)[(c 0 - bound N cells i).toNat]? = some (k : Int) := by
  obtain ⟨t, regs, h1, h2, h3⟩ := run_dist eager N (fun r => (startEnd N cells r).1) ind mem ha.val
  refine ⟨t, alwaysEnds_of_run (wf_start _ _) h1 h2, fun r hr => ⟨regs r, (h3 r hr).1, (h3 r hr).2.len, fun k idx h => ⟨(h3 r hr).2.ok k idx h, fun c => ?_⟩⟩⟩
  rw [(h3 r hr).2.mem k idx h]
  unfold Frag
  constructor
  · rintro ⟨i, hi, m, h4, h5⟩
    have hl := ha.len i hi
    simp only [startEnd] at hl h5
    have hm := (List.getElem?_eq_some_iff.1 h4).1
    refine ⟨i, hi, by omega, by omega, ?_⟩
    rw [show (c 0 - bound N cells i).toNat = m by omega]
    exact h4
  · rintro ⟨i, hi, h4, h5, h6⟩
    exact ⟨i, hi, _, h6, by simp only [startEnd]; omega⟩

/-- All ranks agree. -/
theorem same_everywhere (eager : Ch → Nat → Bool) {N cells : Nat} {ind : Nat → List Int} (ha : Answers N cells ind) (mem : Nat → Loc → Idx) :
    ∃ t, AlwaysEnds eager (start (progs N cells ind) mem) t ∧ ∀ r r', r < N → r' < N → ∃ regs regs', (t.ranks r).out = [result regs] ∧
      (t.ranks r').out = [result regs'] ∧ regs.length = regs'.length ∧
      ∀ (k : Nat) a b, regs[k]? = some a → regs'[k]? = some b → regEq 0 a b = true := by
  obtain ⟨t, h1, h2⟩ := distributed eager ha mem
  refine ⟨t, h1, fun r r' hr hr' => ?_⟩
  obtain ⟨x, x1, x2, x3⟩ := h2 r hr
  obtain ⟨y, y1, y2, y3⟩ := h2 r' hr'
  refine ⟨x, y, x1, y1, by omega, fun k a b ea eb => ?_⟩
  obtain ⟨⟨ta, oa⟩, ma⟩ := x3 k a ea
  obtain ⟨⟨tb, ob⟩, mb⟩ := y3 k b eb
  rw [rep_eq_iff oa ob]
  intro c
  rw [ma, mb]

/-- the ranges of the ranks -/
theorem ranges {N : Nat} (hN : 0 < N) (cells : Nat) (m : Int) :
    (∃ r, r < N ∧ bound N cells r ≤ m ∧ m < bound N cells (r + 1)) ↔ 0 ≤ m ∧ m < ⌊f32 (f32 cells)⌋ := by
  rw [← bound_last hN]
  constructor
  · rintro ⟨r, hr, h1, h2⟩
    have h3 := bound_nonneg N cells r
    have h4 := bound_mono N cells (show r + 1 ≤ N by omega)
    exact ⟨by omega, by omega⟩
  · rintro ⟨h0, h1⟩
    exact bound_cover N cells m h0 h1

/-- A node belongs to at most one region, and to one if and only if its number is below what `float` makes of the number of cells. -/
theorem covered (eager : Ch → Nat → Bool) {N cells : Nat} (hN : 0 < N) {ind : Nat → List Int} (ha : Answers N cells ind) (mem : Nat → Loc → Idx) :
    ∃ t, AlwaysEnds eager (start (progs N cells ind) mem) t ∧ ∀ r, r < N → ∃ regs, (t.ranks r).out = [result regs] ∧ regs.length = N ∧
      (∀ (k k' : Nat) a b c, regs[k]? = some a → regs[k']? = some b → RMem 0 a c → RMem 0 b c → k = k') ∧
      ∀ c, (∃ (k : Nat) (idx : Idx), regs[k]? = some idx ∧ RMem 0 idx c) ↔ 0 ≤ c 0 ∧ c 0 < ⌊f32 (f32 cells)⌋ := by
  obtain ⟨t, h1, h2⟩ := distributed eager ha mem
  refine ⟨t, h1, fun r hr => ?_⟩
  obtain ⟨regs, e, hl, h3⟩ := h2 r hr
  refine ⟨regs, e, hl, ?_, fun c => ?_⟩
  · intro k k' a b c hk hk' ma mb
    obtain ⟨i, -, i1, i2, i3⟩ := ((h3 k a hk).2 c).1 ma
    obtain ⟨j, -, j1, j2, j3⟩ := ((h3 k' b hk').2 c).1 mb
    obtain rfl := bound_unique N cells ⟨i1, i2⟩ ⟨j1, j2⟩
    rw [i3] at j3
    have := Option.some.inj j3
    omega
  · rw [← ranges hN]
    constructor
    · rintro ⟨k, idx, hk, hm⟩
      obtain ⟨i, i0, i1, i2, -⟩ := ((h3 k idx hk).2 c).1 hm
      exact ⟨i, i0, i1, i2⟩
    · rintro ⟨i, i0, i1, i2⟩
      have hlen := ha.len i i0
      simp only [startEnd] at hlen
      have hlt : (c 0 - bound N cells i).toNat < (ind i).length := by omega
      have hv := ha.val i i0 _ (List.getElem_mem hlt)
      obtain ⟨k, hk⟩ := Int.eq_ofNat_of_zero_le hv.1
      have hkl : k < regs.length := by omega
      refine ⟨k, _, List.getElem?_eq_getElem hkl, ((h3 k _ (List.getElem?_eq_getElem hkl)).2 c).2 ⟨i, i0, i1, i2, ?_⟩⟩
      rw [List.getElem?_eq_getElem hlt, hk]

/-- Up to 2²⁴ cells the regions are a partition of the cells. -/
theorem partition_small {cells : Nat} (h : cells ≤ 2 ^ 24) : ⌊f32 (f32 cells)⌋ = (cells : Int) := by
  rw [f32_nat h, f32_nat h]
  simp

/-- With 16777217 cells the last cell belongs to no region, with 16777219 cells the regions contain a cell which doesn't exist. -/
theorem cells_lost_and_invented (eager : Ch → Nat → Bool) {N : Nat} (hN : 0 < N) (mem : Nat → Loc → Idx) :
    (∀ ind, Answers N 16777217 ind → ∃ t, AlwaysEnds eager (start (progs N 16777217 ind) mem) t ∧ ∀ r, r < N → ∃ regs, (t.ranks r).out = [result regs] ∧
      ∀ (k : Nat) idx, regs[k]? = some idx → ¬ RMem 0 idx fun _ => 16777216) ∧
    (∀ ind, Answers N 16777219 ind → ∃ t, AlwaysEnds eager (start (progs N 16777219 ind) mem) t ∧ ∀ r, r < N → ∃ regs, (t.ranks r).out = [result regs] ∧
      ∃ (k : Nat) (idx : Idx), regs[k]? = some idx ∧ RMem 0 idx fun _ => 16777219) := by
  obtain ⟨u1, u2, u3, u4⟩ := f32_up_down
  constructor
  · intro ind ha
    obtain ⟨t, h1, h2⟩ := covered eager hN ha mem
    refine ⟨t, h1, fun r hr => ?_⟩
    obtain ⟨regs, e, -, -, h3⟩ := h2 r hr
    refine ⟨regs, e, fun k idx hk hm => ?_⟩
    have := (h3 _).1 ⟨k, idx, hk, hm⟩
    rw [u1, u3] at this
    norm_num at this
  · intro ind ha
    obtain ⟨t, h1, h2⟩ := covered eager hN ha mem
    refine ⟨t, h1, fun r hr => ?_⟩
    obtain ⟨regs, e, -, -, h3⟩ := h2 r hr
    refine ⟨regs, e, (h3 _).2 ?_⟩
    rw [u2, u4]
    norm_num

/-- such answers exist for all numbers of ranks and cells -/
theorem answers_exist {N : Nat} (hN : 0 < N) (cells : Nat) :
    Answers N cells fun r => List.replicate ((startEnd N cells r).2 - (startEnd N cells r).1).toNat 0 where
  len r _ := by
    have := bound_mono N cells (Nat.le_succ r)
    simp only [startEnd, List.length_replicate, Nat.succ_eq_add_one] at this ⊢
    omega
  val r _ v hv := by
    obtain rfl := List.eq_of_mem_replicate hv
    omega

/-- two ranks, five cells: rank 0 answers for two cells, rank 1 for three -/
theorem bounds_example : bound 2 5 1 = 2 ∧ bound 2 5 2 = 5 := by
  have e1 : f32 1 = 1 := f32_one
  have e2 : f32 2 = 2 := by simpa using f32_nat (m := 2) (by norm_num)
  have e5 : f32 5 = 5 := by simpa using f32_nat (m := 5) (by norm_num)
  have l : ∀ x : ℚ, ∀ k : Int, (2 : ℚ) ^ k ≤ x → x < (2 : ℚ) ^ (k + 1) → 0 < x → Int.log 2 x = k := by
    intro x k h1 h2 h3
    have a := Int.zpow_le_iff_le_log (b := 2) (by norm_num) h3 (x := k)
    have b := Int.lt_zpow_iff_log_lt (b := 2) (by norm_num) h3 (x := k + 1)
    have a' := a.1 (by exact_mod_cast h1)
    have b' := b.1 (by exact_mod_cast h2)
    omega
  have eh : f32 (1 / 2 : ℚ) = 1 / 2 := by
    have hl := l (1 / 2) (-1) (by norm_num) (by norm_num) (by norm_num)
    refine f32_of_int (by norm_num) (m := 2 ^ 23) ?_
    unfold ulp
    rw [hl]
    norm_num
  have eq : f32 (5 / 2 : ℚ) = 5 / 2 := by
    have hl := l (5 / 2) 1 (by norm_num) (by norm_num) (by norm_num)
    refine f32_of_int (by norm_num) (m := 5 * 2 ^ 21) ?_
    unfold ulp
    rw [hl]
    norm_num
  constructor
  · unfold bound
    norm_num [e1, e2, e5, eh, eq]
  · rw [bound_last (by norm_num)]
    norm_num [e5]

/-- the cells 1 and 2 end up in the second region, on both ranks -/
example (eager : Ch → Nat → Bool) (mem : Nat → Loc → Idx) :
    ∃ t, AlwaysEnds eager (start (progs 2 5 fun r => if r = 0 then [0, 1] else [1, 0, 0]) mem) t ∧ ∀ r, r < 2 → ∃ regs, (t.ranks r).out = [result regs] ∧
      ∀ idx, regs[1]? = some idx → RMem 0 idx (fun _ => 1) ∧ RMem 0 idx (fun _ => 2) ∧ ¬ RMem 0 idx fun _ => 3 := by
  obtain ⟨b1, b2⟩ := bounds_example
  have b0 := bound_zero 2 5
  obtain ⟨t, h1, h2⟩ := distributed eager (N := 2) (cells := 5) (ind := fun r => if r = 0 then [0, 1] else [1, 0, 0])
    ⟨fun r hr => by simp only [startEnd]; interval_cases r <;> simp [b0, b1, b2], fun r hr => by interval_cases r <;> decide⟩ mem
  refine ⟨t, h1, fun r hr => ?_⟩
  obtain ⟨regs, e, -, h3⟩ := h2 r hr
  refine ⟨regs, e, fun idx hi => ?_⟩
  simp only [(h3 1 idx hi).2]
  refine ⟨⟨0, by simp [b0, b1]⟩, ⟨1, by simp [b1, b2]⟩, ?_⟩
  rintro ⟨i, hi, -, h4, h5⟩
  interval_cases i
  · simp [b1] at h4
  · simp [b1] at h5

end LGD.C64
