import Verif.Unstr.SellLemmas

/-!
# C38: the SELL-C-sigma container stores the matrix

Specification: `RowIs m r l`: the list `l` holds the (column, value) pairs of row `r`, each as often as in the matrix, in ascending order of the columns.
-/

namespace LGD.C38
open LGD.Sell

variable {V : Type}

/-! ## specification -/

/-- `l` holds exactly the pairs (column, value) of row `r` of the matrix, in ascending order of columns -/
def RowIs (m : List (Entry V)) (r : Nat) (l : List (Int × V)) : Prop :=
  l.Perm ((m.filter fun e => decide (e.1.1 = (r : Int))).map fun e => (e.1.2, e.2)) ∧ l.Pairwise fun a b => a.1 ≤ b.1

/-- number of entries in row `r` -/
def count (m : List (Entry V)) (r : Nat) : Nat := (m.filter fun e => decide (e.1.1 = (r : Int))).length

/-- all rows of the matrix are in `[0, N)` -/
def Fits (m : List (Entry V)) (N : Nat) : Prop := ∀ e ∈ m, 0 ≤ e.1.1 ∧ e.1.1 < N

/-- a container of dimension `N` on which `initFromMatrix` may be called: a fresh one, or (for SIGMA = 1) one which was initialized before -/
structure Ready (C sigma N : Nat) (c : Sell V) : Prop where
  dim : c.dimension = N
  map : ∀ x ∈ c.chunkRowToReal, x < blocks N C * C
  again : c.realRowToSorted = [] ∨ (sigma = 1 ∧ ∀ p ∈ c.realRowToSorted, p.1 = p.2)

/-! ## proof -/

theorem blocks_spec {N d : Nat} (hN : 0 < N) (hd : 0 < d) : N ≤ blocks N d * d ∧ (blocks N d - 1) * d < N ∧ 0 < blocks N d := by
  have e : blocks N d = (N - 1) / d + 1 := by
    unfold blocks
    rw [Int.tdiv_eq_ediv_of_nonneg (by omega), show ((N : Int) - 1) = ((N - 1 : Nat) : Int) by omega, ← Int.natCast_ediv]
    generalize (N - 1) / d = q
    omega
  rw [e]
  have h1 := Nat.div_add_mod (N - 1) d
  have h2 := Nat.mod_lt (N - 1) hd
  rw [Nat.mul_comm] at h1
  generalize (N - 1) / d = q at *
  generalize (N - 1) % d = t at *
  refine ⟨?_, ?_, by omega⟩
  · rw [Nat.succ_mul]; omega
  · rw [Nat.add_sub_cancel]; omega

theorem ready_make (C sigma N : Nat) : Ready C sigma N (make C N : Sell V) := ⟨rfl, by simp [make], Or.inl rfl⟩

/-- everything about the container after the initialization -/
structure Done (C sigma N : Nat) (zero : V) (srt : List (Entry V)) (old : List (Nat × Nat)) (P : List Nat) (G : Nat → Nat) (c : Sell V) : Prop where
  dim : c.dimension = N
  fits : Fits srt N ∧ N ≤ P.length
  plen : P.length = min (blocks N C * C) (blocks N sigma * sigma)
  sorted : Sorted sigma (fun i : Nat => (rowOf srt i).length) P
  c2r : c.chunkRowToReal.length = blocks N C * C ∧ c.chunkRowToReal.take P.length = P ∧ ∀ x ∈ c.chunkRowToReal, x < blocks N C * C
  r2s : c.realRowToSorted = (old ++ P.zipIdx).insertionSort firstLe
  rl : c.rowLength = P.map (fun i : Nat => (rowOf srt i).length) ++ List.replicate (blocks N C * C - P.length) 0
  cl : c.chunkLength.length = blocks N C ∧ ∀ j, j < blocks N C → c.chunkLength[j]? = some (G j)
  co : c.chunkOffset.length = blocks N C + 1 ∧ ∀ j, j ≤ blocks N C → c.chunkOffset[j]? = some (off G C j)
  ge : ∀ i x : Nat, P[i]? = some x → (rowOf srt x).length ≤ G (i / C)
  fill : ∃ ph : Int → Nat, (∀ x : Nat, x < P.length → P[ph x]? = some x) ∧ Filled (fun x j => slot (off G C) C (ph x) j) zero (off G C (blocks N C)) srt c.values c.column

theorem resize_length {α : Type} (l : List α) (n : Nat) (d : α) : (resize l n d).length = n := by
  unfold resize
  rw [List.length_append, List.length_take, List.length_replicate]
  omega

theorem mem_resize {α : Type} {l : List α} {n : Nat} {d x : α} (h : x ∈ resize l n d) : x ∈ l ∨ x = d := by
  unfold resize at h
  rw [List.mem_append] at h
  rcases h with h | h
  · exact Or.inl (List.mem_of_mem_take h)
  · exact Or.inr (List.eq_of_mem_replicate h)

theorem init_ok {C sigma N : Nat} (hC : 0 < C) (hs : 0 < sigma) (hN : 0 < N) (zero : V) {srt : List (Entry V)} (hfit : Fits srt N) (hsrt : srt.Pairwise fun a b => a.1.1 ≤ b.1.1) {c0 : Sell V}
    (h0 : Ready C sigma N c0) : ∃ P G c, initSorted C sigma zero c0 srt = some (false, c) ∧ Done C sigma N zero srt c0.realRowToSorted P G c := by
  obtain ⟨hK1, hK2, hK0⟩ := blocks_spec hN hC
  obtain ⟨hS1, hS2, hS0⟩ := blocks_spec hN hs
  generalize hK : blocks N C = K at *
  generalize hS : blocks N sigma = S at *
  -- row lengths
  obtain ⟨rl, hrl1, hrl2, hrl3⟩ := countRows_ok srt (List.replicate (K * C) 0) (fun e he => by have := hfit e he; rw [List.length_replicate]; omega)
  have hrl : ∀ i, i < K * C → rl[i]? = some ((rowOf srt i).length) := by
    intro i hi
    rw [hrl3 i, List.getElem?_replicate, if_pos hi, Option.map_some, Nat.zero_add]
  -- scopes
  have hR : 0 < K * C := Nat.mul_pos hK0 hC
  have inv0 : ScopeInv sigma (K * C) (fun i => (rowOf srt i).length) c0.realRowToSorted (min (K * C) (0 * sigma)) []
      ⟨resize c0.chunkRowToReal (K * C) 0, c0.realRowToSorted, List.replicate (K * C) 0⟩ := by
    rw [Nat.zero_mul, Nat.min_zero]
    refine ⟨rfl, Nat.zero_le _, ⟨by simp, by simp, by simp⟩, ⟨resize_length _ _ _, by simp⟩, fun i _ hi => ?_, by simp, by simp⟩
    have hl : i < (resize c0.chunkRowToReal (K * C) 0).length := by rw [resize_length]; exact hi
    refine ⟨_, List.getElem?_eq_getElem hl, ?_⟩
    rcases mem_resize (List.getElem_mem hl) with h | h
    · have := h0.map _ h
      rwa [hK] at this
    · rw [h]; exact hR
  obtain ⟨P, st, hst, inv⟩ := scopeLoop_ok hs hrl S 0 _ _ (by rw [Nat.add_zero]; omega) inv0
  rw [Nat.add_zero] at inv
  obtain ⟨hP1, hP2, hP3, ⟨hP4, hP5⟩, hP6, hP7, hP8⟩ := inv
  have hPN : N ≤ P.length := by omega
  -- chunks
  have hc2r : ∀ i, i < K * C → ∃ x, st.chunkRowToReal[i]? = some x ∧ x < K * C := by
    intro i hi
    by_cases h : i < P.length
    · refine ⟨P[i], ?_, ?_⟩
      · rw [← List.getElem?_eq_getElem h, ← hP5, List.getElem?_take, if_pos (by omega)]
      · have : P[i] ∈ List.range P.length := hP3.perm.mem_iff.1 (List.getElem_mem h)
        rw [List.mem_range] at this
        omega
    · exact hP6 i (by omega) hi
  choose! Q hQ using hc2r
  have hG : ∀ k, ∃ g, ((List.range C).map fun i => (rowOf srt ((Q (k * C + i) : Nat) : Int)).length).max? = some g ∧ ∀ i, i < C → (rowOf srt ((Q (k * C + i) : Nat) : Int)).length ≤ g := by
    intro k
    obtain ⟨g, h1, _, h3⟩ := max_ok ((List.range C).map fun i => (rowOf srt ((Q (k * C + i) : Nat) : Int)).length) (by
      intro h
      have := congrArg List.length h
      simp at this
      omega)
    exact ⟨g, h1, fun i hi => h3 _ (List.mem_map.2 ⟨i, List.mem_range.2 hi, rfl⟩)⟩
  choose G hG1 hG2 using hG
  have hco0 : (resize c0.chunkOffset (K + 1) 0).length = K + 1 := resize_length _ _ _
  obtain ⟨cl, co, hch, hcl1, hcl2, hco1, hco2⟩ := chunkLoop_ok (C := C) (G := G) hrl hQ (fun k _ => hG1 k) K 0 (resize c0.chunkLength K 0) ((resize c0.chunkOffset (K + 1) 0).set 0 0) (by omega)
    (resize_length _ _ _) (by simp) (by simpa using hco0) (fun j hj => by
      obtain rfl : j = 0 := by omega
      rw [List.getElem?_set, if_pos rfl, if_pos (by omega)]; rfl)
  have hge : ∀ i x : Nat, P[i]? = some x → (rowOf srt x).length ≤ G (i / C) := by
    intro i x hi
    have hil := (List.getElem?_eq_some_iff.1 hi).1
    have h1 := hG2 (i / C) (i % C) (Nat.mod_lt _ hC)
    rw [Nat.mul_comm, Nat.div_add_mod] at h1
    have h2 := (hQ i (by omega)).1
    rw [← hP5, List.getElem?_take, if_pos (by omega), h2, Option.some.injEq] at hi
    rwa [hi] at h1
  -- values
  have hnd : P.Nodup := hP3.perm.nodup_iff.2 List.nodup_range
  have hph : ∀ x : Int, ∃ y : Nat, 0 ≤ x → x < P.length → P[y]? = some x.toNat := by
    intro x
    by_cases h : 0 ≤ x ∧ x < P.length
    · have : x.toNat ∈ P := hP3.perm.mem_iff.2 (List.mem_range.2 (by omega))
      obtain ⟨y, hy, e⟩ := List.getElem_of_mem this
      exact ⟨y, fun _ _ => by rw [List.getElem?_eq_getElem hy, e]⟩
    · exact ⟨0, fun h1 h2 => absurd ⟨h1, h2⟩ h⟩
  choose ph hph using hph
  have hrow : ∀ x j, j < (rowOf srt x).length → ∃ x' : Nat, (x' : Int) = x ∧ x' < P.length ∧ P[ph x]? = some x' ∧ j < G (ph x / C) := by
    intro x j hj
    cases hr : rowOf srt x with
    | nil => rw [hr] at hj; simp at hj
    | cons e l =>
      have he : e ∈ rowOf srt x := by rw [hr]; simp
      unfold rowOf at he
      rw [List.mem_filter, decide_eq_true_eq] at he
      have hf := hfit e he.1
      rw [he.2] at hf
      have := hph x hf.1 (by omega)
      refine ⟨x.toNat, by omega, by omega, this, ?_⟩
      have := hge _ _ this
      rw [Int.toNat_of_nonneg hf.1] at this
      omega
  have hsort : ((st.realRowToSorted).insertionSort firstLe).Pairwise firstLe := List.pairwise_insertionSort firstLe _
  have hlb : ∀ e ∈ srt, ∃ q, lowerBound (st.realRowToSorted.insertionSort firstLe) e.1.1 = some (q, ph e.1.1) := by
    intro e he
    have hf := hfit e he
    have hp := hph e.1.1 hf.1 (by omega)
    refine ⟨e.1.1.toNat, ?_⟩
    have key : ∀ y, (e.1.1.toNat, y) ∈ st.realRowToSorted.insertionSort firstLe → y = ph e.1.1 := by
      intro y hy
      rw [List.mem_insertionSort, hP7, List.mem_append] at hy
      have hz : ∀ y, (e.1.1.toNat, y) ∈ P.zipIdx → y = ph e.1.1 := by
        intro y hy
        rw [List.mem_zipIdx_iff_getElem?] at hy
        obtain ⟨h1, h2⟩ := List.getElem?_eq_some_iff.1 hy
        obtain ⟨h3, h4⟩ := List.getElem?_eq_some_iff.1 hp
        exact (List.Nodup.getElem_inj_iff hnd).1 (h2.trans h4.symm)
      rcases hy with hy | hy
      · rcases h0.again with ha | ⟨ha, hb⟩
        · rw [ha] at hy; simp at hy
        · have h1 := hb _ hy
          have h2 := hP3.scope _ _ hp
          rw [ha, Nat.div_one, Nat.div_one] at h2
          simp only at h1
          omega
      · exact hz y hy
    have hmem : (e.1.1.toNat, ph e.1.1) ∈ st.realRowToSorted.insertionSort firstLe := by
      rw [List.mem_insertionSort, hP7, List.mem_append]
      right
      rw [List.mem_zipIdx_iff_getElem?]
      exact hp
    have := lowerBound_ok _ _ _ hsort hmem key
    rwa [Int.toNat_of_nonneg hf.1] at this
  have hphlt : ∀ x j, j < (rowOf srt x).length → ph x / C < K := by
    intro x j hj
    obtain ⟨x', _, _, h3, _⟩ := hrow x j hj
    have := (List.getElem?_eq_some_iff.1 h3).1
    rw [Nat.div_lt_iff_lt_mul hC]
    omega
  have hmemrow : ∀ e ∈ srt, 0 < (rowOf srt e.1.1).length := by
    intro e he
    exact List.length_pos_of_mem (a := e) (by unfold rowOf; rw [List.mem_filter]; exact ⟨he, by simp⟩)
  have hcoK : (co.set K (off G C K)).length = K + 1 := by simpa using hco1
  have hcoAll : ∀ j, j ≤ K → (co.set K (off G C K))[j]? = some (off G C j) := by
    intro j hj
    rw [List.getElem?_set]
    by_cases e : K = j
    · rw [if_pos e, if_pos (by omega), e]
    · rw [if_neg e]; exact hco2 j (by omega)
  obtain ⟨vs, cs, hv, hfill⟩ := valueLoop_ok (C := C) (nv := off G C K) (r2s := st.realRowToSorted.insertionSort firstLe) (co := co.set K (off G C K)) (zero := zero) (m := srt) ph (off G C) hlb
    (fun e he => hcoAll _ (hphlt _ _ (hmemrow e he)).le)
    (fun x j hj => by
      obtain ⟨_, _, _, _, h4⟩ := hrow x j hj
      exact lt_of_lt_of_le (slot_lt G hC h4).2 (off_mono G C (hphlt x j hj)))
    (fun x j x' j' hj hj' h => by
      obtain ⟨a, ha1, _, ha3, ha4⟩ := hrow x j hj
      obtain ⟨b, hb1, _, hb3, hb4⟩ := hrow x' j' hj'
      obtain ⟨h1, h2⟩ := slot_inj G hC ha4 hb4 h
      rw [h1, hb3, Option.some.injEq] at ha3
      exact ⟨by rw [← ha1, ← hb1, ha3], h2⟩)
    srt [] 0 0 (List.replicate (off G C K) zero) (List.replicate (off G C K) 0) rfl hsrt (by simp) (fun e he => (hfit e he).1) (by simp [rowOf])
    ⟨by simp, by simp, by simp [rowOf], fun i hi _ => by rw [List.getElem?_replicate, if_pos hi, List.getElem?_replicate, if_pos hi]; exact ⟨rfl, rfl⟩⟩
  refine ⟨P, G, ⟨vs, cs, st.rowLengthCopy, cl, co.set K (off G C K), st.realRowToSorted.insertionSort firstLe, st.chunkRowToReal, N⟩, ?_, ?_⟩
  · unfold initSorted
    simp only [h0.dim, hK, hS]
    rw [hrl1, Option.bind_some, hst, Option.bind_some, writeAt_ok _ _ _ (by omega), Option.bind_some]
    have hch' : chunkLoop C rl st.chunkRowToReal K 0 (resize c0.chunkLength K 0, (resize c0.chunkOffset (K + 1) 0).set 0 0, 0) = some (cl, co, off G C K) := hch
    rw [hch', Option.bind_some]
    simp only
    rw [if_pos hK0, hco2 (K - 1) (by omega), Option.bind_some, hcl2 (K - 1) (by omega), Option.bind_some, writeAt_ok _ _ _ (by omega), Option.bind_some]
    have hoff : off G C (K - 1) + G (K - 1) * C = off G C K := by
      obtain ⟨q, rfl⟩ : ∃ q, K = q + 1 := ⟨K - 1, by omega⟩
      rfl
    rw [hoff, hv]
    rfl
  · refine ⟨rfl, ⟨hfit, hPN⟩, by rw [hP1, hK, hS], hP3, ⟨by rw [hK]; exact hP4, by rw [hP1]; exact hP5, fun x hx => ?_⟩, by simp only [hP7], by rw [hK, hP1]; exact hP8, ⟨by rw [hK]; exact hcl1, by rw [hK]; exact hcl2⟩,
      ⟨by rw [hK]; exact hcoK, by rw [hK]; exact hcoAll⟩, hge, ph, fun x hx => ?_, by rw [hK]; exact hfill⟩
    · obtain ⟨i, hi, rfl⟩ := List.getElem_of_mem hx
      obtain ⟨h1, h2⟩ := hQ i (by simp only at hi; omega)
      rw [List.getElem?_eq_getElem (by exact hi), Option.some.injEq] at h1
      rw [hK, h1]; exact h2
    · have := hph (x : Int) (by omega) (by omega)
      simpa using this

/-- entries of a row in the form returned by `getRow` -/
def pairs (m : List (Entry V)) (x : Int) : List (Int × V) := (rowOf m x).map fun e => (e.1.2, e.2)

theorem pairs_row {m srt : List (Entry V)} (h : IsSort m srt) (r : Nat) : RowIs m r (pairs srt r) := by
  constructor
  · exact (h.perm.filter _).map _
  · unfold pairs rowOf
    rw [List.pairwise_map, List.pairwise_filter]
    refine h.sorted.imp fun {a b} hab ha hb => ?_
    rw [decide_eq_true_eq] at ha hb
    unfold coordLt at hab
    simp only
    omega

theorem rows_sorted {m srt : List (Entry V)} (h : IsSort m srt) : srt.Pairwise fun a b => a.1.1 ≤ b.1.1 := h.sorted.imp fun {a b} hab => by
  unfold coordLt at hab
  omega

/-- the physical rows -/
theorem getRow_done {C sigma N : Nat} {zero : V} {srt : List (Entry V)} {old : List (Nat × Nat)} {P : List Nat} {G : Nat → Nat} {c : Sell V} (hC : 0 < C)
    (d : Done C sigma N zero srt old P G c) {i : Nat} (hi : i < blocks N C * C) :
    ∃ l, getRow C c i = some l ∧ l = (P[i]?).elim [] (fun x => pairs srt x) ∧
      ∀ j, j < G (i / C) → c.column[slot (off G C) C i j]? = some ((l[j]?).elim 0 Prod.fst) ∧ c.values[slot (off G C) C i j]? = some ((l[j]?).elim zero Prod.snd) := by
  obtain ⟨ph, hph, hfill⟩ := d.fill
  have hnd : P.Nodup := d.sorted.perm.nodup_iff.2 List.nodup_range
  have hik : i / C < blocks N C := (Nat.div_lt_iff_lt_mul hC).2 hi
  have hslot : ∀ j, j < G (i / C) → slot (off G C) C i j < off G C (blocks N C) := fun j hj => lt_of_lt_of_le (slot_lt G hC hj).2 (off_mono G C hik)
  have hrows : ∀ (x : Int) (j : Nat), j < (rowOf srt x).length → P[ph x]? = some x.toNat ∧ (x.toNat : Int) = x := by
    intro x j hj
    cases hr : rowOf srt x with
    | nil => rw [hr] at hj; simp at hj
    | cons e l =>
      have he : e ∈ rowOf srt x := by rw [hr]; simp
      unfold rowOf at he
      rw [List.mem_filter, decide_eq_true_eq] at he
      have hf := d.fits.1 e he.1
      have hN := d.fits.2
      rw [he.2] at hf
      have := hph x.toNat (by omega)
      rw [Int.toNat_of_nonneg hf.1] at this
      exact ⟨this, by omega⟩
  by_cases h : i < P.length
  · obtain ⟨x, hx⟩ : ∃ x, P[i]? = some x := ⟨_, List.getElem?_eq_getElem h⟩
    have hxl : x < P.length := List.mem_range.1 (d.sorted.perm.mem_iff.1 (List.mem_of_getElem? hx))
    have hpi : ph x = i := by
      have h1 := hph x hxl
      obtain ⟨h2, h3⟩ := List.getElem?_eq_some_iff.1 h1
      obtain ⟨h4, h5⟩ := List.getElem?_eq_some_iff.1 hx
      exact (List.Nodup.getElem_inj_iff hnd).1 (h3.trans h5.symm)
    have hent : ∀ (j : Nat) (e : Int × V), (pairs srt (x : Int))[j]? = some e → c.column[slot (off G C) C i j]? = some e.1 ∧ c.values[slot (off G C) C i j]? = some e.2 := by
      intro j e he
      unfold pairs at he
      rw [List.getElem?_map, Option.map_eq_some_iff] at he
      obtain ⟨a, ha, rfl⟩ := he
      have := hfill.entry _ _ _ ha
      simp only [hpi] at this
      exact ⟨this.2, this.1⟩
    refine ⟨pairs srt x, ?_, by rw [hx]; rfl, fun j hj => ?_⟩
    · unfold getRow
      rw [d.co.2 _ hik.le, Option.bind_some]
      have hrl : c.rowLength[i]? = some (pairs srt (x : Int)).length := by
        rw [d.rl, List.getElem?_append_left (by simpa using h), List.getElem?_map, hx, Option.map_some]
        unfold pairs
        rw [List.length_map]
      rw [hrl, Option.bind_some]
      apply rowLoop_ok
      intro j e he
      have := hent j e he
      unfold slot at this
      rwa [show off G C (i / C) + i % C + j * C = off G C (i / C) + j * C + i % C by omega]
    · by_cases hjl : j < (pairs srt (x : Int)).length
      · have := hent j _ (List.getElem?_eq_getElem hjl)
        rw [List.getElem?_eq_getElem hjl]
        exact this
      · rw [show (pairs srt (x : Int))[j]? = none from List.getElem?_eq_none (by omega)]
        have := hfill.pad _ (hslot j hj) fun x' j' hj' he => by
          have hx' := hrows x' j' hj'
          have hg := d.ge _ _ hx'.1
          rw [hx'.2] at hg
          obtain ⟨h1, h2⟩ := slot_inj G hC (lt_of_lt_of_le hj' hg) hj he
          rw [h1, hx, Option.some.injEq] at hx'
          rw [← hx'.2, ← hx'.1] at hj'
          unfold pairs at hjl
          rw [List.length_map] at hjl
          omega
        exact ⟨this.2, this.1⟩
  · refine ⟨[], ?_, by rw [List.getElem?_eq_none (by omega)]; rfl, fun j hj => ?_⟩
    · unfold getRow
      rw [d.co.2 _ hik.le, Option.bind_some]
      have hrl : c.rowLength[i]? = some 0 := by
        rw [d.rl, List.getElem?_append_right (by simp; omega), List.getElem?_replicate, if_pos (by simp; omega)]
      rw [hrl]
      rfl
    · rw [List.getElem?_nil]
      have := hfill.pad _ (hslot j hj) fun x' j' hj' he => by
        have hx' := hrows x' j' hj'
        have hg := d.ge _ _ hx'.1
        rw [hx'.2] at hg
        obtain ⟨h1, h2⟩ := slot_inj G hC (lt_of_lt_of_le hj' hg) hj he
        rw [h1, List.getElem?_eq_none (by omega)] at hx'
        simp at hx'
      exact ⟨this.2, this.1⟩

theorem count_eq {m srt : List (Entry V)} (h : IsSort m srt) (r : Nat) : (rowOf srt r).length = count m r := (h.perm.filter _).length_eq

theorem fits_sort {m srt : List (Entry V)} {N : Nat} (h : IsSort m srt) (hm : Fits m N) : Fits srt N := fun e he => hm e (h.perm.mem_iff.1 he)

theorem prefix_filter (p : Nat → Prop) [DecidablePred p] (l : List Nat) (h : l.Pairwise fun x y => ¬ p x → ¬ p y) : ∀ i x, l[i]? = some x → p x → i < (l.filter (fun x => decide (p x))).length := by
  induction l with
  | nil => intro i x h; simp at h
  | cons a l ih =>
    intro i x hi hp
    rw [List.pairwise_cons] at h
    by_cases ha : p a
    · rw [List.filter_cons_of_pos (by simpa using ha), List.length_cons]
      cases i with
      | zero => omega
      | succ i =>
        have := ih h.2 i x (by simpa using hi) hp
        omega
    · cases i with
      | zero => simp at hi; exact absurd (hi ▸ hp) ha
      | succ i => exact absurd hp (h.1 x (List.mem_of_getElem? (by simpa using hi)) ha)

/-- padding rows come last -/
theorem padding_last {C sigma N : Nat} {zero : V} {srt : List (Entry V)} {old : List (Nat × Nat)} {P : List Nat} {G : Nat → Nat} {c : Sell V}
    (d : Done C sigma N zero srt old P G c) {i x : Nat} (hi : P[i]? = some x) (hx : x < N) : i < N := by
  have hlen : (P.filter (fun x => decide (x < N))).length = N := by
    rw [(d.sorted.perm.filter _).length_eq]
    have hN := d.fits.2
    have : List.range P.length = List.range N ++ (List.range (P.length - N)).map (N + ·) := by rw [← List.range_add]; congr 1; omega
    rw [this, List.filter_append, List.filter_eq_self.2, List.filter_eq_nil_iff.2]
    · simp
    · intro a ha
      obtain ⟨b, _, rfl⟩ := List.mem_map.1 ha
      simp
    · intro a ha
      simpa using ha
  have hempty : ∀ x : Nat, N ≤ x → (rowOf srt x).length = 0 := by
    intro x hx
    rw [List.length_eq_zero_iff]
    unfold rowOf
    rw [List.filter_eq_nil_iff]
    intro e he
    have := d.fits.1 e he
    rw [decide_eq_true_eq]
    omega
  have := prefix_filter (fun x => x < N) P (by
    rw [List.pairwise_iff_getElem]
    intro i j h1 h2 hij ha hb
    have e1 := List.getElem?_eq_getElem h1
    have e2 := List.getElem?_eq_getElem h2
    have s1 := d.sorted.scope _ _ e1
    have s2 := d.sorted.scope _ _ e2
    by_cases hsc : i / sigma = j / sigma
    · have := d.sorted.desc _ _ _ _ hij e1 e2 hsc
      rw [hempty P[i] (by omega)] at this
      omega
    · have h3 : i / sigma ≤ j / sigma := Nat.div_le_div_right hij.le
      have h4 : P[j] / sigma ≤ P[i] / sigma := Nat.div_le_div_right (by omega)
      omega) i x hi hx
  rwa [hlen] at this

/-- **C38, rows.** `initFromMatrix` neither fails nor leaves its vectors. It stores each row `r` at a physical position `ph r`, in the same sorting scope; `getRow(ph r)` returns exactly the entries of row `r`
in ascending order of columns. In each scope, longer rows come first, rows of the same length keep their order. The mapping is available via `realRowToSortedVec()` and `chunkRowToRealVec()`. -/
theorem stores_partial {C sigma N : Nat} (hC : 0 < C) (hs : 0 < sigma) (hN : 0 < N) (zero : V) {m srt : List (Entry V)} (hm : Fits m N) (hsrt : IsSort m srt) {c0 : Sell V} (h0 : Ready C sigma N c0) :
    ∃ c, initSorted C sigma zero c0 srt = some (false, c) ∧ ∃ ph : Nat → Nat,
      (∀ r, r < N → ph r < N ∧ ph r / sigma = r / sigma ∧ (r, ph r) ∈ c.realRowToSorted ∧ c.chunkRowToReal[ph r]? = some r ∧ ∃ l, getRow C c (ph r) = some l ∧ RowIs m r l) ∧
      (∀ r r', r < N → r' < N → r / sigma = r' / sigma → (ph r < ph r' ↔ count m r' < count m r ∨ (count m r = count m r' ∧ r < r'))) := by
  obtain ⟨P, G, c, h1, d⟩ := init_ok hC hs hN zero (fits_sort hsrt hm) (rows_sorted hsrt) h0
  have hNP := d.fits.2
  have hex : ∀ r, r < N → ∃ i : Nat, P[i]? = some r := by
    intro r hr
    have : r ∈ P := d.sorted.perm.mem_iff.2 (List.mem_range.2 (by omega))
    obtain ⟨i, hi, e⟩ := List.getElem_of_mem this
    exact ⟨i, by rw [List.getElem?_eq_getElem hi, e]⟩
  choose! ph hph using hex
  refine ⟨c, h1, ph, fun r hr => ?_, fun r r' hr hr' hsc => ?_⟩
  · have hi := hph r hr
    have hlt := (List.getElem?_eq_some_iff.1 hi).1
    have hpl := d.plen
    refine ⟨padding_last d hi hr, (d.sorted.scope _ _ hi).symm, ?_, ?_, ?_⟩
    · rw [d.r2s, List.mem_insertionSort, List.mem_append]
      right
      rw [List.mem_zipIdx_iff_getElem?]
      exact hi
    · have := d.c2r.2.1
      rw [← this, List.getElem?_take, if_pos hlt] at hi
      exact hi
    · obtain ⟨l, h2, h3, _⟩ := getRow_done hC d (i := ph r) (by omega)
      refine ⟨l, h2, ?_⟩
      rw [h3, hi]
      exact pairs_row hsrt r
  · have e1 := hph r hr
    have e2 := hph r' hr'
    have s1 := d.sorted.scope _ _ e1
    have s2 := d.sorted.scope _ _ e2
    have d1 := fun h => d.sorted.desc _ _ _ _ h e1 e2 (by omega)
    have d2 := fun h => d.sorted.desc _ _ _ _ h e2 e1 (by omega)
    simp only [count_eq hsrt] at d1 d2
    rcases Nat.lt_trichotomy (ph r) (ph r') with c | c | c
    · have := d1 c; constructor
      · intro; omega
      · intro; exact c
    · have : r = r' := by rw [c, e2, Option.some.injEq] at e1; omega
      subst this
      constructor
      · intro; omega
      · intro; omega
    · have := d2 c; constructor
      · intro; omega
      · intro; omega

/-- the row lengths do not increase within a sorting scope -/
def Presorted (sigma N : Nat) (m : List (Entry V)) : Prop := ∀ r r', r < r' → r' < N → r / sigma = r' / sigma → count m r' ≤ count m r

/-- **C38, presorted rows.** If the row lengths do not increase in the sorting scopes (in particular for SIGMA = 1), then `getRow(r)` returns row `r` for all rows, and the next `initFromMatrix` is
possible for SIGMA = 1. -/
theorem presorted {C sigma N : Nat} (hC : 0 < C) (hs : 0 < sigma) (hN : 0 < N) (zero : V) {m srt : List (Entry V)} (hm : Fits m N) (hsrt : IsSort m srt) {c0 : Sell V} (h0 : Ready C sigma N c0)
    (hpre : Presorted sigma N m) :
    ∃ c, initSorted C sigma zero c0 srt = some (false, c) ∧ (sigma = 1 → Ready C sigma N c) ∧ ∀ r, r < N → ∃ l, getRow C c r = some l ∧ RowIs m r l := by
  obtain ⟨P, G, c, h1, d⟩ := init_ok hC hs hN zero (fits_sort hsrt hm) (rows_sorted hsrt) h0
  have hNP := d.fits.2
  have hcnt : ∀ r, N ≤ r → count m r = 0 := by
    intro r hr
    unfold count
    rw [List.length_eq_zero_iff, List.filter_eq_nil_iff]
    intro e he
    have := hm e he
    rw [decide_eq_true_eq]
    omega
  have hP : P = List.range P.length := by
    refine List.Perm.eq_of_pairwise (le := (· < ·)) (fun a b _ _ h1 h2 => by omega) ?_ List.pairwise_lt_range d.sorted.perm
    rw [List.pairwise_iff_getElem]
    intro i j hi hj hij
    have e1 := List.getElem?_eq_getElem hi
    have e2 := List.getElem?_eq_getElem hj
    have s1 := d.sorted.scope _ _ e1
    have s2 := d.sorted.scope _ _ e2
    by_cases hsc : i / sigma = j / sigma
    · have := d.sorted.desc _ _ _ _ hij e1 e2 hsc
      simp only [count_eq hsrt] at this
      by_contra hc
      have hne : P[j] ≠ P[i] := fun h => by
        have := (List.Nodup.getElem_inj_iff (d.sorted.perm.nodup_iff.2 List.nodup_range)).1 h
        omega
      have hle : count m P[i] ≤ count m P[j] := by
        by_cases hlt : P[i] < N
        · exact hpre P[j] P[i] (by omega) hlt (by omega)
        · rw [hcnt P[i] (by omega)]; exact Nat.zero_le _
      omega
    · have h3 : i / sigma ≤ j / sigma := Nat.div_le_div_right hij.le
      by_contra hc
      have h4 : P[j] / sigma ≤ P[i] / sigma := Nat.div_le_div_right (by omega)
      omega
  refine ⟨c, h1, fun hsig => ⟨d.dim, d.c2r.2.2, Or.inr ⟨hsig, fun p hp => ?_⟩⟩, fun r hr => ?_⟩
  · rw [d.r2s, List.mem_insertionSort, List.mem_append] at hp
    rcases hp with hp | hp
    · rcases h0.again with h | h
      · rw [h] at hp; simp at hp
      · exact h.2 p hp
    · rw [List.mem_zipIdx_iff_getElem?, hP] at hp
      obtain ⟨h3, h4⟩ := List.getElem?_eq_some_iff.1 hp
      rw [List.getElem_range] at h4
      exact h4.symm
  · have hi : P[r]? = some r := by rw [hP, List.getElem?_range (by omega)]
    have hpl := d.plen
    obtain ⟨l, h2, h3, _⟩ := getRow_done hC d (i := r) (by omega)
    refine ⟨l, h2, ?_⟩
    rw [h3, hi]
    exact pairs_row hsrt r

/-- **C38, SIGMA = 1.** Whatever was stored before, `getRow(r)` returns row `r` for all rows. -/
theorem sigma_one {C N : Nat} (hC : 0 < C) (hN : 0 < N) (zero : V) {m srt : List (Entry V)} (hm : Fits m N) (hsrt : IsSort m srt) {c0 : Sell V} (h0 : Ready C 1 N c0) :
    ∃ c, initSorted C 1 zero c0 srt = some (false, c) ∧ Ready C 1 N c ∧ ∀ r, r < N → ∃ l, getRow C c r = some l ∧ RowIs m r l := by
  obtain ⟨c, h1, h2, h3⟩ := presorted hC Nat.one_pos hN zero hm hsrt h0 (fun r r' h1 h2 h3 => by rw [Nat.div_one, Nat.div_one] at h3; omega)
  exact ⟨c, h1, h2 rfl, h3⟩

/-- **C38, chunks.** Chunks are stored one after the other, without gaps. Each chunk consists of as many columns of C elements as its longest row has entries; shorter rows are filled up with zeros. This is the
layout which vectorized kernels read. -/
theorem layout {C sigma N : Nat} (hC : 0 < C) (hs : 0 < sigma) (hN : 0 < N) (zero : V) {m srt : List (Entry V)} (hm : Fits m N) (hsrt : IsSort m srt) {c0 : Sell V} (h0 : Ready C sigma N c0) :
    ∃ c, initSorted C sigma zero c0 srt = some (false, c) ∧ c.chunkLength.length = blocks N C ∧ c.chunkOffset.length = blocks N C + 1 ∧ c.chunkOffset[0]? = some 0 ∧
      c.chunkOffset[blocks N C]? = some c.values.length ∧ c.column.length = c.values.length ∧
      ∀ k, k < blocks N C → ∃ len o, c.chunkLength[k]? = some len ∧ c.chunkOffset[k]? = some o ∧ c.chunkOffset[k + 1]? = some (o + len * C) ∧
        ∀ i, i < C → ∃ l, getRow C c (k * C + i) = some l ∧ l.length ≤ len ∧
          ∀ j, j < len → c.column[o + j * C + i]? = some ((l[j]?).elim 0 Prod.fst) ∧ c.values[o + j * C + i]? = some ((l[j]?).elim zero Prod.snd) := by
  obtain ⟨P, G, c, h1, d⟩ := init_ok hC hs hN zero (fits_sort hsrt hm) (rows_sorted hsrt) h0
  obtain ⟨ph, _, hfill⟩ := d.fill
  refine ⟨c, h1, d.cl.1, d.co.1, d.co.2 0 (Nat.zero_le _), by rw [hfill.vlen]; exact d.co.2 _ (Nat.le_refl _), by rw [hfill.vlen, hfill.clen], fun k hk => ?_⟩
  refine ⟨G k, off G C k, d.cl.2 k hk, d.co.2 k hk.le, d.co.2 (k + 1) hk, fun i hi => ?_⟩
  have hlt : k * C + i < blocks N C * C := by
    have : (k + 1) * C ≤ blocks N C * C := Nat.mul_le_mul_right _ hk
    rw [Nat.succ_mul] at this
    omega
  have hdiv : (k * C + i) / C = k := by rw [Nat.add_comm, Nat.add_mul_div_right _ _ hC, Nat.div_eq_of_lt hi, Nat.zero_add]
  have hmod : (k * C + i) % C = i := by rw [Nat.add_comm, Nat.add_mul_mod_self_right, Nat.mod_eq_of_lt hi]
  obtain ⟨l, h2, h3, h4⟩ := getRow_done hC d hlt
  refine ⟨l, h2, ?_, fun j hj => ?_⟩
  · rw [h3]
    cases hx : P[k * C + i]? with
    | none => exact Nat.zero_le _
    | some x =>
      have := d.ge _ _ hx
      rw [hdiv] at this
      show (pairs srt x).length ≤ G k
      unfold pairs
      rwa [List.length_map]
  · have := h4 j (by rwa [hdiv])
    unfold slot at this
    rwa [hdiv, hmod] at this

theorem eqLoop_ok [DecidableEq V] {C1 C2 : Nat} {a b : Sell V} (x y : Nat → List (Int × V)) : ∀ k i, (∀ r, i ≤ r → r < i + k → getRow C1 a r = some (x r) ∧ getRow C2 b r = some (y r)) →
    ∃ t, eqLoop C1 C2 a b k i = some t ∧ (t = true ↔ ∀ r, i ≤ r → r < i + k → x r = y r) := by
  intro k
  induction k with
  | zero => intro i _; exact ⟨true, rfl, by simp; intro r h1 h2; omega⟩
  | succ k ih =>
    intro i h
    obtain ⟨h1, h2⟩ := h i (Nat.le_refl _) (by omega)
    unfold eqLoop
    rw [h1, Option.bind_some, h2, Option.bind_some]
    by_cases e : x i = y i
    · rw [if_neg (by simpa using e)]
      obtain ⟨t, h3, h4⟩ := ih (i + 1) fun r h5 h6 => h r (by omega) (by omega)
      refine ⟨t, h3, h4.trans ⟨fun h r h5 h6 => ?_, fun h r h5 h6 => h r (by omega) (by omega)⟩⟩
      by_cases hr : r = i
      · rw [hr]; exact e
      · exact h r (by omega) (by omega)
    · rw [if_pos e]
      refine ⟨false, rfl, ?_⟩
      simp only [Bool.false_eq_true, false_iff]
      exact fun h => e (h i (Nat.le_refl _) (by omega))

/-- **C38, comparison.** Containers with different chunk sizes (and SIGMA = 1), filled from matrices without duplicate coordinates, compare equal exactly if the matrices have the same entries. -/
theorem comparison [DecidableEq V] {C1 C2 N : Nat} (hC1 : 0 < C1) (hC2 : 0 < C2) (hN : 0 < N) (zero : V) {m1 m2 s1 s2 : List (Entry V)} (hm1 : Fits m1 N) (hm2 : Fits m2 N)
    (hs1 : IsSort m1 s1) (hs2 : IsSort m2 s2) (hu1 : (m1.map Prod.fst).Nodup) (hu2 : (m2.map Prod.fst).Nodup) :
    ∃ a b t, initSorted C1 1 zero (make C1 N) s1 = some (false, a) ∧ initSorted C2 1 zero (make C2 N) s2 = some (false, b) ∧ eqOther C1 C2 a b = some t ∧ (t = true ↔ m1.Perm m2) := by
  obtain ⟨a, ha1, hra, ha2⟩ := sigma_one hC1 hN zero hm1 hs1 (ready_make C1 1 N)
  obtain ⟨b, hb1, hrb, hb2⟩ := sigma_one hC2 hN zero hm2 hs2 (ready_make C2 1 N)
  choose! x hx1 hx2 using ha2
  choose! y hy1 hy2 using hb2
  obtain ⟨t, h1, h2⟩ := eqLoop_ok (C1 := C1) (C2 := C2) (a := a) (b := b) x y N 0 fun r _ hr => ⟨hx1 r (by omega), hy1 r (by omega)⟩
  refine ⟨a, b, t, ha1, hb1, by unfold eqOther; rw [if_neg (by rw [hra.dim, hrb.dim]; simp), hra.dim]; exact h1, h2.trans ?_⟩
  have key : ∀ {m : List (Entry V)} {l : Nat → List (Int × V)}, Fits m N → (∀ r, r < N → RowIs m r (l r)) → ∀ e : Entry V, e ∈ m ↔ 0 ≤ e.1.1 ∧ e.1.1 < N ∧ (e.1.2, e.2) ∈ l e.1.1.toNat := by
    intro m l hm hl e
    constructor
    · intro he
      have hf := hm e he
      refine ⟨hf.1, hf.2, ((hl e.1.1.toNat (by omega)).1.mem_iff).2 (List.mem_map.2 ⟨e, List.mem_filter.2 ⟨he, ?_⟩, rfl⟩)⟩
      rw [decide_eq_true_eq]; omega
    · rintro ⟨h1, h2, h3⟩
      obtain ⟨e', h4, h5⟩ := List.mem_map.1 (((hl e.1.1.toNat (by omega)).1.mem_iff).1 h3)
      rw [List.mem_filter, decide_eq_true_eq] at h4
      have : e' = e := by
        obtain ⟨⟨a, b⟩, c⟩ := e
        obtain ⟨⟨a', b'⟩, c'⟩ := e'
        simp only [Prod.mk.injEq] at h1 h2 h4 h5 ⊢
        exact ⟨⟨by omega, h5.1⟩, h5.2⟩
      exact this ▸ h4.1
  have hnd1 : m1.Nodup := List.Nodup.of_map _ hu1
  have hnd2 : m2.Nodup := List.Nodup.of_map _ hu2
  constructor
  · intro h
    rw [List.perm_ext_iff_of_nodup hnd1 hnd2]
    intro e
    rw [key hm1 hx2, key hm2 hy2]
    constructor
    · rintro ⟨h3, h4, h5⟩; exact ⟨h3, h4, by rw [← h e.1.1.toNat (Nat.zero_le _) (by omega)]; exact h5⟩
    · rintro ⟨h3, h4, h5⟩; exact ⟨h3, h4, by rw [h e.1.1.toNat (Nat.zero_le _) (by omega)]; exact h5⟩
  · intro h r _ hr
    have hrN : r < N := by omega
    have hp : (x r).Perm (y r) := (hx2 r hrN).1.trans (((h.filter _).map _).trans (hy2 r hrN).1.symm)
    refine List.Perm.eq_of_pairwise (fun p q hp1 hq1 h3 h4 => ?_) (hx2 r hrN).2 (hy2 r hrN).2 hp
    have hpe := ((hx2 r hrN).1.mem_iff).1 hp1
    have hqe := ((hx2 r hrN).1.mem_iff).1 (hp.mem_iff.2 hq1)
    obtain ⟨e, he1, rfl⟩ := List.mem_map.1 hpe
    obtain ⟨e', he2, rfl⟩ := List.mem_map.1 hqe
    rw [List.mem_filter, decide_eq_true_eq] at he1 he2
    have : e = e' := List.inj_on_of_nodup_map hu1 he1.1 he2.1 (Prod.ext (he1.2.trans he2.2.symm) (le_antisymm h3 h4))
    rw [this]

theorem rows_perm {N : Nat} {m1 m2 : List (Entry V)} (hm1 : Fits m1 N) (hm2 : Fits m2 N) (hu1 : (m1.map Prod.fst).Nodup) (hu2 : (m2.map Prod.fst).Nodup) {l : Nat → List (Int × V)}
    (h1 : ∀ r, r < N → RowIs m1 r (l r)) (h2 : ∀ r, r < N → RowIs m2 r (l r)) : m1.Perm m2 := by
  have key : ∀ {m : List (Entry V)}, Fits m N → (∀ r, r < N → RowIs m r (l r)) → ∀ e : Entry V, e ∈ m ↔ 0 ≤ e.1.1 ∧ e.1.1 < N ∧ (e.1.2, e.2) ∈ l e.1.1.toNat := by
    intro m hm hl e
    constructor
    · intro he
      have hf := hm e he
      refine ⟨hf.1, hf.2, ((hl e.1.1.toNat (by omega)).1.mem_iff).2 (List.mem_map.2 ⟨e, List.mem_filter.2 ⟨he, ?_⟩, rfl⟩)⟩
      rw [decide_eq_true_eq]; omega
    · rintro ⟨h1, h2, h3⟩
      obtain ⟨e', h4, h5⟩ := List.mem_map.1 (((hl e.1.1.toNat (by omega)).1.mem_iff).1 h3)
      rw [List.mem_filter, decide_eq_true_eq] at h4
      have : e' = e := by
        obtain ⟨⟨a, b⟩, c⟩ := e
        obtain ⟨⟨a', b'⟩, c'⟩ := e'
        simp only [Prod.mk.injEq] at h1 h2 h4 h5 ⊢
        exact ⟨⟨by omega, h5.1⟩, h5.2⟩
      exact this ▸ h4.1
  rw [List.perm_ext_iff_of_nodup (List.Nodup.of_map _ hu1) (List.Nodup.of_map _ hu2)]
  intro e
  rw [key hm1 h1, key hm2 h2]

/-- **C38, comparison of containers of the same type.** Containers with SIGMA = 1, filled from matrices without duplicate coordinates and without zeros as values, compare equal exactly if the matrices have
the same entries. -/
theorem comparison_same [DecidableEq V] {C N : Nat} (hC : 0 < C) (hN : 0 < N) (zero : V) {m1 m2 s1 s2 : List (Entry V)} (hm1 : Fits m1 N) (hm2 : Fits m2 N)
    (hs1 : IsSort m1 s1) (hs2 : IsSort m2 s2) (hu1 : (m1.map Prod.fst).Nodup) (hu2 : (m2.map Prod.fst).Nodup) (hz1 : ∀ e ∈ m1, e.2 ≠ zero) (hz2 : ∀ e ∈ m2, e.2 ≠ zero) :
    ∃ a b, initSorted C 1 zero (make C N) s1 = some (false, a) ∧ initSorted C 1 zero (make C N) s2 = some (false, b) ∧ (eqSame a b = true ↔ m1.Perm m2) := by
  obtain ⟨a, ha1, hra, ha2⟩ := sigma_one hC hN zero hm1 hs1 (ready_make C 1 N)
  obtain ⟨b, hb1, hrb, hb2⟩ := sigma_one hC hN zero hm2 hs2 (ready_make C 1 N)
  refine ⟨a, b, ha1, hb1, ?_, ?_⟩
  · intro h
    unfold eqSame at h
    simp only [Bool.and_eq_true, decide_eq_true_eq] at h
    obtain ⟨⟨⟨_, hv⟩, hc⟩, hl⟩ := h
    obtain ⟨a', ha1', _, _, hao, _, _, hla⟩ := layout hC Nat.one_pos hN zero hm1 hs1 (ready_make C 1 N)
    obtain ⟨b', hb1', _, _, hbo, _, _, hlb⟩ := layout hC Nat.one_pos hN zero hm2 hs2 (ready_make C 1 N)
    rw [ha1] at ha1'
    rw [hb1] at hb1'
    obtain rfl : a = a' := by injection ha1' with h; exact (Prod.mk.inj h).2
    obtain rfl : b = b' := by injection hb1' with h; exact (Prod.mk.inj h).2
    have hoff : ∀ k, k ≤ blocks N C → a.chunkOffset[k]? = b.chunkOffset[k]? := by
      intro k
      induction k with
      | zero => intro _; rw [hao, hbo]
      | succ k ih =>
        intro hk
        obtain ⟨l1, o1, h1, h2, h3, _⟩ := hla k hk
        obtain ⟨l2, o2, h4, h5, h6, _⟩ := hlb k hk
        have := ih (by omega)
        rw [h2, h5] at this
        rw [hl, h4] at h1
        rw [h3, h6]
        cases this
        cases h1
        rfl
    choose! x hx1 hx2 using ha2
    choose! y hy1 hy2 using hb2
    refine rows_perm hm1 hm2 hu1 hu2 hx2 fun r hr => ?_
    suffices x r = y r by rw [this]; exact hy2 r hr
    have hk : r / C < blocks N C := by
      have := (blocks_spec hN hC).1
      exact (Nat.div_lt_iff_lt_mul hC).2 (by omega)
    obtain ⟨l1, o1, h1, h2, _, h3⟩ := hla _ hk
    obtain ⟨l2, o2, h4, h5, _, h6⟩ := hlb _ hk
    have := hoff _ hk.le
    rw [h2, h5] at this
    obtain rfl : o1 = o2 := by injection this
    rw [hl, h4] at h1
    obtain rfl : l2 = l1 := by injection h1
    obtain ⟨lx, h7, h8, h9⟩ := h3 (r % C) (Nat.mod_lt _ hC)
    obtain ⟨ly, h10, h11, h12⟩ := h6 (r % C) (Nat.mod_lt _ hC)
    rw [Nat.mul_comm, Nat.div_add_mod, hx1 r hr] at h7
    rw [Nat.mul_comm, Nat.div_add_mod, hy1 r hr] at h10
    obtain rfl : x r = lx := by injection h7
    obtain rfl : y r = ly := by injection h10
    have hnz : ∀ {m : List (Entry V)} {l : List (Int × V)}, (∀ e ∈ m, e.2 ≠ zero) → RowIs m r l → ∀ (j : Nat) (p : Int × V), l[j]? = some p → p.2 ≠ zero := by
      intro m l hz hrow j p hp
      obtain ⟨e, he, rfl⟩ := List.mem_map.1 ((hrow.1.mem_iff).1 (List.mem_of_getElem? hp))
      exact hz e (List.mem_filter.1 he).1
    refine List.ext_getElem? fun j => ?_
    by_cases hj : j < l2
    · obtain ⟨c1, v1⟩ := h9 j hj
      obtain ⟨c2, v2⟩ := h12 j hj
      rw [hc, c2] at c1
      rw [hv, v2] at v1
      cases hxj : (x r)[j]? with
      | none =>
        cases hyj : (y r)[j]? with
        | none => rfl
        | some q =>
          rw [hxj, hyj] at v1
          exact absurd (by injection v1) (hnz hz2 (hy2 r hr) j q hyj)
      | some p =>
        cases hyj : (y r)[j]? with
        | none =>
          rw [hxj, hyj] at v1
          exact absurd (by injection v1 with h; exact h.symm) (hnz hz1 (hx2 r hr) j p hxj)
        | some q =>
          rw [hxj, hyj] at v1 c1
          injection v1 with v1
          injection c1 with c1
          exact congrArg some (Prod.ext c1.symm v1.symm)
    · rw [List.getElem?_eq_none (by omega), List.getElem?_eq_none (by omega)]
  · intro h
    have hu : ∀ {s : List (Entry V)}, s.Perm m1 → ∀ e ∈ s, ∀ e' ∈ s, e.1 = e'.1 → e = e' := fun hp e he e' he' hee =>
      List.inj_on_of_nodup_map hu1 (hp.mem_iff.1 he) (hp.mem_iff.1 he') hee
    have : s1 = s2 := List.Perm.eq_of_pairwise (fun e e' he he' h3 h4 => by
      refine hu hs1.perm e he e' ((hs1.perm.trans (h.trans hs2.perm.symm)).mem_iff.2 he') ?_
      unfold coordLt at h3 h4
      exact Prod.ext (by omega) (by omega)) hs1.sorted hs2.sorted (hs1.perm.trans (h.trans hs2.perm.symm))
    rw [this, hb1] at ha1
    obtain rfl : b = a := by injection ha1 with h; exact (Prod.mk.inj h).2
    unfold eqSame
    simp

/-! ## deviations -/

/-- **C38, deviation.** The comparison of two containers of the same type ignores the row lengths, so that a zero in column 0 is taken for padding. -/
theorem padding_negation : ∃ a b : Sell Int, initSorted 2 1 0 (make 2 2) [((0, 0), 7)] = some (false, a) ∧ initSorted 2 1 0 (make 2 2) [((0, 0), 7), ((1, 0), 0)] = some (false, b) ∧
    eqSame a b = true ∧ getRow 2 a 1 = some [] ∧ getRow 2 b 1 = some [(0, 0)] :=
  ⟨⟨[7, 0], [0, 0], [1, 0], [1], [0, 2], [(0, 0), (1, 1)], [0, 1], 2⟩, ⟨[7, 0], [0, 0], [1, 1], [1], [0, 2], [(0, 0), (1, 1)], [0, 1], 2⟩, by rfl, by rfl, by rfl, by rfl, by rfl⟩

/-- **C38, deviation.** With SIGMA > 1, `getRow` expects a physical row, not a row of the matrix: here row 0 is empty, but `getRow(0)` returns the entry of row 1. -/
theorem getRow_negation : ∃ c : Sell Int, initSorted 1 2 0 (make 1 2) [((1, 0), 7)] = some (false, c) ∧ getRow 1 c 0 = some [(0, 7)] ∧ getRow 1 c 1 = some [] ∧
    ¬ RowIs [((1, 0), (7 : Int))] 0 [(0, 7)] := by
  refine ⟨⟨[7], [0], [1, 0], [1, 0], [0, 1, 1], [(0, 1), (1, 0)], [1, 0], 2⟩, by rfl, by rfl, by rfl, fun h => ?_⟩
  have := h.1.length_eq
  simp at this

/-- **C38, deviation.** With SIGMA > 1, a container cannot be initialized twice: the mapping of the first matrix is not cleared, its entries precede those of the second one, and entries are written
outside of the vector. -/
theorem reinit_negation : ∃ c : Sell Int, initSorted 1 2 0 (make 1 2) [((1, 0), 7)] = some (false, c) ∧ initSorted 1 2 0 c [((0, 0), 5)] = none :=
  ⟨⟨[7], [0], [1, 0], [1, 0], [0, 1, 1], [(0, 1), (1, 0)], [1, 0], 2⟩, by rfl, by rfl⟩

/-- **C38, deviation.** With SIGMA > 1, the comparison of two containers of the same type ignores the order of the rows, and the comparison with a container which has another SIGMA finds differences
between equal matrices. -/
theorem equality_negation : ∃ a b c : Sell Int, initSorted 1 2 0 (make 1 2) [((0, 0), 7)] = some (false, a) ∧ initSorted 1 2 0 (make 1 2) [((1, 0), 7)] = some (false, b) ∧
    initSorted 1 1 0 (make 1 2) [((1, 0), 7)] = some (false, c) ∧ eqSame a b = true ∧ eqOther 1 1 b c = some false :=
  ⟨⟨[7], [0], [1, 0], [1, 0], [0, 1, 1], [(0, 0), (1, 1)], [0, 1], 2⟩, ⟨[7], [0], [1, 0], [1, 0], [0, 1, 1], [(0, 1), (1, 0)], [1, 0], 2⟩,
    ⟨[7], [0], [0, 1], [0, 1], [0, 0, 1], [(0, 0), (1, 1)], [0, 1], 2⟩, by rfl, by rfl, by rfl, by rfl, by rfl⟩

/-- **C38, deviation.** Initialization of an empty container (dimension 0) with C = 1 accesses the element before the first one. -/
theorem empty_negation : initSorted 1 1 (0 : Int) (make 1 0) [] = none := by rfl

/-! ## examples -/

/-- a 5 x 5 matrix; chunks of 2 rows, sorting scopes of 4 rows -/
def exM : List (Entry Int) := [((3, 4), 9), ((1, 2), 5), ((3, 0), 7), ((1, 0), 4), ((1, 3), 6), ((4, 4), 1)]
def exS : List (Entry Int) := [((1, 0), 4), ((1, 2), 5), ((1, 3), 6), ((3, 0), 7), ((3, 4), 9), ((4, 4), 1)]

example : Fits exM 5 ∧ IsSort exM exS ∧ Ready 2 4 5 (make 2 5 : Sell Int) ∧
    (initSorted 2 4 0 (make 2 5) exS).map (fun r => (r.1, (List.range 5).map (getRow 2 r.2), r.2.realRowToSorted.take 5, r.2.chunkOffset, r.2.column)) =
      some (false, [some [(0, 4), (2, 5), (3, 6)], some [(0, 7), (4, 9)], some [], some [], some [(4, 1)]], [(0, 2), (1, 0), (2, 3), (3, 1), (4, 4)], [0, 6, 6, 8],
        [0, 0, 2, 4, 3, 0, 4, 0]) := by
  refine ⟨by unfold Fits; decide, ⟨by decide, ?_⟩, ready_make _ _ _, by rfl⟩
  unfold coordLt exS
  decide

/-- `presorted` applies to a matrix with SIGMA = 2 -/
example : Presorted 2 4 ([((0, 1), 5), ((0, 2), 6), ((1, 3), 7), ((2, 0), 8)] : List (Entry Int)) := by
  intro r r' h1 h2 h3
  have : (r = 0 ∧ r' = 1) ∨ (r = 2 ∧ r' = 3) := by omega
  rcases this with ⟨rfl, rfl⟩ | ⟨rfl, rfl⟩ <;> decide

end LGD.C38
