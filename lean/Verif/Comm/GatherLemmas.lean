import Verif.Comm.Exchange
import Verif.Comm.GatherModel
import Verif.Store.GridLemmas
import Verif.Region.SetOps
import Verif.IO.FileLemmas

/-!
# Regions and their cells are exchanged
-/

namespace LGD.Gather
open LGD.Mpi LGD.Adapter LGD.Store LGD.C14

variable {α : Type} {n : Nat} {wraps : Nat → Bool} {dim : Crd}

/-! ## Regions -/

theorem load_spec : ∀ (l : List Streak) (idx : Idx), RegOK n idx →
    ∃ r, loadStreaks n idx l = some r ∧ RegOK n r ∧ ∀ c, RMem n r c ↔ RMem n idx c ∨ ∃ s ∈ l, SMem n s c
  | [], idx, h => ⟨idx, rfl, h, by simp⟩
  | s :: ss, idx, h => by
    obtain ⟨r1, h1, h2, h3⟩ := regInsert_spec n idx s h
    obtain ⟨r, h4, h5, h6⟩ := load_spec ss r1 h2
    refine ⟨r, by rw [loadStreaks, h1, Option.bind_some, h4], h5, fun c => ?_⟩
    rw [h6, h3]
    simp only [List.mem_cons, exists_eq_or_imp]
    exact or_assoc

/-- a region which is rebuilt from its streaks has the same streaks -/
theorem load_toVector {idx : Idx} (h : RegOK n idx) {l : List Streak} (hl : toVector n idx = some l) :
    ∃ r, loadStreaks n emptyIdx l = some r ∧ toVector n r = some l ∧ RegOK n r ∧ ∀ c, RMem n r c ↔ RMem n idx c := by
  obtain ⟨r, h1, h2, h3⟩ := load_spec l emptyIdx (regOK_empty n)
  refine ⟨r, h1, ?_⟩
  obtain ⟨l', e1, -, e3⟩ := toVector_spec h
  rw [hl] at e1
  cases e1
  have hm : ∀ c, RMem n r c ↔ RMem n idx c := by
    intro c
    rw [h3, e3.mem]
    have := regEmpty_mem n c
    tauto
  refine ⟨?_, h2, hm⟩
  obtain ⟨t, ht⟩ := h
  obtain ⟨u, hu⟩ := h2
  have : t = u := TreeOK_ext n t u ht.ok hu.ok fun c => by rw [← ht.mem_iff, ← hu.mem_iff, hm]
  subst this
  have hk : ∀ k, k ≤ n → r k = idx k := fun k hk => by rw [ht.eq k hk, hu.eq k hk]
  rw [toVector_eq ht] at hl
  rw [toVector_eq hu, ← hl, hk 0 (by omega)]
  congr 1
  exact List.map_congr_left fun i _ => streakAt_congr n _ _ i hk

theorem toVector_len {idx : Idx} (h : RegOK n idx) {l : List Streak} (hl : toVector n idx = some l) :
    l.length = numStreaks idx := by
  obtain ⟨l', e1, e2, -⟩ := toVector_spec h
  rw [hl] at e1
  cases e1
  exact e2

theorem toVector_empty : toVector n emptyIdx = some [] := by
  obtain ⟨l', e1, e2, -⟩ := toVector_spec (regOK_empty n)
  have : l' = [] := List.eq_nil_of_length_eq_zero (by rw [e2]; rfl)
  rw [e1, this]

theorem filter_reqs {reqs : List (Req Loc)} (h : ∀ q ∈ reqs, 2 ≤ q.h) (w : Nat) (hw : w < 2) :
    reqs.filter (fun q => q.h != w) = reqs := by
  rw [List.filter_eq_self]
  intro q hq
  have := h q hq
  simp only [bne_iff_ne, ne_eq]
  omega

/-- `sendRegion` meets `recvRegion` -/
theorem run_region_ok {eager : Ch → Nat → Bool} {s : St Loc α (Msg α) (Shot α)} (h : Quiet s) {x y : Nat}
    (hxy : x ≠ y) {tag : Nat} {idx : Idx} (hok : RegOK n idx) {l : List Streak} (hl : toVector n idx = some l)
    {k : P α} {k' : Idx → P α} (hx : (s.ranks x).proc = sendRegion n idx y tag k)
    (hy : (s.ranks y).proc = recvRegion n x tag k') (hq : ∀ q ∈ (s.ranks x).reqs, 2 ≤ q.h) :
    ∃ t r, RunTo eager s t ∧ Quiet t ∧ (toVector n r = some l ∧ RegOK n r ∧ ∀ c, RMem n r c ↔ RMem n idx c) ∧
      t.ranks x = ⟨k, (s.ranks x).mem, (s.ranks x).reqs, (s.ranks x).out⟩ ∧
      t.ranks y = ⟨k' r, (s.ranks y).mem, (s.ranks y).reqs, (s.ranks y).out⟩ ∧
      ∀ z, z ≠ x → z ≠ y → t.ranks z = s.ranks z := by
  have hlen := toVector_len hok hl
  simp only [sendRegion, hl] at hx
  unfold recvRegion at hy
  obtain ⟨s1, i, r1, q1, x1, y1, z1⟩ := run_const (eager := eager) h hxy hx hy
  by_cases hpos : 0 < numStreaks idx
  · simp only [if_pos hpos] at x1 y1
    obtain ⟨s2, j, r2, q2, x2, y2, z2⟩ := run_const (eager := eager) q1 hxy (by rw [x1]) (by rw [y1])
    obtain ⟨r, hr1, hr2⟩ := load_toVector hok hl
    have ht : l.take (numStreaks idx) = l := by rw [← hlen, List.take_length]
    simp only [ht, hlen, Nat.le_refl, if_true, hr1, y1] at y2
    have r3 := run_wait (eager := eager) q2 (r := x) (w := 1) (k := .wait 0 k) (by rw [x2])
    set s3 := s2.setRank x { s2.ranks x with
      proc := .wait 0 k, reqs := (s2.ranks x).reqs.filter fun q => q.h != 1 } with hs3
    have q3 : Quiet s3 := q2.setRank fun q hq => (List.mem_filter.1 hq).1
    have x3 : s3.ranks x = ⟨.wait 0 k, (s.ranks x).mem,
        (⟨0, true, ⟨x, y, tag⟩, i, []⟩ : Req Loc) :: (s.ranks x).reqs, (s.ranks x).out⟩ := by
      simp only [hs3, St.setRank, Function.update_self, x2, x1]
      simp
      intro a ha
      have := hq a ha
      omega
    have r4 := run_wait (eager := eager) q3 (r := x) (w := 0) (k := k) (by rw [x3])
    refine ⟨_, r, (r1.trans (r2.trans (r3.trans r4))), q3.setRank fun q hq => (List.mem_filter.1 hq).1, hr2,
      ?_, ?_, ?_⟩
    · simp only [St.setRank, Function.update_self, x3]
      simp [filter_reqs hq 0 (by omega)]
    · simp only [St.setRank, Function.update_of_ne hxy.symm, hs3, y2]
    · intro z hz1 hz2
      simp only [St.setRank, Function.update_of_ne hz1, hs3]
      rw [z2 z hz1 hz2, z1 z hz1 hz2]
  · simp only [if_neg hpos] at x1 y1
    have r2 := run_wait (eager := eager) q1 (r := x) (w := 0) (k := k) (by rw [x1])
    refine ⟨_, emptyIdx, r1.trans r2, q1.setRank fun q hq => (List.mem_filter.1 hq).1, ?_, ?_, ?_, ?_⟩
    · have : l = [] := List.eq_nil_of_length_eq_zero (by omega)
      refine ⟨by rw [this]; exact toVector_empty, regOK_empty n, fun c => ?_⟩
      have e : (idx 0).length = 0 := by
        have : numStreaks idx = (idx 0).length := rfl
        omega
      exact ⟨fun h => (regEmpty_mem n c h).elim, fun h => (hok.empty_iff.1 e c h).elim⟩
    · simp only [St.setRank, Function.update_self, x1]
      simp [filter_reqs hq 0 (by omega)]
    · simp only [St.setRank, Function.update_of_ne hxy.symm, y1]
    · intro z hz1 hz2
      simp only [St.setRank, Function.update_of_ne hz1]
      rw [z1 z hz1 hz2]

theorem run_region {eager : Ch → Nat → Bool} {s : St Loc α (Msg α) (Shot α)} (h : Quiet s) {x y : Nat}
    (hxy : x ≠ y) {tag : Nat} {idx : Idx} (hok : RegOK n idx) {l : List Streak} (hl : toVector n idx = some l)
    {k : P α} {k' : Idx → P α} (hx : (s.ranks x).proc = sendRegion n idx y tag k)
    (hy : (s.ranks y).proc = recvRegion n x tag k') (hq : ∀ q ∈ (s.ranks x).reqs, 2 ≤ q.h) :
    ∃ t r, RunTo eager s t ∧ Quiet t ∧ toVector n r = some l ∧
      t.ranks x = ⟨k, (s.ranks x).mem, (s.ranks x).reqs, (s.ranks x).out⟩ ∧
      t.ranks y = ⟨k' r, (s.ranks y).mem, (s.ranks y).reqs, (s.ranks y).out⟩ ∧
      ∀ z, z ≠ x → z ≠ y → t.ranks z = s.ranks z := by
  obtain ⟨u, r, h1, h2, h3, h4⟩ := run_region_ok (eager := eager) h hxy hok hl hx hy hq
  exact ⟨u, r, h1, h2, h3.1, h4⟩

/-! ## Addresses -/

theorem cellAddr_in (hn : n ≤ 2) {g : Nat} {c : Crd} (h : InDim n dim c) :
    cellAddr n wraps dim g c = .cell g (lin dim n 0 c) := by
  unfold cellAddr
  rw [locate_inDim hn h]

theorem lin_inj {a b : Crd} (ha : InDim n dim a) (hb : InDim n dim b) (h : lin dim n 0 a = lin dim n 0 b) :
    ∀ k, k ≤ n → a k = b k := by
  intro k hk
  rw [← unlin_lin dim n 0 a (fun j _ h2 => ha j (by omega)) k (by omega) (by omega), h,
    unlin_lin dim n 0 b (fun j _ h2 => hb j (by omega)) k (by omega) (by omega)]

/-- a streak in the box -/
def SIn (n : Nat) (dim : Crd) (s : Streak) : Prop :=
  InDim n dim s.origin ∧ s.origin 0 < s.endX ∧ s.endX ≤ dim 0

theorem SIn.coord {s : Streak} (h : SIn n dim s) {c : Crd} (hc : c ∈ coordsOf s) : InDim n dim c := by
  rw [mem_coordsOf s c h.2.1] at hc
  obtain ⟨y, h1, h2, rfl⟩ := hc
  intro k hk
  have h3 := h.1 k hk
  have h4 := h.2.2
  unfold upd
  split
  · rename_i e; subst e; omega
  · exact h3

/-- addresses of the cells of a streak -/
def addr (n : Nat) (dim : Crd) (g : Nat) (s : Streak) : List Loc :=
  (coordsOf s).map fun c => .cell g (lin dim n 0 c)

theorem addr_eq (hn : n ≤ 2) {g : Nat} {s : Streak} (h : SIn n dim s) :
    (coordsOf s).map (cellAddr n wraps dim g) = addr n dim g s :=
  List.map_congr_left fun _ hc => cellAddr_in hn (h.coord hc)

theorem streakAddrs_eq (hn : n ≤ 2) {g : Nat} {s : Streak} (h : SIn n dim s) :
    streakAddrs n wraps dim g s = some (addr n dim g s) := by
  unfold streakAddrs
  rw [locate_inDim hn h.1]
  have h2 := h.2.1
  have hpos : 0 ≤ lin dim n 0 s.origin :=
    lin_nonneg dim n 0 _ (fun j _ hj => (h.1 j (by omega)).1) (fun j _ hj => by have := h.1 j (by omega); omega)
  have hlast : lin dim n 0 s.origin + (s.endX - s.origin 0) ≤ crdProd n dim := by
    have hc : InDim n dim (upd s.origin 0 (s.endX - 1)) :=
      h.coord ((mem_coordsOf s _ h2).2 ⟨s.endX - 1, by omega, by omega, rfl⟩)
    have := lin_lt_vol dim n 0 _ (fun j _ hj => hc j (by omega))
    rw [lin_upd, vol_prod] at this
    omega
  simp only
  rw [if_pos ⟨hpos, hlast⟩]
  congr 1
  refine List.ext_getElem (by simp [addr, coordsOf_length]) fun i h1 h2 => ?_
  simp only [addr, List.getElem_map, List.getElem_range, IO.coordsOf_get, lin_upd]
  congr 1
  omega

theorem mem_addr {g : Nat} {s : Streak} (h : SIn n dim s) {l : Loc} :
    l ∈ addr n dim g s ↔ ∃ c, SMem n s c ∧ l = .cell g (lin dim n 0 c) := by
  simp only [addr, List.mem_map]
  constructor
  · rintro ⟨c, hc, rfl⟩
    refine ⟨c, ?_, rfl⟩
    rw [mem_coordsOf s c h.2.1] at hc
    obtain ⟨y, h1, h2, rfl⟩ := hc
    exact ⟨fun k hk _ => by unfold upd; rw [if_neg (by omega)], by simpa [upd] using ⟨h1, h2⟩⟩
  · rintro ⟨c, ⟨h1, h2, h3⟩, rfl⟩
    refine ⟨upd s.origin 0 (c 0), (mem_coordsOf s _ h.2.1).2 ⟨c 0, h2, h3, rfl⟩, ?_⟩
    congr 1
    refine lin_congr _ _ _ _ _ fun j _ hj => ?_
    unfold upd
    split
    · rename_i e; subst e; rfl
    · exact (h1 j (by omega) (by omega)).symm

/-- a region in the box along with its streaks -/
structure InBox (n : Nat) (dim : Crd) (idx : Idx) (l : List Streak) : Prop where
  ok : RegOK n idx
  vec : toVector n idx = some l
  box : ∀ c, RMem n idx c → InDim n dim c

theorem InBox.canon {idx : Idx} {l : List Streak} (h : InBox n dim idx l) : Canon n l (RMem n idx) := by
  obtain ⟨l', e1, -, e3⟩ := toVector_spec h.ok
  rw [h.vec] at e1
  cases e1
  exact e3

theorem InBox.sin {idx : Idx} {l : List Streak} (h : InBox n dim idx l) {s : Streak} (hs : s ∈ l) : SIn n dim s := by
  have hc := h.canon
  have hp := hc.pos s hs
  refine ⟨h.box _ ((hc.mem _).2 ⟨s, hs, fun k _ _ => rfl, by omega, hp⟩), hp, ?_⟩
  have := h.box (upd s.origin 0 (s.endX - 1)) ((hc.mem _).2 ⟨s, hs, fun k hk _ => by
    unfold upd; rw [if_neg (by omega)], by simp [upd]; omega⟩) 0 (by omega)
  simp [upd] at this
  omega

/-- the cells of a region -/
def At (n : Nat) (dim : Crd) (g : Nat) (idx : Idx) (l : Loc) : Prop :=
  ∃ c, RMem n idx c ∧ l = .cell g (lin dim n 0 c)

theorem InBox.at_iff {idx : Idx} {l : List Streak} (h : InBox n dim idx l) {g : Nat} {a : Loc} :
    At n dim g idx a ↔ ∃ s ∈ l, a ∈ addr n dim g s := by
  constructor
  · rintro ⟨c, hc, rfl⟩
    obtain ⟨s, hs, hm⟩ := (h.canon.mem c).1 hc
    exact ⟨s, hs, (mem_addr (h.sin hs)).2 ⟨c, hm, rfl⟩⟩
  · rintro ⟨s, hs, ha⟩
    obtain ⟨c, hc, rfl⟩ := (mem_addr (h.sin hs)).1 ha
    exact ⟨c, (h.canon.mem c).2 ⟨s, hs, hc⟩, rfl⟩

theorem InBox.pw {idx : Idx} {l : List Streak} (h : InBox n dim idx l) (g : Nat) :
    l.Pairwise fun s t => overlap (addr n dim g s) (addr n dim g t) = false := by
  have hc := h.canon
  refine List.Pairwise.imp_of_mem ?_ hc.sorted
  intro s t hs ht hst
  rw [overlap_false]
  intro a ha hb
  obtain ⟨c, ⟨c1, c2, c3⟩, rfl⟩ := (mem_addr (h.sin hs)).1 ha
  obtain ⟨d, ⟨d1, d2, d3⟩, he⟩ := (mem_addr (h.sin ht)).1 hb
  have hin : ∀ {s : Streak} {c : Crd}, s ∈ l → SMem n s c → InDim n dim c := fun hs hm =>
    h.box _ ((hc.mem _).2 ⟨_, hs, hm⟩)
  have hcd := lin_inj (hin hs ⟨c1, c2, c3⟩) (hin ht ⟨d1, d2, d3⟩) (by simpa using he)
  rcases hst with ⟨k, k1, k2, k3, -⟩ | ⟨-, k3⟩
  · have := hcd k k2
    rw [c1 k k1 k2, d1 k k1 k2] at this
    omega
  · have := hcd 0 (by omega)
    omega

/-- regions without common cells don't share memory -/
theorem at_disjoint {a b : Idx} (ha : ∀ c, RMem n a c → InDim n dim c) (hb : RegOK n b) (hb' : ∀ c, RMem n b c → InDim n dim c)
    (h : ∀ c, ¬ (RMem n a c ∧ RMem n b c)) {g : Nat} {l : Loc} (h1 : At n dim g a l) : ¬ At n dim g b l := by
  rintro ⟨d, hd, he⟩
  obtain ⟨c, hc, rfl⟩ := h1
  have := lin_inj (ha c hc) (hb' d hd) (by simpa using he)
  exact h c ⟨hc, (RMem_congr hb this).2 hd⟩

theorem store_map {ls : List Loc} {f mem : Loc → α} {l : Loc} (h : l ∈ ls) : store ls (ls.map f) mem l = f l := by
  induction ls generalizing mem with
  | nil => simp at h
  | cons a ls ih =>
    rw [List.map_cons, store]
    by_cases hl : l ∈ ls
    · exact ih hl
    · rw [store_of_not_mem hl]
      rcases List.mem_cons.1 h with rfl | h
      · simp
      · exact absurd h hl

/-! ## Cells of a list of streaks -/

theorem run_streaks (hn : n ≤ 2) {eager : Ch → Nat → Bool} {g tag x y : Nat} (hxy : x ≠ y) : ∀ (ss : List Streak)
    (s : St Loc α (Msg α) (Shot α)) {k k' : P α}, Quiet s →
    (s.ranks x).proc = sendCells n wraps dim g y tag ss k → (s.ranks y).proc = recvCells n wraps dim g x tag ss k' →
    (∀ u ∈ ss, SIn n dim u) → (ss.Pairwise fun s t => overlap (addr n dim g s) (addr n dim g t) = false) →
    (∀ u ∈ ss, busyRead (s.ranks x).reqs (addr n dim g u) = false) →
    (∀ u ∈ ss, busyWrite (s.ranks y).reqs (addr n dim g u) = false) →
    ∃ t rx ry m, RunTo eager s t ∧ Quiet t ∧
      t.ranks x = ⟨k, (s.ranks x).mem, rx, (s.ranks x).out⟩ ∧
      t.ranks y = ⟨k', m, ry, (s.ranks y).out⟩ ∧
      (∀ z, z ≠ x → z ≠ y → t.ranks z = s.ranks z) ∧
      (∀ q ∈ rx, q ∈ (s.ranks x).reqs ∨ (q.snd = true ∧ q.h = tag ∧ ∃ u ∈ ss, q.ls = addr n dim g u)) ∧
      (∀ q ∈ ry, q ∈ (s.ranks y).reqs ∨ (q.snd = false ∧ q.h = tag ∧ ∃ u ∈ ss, q.ls = addr n dim g u)) ∧
      (∀ l, (∃ u ∈ ss, l ∈ addr n dim g u) → m l = (s.ranks x).mem l) ∧
      (∀ l, (¬ ∃ u ∈ ss, l ∈ addr n dim g u) → m l = (s.ranks y).mem l)
  | [], s, k, k', h, hx, hy, _, _, _, _ => by
    refine ⟨s, (s.ranks x).reqs, (s.ranks y).reqs, (s.ranks y).mem, RunTo.refl _, h, ?_, ?_, fun _ _ _ => rfl,
      fun q hq => Or.inl hq, fun q hq => Or.inl hq, by simp, fun _ _ => rfl⟩
    · rw [sendCells] at hx; rw [← hx]
    · rw [recvCells] at hy; rw [← hy]
  | u :: us, s, k, k', h, hx, hy, hin, hpw, hbx, hby => by
    rw [sendCells, streakAddrs_eq hn (hin u (by simp))] at hx
    rw [recvCells, streakAddrs_eq hn (hin u (by simp))] at hy
    obtain ⟨s1, i, j, r1, q1, x1, y1, z1⟩ := run_cells (eager := eager) h hxy hx hy (hbx u (by simp))
      (hby u (by simp)) (Nat.le_refl _)
    rw [List.pairwise_cons] at hpw
    obtain ⟨t, rx, ry, m, r2, q2, x2, y2, z2, hrx, hry, hm1, hm2⟩ := run_streaks hn hxy us s1 (k := k) (k' := k') q1
      (by rw [x1]) (by rw [y1]) (fun v hv => hin v (by simp [hv])) hpw.2
      (by
        intro v hv
        rw [x1]
        have := hbx v (by simp [hv])
        simpa [busyRead] using this)
      (by
        intro v hv
        rw [y1]
        have h1 := hby v (by simp [hv])
        have h2 := hpw.1 v hv
        rw [overlap_comm] at h2
        simp only [busyWrite, List.any_cons, h2, Bool.false_or]
        exact h1)
    refine ⟨t, rx, ry, m, r1.trans r2, q2, by rw [x2, x1], by rw [y2, y1], fun z h1 h2 => by rw [z2 z h1 h2, z1 z h1 h2],
      ?_, ?_, ?_, ?_⟩
    · intro q hq
      rcases hrx q hq with hq | ⟨h1, h2, v, hv, h3⟩
      · rw [x1] at hq
        rcases List.mem_cons.1 hq with rfl | hq
        · exact Or.inr ⟨rfl, rfl, u, by simp, rfl⟩
        · exact Or.inl hq
      · exact Or.inr ⟨h1, h2, v, by simp [hv], h3⟩
    · intro q hq
      rcases hry q hq with hq | ⟨h1, h2, v, hv, h3⟩
      · rw [y1] at hq
        rcases List.mem_cons.1 hq with rfl | hq
        · exact Or.inr ⟨rfl, rfl, u, by simp, rfl⟩
        · exact Or.inl hq
      · exact Or.inr ⟨h1, h2, v, by simp [hv], h3⟩
    · rintro l ⟨v, hv, hl⟩
      by_cases he : ∃ v ∈ us, l ∈ addr n dim g v
      · rw [hm1 l he, x1]
      · rw [hm2 l he, y1]
        rcases List.mem_cons.1 hv with rfl | hv
        · exact store_map hl
        · exact absurd ⟨v, hv, hl⟩ he
    · intro l hl
      rw [hm2 l (fun ⟨v, hv, h⟩ => hl ⟨v, by simp [hv], h⟩), y1]
      exact store_of_not_mem fun h => hl ⟨u, by simp, h⟩

/-! ## All ranks go on by themselves -/

theorem run_all {eager : Ch → Nat → Bool} (R : Nat → Rank Loc α (Msg α) (Shot α)) : ∀ (N : Nat)
    (s : St Loc α (Msg α) (Shot α)), Quiet s →
    (∀ r, r < N → ∀ u, Quiet u → u.ranks r = s.ranks r → ∃ t, RunTo eager u t ∧ Quiet t ∧ t.ranks r = R r ∧
      ∀ z, z ≠ r → t.ranks z = u.ranks z) →
    ∃ t, RunTo eager s t ∧ Quiet t ∧ (∀ r, r < N → t.ranks r = R r) ∧ ∀ r, N ≤ r → t.ranks r = s.ranks r
  | 0, s, h, _ => ⟨s, RunTo.refl _, h, by simp, fun _ _ => rfl⟩
  | N + 1, s, h, hl => by
    obtain ⟨s1, r1, q1, h1, h2⟩ := run_all R N s h fun r hr => hl r (by omega)
    obtain ⟨t, r2, q2, h3, h4⟩ := hl N (by omega) s1 q1 (h2 N (by omega))
    refine ⟨t, r1.trans r2, q2, ?_, ?_⟩
    · intro r hr
      by_cases he : r = N
      · subst he; exact h3
      · rw [h4 r he, h1 r (by omega)]
    · intro r hr
      rw [h4 r (by omega), h2 r (by omega)]

/-- a rank writes -/
theorem step_write {eager : Ch → Nat → Bool} {s : St Loc α (Msg α) (Shot α)} (h : Quiet s) {r : Nat}
    {lvs : List (Loc × α)} {k : P α} {mem : Loc → α} {out : List (Shot α)}
    (hp : s.ranks r = ⟨.write lvs k, mem, [], out⟩) :
    ∃ t, RunTo eager s t ∧ Quiet t ∧ t.ranks r = ⟨k, store (lvs.map Prod.fst) (lvs.map Prod.snd) mem, [], out⟩ ∧
      ∀ z, z ≠ r → t.ranks z = s.ranks z := by
  have := run_write (eager := eager) (s := s) (r := r) (lvs := lvs) (k := k) (by rw [hp]) (by rw [hp]; rfl)
  refine ⟨_, this, h.setRank fun q hq => hq, ?_, ?_⟩
  · simp [St.setRank, hp]
  · intro z hz
    simp [St.setRank, Function.update_of_ne hz]

/-- a rank waits -/
theorem step_wait {eager : Ch → Nat → Bool} {s : St Loc α (Msg α) (Shot α)} (h : Quiet s) {r w : Nat}
    {k : P α} {mem : Loc → α} {out : List (Shot α)} {reqs : List (Req Loc)}
    (hp : s.ranks r = ⟨.wait w k, mem, reqs, out⟩) (hw : ∀ q ∈ reqs, q.h = w) :
    ∃ t, RunTo eager s t ∧ Quiet t ∧ t.ranks r = ⟨k, mem, [], out⟩ ∧ ∀ z, z ≠ r → t.ranks z = s.ranks z := by
  have := run_wait (eager := eager) h (r := r) (w := w) (k := k) (by rw [hp])
  refine ⟨_, this, h.setRank fun q hq => (List.mem_filter.1 hq).1, ?_, ?_⟩
  · simp only [St.setRank, Function.update_self, hp]
    congr 1
    rw [List.filter_eq_nil_iff]
    intro q hq
    simp [hw q hq]
  · intro z hz
    simp [St.setRank, Function.update_of_ne hz]

end LGD.Gather
