import Verif.Comm.Pmw

/-!
# One run of `CollectingWriter::stepFinished` on all ranks
-/

namespace LGD.Gather
open LGD.Mpi LGD.Adapter LGD.C14

variable {α : Type} {n : Nat} {wraps : Nat → Bool} {dim : Crd}

/-- a region of cells is put over a grid -/
noncomputable def paint (n : Nat) (c : Call α) (G : Crd → α) : Crd → α := fun p =>
  open Classical in if RMem n c.idx p then c.val p else G p

/-- memory holds a grid -/
def Holds (n : Nat) (dim : Crd) (mem : Loc → α) (G : Crd → α) : Prop :=
  ∀ p, InDim n dim p → mem (.cell 0 (lin dim n 0 p)) = G p

theorem store_crds {g : Nat} {val : Crd → α} (hv : ∀ c d, (∀ k, k ≤ n → c k = d k) → val c = val d) {c : Crd} (hc : InDim n dim c) :
    ∀ (ds : List Crd) (mem : Loc → α), (∀ d ∈ ds, InDim n dim d) →
    ((∃ d ∈ ds, ∀ k, k ≤ n → d k = c k) →
      store (ds.map fun c => Loc.cell g (lin dim n 0 c)) (ds.map val) mem (.cell g (lin dim n 0 c)) = val c) ∧
    ((¬ ∃ d ∈ ds, ∀ k, k ≤ n → d k = c k) →
      store (ds.map fun c => Loc.cell g (lin dim n 0 c)) (ds.map val) mem (.cell g (lin dim n 0 c)) = mem (.cell g (lin dim n 0 c)))
  | [], mem, _ => by simp [store]
  | d :: ds, mem, hd => by
    obtain ⟨i1, i2⟩ := store_crds (g := g) hv hc ds (Function.update mem (.cell g (lin dim n 0 d)) (val d)) fun e he => hd e (by simp [he])
    simp only [List.map_cons, store]
    constructor
    · rintro ⟨e, he, hk⟩
      by_cases h : ∃ d ∈ ds, ∀ k, k ≤ n → d k = c k
      · exact i1 h
      · rw [i2 h]
        rcases List.mem_cons.1 he with rfl | he
        · rw [show lin dim n 0 c = lin dim n 0 e from lin_congr _ _ _ _ _ fun j _ hj => (hk j (by omega)).symm, Function.update_self]
          exact hv _ _ hk
        · exact absurd ⟨e, he, hk⟩ h
    · intro h
      rw [i2 fun ⟨e, he, hk⟩ => h ⟨e, by simp [he], hk⟩, Function.update_of_ne]
      intro he
      exact h ⟨d, by simp, fun k hk => lin_inj (hd d (by simp)) hc (by simpa using he.symm) k hk⟩

theorem mem_crds {idx : Idx} {l : List Streak} (h : InBox n dim idx l) {c : Crd} :
    (∃ d ∈ crds l, ∀ k, k ≤ n → d k = c k) ↔ RMem n idx c := by
  rw [h.canon.mem c]
  simp only [crds, List.mem_flatMap]
  constructor
  · rintro ⟨d, ⟨s, hs, hd⟩, hk⟩
    refine ⟨s, hs, ?_⟩
    rw [mem_coordsOf s d (h.sin hs).2.1] at hd
    obtain ⟨y, h1, h2, rfl⟩ := hd
    refine ⟨fun k k1 k2 => ?_, ?_⟩
    · rw [← hk k k2]
      unfold upd
      rw [if_neg (by omega)]
    · rw [← hk 0 (by omega)]
      simpa [upd] using ⟨h1, h2⟩
  · rintro ⟨s, hs, h1, h2⟩
    refine ⟨upd s.origin 0 (c 0), ⟨s, hs, (mem_coordsOf s _ (h.sin hs).2.1).2 ⟨c 0, h2.1, h2.2, rfl⟩⟩, fun k hk => ?_⟩
    unfold upd
    split
    · rename_i e; subst e; rfl
    · exact (h1 k (by omega) hk).symm

theorem crds_in {idx : Idx} {l : List Streak} (h : InBox n dim idx l) {d : Crd} (hd : d ∈ crds l) : InDim n dim d := by
  simp only [crds, List.mem_flatMap] at hd
  obtain ⟨s, hs, hd⟩ := hd
  exact (h.sin hs).coord hd

/-- memory after a region was loaded -/
def loaded (n : Nat) (dim : Crd) (l : List Streak) (vs : List α) (mem : Loc → α) : Loc → α :=
  store ((crds l).map fun c => Loc.cell 0 (lin dim n 0 c)) vs mem

theorem loaded_holds {c : Call α} {l : List Streak} (h : InBox n dim c.idx l)
    (hv : ∀ p q, (∀ k, k ≤ n → p k = q k) → c.val p = c.val q) {mem : Loc → α} {G : Crd → α} (hG : Holds n dim mem G) :
    Holds n dim (loaded n dim l ((crds l).map c.val) mem) (paint n c G) := by
  intro p hp
  obtain ⟨h1, h2⟩ := store_crds (g := 0) hv hp (crds l) mem fun d hd => crds_in h hd
  rw [mem_crds h] at h1 h2
  unfold loaded paint
  split
  · rename_i hm; exact h1 hm
  · rename_i hm; rw [h2 hm]; exact hG p hp

theorem loaded_other {l : List Streak} {vs : List α} {mem : Loc → α} {a : Loc} (h : ∀ i, a ≠ .cell 0 i) :
    loaded n dim l vs mem a = mem a := by
  refine store_of_not_mem ?_
  simp only [List.mem_map, not_exists, not_and]
  intro d _ e
  exact h _ e.symm

/-- a region is loaded from the buffer -/
theorem run_loadBuf (hn : n ≤ 2) {eager : Ch → Nat → Bool} {idx : Idx} {l : List Streak} (h : InBox n dim idx l) {r : Nat} {k : P α}
    {mem : Loc → α} {out : List (Shot α)} {s : St Loc α (Msg α) (Shot α)} (hq : Quiet s)
    (hp : s.ranks r = ⟨loadBuf n wraps dim 0 l k, mem, [], out⟩) :
    ∃ t, RunTo eager s t ∧ Quiet t ∧ t.ranks r = ⟨k, loaded n dim l ((bufs (crds l).length).map mem) mem, [], out⟩ ∧
      ∀ z, z ≠ r → t.ranks z = s.ranks z := by
  unfold loadBuf at hp
  have r1 := run_read (eager := eager) (s := s) (r := r) (by rw [hp]) (by rw [hp]; rfl)
  set s1 := s.setRank r { s.ranks r with proc := .write (((crds l).map (cellAddr n wraps dim 0)).zip ((bufs (crds l).length).map (s.ranks r).mem)) k }
    with hs1
  have q1 : Quiet s1 := hq.setRank fun q hq => hq
  obtain ⟨t, r2, q2, h2, z2⟩ := step_write (eager := eager) (s := s1) (r := r) q1
    (lvs := ((crds l).map (cellAddr n wraps dim 0)).zip ((bufs (crds l).length).map (s.ranks r).mem)) (k := k) (mem := mem) (out := out)
    (by simp [hs1, St.setRank, hp])
  refine ⟨t, r1.trans r2, q2, ?_, fun z hz => by rw [z2 z hz]; simp [hs1, St.setRank, Function.update_of_ne hz]⟩
  rw [h2]
  congr 1
  unfold loaded
  have hlen : ((crds l).map (cellAddr n wraps dim 0)).length = ((bufs (crds l).length).map (s.ranks r).mem).length := by simp [bufs]
  rw [List.map_fst_zip hlen.le, List.map_snd_zip hlen.ge, hp]
  congr 1
  exact List.map_congr_left fun d hd => cellAddr_in hn (crds_in h hd)

theorem bufs_nodup (m : Nat) : (bufs m).Nodup :=
  List.Nodup.map (fun a b h => by simpa using h) List.nodup_range

theorem map_store_self {ls : List Loc} (h : ls.Nodup) : ∀ {vs : List α} {mem : Loc → α}, vs.length = ls.length →
    ls.map (store ls vs mem) = vs := by
  induction ls with
  | nil => intro vs mem hl; simp at hl; simp [hl]
  | cons a ls ih =>
    intro vs mem hl
    cases vs with
    | nil => simp at hl
    | cons v vs =>
      rw [List.nodup_cons] at h
      simp only [store, List.map_cons]
      rw [store_of_not_mem h.1, Function.update_self]
      congr 1
      exact ih h.2 (by simpa using hl)

/-- senders deliver their cells to `root` one after the other -/
theorem run_cwLoop (hn : n ≤ 2) {eager : Ch → Nat → Bool} {N root : Nat} {c : Nat → Call α} {ls : Nat → List Streak}
    (hbox : ∀ r, r < N → InBox n dim (c r).idx (ls r))
    (hv : ∀ r, r < N → ∀ p q, (∀ k, k ≤ n → p k = q k) → (c r).val p = (c r).val q) {K : Nat → P α} :
    ∀ (xs : List Nat), xs.Nodup → (∀ x ∈ xs, x < N) → ∀ (s : St Loc α (Msg α) (Shot α)) (G : Crd → α), Quiet s →
    (∀ r, r < N → (s.ranks r).proc = cwLoop n wraps dim root r (c r).idx xs (K r)) → root < N →
    (s.ranks root).reqs = [] → Holds n dim (s.ranks root).mem G →
    (∀ r, r < N → ∀ q ∈ (s.ranks r).reqs, q.h = cwTag) →
    (∀ x ∈ xs, x ≠ root → (s.ranks x).reqs = [] ∧ (bufs (crds (ls x)).length).map (s.ranks x).mem = (crds (ls x)).map (c x).val) →
    ∃ t, RunTo eager s t ∧ Quiet t ∧ (∀ r, N ≤ r → t.ranks r = s.ranks r) ∧
      (∀ r, r < N → (t.ranks r).proc = K r ∧ (t.ranks r).out = (s.ranks r).out ∧ ∀ q ∈ (t.ranks r).reqs, q.h = cwTag) ∧
      Holds n dim (t.ranks root).mem ((xs.filter (· ≠ root)).foldl (fun G x => paint n (c x) G) G) ∧
      (t.ranks root).mem (.edge 0) = (s.ranks root).mem (.edge 0)
  | [], _, _, s, G, hq, hp, _, _, hG, ht, _ => by
    refine ⟨s, RunTo.refl _, hq, fun _ _ => rfl, fun r hr => ⟨?_, rfl, ht r hr⟩, hG, rfl⟩
    rw [hp r hr, cwLoop]
  | x :: xs, hnd, hlt, s, G, hq, hp, hroot, hr0, hG, ht, hb => by
    rw [List.nodup_cons] at hnd
    have hx := hlt x (by simp)
    by_cases hxr : x = root
    · obtain ⟨t, h⟩ := run_cwLoop hn hbox hv xs hnd.2 (fun y hy => hlt y (by simp [hy])) s G hq
        (fun r hr => by rw [hp r hr, cwLoop, if_pos hxr]) hroot hr0 hG ht (fun y hy => hb y (by simp [hy]))
      refine ⟨t, ?_⟩
      rw [List.filter_cons_of_neg (by simp [hxr])]
      exact h
    · have bx := hbox x hx
      have px := hp x hx
      have py := hp root hroot
      simp only [cwLoop, if_neg hxr, if_neg (Ne.symm hxr), if_true] at px py
      obtain ⟨hxq, hxb⟩ := hb x (by simp) hxr
      obtain ⟨s1, rg, r1, q1, hrg, x1, y1, z1⟩ := run_region (eager := eager) hq hxr bx.ok bx.vec px py (by rw [hxq]; simp)
      simp only [forStreaks, bx.vec, hrg] at x1 y1
      obtain ⟨s2, i, j, r2, q2, x2, y2, z2⟩ := run_cells (eager := eager) q1 hxr (by rw [x1]) (by rw [y1]) (by rw [x1, hxq]; rfl)
        (by rw [y1, hr0]; rfl) (Nat.le_refl _)
      rw [x1] at x2 y2
      rw [y1] at y2
      rw [hr0] at y2
      obtain ⟨s3, r3, q3, y3, z3⟩ := step_wait (eager := eager) q2 y2 (by simp)
      obtain ⟨s4, r4, q4, y4, z4⟩ := run_loadBuf (eager := eager) hn bx q3 y3
      have hz : ∀ z, z ≠ root → s4.ranks z = s2.ranks z := fun z hz => by rw [z4 z hz, z3 z hz]
      have hx4 := hz x hxr
      rw [x2, hxq] at hx4
      have hbuf : (bufs (crds (ls x)).length).map (store (bufs (crds (ls x)).length)
          ((bufs (crds (ls x)).length).map (s.ranks x).mem) (s.ranks root).mem) = (crds (ls x)).map (c x).val := by
        rw [← hxb]
        exact List.map_congr_left fun a ha => store_map ha
      rw [hbuf] at y4
      have hrest : ∀ z, z ≠ root → z ≠ x → s4.ranks z = s.ranks z := fun z h1 h2 => by
        rw [hz z h1, z2 z h2 h1, z1 z h2 h1]
      obtain ⟨t, rt, qt, ot, ht', hGt, het⟩ := run_cwLoop (eager := eager) (K := K) hn hbox hv xs hnd.2 (fun y hy => hlt y (by simp [hy])) s4 (paint n (c x) G) q4
        (fun r hr => by
          by_cases e1 : r = root
          · subst e1; rw [y4]
          by_cases e2 : r = x
          · subst e2; rw [hx4]
          rw [hrest r e1 e2, hp r hr]
          simp only [cwLoop, if_neg hxr, if_neg e1, if_neg e2])
        hroot (by rw [y4])
        (by
          rw [y4]
          refine loaded_holds bx (hv x hx) fun p hp => ?_
          rw [store_of_not_mem (by simp [bufs])]
          exact hG p hp)
        (fun r hr => by
          by_cases e1 : r = root
          · subst e1; rw [y4]; simp
          by_cases e2 : r = x
          · subst e2; rw [hx4]; simp
          rw [hrest r e1 e2]
          exact ht r hr)
        (fun y hy hne => by
          have e2 : y ≠ x := fun h => hnd.1 (h ▸ hy)
          rw [hrest y hne e2]
          exact hb y (by simp [hy]) hne)
      refine ⟨t, r1.trans (r2.trans (r3.trans (r4.trans rt))), qt, ?_, ?_, ?_, ?_⟩
      · intro r hr
        rw [ot r hr, hrest r (by omega) (by omega)]
      · intro r hr
        obtain ⟨h1, h2, h3⟩ := ht' r hr
        refine ⟨h1, ?_, h3⟩
        rw [h2]
        by_cases e1 : r = root
        · subst e1; rw [y4]
        by_cases e2 : r = x
        · subst e2; rw [hx4]
        rw [hrest r e1 e2]
      · rw [List.filter_cons_of_pos (by simpa using hxr), List.foldl_cons]
        exact hGt
      · rw [het, y4]
        show loaded _ _ _ _ _ _ = _
        rw [loaded_other (by simp), store_of_not_mem (by simp [bufs])]

/-! ## One call -/

/-- all cells in row-major order -/
def rowMajor (n : Nat) (dim : Crd) (G : Crd → α) : List α :=
  (List.range (crdProd n dim).toNat).map fun i : Nat => G (unlin dim n 0 (i : Int))

/-- what the cells of the global grid are after a call -/
noncomputable def painted (n N root : Nat) (c : Nat → Call α) (G : Crd → α) : Crd → α :=
  (root :: (List.range N).filter (· ≠ root)).foldl (fun G x => paint n (c x) G) G

theorem run_cwCall (hn : n ≤ 2) (hdim : ∀ k, k ≤ n → 0 < dim k) {eager : Ch → Nat → Bool} {dflt : α} {N root : Nat} {fresh : Bool} (hroot : root < N) {c : Nat → Call α}
    {ls : Nat → List Streak} (hbox : ∀ r, r < N → InBox n dim (c r).idx (ls r))
    (hv : ∀ r, r < N → ∀ p q, (∀ k, k ≤ n → p k = q k) → (c r).val p = (c r).val q) {K : Nat → P α}
    {s : St Loc α (Msg α) (Shot α)} (hq : Quiet s)
    (hproc : ∀ r, r < N → (s.ranks r).proc = cwCall n wraps dim dflt N root r fresh (c r) (K r) ∧ (s.ranks r).reqs = []) {G : Crd → α}
    (hG : if fresh then G = fun _ => dflt else Holds n dim (s.ranks root).mem G) :
    ∃ t, RunTo eager s t ∧ Quiet t ∧ (∀ r, N ≤ r → t.ranks r = s.ranks r) ∧
      (∀ r, r < N → (t.ranks r).proc = K r ∧ (t.ranks r).reqs = [] ∧ (r ≠ root → (t.ranks r).out = (s.ranks r).out)) ∧
      Holds n dim (t.ranks root).mem (painted n N root c G) ∧
      (t.ranks root).out = (s.ranks root).out ++
        if (c root).last then [⟨(c root).step, (c root).event, rowMajor n dim (painted n N root c G), (c root).edge⟩] else [] := by
  -- local part
  let loop : Nat → P α := fun r => cwLoop n wraps dim root r (c r).idx (List.range N) <| .wait cwTag <| cwEnd n dim root r (c r) (K r)
  have hloc : ∀ r, ∃ m, r < N → (∀ u : St Loc α (Msg α) (Shot α), Quiet u → u.ranks r = s.ranks r → ∃ t, RunTo eager u t ∧ Quiet t ∧
      t.ranks r = ⟨loop r, m, [], (s.ranks r).out⟩ ∧ ∀ z, z ≠ r → t.ranks z = u.ranks z) ∧
      (r ≠ root → (bufs (crds (ls r)).length).map m = (crds (ls r)).map (c r).val) ∧
      (r = root → Holds n dim m (paint n (c r) G) ∧ m (.edge 0) = (c r).edge) := by
    intro r
    by_cases hr : r < N
    · have hb := hbox r hr
      obtain ⟨e1, e2⟩ := hproc r hr
      simp only [cwCall, forStreaks, hb.vec] at e1
      set L := (crds (ls r)).length with hL
      have hzip : (bufs L).length = ((crds (ls r)).map (c r).val).length := by simp [bufs, hL]
      let m0 : Loc → α := store (bufs L) ((crds (ls r)).map (c r).val) (s.ranks r).mem
      have hm0 : (bufs L).map m0 = (crds (ls r)).map (c r).val := map_store_self (bufs_nodup L) hzip.symm
      have hwrite : ∀ u : St Loc α (Msg α) (Shot α), Quiet u → u.ranks r = s.ranks r → ∀ k, (s.ranks r).proc =
          .write ((bufs L).zip ((crds (ls r)).map (c r).val)) k → ∃ t, RunTo eager u t ∧ Quiet t ∧
          t.ranks r = ⟨k, m0, [], (s.ranks r).out⟩ ∧ ∀ z, z ≠ r → t.ranks z = u.ranks z := by
        intro u hu he k hk
        obtain ⟨t, h1, h2, h3, h4⟩ := step_write (eager := eager) (s := u) (r := r) hu (lvs := (bufs L).zip ((crds (ls r)).map (c r).val)) (k := k)
          (mem := (s.ranks r).mem) (out := (s.ranks r).out) (by rw [he, ← hk, ← e2])
        refine ⟨t, h1, h2, ?_, h4⟩
        rw [h3, List.map_fst_zip hzip.le, List.map_snd_zip hzip.ge]
      by_cases hrr : r = root
      · subst hrr
        simp only [if_true] at e1
        let m1 : Loc → α := if fresh then store ((blank n dim dflt 0).map Prod.fst) ((blank n dim dflt 0).map Prod.snd) m0 else m0
        have hbm : (bufs L).map m1 = (crds (ls r)).map (c r).val := by
          rw [← hm0]
          refine List.map_congr_left fun a ha => ?_
          simp only [bufs, List.mem_map] at ha
          obtain ⟨i, -, rfl⟩ := ha
          simp only [m1]
          split
          · exact store_blank.2 _ (by simp) (by simp)
          · rfl
        refine ⟨store [.edge 0] [(c r).edge] (loaded n dim (ls r) ((crds (ls r)).map (c r).val) m1), fun _ => ⟨?_, fun h => absurd rfl h, fun _ => ⟨?_, ?_⟩⟩⟩
        · intro u hu he
          obtain ⟨t1, h1, h2, h3, h4⟩ := hwrite u hu he _ e1
          have hs2 : ∃ t, RunTo eager t1 t ∧ Quiet t ∧ t.ranks r = ⟨loadBuf n wraps dim 0 (ls r) (.write [(.edge 0, (c r).edge)] (loop r)), m1, [], (s.ranks r).out⟩ ∧
              ∀ z, z ≠ r → t.ranks z = t1.ranks z := by
            cases fresh
            · exact ⟨t1, RunTo.refl _, h2, by rw [h3]; simp [m1, loop], fun _ _ => rfl⟩
            · simp only [if_true] at h3
              obtain ⟨t, a1, a2, a3, a4⟩ := step_write (eager := eager) h2 h3
              exact ⟨t, a1, a2, by rw [a3]; simp [m1, loop], a4⟩
          obtain ⟨t2, a1, a2, a3, a4⟩ := hs2
          obtain ⟨t3, b1, b2, b3, b4⟩ := run_loadBuf (eager := eager) hn hb a2 a3
          rw [← hL, hbm] at b3
          obtain ⟨t4, d1, d2, d3, d4⟩ := step_write (eager := eager) b2 b3
          exact ⟨t4, h1.trans (a1.trans (b1.trans d1)), d2, d3, fun z hz => by rw [d4 z hz, b4 z hz, a4 z hz, h4 z hz]⟩
        · intro p hp
          rw [store_of_not_mem (by simp)]
          refine loaded_holds hb (hv r hr) ?_ p hp
          intro p hp
          simp only [m1]
          cases hf : fresh
          · rw [if_neg (by simp)]
            simp only [m0]
            rw [store_of_not_mem (by simp [bufs])]
            rw [hf] at hG
            exact hG p hp
          · rw [if_pos rfl]
            rw [hf] at hG
            simp only [if_true] at hG
            subst hG
            have l1 := lin_nonneg dim n 0 p (fun j _ hj => (hp j (by omega)).1) (fun j _ hj => by have := hp j (by omega); omega)
            have l2 := lin_lt_vol dim n 0 p (fun j _ hj => hp j (by omega))
            rw [vol_prod] at l2
            exact store_blank.1 _ l1 l2
        · simp [store]
      · simp only [if_neg hrr] at e1
        refine ⟨m0, fun _ => ⟨fun u hu he => ?_, fun _ => hm0, fun h => absurd h hrr⟩⟩
        obtain ⟨t1, h1, h2, h3, h4⟩ := hwrite u hu he _ e1
        exact ⟨t1, h1, h2, by rw [h3], h4⟩
    · exact ⟨(s.ranks r).mem, fun h => absurd h hr⟩
  choose m hm using hloc
  obtain ⟨s1, r1, q1, p1, o1⟩ := run_all (eager := eager) (fun r => ⟨loop r, m r, [], (s.ranks r).out⟩) N s hq fun r hr u hu he => (hm r hr).1 u hu he
  obtain ⟨s2, r2, q2, o2, p2, hG2, he2⟩ := run_cwLoop (eager := eager) (wraps := wraps) (K := fun r => .wait cwTag <| cwEnd n dim root r (c r) (K r)) hn hbox hv (List.range N) List.nodup_range (fun x hx => List.mem_range.1 hx) s1 (paint n (c root) G) q1
      (fun r hr => by rw [p1 r hr]) hroot (by rw [p1 root hroot]) (by rw [p1 root hroot]; exact ((hm root hroot).2.2 rfl).1)
      (fun r hr => by rw [p1 r hr]; simp) (fun x hx hne => by
        rw [List.mem_range] at hx
        rw [p1 x hx]
        exact ⟨rfl, (hm x hx).2.1 hne⟩)
  obtain ⟨s3, r3, q3, p3, o3⟩ := run_all (eager := eager)
    (fun r => ⟨cwEnd n dim root r (c r) (K r), (s2.ranks r).mem, [], (s2.ranks r).out⟩) N s2 q2
    fun r hr u hu he => step_wait (w := cwTag) (reqs := (s2.ranks r).reqs) hu (by rw [he, ← (p2 r hr).1]) (p2 r hr).2.2
  have out3 : ∀ r, r < N → (s3.ranks r).out = (s.ranks r).out := fun r hr => by
    rw [p3 r hr]
    show (s2.ranks r).out = _
    rw [(p2 r hr).2.1, p1 r hr]
  have hG3 : Holds n dim (s3.ranks root).mem (painted n N root c G) := by
    rw [p3 root hroot]
    exact hG2
  by_cases hlast : (c root).last = true
  · have hp := p3 root hroot
    simp only [cwEnd, hlast, true_and, if_true] at hp
    have r4 := run_read (eager := eager) (s := s3) (r := root) (by rw [hp]) (by rw [hp]; rfl)
    simp only [List.map_cons] at r4
    set s4 := s3.setRank root { s3.ranks root with proc :=
      (.emit ⟨(c root).step, (c root).event, ((List.range (crdProd n dim).toNat).map fun i : Nat => Loc.cell 0 (i : Int)).map (s3.ranks root).mem,
        (s3.ranks root).mem (.edge 0)⟩ (K root) : P α) } with hs4
    have q4 : Quiet s4 := q3.setRank fun q hq => hq
    have r5 := run_emit (eager := eager) (s := s4) (r := root) (e := ⟨(c root).step, (c root).event, ((List.range (crdProd n dim).toNat).map fun i : Nat => Loc.cell 0 (i : Int)).map (s3.ranks root).mem,
        (s3.ranks root).mem (.edge 0)⟩) (k := K root) (by simp [hs4, St.setRank])
    have hne : ∀ z, z ≠ root → (s4.setRank root { s4.ranks root with proc := K root, out := (s4.ranks root).out ++ [⟨(c root).step, (c root).event, ((List.range (crdProd n dim).toNat).map fun i : Nat => Loc.cell 0 (i : Int)).map (s3.ranks root).mem,
        (s3.ranks root).mem (.edge 0)⟩] }).ranks z = s3.ranks z := by
      intro z hz
      simp [St.setRank, hs4, Function.update_of_ne hz]
    refine ⟨_, r1.trans (r2.trans (r3.trans (r4.trans r5))), q4.setRank fun q hq => hq, ?_, ?_, ?_, ?_⟩
    · intro r hr
      rw [hne r (by omega), o3 r hr, o2 r hr, o1 r hr]
    · intro r hr
      by_cases e : r = root
      · subst e
        refine ⟨by simp [St.setRank], ?_, fun h => absurd rfl h⟩
        simp [St.setRank, hs4, hp]
      · rw [hne r e]
        refine ⟨?_, ?_, fun _ => out3 r hr⟩
        · rw [p3 r hr]
          simp [cwEnd, e]
        · rw [p3 r hr]
    · simp only [St.setRank, hs4, Function.update_self]
      exact hG3
    · have hout : (s4.ranks root).out = (s.ranks root).out := by
        simp only [hs4, St.setRank, Function.update_self]
        exact out3 root hroot
      simp only [St.setRank, Function.update_self, hout, hlast, if_true]
      congr 2
      congr 1
      · unfold rowMajor
        rw [List.map_map]
        refine List.map_congr_left fun i hi => ?_
        rw [List.mem_range] at hi
        have hin : InDim n dim (unlin dim n 0 (i : Int)) := fun j hj =>
          unlin_range dim n 0 i (fun j _ hj => hdim j (by omega)) (by omega) (by rw [vol_prod]; omega) j (by omega) (by omega)
        have := hG3 _ hin
        rw [lin_unlin] at this
        exact this
      · rw [p3 root hroot]
        show (s2.ranks root).mem _ = _
        rw [he2, p1 root hroot]
        exact ((hm root hroot).2.2 rfl).2
  · refine ⟨s3, r1.trans (r2.trans r3), q3, fun r hr => by rw [o3 r hr, o2 r hr, o1 r hr], fun r hr => ⟨?_, by rw [p3 r hr], fun _ => out3 r hr⟩, hG3, ?_⟩
    · rw [p3 r hr]
      have : ¬ ((c r).last = true ∧ r = root) := by
        rintro ⟨h, rfl⟩
        exact hlast h
      simp only [cwEnd, if_neg this]
    · rw [out3 root hroot]
      simp [hlast]

end LGD.Gather
