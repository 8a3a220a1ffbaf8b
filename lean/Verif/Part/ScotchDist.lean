import Verif.Part.Scotch
import Verif.Comm.GatherLemmas

/-!
# One run of `DistributedPTScotchUnstructuredPartition::createRegions` on all ranks
-/

namespace LGD.Scotch
open LGD.Mpi LGD.Gather

/-! ## Fragments -/

/-- the numbers of the nodes which were assigned to part `r` -/
def Frag (start : Int) (ind : List Int) (r : Nat) (c : Crd) : Prop := ∃ m : Nat, ind[m]? = some (r : Int) ∧ c 0 = start + m

theorem smem_one (i : Int) (c : Crd) : SMem 0 ⟨fun _ => i, i + 1⟩ c ↔ c 0 = i := by
  unfold SMem
  constructor
  · rintro ⟨-, h1, h2⟩; simp only at h1 h2; omega
  · rintro h; exact ⟨fun k h1 h2 => by omega, by simp only; omega, by simp only; omega⟩

theorem insertIds_spec {k : Nat} : ∀ (ind : List Int) (start : Int) (regs : List Idx) (S : Nat → Crd → Prop), (∀ v ∈ ind, 0 ≤ v ∧ v < k) →
    Holds 0 k regs S → ∃ regs', insertIds start ind regs = some regs' ∧ Holds 0 k regs' fun r c => S r c ∨ Frag start ind r c
  | [], start, regs, S, _, h => ⟨regs, rfl, h.congr fun r _ c => by simp [Frag]⟩
  | v :: vs, start, regs, S, hv, h => by
    have hv0 := hv v (by simp)
    obtain ⟨q, rfl⟩ := Int.eq_ofNat_of_zero_le hv0.1
    obtain ⟨r1, e1, e2⟩ := h.modify (T := SMem 0 ⟨fun _ => start, start + 1⟩) (r := q) (f := fun idx => regInsert 0 idx ⟨fun _ => start, start + 1⟩)
      (fun idx hok => regInsert_spec 0 idx _ hok) (by omega)
    obtain ⟨r2, e3, e4⟩ := insertIds_spec vs (start + 1) r1 _ (fun v h => hv v (by simp [h])) e2
    refine ⟨r2, by rw [insertIds]; erw [e1]; exact e3, e4.congr fun r _ c => ?_⟩
    rw [smem_one]
    unfold Frag
    constructor
    · rintro ((h | ⟨rfl, h⟩) | ⟨m, h1, h2⟩)
      · exact Or.inl h
      · exact Or.inr ⟨0, by simp, by simpa using h⟩
      · exact Or.inr ⟨m + 1, by simpa using h1, by push_cast; omega⟩
    · rintro (h | ⟨m, h1, h2⟩)
      · exact Or.inl (Or.inl h)
      · cases m with
        | zero =>
          have : (q : Int) = r := by simpa using h1
          exact Or.inl (Or.inr ⟨by omega, by simpa using h2⟩)
        | succ m => exact Or.inr ⟨m, by simpa using h1, by push_cast at h2; omega⟩

/-! ## Sender and receiver -/

abbrev State := St Loc Idx (Msg Idx) (Shot Idx)

theorem run_parts {eager : Ch → Nat → Bool} {N x y : Nat} (hxy : x ≠ y) {K : Prg} {C : List Idx → Prg} :
    ∀ (ps : List Idx) (k0 : Nat) (regs : List Idx) (S : Nat → Crd → Prop) (s : State), Quiet s → (∀ p ∈ ps, RegOK 0 p) → Holds 0 N regs S →
    k0 + ps.length ≤ N → (s.ranks x).proc = sendParts y ps K → (s.ranks y).proc = recvParts x ps.length k0 regs C → (s.ranks x).reqs = [] →
    ∃ t regs', RunTo eager s t ∧ Quiet t ∧ (Holds 0 N regs' fun q c => S q c ∨ ∃ m p, ps[m]? = some p ∧ q = k0 + m ∧ RMem 0 p c) ∧
      t.ranks x = { s.ranks x with proc := K } ∧ t.ranks y = { s.ranks y with proc := C regs' } ∧ ∀ z, z ≠ x → z ≠ y → t.ranks z = s.ranks z
  | [], k0, regs, S, s, hq, _, hS, _, hx, hy, _ => by
    refine ⟨s, regs, RunTo.refl _, hq, hS.congr fun q _ c => by simp, ?_, ?_, fun _ _ _ => rfl⟩
    · rw [← show (s.ranks x).proc = K from hx]
    · rw [← show (s.ranks y).proc = C regs from hy]
  | p :: ps, k0, regs, S, s, hq, hok, hS, hk, hx, hy, hr => by
    obtain ⟨l, hl, -, -⟩ := toVector_spec (hok p (by simp))
    simp only [List.length_cons] at hk
    obtain ⟨s1, rc, r1, q1, ⟨-, c1, c2⟩, x1, y1, z1⟩ := run_region_ok (eager := eager) hq hxy (hok p (by simp)) hl hx hy (by rw [hr]; simp)
    obtain ⟨regs1, e1, e2⟩ := hS.modify (f := fun idx => regPlusAssign 0 idx rc) (T := RMem 0 rc) (r := k0)
      (fun idx h => regPlusAssign_spec 0 idx rc h c1) (by omega)
    simp only [e1] at y1
    obtain ⟨t, regs', r2, q2, h2, x2, y2, z2⟩ := run_parts hxy ps (k0 + 1) regs1 _ s1 q1 (fun p h => hok p (by simp [h])) e2 (by omega)
      (by rw [x1]) (by rw [y1]) (by rw [x1]; exact hr)
    refine ⟨t, regs', r1.trans r2, q2, h2.congr fun q _ c => ?_, by rw [x2, x1], by rw [y2, y1], fun z h1 h2 => by rw [z2 z h1 h2, z1 z h1 h2]⟩
    constructor
    · rintro ((h | ⟨rfl, h⟩) | ⟨m, p', h1, rfl, h3⟩)
      · exact Or.inl h
      · exact Or.inr ⟨0, p, by simp, by omega, (c2 c).1 h⟩
      · exact Or.inr ⟨m + 1, p', by simpa using h1, by omega, h3⟩
    · rintro (h | ⟨m, p', h1, rfl, h3⟩)
      · exact Or.inl (Or.inl h)
      · cases m with
        | zero =>
          have : p = p' := by simpa using h1
          subst this
          exact Or.inl (Or.inr ⟨by omega, (c2 c).2 h3⟩)
        | succ m => exact Or.inr ⟨m, p', by simpa using h1, by omega, h3⟩

/-- one receiver, all senders -/
theorem run_senders {eager : Ch → Nat → Bool} {N j : Nat} {part : Nat → List Idx} {Part : Nat → Nat → Crd → Prop}
    (hpart : ∀ i, i < N → Holds 0 N (part i) (Part i)) {K : Nat → Prg} {C : List Idx → Prg} :
    ∀ (is : List Nat) (regs : List Idx) (S : Nat → Crd → Prop) (s : State), is.Nodup → (∀ i ∈ is, i < N) → Quiet s → Holds 0 N regs S →
    (s.ranks j).proc = recvAll N j is regs C → (∀ i ∈ is, i ≠ j → (s.ranks i).proc = sendParts j (part i) (K i) ∧ (s.ranks i).reqs = []) →
    ∃ t regs', RunTo eager s t ∧ Quiet t ∧ (Holds 0 N regs' fun q c => S q c ∨ ∃ i ∈ is, i ≠ j ∧ Part i q c) ∧
      t.ranks j = { s.ranks j with proc := C regs' } ∧ (∀ i ∈ is, i ≠ j → t.ranks i = { s.ranks i with proc := K i }) ∧
      ∀ z, z ∉ is → z ≠ j → t.ranks z = s.ranks z
  | [], regs, S, s, _, _, hq, hS, hj, _ => by
    refine ⟨s, regs, RunTo.refl _, hq, hS.congr fun q _ c => by simp, ?_, by simp, fun _ _ _ => rfl⟩
    rw [← show (s.ranks j).proc = C regs from hj]
  | i :: is, regs, S, s, hnd, hlt, hq, hS, hj, hi => by
    obtain ⟨hni, hnd⟩ := List.nodup_cons.1 hnd
    by_cases e : i = j
    · subst e
      rw [recvAll, if_pos rfl] at hj
      obtain ⟨t, regs', r1, q1, h1, h2, h3, h4⟩ := run_senders hpart is regs S s hnd (fun i h => hlt i (by simp [h])) hq hS hj
        (fun i h => hi i (by simp [h]))
      refine ⟨t, regs', r1, q1, h1.congr fun q _ c => ?_, h2, ?_, ?_⟩
      · simp
      · intro z hz hne
        rcases List.mem_cons.1 hz with rfl | hz
        · exact (hne rfl).elim
        · exact h3 z hz hne
      · intro z hz hne
        exact h4 z (fun h => hz (by simp [h])) hne
    · rw [recvAll, if_neg e] at hj
      have hp := hpart i (hlt i (by simp))
      obtain ⟨i1, i2⟩ := hi i (by simp) e
      have hj' : (s.ranks j).proc = recvParts i (part i).length 0 regs fun regs => recvAll N j is regs C := by rw [hp.len]; exact hj
      obtain ⟨s1, regs1, r1, q1, h1, x1, y1, z1⟩ := run_parts (eager := eager) (N := N) e (part i) 0 regs S s hq
        (fun p h => by obtain ⟨m, hm⟩ := List.getElem?_of_mem h; exact hp.ok m p hm) hS (by rw [hp.len]; omega) i1 hj' i2
      obtain ⟨t, regs', r2, q2, h2, y2, x2, z2⟩ := run_senders hpart is regs1 _ s1 hnd (fun i h => hlt i (by simp [h])) q1 h1 (by rw [y1])
        (fun i' h hne => by
          rw [z1 i' (fun e => hni (e ▸ h)) hne]
          exact hi i' (by simp [h]) hne)
      refine ⟨t, regs', r1.trans r2, q2, h2.congr fun q hqN c => ?_, by rw [y2, y1], ?_, ?_⟩
      · have : (∃ m p, (part i)[m]? = some p ∧ q = 0 + m ∧ RMem 0 p c) ↔ Part i q c := by
          constructor
          · rintro ⟨m, p, a, b, d⟩
            have : q = m := by omega
            subst this
            exact (hp.mem _ _ a c).1 d
          · intro h
            have hlen : q < (part i).length := by rw [hp.len]; exact hqN
            exact ⟨q, _, List.getElem?_eq_getElem hlen, by omega, (hp.mem _ _ (List.getElem?_eq_getElem hlen) c).2 h⟩
        rw [this]
        constructor
        · rintro ((h | h) | ⟨i', a, b, d⟩)
          · exact Or.inl h
          · exact Or.inr ⟨i, by simp, e, h⟩
          · exact Or.inr ⟨i', by simp [a], b, d⟩
        · rintro (h | ⟨i', a, b, d⟩)
          · exact Or.inl (Or.inl h)
          · rcases List.mem_cons.1 a with rfl | a
            · exact Or.inl (Or.inr d)
            · exact Or.inr ⟨i', a, b, d⟩
      · intro z hz hne
        rcases List.mem_cons.1 hz with rfl | hz
        · rw [z2 z hni e, x1]
        · rw [x2 z hz hne, z1 z (fun e => hni (e ▸ hz)) hne]
      · intro z hz hne
        rw [z2 z (fun h => hz (by simp [h])) hne, z1 z (fun h => hz (by simp [h])) hne]

/-- all receivers -/
theorem run_exchange {eager : Ch → Nat → Bool} {N : Nat} {part : Nat → List Idx} {Part : Nat → Nat → Crd → Prop}
    (hpart : ∀ i, i < N → Holds 0 N (part i) (Part i)) {C : List Idx → Prg} :
    ∀ (js : List Nat) (regs : Nat → List Idx) (s : State), js.Nodup → (∀ j ∈ js, j < N) → Quiet s →
    (∀ r, r < N → (s.ranks r).proc = exchange N r (part r) js (regs r) C ∧ (s.ranks r).reqs = [] ∧ (s.ranks r).out = [] ∧
      (r ∈ js → Holds 0 N (regs r) (Part r)) ∧ (r ∉ js → Holds 0 N (regs r) fun q c => ∃ i, i < N ∧ Part i q c)) →
    ∃ (t : State) (regs' : Nat → List Idx), RunTo eager s t ∧ Quiet t ∧ (∀ r, r < N → (t.ranks r).proc = C (regs' r) ∧ (t.ranks r).reqs = [] ∧ (t.ranks r).out = [] ∧
      Holds 0 N (regs' r) fun q c => ∃ i, i < N ∧ Part i q c) ∧ ∀ r, N ≤ r → t.ranks r = s.ranks r
  | [], regs, s, _, _, hq, h => by
    refine ⟨s, regs, RunTo.refl _, hq, fun r hr => ?_, fun _ _ => rfl⟩
    obtain ⟨h1, h2, h3, -, h5⟩ := h r hr
    exact ⟨h1, h2, h3, h5 (by simp)⟩
  | j :: js, regs, s, hnd, hlt, hq, h => by
    obtain ⟨hnj, hnd⟩ := List.nodup_cons.1 hnd
    have hj : j < N := hlt j (by simp)
    obtain ⟨j1, j2, j3, j4, -⟩ := h j hj
    rw [exchange, if_neg (by simp)] at j1
    obtain ⟨s1, regs1, r1, q1, h1, y1, x1, z1⟩ := run_senders (eager := eager) (j := j) hpart (K := fun i => exchange N i (part i) js (regs i) C)
      (List.range N) (regs j) (Part j) s List.nodup_range (fun i hi => List.mem_range.1 hi) hq (j4 (by simp)) j1
      (fun i hi hne => by
        obtain ⟨i1, i2, -⟩ := h i (List.mem_range.1 hi)
        rw [exchange, if_pos (Ne.symm hne)] at i1
        exact ⟨i1, i2⟩)
    obtain ⟨t, regs', r2, q2, h2, z2⟩ := run_exchange hpart js (Function.update regs j regs1) s1 hnd (fun j h => hlt j (by simp [h])) q1
      (fun r hr => by
        by_cases e : r = j
        · subst e
          rw [y1, Function.update_self]
          refine ⟨rfl, j2, j3, fun h => (hnj h).elim, fun _ => h1.congr fun q _ c => ?_⟩
          constructor
          · rintro (h | ⟨i, hi, -, h⟩)
            · exact ⟨r, hr, h⟩
            · exact ⟨i, List.mem_range.1 hi, h⟩
          · rintro ⟨i, hi, h⟩
            by_cases e : i = r
            · subst e; exact Or.inl (by assumption)
            · exact Or.inr ⟨i, List.mem_range.2 hi, e, h⟩
        · rw [x1 r (List.mem_range.2 hr) e, Function.update_of_ne e]
          obtain ⟨-, i2, i3, i4, i5⟩ := h r hr
          exact ⟨rfl, i2, i3, fun h => i4 (by simp [h]), fun h => i5 (by simp [h, e])⟩)
    refine ⟨t, regs', r1.trans r2, q2, h2, fun r hr => ?_⟩
    rw [z2 r hr, z1 r (by rw [List.mem_range]; omega) (by omega)]

/-- all ranks show their result -/
theorem run_results {eager : Ch → Nat → Bool} {N : Nat} {regs : Nat → List Idx} : ∀ (rs : List Nat) (s : State), rs.Nodup → Quiet s →
    (∀ r ∈ rs, (s.ranks r).proc = .emit (result (regs r)) .done) →
    ∃ t, RunTo eager s t ∧ Quiet t ∧ (∀ r ∈ rs, t.ranks r = { s.ranks r with proc := .done, out := (s.ranks r).out ++ [result (regs r)] }) ∧
      ∀ r, r ∉ rs → t.ranks r = s.ranks r
  | [], s, _, hq, _ => ⟨s, RunTo.refl _, hq, by simp, fun _ _ => rfl⟩
  | r :: rs, s, hnd, hq, h => by
    obtain ⟨hn, hnd⟩ := List.nodup_cons.1 hnd
    have r1 := run_emit (eager := eager) (s := s) (r := r) (h r (by simp))
    set s1 := s.setRank r { s.ranks r with proc := .done, out := (s.ranks r).out ++ [result (regs r)] } with hs1
    have ne : ∀ z, z ≠ r → s1.ranks z = s.ranks z := fun z hz => by simp only [hs1, St.setRank, Function.update_of_ne hz]
    have eq : s1.ranks r = { s.ranks r with proc := .done, out := (s.ranks r).out ++ [result (regs r)] } := by
      simp only [hs1, St.setRank, Function.update_self]
    obtain ⟨t, r2, q2, h2, z2⟩ := run_results (N := N) rs s1 hnd (hq.setRank fun q h => h) (fun z hz => by
      rw [ne z (fun e => hn (e ▸ hz))]; exact h z (by simp [hz]))
    refine ⟨t, r1.trans r2, q2, fun z hz => ?_, fun z hz => ?_⟩
    · rcases List.mem_cons.1 hz with rfl | hz
      · rw [z2 z hn, eq]
      · rw [h2 z hz, ne z (fun e => hn (e ▸ hz))]
    · rw [z2 z (fun h => hz (by simp [h])), ne z (fun e => hz (by simp [e]))]

/-- all of it -/
theorem run_dist (eager : Ch → Nat → Bool) (N : Nat) (start : Nat → Int) (ind : Nat → List Int) (mem : Nat → Loc → Idx)
    (hind : ∀ r, r < N → ∀ v ∈ ind r, 0 ≤ v ∧ v < N) :
    ∃ (t : State) (regs : Nat → List Idx), RunTo eager (Mpi.start (fun r => if r < N then distProg N r (start r) (ind r) else .done) mem) t ∧ Final t ∧
      ∀ r, r < N → (t.ranks r).out = [result (regs r)] ∧ Holds 0 N (regs r) fun q c => ∃ i, i < N ∧ Frag (start i) (ind i) q c := by
  have hp : ∀ i, ∃ p, i < N → (insertIds (start i) (ind i) (List.replicate N emptyIdx) = some p ∧ Holds 0 N p (Frag (start i) (ind i))) := by
    intro i
    by_cases hi : i < N
    · obtain ⟨p, e1, e2⟩ := insertIds_spec (ind i) (start i) _ _ (hind i hi) (holds_empty 0 N)
      exact ⟨p, fun _ => ⟨e1, e2.congr fun r _ c => by simp⟩⟩
    · exact ⟨[], fun h => (hi h).elim⟩
  choose part hpart using hp
  obtain ⟨t, regs, r1, q1, h1, z1⟩ := run_exchange (eager := eager) (fun i hi => (hpart i hi).2) (C := fun regs => .emit (result regs) .done)
    (List.range N) part (Mpi.start (fun r => if r < N then distProg N r (start r) (ind r) else .done) mem) List.nodup_range
    (fun j hj => List.mem_range.1 hj) (quiet_start _ _) (fun r hr => by
      refine ⟨?_, rfl, rfl, fun _ => (hpart r hr).2, fun h => (h (List.mem_range.2 hr)).elim⟩
      simp only [Mpi.start, if_pos hr, distProg, (hpart r hr).1])
  obtain ⟨u, r2, q2, h2, z2⟩ := run_results (eager := eager) (N := N) (regs := regs) (List.range N) t List.nodup_range q1
    (fun r hr => (h1 r (List.mem_range.1 hr)).1)
  refine ⟨u, regs, r1.trans r2, q2.final fun r => ?_, fun r hr => ?_⟩
  · by_cases hr : r < N
    · rw [h2 r (List.mem_range.2 hr)]
      exact ⟨rfl, (h1 r hr).2.1⟩
    · rw [z2 r (by rw [List.mem_range]; omega), z1 r (by omega)]
      simp [Mpi.start, hr]
  · rw [h2 r (List.mem_range.2 hr)]
    exact ⟨by simp [(h1 r hr).2.2.1], (h1 r hr).2.2.2⟩

end LGD.Scotch
