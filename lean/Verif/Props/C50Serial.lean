import Verif.Props.C50
import Verif.Region.Literal

/-!
# C50: checkpoints of serial simulations, and examples
-/

namespace LGD.C50
open LGD.C13 LGD.C14 LGD.Store LGD.C33 LGD.IO LGD.Adapter

variable {B α : Type} {n : Nat} {wraps : Nat → Bool}

/-- if no position is written by two operations, all of them persist -/
theorem bytesAt_of_disjoint {ops : List (WOp B)} {name : String} (hdis : ∀ i, ∀ op ∈ ops, ∀ op' ∈ ops, Covers name i op → Covers name i op' → op = op') (fs : Files B)
    {op : WOp B} (hop : op ∈ ops) (hname : op.name = name) : BytesAt (applyOps fs ops name) op.off op.bytes := by
  classical
  let ideal : File B := fun i => if h : ∃ op ∈ ops, Covers name i op then h.choose.bytes[i - h.choose.off]? else none
  have hag : ∀ op ∈ ops, op.name = name → Agrees ideal op := by
    intro op hop hname j hj
    have hc : Covers name (op.off + j) op := ⟨hname, by omega, by omega⟩
    have h : ∃ op' ∈ ops, Covers name (op.off + j) op' := ⟨op, hop, hc⟩
    have e := hdis _ _ h.choose_spec.1 _ hop h.choose_spec.2 hc
    simp only [ideal]
    rw [dif_pos h, e, Nat.add_sub_cancel_left, List.getElem?_eq_getElem hj]
  intro j hj
  rw [applyOps_covered ops ideal name (op.off + j) hag fs ⟨op, hop, hname, by omega, by omega⟩]
  exact hag op hop hname j hj

theorem canon_unique {ss : List Streak} {S : Crd → Prop} (h : Canon n ss S) {s t : Streak} (hs : s ∈ ss) (ht : t ∈ ss) {c : Crd} (h1 : SMem n s c) (h2 : SMem n t c) : s = t := by
  have key : ∀ a b : Streak, SBefore n a b → SMem n a c → SMem n b c → False := by
    intro a b hab ha hb
    rcases hab with ⟨k, k1, k2, k3, _⟩ | ⟨_, h⟩
    · have := ha.1 k k1 k2; have := hb.1 k k1 k2; omega
    · have := ha.2.2; have := hb.2.1; omega
  obtain ⟨i, hi, rfl⟩ := List.getElem_of_mem hs
  obtain ⟨j, hj, rfl⟩ := List.getElem_of_mem ht
  rcases Nat.lt_trichotomy i j with h' | h' | h'
  · exact (key _ _ (List.pairwise_iff_getElem.mp h.sorted i j hi hj h') h1 h2).elim
  · subst h'; rfl
  · exact (key _ _ (List.pairwise_iff_getElem.mp h.sorted j i hj hi h') h2 h1).elim

/-- a `Grid` as a displaced one -/
def asD (g : Grid α) : DGrid α := ⟨g, fun _ => 0, g.dim⟩

theorem asD_ok {g : Grid α} (hg : GridOK n g) : DGridOK n wraps (asD g) :=
  ⟨hg, fun _ _ => le_refl _, fun k hk _ => ⟨by have := hg.pos k hk; simp only [asD]; omega, by have := hg.pos k hk; simp only [asD]; omega⟩⟩

theorem asD_box {g : Grid α} {c : Crd} : C33.InBox n (asD g) c ↔ InDim n g.dim c := by
  unfold C33.InBox InDim asD
  simp only [Int.zero_add]

theorem asD_read (hn : n ≤ 2) {g : Grid α} (hg : GridOK n g) {c : Crd} (hc : InDim n g.dim c) : dRead n wraps true (asD g) c = gridRead n wraps g c := by
  unfold dRead
  refine read_congr hn _ fun k hk => ?_
  rw [(inBox_rel (asD_ok hg) (asD_box.mpr hc)).2 k hk]
  simp [asD]

/-- serial and parallel initializers are the same -/
theorem initSerialGrid_eq (F : Fmt B α) (f : File B) (fuel : Nat) (g : Grid α) : initSerialGrid n wraps F f fuel g = (initGrid n wraps F f fuel (asD g)).map DGrid.delegate := by
  unfold initSerialGrid initGrid readRegion
  have hset : ∀ (d : DGrid α) s l, d.origin = (fun _ => 0) → dSetStreak n wraps d s l = (gridSetStreak n wraps d.delegate s l).map fun g => { d with delegate := g } := by
    intro d s l h
    unfold dSetStreak
    have : relStreak d s = s := by unfold relStreak; rw [h]; simp
    rw [this]
  have loop : ∀ (dims : Crd) (ss : List Streak) (d : DGrid α), d.origin = (fun _ => 0) →
      ss.foldlM (fun g s => (readStreak n wraps F f dims s).bind fun vec => gridSetStreak n wraps g s vec) d.delegate =
        (ss.foldlM (fun g s => (readStreak n wraps F f dims s).bind fun vec => dSetStreak n wraps g s vec) d).map DGrid.delegate := by
    intro dims ss
    induction ss with
    | nil => intro d _; rfl
    | cons s ss ih =>
      intro d h
      rw [List.foldlM_cons, List.foldlM_cons]
      cases readStreak n wraps F f dims s with
      | none => rfl
      | some vec =>
        simp only [Option.bind_some]
        rw [hset d s vec h]
        cases gridSetStreak n wraps d.delegate s vec with
        | none => rfl
        | some g => exact ih { d with delegate := g } h
  show Option.bind (regInsertBox n emptyIdx (dBox (asD g)) fuel) _ = _
  cases regInsertBox n emptyIdx (dBox (asD g)) fuel with
  | none => rfl
  | some region =>
    simp only [Option.bind_some]
    cases readDims F f with
    | none => rfl
    | some dims =>
      simp only [Option.bind_some]
      cases readItem f F.cellT (F.headerLength - F.cellT.extent) with
      | none => rfl
      | some edge =>
        simp only [Option.bind_some]
        cases toVector n region with
        | none => rfl
        | some ss => exact loop dims ss (dSetEdge (asD g) edge) rfl

/-- **C50, serial round trip.** `MPIIOInitializer` restores the grid which `MPIIOWriter` wrote, whatever the file contained before. Padding of the cells does no
harm as the streaks which are read are those which were written (cf. `padding_negation`). -/
theorem serial_roundtrip (hn : n ≤ 2) (F : Fmt B α) (g : Grid α) (hg : GridOK n g) (hF : FmtOK n F g.dim) (hc : F.cellT.size ≤ F.cellT.extent)
    (pre : String) (period maxSteps step : Nat) (event : Event) (hdue : event = .regular → step % period = 0) (hs : Stores F.uintT step) (hm : Stores F.uintT maxSteps)
    (fuel : Nat) (hf : (C12.Volume n (C12.rows n ⟨fun _ => 0, g.dim⟩)).toNat < fuel) :
    ∃ ops, mpiioSerialStepFinished n wraps F pre period maxSteps g step event fuel = some ops ∧ ∀ fs : Files B,
      (∃ dims', readMetadata F (applyOps fs ops (mpiioName pre step)) = some (dims', step, maxSteps) ∧ ∀ k, k ≤ n → dims' k = g.dim k) ∧
      (∀ name, name ≠ mpiioName pre step → applyOps fs ops name = fs name) ∧
      ∀ g0 : Grid α, GridOK n g0 → g0.dim = g.dim →
        ∃ g', initSerialGrid n wraps F (applyOps fs ops (mpiioName pre step)) fuel g0 = some g' ∧ GridOK n g' ∧ g'.dim = g.dim ∧ g'.edge = g.edge ∧
          ∀ c, InDim n g.dim c → gridRead n wraps g' c = gridRead n wraps g c := by
  have hd := hg.pos
  obtain ⟨region, ss, er, hr, ess, hcan, hbox, hmem⟩ := box_region (asD_ok (wraps := wraps) hg) fuel hf
  have hmem : ∀ s ∈ ss, ∀ x ∈ coordsOf s, InDim n g.dim x := fun s hs x hx => asD_box.mp (hmem s hs x hx)
  let u : Crd → α := fun c => (gridRead n wraps g c).getD g.edge
  have hu : ∀ c, InDim n g.dim c → gridRead n wraps g c = some (u c) := by
    intro c hc
    obtain ⟨v, e⟩ := read_some (wraps := wraps) hn hg (onePeriod_of_inDim hc)
    simp only [u, e, Option.getD_some]
  let op : Streak → WOp B := fun s => ⟨mpiioName pre step, F.headerLength + (lin g.dim n 0 s.origin).toNat * F.cellT.extent, ((coordsOf s).map u).flatMap F.cellT.enc⟩
  have hop : ∀ s ∈ ss, streakOp n wraps F (mpiioName pre step) g.dim (gridSource n wraps g) s = some (op s) := by
    intro s hs
    unfold streakOp
    rw [inDim_offset hn hd F (hmem s hs _ (origin_mem (hcan.pos s hs))), if_pos (by omega), gridSource_get hn hg (hcan.pos s hs) (hmem s hs) fun x hx => hu x (hmem s hs x hx),
      Option.map_some]
    rfl
  have hlen : ∀ s, (op s).bytes.length = (s.endX - s.origin 0).toNat * F.cellT.size := by
    intro s
    simp only [op]
    rw [flatMap_length F.cellT.enc F.cellT.size _ fun v _ => (hF.cell v).len, List.length_map, coordsOf_length]
  obtain ⟨l, el, hl⟩ := mapM_some (streakOp n wraps F (mpiioName pre step) g.dim (gridSource n wraps g)) ss fun s hs => ⟨_, hop s hs⟩
  have hl' : ∀ o, o ∈ l ↔ ∃ s ∈ ss, op s = o := fun o => by
    rw [hl]
    exact ⟨fun ⟨s, hs, e⟩ => ⟨s, hs, by rw [hop s hs] at e; exact Option.some.inj e⟩, fun ⟨s, hs, e⟩ => ⟨s, hs, by rw [hop s hs, e]⟩⟩
  refine ⟨headerOps n F (mpiioName pre step) g.dim step maxSteps g.edge ++ l, ?_, fun fs => ?_⟩
  · unfold mpiioSerialStepFinished writeRegion
    rw [if_neg (by rintro ⟨h1, h2⟩; exact h2 (hdue h1))]
    have : regInsertBox n emptyIdx ⟨fun _ => 0, g.dim⟩ fuel = some region := er
    rw [this, Option.bind_some, ess, Option.bind_some, el, Option.map_some, if_pos rfl]
    rfl
  have e1 := hF.dims.len
  have e2 := hs.len
  have e3 := hm.len
  have e4 := (hF.cell g.edge).len
  have hh : F.headerLength = F.coordT.size + 2 * F.uintT.size + F.cellT.extent := by unfold Fmt.headerLength; rw [hF.coord, hF.uint]
  have hdis : ∀ i, ∀ o ∈ headerOps n F (mpiioName pre step) g.dim step maxSteps g.edge ++ l, ∀ o' ∈ headerOps n F (mpiioName pre step) g.dim step maxSteps g.edge ++ l,
      Covers (mpiioName pre step) i o → Covers (mpiioName pre step) i o' → o = o' := by
    have hhead : ∀ o ∈ headerOps n F (mpiioName pre step) g.dim step maxSteps g.edge, o.off + o.bytes.length ≤ F.headerLength := by
      intro o ho
      simp only [headerOps, List.mem_cons, List.not_mem_nil, or_false] at ho
      unfold dimList at e1
      rcases ho with rfl | rfl | rfl | rfl <;> simp only [] <;> omega
    have htail : ∀ o ∈ l, F.headerLength ≤ o.off := by
      intro o ho
      obtain ⟨s, _, rfl⟩ := (hl' o).mp ho
      simp only [op]
      omega
    rintro i o ho o' ho' ⟨_, c1, c2⟩ ⟨_, c3, c4⟩
    rcases List.mem_append.mp ho with ho | ho <;> rcases List.mem_append.mp ho' with ho' | ho'
    · simp only [headerOps, List.mem_cons, List.not_mem_nil, or_false] at ho ho'
      unfold dimList at e1
      rcases ho with rfl | rfl | rfl | rfl <;> rcases ho' with rfl | rfl | rfl | rfl <;> first | rfl | (exfalso; simp only [] at c1 c2 c3 c4; omega)
    · exfalso; have := hhead o ho; have := htail o' ho'; omega
    · exfalso; have := hhead o' ho'; have := htail o ho; omega
    · obtain ⟨s, hs, rfl⟩ := (hl' o).mp ho
      obtain ⟨t, ht, rfl⟩ := (hl' o').mp ho'
      rw [hlen] at c2 c4
      simp only [op] at c1 c2 c3 c4
      have hE : 0 < F.cellT.extent := by
        rcases Nat.eq_zero_or_pos F.cellT.extent with h | h
        · have : F.cellT.size = 0 := by omega
          rw [this] at c2; simp only [h] at c1 c2; omega
        · exact h
      -- the cell at which the position belongs to
      have key : ∀ s ∈ ss, F.headerLength + (lin g.dim n 0 s.origin).toNat * F.cellT.extent ≤ i →
          i < F.headerLength + (lin g.dim n 0 s.origin).toNat * F.cellT.extent + (s.endX - s.origin 0).toNat * F.cellT.size →
          SMem n s (unlin g.dim n 0 (((i - F.headerLength) / F.cellT.extent : Nat) : Int)) := by
        intro s hs k1 k2
        have ho := hmem s hs _ (origin_mem (hcan.pos s hs))
        have h0 : 0 ≤ lin g.dim n 0 s.origin := lin_nonneg g.dim n 0 s.origin (fun j _ hj => (ho j (by omega)).1) (fun j _ hj => by have := hd j (by omega); omega)
        have q1 : (lin g.dim n 0 s.origin).toNat ≤ (i - F.headerLength) / F.cellT.extent := by rw [Nat.le_div_iff_mul_le hE]; omega
        have q2 : (i - F.headerLength) / F.cellT.extent < (lin g.dim n 0 s.origin).toNat + (s.endX - s.origin 0).toNat := by
          rw [Nat.div_lt_iff_lt_mul hE, Nat.add_mul]
          have : (s.endX - s.origin 0).toNat * F.cellT.size ≤ (s.endX - s.origin 0).toNat * F.cellT.extent := Nat.mul_le_mul_left _ hc
          omega
        have hx : upd s.origin 0 (s.origin 0 + ((((i - F.headerLength) / F.cellT.extent : Nat) : Int) - lin g.dim n 0 s.origin)) ∈ coordsOf s :=
          (mem_coordsOf s _ (hcan.pos s hs)).mpr ⟨_, by omega, by omega, rfl⟩
        have hin := hmem s hs _ hx
        have e : (((i - F.headerLength) / F.cellT.extent : Nat) : Int) =
            lin g.dim n 0 (upd s.origin 0 (s.origin 0 + ((((i - F.headerLength) / F.cellT.extent : Nat) : Int) - lin g.dim n 0 s.origin))) := by
          rw [lin_upd]; ring
        have hk : ∀ k, k ≤ n → unlin g.dim n 0 (((i - F.headerLength) / F.cellT.extent : Nat) : Int) k =
            upd s.origin 0 (s.origin 0 + ((((i - F.headerLength) / F.cellT.extent : Nat) : Int) - lin g.dim n 0 s.origin)) k := by
          intro k hk
          conv_lhs => rw [e]
          exact unlin_lin g.dim n 0 _ (fun j _ hj => hin j (by omega)) k (by omega) (by omega)
        refine ⟨fun k k1 k2 => ?_, ?_, ?_⟩
        · rw [hk k k2]; simp [upd, show k ≠ 0 by omega]
        · rw [hk 0 (by omega)]; simp only [upd, if_true]; omega
        · rw [hk 0 (by omega)]; simp only [upd, if_true]; omega
      rw [canon_unique hcan hs ht (key s hs c1 c2) (key t ht c3 c4)]
  have hread : ∀ o ∈ headerOps n F (mpiioName pre step) g.dim step maxSteps g.edge ++ l, o.name = mpiioName pre step →
      BytesAt (applyOps fs (headerOps n F (mpiioName pre step) g.dim step maxSteps g.edge ++ l) (mpiioName pre step)) o.off o.bytes := fun o ho hname =>
    bytesAt_of_disjoint hdis fs ho hname
  generalize hfile : applyOps fs (headerOps n F (mpiioName pre step) g.dim step maxSteps g.edge ++ l) (mpiioName pre step) = f at hread ⊢
  have b1 : BytesAt f 0 (F.coordT.enc (dimList n g.dim)) := hread ⟨_, 0, _⟩ (List.mem_append_left _ (List.mem_cons_self ..)) rfl
  have b2 : BytesAt f F.coordT.size (F.uintT.enc step) := hread ⟨_, _, _⟩ (List.mem_append_left _ (List.mem_cons_of_mem _ (List.mem_cons_self ..))) rfl
  have b3 : BytesAt f (F.coordT.size + F.uintT.size) (F.uintT.enc maxSteps) :=
    hread ⟨_, _, _⟩ (List.mem_append_left _ (List.mem_cons_of_mem _ (List.mem_cons_of_mem _ (List.mem_cons_self ..)))) rfl
  have b4 : BytesAt f (F.coordT.size + 2 * F.uintT.size) (F.cellT.enc g.edge) :=
    hread ⟨_, _, _⟩ (List.mem_append_left _ (List.mem_cons_of_mem _ (List.mem_cons_of_mem _ (List.mem_cons_of_mem _ (List.mem_cons_self ..))))) rfl
  obtain ⟨dims', edims, hdd⟩ := readDims_of b1 hF.dims
  refine ⟨⟨dims', ?_, hdd⟩, fun name hname => ?_, fun g0 hg0 hdim => ?_⟩
  · unfold readMetadata
    rw [edims, Option.bind_some, readItem_of b2 hs, Option.bind_some, readItem_of b3 hm, Option.map_some]
  · funext i
    apply applyOps_other
    rintro o ho ⟨h1, _⟩
    rcases List.mem_append.mp ho with h | h
    · simp only [headerOps, List.mem_cons, List.not_mem_nil, or_false] at h
      rcases h with rfl | rfl | rfl | rfl <;> exact hname h1.symm
    · obtain ⟨s, _, rfl⟩ := (hl' o).mp h
      exact hname h1.symm
  · rw [initSerialGrid_eq]
    have hb0 : dBox (asD g0) = dBox (asD g) := by unfold dBox asD; simp only; rw [hdim]
    obtain ⟨d', e, k1, k2, k3, k4, k5, k6⟩ := initGrid_of_reads (wraps := wraps) hn (w := u)
      (fun a b hab => by simp only [u]; rw [read_congr hn g hab]) edims (readEdge_of hF b4) (asD_ok hg0) fuel (by rw [hb0]; exact hf) (by
        intro region' ss' er' ess' s hs
        rw [hb0, er] at er'; cases er'
        rw [ess] at ess'; cases ess'
        unfold readStreak
        rw [offset_congr hn F hdd, inDim_offset hn hd F (hmem s hs _ (origin_mem (hcan.pos s hs))), if_pos (by omega), Int.toNat_natCast, ← coordsOf_length]
        have := readItems_of (f := f) (off := F.headerLength + (lin g.dim n 0 s.origin).toNat * F.cellT.extent) (T := F.cellT) (vs := (coordsOf s).map u)
          (bytesAt_items (fun v _ => (hF.cell v).len) (hread (op s) (List.mem_append_right _ ((hl' _).mpr ⟨s, hs, rfl⟩)) rfl)) (fun v _ => hF.cell v)
        rwa [List.length_map] at this)
    refine ⟨d'.delegate, by rw [e, Option.map_some], k1.delegate, k4.trans hdim, k5, fun c hcin => ?_⟩
    have h6 := k6 c (asD_box.mpr (by rw [hdim]; exact hcin))
    rw [hu c hcin, ← h6]
    unfold dRead
    refine read_congr hn _ fun k hk => ?_
    rw [(inBox_rel k1 (c := c) (fun k hk => by rw [k2, k4]; exact asD_box.mpr (by rw [hdim]; exact hcin) k hk)).2 k hk, k2]
    simp [asD]

/-! ## examples -/

/-- effect on a single file -/
def patch (f : File B) (op : WOp B) : File B := fun i => if op.off ≤ i ∧ i < op.off + op.bytes.length then op.bytes[i - op.off]? else f i

theorem applyOps_patch (name : String) (ops : List (WOp B)) (h : ∀ op ∈ ops, op.name = name) (fs : Files B) : applyOps fs ops name = ops.foldl patch (fs name) := by
  induction ops generalizing fs with
  | nil => rfl
  | cons op ops ih =>
    show applyOps (applyOp fs op) ops name = _
    rw [ih (fun op' h' => h op' (List.mem_cons_of_mem _ h')), List.foldl_cons]
    congr 1
    funext i
    simp only [applyOp, patch, h op (List.mem_cons_self ..), true_and]

/-- integers as bytes, cells with padding -/
def intFmt (n : Nat) (extent : Nat) : Fmt Int Int :=
  ⟨⟨n + 1, n + 1, id, id⟩, ⟨1, 1, fun m => [(m : Int)], fun l => (l.getD 0 0).toNat⟩, ⟨1, extent, fun v => [v], fun l => l.getD 0 0⟩⟩

theorem intFmt_ok (n extent : Nat) (dims : Crd) : FmtOK n (intFmt n extent) dims :=
  ⟨rfl, rfl, ⟨by simp [intFmt, dimList], rfl⟩, fun _ => ⟨rfl, rfl⟩⟩

theorem intFmt_uint (n extent m : Nat) : Stores (intFmt n extent).uintT m := ⟨rfl, by simp [intFmt]⟩

/-- four cells -/
def four : Grid Int := ⟨fun _ => 4, [10, 11, 12, 13], -1⟩

theorem four_ok : GridOK 0 four := ⟨fun _ _ => by simp [four], by decide⟩

/-- the last two of the four cells -/
def lastTwo : DGrid Int := ⟨⟨fun _ => 2, [12, 13], -1⟩, fun _ => 2, fun _ => 4⟩

theorem lastTwo_ok : DGridOK 0 (fun _ => false) lastTwo := ⟨⟨fun _ _ => by simp [lastTwo], by decide⟩, fun _ _ => by simp [lastTwo], fun _ _ h => by simp at h⟩

def idx02 : Idx := fun k => if k = 0 then [(0, 2)] else []
def idx24 : Idx := fun k => if k = 0 then [(2, 4)] else []

theorem idx02_ok : RegOK 0 idx02 ∧ ∀ c, RMem 0 idx02 c ↔ U 0 [⟨fun _ => 0, 2⟩] c := regLit 0 [⟨fun _ => 0, 2⟩] idx02 (by decide)
theorem idx24_ok : RegOK 0 idx24 ∧ ∀ c, RMem 0 idx24 c ↔ U 0 [⟨fun _ => 2, 4⟩] c := regLit 0 [⟨fun _ => 2, 4⟩] idx24 (by decide)

theorem mem02 (c : Crd) : RMem 0 idx02 c ↔ 0 ≤ c 0 ∧ c 0 < 2 := by
  rw [idx02_ok.2]; simp [U, SMem]; omega
theorem mem24 (c : Crd) : RMem 0 idx24 c ↔ 2 ≤ c 0 ∧ c 0 < 4 := by
  rw [idx24_ok.2]; simp [U, SMem]; omega

/-- process 0 hands over half of a grid, process 1 a displaced grid -/
def twoCalls : List (Call Int) :=
  [⟨1, dispSource 0 (fun _ => false) lastTwo, idx24, 6, .regular⟩, ⟨0, gridSource 0 (fun _ => false) four, idx02, 6, .regular⟩]

theorem four_read (c : Crd) (hc : InDim 0 (fun _ => 4) c) : gridRead 0 (fun _ => false) four c = some (10 + c 0) := by
  obtain ⟨h1, h2⟩ := hc 0 (by omega)
  simp only at h1 h2
  have : c 0 = 0 ∨ c 0 = 1 ∨ c 0 = 2 ∨ c 0 = 3 := by omega
  have e : gridRead 0 (fun _ => false) four c = gridRead 0 (fun _ => false) four (fun _ => c 0) := read_congr (by omega) _ fun k hk => by
    obtain rfl : k = 0 := by omega
    rfl
  rw [e]
  rcases this with h | h | h | h <;> rw [h] <;> decide

theorem lastTwo_read (c : Crd) (hc : 2 ≤ c 0 ∧ c 0 < 4) : dRead 0 (fun _ => false) true lastTwo c = some (10 + c 0) := by
  have : c 0 = 2 ∨ c 0 = 3 := by omega
  have e : dRead 0 (fun _ => false) true lastTwo c = dRead 0 (fun _ => false) true lastTwo (fun _ => c 0) := by
    unfold dRead
    refine read_congr (by omega) _ fun k hk => ?_
    obtain rfl : k = 0 := by omega
    simp only [dRel, topoNormalize, outOfBounds, Nat.zero_add, List.range_one, List.any_cons, List.any_nil, if_true]
    split <;> rfl
  rw [e]
  rcases this with h | h <;> rw [h] <;> decide

theorem twoCalls_valid : ∀ c ∈ twoCalls, c.Valid 0 (fun _ => 4) (fun _ c => 10 + c 0) (-1) ∧ Stores (intFmt 0 1).uintT c.step := by
  intro c hc
  refine ⟨?_, intFmt_uint ..⟩
  simp only [twoCalls, List.mem_cons, List.not_mem_nil, or_false] at hc
  rcases hc with rfl | rfl
  · refine ⟨idx24_ok.1, fun x hx k hk => ?_, fun s hs hx => ?_, rfl⟩
    · obtain rfl : k = 0 := by omega
      have := (mem24 x).mp hx
      show 0 ≤ x 0 ∧ x 0 < 4
      omega
    · refine dispSource_get (by omega) lastTwo_ok hs (fun x hxs k hk => ?_) fun x hxs => lastTwo_read x ((mem24 x).mp (hx x hxs))
      obtain rfl : k = 0 := by omega
      have := (mem24 x).mp (hx x hxs); simp only [lastTwo]; omega
  · have hin : ∀ x, RMem 0 idx02 x → InDim 0 (fun _ => 4) x := by
      intro x hx k hk
      obtain rfl : k = 0 := by omega
      have := (mem02 x).mp hx
      show 0 ≤ x 0 ∧ x 0 < 4
      omega
    exact ⟨idx02_ok.1, hin, fun s hs hx => gridSource_get (by omega) four_ok hs (fun x hxs => hin x (hx x hxs)) fun x hxs => four_read x (hin x (hx x hxs)), rfl⟩

/-- non-vacuity: two processes write step 6 with period 3, a grid of the three cells 1..3 is restored -/
example : ∃ opss, twoCalls.mapM (Call.ops 0 (fun _ => false) (intFmt 0 1) "snap" 3 100 fun _ => 4) = some opss ∧ ∀ (fs : Files Int) (ops : List (WOp Int)), ops.Perm opss.flatten →
    ∃ d', initGrid 0 (fun _ => false) (intFmt 0 1) (applyOps fs ops (mpiioName "snap" 6)) 9 ⟨⟨fun _ => 3, [0, 0, 0], 0⟩, fun _ => 1, fun _ => 4⟩ = some d' ∧
      d'.delegate.edge = -1 ∧ dRead 0 (fun _ => false) true d' (fun _ => 1) = some 11 ∧ dRead 0 (fun _ => false) true d' (fun _ => 3) = some 13 := by
  obtain ⟨opss, e, h⟩ := checkpoint_restart_partial (wraps := fun _ => false) (n := 0) (by omega) (fun _ => 4) (fun _ _ => by omega) (intFmt 0 1) (intFmt_ok ..) rfl "snap" 3 100
    (fun _ c => 10 + c 0) (fun _ a b h => by simp only [h 0 (le_refl _)]) (-1) twoCalls (intFmt_uint ..) twoCalls_valid
  refine ⟨opss, e, fun fs ops hp => ?_⟩
  obtain ⟨_, h2⟩ := h fs ops hp 6 ⟨_, List.mem_cons_of_mem _ (List.mem_cons_self ..), rfl, fun _ => rfl, rfl⟩ (fun x hx => by
    obtain ⟨h1, h2⟩ := hx 0 (by omega)
    by_cases hlt : x 0 < 2
    · exact ⟨_, List.mem_cons_of_mem _ (List.mem_cons_self ..), rfl, fun _ => rfl, (mem02 x).mpr ⟨h1, hlt⟩⟩
    · exact ⟨_, List.mem_cons_self .., rfl, fun _ => rfl, (mem24 x).mpr ⟨by omega, h2⟩⟩)
  obtain ⟨d', e1, e2, e3⟩ := h2 ⟨⟨fun _ => 3, [0, 0, 0], 0⟩, fun _ => 1, fun _ => 4⟩ ⟨⟨fun _ _ => by simp, by decide⟩, fun _ _ => by simp, fun _ _ h => by simp at h⟩
    (fun _ _ h => by simp at h) (fun _ _ _ => by simp) ⟨0, by simp, by simp⟩ 9 (by decide)
  refine ⟨d', e1, e2, ?_, ?_⟩
  · rw [e3 _ fun k _ => by simp]; rfl
  · rw [e3 _ fun k _ => by simp]; rfl

/-- non-vacuity: cells with padding -/
example : ∃ ops, mpiioSerialStepFinished 0 (fun _ => true) (intFmt 0 3) "snap" 5 100 four 7 .initialized 9 = some ops ∧
    ∃ g', initSerialGrid 0 (fun _ => true) (intFmt 0 3) (applyOps (fun _ _ => none) ops (mpiioName "snap" 7)) 9 ⟨fun _ => 4, [0, 0, 0, 0], 0⟩ = some g' ∧
      gridRead 0 (fun _ => true) g' (fun _ => 2) = some 12 ∧ g'.edge = -1 := by
  obtain ⟨ops, e, h⟩ := serial_roundtrip (wraps := fun _ => true) (n := 0) (by omega) (intFmt 0 3) four four_ok (intFmt_ok ..) (by decide) "snap" 5 100 7 .initialized (fun h => by cases h)
    (intFmt_uint ..) (intFmt_uint ..) 9 (by decide)
  obtain ⟨_, _, h3⟩ := h fun _ _ => none
  obtain ⟨g', e1, _, _, e4, e5⟩ := h3 ⟨fun _ => 4, [0, 0, 0, 0], 0⟩ ⟨fun _ _ => by simp, by decide⟩ rfl
  exact ⟨ops, e, g', e1, by rw [e5 _ fun k _ => by simp [four]]; decide, e4⟩

/-! ## the code deviates -/

/-- a torus of 3 × 2 cells, numbered -/
def torus : Grid Int := ⟨fun k => if k = 0 then 3 else 2, [0, 1, 2, 3, 4, 5], -1⟩

/-- part of the torus, across its border -/
def across : DGrid Int := ⟨⟨fun k => if k = 0 then 2 else 1, [9, 9], 9⟩, fun k => if k = 0 then 2 else 0, fun k => if k = 0 then 3 else 2⟩

/-- **C50, deviation.** A process whose part of the grid crosses the periodic border in x direction is initialized with cells of the next row: only the origins of
the streaks are normalized. -/
theorem restart_partial_negation :
    ∃ (d : DGrid Int) (g : Grid Int), GridOK 1 g ∧ DGridOK 1 (fun _ => true) d ∧ (∀ k, k ≤ 1 → d.topo k = g.dim k) ∧ Stored 1 (fun _ => true) d (fun _ => 0) ∧
      gridRead 1 (fun _ => true) g (fun _ => 0) = some 0 ∧
      ∃ ops, mpiioSerialStepFinished 1 (fun _ => true) (intFmt 1 1) "snap" 1 100 g 0 .initialized 9 = some ops ∧
        (initGrid 1 (fun _ => true) (intFmt 1 1) (applyOps (fun _ _ => none) ops (mpiioName "snap" 0)) 9 d).bind (fun d' => dRead 1 (fun _ => true) true d' (fun _ => 0)) = some 3 := by
  refine ⟨across, torus, ⟨fun k _ => by simp only [torus]; split <;> omega, by decide⟩, ⟨⟨fun k _ => by simp only [across]; split <;> omega, by decide⟩, fun k _ => by simp only [across]; split <;> omega,
    fun k _ _ => by simp only [across]; split <;> omega⟩, fun k _ => rfl, ⟨?_, ?_⟩, by decide,
    [⟨mpiioName "snap" 0, 0, [3, 2]⟩, ⟨mpiioName "snap" 0, 2, [0]⟩, ⟨mpiioName "snap" 0, 3, [100]⟩, ⟨mpiioName "snap" 0, 4, [-1]⟩, ⟨mpiioName "snap" 0, 5, [0, 1, 2]⟩,
      ⟨mpiioName "snap" 0, 8, [3, 4, 5]⟩], rfl, ?_⟩
  · intro k hk
    simp only [across]
    split <;> omega
  · intro k hk
    have : k = 0 ∨ k = 1 := by omega
    rcases this with rfl | rfl <;> decide
  · rw [applyOps_patch _ _ (by simp)]
    decide +kernel

/-- **C50, deviation.** If cells have padding (`MPI_Type_size` is less than `MPI_Type_get_extent`), positions are computed from the extent, but cells are stored
densely within each streak: a process whose part of the grid starts elsewhere than those which were written receives wrong cells. -/
theorem padding_negation :
    ∃ (F : Fmt Int Int) (d : DGrid Int), FmtOK 0 F four.dim ∧ F.cellT.size < F.cellT.extent ∧ DGridOK 0 (fun _ => false) d ∧ (∀ c, C33.InBox 0 d c → InDim 0 four.dim c) ∧
      C33.InBox 0 d (fun _ => 1) ∧ gridRead 0 (fun _ => false) four (fun _ => 1) = some 11 ∧
      ∃ ops, mpiioSerialStepFinished 0 (fun _ => false) F "snap" 1 100 four 0 .initialized 9 = some ops ∧
        (initGrid 0 (fun _ => false) F (applyOps (fun _ _ => none) ops (mpiioName "snap" 0)) 9 d).bind (fun d' => dRead 0 (fun _ => false) true d' (fun _ => 1)) = some 12 := by
  refine ⟨intFmt 0 2, ⟨⟨fun _ => 2, [0, 0], 0⟩, fun _ => 1, fun _ => 4⟩, intFmt_ok .., by decide, ⟨⟨fun _ _ => by simp, by decide⟩, fun _ _ => by simp, fun _ _ h => by simp at h⟩,
    fun c hc k hk => ?_, fun k _ => by simp, by decide,
    [⟨mpiioName "snap" 0, 0, [4]⟩, ⟨mpiioName "snap" 0, 1, [0]⟩, ⟨mpiioName "snap" 0, 2, [100]⟩, ⟨mpiioName "snap" 0, 3, [-1]⟩, ⟨mpiioName "snap" 0, 5, [10, 11, 12, 13]⟩], rfl, ?_⟩
  · have := hc k hk
    simp only [four] at this ⊢
    omega
  · rw [applyOps_patch _ _ (by simp)]
    decide +kernel

/-- **C50, deviation.** `ParallelMPIIOWriter` of a process whose part of the grid crosses the periodic border accesses memory outside of the grid: the region which
is to be written is normalized, the grid's streak accessor does not normalize. -/
theorem parallel_snapshot_negation :
    ∃ (d : DGrid Int) (region : Idx), DGridOK 0 (fun _ => true) d ∧ RegOK 0 region ∧ (∀ c, RMem 0 region c → InDim 0 d.topo c ∧ Stored 0 (fun _ => true) d c) ∧
      mpiioStepFinished 0 (fun _ => true) (intFmt 0 1) "snap" 1 100 0 (dispSource 0 (fun _ => true) d) region d.topo 0 .initialized = none := by
  refine ⟨ring, idx02, ring_ok, idx02_ok.1, fun c hc => ?_, by rfl⟩
  have h := (mem02 c).mp hc
  refine ⟨fun k hk => ?_, ⟨fun k hk => ?_, fun k hk => ?_⟩⟩
  all_goals
    obtain rfl : k = 0 := by omega
    simp only [ring, if_true]
    omega

end LGD.C50
