import Verif.Hpx.DataflowModel
import Mathlib.Data.List.Nodup
import Mathlib.Tactic.Ring

/-! # Invariant of the dataflow simulator -/

namespace LGD.Dataflow

variable {C M : Type}

theorem put2_self {α β γ : Type} [DecidableEq α] [DecidableEq β] (f : α → β → γ) (a b v) :
    put2 f a b v a b = v := by simp [put2]

theorem put2_ne {α β γ : Type} [DecidableEq α] [DecidableEq β] (f : α → β → γ) {a b v x y}
    (h : ¬ (x = a ∧ y = b)) : put2 f a b v x y = f x y := by simp [put2, h]

theorem put3_self {α β γ δ : Type} [DecidableEq α] [DecidableEq β] [DecidableEq γ]
    (f : α → β → γ → δ) (a b c v) : put3 f a b c v a b c = v := by simp [put3]

theorem put3_ne {α β γ δ : Type} [DecidableEq α] [DecidableEq β] [DecidableEq γ]
    (f : α → β → γ → δ) {a b c v x y z} (h : ¬ (x = a ∧ y = b ∧ z = c)) :
    put3 f a b c v x y z = f x y z := by simp [put3, h]

namespace Sim

variable (P : Sim C M)

/-- The synchronous simulation: the states of all cells after `t` global nano steps, and the
message from `j` to `i` which is consumed in the next one. -/
def ref : Nat → (Int → C) × (Int → Int → M)
  | 0 => (P.init, fun _ _ => P.dflt)
  | t + 1 =>
    let r : Int → C × List (Int × M) := fun i =>
      P.upd i (t % P.ns) (t / P.ns) ((ref t).1 i)
        (fun j => if j ∈ P.nbr i then some ((ref t).2 j i) else none)
    (fun i => (r i).1, fun j i => ((r j).2.lookup i).getD P.dflt)

/-- what the update of cell `i` at global nano step `t` returns in the synchronous simulation -/
def refResult (t : Nat) (i : Int) : C × List (Int × M) :=
  P.upd i (t % P.ns) (t / P.ns) ((P.ref t).1 i)
    (fun j => if j ∈ P.nbr i then some ((P.ref t).2 j i) else none)

theorem ref_succ_cell (t i) : (P.ref (t + 1)).1 i = (P.refResult t i).1 := rfl

theorem ref_succ_msg (t j i) :
    (P.ref (t + 1)).2 j i = ((P.refResult t j).2.lookup i).getD P.dflt := rfl

/-- number of global nano steps -/
def T : Nat := P.maxSteps * P.ns

/-- Simulations for which the simulator is meant. -/
structure Valid : Prop where
  hc : 0 < P.c
  hns : 0 < P.ns
  /-- the localities share out the cells, and each of them gets some -/
  nodup : P.cells.Nodup
  ne : ∀ l < P.L, P.own l ≠ []
  /-- links exist in both directions -/
  sym : ∀ i ∈ P.cells, ∀ j ∈ P.nbr i, j ∈ P.cells ∧ i ∈ P.nbr j
  nnd : ∀ i ∈ P.cells, (P.nbr i).Nodup
  /-- updates send to neighbors only, at most one message each -/
  send : ∀ i ∈ P.cells, ∀ t < P.T, ∀ p ∈ (P.refResult t i).2, p.1 ∈ P.nbr i
  once : ∀ i ∈ P.cells, ∀ t < P.T, ((P.refResult t i).2.map Prod.fst).Nodup

def expBuf (g d : Bool) (m : M) : Entry M :=
  match g, d with
  | false, false => .absent
  | true, false => .promised
  | false, true => .stored m
  | true, true => .absent

def expFut (g d : Bool) (m : M) : Fut M :=
  match g, d with
  | false, _ => .none
  | true, false => .pending
  | true, true => .ready m

/-- Auxiliary state: number of updates of each cell; whether the message for (receiver, sender,
step) has arrived; whether its future was requested. -/
structure Gh where
  n : Int → Nat
  d : Int → Int → Nat → Bool
  g : Int → Int → Nat → Bool

/-- `setupDataflow` is past the request for step `t`, neighbor number `k` -/
def Asked (pc : SPc) (t k : Nat) : Prop :=
  match pc with
  | .idle => False
  | .launched => False
  | .run t' k' => t < t' ∨ t = t' ∧ k < k'
  | .done => True

/-- `setupDataflow` has created the dataflow object of step `t` -/
def Armed (pc : SPc) (t : Nat) : Prop :=
  match pc with
  | .idle => False
  | .launched => False
  | .run t' _ => t < t'
  | .done => True

/-- the locality has launched chunk `q` of its cell number `k` -/
def Past (pc : MPc) (q k : Nat) : Prop :=
  match pc with
  | .head q' => q < q'
  | .launch q' k' => q < q' ∨ q = q' ∧ k < k'
  | .sem q' => q ≤ q'
  | .wait q' => q < q'
  | .ret q' => q < q'

/-- the locality has attached the continuation of chunk `q` -/
def Att (pc : MPc) (q : Nat) : Prop :=
  match pc with
  | .head q' => q < q'
  | .launch q' _ => q < q'
  | .sem q' => q ≤ q'
  | .wait q' => q < q'
  | .ret q' => q < q'

def MainOK (l : Nat) (pc : MPc) : Prop :=
  match pc with
  | .head q => ∀ q' < q, P.more q'
  | .launch q k => P.more q ∧ k ≤ (P.own l).length
  | .sem q => P.more q
  | .wait q => ¬ P.more q ∧ ∀ q' < q, P.more q'
  | .ret q => ¬ P.more q ∧ ∀ q' < q, P.more q'

def SetupOK (i : Int) (q : Nat) (pc : SPc) : Prop :=
  match pc with
  | .run t k => P.startT q ≤ t ∧ t ≤ P.endT q ∧ k ≤ (P.nbr i).length ∧ (t = P.endT q → k = 0)
  | _ => True

structure Inv (s : St C M) (G : Gh) : Prop where
  bad : s.bad = none ∨ s.bad = some .dangling
  reg : ∀ i, s.regd i ≤ (P.nbr i).length
  ran : ∀ i ∈ P.cells, ∀ t, s.ran i t = true ↔ t < G.n i
  nT : ∀ i ∈ P.cells, G.n i ≤ P.T
  cell : ∀ i ∈ P.cells, s.cell i = (P.ref (G.n i)).1 i
  dlt : ∀ i j t, G.d i j t = true → 1 ≤ t ∧ t ≤ G.n j
  netIff : ∀ i ∈ P.cells, ∀ j ∈ P.nbr i, ∀ t,
    (∃ m ∈ s.net, m.dst = i ∧ m.src = j ∧ m.t = t) ↔ 1 ≤ t ∧ t ≤ G.n j ∧ G.d i j t = false
  netOK : ∀ m ∈ s.net, m.dst ∈ P.cells ∧ m.src ∈ P.nbr m.dst ∧ m.val = (P.ref m.t).2 m.src m.dst
  netNd : (s.net.map fun m => (m.dst, m.src, m.t)).Nodup
  bufE : ∀ i ∈ P.cells, ∀ j ∈ P.nbr i, ∀ t, 1 ≤ t →
    s.buf i j t = expBuf (G.g i j t) (G.d i j t) ((P.ref t).2 j i)
  futE : ∀ i ∈ P.cells, ∀ j ∈ P.nbr i, ∀ t, 1 ≤ t →
    s.fut i j t = expFut (G.g i j t) (G.d i j t) ((P.ref t).2 j i)
  futZ : ∀ i ∈ P.cells, ∀ j ∈ P.nbr i, s.fut i j 0 = expFut (G.g i j 0) true P.dflt
  asked : ∀ i ∈ P.cells, ∀ k j, (P.nbr i)[k]? = some j → ∀ q t, P.startT q ≤ t → t < P.endT q →
    (G.g i j t = true ↔ Asked (s.setup i q) t k)
  armed : ∀ i ∈ P.cells, ∀ q t, P.startT q ≤ t → t < P.endT q →
    (s.armed i t = true ↔ Armed (s.setup i q) t)
  setupOK : ∀ i ∈ P.cells, ∀ q, P.SetupOK i q (s.setup i q)
  past : ∀ l < P.L, ∀ k i, (P.own l)[k]? = some i → ∀ q, s.setup i q ≠ .idle ↔ Past (s.main l) q k
  mainOK : ∀ l < P.L, P.MainOK l (s.main l)
  retDone : ∀ l < P.L, ∀ q, s.main l = .ret q → ∀ i ∈ P.own l, G.n i = P.T
  att : ∀ l < P.L, ∀ q, s.att l q = true ↔ Att (s.main l) q
  sigLow : ∀ l < P.L, ∀ q, s.sig l q = true → q * P.c ≤ s.lower l

theorem inv_start : P.Inv P.start ⟨fun _ => 0, fun _ _ _ => false, fun _ _ _ => false⟩ where
  bad := Or.inl rfl
  reg := fun _ => Nat.zero_le _
  ran := fun _ _ t => by simp [start]
  nT := fun _ _ => Nat.zero_le _
  cell := fun _ _ => rfl
  dlt := fun _ _ _ h => by simp at h
  netIff := fun _ _ _ _ t => by simp [start]; omega
  netOK := fun m h => by simp [start] at h
  netNd := by simp [start]
  bufE := fun _ _ _ _ _ _ => rfl
  futE := fun _ _ _ _ _ _ => rfl
  futZ := fun _ _ _ _ => rfl
  asked := fun _ _ _ _ _ _ _ _ _ => by simp [start, Asked]
  armed := fun _ _ _ _ _ _ => by simp [start, Armed]
  setupOK := fun _ _ _ => trivial
  past := fun _ _ _ _ _ q => by simp [start, Past]
  mainOK := fun _ _ => by intro q' h; simp at h
  retDone := fun _ _ q h => by simp [start] at h
  att := fun _ _ q => by simp [start, Att]
  sigLow := fun _ _ q h => by simp [start] at h

/-! ## Chunks -/

theorem startT_succ (q : Nat) : P.startT (q + 1) = (q * P.c + P.c) * P.ns := by
  unfold startT; ring

variable {P}

theorem more_of_chunk {q t : Nat} (h1 : P.startT q ≤ t) (h2 : t < P.endT q) : P.more q := by
  unfold startT at h1; unfold endT at h2; unfold more
  by_contra hc
  have : min P.maxSteps (q * P.c + P.c) * P.ns ≤ q * P.c * P.ns :=
    Nat.mul_le_mul_right _ (by omega)
  omega

theorem more_mono {q q' : Nat} (h : P.more q) (hq : q' ≤ q) : P.more q' := by
  unfold more at *
  exact lt_of_le_of_lt (Nat.mul_le_mul_right _ hq) h

theorem endT_of_more {q : Nat} (h : P.more (q + 1)) : P.endT q = P.startT (q + 1) := by
  rw [startT_succ]; unfold endT; unfold more at h
  rw [Nat.min_eq_right]
  have : (q + 1) * P.c = q * P.c + P.c := by ring
  omega

theorem endT_le_T (q : Nat) : P.endT q ≤ P.T :=
  Nat.mul_le_mul_right _ (Nat.min_le_left _ _)

theorem endT_last {q : Nat} (h : ¬ P.more (q + 1)) : P.endT q = P.T := by
  unfold endT T; unfold more at h
  have : (q + 1) * P.c = q * P.c + P.c := by ring
  rw [Nat.min_eq_left (by omega)]

theorem chunk_pos (hv : P.Valid) {q : Nat} (h : P.more q) : P.startT q < P.endT q := by
  unfold startT endT; unfold more at h
  exact Nat.mul_lt_mul_of_pos_right (by have := hv.hc; omega) hv.hns

theorem T_zero_of_not_more (h : ¬ P.more 0) : P.T = 0 := by
  unfold more at h; unfold T
  have : P.maxSteps = 0 := by simpa using h
  simp [this]

theorem chunk_exists (hv : P.Valid) {t : Nat} (h : t < P.T) :
    ∃ q, P.startT q ≤ t ∧ t < P.endT q := by
  have hpos : 0 < P.c * P.ns := Nat.mul_pos hv.hc hv.hns
  refine ⟨t / (P.c * P.ns), ?_, ?_⟩
  · unfold startT
    rw [mul_assoc]; exact Nat.div_mul_le_self _ _
  · unfold endT T at *
    rw [Nat.min_def]
    split
    · exact h
    · have := Nat.lt_div_mul_add hpos (a := t)
      calc t < t / (P.c * P.ns) * (P.c * P.ns) + P.c * P.ns := this
        _ = (t / (P.c * P.ns) * P.c + P.c) * P.ns := by ring

/-- chunks don't overlap -/
theorem chunk_unique {q q' t : Nat} (h1 : P.startT q ≤ t) (h2 : t < P.endT q)
    (h1' : P.startT q' ≤ t) (h2' : t < P.endT q') : q = q' := by
  have key : ∀ a b, P.startT a ≤ t → t < P.endT a → P.startT b ≤ t → t < P.endT b → ¬ a < b := by
    intro a b _ ha hb hb' hab
    have hm := more_mono (more_of_chunk hb hb') (q' := a + 1) hab
    have := endT_of_more hm
    have : P.startT (a + 1) ≤ P.startT b :=
      Nat.mul_le_mul_right _ (Nat.mul_le_mul_right _ hab)
    omega
  rcases Nat.lt_trichotomy q q' with h | h | h
  · exact absurd h (key _ _ h1 h2 h1' h2')
  · exact h
  · exact absurd h (key _ _ h1' h2' h1 h2)

theorem chunkReady_iff (hv : P.Valid) {s : St C M} {i : Int} {q : Nat} (h : P.more q) :
    P.chunkReady s i q ↔ s.setup i q = .done ∧ s.ran i (P.endT q - 1) = true := by
  have := chunk_pos hv h
  cases q with
  | zero => simp only [chunkReady, this, true_implies]
  | succ q => simp only [chunkReady, this, if_true]

theorem mem_cells {i : Int} : i ∈ P.cells ↔ ∃ l < P.L, i ∈ P.own l := by
  simp [cells, List.mem_flatMap, List.mem_range]

theorem own_unique (hv : P.Valid) {l l' : Nat} (hl : l < P.L) (hl' : l' < P.L) {i : Int}
    {k k' : Nat} (h : (P.own l)[k]? = some i) (h' : (P.own l')[k']? = some i) :
    l = l' ∧ k = k' := by
  have hnd := hv.nodup
  unfold cells at hnd
  rw [List.nodup_flatMap] at hnd
  have hll : l = l' := by
    by_contra hne
    have hp := hnd.2
    have hd : Function.onFun List.Disjoint P.own l l' := by
      rcases Nat.lt_or_gt_of_ne hne with hlt | hlt
      · have := List.pairwise_iff_getElem.1 hp l l' (by simpa) (by simpa) hlt
        simpa using this
      · have := List.pairwise_iff_getElem.1 hp l' l (by simpa) (by simpa) hlt
        simp only [List.getElem_range] at this
        exact fun a h1 h2 => this h2 h1
    exact hd (List.mem_of_getElem? h) (List.mem_of_getElem? h')
  subst hll
  refine ⟨rfl, ?_⟩
  have hn := hnd.1 l (by simpa using hl)
  obtain ⟨a, ha⟩ := List.getElem?_eq_some_iff.1 h
  obtain ⟨b, hb⟩ := List.getElem?_eq_some_iff.1 h'
  exact (hn.getElem_inj_iff).1 (ha.trans hb.symm)

/-! ## What an update sends -/

theorem outgoing_keys (i : Int) {sent : List (Int × M)} (h : ∀ p ∈ sent, p.1 ∈ P.nbr i) (j : Int) :
    (∃ p ∈ P.outgoing i sent, p.1 = j) ↔ j ∈ P.nbr i := by
  unfold outgoing
  constructor
  · rintro ⟨p, hp, rfl⟩
    rcases List.mem_append.1 hp with hp | hp
    · exact h p hp
    · obtain ⟨j, hj, rfl⟩ := List.mem_map.1 hp
      exact (List.mem_filter.1 hj).1
  · intro hj
    by_cases hc : j ∈ sent.map Prod.fst
    · obtain ⟨p, hp, rfl⟩ := List.mem_map.1 hc
      exact ⟨p, List.mem_append_left _ hp, rfl⟩
    · refine ⟨(j, P.dflt), List.mem_append_right _ (List.mem_map.2 ⟨j, ?_, rfl⟩), rfl⟩
      simp only [List.mem_filter, hj, true_and]
      simpa using hc

theorem outgoing_nodup (i : Int) (hn : (P.nbr i).Nodup) {sent : List (Int × M)}
    (h : (sent.map Prod.fst).Nodup) : ((P.outgoing i sent).map Prod.fst).Nodup := by
  unfold outgoing
  rw [List.map_append, List.nodup_append']
  refine ⟨h, ?_, ?_⟩
  · simp only [List.map_map]
    have : (Prod.fst ∘ fun j : Int => (j, P.dflt)) = id := rfl
    rw [this, List.map_id]
    exact hn.filter _
  · intro a ha hb
    simp only [List.map_map, List.mem_map, List.mem_filter, Function.comp] at hb
    obtain ⟨j, ⟨_, hj⟩, rfl⟩ := hb
    simp only [Bool.not_eq_true', ← Bool.not_eq_true, List.contains_iff_mem] at hj
    exact hj ha

theorem lookup_of_mem {l : List (Int × M)} (h : (l.map Prod.fst).Nodup) {p : Int × M}
    (hp : p ∈ l) : l.lookup p.1 = some p.2 := by
  induction l with
  | nil => simp at hp
  | cons a l ih =>
    simp only [List.map_cons, List.nodup_cons] at h
    rcases List.mem_cons.1 hp with rfl | hp
    · simp [List.lookup]
    · have : p.1 ≠ a.1 := fun e => h.1 (e ▸ List.mem_map_of_mem hp)
      rw [show a = (a.1, a.2) from rfl, List.lookup_cons]
      simp only [beq_eq_false_iff_ne.2 this]
      exact ih h.2 hp

theorem lookup_none {l : List (Int × M)} {j : Int} (h : j ∉ l.map Prod.fst) :
    l.lookup j = none := by
  induction l with
  | nil => rfl
  | cons a l ih =>
    simp only [List.map_cons, List.mem_cons, not_or] at h
    rw [show a = (a.1, a.2) from rfl, List.lookup_cons]
    simp only [beq_eq_false_iff_ne.2 h.1]
    exact ih h.2

theorem outgoing_val (i : Int) {sent : List (Int × M)} (h : (sent.map Prod.fst).Nodup)
    {p : Int × M} (hp : p ∈ P.outgoing i sent) : p.2 = (sent.lookup p.1).getD P.dflt := by
  unfold outgoing at hp
  rcases List.mem_append.1 hp with hp | hp
  · rw [lookup_of_mem h hp]; rfl
  · obtain ⟨j, hj, rfl⟩ := List.mem_map.1 hp
    have hj := (List.mem_filter.1 hj).2
    simp only [Bool.not_eq_true', ← Bool.not_eq_true, List.contains_iff_mem] at hj
    rw [lookup_none hj]; rfl

theorem outgoing_length (i : Int) (hn : (P.nbr i).Nodup) {sent : List (Int × M)}
    (h : (sent.map Prod.fst).Nodup) (hs : ∀ p ∈ sent, p.1 ∈ P.nbr i) :
    (P.outgoing i sent).length = (P.nbr i).length := by
  have hp : ((P.outgoing i sent).map Prod.fst).Perm (P.nbr i) := by
    rw [List.perm_ext_iff_of_nodup (outgoing_nodup i hn h) hn]
    intro j
    rw [← outgoing_keys i hs j]
    simp
  simpa using hp.length_eq

end Sim

end LGD.Dataflow
