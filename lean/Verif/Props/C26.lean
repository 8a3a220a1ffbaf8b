import Verif.Step.VanillaModel
import Verif.Patch.PatchLemmas
import Verif.Props.C28
import Mathlib.Tactic.Ring
import Mathlib.Tactic.Linarith

/-!
# C26: the stepper computes what a serial simulation computes

`u s c` is the serial reference: the cell `c` at nano step `s`, before steering; `v s c` is the same cell after steering.
-/

namespace LGD.C26
open LGD.Patch LGD.Step LGD.Adapter

variable {κ α : Type} [DecidableEq κ]

/-- first nano step of the simulation -/
def t0 (E : Env κ α) : Nat := E.startStep * E.nanoSteps

/-- what the steerers do to a cell at nano step `s`: those which are due (see C27, C28), in the order in which they were added -/
def steering (nanoSteps startStep lastStep : Nat) (fs : List (Steerer κ α)) (s : Nat) (c : κ) (x : α) : α :=
  fs.foldl (fun x f => match C27.due nanoSteps f.period startStep lastStep s with | some (t, ev) => f.act t ev c x | none => x) x

/-- The serial simulation on the cells `area`: it starts with the initial grid, each nano step is preceded by steering and applies
the cell update function to the previous state everywhere. -/
structure Serial (E : Env κ α) (area : κ → Prop) (u v : Nat → κ → α) : Prop where
  init : ∀ c, area c → u (t0 E) c = E.initial c
  steered : ∀ s, t0 E ≤ s → ∀ c, area c → v s c = steering E.nanoSteps E.startStep E.lastStep E.steerers s c (u s c)
  step : ∀ s, t0 E ≤ s → ∀ c, area c → u (s + 1) c = E.upd (s % E.nanoSteps) (v s) c

/-- What writers are shown: the initial grid is steered before, later grids after the output. -/
def sh (E : Env κ α) (u v : Nat → κ → α) (s : Nat) : κ → α := if s = t0 E then v s else u s

/-- periods are positive, the simulation does not end before it begins -/
def SteerOK (E : Env κ α) : Prop := ∀ f ∈ E.steerers, 0 < f.period ∧ E.startStep ≤ E.lastStep

/-- The regions fit together, as C22 proves of the partition manager: `own` consists of rim and kernel, each set has its
one-step neighborhood in the next larger one, `outer` surrounds `own`. -/
structure RegionsFit (E : Env κ α) (own outer : κ → Prop) (nb : κ → κ → Prop) : Prop where
  width : 0 < E.W
  nano : 0 < E.nanoSteps
  rim_nodup : (E.rim E.W).Nodup
  vk_nodup : E.volatileKernel.Nodup
  own_iff : ∀ c, own c ↔ c ∈ E.rim E.W ∨ c ∈ E.inner E.W
  disjoint : ∀ c, c ∈ E.rim E.W → c ∉ E.inner E.W
  refl : ∀ c, nb c c
  rim_step : ∀ k, k < E.W → ∀ c d, c ∈ E.rim (k + 1) → nb c d → d ∈ E.rim k
  inner_step : ∀ k, k < E.W → ∀ c d, c ∈ E.inner (k + 1) → nb c d → d ∈ E.inner k
  inner_own : ∀ c, c ∈ E.inner 0 → own c
  rim_own : ∀ c, c ∈ E.rim 0 → own c ∨ outer c
  outer_own : ∀ c, outer c → ¬ own c
  vk : ∀ c, c ∈ E.volatileKernel ↔ c ∈ E.inner E.W ∧ c ∈ E.rim 0
  outer_iff : ∀ c, c ∈ E.outerRim ↔ outer c
  ownRegion_iff : ∀ c, c ∈ E.ownRegion ↔ own c

/-- the update function only reads the neighborhood -/
def Local (E : Env κ α) (nb : κ → κ → Prop) : Prop :=
  ∀ n (g h : κ → α) c, (∀ d, nb c d → g d = h d) → E.upd n g c = E.upd n h c

/-- Patch links before nano step `T`: they write nothing but correct data to the outer ghost zone, nothing at the start, and at each
synchronisation point after the start they fill all of it. -/
structure ProvOK (E : Env κ α) (outer : κ → Prop) (u : Nat → κ → α) (T : Nat) : Prop where
  frame : ∀ s, s < T → ∀ g c, ¬ outer c → E.prov s g c = g c
  start : ∀ g c, outer c → E.prov (t0 E) g c = g c
  sound : ∀ s, t0 E < s → s < T → ∀ g c, outer c → E.prov s g c = g c ∨ E.prov s g c = u s c
  sync : ∀ m, 0 < m → t0 E + m * E.W < T → ∀ g c, outer c → E.prov (t0 E + m * E.W) g c = u (t0 E + m * E.W) c

/-- what the accepters for the rim were shown -/
def ghosts : List (Ev κ α) → List (Nat × (κ → α)) := List.filterMap fun e => match e with | .ghost s g => some (s, g) | _ => none

/-- what the accepters for the kernel were shown -/
def inners : List (Ev κ α) → List (Nat × (κ → α)) := List.filterMap fun e => match e with | .inner s g => some (s, g) | _ => none

/-- the grids were shown for the `n` nano steps `a, a + 1, …`, once each and in this order, and agree with `u` on `r` -/
def Shown (u : Nat → κ → α) (r : List κ) (a n : Nat) (l : List (Nat × (κ → α))) : Prop :=
  l.map (·.1) = (List.range n).map (a + ·) ∧ ∀ p ∈ l, ∀ c ∈ r, p.2 c = u p.1 c

variable {E : Env κ α} {own outer : κ → Prop} {nb : κ → κ → Prop} {u v : Nat → κ → α}

omit [DecidableEq κ] in
theorem Shown.append {r : List κ} {a n m : Nat} {l l' : List (Nat × (κ → α))} (h : Shown u r a n l) (h' : Shown u r (a + n) m l') :
    Shown u r a (n + m) (l ++ l') := by
  refine ⟨?_, ?_⟩
  · rw [List.map_append, h.1, h'.1, List.range_add, List.map_append, List.map_map]
    congr 1
    apply List.map_congr_left
    intro x _
    simp [Nat.add_assoc]
  · intro p hp
    rcases List.mem_append.mp hp with hp | hp
    · exact h.2 p hp
    · exact h'.2 p hp

omit [DecidableEq κ] in
theorem Shown.one {r : List κ} {a : Nat} {g : κ → α} (h : ∀ c ∈ r, g c = u a c) : Shown u r a 1 [(a, g)] := by
  refine ⟨by simp, ?_⟩
  intro p hp
  simp only [List.mem_singleton] at hp
  subst hp
  exact h

/-- the rim buffer holds exactly the rim at nano step `t` -/
def RimHolds (r : List κ) (u : Nat → κ → α) (b : PBF α) (t : Nat) : Prop :=
  b.req = [] ∧ b.stored = [t] ∧ b.indexRead < 2 ∧ b.indexWrite = (b.indexRead + 1) % 2 ∧ b.buffer b.indexRead = saveRegion r (u t)

/-- the rim buffer holds the rim at `t` and `t'` -/
def RimHolds2 (r : List κ) (u : Nat → κ → α) (b : PBF α) (t t' : Nat) : Prop :=
  b.req = [] ∧ b.stored = [t, t'] ∧ b.indexRead < 2 ∧ b.indexWrite = b.indexRead ∧ b.buffer b.indexRead = saveRegion r (u t) ∧
    b.buffer ((b.indexRead + 1) % 2) = saveRegion r (u t')

omit [DecidableEq κ] in
theorem save_congr {r : List κ} {g h : κ → α} (e : ∀ c ∈ r, g c = h c) : saveRegion r g = saveRegion r h := List.map_congr_left e

/-- the adapters were notified about all nano steps before `n` -/
def AInv (E : Env κ α) (lc : Bool) (n : Nat) (fs : List (Steerer κ α)) (as : List (SAd (List κ))) : Prop :=
  List.Forall₂ (fun f a => C28.SInv E.nanoSteps f.period E.startStep E.lastStep lc n a) fs as

omit [DecidableEq κ] in
theorem AInv.make (E : Env κ α) (lc : Bool) : AInv E lc (t0 E) E.steerers (adapters E lc) := by
  unfold AInv adapters
  rw [List.forall₂_map_right_iff, List.forall₂_same]
  exact fun f _ => C28.make_inv

/-- a notification for the next nano step lets the due steerers act on the region -/
theorem steer_at (hN : 0 < E.nanoSteps) (lc : Bool) (n : Nat) (r : List κ) (fs : List (Steerer κ α)) :
    ∀ (as : List (SAd (List κ))) (g : κ → α), (∀ f ∈ fs, 0 < f.period ∧ E.startStep ≤ E.lastStep) → AInv E lc n fs as →
    ∃ as' g', Step.steer E n r fs as g = some (as', g') ∧ AInv E lc (n + 1) fs as' ∧
      ∀ c, g' c = if c ∈ r then steering E.nanoSteps E.startStep E.lastStep fs n c (g c) else g c := by
  induction fs with
  | nil =>
    intro as g _ h
    cases h
    exact ⟨[], g, rfl, List.Forall₂.nil, fun c => by simp [steering]⟩
  | cons f fs ih =>
    intro as g hf h
    cases h with
    | cons h1 h2 =>
      rename_i a as
      obtain ⟨p1, p2⟩ := hf f (List.mem_cons_self ..)
      obtain ⟨a', e1, e2, e3⟩ := C28.notify_at hN p1 p2 E.inf n r a h1
      obtain ⟨as', g', e4, e5, e6⟩ := ih as ((a'.calls.drop a.calls.length).foldl (applyCall f) g)
        (fun f hf' => hf f (List.mem_cons_of_mem _ hf')) h2
      refine ⟨a' :: as', g', ?_, List.Forall₂.cons e2 e5, ?_⟩
      · unfold Step.steer
        rw [e1, Option.bind_some, e4]; rfl
      · intro c
        rw [e6, e3, List.drop_left]
        unfold steering
        rw [List.foldl_cons]
        cases hd : C27.due E.nanoSteps f.period E.startStep E.lastStep n with
        | none => simp
        | some q =>
          simp only [Option.map_some, Option.toList_some, List.foldl_cons, List.foldl_nil, applyCall]
          split <;> rfl

/-- further notifications for the same nano step have no effect -/
theorem steer_past (hN : 0 < E.nanoSteps) (lc : Bool) (n m : Nat) (hm : m < n) (r : List κ) (fs : List (Steerer κ α)) :
    ∀ (as : List (SAd (List κ))) (g : κ → α), (∀ f ∈ fs, 0 < f.period ∧ E.startStep ≤ E.lastStep) → AInv E lc n fs as →
    Step.steer E m r fs as g = some (as, g) := by
  induction fs with
  | nil => intro as g _ h; cases h; rfl
  | cons f fs ih =>
    intro as g hf h
    cases h with
    | cons h1 h2 =>
      rename_i a as
      obtain ⟨p1, p2⟩ := hf f (List.mem_cons_self ..)
      have e1 := C28.notify_past hN p1 p2 E.inf n m hm r a h1
      unfold Step.steer
      rw [e1, Option.bind_some, List.drop_length, List.foldl_nil, ih as g (fun f hf' => hf f (List.mem_cons_of_mem _ hf')) h2]
      rfl

/-- kind and nano step of an event -/
def tag : Ev κ α → Bool × Nat
  | .ghost s _ => (false, s)
  | .inner s _ => (true, s)

/-- an event for the rim -/
def mkGhost (p : Nat × (κ → α)) : Ev κ α := .ghost p.1 p.2

omit [DecidableEq κ] in
theorem ghosts_mk (l : List (Nat × (κ → α))) : ghosts (l.map mkGhost) = l := by
  induction l with
  | nil => rfl
  | cons p l ih => simpa [ghosts, mkGhost] using ih

omit [DecidableEq κ] in
theorem inners_mk (l : List (Nat × (κ → α))) : inners (l.map mkGhost) = [] := by
  induction l with
  | nil => rfl
  | cons p l ih => simpa [inners, mkGhost] using ih

/-- invariant of the loop in `updateGhost`, entered at nano step `t` -/
structure GInv (E : Env κ α) (own : κ → Prop) (u v : Nat → κ → α) (t : Nat) (s0 : St κ α) (i : Nat) (st : St κ α) : Prop where
  valid : st.valid = s0.valid
  rimB : st.rimB = s0.rimB
  kernelB : st.kernelB = s0.kernelB
  si : st.si = s0.si
  glob : glob E st = t + i
  nano : st.nano = (t + i) % E.nanoSteps
  sg : AInv E false (max (t + i) (t0 E + 1)) E.steerers st.sg
  rim : ∀ c ∈ E.rim i, (if i = 0 then E.prov t st.old c else st.old c) = sh E u v (t + i) c
  keep : ∀ c, own c → c ∉ E.rim 0 → (if i % 2 = 0 then st.old c else st.new c) = sh E u v t c
  log : ∃ l, st.log = s0.log ++ l.map mkGhost ∧ Shown (sh E u v) (E.rim E.W) (t + 1) i l

omit [DecidableEq κ] in
theorem incNano_glob (hn : 0 < E.nanoSteps) (st : St κ α) (s : Nat) (h : glob E st = s) (hnano : st.nano = s % E.nanoSteps) :
    glob E (incNano E st) = s + 1 ∧ (incNano E st).nano = (s + 1) % E.nanoSteps := by
  unfold incNano glob at *
  have hlt : st.nano < E.nanoSteps := by rw [hnano]; exact Nat.mod_lt _ hn
  split
  · rename_i h1
    refine ⟨?_, ?_⟩
    · simp only
      have : (st.step + 1) * E.nanoSteps = st.step * E.nanoSteps + E.nanoSteps := by ring
      omega
    · simp only
      have : s + 1 = (st.step + 1) * E.nanoSteps := by
        have : (st.step + 1) * E.nanoSteps = st.step * E.nanoSteps + E.nanoSteps := by ring
        omega
      rw [this, Nat.mul_mod_left]
  · rename_i h1
    refine ⟨?_, ?_⟩
    · simp only; omega
    · simp only
      rw [← h]
      have : st.step * E.nanoSteps + st.nano + 1 = (st.nano + 1) + st.step * E.nanoSteps := by ring
      rw [this, Nat.add_mul_mod_self_right, Nat.mod_eq_of_lt (by omega)]

omit [DecidableEq κ] in
theorem incNano_fields (st : St κ α) : (incNano E st).old = st.old ∧ (incNano E st).new = st.new ∧ (incNano E st).valid = st.valid ∧
    (incNano E st).rimB = st.rimB ∧ (incNano E st).kernelB = st.kernelB ∧ (incNano E st).log = st.log ∧
    (incNano E st).sg = st.sg ∧ (incNano E st).si = st.si := by
  unfold incNano
  split <;> simp

omit [DecidableEq κ] in
theorem ghosts_append (l l' : List (Ev κ α)) : ghosts (l ++ l') = ghosts l ++ ghosts l' := by
  unfold ghosts; exact List.filterMap_append
omit [DecidableEq κ] in
theorem inners_append (l l' : List (Ev κ α)) : inners (l ++ l') = inners l ++ inners l' := by
  unfold inners; exact List.filterMap_append

omit [DecidableEq κ] in
theorem rim_antitone (h : RegionsFit E own outer nb) (i : Nat) (hi : i ≤ E.W) (c : κ) (hc : c ∈ E.rim i) : c ∈ E.rim 0 := by
  induction i with
  | zero => exact hc
  | succ i ih => exact ih (by omega) (h.rim_step i (by omega) c c hc (h.refl c))

omit [DecidableEq κ] in
theorem rim_antitone' (h : RegionsFit E own outer nb) (i j : Nat) (hj : i + j ≤ E.W) (c : κ) (hc : c ∈ E.rim (i + j)) : c ∈ E.rim i := by
  induction j with
  | zero => exact hc
  | succ j ih => exact ih (by omega) (h.rim_step (i + j) (by omega) c c hc (h.refl c))

omit [DecidableEq κ] in
theorem inner_antitone (h : RegionsFit E own outer nb) (i : Nat) (hi : i ≤ E.W) (c : κ) (hc : c ∈ E.inner i) : c ∈ E.inner 0 := by
  induction i with
  | zero => exact hc
  | succ i ih => exact ih (by omega) (h.inner_step i (by omega) c c hc (h.refl c))

omit [DecidableEq κ] in
theorem inner_antitone' (h : RegionsFit E own outer nb) (i j : Nat) (hj : i + j ≤ E.W) (c : κ) (hc : c ∈ E.inner (i + j)) :
    c ∈ E.inner i := by
  induction j with
  | zero => exact hc
  | succ j ih => exact ih (by omega) (h.inner_step (i + j) (by omega) c c hc (h.refl c))

theorem ghostIter_inv (h : RegionsFit E own outer nb) (hso : SteerOK E) (hl : Local E nb) (hs : Serial E (fun c => own c ∨ outer c) u v)
    (t T : Nat) (hT : t + E.W ≤ T) (ht : t0 E ≤ t) (hp : ProvOK E outer u T) (s0 st : St κ α) (i : Nat) (hi : i < E.W)
    (inv : GInv E own u v t s0 i st) : ∃ st', ghostIter E t st i = some st' ∧ GInv E own u v t s0 (i + 1) st' := by
  have hg := inv.glob
  set old1 := E.prov (glob E st) st.old with hold1
  -- after the links
  have hr1 : ∀ c ∈ E.rim i, old1 c = sh E u v (t + i) c := by
    intro c hc
    have h1 := inv.rim c hc
    by_cases hi0 : i = 0
    · subst hi0
      simp only [if_true] at h1
      rw [hold1, hg]; exact h1
    · rw [if_neg hi0] at h1
      by_cases ho : outer c
      · rcases hp.sound (t + i) (by omega) (by omega) st.old c ho with e | e
        · rw [hold1, hg, e, h1]
        · rw [hold1, hg, e, sh, if_neg (by omega)]
      · rw [hold1, hg, hp.frame (t + i) (by omega) st.old c ho, h1]
  have hri : ∀ c ∈ E.rim i, own c ∨ outer c := fun c hc => h.rim_own c (rim_antitone h i (by omega) c hc)
  -- after the steerers
  obtain ⟨sg', old2, hst, hsg', hr, hout⟩ : ∃ sg' old2, Step.steer E (glob E st) (E.rim i) E.steerers st.sg old1 = some (sg', old2) ∧
      AInv E false (max (t + (i + 1)) (t0 E + 1)) E.steerers sg' ∧ (∀ c ∈ E.rim i, old2 c = v (t + i) c) ∧
      ∀ c, c ∉ E.rim i → old2 c = old1 c := by
    rw [hg]
    by_cases h0 : t + i = t0 E
    · have hsg := inv.sg
      rw [show max (t + i) (t0 E + 1) = t0 E + 1 by omega] at hsg
      refine ⟨st.sg, old1, steer_past h.nano false (t0 E + 1) (t + i) (by omega) (E.rim i) E.steerers st.sg old1 hso hsg,
        by rw [show max (t + (i + 1)) (t0 E + 1) = t0 E + 1 by omega]; exact hsg, ?_, fun c _ => rfl⟩
      intro c hc
      rw [hr1 c hc, sh, if_pos h0]
    · have hsg := inv.sg
      rw [show max (t + i) (t0 E + 1) = t + i by omega] at hsg
      obtain ⟨as', g', e1, e2, e3⟩ := steer_at h.nano false (t + i) (E.rim i) E.steerers st.sg old1 hso hsg
      refine ⟨as', g', e1, by rw [show max (t + (i + 1)) (t0 E + 1) = t + i + 1 by omega]; exact e2, ?_, ?_⟩
      · intro c hc
        rw [e3, if_pos hc, hr1 c hc, sh, if_neg h0, hs.steered (t + i) (by omega) c (hri c hc)]
      · intro c hc
        rw [e3, if_neg hc]
  set new1 := updateRegion (E.rim (i + 1)) (E.upd st.nano old2) st.new with hnew1
  have hn1 : ∀ c ∈ E.rim (i + 1), new1 c = u (t + (i + 1)) c := by
    intro c hc
    have hc0 := rim_antitone h (i + 1) hi c hc
    rw [hnew1]
    unfold updateRegion
    rw [if_pos hc, ← Nat.add_assoc, hs.step (t + i) (by omega) c (h.rim_own c hc0), inv.nano]
    apply hl
    intro d hd
    exact hr d (h.rim_step i hi c d hc hd)
  have hsh : sh E u v (t + (i + 1)) = u (t + (i + 1)) := by rw [sh, if_neg (by omega)]
  set st0 : St κ α := { st with old := new1, new := old2, sg := sg' } with hst0
  have hinc := incNano_glob h.nano st0 (t + i) (by unfold glob at *; exact hg) inv.nano
  obtain ⟨f1, f2, f3, f4, f5, f6, f7, f8⟩ := incNano_fields (E := E) st0
  refine ⟨{ incNano E st0 with log := st.log ++ [.ghost (t + i + 1) new1] }, ?_, ?_⟩
  · unfold ghostIter
    rw [← hold1, hst]; rfl
  refine ⟨f3.trans inv.valid, f4.trans inv.rimB, f5.trans inv.kernelB, f8.trans inv.si, hinc.1.trans (Nat.add_assoc _ _ _),
    by rw [← Nat.add_assoc]; exact hinc.2, by simp only; rw [f7]; exact hsg', ?_, ?_, ?_⟩
  · intro c hc
    simp only [Nat.add_eq_zero_iff, one_ne_zero, and_false, if_false]
    rw [hsh]
    exact (congrFun f1 c).trans (hn1 c hc)
  · intro c ho hc
    have h1 := inv.keep c ho hc
    have hno : ¬ outer c := fun x => h.outer_own c x ho
    simp only
    have hold : (incNano E st0).old c = st.new c := by
      refine (congrFun f1 c).trans ?_
      simp only [hst0, hnew1]
      unfold updateRegion
      rw [if_neg]
      intro hc'
      exact hc (rim_antitone h (i + 1) hi c hc')
    have hnew : (incNano E st0).new c = st.old c := by
      refine (congrFun f2 c).trans ?_
      simp only [hst0]
      rw [hout c (fun hc' => hc (rim_antitone h i (by omega) c hc')), hold1, hg]
      exact hp.frame (t + i) (by omega) st.old c hno
    rw [hold, hnew]
    by_cases hpar : i % 2 = 0
    · rw [if_pos hpar] at h1
      rw [if_neg (by omega)]; exact h1
    · rw [if_neg hpar] at h1
      rw [if_pos (by omega)]; exact h1
  · obtain ⟨l, e1, e3⟩ := inv.log
    refine ⟨l ++ [(t + 1 + i, new1)], ?_, ?_⟩
    · simp only
      rw [e1, List.append_assoc, List.map_append]
      congr 2
      simp only [mkGhost, List.map_cons, List.map_nil]
      rw [show t + i + 1 = t + 1 + i by omega]
    · refine e3.append (Shown.one ?_)
      intro c hc
      have hcc : c ∈ E.rim (i + 1) := rim_antitone' h (i + 1) (E.W - (i + 1)) (by omega) c
        (by rw [show i + 1 + (E.W - (i + 1)) = E.W by omega]; exact hc)
      rw [hn1 c hcc, show t + 1 + i = t + (i + 1) by omega, hsh]

theorem ghostLoop_inv (h : RegionsFit E own outer nb) (hso : SteerOK E) (hl : Local E nb) (hs : Serial E (fun c => own c ∨ outer c) u v)
    (t T : Nat) (hT : t + E.W ≤ T) (ht : t0 E ≤ t) (hp : ProvOK E outer u T) (s0 : St κ α) (inv : GInv E own u v t s0 0 s0) (n : Nat)
    (hn : n ≤ E.W) : ∃ st', ghostLoop E t s0 n = some st' ∧ GInv E own u v t s0 n st' := by
  induction n with
  | zero => exact ⟨s0, rfl, inv⟩
  | succ n ih =>
    obtain ⟨st', e1, e2⟩ := ih (by omega)
    obtain ⟨st'', e3, e4⟩ := ghostIter_inv h hso hl hs t T hT ht hp s0 st' n (by omega) e2
    exact ⟨st'', by unfold ghostLoop; rw [e1]; exact e3, e4⟩

/-- the kernel buffer is empty -/
def KEmpty (b : PBF α) : Prop := b.req = [] ∧ b.stored = [] ∧ b.indexRead = 0 ∧ b.indexWrite = 0

theorem updateGhost_ok (h : RegionsFit E own outer nb) (hso : SteerOK E) (hl : Local E nb) (hs : Serial E (fun c => own c ∨ outer c) u v)
    (t T : Nat) (hT : t + E.W ≤ T) (ht : t0 E ≤ t) (hp : ProvOK E outer u T) (st : St κ α) (hg : glob E st = t) (hn : st.nano = t % E.nanoSteps)
    (hk : ∀ c ∈ E.inner E.W, st.old c = sh E u v t c)
    (ho : ∀ g, (∀ c, outer c → g c = st.old c) → ∀ c, outer c → E.prov t g c = sh E u v t c)
    (hr : RimHolds (E.rim E.W) (sh E u v) st.rimB t) (hke : KEmpty st.kernelB)
    (hsg : AInv E false (max t (t0 E + 1)) E.steerers st.sg) :
    ∃ st', updateGhost E st = some st' ∧ st'.valid = st.valid ∧ glob E st' = t ∧ st'.nano = t % E.nanoSteps ∧
      (∀ c, own c → st'.old c = sh E u v t c) ∧ RimHolds (E.rim E.W) (sh E u v) st'.rimB (t + E.W) ∧ KEmpty st'.kernelB ∧
      AInv E false (t + E.W) E.steerers st'.sg ∧ st'.si = st.si ∧
      ∃ l, st'.log = st.log ++ l.map mkGhost ∧ Shown (sh E u v) (E.rim E.W) (t + 1) E.W l := by
  have hW := h.width
  obtain ⟨k1, k2, k3, k4⟩ := hke
  obtain ⟨r1, r2, r3, r4, r5⟩ := hr
  -- save the kernel
  have hsave : saveKernel E st = some { st with kernelB :=
      { req := [], stored := [t], indexRead := 0, buffer := Function.update st.kernelB.buffer 0 (saveRegion E.volatileKernel st.old),
        indexWrite := 0 } } := by
    unfold saveKernel
    rw [hg]
    unfold PBF.put
    simp [k1, k2, k3, k4, setInsert, checkNanoStepPut, putOK]
  -- restore the rim
  set st1 : St κ α := { st with kernelB :=
      { req := [], stored := [t], indexRead := 0, buffer := Function.update st.kernelB.buffer 0 (saveRegion E.volatileKernel st.old),
        indexWrite := 0 } } with hst1
  set old2 : κ → α := loadRegion (E.rim E.W) (saveRegion (E.rim E.W) (sh E u v t)) st.old with hold2
  have hold2' : ∀ c, old2 c = if c ∈ E.rim E.W then sh E u v t c else st.old c := load_save (E.rim E.W) h.rim_nodup (sh E u v t) st.old
  have hrest : restoreRim E st1 false = some { st1 with old := old2 } := by
    unfold restoreRim
    have : glob E st1 = t := hg
    rw [this]
    unfold PBF.get
    simp [hst1, r2, checkNanoStepGet, getOK, r5, hold2]
  set st2 : St κ α := { st1 with old := old2 } with hst2
  have hg2 : glob E st2 = t := hg
  have hinit : GInv E own u v t st2 0 st2 := by
    refine ⟨rfl, rfl, rfl, rfl, hg, hn, hsg, ?_, ?_, ⟨[], by simp, by simp [Shown]⟩⟩
    · intro c hc
      simp only [if_true, Nat.add_zero]
      change E.prov t old2 c = sh E u v t c
      by_cases hout : outer c
      · refine ho old2 ?_ c hout
        intro d hd
        rw [hold2', if_neg]
        intro hd'
        exact h.outer_own d hd ((h.own_iff d).mpr (Or.inl hd'))
      · rw [hp.frame t (by omega) old2 c hout, hold2']
        split
        · rfl
        · rename_i hnr
          rcases h.rim_own c hc with hown | hx
          · rcases (h.own_iff c).mp hown with hx | hx
            · exact absurd hx hnr
            · exact hk c hx
          · exact absurd hx hout
    · intro c hown hc
      simp only [Nat.zero_mod, if_true]
      change old2 c = sh E u v t c
      rw [hold2']
      split
      · rfl
      · rename_i hnr
        rcases (h.own_iff c).mp hown with hx | hx
        · exact absurd hx hnr
        · exact hk c hx
  obtain ⟨st3, hst3, hloop⟩ := ghostLoop_inv h hso hl hs t T hT ht hp st2 hinit E.W (le_refl _)
  -- save the rim
  have h3r : st3.rimB = st.rimB := hloop.rimB
  have h3k : st3.kernelB = st1.kernelB := hloop.kernelB
  have hrim3 : ∀ c ∈ E.rim E.W, st3.old c = sh E u v (t + E.W) c := by
    intro c hc
    have := hloop.rim c hc
    rwa [if_neg (by omega)] at this
  set rb : PBF α :=
    { req := [], stored := [t, t + E.W], indexRead := st.rimB.indexRead
      buffer := Function.update st.rimB.buffer st.rimB.indexWrite (saveRegion (E.rim E.W) (sh E u v (t + E.W)))
      indexWrite := (st.rimB.indexWrite + 1) % 2 } with hrb
  have hsr : saveRim E st3 (t + E.W) = some { st3 with rimB := rb } := by
    unfold saveRim
    unfold PBF.put
    rw [h3r]
    have e : saveRegion (E.rim E.W) st3.old = saveRegion (E.rim E.W) (sh E u v (t + E.W)) := save_congr hrim3
    simp [r1, r2, setInsert, checkNanoStepPut, putOK, e, hrb]
    omega
  set st4 : St κ α := { st3 with rimB := rb } with hst4
  set st5 : St κ α := if E.W % 2 = 1 then { st4 with old := st4.new, new := st4.old } else st4 with hst5
  set st6 : St κ α := { st5 with nano := st2.nano, step := st2.step } with hst6
  have h6r : st6.rimB = rb := by rw [hst6, hst5]; split <;> rfl
  have h6k : st6.kernelB = st1.kernelB := by rw [hst6, hst5]; split <;> exact h3k
  have h6v : st6.valid = st.valid := by rw [hst6, hst5]; split <;> exact hloop.valid
  have h6l : st6.log = st3.log := by rw [hst6, hst5]; split <;> rfl
  have h6g : glob E st6 = t := hg
  have h6o : ∀ c, own c → c ∉ E.rim 0 → st6.old c = sh E u v t c := by
    intro c hc hc'
    have := hloop.keep c hc hc'
    rw [hst6, hst5]
    split
    · rw [if_neg (by omega)] at this; exact this
    · rw [if_pos (by omega)] at this; exact this
  have hne : st.rimB.indexRead ≠ st.rimB.indexWrite := by omega
  have hbuf : rb.buffer rb.indexRead = saveRegion (E.rim E.W) (sh E u v t) := by
    simp only [hrb]
    rw [Function.update_of_ne hne]; exact r5
  set old7 : κ → α := loadRegion (E.rim E.W) (saveRegion (E.rim E.W) (sh E u v t)) st6.old with hold7
  have hold7' : ∀ c, old7 c = if c ∈ E.rim E.W then sh E u v t c else st6.old c := load_save (E.rim E.W) h.rim_nodup (sh E u v t) st6.old
  set rb7 : PBF α := { rb with stored := [t + E.W], indexRead := (rb.indexRead + 1) % 2 } with hrb7
  have hr7 : restoreRim E st6 true = some { st6 with rimB := rb7, old := old7 } := by
    unfold restoreRim
    rw [h6g, h6r]
    unfold PBF.get
    rw [hbuf]
    have hst : rb.stored = [t, t + E.W] := rfl
    simp [hst, checkNanoStepGet, getOK, hrb7, hold7]
  set st7 : St κ α := { st6 with rimB := rb7, old := old7 } with hst7
  set old8 : κ → α := loadRegion E.volatileKernel (saveRegion E.volatileKernel st.old) old7 with hold8
  have hold8' : ∀ c, old8 c = if c ∈ E.volatileKernel then st.old c else old7 c := load_save E.volatileKernel h.vk_nodup st.old old7
  set kb8 : PBF α := { st1.kernelB with stored := [], indexRead := 0 } with hkb8
  have hr8 : restoreKernel E st7 = some { st7 with kernelB := kb8, old := old8 } := by
    unfold restoreKernel
    have e1 : glob E st7 = t := hg
    have e2 : st7.kernelB = st1.kernelB := h6k
    rw [e1, e2]
    unfold PBF.get
    simp [hst1, checkNanoStepGet, getOK, hkb8, hold8]
    rfl
  refine ⟨{ st7 with kernelB := kb8, old := old8 }, ?_, ?_, ?_, ?_, ?_, ?_, ?_, ?_, ?_, ?_⟩
  · unfold updateGhost
    rw [hsave]
    simp only [Option.bind_some]
    rw [hrest]
    simp only [Option.bind_some]
    rw [hg2, hst3]
    simp only [Option.bind_some]
    rw [hsr]
    simp only [Option.bind_some]
    rw [← hst5, ← hst6, hr7]
    simp only [Option.bind_some]
    exact hr8
  · exact h6v
  · exact hg
  · exact hn
  · intro c hc
    change old8 c = sh E u v t c
    rw [hold8']
    split
    · rename_i hv
      exact hk c ((h.vk c).mp hv).1
    · rename_i hv
      rw [hold7']
      split
      · rfl
      · rename_i hnr
        apply h6o c hc
        intro h0
        rcases (h.own_iff c).mp hc with hx | hx
        · exact hnr hx
        · exact hv ((h.vk c).mpr ⟨hx, h0⟩)
  · refine ⟨rfl, rfl, ?_, ?_, ?_⟩
    · exact Nat.mod_lt _ (by decide)
    · change (st.rimB.indexWrite + 1) % 2 = ((st.rimB.indexRead + 1) % 2 + 1) % 2
      omega
    · change Function.update st.rimB.buffer st.rimB.indexWrite _ ((st.rimB.indexRead + 1) % 2) = _
      rw [← r4, Function.update_self]
  · exact ⟨rfl, rfl, rfl, rfl⟩
  · have := hloop.sg
    rw [show max (t + E.W) (t0 E + 1) = t + E.W by omega] at this
    change AInv E false (t + E.W) E.steerers st6.sg
    rw [hst6, hst5]
    split <;> exact this
  · change st6.si = st.si
    rw [hst6, hst5]
    split <;> exact hloop.si
  · obtain ⟨l, e1, e3⟩ := hloop.log
    refine ⟨l, ?_, e3⟩
    change st6.log = _
    rw [h6l, e1]

/-- order of the events of a stepper: kind (kernel: true) and nano step, up to `k` nano steps after the start. The rim runs ahead of
the kernel, up to the next synchronisation point. -/
def shape (W t0 : Nat) : Nat → List (Bool × Nat)
  | 0 => [(false, t0), (true, t0)] ++ (List.range W).map fun i => (false, t0 + 1 + i)
  | k + 1 => shape W t0 k ++ [(true, t0 + (k + 1))] ++
      if (k + 1) % W = 0 then (List.range W).map fun i => (false, t0 + (k + 1) + 1 + i) else []

omit [DecidableEq κ] in
theorem tags_mk {r : List κ} {a n : Nat} {l : List (Nat × (κ → α))} {w : Nat → κ → α} (h : Shown w r a n l) :
    (l.map mkGhost).map tag = (List.range n).map fun i => (false, a + i) := by
  have e : (l.map mkGhost).map tag = (l.map (·.1)).map fun s => (false, s) := by
    rw [List.map_map, List.map_map]; rfl
  rw [e, h.1, List.map_map]; rfl

/-- invariant between calls of `update1`: `k` nano steps after the start -/
structure SInv (E : Env κ α) (own : κ → Prop) (u v : Nat → κ → α) (k : Nat) (st : St κ α) : Prop where
  valid : st.valid = E.W - k % E.W
  glob : glob E st = t0 E + k
  nano : st.nano = (t0 E + k) % E.nanoSteps
  inner : ∀ c ∈ E.inner (k % E.W), st.old c = v (t0 E + k) c
  own : k % E.W = 0 → ∀ c, own c → c ∉ E.inner 0 → st.old c = sh E u v (t0 E + k) c
  rimB : RimHolds (E.rim E.W) (sh E u v) st.rimB (t0 E + (k / E.W + 1) * E.W)
  kernelB : KEmpty st.kernelB
  sg : AInv E false (t0 E + (k / E.W + 1) * E.W) E.steerers st.sg
  si : AInv E true (t0 E + k + 1) E.steerers st.si
  ghosts : Shown (sh E u v) (E.rim E.W) (t0 E) ((k / E.W + 1) * E.W + 1) (ghosts st.log)
  inners : Shown (sh E u v) (E.inner E.W) (t0 E) (k + 1) (inners st.log)
  order : st.log.map tag = shape E.W (t0 E) k

theorem initGrids_ok (h : RegionsFit E own outer nb) (hso : SteerOK E) (hl : Local E nb) (hs : Serial E (fun c => own c ∨ outer c) u v)
    (hp : ProvOK E outer u (t0 E + E.W)) (b1 b2 : Nat → List α) : ∃ st, initGrids E b1 b2 = some st ∧ SInv E own u v 0 st := by
  have hW := h.width
  set old1 := E.prov (t0 E) E.initial with hold1
  have hini : ∀ c, own c ∨ outer c → old1 c = u (t0 E) c := by
    intro c hc
    by_cases ho : outer c
    · rw [hold1, hp.start _ c ho]; exact (hs.init c hc).symm
    · rw [hold1, hp.frame (t0 E) (by omega) _ c ho]; exact (hs.init c hc).symm
  obtain ⟨sg, old2, e1, e2, e3⟩ := steer_at h.nano false (t0 E) E.outerRim E.steerers (adapters E false) old1 hso (AInv.make E false)
  obtain ⟨si, old3, e4, e5, e6⟩ := steer_at h.nano true (t0 E) E.ownRegion E.steerers (adapters E true) old2 hso (AInv.make E true)
  have hsh : sh E u v (t0 E) = v (t0 E) := by rw [sh, if_pos rfl]
  have hall : ∀ c, own c ∨ outer c → old3 c = sh E u v (t0 E) c := by
    intro c hc
    rw [hsh, hs.steered (t0 E) (le_refl _) c hc, e6]
    by_cases hown : own c
    · rw [if_pos ((h.ownRegion_iff c).mpr hown), e3, if_neg (fun x => h.outer_own c ((h.outer_iff c).mp x) hown), hini c hc]
    · have hout : outer c := hc.resolve_left hown
      rw [if_neg (fun x => hown ((h.ownRegion_iff c).mp x)), e3, if_pos ((h.outer_iff c).mpr hout), hini c hc]
  have hR : ∀ c ∈ E.rim E.W, old3 c = sh E u v (t0 E) c := fun c hc => hall c (Or.inl ((h.own_iff c).mpr (Or.inl hc)))
  have hK : ∀ c ∈ E.inner E.W, old3 c = sh E u v (t0 E) c := fun c hc => hall c (Or.inl ((h.own_iff c).mpr (Or.inr hc)))
  set st : St κ α :=
    { old := old3, new := E.initial, valid := E.W, step := E.startStep, nano := 0, rimB := { buffer := b1 }
      kernelB := { buffer := b2 }, log := [.ghost (t0 E) old3, .inner (t0 E) old3], sg := sg, si := si } with hst
  set st' : St κ α := { st with rimB :=
      { req := [], stored := [t0 E], indexRead := 0, buffer := Function.update b1 0 (saveRegion (E.rim E.W) (sh E u v (t0 E))), indexWrite := 1 } } with hst'
  have hsave : saveRim E st (t0 E) = some st' := by
    unfold saveRim PBF.put
    have e : saveRegion (E.rim E.W) old3 = saveRegion (E.rim E.W) (sh E u v (t0 E)) := save_congr hR
    simp [hst, setInsert, checkNanoStepPut, putOK, e, hst']
  obtain ⟨s2, e, vv, g, n, o, r, kb, asg, asi, l, l1, l3⟩ := updateGhost_ok h hso hl hs (t0 E) (t0 E + E.W) (le_refl _) (le_refl _) hp st'
    rfl (by simp [hst', hst, t0]) hK
    (by
      intro g hgc c hc
      rw [hp.start g c hc, hgc c hc]
      exact hall c (Or.inr hc))
    ⟨rfl, rfl, Nat.zero_lt_two, rfl, by simp [hst']⟩ ⟨rfl, rfl, rfl, rfl⟩ (by rw [show max (t0 E) (t0 E + 1) = t0 E + 1 by omega]; exact e2)
  refine ⟨s2, ?_, ?_⟩
  · unfold initGrids
    change (Step.steer E (t0 E) E.outerRim E.steerers (adapters E false) old1).bind _ = some s2
    rw [e1, Option.bind_some]
    change (Step.steer E (t0 E) E.ownRegion E.steerers (adapters E true) old2).bind _ = some s2
    rw [e4, Option.bind_some]
    change (saveRim E st (t0 E)).bind (updateGhost E) = some s2
    rw [hsave]
    exact e
  · have hz : 0 % E.W = 0 := Nat.zero_mod _
    refine ⟨by rw [hz]; exact vv, g, n, ?_, fun _ c hc _ => o c hc, ?_, kb, ?_, ?_, ?_, ?_, ?_⟩
    · intro c hc
      rw [hz] at hc
      rw [Nat.add_zero, ← hsh]
      exact o c (h.inner_own c hc)
    · simpa using r
    · simpa using asg
    · rw [asi]; exact e5
    · rw [l1, ghosts_append, ghosts_mk]
      have : Shown (sh E u v) (E.rim E.W) (t0 E) 1 (C26.ghosts st'.log) := Shown.one hR
      have := this.append l3
      simpa [Nat.add_comm] using this
    · rw [l1, inners_append, inners_mk, List.append_nil]
      exact Shown.one hK
    · rw [l1, List.map_append, tags_mk l3]
      rfl

theorem steerInner_ok (h : RegionsFit E own outer nb) (hso : SteerOK E) (hs : Serial E (fun c => own c ∨ outer c) u v) (n j : Nat) (hn : t0 E < n)
    (hjW : j ≤ E.W) (st : St κ α) (hv : st.valid = E.W - j) (hg : Step.glob E st = n) (hi : ∀ c ∈ E.inner j, st.old c = u n c)
    (hsi : AInv E true n E.steerers st.si) :
    ∃ st', steerInner E st = some st' ∧ AInv E true (n + 1) E.steerers st'.si ∧ (∀ c ∈ E.inner j, st'.old c = v n c) ∧
      (∀ c, c ∉ E.inner j → st'.old c = st.old c) ∧ st' = { st with old := st'.old, si := st'.si } := by
  obtain ⟨si, old, e1, e2, e3⟩ := steer_at h.nano true n (E.inner j) E.steerers st.si st.old hso hsi
  refine ⟨{ st with old := old, si := si }, ?_, e2, ?_, ?_, rfl⟩
  · unfold steerInner
    rw [hg, hv, show E.W - (E.W - j) = j by omega, e1]; rfl
  · intro c hc
    change old c = _
    rw [e3, if_pos hc, hi c hc, hs.steered n (by omega) c (Or.inl (h.inner_own c (inner_antitone h j hjW c hc)))]
  · intro c hc
    change old c = _
    rw [e3, if_neg hc]

theorem update1_ok (h : RegionsFit E own outer nb) (hso : SteerOK E) (hl : Local E nb) (hs : Serial E (fun c => own c ∨ outer c) u v) (k : Nat)
    (hp : ProvOK E outer u (t0 E + ((k + 1) / E.W + 1) * E.W)) (st : St κ α) (inv : SInv E own u v k st) :
    ∃ st', update1 E st = some st' ∧ SInv E own u v (k + 1) st' := by
  have hW := h.width
  set j := k % E.W with hj
  have hjW : j < E.W := Nat.mod_lt _ hW
  have hkj : k = E.W * (k / E.W) + j := (Nat.div_add_mod k E.W).symm
  have hv := inv.valid
  set new1 := updateRegion (E.inner (j + 1)) (E.upd st.nano st.old) st.new with hnew1
  have hidx : E.W - (st.valid - 1) = j + 1 := by omega
  have hn1 : ∀ c ∈ E.inner (j + 1), new1 c = u (t0 E + (k + 1)) c := by
    intro c hc
    rw [hnew1]
    unfold updateRegion
    have hown : own c := h.inner_own c (inner_antitone h (j + 1) hjW c hc)
    rw [if_pos hc, ← Nat.add_assoc, hs.step (t0 E + k) (by omega) c (Or.inl hown), inv.nano]
    apply hl
    intro d hd
    exact inv.inner d (h.inner_step j hjW c d hc hd)
  have hsh : sh E u v (t0 E + (k + 1)) = u (t0 E + (k + 1)) := by rw [sh, if_neg (by omega)]
  have hK : ∀ c ∈ E.inner E.W, new1 c = sh E u v (t0 E + (k + 1)) c := by
    intro c hc
    rw [hsh]
    exact hn1 c (inner_antitone' h (j + 1) (E.W - (j + 1)) (by omega) c (by rw [show j + 1 + (E.W - (j + 1)) = E.W by omega]; exact hc))
  have hinc := incNano_glob h.nano { st with valid := st.valid - 1, old := new1, new := st.old } (t0 E + k)
    (by have := inv.glob; unfold glob at *; exact this) inv.nano
  obtain ⟨f1, f2, f3, f4, f5, f6, f7, f8⟩ := incNano_fields (E := E) { st with valid := st.valid - 1, old := new1, new := st.old }
  set st1 := incNano E { st with valid := st.valid - 1, old := new1, new := st.old } with hst1
  have hg1 : glob E st1 = t0 E + (k + 1) := hinc.1
  have hn1' : st1.nano = (t0 E + (k + 1)) % E.nanoSteps := hinc.2
  simp only at f1 f2 f3 f4 f5 f6 f7 f8
  set st2 : St κ α := { st1 with log := st1.log ++ [.inner (glob E st1) st1.old] } with hst2
  have hdef : update1 E st = (if st2.valid = 0 then (updateGhost E st2).map fun st3 => { st3 with valid := E.W } else some st2).bind (steerInner E) := by
    unfold update1
    simp only [hidx]
    rfl
  have hl1 : C26.ghosts st2.log = C26.ghosts st.log := by
    simp only [hst2]
    rw [ghosts_append, f6]
    simp [C26.ghosts]
  have hl2 : Shown (sh E u v) (E.inner E.W) (t0 E) (k + 1 + 1) (C26.inners st2.log) := by
    simp only [hst2]
    rw [inners_append, f6]
    refine inv.inners.append ?_
    simp only [C26.inners, List.filterMap_cons, List.filterMap_nil]
    rw [hg1, f1]
    exact Shown.one hK
  have hl3 : st2.log.map tag = shape E.W (t0 E) k ++ [(true, t0 E + (k + 1))] := by
    simp only [hst2]
    rw [List.map_append, f6, inv.order]
    simp [tag, hg1]
  have hv2 : st2.valid = st.valid - 1 := f3
  have hsi2 : AInv E true (t0 E + (k + 1)) E.steerers st2.si := by
    change AInv E true _ E.steerers st1.si
    rw [f8]; exact inv.si
  by_cases hlast : j + 1 = E.W
  · -- synchronisation point
    have hmod : (k + 1) % E.W = 0 := by
      rw [hkj, Nat.add_assoc, hlast, Nat.mul_add_mod, Nat.mod_self]
    have hdiv : (k + 1) / E.W = k / E.W + 1 := by
      conv_lhs => rw [hkj, Nat.add_assoc, hlast]
      rw [Nat.mul_add_div hW, Nat.div_self hW]
    have hmul : k + 1 = (k / E.W + 1) * E.W := by
      have : (k / E.W + 1) * E.W = E.W * (k / E.W) + E.W := by ring
      omega
    have hT : t0 E + ((k + 1) / E.W + 1) * E.W = t0 E + (k + 1) + E.W := by
      rw [hdiv]
      have : (k / E.W + 1 + 1) * E.W = (k / E.W + 1) * E.W + E.W := by ring
      omega
    rw [if_pos (by omega)] at hdef
    obtain ⟨s3, e, vv, g, n, o, r, kb, asg, asi, l, l1, l3⟩ := updateGhost_ok h hso hl hs (t0 E + (k + 1)) (t0 E + ((k + 1) / E.W + 1) * E.W)
      (by omega) (by omega) hp st2 hg1 hn1' (by intro c hc; change st1.old c = _; rw [f1]; exact hK c hc)
      (by
        intro g _ c hc
        have := hp.sync (k / E.W + 1) (Nat.succ_pos _) (by rw [hT, ← hmul]; omega) g c hc
        rw [← hmul] at this
        rw [hsh]
        exact this)
      (by change RimHolds _ _ st1.rimB _; rw [f4, hmul]; exact inv.rimB) (by change KEmpty st1.kernelB; rw [f5]; exact inv.kernelB)
      (by
        rw [show max (t0 E + (k + 1)) (t0 E + 1) = t0 E + (k + 1) by omega, hmul]
        change AInv E false _ E.steerers st1.sg
        rw [f7]; exact inv.sg)
    obtain ⟨s4, i1, i2, i3, i4, i5⟩ := steerInner_ok h hso hs (t0 E + (k + 1)) 0 (by omega) (by omega) { s3 with valid := E.W } (by simp) g
      (by intro c hc; rw [← hsh]; exact o c (h.inner_own c hc)) (by change AInv E true _ E.steerers s3.si; rw [asi]; exact hsi2)
    have q1 : s4.valid = E.W := (congrArg St.valid i5 :)
    have q2 : s4.rimB = s3.rimB := (congrArg St.rimB i5 :)
    have q3 : s4.kernelB = s3.kernelB := (congrArg St.kernelB i5 :)
    have q4 : s4.log = s3.log := (congrArg St.log i5 :)
    have q5 : s4.sg = s3.sg := (congrArg St.sg i5 :)
    have q6 : s4.nano = s3.nano := (congrArg St.nano i5 :)
    have q7 : s4.step = s3.step := (congrArg St.step i5 :)
    refine ⟨s4, by rw [hdef, e]; exact i1, ?_⟩
    refine ⟨by rw [hmod]; exact q1, by unfold glob at *; rw [q6, q7]; exact g, q6.trans n, ?_, ?_, ?_, by rw [q3]; exact kb, ?_, i2, ?_, ?_, ?_⟩
    · intro c hc
      rw [hmod] at hc
      exact i3 c hc
    · intro _ c hc hc'
      rw [i4 c hc']
      exact o c hc
    · rw [hT, q2]; exact r
    · rw [hT, q5]; exact asg
    · rw [q4, l1, ghosts_append, ghosts_mk, hl1]
      have := inv.ghosts.append (by rw [← hmul]; exact l3)
      rw [hdiv]
      convert this using 1
      ring
    · rw [q4, l1, inners_append, inners_mk, List.append_nil]; exact hl2
    · rw [q4, l1, List.map_append, tags_mk l3, hl3]
      simp only [shape]
      rw [if_pos hmod]
  · have hmod : (k + 1) % E.W = j + 1 := by
      rw [hkj, Nat.add_assoc, Nat.mul_add_mod, Nat.mod_eq_of_lt (by omega)]
    have hdiv : (k + 1) / E.W = k / E.W := by
      conv_lhs => rw [hkj, Nat.add_assoc]
      rw [Nat.mul_add_div hW, Nat.div_eq_of_lt (by omega : j + 1 < E.W), Nat.add_zero]
    rw [if_neg (by omega), Option.bind_some] at hdef
    obtain ⟨s4, i1, i2, i3, i4, i5⟩ := steerInner_ok h hso hs (t0 E + (k + 1)) (j + 1) (by omega) (by omega) st2 (by omega) hg1
      (by intro c hc; change st1.old c = _; rw [f1]; exact hn1 c hc) hsi2
    have q1 : s4.valid = st2.valid := (congrArg St.valid i5 :)
    have q2 : s4.rimB = st1.rimB := (congrArg St.rimB i5 :)
    have q3 : s4.kernelB = st1.kernelB := (congrArg St.kernelB i5 :)
    have q4 : s4.log = st2.log := (congrArg St.log i5 :)
    have q5 : s4.sg = st1.sg := (congrArg St.sg i5 :)
    have q6 : s4.nano = st1.nano := (congrArg St.nano i5 :)
    have q7 : s4.step = st1.step := (congrArg St.step i5 :)
    refine ⟨s4, by rw [hdef]; exact i1, ?_⟩
    refine ⟨by rw [hmod]; omega, by unfold glob at *; rw [q6, q7]; exact hg1, q6.trans hn1', ?_, ?_, ?_, ?_, ?_, i2, ?_, ?_, ?_⟩
    · rw [hmod]; exact i3
    · intro hx; omega
    · rw [hdiv, q2, f4]; exact inv.rimB
    · rw [q3, f5]; exact inv.kernelB
    · rw [hdiv, q5, f7]; exact inv.sg
    · rw [q4, hl1, hdiv]; exact inv.ghosts
    · rw [q4]; exact hl2
    · rw [q4, hl3]
      simp only [shape]
      rw [if_neg (by omega), List.append_nil]

omit [DecidableEq κ] in
theorem ProvOK.mono {T T' : Nat} (h : ProvOK E outer u T) (hT : T' ≤ T) : ProvOK E outer u T' :=
  ⟨fun s hs => h.frame s (by omega), h.start, fun s h0 hs => h.sound s h0 (by omega), fun m h0 hm => h.sync m h0 (by omega)⟩

theorem run_ok (h : RegionsFit E own outer nb) (hso : SteerOK E) (hl : Local E nb) (hs : Serial E (fun c => own c ∨ outer c) u v)
    (b1 b2 : Nat → List α) (k : Nat) (hp : ProvOK E outer u (t0 E + (k / E.W + 1) * E.W)) :
    ∃ st, run E b1 b2 k = some st ∧ SInv E own u v k st := by
  induction k with
  | zero => exact initGrids_ok h hso hl hs (by simpa using hp) b1 b2
  | succ k ih =>
    obtain ⟨st, e, inv⟩ := ih (hp.mono (by
      have : k / E.W ≤ (k + 1) / E.W := Nat.div_le_div_right (by omega)
      have := Nat.mul_le_mul_right E.W (Nat.succ_le_succ this)
      simp only [Nat.succ_eq_add_one] at this
      omega))
    obtain ⟨st', e', inv'⟩ := update1_ok h hso hl hs k hp st inv
    exact ⟨st', by rw [run, e]; exact e', inv'⟩

/-- **C26.** `k` nano steps after construction a stepper, whose patch providers deliver the right ghost zones for the
synchronisation points so far, has neither thrown nor lost a patch, stands at nano step `startStep * NANO_STEPS + k`, its grid
agrees with the steered serial simulation on the inner set of the current width, its rim accepters were shown the serial simulation's
rim for each nano step up to the next synchronisation point, and its kernel accepters the serial simulation's kernel for each nano
step up to now, each exactly once and in order. -/
theorem stepper_serial (h : RegionsFit E own outer nb) (hso : SteerOK E) (hl : Local E nb) (hs : Serial E (fun c => own c ∨ outer c) u v)
    (b1 b2 : Nat → List α) (k : Nat) (hp : ProvOK E outer u (t0 E + (k / E.W + 1) * E.W)) :
    ∃ st, run E b1 b2 k = some st ∧ st.step = (t0 E + k) / E.nanoSteps ∧ st.nano = (t0 E + k) % E.nanoSteps ∧
      (∀ c ∈ E.inner (k % E.W), st.old c = v (t0 E + k) c) ∧
      Shown (sh E u v) (E.rim E.W) (t0 E) ((k / E.W + 1) * E.W + 1) (ghosts st.log) ∧
      Shown (sh E u v) (E.inner E.W) (t0 E) (k + 1) (inners st.log) := by
  obtain ⟨st, e, inv⟩ := run_ok h hso hl hs b1 b2 k hp
  refine ⟨st, e, ?_, inv.nano, inv.inner, inv.ghosts, inv.inners⟩
  have := inv.glob
  unfold glob at this
  rw [← this, Nat.add_comm, Nat.add_mul_div_right _ _ h.nano, inv.nano, Nat.div_eq_of_lt (Nat.mod_lt _ h.nano), Nat.zero_add]

/-- Without steerers the whole own region holds the serial simulation at each synchronisation point. -/
theorem stepper_own (h : RegionsFit E own outer nb) (hno : E.steerers = []) (hl : Local E nb) (hs : Serial E (fun c => own c ∨ outer c) u v)
    (b1 b2 : Nat → List α) (k : Nat) (hp : ProvOK E outer u (t0 E + (k / E.W + 1) * E.W)) :
    ∃ st, run E b1 b2 k = some st ∧ (E.W ∣ k → ∀ c, own c → st.old c = u (t0 E + k) c) := by
  obtain ⟨st, e, inv⟩ := run_ok h (by intro f hf; rw [hno] at hf; cases hf) hl hs b1 b2 k hp
  refine ⟨st, e, fun hd c hc => ?_⟩
  have hm := Nat.mod_eq_zero_of_dvd hd
  have huv : v (t0 E + k) c = u (t0 E + k) c := by
    rw [hs.steered _ (by omega) c (Or.inl hc), hno]; rfl
  by_cases hi : c ∈ E.inner 0
  · rw [← huv]; exact inv.inner c (by rw [hm]; exact hi)
  · rw [inv.own hm c hc hi, sh]
    split
    · exact huv
    · rfl

/-- The order in which the accepters are shown rim and kernel: the rim runs ahead, up to the next synchronisation point. -/
theorem order_of_events (h : RegionsFit E own outer nb) (hso : SteerOK E) (hl : Local E nb) (hs : Serial E (fun c => own c ∨ outer c) u v)
    (b1 b2 : Nat → List α) (k : Nat) (hp : ProvOK E outer u (t0 E + (k / E.W + 1) * E.W)) :
    ∃ st, run E b1 b2 k = some st ∧ st.log.map tag = shape E.W (t0 E) k := by
  obtain ⟨st, e, inv⟩ := run_ok h hso hl hs b1 b2 k hp
  exact ⟨st, e, inv.order⟩

/-! Non-vacuity: three cells of a line, ghost zone of width 1 on the right, each step sums the neighborhood, a steerer adds 5 to
one cell of the rim every second step. -/

/-- steerer of the example -/
def exS : Steerer Nat Nat where
  period := 2
  act _ _ c x := if c = 2 then x + 5 else x

/-- serial reference of the example -/
def exU : Nat → Nat → Nat
  | 0, c => c
  | s + 1, c => steering 2 0 3 [exS] s (c - 1) (exU s (c - 1)) + steering 2 0 3 [exS] s c (exU s c) +
      steering 2 0 3 [exS] s (c + 1) (exU s (c + 1))

/-- the stepper of the example -/
def exE : Env Nat Nat where
  W := 1
  nanoSteps := 2
  startStep := 0
  lastStep := 3
  inf := 1000
  initial := id
  rim k := if k = 0 then [1, 2, 3] else [2]
  inner k := if k = 0 then [0, 1, 2] else [0, 1]
  volatileKernel := [1]
  outerRim := [3]
  ownRegion := [0, 1, 2]
  steerers := [exS]
  upd _ g c := g (c - 1) + g c + g (c + 1)
  prov s g c := if c = 3 ∧ s ≠ 0 then exU s c else g c

example : RegionsFit exE (fun c => c ≤ 2) (fun c => c = 3) (fun c d => d = c - 1 ∨ d = c ∨ d = c + 1) ∧ SteerOK exE ∧
    Local exE (fun c d => d = c - 1 ∨ d = c ∨ d = c + 1) ∧
    Serial exE (fun _ => True) exU (fun s c => steering 2 0 3 [exS] s c (exU s c)) ∧ ∀ T, ProvOK exE (fun c => c = 3) exU T := by
  refine ⟨⟨by decide, by decide, by decide, by decide, ?_, ?_, ?_, ?_, ?_, ?_, ?_, ?_, ?_, ?_, ?_⟩, ?_, ?_, ⟨?_, ?_, ?_⟩, ?_⟩
  · intro c; simp [exE]; omega
  · intro c hc; simp [exE] at *; omega
  · intro c; simp
  · intro k hk c d hc hd; have : k = 0 := by simp [exE] at hk; omega
    subst this; simp [exE] at *; omega
  · intro k hk c d hc hd; have : k = 0 := by simp [exE] at hk; omega
    subst this; simp [exE] at *; omega
  · intro c hc; simp [exE] at *; omega
  · intro c hc; simp [exE] at *; omega
  · intro c hc; omega
  · intro c; simp [exE]; omega
  · intro c; simp [exE]
  · intro c; simp [exE]; omega
  · intro f hf; simp [exE] at hf; subst hf; decide
  · intro n g h c hc
    simp only [exE]
    rw [hc _ (Or.inl rfl), hc _ (Or.inr (Or.inl rfl)), hc _ (Or.inr (Or.inr rfl))]
  · intro c _; rfl
  · intro s _ c _; rfl
  · intro s _ c _; rfl
  · intro T
    refine ⟨?_, ?_, ?_, ?_⟩
    · intro s _ g c hc; simp [exE, hc]
    · intro g c hc; simp [exE, t0]
    · intro s h0 _ g c hc; right
      have : s ≠ 0 := by simp [exE, t0] at h0; omega
      simp [exE, hc, this]
    · intro m h0 _ g c hc
      have : t0 exE + m * exE.W ≠ 0 := by simp [exE, t0]; omega
      change (if c = 3 ∧ t0 exE + m * exE.W ≠ 0 then _ else _) = _
      rw [if_pos ⟨hc, this⟩]

/-- the steerer acts: serial reference of the steered cell after one step -/
example : exU 1 2 = 11 := by decide +kernel

end LGD.C26
