import Verif.Part.PMModel
import Verif.Props.C04
import Verif.Props.C09
import Verif.Props.C10
import Verif.Props.C12
import Mathlib.Data.List.Forall2

/-!
# Partition manager: specification and facts on its building blocks
-/

namespace LGD
open LGD.C04

/-! ## Specification -/

/-- `c` can be reached from `a` in `k` steps of the neighborhood relation `Nb` (which includes standing still). -/
def Steps (n : Nat) (Nb : Crd → Crd → Prop) : Nat → Crd → Crd → Prop
  | 0, a, c => ∀ k, k ≤ n → a k = c k
  | k + 1, a, c => ∃ b, Nb a b ∧ Steps n Nb k b c

/-- The one-step expansion operators of the environment follow a neighborhood relation on the coordinates `G` of the
simulation space: `Nb a c` means that updating `a` needs `c`. One expansion step adds the neighbors, reverse expansion adds
all coordinates that need one of the region's. Expansion by the ghost zone width `gw` yields some region. -/
structure EnvBase (env : PMEnv) (G : Crd → Prop) (Nb : Crd → Crd → Prop) (gw : Nat) : Prop where
  inG : ∀ a c, Nb a c → G a → G c
  revG : ∀ a c, Nb a c → G c → G a
  refl : ∀ a, G a → Nb a a
  cong : ∀ a b c d, (∀ k, k ≤ env.n → a k = b k) → (∀ k, k ≤ env.n → c k = d k) → Nb b d → Nb a c
  ex1 : ∀ r, RegOK env.n r → (∀ c, RMem env.n r c → G c) →
    ∃ r', env.ex 1 r = some r' ∧ RegOK env.n r' ∧ ∀ c, RMem env.n r' c ↔ ∃ a, RMem env.n r a ∧ Nb a c
  exd : ∀ r, RegOK env.n r → (∀ c, RMem env.n r c → G c) → ∃ r', env.ex gw r = some r' ∧ RegOK env.n r'
  rex1 : ∀ r, RegOK env.n r → (∀ c, RMem env.n r c → G c) →
    ∃ r', env.rex r = some r' ∧ RegOK env.n r' ∧ ∀ c, RMem env.n r' c ↔ ∃ a, RMem env.n r a ∧ Nb c a

/-- In addition, expanding by the ghost zone width adds everything within `gw` steps. -/
structure EnvOK (env : PMEnv) (G : Crd → Prop) (Nb : Crd → Crd → Prop) (gw : Nat) : Prop extends EnvBase env G Nb gw where
  exw : ∀ r, RegOK env.n r → (∀ c, RMem env.n r c → G c) →
    ∃ r', env.ex gw r = some r' ∧ RegOK env.n r' ∧ ∀ c, RMem env.n r' c ↔ ∃ a, RMem env.n r a ∧ Steps env.n Nb gw a c

/-- The partition assigns to each of the `N` nodes a region inside of the simulation space; `P i` is the set of
coordinates of node `i`. -/
def PartOK (env : PMEnv) (G : Crd → Prop) (N : Nat) (P : Nat → Crd → Prop) : Prop :=
  ∀ i, i < N → ∃ r, env.part i = some r ∧ RegOK env.n r ∧ (∀ c, RMem env.n r c ↔ P i c) ∧ ∀ c, P i c → G c

/-- `c` is at most `w` steps away from the region of node `i`, i.e. needed for updating it `w` times. -/
def Vicinity (n : Nat) (Nb : Crd → Crd → Prop) (P : Nat → Crd → Prop) (i w : Nat) (c : Crd) : Prop :=
  ∃ a, P i a ∧ Steps n Nb w a c

/-! ## facts -/

theorem steps_snoc {n : Nat} {Nb : Crd → Crd → Prop} (k : Nat) (a b c : Crd) (h : Steps n Nb k a b) (hb : Nb b c)
    (hc : ∀ a b, (∀ k, k ≤ n → a k = b k) → Nb b c → Nb a c) : Steps n Nb (k + 1) a c := by
  induction k generalizing a with
  | zero => exact ⟨c, hc a b h hb, fun _ _ => rfl⟩
  | succ k ih =>
    obtain ⟨d, h1, h2⟩ := h
    exact ⟨d, h1, ih d h2⟩

/-- region `r` holds exactly the set `S` -/
def Holds (n : Nat) (r : Idx) (S : Crd → Prop) : Prop := RegOK n r ∧ ∀ c, RMem n r c ↔ S c

theorem Holds.congr {n : Nat} {r : Idx} {S T : Crd → Prop} (h : Holds n r S) (e : ∀ c, S c ↔ T c) : Holds n r T :=
  ⟨h.1, fun c => (h.2 c).trans (e c)⟩

theorem Holds.minus {n : Nat} {a b : Idx} {S T : Crd → Prop} (h : Holds n a S) (h' : Holds n b T) :
    ∃ r, regMinus n a b = some r ∧ Holds n r (fun c => S c ∧ ¬ T c) := by
  obtain ⟨r, h1, h2, h3⟩ := regMinus_spec n a b h.1 h'.1
  exact ⟨r, h1, h2, fun c => by rw [h3, h.2, h'.2]⟩

theorem Holds.and {n : Nat} {a b : Idx} {S T : Crd → Prop} (h : Holds n a S) (h' : Holds n b T) :
    ∃ r, regAnd n a b = some r ∧ Holds n r (fun c => S c ∧ T c) := by
  obtain ⟨r, h1, h2, h3⟩ := regAnd_spec n a b h.1 h'.1
  exact ⟨r, h1, h2, fun c => by rw [h3, h.2, h'.2]⟩

theorem Holds.nonempty {n : Nat} {a : Idx} {S : Crd → Prop} (h : Holds n a S) : (a 0).length ≠ 0 ↔ ∃ c, S c := by
  rw [Ne, h.1.empty_iff]
  simp only [h.2, not_forall, not_not]

theorem Holds.geom {n : Nat} {a : Idx} {S : Crd → Prop} (h : Holds n a S) :
    ∃ g, determineGeometry n a = some g ∧ Bounds n S g.2 := by
  obtain ⟨m, b, h1, _, h3⟩ := determineGeometry_spec n a h.1
  exact ⟨(m, b), h1, bounds_congr h.2 h3⟩

theorem Holds.cong {n : Nat} {a : Idx} {S : Crd → Prop} (h : Holds n a S) {c d : Crd} (e : ∀ k, k ≤ n → c k = d k) : S c ↔ S d := by
  rw [← h.2, ← h.2]
  exact RMem_congr h.1 e

section
variable {env : PMEnv} {G : Crd → Prop} {Nb : Crd → Crd → Prop} {gw : Nat}

theorem steps_inG (h : EnvBase env G Nb gw) (hG : ∀ a b, (∀ k, k ≤ env.n → a k = b k) → G a → G b) (k : Nat) (a c : Crd)
    (hs : Steps env.n Nb k a c) (ha : G a) : G c := by
  induction k generalizing a with
  | zero => exact hG a c hs ha
  | succ k ih =>
    obtain ⟨b, h1, h2⟩ := hs
    exact ih b h2 (h.inG a b h1 ha)

theorem exChain_spec (h : EnvBase env G Nb gw) (k : Nat) (r : Idx) (S : Crd → Prop) (hr : Holds env.n r S) (hG : ∀ c, S c → G c) :
    ∃ l, exChain (env.ex 1) k r = some l ∧ l.length = k + 1 ∧ (∀ i, i ≤ k → ∃ ri, l[i]? = some ri ∧
      Holds env.n ri (fun c => ∃ a, S a ∧ Steps env.n Nb i a c) ∧ ∀ c, (∃ a, S a ∧ Steps env.n Nb i a c) → G c) := by
  induction k generalizing r S with
  | zero =>
    refine ⟨[r], rfl, rfl, fun i hi => ?_⟩
    have hi0 : i = 0 := by omega
    subst hi0
    have e : ∀ c, S c ↔ ∃ a, S a ∧ Steps env.n Nb 0 a c :=
      fun c => ⟨fun hc => ⟨c, hc, fun _ _ => rfl⟩, fun ⟨a, ha, e⟩ => (hr.cong e).1 ha⟩
    exact ⟨r, rfl, hr.congr e, fun c hc => hG c ((e c).2 hc)⟩
  | succ k ih =>
    obtain ⟨r', h1, h2, h3⟩ := h.ex1 r hr.1 (fun c hc => hG c ((hr.2 c).1 hc))
    obtain ⟨l, l1, l2, l3⟩ := ih r' (fun c => ∃ a, S a ∧ Nb a c) ⟨h2, fun c => by rw [h3]; simp only [hr.2]⟩
      (fun c ⟨a, ha, hn⟩ => h.inG a c hn (hG a ha))
    refine ⟨r :: l, by rw [exChain, h1, Option.bind_some, l1, Option.map_some], by simp [l2], fun i hi => ?_⟩
    cases i with
    | zero =>
      have e : ∀ c, S c ↔ ∃ a, S a ∧ Steps env.n Nb 0 a c :=
        fun c => ⟨fun hc => ⟨c, hc, fun _ _ => rfl⟩, fun ⟨a, ha, e⟩ => (hr.cong e).1 ha⟩
      exact ⟨r, rfl, hr.congr e, fun c hc => hG c ((e c).2 hc)⟩
    | succ i =>
      obtain ⟨ri, r1, r2, r3⟩ := l3 i (by omega)
      have e : ∀ c, (∃ b, (∃ a, S a ∧ Nb a b) ∧ Steps env.n Nb i b c) ↔ ∃ a, S a ∧ Steps env.n Nb (i + 1) a c := by
        intro c
        constructor
        · rintro ⟨b, ⟨a, p, q⟩, s⟩; exact ⟨a, p, b, q, s⟩
        · rintro ⟨a, p, b, q, s⟩; exact ⟨b, ⟨a, p, q⟩, s⟩
      exact ⟨ri, by simpa using r1, r2.congr e, fun c hc => r3 c ((e c).2 hc)⟩

theorem steps_mono (h : EnvBase env G Nb gw) (k : Nat) (a c : Crd) (ha : G a) (hs : Steps env.n Nb k a c) (m : Nat) :
    Steps env.n Nb (k + m) a c := by
  induction m with
  | zero => exact hs
  | succ m ih => exact ⟨a, h.refl a ha, ih⟩

/-! ### `resetRegions` -/

variable {N : Nat} {P : Nat → Crd → Prop}

theorem fillRegion_spec (h : EnvBase env G Nb gw) (hp : PartOK env G N P) (k i : Nat) (hi : i < N) :
    ∃ l, fillRegion env k i = some l ∧ l.length = k + 1 ∧ ∀ w, w ≤ k → ∃ r, l[w]? = some r ∧
      Holds env.n r (Vicinity env.n Nb P i w) ∧ ∀ c, Vicinity env.n Nb P i w c → G c := by
  obtain ⟨r, h1, h2, h3, h4⟩ := hp i hi
  obtain ⟨l, l1, l2, l3⟩ := exChain_spec h k r (P i) ⟨h2, h3⟩ h4
  exact ⟨l, by rw [fillRegion, h1, Option.bind_some, l1], l2, l3⟩

theorem near_zero (hp : PartOK env G N P) (i : Nat) (hi : i < N) (c : Crd) : Vicinity env.n Nb P i 0 c ↔ P i c := by
  obtain ⟨r, h1, h2, h3, h4⟩ := hp i hi
  have hr : Holds env.n r (P i) := ⟨h2, h3⟩
  exact ⟨fun ⟨a, ha, e⟩ => (hr.cong e).1 ha, fun hc => ⟨c, hc, fun _ _ => rfl⟩⟩

theorem near_mono (h : EnvBase env G Nb gw) (hp : PartOK env G N P) (i : Nat) (hi : i < N) {w w' : Nat} (hw : w ≤ w') (c : Crd)
    (hc : Vicinity env.n Nb P i w c) : Vicinity env.n Nb P i w' c := by
  obtain ⟨_, _, _, _, h4⟩ := hp i hi
  obtain ⟨a, ha, hs⟩ := hc
  refine ⟨a, ha, ?_⟩
  have := steps_mono h w a c (h4 a ha) hs (w' - w)
  rwa [show w + (w' - w) = w' by omega] at this

/-- set of surface cells: foreign cells that need a cell of `S` -/
def Surface (Nb : Crd → Crd → Prop) (S : Crd → Prop) (c : Crd) : Prop := (∃ a, S a ∧ Nb c a) ∧ ¬ S c

/-- everything `resetRegions` computes; `X` is the set the expansion of the surface yields -/
structure RegionsOK (env : PMEnv) (Nb : Crd → Crd → Prop) (P : Nat → Crd → Prop) (gw rank : Nat) (X : Crd → Prop) (pm : PM) : Prop where
  rankEq : pm.rank = rank
  gwEq : pm.gw = gw
  own : ∃ l, fillRegion env gw rank = some l ∧ pm.regions = fun i => if i = rank then some l else none
  outerRim : Holds env.n pm.outerRim (fun c => Vicinity env.n Nb P rank gw c ∧ ¬ P rank c)
  rims : pm.rims.length = gw + 1
  rim : ∀ k, k ≤ gw → ∃ r, pm.rims[k]? = some r ∧ Holds env.n r
    (fun c => ∃ a, (P rank a ∧ X a) ∧ Steps env.n Nb (gw - k) a c)
  inners : pm.innerSets.length = gw + 1
  inner : ∀ k, k ≤ gw → ∃ r, pm.innerSets[k]? = some r ∧ Holds env.n r
    (fun c => ∃ a, (P rank a ∧ ¬ X a) ∧ Steps env.n Nb (gw - k) a c)
  volatileKernel : ∃ i r, pm.innerSets[gw]? = some i ∧ pm.rims[0]? = some r ∧ regAnd env.n i r = some pm.volatileKernel
  innerRim : pm.innerRim = pm.volatileKernel
  noOuter : ∀ i, pm.outer i = none
  noInner : ∀ i, pm.inner i = none

theorem resetRegions_spec (h : EnvBase env G Nb gw) (hp : PartOK env G N P) (rank : Nat) (hi : rank < N) :
    ∃ pm surf sx, resetRegions env gw rank = some pm ∧ Holds env.n surf (Surface Nb (P rank)) ∧ (∀ c, Surface Nb (P rank) c → G c) ∧
      env.ex gw surf = some sx ∧ RegOK env.n sx ∧ RegionsOK env Nb P gw rank (RMem env.n sx) pm := by
  obtain ⟨own, o1, o2, o3⟩ := fillRegion_spec h hp gw rank hi
  obtain ⟨r0, r01, r02, r03⟩ := o3 0 (by omega)
  have r02' := r02.congr (near_zero hp rank hi)
  obtain ⟨rE, rE1, rE2, _⟩ := o3 gw (by omega)
  have hPG : ∀ c, P rank c → G c := by obtain ⟨_, _, _, _, h4⟩ := hp rank hi; exact h4
  have hlast : own.getLast? = some rE := by rw [List.getLast?_eq_getElem?, o2]; exact rE1
  obtain ⟨revx, a1, a2, a3⟩ := h.rex1 r0 r02.1 (fun c hc => hPG c ((r02'.2 c).1 hc))
  have hrev : Holds env.n revx (fun c => ∃ a, P rank a ∧ Nb c a) := ⟨a2, fun c => by rw [a3]; simp only [r02'.2]⟩
  obtain ⟨surf, b1, b2⟩ := hrev.minus r02'
  have hsG : ∀ c, Surface Nb (P rank) c → G c := fun c ⟨⟨a, p, q⟩, _⟩ => h.revG c a q (hPG a p)
  obtain ⟨sx, d1, d2⟩ := h.exd surf b2.1 (fun c hc => hsG c ((b2.2 c).1 hc))
  have hsx : Holds env.n sx (RMem env.n sx) := ⟨d2, fun c => Iff.rfl⟩
  obtain ⟨kernel, k1, k2⟩ := r02'.minus hsx
  obtain ⟨orim, e1, e2⟩ := rE2.minus r02'
  obtain ⟨rim, f1, f2⟩ := r02'.minus k2
  have f2' : Holds env.n rim (fun c => P rank c ∧ RMem env.n sx c) := f2.congr (fun c => by tauto)
  obtain ⟨rims, g1, g2, g3⟩ := exChain_spec h gw rim _ f2' (fun c hc => hPG c hc.1)
  obtain ⟨ins, i1, i2, i3⟩ := exChain_spec h gw kernel _ k2 (fun c hc => hPG c hc.1)
  have hrev : ∀ {l : List Idx} (hl : l.length = gw + 1) (k : Nat), k ≤ gw → l.reverse[k]? = l[gw - k]? := by
    intro l hl k hk
    rw [List.getElem?_reverse (by omega), hl]
    congr 1
  obtain ⟨ib, ib1, ib2, _⟩ := i3 0 (by omega)
  obtain ⟨rb, rb1, rb2, _⟩ := g3 gw (by omega)
  have hib : ins.reverse[gw]? = some ib := by rw [hrev i2 gw (by omega), Nat.sub_self]; exact ib1
  have hil : ins.reverse.getLast? = some ib := by
    rw [List.getLast?_eq_getElem?, List.length_reverse, i2]; exact hib
  have hrb : rims.reverse[0]? = some rb := by rw [hrev g2 0 (by omega)]; exact rb1
  obtain ⟨vk, v1, v2⟩ := ib2.and rb2
  refine ⟨_, surf, sx, by
    rw [resetRegions, o1, Option.bind_some, r01, Option.bind_some, hlast, Option.bind_some, a1, Option.bind_some, b1, Option.bind_some,
      d1, Option.bind_some, k1, Option.bind_some, e1, Option.bind_some, f1, Option.bind_some, g1, Option.bind_some, i1, Option.bind_some,
      hil, Option.bind_some, hrb, Option.bind_some, v1, Option.bind_some, Option.bind_some], b2, hsG, d1, d2, ?_⟩
  refine ⟨rfl, rfl, ⟨own, o1, rfl⟩, e2, by simp [g2], ?_, by simp [i2], ?_, ⟨ib, rb, hib, hrb, v1⟩, rfl, fun _ => rfl, fun _ => rfl⟩
  · intro k hk
    obtain ⟨r, q1, q2, _⟩ := g3 (gw - k) (by omega)
    exact ⟨r, by simp only; rw [hrev g2 k hk]; exact q1, q2⟩
  · intro k hk
    obtain ⟨r, q1, q2, _⟩ := i3 (gw - k) (by omega)
    exact ⟨r, by simp only; rw [hrev i2 k hk]; exact q1, q2⟩

/-- the set the expansion of the surface yields, if expansion is exact -/
theorem surfaceX (h : EnvOK env G Nb gw) {S : Crd → Prop} {surf sx : Idx} (h1 : Holds env.n surf S) (hG : ∀ c, S c → G c)
    (h2 : env.ex gw surf = some sx) (c : Crd) : RMem env.n sx c ↔ ∃ s, S s ∧ Steps env.n Nb gw s c := by
  obtain ⟨r, d1, _, d3⟩ := h.exw surf h1.1 (fun c hc => hG c ((h1.2 c).1 hc))
  rw [h2] at d1
  obtain rfl := Option.some.inj d1
  rw [d3]; simp only [h1.2]

/-! ### ghost zone fragments -/

/-- Every entry of the cache holds what `fillRegion` computes. -/
def CacheOK (env : PMEnv) (gw : Nat) (c : RegCache) : Prop := ∀ i l, c i = some l → fillRegion env gw i = some l

theorem getRegion_spec (h : EnvBase env G Nb gw) (hp : PartOK env G N P) (c : RegCache) (hc : CacheOK env gw c) (i w : Nat)
    (hi : i < N) (hw : w ≤ gw) :
    ∃ c' r, pmGetRegion env gw c i w = some (c', r) ∧ CacheOK env gw c' ∧ Holds env.n r (Vicinity env.n Nb P i w) := by
  obtain ⟨l, l1, l2, l3⟩ := fillRegion_spec h hp gw i hi
  obtain ⟨r, r1, r2, _⟩ := l3 w hw
  unfold pmGetRegion
  cases hci : c i with
  | some l' =>
    have := hc i l' hci
    rw [l1] at this
    obtain rfl := Option.some.inj this
    exact ⟨c, r, by simp only; rw [r1]; rfl, hc, r2⟩
  | none =>
    refine ⟨_, r, by simp only; rw [l1, Option.bind_some, r1]; rfl, ?_, r2⟩
    intro j l' hj
    by_cases e : j = i
    · subst e; simp only [if_true] at hj; rw [l1, hj]
    · simp only [if_neg e] at hj; exact hc j l' hj

theorem isectLoop_spec (h : EnvBase env G Nb gw) (hp : PartOK env G N P) (rank node : Nat) (hr : rank < N) (hn : node < N)
    (is : List Nat) (his : ∀ i ∈ is, i ≤ gw) (c : RegCache) (hc : CacheOK env gw c) :
    ∃ c' os qs, isectLoop env gw rank node is c = some (c', os, qs) ∧ CacheOK env gw c' ∧
      List.Forall₂ (fun i o => Holds env.n o (fun c => Vicinity env.n Nb P rank i c ∧ P node c)) is os ∧
      List.Forall₂ (fun i q => Holds env.n q (fun c => P rank c ∧ Vicinity env.n Nb P node i c)) is qs := by
  induction is generalizing c with
  | nil => exact ⟨c, [], [], rfl, hc, .nil, .nil⟩
  | cons i is ih =>
    have hi := his i (List.mem_cons_self ..)
    obtain ⟨c1, r1, a1, a2, a3⟩ := getRegion_spec h hp c hc rank i hr hi
    obtain ⟨c2, r2, b1, b2, b3⟩ := getRegion_spec h hp c1 a2 node 0 hn (by omega)
    obtain ⟨o, o1, o2⟩ := a3.and b3
    obtain ⟨c3, r3, d1, d2, d3⟩ := getRegion_spec h hp c2 b2 rank 0 hr (by omega)
    obtain ⟨c4, r4, e1, e2, e3⟩ := getRegion_spec h hp c3 d2 node i hn hi
    obtain ⟨q, q1, q2⟩ := d3.and e3
    obtain ⟨c5, os, qs, f1, f2, f3, f4⟩ := ih (fun j hj => his j (List.mem_cons_of_mem _ hj)) c4 e2
    refine ⟨c5, o :: os, q :: qs, ?_, f2, .cons (o2.congr fun c => ?_) f3, .cons (q2.congr fun c => ?_) f4⟩
    · rw [isectLoop, a1, Option.bind_some, b1, Option.bind_some, o1, Option.bind_some, d1, Option.bind_some, e1, Option.bind_some,
        q1, Option.bind_some, f1, Option.map_some]
    · rw [near_zero hp node hn]
    · rw [near_zero hp rank hr]

/-- The vector of fragments for one other node: absent if all fragments would be empty; otherwise there is one for each
width, the one for width `w` holds exactly the set `S w`. -/
def FragOK (n gw : Nat) (m : Option (List Idx)) (S : Nat → Crd → Prop) : Prop :=
  (m = none → ∀ w, w ≤ gw → ∀ c, ¬ S w c) ∧
  ∀ l, m = some l → l.length = gw + 1 ∧ (∃ w c, w ≤ gw ∧ S w c) ∧
    ∀ w, w ≤ gw → ∃ r, l[w]? = some r ∧ Holds n r (S w)

theorem fragOK_of (n gw : Nat) (l : List Idx) (S : Nat → Crd → Prop)
    (h : List.Forall₂ (fun i o => Holds n o (S i)) (List.range (gw + 1)) l) :
    FragOK n gw (if allEmpty l then none else some l) S := by
  have hlen : l.length = gw + 1 := by rw [← h.length_eq, List.length_range]
  have hget : ∀ w, w ≤ gw → ∃ r, l[w]? = some r ∧ Holds n r (S w) := by
    intro w hw
    have h1 : w < l.length := by omega
    have := (List.forall₂_iff_get.1 h).2 w (by simp; omega) h1
    refine ⟨l[w], List.getElem?_eq_getElem h1, ?_⟩
    simpa using this
  by_cases he : allEmpty l = true
  · rw [if_pos he]
    refine ⟨fun _ w hw c hc => ?_, fun l' hl' => by cases hl'⟩
    obtain ⟨r, r1, r2⟩ := hget w hw
    have hmem := List.mem_of_getElem? r1
    have : (r 0).length = 0 := by
      have := List.all_eq_true.1 he r hmem
      simpa using this
    exact r2.nonempty.2 ⟨c, hc⟩ this
  · rw [if_neg he]
    refine ⟨fun hh => by simp at hh, fun l' hl' => ?_⟩
    obtain rfl := Option.some.inj hl'
    refine ⟨hlen, ?_, hget⟩
    have : ∃ r ∈ l, (r 0).length ≠ 0 := by
      by_contra hcon
      refine he (List.all_eq_true.2 fun r hr => ?_)
      have : ¬ (r 0).length ≠ 0 := fun hh => hcon ⟨r, hr, hh⟩
      simpa using this
    obtain ⟨r, hr, hne⟩ := this
    obtain ⟨w, hw, rfl⟩ := List.getElem_of_mem hr
    obtain ⟨r', r1, r2⟩ := hget w (by omega)
    rw [List.getElem?_eq_getElem hw] at r1
    obtain rfl := Option.some.inj r1
    obtain ⟨c, hc⟩ := r2.nonempty.1 hne
    exact ⟨w, c, by omega, hc⟩

end

end LGD
