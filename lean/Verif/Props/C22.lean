import Verif.Props.C21

/-!
# C22 – own regions, rims, inner sets and kernel of the partition manager
-/

namespace LGD.C22
open LGD.C01 LGD.C10 LGD.C14

section
variable {env : PMEnv} {G : Crd → Prop} {Nb : Crd → Crd → Prop} {gw N : Nat} {P : Nat → Crd → Prop}

/-- Spec: some cell outside of the set `S` needs the cell `c` for its next `gw` updates. -/
def NeededOutside (n : Nat) (G : Crd → Prop) (Nb : Crd → Crd → Prop) (S : Crd → Prop) (gw : Nat) (c : Crd) : Prop :=
  ∃ s, G s ∧ ¬ S s ∧ Steps n Nb gw s c

theorem surface_iff (h : EnvBase env G Nb gw) {S : Crd → Prop} (hS : ∀ c d : Crd, (∀ k, k ≤ env.n → c k = d k) → (S c ↔ S d))
    (hG : ∀ c, S c → G c) (k : Nat) (c : Crd) (hc : S c) :
    (∃ s, Surface Nb S s ∧ Steps env.n Nb k s c) ↔ NeededOutside env.n G Nb S k c := by
  constructor
  · rintro ⟨s, ⟨⟨a, ha, hn⟩, h2⟩, h3⟩
    exact ⟨s, h.revG s a hn (hG a ha), h2, h3⟩
  · rintro ⟨s, h1, h2, h3⟩
    induction k generalizing s with
    | zero => exact (h2 ((hS s c h3).2 hc)).elim
    | succ k ih =>
      obtain ⟨b, b1, b2⟩ := h3
      by_cases hb : S b
      · exact ⟨s, ⟨⟨b, hb, b1⟩, h2⟩, b, b1, b2⟩
      · obtain ⟨s', p, q⟩ := ih b (h.inG s b b1 h1) hb b2
        have p' := p
        obtain ⟨⟨a, ha, hn⟩, _⟩ := p'
        exact ⟨s', p, s', h.refl s' (h.revG s' a hn (hG a ha)), q⟩

theorem part_cong (hp : PartOK env G N P) {A : Nat} (hA : A < N) (c d : Crd) (e : ∀ k, k ≤ env.n → c k = d k) : P A c ↔ P A d := by
  obtain ⟨r, _, h2, h3, _⟩ := hp A hA
  exact Holds.cong ⟨h2, h3⟩ e

theorem part_G (hp : PartOK env G N P) {A : Nat} (hA : A < N) (c : Crd) (hc : P A c) : G c := by
  obtain ⟨_, _, _, _, h4⟩ := hp A hA
  exact h4 c hc

theorem steps_succ (h : EnvBase env G Nb gw) (k : Nat) (a c : Crd) :
    Steps env.n Nb (k + 1) a c ↔ ∃ b, Steps env.n Nb k a b ∧ Nb b c := by
  constructor
  · intro hs
    induction k generalizing a with
    | zero =>
      obtain ⟨b, h1, h2⟩ := hs
      exact ⟨a, fun _ _ => rfl, h.cong a a c b (fun _ _ => rfl) (fun k hk => (h2 k hk).symm) h1⟩
    | succ k ih =>
      obtain ⟨b, h1, h2⟩ := hs
      obtain ⟨d, d1, d2⟩ := ih b h2
      exact ⟨d, ⟨b, h1, d1⟩, d2⟩
  · rintro ⟨b, h1, h2⟩
    exact steps_snoc k a b c h1 h2 (fun p q e hh => h.cong p q c c e (fun _ _ => rfl) hh)

theorem steps_symm (h : EnvBase env G Nb gw) (hs : ∀ a c, Nb a c → Nb c a) (k : Nat) (a c : Crd) (hc : Steps env.n Nb k a c) :
    Steps env.n Nb k c a := by
  induction k generalizing a with
  | zero => exact fun j hj => (hc j hj).symm
  | succ k ih =>
    obtain ⟨b, h1, h2⟩ := hc
    exact (steps_succ h k c a).2 ⟨b, ih b h2, hs a b h1⟩

theorem steps_right (h : EnvBase env G Nb gw) (k : Nat) (a c d : Crd) (hs : Steps env.n Nb k a c) (e : ∀ j, j ≤ env.n → c j = d j) :
    Steps env.n Nb k a d := by
  induction k generalizing a with
  | zero => exact fun j hj => (hs j hj).trans (e j hj)
  | succ k ih =>
    obtain ⟨b, h1, h2⟩ := hs
    exact ⟨b, h1, ih b h2⟩

/-- **C22, own regions.** `ownRegion(0)` is the region the partition assigns; each further expansion adds exactly the cells
needed for one more update. -/
theorem own_regions (h : EnvBase env G Nb gw) (hp : PartOK env G N P) (A : Nat) (hA : A < N) :
    ∃ pm, setupPM env gw N A = some pm ∧ ∀ w, w ≤ gw → ∃ c r, pmGetRegion env gw pm.regions A w = some (c, r) ∧
      ∀ x, RMem env.n r x ↔ ∃ a, P A a ∧ Steps env.n Nb w a x := by
  obtain ⟨_, pm, _, a2, _, _, _, _, _, a3, _⟩ := C21.setup_spec h hp A hA
  refine ⟨pm, a2, fun w hw => ?_⟩
  obtain ⟨c, r, b1, _, b3⟩ := getRegion_spec h hp pm.regions a3 A w hA hw
  exact ⟨c, r, b1, b3.2⟩

/-- **C22, rim and kernel.** `rim(ghostZoneWidth)` consists of exactly those own cells which are needed by some foreign
cell within the next `ghostZoneWidth` updates, the kernel `innerSet(ghostZoneWidth)` of all other own cells. -/
theorem rim_and_kernel_partial (h : EnvOK env G Nb gw) (hp : PartOK env G N P) (A : Nat) (hA : A < N) :
    ∃ pm rim kernel, setupPM env gw N A = some pm ∧ pm.rims[gw]? = some rim ∧ pm.innerSets[gw]? = some kernel ∧
      (∀ c, RMem env.n rim c ↔ P A c ∧ NeededOutside env.n G Nb (P A) gw c) ∧
      (∀ c, RMem env.n kernel c ↔ P A c ∧ ¬ NeededOutside env.n G Nb (P A) gw c) := by
  obtain ⟨pm0, pm, _, a2, ⟨surf, sx, x1, x2, x3, x4, a3⟩, a4, a5, _⟩ := C21.setup_spec h.toEnvBase hp A hA
  obtain ⟨r, r1, r2⟩ := a3.rim gw (by omega)
  obtain ⟨k, k1, k2⟩ := a3.inner gw (by omega)
  have hc := part_cong hp hA
  have hG := part_G hp hA
  refine ⟨pm, r, k, a2, by rw [a4]; exact r1, by rw [a5]; exact k1, fun c => ?_, fun c => ?_⟩
  · rw [r2.2, Nat.sub_self]
    constructor
    · rintro ⟨a, ⟨p, q⟩, e⟩
      obtain ⟨s, s1, s2⟩ := (surfaceX h x1 x2 x3 a).1 q
      have hPc := (hc a c e).1 p
      exact ⟨hPc, (surface_iff h.toEnvBase hc hG gw c hPc).1 ⟨s, s1, steps_right h.toEnvBase gw s a c s2 e⟩⟩
    · rintro ⟨p, q⟩
      exact ⟨c, ⟨p, (surfaceX h x1 x2 x3 c).2 ((surface_iff h.toEnvBase hc hG gw c p).2 q)⟩, fun _ _ => rfl⟩
  · rw [k2.2, Nat.sub_self]
    constructor
    · rintro ⟨a, ⟨p, q⟩, e⟩
      have hPc := (hc a c e).1 p
      refine ⟨hPc, fun hn => q ((surfaceX h x1 x2 x3 a).2 ?_)⟩
      obtain ⟨s, s1, s2⟩ := (surface_iff h.toEnvBase hc hG gw c hPc).2 hn
      exact ⟨s, s1, steps_right h.toEnvBase gw s c a s2 (fun j hj => (e j hj).symm)⟩
    · rintro ⟨p, q⟩
      exact ⟨c, ⟨p, fun hn => q ((surface_iff h.toEnvBase hc hG gw c p).1 ((surfaceX h x1 x2 x3 c).1 hn))⟩, fun _ _ => rfl⟩

/-- **C22, nesting.** One more step outwards, each rim and each inner set contains exactly the cells that are needed for
updating the previous one. -/
theorem nesting (h : EnvBase env G Nb gw) (hp : PartOK env G N P) (A : Nat) (hA : A < N) :
    ∃ pm, setupPM env gw N A = some pm ∧ pm.rims.length = gw + 1 ∧ pm.innerSets.length = gw + 1 ∧ ∀ k, k < gw →
      (∃ r r', pm.rims[k]? = some r ∧ pm.rims[k + 1]? = some r' ∧ ∀ c, RMem env.n r c ↔ ∃ a, RMem env.n r' a ∧ Nb a c) ∧
      (∃ r r', pm.innerSets[k]? = some r ∧ pm.innerSets[k + 1]? = some r' ∧ ∀ c, RMem env.n r c ↔ ∃ a, RMem env.n r' a ∧ Nb a c) := by
  obtain ⟨pm0, pm, _, a2, ⟨surf, sx, x1, x2, x3, x4, a3⟩, a4, a5, _⟩ := C21.setup_spec h hp A hA
  refine ⟨pm, a2, by rw [a4]; exact a3.rims, by rw [a5]; exact a3.inners, fun k hk => ⟨?_, ?_⟩⟩
  · obtain ⟨r, r1, r2⟩ := a3.rim k (by omega)
    obtain ⟨s, s1, s2⟩ := a3.rim (k + 1) (by omega)
    refine ⟨r, s, by rw [a4]; exact r1, by rw [a4]; exact s1, fun c => ?_⟩
    rw [r2.2, show gw - k = gw - (k + 1) + 1 by omega]
    simp only [s2.2, steps_succ h]
    constructor
    · rintro ⟨a, p, b, q, q'⟩; exact ⟨b, ⟨a, p, q⟩, q'⟩
    · rintro ⟨b, ⟨a, p, q⟩, q'⟩; exact ⟨a, p, b, q, q'⟩
  · obtain ⟨r, r1, r2⟩ := a3.inner k (by omega)
    obtain ⟨s, s1, s2⟩ := a3.inner (k + 1) (by omega)
    refine ⟨r, s, by rw [a5]; exact r1, by rw [a5]; exact s1, fun c => ?_⟩
    rw [r2.2, show gw - k = gw - (k + 1) + 1 by omega]
    simp only [s2.2, steps_succ h]
    constructor
    · rintro ⟨a, p, b, q, q'⟩; exact ⟨b, ⟨a, p, q⟩, q'⟩
    · rintro ⟨b, ⟨a, p, q⟩, q'⟩; exact ⟨a, p, b, q, q'⟩

/-- **C22, inner sets stay inside.** If the neighborhood is symmetric, updating the kernel never needs a foreign cell: all
inner sets are part of the node's own region. -/
theorem inner_sets_own_partial (h : EnvOK env G Nb gw) (hp : PartOK env G N P) (hsym : ∀ a c, Nb a c → Nb c a) (A : Nat) (hA : A < N) :
    ∃ pm, setupPM env gw N A = some pm ∧ ∀ k, k ≤ gw → ∃ r, pm.innerSets[k]? = some r ∧ ∀ c, RMem env.n r c → P A c := by
  obtain ⟨pm0, pm, _, a2, ⟨surf, sx, x1, x2, x3, x4, a3⟩, a4, a5, _⟩ := C21.setup_spec h.toEnvBase hp A hA
  have hc := part_cong hp hA
  have hG := part_G hp hA
  refine ⟨pm, a2, fun k hk => ?_⟩
  obtain ⟨r, r1, r2⟩ := a3.inner k hk
  refine ⟨r, by rw [a5]; exact r1, fun c hcr => ?_⟩
  obtain ⟨a, ⟨p, q⟩, s⟩ := (r2.2 c).1 hcr
  by_contra hn
  have gc : ∀ m (a c : Crd), Steps env.n Nb m a c → P A a → G c ∨ P A c := by
    intro m
    induction m with
    | zero => intro a c e ha; exact Or.inr ((hc a c e).1 ha)
    | succ m ih =>
      intro a c hs ha
      obtain ⟨b, b1, b2⟩ := (steps_succ h.toEnvBase m a c).1 hs
      rcases ih a b b1 ha with hb | hb
      · exact Or.inl (h.inG b c b2 hb)
      · exact Or.inl (h.inG b c b2 (hG b hb))
  have hGc : G c := (gc _ a c s p).resolve_right hn
  have hs' := steps_symm h.toEnvBase hsym _ a c s
  have hs2 := steps_mono h.toEnvBase (gw - k) c a hGc hs' k
  rw [show gw - k + k = gw by omega] at hs2
  exact q ((surfaceX h x1 x2 x3 a).2 ((surface_iff h.toEnvBase hc hG gw a p).2 ⟨c, hGc, hn, hs2⟩))

/-- **C22, inner ghost zones.** All cells a node has to provide for others are part of its rim, so that they are available
ahead of the kernel update. The regions of the nodes must not overlap. -/
theorem inner_ghosts_in_rim_partial (h : EnvOK env G Nb gw) (hp : PartOK env G N P)
    (hdis : ∀ i j c, i < N → j < N → P i c → P j c → i = j) (A B : Nat) (hA : A < N) (hB : B < N) :
    ∃ pm rim, setupPM env gw N A = some pm ∧ pm.rims[gw]? = some rim ∧
      ∀ l r w, pm.inner B = some l → w ≤ gw → l[w]? = some r → ∀ c, RMem env.n r c → RMem env.n rim c := by
  obtain ⟨pm, rim, kernel, b1, b2, _, b4, _⟩ := rim_and_kernel_partial h hp A hA
  obtain ⟨pm0, pm', _, a2, _, _, _, _, _, _, _, _, a3, _⟩ := C21.setup_spec h.toEnvBase hp A hA
  rw [b1] at a2
  obtain rfl := Option.some.inj a2
  refine ⟨pm, rim, b1, b2, fun l r w hl hw hr c hc => ?_⟩
  obtain ⟨_, _, l2⟩ := (a3 B hB).2 l hl
  obtain ⟨r', r1, r2⟩ := l2 w hw
  rw [hr] at r1
  obtain rfl := Option.some.inj r1
  obtain ⟨hne, ⟨a, ha, hs⟩, hPA⟩ := (r2.2 c).1 hc
  rw [b4]
  have hGa := part_G hp hB a ha
  have := steps_mono h.toEnvBase w a c hGa hs (gw - w)
  rw [show w + (gw - w) = gw by omega] at this
  exact ⟨hPA, a, hGa, fun hh => hne (hdis B A a hB hA ha hh), this⟩

/-- **C22, volatile kernel.** The part of the kernel that is overwritten while updating the rim. -/
theorem volatile_kernel (h : EnvBase env G Nb gw) (hp : PartOK env G N P) (A : Nat) (hA : A < N) :
    ∃ pm rim0 kernel, setupPM env gw N A = some pm ∧ pm.rims[0]? = some rim0 ∧ pm.innerSets[gw]? = some kernel ∧
      ∀ c, RMem env.n pm.volatileKernel c ↔ RMem env.n kernel c ∧ RMem env.n rim0 c := by
  obtain ⟨pm0, pm, _, a2, ⟨_, _, _, _, _, _, a3⟩, a4, a5, _, a6, _⟩ := C21.setup_spec h hp A hA
  obtain ⟨i, r, i1, r1, e⟩ := a3.volatileKernel
  obtain ⟨i', i2, i3⟩ := a3.inner gw (by omega)
  obtain ⟨r', r2, r3⟩ := a3.rim 0 (by omega)
  rw [i1] at i2
  obtain rfl := Option.some.inj i2
  rw [r1] at r2
  obtain rfl := Option.some.inj r2
  refine ⟨pm, r, i, a2, by rw [a4]; exact r1, by rw [a5]; exact i1, fun c => ?_⟩
  obtain ⟨v, v1, _, v3⟩ := regAnd_spec env.n i r i3.1 r3.1
  rw [e] at v1
  rw [a6, Option.some.inj v1, v3]

end

/-! ## An adjacency that only lists the edges of the given region -/

/-- a path of 12 nodes -/
def pathNb (x : Int) : List Int := if x < 0 ∨ 12 ≤ x then [] else (if 0 < x then [x - 1] else []) ++ (if x < 11 then [x + 1] else [])

/-- "yields an Adjacency object with all outgoing edges of the node set in the given Region" (adjacencymanufacturer.h:26-30),
as in UnstructuredTestInitializer (unstructuredtestinitializer.h:82-98) -/
def localAdj (r : Idx) (x : Int) : List Int := if regCountCoord 0 r (fun _ => x) = some true then pathNb x else []

/-- two nodes with the regions [0,6), [6,12) -/
def part2 : Nat → Option Idx
  | 0 => regInsert 0 emptyIdx { origin := fun _ => 0, endX := 6 }
  | 1 => regInsert 0 emptyIdx { origin := fun _ => 6, endX := 12 }
  | _ => none

/-- **C22 fails for unstructured grids and ghost zones wider than one**: if the adjacency manufacturer only returns the
edges of the nodes in the given region (as documented), then cell 4 is in the fragment that node 0 has to provide to
node 1, but not in node 0's rim: the surface is expanded by two hops with an adjacency that only knows the first one
(partitionmanager.h:293-299). -/
theorem local_adjacency_wrong : ∃ pm l r rim, setupPM (unstructuredEnv part2 localAdj localAdj) 2 2 0 = some pm ∧
    pm.inner 1 = some l ∧ l[2]? = some r ∧ pm.rims[2]? = some rim ∧
    regCountCoord 0 r (fun _ => 4) = some true ∧ regCountCoord 0 rim (fun _ => 4) = some false := by
  have h : ((setupPM (unstructuredEnv part2 localAdj localAdj) 2 2 0).bind fun pm => (pm.inner 1).bind fun l => l[2]?.bind fun r =>
      pm.rims[2]?.bind fun rim => (regCountCoord 0 r (fun _ => 4)).bind fun a => (regCountCoord 0 rim (fun _ => 4)).map fun b => (a, b)) =
      some (true, false) := by decide +kernel
  simp only [Option.bind_eq_some_iff, Option.map_eq_some_iff, Prod.mk.injEq] at h
  obtain ⟨pm, h1, l, h2, r, h3, rim, h4, a, h5, b, h6, rfl, rfl⟩ := h
  exact ⟨pm, l, r, rim, h1, h2, h3, h4, h5, h6⟩

theorem pathNb_mem (x y : Int) : y ∈ pathNb x ↔ (0 ≤ x ∧ x < 12 ∧ 0 ≤ y ∧ y < 12 ∧ (y = x - 1 ∨ y = x + 1)) := by
  unfold pathNb
  by_cases h1 : x < 0 ∨ 12 ≤ x
  · rw [if_pos h1]; simp; omega
  · rw [if_neg h1]
    by_cases h2 : 0 < x <;> by_cases h3 : x < 11 <;> simp [h2, h3] <;> omega

/-- The hypotheses of C21 are met by this adjacency nevertheless: fragments match and cover. -/
example : EnvBase (unstructuredEnv part2 localAdj localAdj) (fun _ => True) (GraphNb pathNb) 2 := by
  refine unstructured_base part2 _ _ pathNb 2 (fun r x hx y => ?_) (fun r x hx y => ?_)
  · unfold localAdj Has RMem at *; rw [if_pos hx]
  · unfold localAdj Has RMem at *; rw [if_pos hx, pathNb_mem, pathNb_mem]; omega

/-- With the complete graph there is no such problem; `unstructured_ok` applies. -/
example : EnvOK (unstructuredEnv part2 (fun _ => pathNb) (fun _ => pathNb)) (fun _ => True) (GraphNb pathNb) 2 := by
  refine unstructured_ok part2 _ _ pathNb 2 (fun _ _ _ _ => Iff.rfl) (fun r x _ y => ?_) (Or.inr (fun _ _ _ => Iff.rfl))
  rw [pathNb_mem, pathNb_mem]
  omega

/-- torus of 12 cells, ghost zone width 2, node 0 owns [0,5): kernel {2}, rim [0,2) and [3,5) -/
example : ((setupPM C21.env3 2 3 0).bind fun pm => (pm.innerSets ++ pm.rims).mapM
    (fun r => (toVector 0 r).map (List.map (fun s => (s.origin 0, s.endX))))) =
    some [[(0, 5)], [(1, 4)], [(2, 3)], [(0, 7), (10, 12)], [(0, 6), (11, 12)], [(0, 2), (3, 5)]] := by decide +kernel

end LGD.C22
