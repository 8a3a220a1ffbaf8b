import Verif.Step.DistModel
import Verif.Region.Iter
import Verif.Props.C22
import Verif.Props.C43
import Mathlib.Data.List.Sort

/-!
# Clusters whose regions come from the partition managers
-/

namespace LGD.Step
open LGD.Patch

/-- coordinates with exactly `n + 1` components -/
abbrev Vec (n : Nat) := Fin (n + 1) → Int

instance (n : Nat) : DecidableEq (Vec n) := fun a b => decidable_of_iff (∀ i, a i = b i) funext_iff.symm

/-- as a coordinate of the region model -/
def ext {n : Nat} (c : Vec n) : Crd := fun k => if h : k < n + 1 then c ⟨k, h⟩ else 0

/-- the components of a coordinate -/
def restrict (n : Nat) (c : Crd) : Vec n := fun k => c k

theorem ext_restrict (n : Nat) (c : Crd) (k : Nat) (hk : k ≤ n) : ext (restrict n c) k = c k := by
  unfold ext restrict
  rw [dif_pos (by omega)]

theorem restrict_ext {n : Nat} (c : Vec n) : restrict n (ext c) = c := by
  funext k
  unfold ext restrict
  exact dif_pos k.2

theorem ext_inj {n : Nat} {c d : Vec n} (h : ∀ k, k ≤ n → ext c k = ext d k) : c = d := by
  rw [← restrict_ext c, ← restrict_ext d]
  funext k
  exact h k (by omega)

/-- the coordinates of a region in iteration order (C05) -/
def regCoords (n : Nat) (idx : Idx) : List (Vec n) := (((toVector n idx).getD []).flatMap coordsOf).map (restrict n)

theorem regCoords_spec (n : Nat) (idx : Idx) (h : RegOK n idx) :
    (regCoords n idx).Pairwise (fun a b => CrdLt n (ext a) (ext b)) ∧ ∀ c, c ∈ regCoords n idx ↔ RMem n idx (ext c) := by
  obtain ⟨l, e, _, hc⟩ := toVector_spec h
  unfold regCoords
  rw [e, Option.getD_some]
  refine ⟨?_, fun c => ?_⟩
  · rw [List.pairwise_map]
    refine (flatMap_sorted n l hc.pos hc.sorted).imp ?_
    rintro a b ⟨k, h1, h2, h3⟩
    refine ⟨k, h1, by rw [ext_restrict n a k h1, ext_restrict n b k h1]; exact h2, fun j hj hj' => ?_⟩
    rw [ext_restrict n a j hj', ext_restrict n b j hj']
    exact h3 j hj hj'
  · rw [hc.mem, List.mem_map]
    constructor
    · rintro ⟨a, ha, rfl⟩
      obtain ⟨s, h3, h4⟩ := List.mem_flatMap.1 ha
      obtain ⟨y, h5, h6, rfl⟩ := (mem_coordsOf s a (hc.pos s h3)).1 h4
      have h0 : ext (restrict n (upd s.origin 0 y)) 0 = y := by rw [ext_restrict n _ 0 (by omega)]; simp [upd]
      refine ⟨s, h3, ?_, by omega, by omega⟩
      intro k hk hk'
      rw [ext_restrict n _ k hk']
      simp only [upd]
      rw [if_neg (by omega)]
    · rintro ⟨s, h1, h2⟩
      refine ⟨upd s.origin 0 (ext c 0), List.mem_flatMap.2 ⟨s, h1, (mem_coordsOf s _ (hc.pos s h1)).2 ⟨ext c 0, h2.2.1, h2.2.2, rfl⟩⟩, ?_⟩
      apply ext_inj
      intro k hk
      rw [ext_restrict n _ k hk]
      unfold upd
      split
      · rename_i h; rw [h]
      · exact (h2.1 k (by omega) hk).symm

theorem crdLt_irrefl (n : Nat) (a : Crd) : ¬ CrdLt n a a := by
  rintro ⟨k, _, h, _⟩; omega

theorem crdLt_antisymm (n : Nat) (a b : Crd) (h : CrdLt n a b) : ¬ CrdLt n b a := by
  rintro ⟨k, k1, k2, k3⟩
  obtain ⟨j, j1, j2, j3⟩ := h
  rcases Nat.lt_trichotomy k j with h | h | h
  · have := k3 j h j1; omega
  · subst h; omega
  · have := j3 k h k1; omega

theorem regCoords_nodup (n : Nat) (idx : Idx) (h : RegOK n idx) : (regCoords n idx).Nodup := by
  refine (regCoords_spec n idx h).1.imp ?_
  rintro a b hab rfl
  exact crdLt_irrefl n _ hab

theorem regCoords_ext (n : Nat) (a b : Idx) (ha : RegOK n a) (hb : RegOK n b) (h : ∀ c, RMem n a c ↔ RMem n b c) :
    regCoords n a = regCoords n b := by
  obtain ⟨a1, a2⟩ := regCoords_spec n a ha
  obtain ⟨b1, b2⟩ := regCoords_spec n b hb
  have : Std.Irrefl (fun x y : Vec n => CrdLt n (ext x) (ext y)) := ⟨fun x => crdLt_irrefl n _⟩
  have : Std.Antisymm (fun x y : Vec n => CrdLt n (ext x) (ext y)) := ⟨fun x y h1 h2 => absurd h2 (crdLt_antisymm n _ _ h1)⟩
  exact a1.eq_of_mem_iff b1 (fun c => by rw [a2, b2, h])

variable {α : Type}

/-- the region of a link, `i->second.back()` (updategroup.h:191-193, 212-214); no link without an entry -/
def linkRegion (n : Nat) (m : Option (List Idx)) : List (Vec n) :=
  match m.bind List.getLast? with
  | none => []
  | some r => regCoords n r

/-- `N` update groups with their partition managers (updategroup.h:169-255) -/
def pmCluster (env : PMEnv) (gw N inf : Nat) (S : C43.Sim (Vec env.n) α) : Cluster (Vec env.n) α where
  N := N
  env i :=
    { W := gw, nanoSteps := S.nanoSteps, startStep := S.startStep, lastStep := S.lastStep, inf := inf, initial := S.initial
      rim := fun k => match (setupPM env gw N i).bind (fun pm => pm.rims[k]?) with | none => [] | some r => regCoords env.n r
      inner := fun k => match (setupPM env gw N i).bind (fun pm => pm.innerSets[k]?) with | none => [] | some r => regCoords env.n r
      volatileKernel := match setupPM env gw N i with | none => [] | some pm => regCoords env.n pm.volatileKernel
      outerRim := match setupPM env gw N i with | none => [] | some pm => regCoords env.n pm.outerRim
      ownRegion := match (setupPM env gw N i).bind (fun pm => pmOwn pm 0) with | none => [] | some r => regCoords env.n r
      steerers := S.steerers
      upd := S.upd
      prov := fun _ g => g }
  recvRegion i j := linkRegion env.n ((setupPM env gw N i).bind fun pm => pm.outer j)
  sendRegion j i := linkRegion env.n ((setupPM env gw N j).bind fun pm => pm.inner i)

end LGD.Step

namespace LGD.C43
open LGD.Patch LGD.Step LGD.C26

variable {α : Type} {env : PMEnv} {G : Crd → Prop} {Nb : Crd → Crd → Prop} {gw N : Nat} {P : Nat → Crd → Prop}

/-- neighborhood of cells, as seen by the update function -/
def VNb (Nb : Crd → Crd → Prop) {n : Nat} (c d : Vec n) : Prop := c = d ∨ Nb (ext c) (ext d)

theorem linkRegion_spec (n gw : Nat) (m : Option (List Idx)) (S : Nat → Crd → Prop) (h : FragOK n gw m S) :
    (linkRegion n m).Nodup ∧ ∀ c, c ∈ linkRegion n m ↔ S gw (ext c) := by
  unfold linkRegion
  cases m with
  | none => exact ⟨by simp, fun c => by simpa using h.1 rfl gw (le_refl _) (ext c)⟩
  | some l =>
    obtain ⟨h1, _, h2⟩ := h.2 l rfl
    obtain ⟨r, r1, r2⟩ := h2 gw (le_refl _)
    have hl : l.getLast? = some r := by rw [List.getLast?_eq_getElem?, h1]; exact r1
    simp only [Option.bind_some, hl]
    exact ⟨regCoords_nodup n r r2.1, fun c => by rw [(regCoords_spec n r r2.1).2, r2.2]⟩

theorem linkRegion_eq (n gw : Nat) (m m' : Option (List Idx)) (S : Nat → Crd → Prop) (h : FragOK n gw m S) (h' : FragOK n gw m' S) :
    linkRegion n m = linkRegion n m' := by
  have a2 := (linkRegion_spec n gw m S h).2
  have b2 := (linkRegion_spec n gw m' S h').2
  have key : ∀ m, FragOK n gw m S → (linkRegion n m).Pairwise (fun x y : Vec n => CrdLt n (ext x) (ext y)) := by
    intro m h
    unfold linkRegion
    cases m with
    | none => simp
    | some l =>
      obtain ⟨h1, _, h2⟩ := h.2 l rfl
      obtain ⟨r, r1, r2⟩ := h2 gw (le_refl _)
      have hl : l.getLast? = some r := by rw [List.getLast?_eq_getElem?, h1]; exact r1
      simp only [Option.bind_some, hl]
      exact (regCoords_spec n r r2.1).1
  have : Std.Irrefl (fun x y : Vec n => CrdLt n (ext x) (ext y)) := ⟨fun x => crdLt_irrefl n _⟩
  have : Std.Antisymm (fun x y : Vec n => CrdLt n (ext x) (ext y)) := ⟨fun x y h1 h2 => absurd h2 (crdLt_antisymm n _ _ h1)⟩
  exact (key m h).eq_of_mem_iff (key m' h') (fun c => by rw [a2, b2])

/-! the cache of regions only grows, so that the node's own region stays available -/

/-- entries of the first cache are still in the second one -/
def Keeps (c c' : RegCache) : Prop := ∀ j l, c j = some l → c' j = some l

theorem getRegion_keeps {env : PMEnv} {gw : Nat} {c : RegCache} {node w : Nat} {p : RegCache × Idx} (h : pmGetRegion env gw c node w = some p) :
    Keeps c p.1 := by
  unfold pmGetRegion at h
  cases hc : c node with
  | some l =>
    rw [hc] at h
    obtain ⟨r, _, rfl⟩ := Option.map_eq_some_iff.mp h
    exact fun _ _ h => h
  | none =>
    rw [hc] at h
    obtain ⟨l, _, h⟩ := Option.bind_eq_some_iff.mp h
    obtain ⟨r, _, rfl⟩ := Option.map_eq_some_iff.mp h
    intro j l' hj
    simp only
    rw [if_neg (by rintro rfl; rw [hc] at hj; cases hj)]
    exact hj

theorem isectLoop_keeps {env : PMEnv} {gw rank node : Nat} : ∀ (is : List Nat) (c : RegCache) (res : RegCache × List Idx × List Idx),
    isectLoop env gw rank node is c = some res → Keeps c res.1
  | [], c, res, h => by cases h; exact fun _ _ h => h
  | i :: is, c, res, h => by
    unfold isectLoop at h
    obtain ⟨p1, h1, h⟩ := Option.bind_eq_some_iff.mp h
    obtain ⟨p2, h2, h⟩ := Option.bind_eq_some_iff.mp h
    obtain ⟨o, _, h⟩ := Option.bind_eq_some_iff.mp h
    obtain ⟨p3, h3, h⟩ := Option.bind_eq_some_iff.mp h
    obtain ⟨p4, h4, h⟩ := Option.bind_eq_some_iff.mp h
    obtain ⟨q, _, h⟩ := Option.bind_eq_some_iff.mp h
    obtain ⟨r, h5, rfl⟩ := Option.map_eq_some_iff.mp h
    intro j l hj
    exact isectLoop_keeps is _ _ h5 j l (getRegion_keeps h4 j l (getRegion_keeps h3 j l (getRegion_keeps h2 j l (getRegion_keeps h1 j l hj))))

theorem intersect_keeps {env : PMEnv} {pm pm' : PM} {node : Nat} (h : pmIntersect env pm node = some pm') :
    Keeps pm.regions pm'.regions ∧ pm'.rank = pm.rank := by
  unfold pmIntersect at h
  obtain ⟨r, h1, rfl⟩ := Option.map_eq_some_iff.mp h
  exact ⟨isectLoop_keeps _ _ _ h1, rfl⟩

theorem gzStep_keeps {env : PMEnv} {b e bb ebb : Box} {i : Nat} {pm pm' : PM} (h : gzStep env b e i bb ebb pm = some pm') :
    Keeps pm.regions pm'.regions ∧ pm'.rank = pm.rank := by
  unfold gzStep at h
  split at h
  · obtain ⟨p1, h1, h⟩ := Option.bind_eq_some_iff.mp h
    obtain ⟨p2, h2, h⟩ := Option.bind_eq_some_iff.mp h
    obtain ⟨x, _, h⟩ := Option.bind_eq_some_iff.mp h
    split at h
    · obtain ⟨a, b⟩ := intersect_keeps h
      exact ⟨fun j l hj => a j l (getRegion_keeps h2 j l (getRegion_keeps h1 j l hj)), b⟩
    · obtain ⟨p3, h3, h⟩ := Option.bind_eq_some_iff.mp h
      obtain ⟨p4, h4, h⟩ := Option.bind_eq_some_iff.mp h
      obtain ⟨y, _, h⟩ := Option.bind_eq_some_iff.mp h
      have k4 : Keeps pm.regions p4.1 := fun j l hj =>
        getRegion_keeps h4 j l (getRegion_keeps h3 j l (getRegion_keeps h2 j l (getRegion_keeps h1 j l hj)))
      split at h
      · obtain ⟨a, b⟩ := intersect_keeps h
        exact ⟨fun j l hj => a j l (k4 j l hj), b⟩
      · cases h; exact ⟨k4, rfl⟩
  · cases h; exact ⟨fun _ _ h => h, rfl⟩

theorem gzLoop_keeps {env : PMEnv} {b e : Box} : ∀ (ps : List (Nat × Box × Box)) (pm pm' : PM), gzLoop env b e ps pm = some pm' →
    Keeps pm.regions pm'.regions ∧ pm'.rank = pm.rank
  | [], pm, pm', h => by cases h; exact ⟨fun _ _ h => h, rfl⟩
  | (i, bb, ebb) :: r, pm, pm', h => by
    unfold gzLoop at h
    obtain ⟨pm1, h1, h2⟩ := Option.bind_eq_some_iff.mp h
    obtain ⟨a, b⟩ := gzStep_keeps h1
    obtain ⟨c, d⟩ := gzLoop_keeps r pm1 pm' h2
    exact ⟨fun j l hj => c j l (a j l hj), d.trans b⟩

theorem setup_own {env : PMEnv} {gw N A : Nat} {pm0 pm : PM} (h0 : resetRegions env gw A = some pm0) (h : setupPM env gw N A = some pm) :
    Keeps pm0.regions pm.regions ∧ pm.rank = pm0.rank := by
  unfold setupPM at h
  obtain ⟨b, _, h⟩ := Option.bind_eq_some_iff.mp h
  obtain ⟨pm1, h1, h⟩ := Option.bind_eq_some_iff.mp h
  rw [h0] at h1; cases h1
  unfold resetGhostZones at h
  split at h
  · cases h
  · obtain ⟨_, _, h⟩ := Option.bind_eq_some_iff.mp h
    obtain ⟨_, _, h⟩ := Option.bind_eq_some_iff.mp h
    obtain ⟨_, _, h⟩ := Option.bind_eq_some_iff.mp h
    obtain ⟨_, _, h⟩ := Option.bind_eq_some_iff.mp h
    obtain ⟨pm2, h2, h⟩ := Option.bind_eq_some_iff.mp h
    obtain ⟨_, _, h⟩ := Option.bind_eq_some_iff.mp h
    obtain ⟨_, _, h⟩ := Option.bind_eq_some_iff.mp h
    obtain ⟨_, _, rfl⟩ := Option.map_eq_some_iff.mp h
    exact (gzLoop_keeps _ _ _ h2 :)

/-- The partition managers set up a cluster whose nodes cooperate. -/
theorem pmCluster_ok (h : EnvOK env G Nb gw) (hp : PartOK env G N P) (hdis : ∀ i j c, i < N → j < N → P i c → P j c → i = j)
    (hcov : ∀ c, G c → ∃ i, i < N ∧ P i c) (hsym : ∀ a c, Nb a c → Nb c a) (hgw : 0 < gw) (inf : Nat) (S : Sim (Vec env.n) α)
    (hns : 0 < S.nanoSteps) (hS : ∀ f ∈ S.steerers, 0 < f.period ∧ S.startStep ≤ S.lastStep) :
    ClusterOK (pmCluster env gw N inf S) gw S (fun i c => P i (ext c))
      (fun i c => Vicinity env.n Nb P i gw (ext c) ∧ ¬ P i (ext c)) (VNb Nb) := by
  have hP : ∀ i, i < N → ∃ pm, setupPM env gw N i = some pm ∧
      (∀ B, B < N → FragOK env.n gw (pm.outer B) (C21.Needs env.n Nb P i B)) ∧
      (∀ B, B < N → FragOK env.n gw (pm.inner B) (C21.Needs env.n Nb P B i)) := by
    intro i hi
    obtain ⟨_, pm, _, a2, _, _, _, _, _, _, _, a3, a4, _⟩ := C21.setup_spec h.toEnvBase hp i hi
    exact ⟨pm, a2, a3, a4⟩
  refine ⟨fun _ _ => rfl, fun _ _ => rfl, fun _ _ => rfl, fun _ _ => rfl, fun _ _ => rfl, hS, fun _ _ => rfl, fun _ _ _ _ => rfl, ?_, ?_, ?_, ?_, ?_, ?_⟩
  · intro i hi
    change i < N at hi
    obtain ⟨pm0, pm, a1, a2, ⟨surf, sx, x1, x2, x3, x4, a3⟩, a4, a5, a6, a7, _⟩ := C21.setup_spec h.toEnvBase hp i hi
    obtain ⟨pm1, rimW, kernel, b1, b2, b3, b4, b5⟩ := C22.rim_and_kernel_partial h hp i hi
    obtain ⟨pm2, c1, c2, c3, c4⟩ := C22.nesting h.toEnvBase hp i hi
    obtain ⟨pm3, d1, d2⟩ := C22.inner_sets_own_partial h hp hsym i hi
    obtain ⟨pm4, rim0, ker4, e1, e2, e3, e4⟩ := C22.volatile_kernel h.toEnvBase hp i hi
    rw [a2] at b1 c1 d1 e1
    cases b1; cases c1; cases d1; cases e1
    rw [b3] at e3
    cases e3
    -- membership of the regions
    have hrim : ∀ k, k ≤ gw → ∃ r, pm.rims[k]? = some r ∧ RegOK env.n r ∧
        ∀ c, RMem env.n r c ↔ ∃ a, (P i a ∧ RMem env.n sx a) ∧ Steps env.n Nb (gw - k) a c := by
      intro k hk
      obtain ⟨r, r1, r2⟩ := a3.rim k hk
      exact ⟨r, by rw [a4]; exact r1, r2.1, r2.2⟩
    have hinn : ∀ k, k ≤ gw → ∃ r, pm.innerSets[k]? = some r ∧ RegOK env.n r := by
      intro k hk
      obtain ⟨r, r1, r2⟩ := a3.inner k hk
      exact ⟨r, by rw [a5]; exact r1, r2.1⟩
    have hvk : RegOK env.n pm.volatileKernel := by
      obtain ⟨i', r, i1, r1, e⟩ := a3.volatileKernel
      obtain ⟨i'', i2, i3⟩ := a3.inner gw (le_refl _)
      obtain ⟨r', r2, r3⟩ := a3.rim 0 (by omega)
      rw [i1] at i2; cases i2
      rw [r1] at r2; cases r2
      obtain ⟨v, v1, v2, v3⟩ := regAnd_spec env.n _ _ i3.1 r3.1
      rw [e] at v1; cases v1
      rw [a7]; exact v2
    set E := (pmCluster env gw N inf S).env i with hE
    have mrim : ∀ k r, pm.rims[k]? = some r → E.rim k = regCoords env.n r := by
      intro k r hr
      simp only [hE, pmCluster, a2, Option.bind_some, hr]
    have minn : ∀ k r, pm.innerSets[k]? = some r → E.inner k = regCoords env.n r := by
      intro k r hr
      simp only [hE, pmCluster, a2, Option.bind_some, hr]
    have mvk : E.volatileKernel = regCoords env.n pm.volatileKernel := by
      simp only [hE, pmCluster, a2]
    have inRim : ∀ k r, k ≤ gw → pm.rims[k]? = some r → ∀ c, c ∈ E.rim k ↔ RMem env.n r (ext c) := by
      intro k r hk hr c
      obtain ⟨r', r1, r2, _⟩ := hrim k hk
      rw [hr] at r1; cases r1
      rw [mrim k r hr, (regCoords_spec env.n r r2).2]
    have inInn : ∀ k r, k ≤ gw → pm.innerSets[k]? = some r → ∀ c, c ∈ E.inner k ↔ RMem env.n r (ext c) := by
      intro k r hk hr c
      obtain ⟨r', r1, r2⟩ := hinn k hk
      rw [hr] at r1; cases r1
      rw [minn k r hr, (regCoords_spec env.n r r2).2]
    have hG := C22.part_G hp hi
    have vicG : ∀ w c, Vicinity env.n Nb P i w c → w ≤ gw → G c := by
      intro w c hc hw
      obtain ⟨_, _, _, hh⟩ := fillRegion_spec h.toEnvBase hp gw i hi
      obtain ⟨_, _, _, h3⟩ := hh w hw
      exact h3 c hc
    refine ⟨hgw, hns, ?_, ?_, ?_, ?_, fun c => Or.inl rfl, ?_, ?_, ?_, ?_, ?_, ?_, ?_, ?_⟩
    · obtain ⟨r, r1, r2, _⟩ := hrim gw (le_refl _)
      change (E.rim gw).Nodup
      rw [mrim gw r r1]; exact regCoords_nodup _ _ r2
    · rw [mvk]; exact regCoords_nodup _ _ hvk
    · intro c
      change _ ↔ c ∈ E.rim gw ∨ c ∈ E.inner gw
      rw [inRim gw rimW (le_refl _) b2, inInn gw kernel (le_refl _) b3, b4, b5]
      tauto
    · intro c hc
      change c ∉ E.inner gw
      change c ∈ E.rim gw at hc
      rw [inInn gw kernel (le_refl _) b3, b5]
      rw [inRim gw rimW (le_refl _) b2, b4] at hc
      tauto
    · intro k hk c d hc hd
      change k < gw at hk
      obtain ⟨⟨r, r', q1, q2, q3⟩, _⟩ := c4 k hk
      rw [inRim k r (by omega) q1, q3]
      rw [inRim (k + 1) r' (by omega) q2] at hc
      rcases hd with rfl | hd
      · refine ⟨ext c, hc, h.refl _ ?_⟩
        obtain ⟨r'', w1, w2, w3⟩ := hrim (k + 1) (by omega)
        rw [q2] at w1; cases w1
        obtain ⟨a, ha, hs⟩ := (w3 _).1 hc
        exact vicG (gw - (k + 1)) _ ⟨a, ha.1, hs⟩ (by omega)
      · exact ⟨ext c, hc, hd⟩
    · intro k hk c d hc hd
      change k < gw at hk
      obtain ⟨_, ⟨r, r', q1, q2, q3⟩⟩ := c4 k hk
      rw [inInn k r (by omega) q1, q3]
      rw [inInn (k + 1) r' (by omega) q2] at hc
      rcases hd with rfl | hd
      · refine ⟨ext c, hc, h.refl _ ?_⟩
        obtain ⟨r'', w1, w2⟩ := d2 (k + 1) (by omega)
        rw [q2] at w1; cases w1
        exact hG _ (w2 _ hc)
      · exact ⟨ext c, hc, hd⟩
    · intro c hc
      obtain ⟨r, r1, r2⟩ := d2 0 (by omega)
      exact r2 _ ((inInn 0 r (by omega) r1 c).1 hc)
    · intro c hc
      obtain ⟨r, r1, _, r2⟩ := hrim 0 (by omega)
      rw [inRim 0 r (by omega) r1, r2] at hc
      obtain ⟨a, ha, hs⟩ := hc
      by_cases ho : P i (ext c)
      · exact Or.inl ho
      · exact Or.inr ⟨⟨a, ha.1, hs⟩, ho⟩
    · intro c hc; exact hc.2
    · intro c
      change c ∈ E.volatileKernel ↔ c ∈ E.inner gw ∧ c ∈ E.rim 0
      rw [mvk, (regCoords_spec _ _ hvk).2, e4, inInn gw kernel (le_refl _) b3, inRim 0 rim0 (by omega) e2]
    · intro c
      have e : E.outerRim = regCoords env.n pm.outerRim := by simp only [hE, pmCluster, a2]
      rw [e, a6, (regCoords_spec _ _ a3.outerRim.1).2, a3.outerRim.2]
    · intro c
      obtain ⟨k1, k2⟩ := setup_own a1 a2
      obtain ⟨l, l1, l2⟩ := a3.own
      obtain ⟨l', m1, _, m3⟩ := fillRegion_spec h.toEnvBase hp gw i hi
      rw [l1] at m1; cases m1
      obtain ⟨r0, n1, n2, _⟩ := m3 0 (by omega)
      have n2' := n2.congr (near_zero hp i hi)
      have hown : pmOwn pm 0 = some r0 := by
        unfold pmOwn
        rw [k2, a3.rankEq, k1 i l (by rw [l2]; simp), Option.bind_some]; exact n1
      have e : E.ownRegion = regCoords env.n r0 := by simp only [hE, pmCluster, a2, Option.bind_some, hown]
      rw [e, (regCoords_spec _ _ n2'.1).2, n2'.2]
  · intro i j hi hj
    obtain ⟨pa, a1, a2, _⟩ := hP i hi
    obtain ⟨pb, b1, _, b3⟩ := hP j hj
    simp only [pmCluster, a1, b1, Option.bind_some]
    exact linkRegion_eq env.n gw _ _ _ (b3 i hi) (a2 j hj)
  · intro i j hi hj
    obtain ⟨pa, a1, a2, _⟩ := hP i hi
    simp only [pmCluster, a1, Option.bind_some]
    exact (linkRegion_spec env.n gw _ _ (a2 j hj)).1
  · intro i j hi hj c hc
    obtain ⟨pa, a1, a2, _⟩ := hP i hi
    simp only [pmCluster, a1, Option.bind_some] at hc
    rw [(linkRegion_spec env.n gw _ _ (a2 j hj)).2] at hc
    obtain ⟨hne, ⟨a, ha, hs⟩, hPj⟩ := hc
    obtain ⟨pm1, rimW, kernel, b1, b2, b3, b4, b5⟩ := C22.rim_and_kernel_partial h hp j hj
    obtain ⟨pm0, pm, _, p2, ⟨surf, sx, x1, x2, x3, x4, p3⟩, p4, _⟩ := C21.setup_spec h.toEnvBase hp j hj
    rw [b1] at p2; cases p2
    obtain ⟨r, r1, r2⟩ := p3.rim gw (le_refl _)
    rw [← p4, b2] at r1; cases r1
    simp only [pmCluster, b1, Option.bind_some, b2]
    rw [(regCoords_spec env.n rimW r2.1).2, b4]
    exact ⟨hPj, a, C22.part_G hp hi a ha, fun hh => hne (hdis i j a hi hj ha hh), hs⟩
  · intro i hi c hc
    change i < N at hi
    have hGc : G (ext c) := by
      obtain ⟨_, _, _, hh⟩ := fillRegion_spec h.toEnvBase hp gw i hi
      obtain ⟨_, _, _, h3⟩ := hh gw (le_refl _)
      exact h3 _ hc.1
    obtain ⟨j, hj, hPj⟩ := hcov _ hGc
    refine ⟨j, hj, ?_⟩
    obtain ⟨pa, a1, a2, _⟩ := hP i hi
    simp only [pmCluster, a1, Option.bind_some]
    rw [(linkRegion_spec env.n gw _ _ (a2 j hj)).2]
    refine ⟨?_, hc.1, hPj⟩
    rintro rfl
    exact hc.2 hPj
  · intro i j hi hj c hc
    obtain ⟨pa, a1, a2, _⟩ := hP i hi
    simp only [pmCluster, a1, Option.bind_some] at hc
    rw [(linkRegion_spec env.n gw _ _ (a2 j hj)).2] at hc
    refine ⟨hc.2.1, fun hh => hc.1 (hdis i j _ hi hj hh hc.2.2)⟩

/-- **C43 for structured grids.** Any decomposition of an n-dimensional grid with any combination of periodic and constant
boundaries, any ghost zone width up to the periodic extents, any steerers and any update function which reads the Moore
neighborhood: each own cell of each node was shown to the node's accepters for each nano step so far, as the serial simulation computes
it; without steerers at each synchronisation point the node's grid holds what the serial simulation computes on the whole own region. -/
theorem structured_distributed (n : Nat) (part : Nat → Option Idx) (dim : Crd) (wraps : Nat → Bool) (gw N inf : Nat) (S : Sim (Vec n) α) (P : Nat → Crd → Prop)
    (hw : ∀ k, k ≤ n → wraps k = true → 1 ≤ dim k ∧ (gw : Int) ≤ dim k) (hgw : 0 < gw) (hns : 0 < S.nanoSteps)
    (hS : ∀ f ∈ S.steerers, 0 < f.period ∧ S.startStep ≤ S.lastStep)
    (hp : PartOK (structuredEnv n part dim wraps) (C14.InDim n dim) N P)
    (hdis : ∀ i j c, i < N → j < N → P i c → P j c → i = j) (hcov : ∀ c, C14.InDim n dim c → ∃ i, i < N ∧ P i c)
    (hl : ∀ m (g h : Vec n → α) c, (∀ d, VNb (MooreNb n wraps dim) c d → g d = h d) → S.upd m g c = S.upd m h c)
    (b1 b2 : Nat → Nat → List α) (nodes : Nat → St (Vec n) α)
    (hr : Reach (pmCluster (structuredEnv n part dim wraps) gw N inf S) b1 b2 nodes) (i : Nat) (hi : i < N) (k : Nat)
    (hk : (nodes i).step * S.nanoSteps + (nodes i).nano = S.first + k) (c : Vec n) (hc : P i (ext c)) :
    (∀ s, s ≤ k → ∃ g, (Ev.ghost (S.first + s) g ∈ (nodes i).log ∨ Ev.inner (S.first + s) g ∈ (nodes i).log) ∧ g c = shown S s c) ∧
    (S.steerers = [] → gw ∣ k → (nodes i).old c = serial S k c) := by
  have hok := structured_ok n part dim wraps gw hw
  have hC := pmCluster_ok hok hp hdis hcov (mooreNb_symm n wraps dim) hgw inf S hns hS
  obtain ⟨_, _, _, h4, _⟩ := distributed_serial hC hl hr i hi
  have e : steps (pmCluster (structuredEnv n part dim wraps) gw N inf S) i (nodes i) = k := by
    unfold steps glob t0
    change (nodes i).step * S.nanoSteps + (nodes i).nano - S.first = k
    omega
  rw [e] at h4
  refine ⟨fun s hs => ?_, fun h0 hd => h4 h0 hd c hc⟩
  obtain ⟨g, g1, g2⟩ := distributed_shown hC hl hr i hi c hc s (by rw [e]; exact hs)
  exact ⟨g, g1.imp (fun h => h.1) (fun h => h.1), g2⟩

/-! Non-vacuity: three nodes on a torus of 12 cells, ghost zone width 2 (see C21). -/

theorem part3_ok : PartOK C21.env3 (C14.InDim 0 (fun _ => 12)) 3 C21.P3 := by
  have key : ∀ a b : Int, 0 ≤ a → b ≤ 12 → ∃ r, regInsert 0 emptyIdx { origin := fun _ => a, endX := b } = some r ∧ RegOK 0 r ∧
      (∀ c, RMem 0 r c ↔ a ≤ c 0 ∧ c 0 < b) ∧ ∀ c : Crd, (a ≤ c 0 ∧ c 0 < b) → C14.InDim 0 (fun _ => 12) c := by
    intro a b ha hb
    obtain ⟨r, h1, h2, h3⟩ := regInsert_spec 0 emptyIdx { origin := fun _ => a, endX := b } (regOK_empty 0)
    refine ⟨r, h1, h2, fun c => ?_, ?_⟩
    · rw [h3]
      have := regEmpty_mem 0 c
      simp only [SMem]
      constructor
      · rintro (h | h)
        · exact absurd h this
        · exact h.2
      · intro h; exact Or.inr ⟨fun k _ _ => by omega, h⟩
    · intro c hc k hk
      obtain rfl : k = 0 := by omega
      simp only; omega
  intro i hi
  have : i = 0 ∨ i = 1 ∨ i = 2 := by omega
  rcases this with rfl | rfl | rfl
  · exact key 0 5 (by omega) (by omega)
  · exact key 5 8 (by omega) (by omega)
  · exact key 8 12 (by omega) (by omega)

/-- a state reachable in the example in which all nodes are at nano step 8 (with three nano steps per step and a steerer which adds
to each cell its coordinate, every second step) -/
example (upd : Nat → (Vec 0 → Int) → Vec 0 → Int)
    (hl : ∀ m (g h : Vec 0 → Int) c, (∀ d, VNb (MooreNb 0 (fun _ => true) (fun _ => 12)) c d → g d = h d) → upd m g c = upd m h c)
    (initial : Vec 0 → Int) (dflt : St (Vec 0) Int) (S : Sim (Vec 0) Int)
    (hS : S = ⟨3, 0, 5, upd, initial, [{ period := 2, act := fun _ _ c x => x + c 0 }]⟩) :
    ∃ nodes, Reach (pmCluster C21.env3 2 3 1000 S) (fun _ _ => []) (fun _ _ => []) nodes ∧
      ∀ i, i < 3 → ∀ c : Vec 0, C21.P3 i (ext c) → ∀ s, s ≤ 8 →
        ∃ g, (Ev.ghost s g ∈ (nodes i).log ∨ Ev.inner s g ∈ (nodes i).log) ∧ g c = shown S s c := by
  have hw : ∀ k, k ≤ 0 → (fun _ : Nat => true) k = true → 1 ≤ (fun _ : Nat => (12 : Int)) k ∧ ((2 : Nat) : Int) ≤ (fun _ : Nat => (12 : Int)) k := by
    intro k _ _; simp only; omega
  have hdis : ∀ i j c, i < 3 → j < 3 → C21.P3 i c → C21.P3 j c → i = j := by
    intro i j c hi hj h1 h2
    have a : i = 0 ∨ i = 1 ∨ i = 2 := by omega
    have b : j = 0 ∨ j = 1 ∨ j = 2 := by omega
    rcases a with rfl | rfl | rfl <;> rcases b with rfl | rfl | rfl <;> first | rfl | (unfold C21.P3 at h1 h2; simp at h1 h2; omega)
  have hcov : ∀ c, C14.InDim 0 (fun _ => 12) c → ∃ i, i < 3 ∧ C21.P3 i c := by
    intro c hc
    have := hc 0 (by omega)
    simp only at this
    by_cases h1 : c 0 < 5
    · exact ⟨0, by omega, by unfold C21.P3; simp; omega⟩
    · by_cases h2 : c 0 < 8
      · exact ⟨1, by omega, by unfold C21.P3; simp; omega⟩
      · exact ⟨2, by omega, by unfold C21.P3; simp; omega⟩
  have hC := pmCluster_ok (structured_ok 0 C21.part3 (fun _ => 12) (fun _ => true) 2 hw) part3_ok hdis hcov
    (mooreNb_symm 0 (fun _ => true) (fun _ => 12)) (by omega) 1000 S (by rw [hS]; exact Nat.succ_pos _)
    (by
      intro f hf
      rw [hS] at hf ⊢
      obtain rfl := List.mem_singleton.mp hf
      simp)
  have hl' : ∀ m (g h : Vec 0 → Int) c, (∀ d, VNb (MooreNb 0 (fun _ => true) (fun _ => 12)) c d → g d = h d) → S.upd m g c = S.upd m h c := by
    rw [hS]; exact hl
  obtain ⟨n0, r0, s0⟩ := starts hC hl' (fun _ _ => []) (fun _ _ => []) dflt
  obtain ⟨nodes, r1, s1⟩ := completes hC hl' 8 n0 r0 (fun i hi => by rw [s0 i hi]; omega)
  refine ⟨nodes, r1, fun i hi c hc s hs => ?_⟩
  obtain ⟨g, g1, g2⟩ := distributed_shown hC hl' r1 i hi c hc s (by rw [s1 i hi]; exact hs)
  have e : S.first + s = s := by rw [hS]; simp [Sim.first]
  rw [← e]
  refine ⟨g, g1.imp (fun h => h.1) (fun h => h.1), ?_⟩
  rw [e]; exact g2

end LGD.C43
