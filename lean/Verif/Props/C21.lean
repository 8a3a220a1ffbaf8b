import Verif.Part.PMInst

/-!
# C21 – ghost zone fragments of neighboring nodes match
-/

namespace LGD.C21
open LGD.C01 LGD.C04 LGD.C12

section
variable {env : PMEnv} {G : Crd → Prop} {Nb : Crd → Crd → Prop} {gw N : Nat} {P : Nat → Crd → Prop}

/-- Spec: what node `A` needs from node `B` in order to do `w` updates on its own. -/
def Needs (n : Nat) (Nb : Crd → Crd → Prop) (P : Nat → Crd → Prop) (A B w : Nat) (c : Crd) : Prop :=
  A ≠ B ∧ Vicinity n Nb P A w c ∧ P B c

theorem bounds_in {n : Nat} {S : Crd → Prop} {b : Box} (h : Bounds n S b) {c : Crd} (hc : S c) : InBox n b c :=
  fun k hk => h.2.1 c hc k hk

theorem cond_of {n : Nat} {S T : Crd → Prop} {a b : Box} (ha : Bounds n S a) (hb : Bounds n T b) {c : Crd} (hc : S c) (hd : T c) :
    boxIntersects n a b = true :=
  (bounds_checks n a b).2.2.2 ⟨c, bounds_in ha hc, bounds_in hb hd⟩

/-- state of the loop over all nodes -/
structure GZInv (env : PMEnv) (Nb : Crd → Crd → Prop) (P : Nat → Crd → Prop) (gw rank : Nat) (pm0 : PM) (done : Nat → Prop) (pm : PM) : Prop where
  base : pm = { pm0 with regions := pm.regions, outer := pm.outer, inner := pm.inner }
  cache : CacheOK env gw pm.regions
  todo : ∀ i, ¬ done i → pm.outer i = none ∧ pm.inner i = none
  out : ∀ i, done i → FragOK env.n gw (pm.outer i) (Needs env.n Nb P rank i)
  inn : ∀ i, done i → FragOK env.n gw (pm.inner i) (Needs env.n Nb P i rank)

theorem _root_.LGD.FragOK.congr {n gw : Nat} {m : Option (List Idx)} {S T : Nat → Crd → Prop} (h : FragOK n gw m S) (e : ∀ w c, S w c ↔ T w c) :
    FragOK n gw m T := by
  have : S = T := funext fun w => funext fun c => propext (e w c)
  rw [← this]; exact h

theorem intersect_spec (h : EnvBase env G Nb gw) (hp : PartOK env G N P) {rank : Nat} (hr : rank < N) {pm0 : PM} (hpr : pm0.rank = rank)
    (hgw : pm0.gw = gw) {done : Nat → Prop} {pm : PM} (hI : GZInv env Nb P gw rank pm0 done pm) (i : Nat) (hi : i < N) (hne : i ≠ rank)
    (c : RegCache) (hc : CacheOK env gw c) :
    ∃ pm', pmIntersect env { pm with regions := c } i = some pm' ∧ GZInv env Nb P gw rank pm0 (fun j => done j ∨ j = i) pm' := by
  have hb := hI.base
  have e1 : pm.rank = rank := by rw [hb]; exact hpr
  have e2 : pm.gw = gw := by rw [hb]; exact hgw
  obtain ⟨c', os, qs, a1, a2, a3, a4⟩ := isectLoop_spec h hp rank i hr hi (List.range (gw + 1))
    (fun j hj => by have := List.mem_range.1 hj; omega) c hc
  unfold pmIntersect
  simp only [e1, e2]
  rw [a1, Option.map_some]
  refine ⟨_, rfl, ⟨?_, a2, ?_, ?_, ?_⟩⟩
  · rw [← hpr, ← hgw]
    simp only
    rw [hb]
  · intro j hj
    have h1 : j ≠ i := fun e => hj (Or.inr e)
    have h2 := hI.todo j (fun e => hj (Or.inl e))
    simp only [if_neg h1]
    exact h2
  · intro j hj
    by_cases e : j = i
    · subst e
      simp only [if_true]
      exact FragOK.congr (fragOK_of _ _ _ _ a3) (fun w c => by unfold Needs; have := Ne.symm hne; tauto)
    · simp only [if_neg e]
      exact hI.out j (hj.resolve_right e)
  · intro j hj
    by_cases e : j = i
    · subst e
      simp only [if_true]
      exact FragOK.congr (fragOK_of _ _ _ _ a4) (fun w c => by unfold Needs; tauto)
    · simp only [if_neg e]
      exact hI.inn j (hj.resolve_right e)

theorem skip_spec {rank : Nat} {pm0 : PM} {done : Nat → Prop} {pm : PM} (hI : GZInv env Nb P gw rank pm0 done pm) (i : Nat)
    (c : RegCache) (hc : CacheOK env gw c) (h1 : ∀ w c, w ≤ gw → ¬ Needs env.n Nb P rank i w c)
    (h2 : ∀ w c, w ≤ gw → ¬ Needs env.n Nb P i rank w c) :
    GZInv env Nb P gw rank pm0 (fun j => done j ∨ j = i) { pm with regions := c } := by
  refine ⟨?_, hc, fun j hj => hI.todo j (fun e => hj (Or.inl e)), fun j hj => ?_, fun j hj => ?_⟩
  · simp only
    rw [hI.base]
  · by_cases hd : done j
    · exact hI.out j hd
    · have := hj.resolve_left hd
      subst this
      refine ⟨fun _ w hw c => h1 w c hw, fun l hl => ?_⟩
      simp only [(hI.todo j hd).1] at hl
      cases hl
  · by_cases hd : done j
    · exact hI.inn j hd
    · have := hj.resolve_left hd
      subst this
      refine ⟨fun _ w hw c => h2 w c hw, fun l hl => ?_⟩
      simp only [(hI.todo j hd).2] at hl
      cases hl

theorem gzStep_spec (h : EnvBase env G Nb gw) (hp : PartOK env G N P) {rank : Nat} (hr : rank < N) {pm0 : PM} (hpr : pm0.rank = rank)
    (hgw : pm0.gw = gw) {done : Nat → Prop} {pm : PM} (hI : GZInv env Nb P gw rank pm0 done pm) (i : Nat) (hi : i < N)
    (ownBB ownEBB bb ebb : Box) (b1 : Bounds env.n (P rank) ownBB) (b2 : Bounds env.n (Vicinity env.n Nb P rank gw) ownEBB)
    (b3 : Bounds env.n (P i) bb) (b4 : Bounds env.n (Vicinity env.n Nb P i gw) ebb) :
    ∃ pm', gzStep env ownBB ownEBB i bb ebb pm = some pm' ∧ GZInv env Nb P gw rank pm0 (fun j => done j ∨ j = i) pm' := by
  have hb := hI.base
  have e1 : pm.rank = rank := by rw [hb]; exact hpr
  have e2 : pm.gw = gw := by rw [hb]; exact hgw
  have hreg : pm = { pm with regions := pm.regions } := rfl
  unfold gzStep
  by_cases hne : i = rank
  · rw [if_neg (by rw [e1]; tauto)]
    refine ⟨pm, rfl, ?_⟩
    exact skip_spec hI i pm.regions hI.cache (fun w c _ hh => hh.1 hne.symm) (fun w c _ hh => hh.1 hne)
  · by_cases hc : boxIntersects env.n bb ownEBB || boxIntersects env.n ebb ownBB
    · rw [if_pos ⟨by rw [e1]; exact hne, hc⟩]
      simp only [e1, e2]
      obtain ⟨c1, r1, p1, p2, p3⟩ := getRegion_spec h hp pm.regions hI.cache rank gw hr (by omega)
      obtain ⟨c2, r2, q1, q2, q3⟩ := getRegion_spec h hp c1 p2 i 0 hi (by omega)
      obtain ⟨x, x1, x2⟩ := p3.and (q3.congr (near_zero hp i hi))
      rw [p1, Option.bind_some, q1, Option.bind_some, x1, Option.bind_some]
      by_cases hx : (x 0).length ≠ 0
      · rw [if_pos hx]
        have := intersect_spec h hp hr hpr hgw hI i hi hne c2 q2
        simp only [e1, e2] at this
        exact this
      · rw [if_neg hx]
        obtain ⟨c3, r3, s1, s2, s3⟩ := getRegion_spec h hp c2 q2 i gw hi (by omega)
        obtain ⟨c4, r4, t1, t2, t3⟩ := getRegion_spec h hp c3 s2 rank 0 hr (by omega)
        obtain ⟨y, y1, y2⟩ := s3.and (t3.congr (near_zero hp rank hr))
        rw [s1, Option.bind_some, t1, Option.bind_some, y1, Option.bind_some]
        by_cases hy : (y 0).length ≠ 0
        · rw [if_pos hy]
          have := intersect_spec h hp hr hpr hgw hI i hi hne c4 t2
          simp only [e1, e2] at this
          exact this
        · rw [if_neg hy]
          have := skip_spec hI i c4 t2
            (fun w c hw hh => hx (x2.nonempty.2 ⟨c, near_mono h hp rank hr hw c hh.2.1, hh.2.2⟩))
            (fun w c hw hh => hy (y2.nonempty.2 ⟨c, near_mono h hp i hi hw c hh.2.1, hh.2.2⟩))
          simp only [e1, e2] at this
          exact ⟨_, rfl, this⟩
    · rw [if_neg (fun hh => hc hh.2)]
      rw [Bool.or_eq_true, not_or] at hc
      refine ⟨pm, rfl, ?_⟩
      refine skip_spec hI i pm.regions hI.cache (fun w c hw hh => ?_) (fun w c hw hh => ?_)
      · exact hc.1 (cond_of b3 b2 hh.2.2 (near_mono h hp rank hr hw c hh.2.1))
      · exact hc.2 (cond_of b4 b1 (near_mono h hp i hi hw c hh.2.1) hh.2.2)

theorem gzLoop_spec (h : EnvBase env G Nb gw) (hp : PartOK env G N P) {rank : Nat} (hr : rank < N) {pm0 : PM} (hpr : pm0.rank = rank)
    (hgw : pm0.gw = gw) (ownBB ownEBB : Box) (b1 : Bounds env.n (P rank) ownBB) (b2 : Bounds env.n (Vicinity env.n Nb P rank gw) ownEBB)
    (l : List (Nat × Box × Box)) (hl : ∀ p ∈ l, p.1 < N ∧ Bounds env.n (P p.1) p.2.1 ∧ Bounds env.n (Vicinity env.n Nb P p.1 gw) p.2.2)
    (done : Nat → Prop) (pm : PM) (hI : GZInv env Nb P gw rank pm0 done pm) :
    ∃ pm', gzLoop env ownBB ownEBB l pm = some pm' ∧ GZInv env Nb P gw rank pm0 (fun j => done j ∨ j ∈ l.map Prod.fst) pm' := by
  induction l generalizing done pm with
  | nil => exact ⟨pm, rfl, by simpa using hI⟩
  | cons p l ih =>
    obtain ⟨i, bb, ebb⟩ := p
    obtain ⟨hi, b3, b4⟩ := hl _ (List.mem_cons_self ..)
    obtain ⟨pm1, s1, s2⟩ := gzStep_spec h hp hr hpr hgw hI i hi ownBB ownEBB bb ebb b1 b2 b3 b4
    obtain ⟨pm2, t1, t2⟩ := ih (fun q hq => hl q (List.mem_cons_of_mem _ hq)) _ pm1 s2
    refine ⟨pm2, by rw [gzLoop, s1, Option.bind_some, t1], ?_⟩
    have e : (fun j => (done j ∨ j = i) ∨ j ∈ l.map Prod.fst) = (fun j => done j ∨ j ∈ ((i, bb, ebb) :: l).map Prod.fst) := by
      funext j; simp [or_assoc]
    rw [← e]; exact t2

theorem subtractFrags_spec (n gw : Nat) (m : Nat → Option (List Idx)) (T : Nat → Nat → Crd → Prop) (is : List Nat) 
    (hm : ∀ i ∈ is, FragOK n gw (m i) (T i)) (acc : Idx) (S : Crd → Prop) (ha : Holds n acc S) :
    ∃ r, subtractFrags n m is acc = some r ∧ Holds n r (fun c => S c ∧ ∀ i ∈ is, ¬ T i gw c) := by
  induction is generalizing acc S with
  | nil => exact ⟨acc, rfl, ha.congr (fun c => by simp)⟩
  | cons i is ih =>
    have hi := hm i (List.mem_cons_self ..)
    have key : ∃ r, subtractFrag n (m i) acc = some r ∧ Holds n r (fun c => S c ∧ ¬ T i gw c) := by
      cases hmi : m i with
      | none => exact ⟨acc, rfl, ha.congr (fun c => by have := hi.1 hmi gw (by omega) c; tauto)⟩
      | some l =>
        obtain ⟨l1, _, l2⟩ := hi.2 l hmi
        obtain ⟨r, r1, r2⟩ := l2 gw (by omega)
        have : l.getLast? = some r := by rw [List.getLast?_eq_getElem?, l1]; exact r1
        obtain ⟨d, d1, d2⟩ := ha.minus r2
        exact ⟨d, by rw [subtractFrag, this, Option.bind_some, d1], d2⟩
    obtain ⟨r, r1, r2⟩ := key
    obtain ⟨r', q1, q2⟩ := ih (fun j hj => hm j (List.mem_cons_of_mem _ hj)) r _ r2
    refine ⟨r', by rw [subtractFrags, r1, Option.bind_some, q1], q2.congr (fun c => ?_)⟩
    simp only [List.forall_mem_cons, and_assoc]

theorem gather_spec (h : EnvBase env G Nb gw) (hp : PartOK env G N P) (is : List Nat) (his : ∀ i ∈ is, i < N) :
    ∃ bs es, gatherBoxes env gw is = some (bs, es) ∧ List.Forall₂ (fun i b => Bounds env.n (P i) b) is bs ∧
      List.Forall₂ (fun i b => Bounds env.n (Vicinity env.n Nb P i gw) b) is es := by
  induction is with
  | nil => exact ⟨[], [], rfl, .nil, .nil⟩
  | cons i is ih =>
    have hi := his i (List.mem_cons_self ..)
    obtain ⟨pm, _, _, p1, _, _, _, _, p2⟩ := resetRegions_spec h hp i hi
    obtain ⟨l, l1, l2, l3⟩ := fillRegion_spec h hp gw i hi
    obtain ⟨l', l4, l5⟩ := p2.own
    rw [l1] at l4
    obtain rfl := Option.some.inj l4
    obtain ⟨r0, a1, a2, _⟩ := l3 0 (by omega)
    obtain ⟨rE, d1, d2, _⟩ := l3 gw (by omega)
    obtain ⟨g, g1, g2⟩ := (a2.congr (near_zero hp i hi)).geom
    obtain ⟨gE, e1, e2⟩ := d2.geom
    obtain ⟨bs, es, f1, f2, f3⟩ := ih (fun j hj => his j (List.mem_cons_of_mem _ hj))
    have o1 : pmOwn pm 0 = some r0 := by unfold pmOwn; rw [l5, p2.rankEq]; simp [a1]
    have o2 : pmOwnExpanded pm = some rE := by
      unfold pmOwnExpanded
      rw [l5, p2.rankEq]
      simp only [if_true, Option.bind_some]
      rw [List.getLast?_eq_getElem?, l2]; exact d1
    refine ⟨g.2 :: bs, gE.2 :: es, ?_, .cons g2 f2, .cons e2 f3⟩
    rw [gatherBoxes, p1, Option.bind_some, o1, Option.bind_some, o2, Option.bind_some, g1, Option.bind_some, e1, Option.bind_some, f1]
    rfl

/-- Everything the setup of the partition manager of node `A` delivers. -/
theorem setup_spec (h : EnvBase env G Nb gw) (hp : PartOK env G N P) (A : Nat) (hA : A < N) :
    ∃ pm0 pm, resetRegions env gw A = some pm0 ∧ setupPM env gw N A = some pm ∧
      (∃ surf sx, Holds env.n surf (Surface Nb (P A)) ∧ (∀ c, Surface Nb (P A) c → G c) ∧ env.ex gw surf = some sx ∧
        RegOK env.n sx ∧ RegionsOK env Nb P gw A (RMem env.n sx) pm0) ∧
      pm.rims = pm0.rims ∧ pm.innerSets = pm0.innerSets ∧ pm.outerRim = pm0.outerRim ∧ pm.volatileKernel = pm0.volatileKernel ∧
      CacheOK env gw pm.regions ∧ (∀ B, N ≤ B → pm.outer B = none ∧ pm.inner B = none) ∧
      (∀ B, B < N → FragOK env.n gw (pm.outer B) (Needs env.n Nb P A B)) ∧
      (∀ B, B < N → FragOK env.n gw (pm.inner B) (Needs env.n Nb P B A)) ∧
      (∃ r, pm.outerOut = List.replicate (gw + 1) r ∧
        Holds env.n r (fun c => (Vicinity env.n Nb P A gw c ∧ ¬ P A c) ∧ ∀ B, B < N → ¬ Needs env.n Nb P A B gw c)) ∧
      (∃ rw r, pm.rims[gw]? = some rw ∧ pm.innerOut = List.replicate (gw + 1) r ∧
        Holds env.n r (fun c => RMem env.n rw c ∧ ∀ B, B < N → ¬ Needs env.n Nb P B A gw c)) := by
  obtain ⟨bs, es, a1, a2, a3⟩ := gather_spec h hp (List.range N) (fun i hi => List.mem_range.1 hi)
  obtain ⟨pm0, surf, sx, p1, x1, x2, x3, x4, p2⟩ := resetRegions_spec h hp A hA
  obtain ⟨l, l1, l2, l3⟩ := fillRegion_spec h hp gw A hA
  obtain ⟨l', l4, l5⟩ := p2.own
  rw [l1] at l4
  obtain rfl := Option.some.inj l4
  obtain ⟨r0, b1, b2, _⟩ := l3 0 (by omega)
  obtain ⟨rE, d1, d2, _⟩ := l3 gw (by omega)
  obtain ⟨g, g1, g2⟩ := (b2.congr (near_zero hp A hA)).geom
  obtain ⟨gE, e1, e2⟩ := d2.geom
  have o1 : pmOwn pm0 0 = some r0 := by unfold pmOwn; rw [l5, p2.rankEq]; simp [b1]
  have o2 : pmOwnExpanded pm0 = some rE := by
    unfold pmOwnExpanded
    rw [l5, p2.rankEq]
    simp only [if_true, Option.bind_some]
    rw [List.getLast?_eq_getElem?, l2]; exact d1
  have lb : bs.length = N := by rw [← a2.length_eq, List.length_range]
  have le : es.length = N := by rw [← a3.length_eq, List.length_range]
  have hI0 : GZInv env Nb P gw A pm0 (fun _ => False) pm0 := by
    refine ⟨rfl, ?_, fun i _ => ⟨p2.noOuter i, p2.noInner i⟩, fun _ hh => hh.elim, fun _ hh => hh.elim⟩
    intro i l' hl'
    rw [l5] at hl'
    by_cases e : i = A
    · subst e; simp only [if_true] at hl'; rw [l1, hl']
    · simp only [if_neg e] at hl'; cases hl'
  have hz : ∀ p ∈ (List.range bs.length).zip (bs.zip es), p.1 < N ∧ Bounds env.n (P p.1) p.2.1 ∧
      Bounds env.n (Vicinity env.n Nb P p.1 gw) p.2.2 := by
    intro p hpm
    obtain ⟨j, hj, rfl⟩ := List.getElem_of_mem hpm
    have hj' : j < N := by simp only [List.length_zip, List.length_range] at hj; omega
    simp only [List.getElem_zip, List.getElem_range]
    refine ⟨hj', ?_, ?_⟩
    · have := (List.forall₂_iff_get.1 a2).2 j (by simpa using hj') (by omega)
      simpa using this
    · have := (List.forall₂_iff_get.1 a3).2 j (by simpa using hj') (by omega)
      simpa using this
  obtain ⟨pm, q1, q2⟩ := gzLoop_spec h hp hA p2.rankEq p2.gwEq g.2 gE.2 g2 e2 _ hz _ pm0 hI0
  have hfst : ((List.range bs.length).zip (bs.zip es)).map Prod.fst = List.range N := by
    rw [List.map_fst_zip (by simp [lb, le]), lb]
  rw [hfst] at q2
  have hb := q2.base
  have hgwpm : pm.gw = gw := by rw [hb]; exact p2.gwEq
  obtain ⟨rW, w1, w2⟩ := p2.rim gw (by omega)
  have hrim : pm.rims[pm.gw]? = some rW := by rw [hgwpm, hb]; exact w1
  have hor : pm.outerRim = pm0.outerRim := by rw [hb]
  have fo : ∀ B, B < N → FragOK env.n gw (pm.outer B) (Needs env.n Nb P A B) := fun B hB => q2.out B (Or.inr (List.mem_range.2 hB))
  have fi : ∀ B, B < N → FragOK env.n gw (pm.inner B) (Needs env.n Nb P B A) := fun B hB => q2.inn B (Or.inr (List.mem_range.2 hB))
  obtain ⟨ro, s1, s2⟩ := subtractFrags_spec env.n gw pm.outer (fun B => Needs env.n Nb P A B) (List.range bs.length)
    (fun B hB => fo B (by rw [lb] at hB; exact List.mem_range.1 hB)) pm0.outerRim _ p2.outerRim
  obtain ⟨ri, t1, t2⟩ := subtractFrags_spec env.n gw pm.inner (fun B => Needs env.n Nb P B A) (List.range bs.length)
    (fun B hB => fi B (by rw [lb] at hB; exact List.mem_range.1 hB)) rW (RMem env.n rW) ⟨w2.1, fun _ => Iff.rfl⟩
  refine ⟨pm0, { pm with outerOut := List.replicate (pm.gw + 1) ro, innerOut := List.replicate (pm.gw + 1) ri }, p1, ?_, ⟨surf, sx, x1, x2, x3, x4, p2⟩,
    by simp only; rw [hb], by simp only; rw [hb], by simp only; rw [hb], by simp only; rw [hb], q2.cache, ?_, fo, fi, ⟨ro, by simp only; rw [hgwpm], ?_⟩,
    ⟨rW, ri, by simp only; rw [hb]; exact w1, by simp only; rw [hgwpm], ?_⟩⟩
  · rw [setupPM, a1, Option.bind_some, p1, Option.bind_some, resetGhostZones]
    simp only
    rw [if_neg (by rw [lb, le]; simp), o1, Option.bind_some, o2, Option.bind_some, g1, Option.bind_some, e1, Option.bind_some,
      q1, Option.bind_some, hrim, Option.bind_some, hor, s1, Option.bind_some, t1]
    rfl
  · intro B hB
    exact q2.todo B (fun hh => hh.elim id (fun hh => by have := List.mem_range.1 hh; omega))
  · refine s2.congr (fun c => ?_)
    simp only [lb, List.mem_range]
  · refine t2.congr (fun c => ?_)
    simp only [lb, List.mem_range]

/-! ## The property -/

/-- two fragment vectors agree for every ghost zone width (`Region::operator==`) -/
def SameFragments (n : Nat) : Option (List Idx) → Option (List Idx) → Prop
  | none, none => True
  | some a, some b => List.Forall₂ (fun x y => regEq n x y = true) a b
  | _, _ => False

/-- **C21, matching.** The fragments node `A` expects from node `B` are exactly the fragments `B` prepares for `A`; either
both nodes know of the exchange or neither does. -/
theorem fragments_match (h : EnvBase env G Nb gw) (hp : PartOK env G N P) (A B : Nat) (hA : A < N) (hB : B < N) :
    ∃ pa pb, setupPM env gw N A = some pa ∧ setupPM env gw N B = some pb ∧ SameFragments env.n (pa.outer B) (pb.inner A) := by
  obtain ⟨_, pa, _, a2, _, _, _, _, _, _, _, a3, _⟩ := setup_spec h hp A hA
  obtain ⟨_, pb, _, b2, _, _, _, _, _, _, _, _, b3, _⟩ := setup_spec h hp B hB
  refine ⟨pa, pb, a2, b2, ?_⟩
  have x := a3 B hB
  have y := b3 A hA
  cases ho : pa.outer B with
  | none =>
    cases hi : pb.inner A with
    | none => trivial
    | some l =>
      obtain ⟨_, ⟨w, c, hw, hc⟩, _⟩ := y.2 l hi
      exact x.1 ho w hw c hc
  | some k =>
    obtain ⟨k1, ⟨w, c, hw, hc⟩, k2⟩ := x.2 k ho
    cases hi : pb.inner A with
    | none => exact y.1 hi w hw c hc
    | some l =>
      obtain ⟨l1, _, l2⟩ := y.2 l hi
      unfold SameFragments
      refine List.forall₂_iff_get.2 ⟨by omega, fun i h1 h2 => ?_⟩
      obtain ⟨r, r1, r2⟩ := k2 i (by omega)
      obtain ⟨s, s1, s2⟩ := l2 i (by omega)
      have e1 : k.get ⟨i, h1⟩ = r := by
        rw [List.getElem?_eq_getElem h1] at r1; simpa using r1
      have e2 : l.get ⟨i, h2⟩ = s := by
        rw [List.getElem?_eq_getElem h2] at s1; simpa using s1
      rw [e1, e2]
      obtain ⟨_, ht⟩ := r2.1
      obtain ⟨_, hu⟩ := s2.1
      exact (rep_eq_iff ht hu).2 (fun c => (r2.2 c).trans (s2.2 c).symm)

/-- **C21, content.** The fragment node `A` expects from `B` at width `w` consists of exactly those cells of `B`'s region
which are within `w` steps of `A`'s region; there is no fragment vector if there are no such cells. -/
theorem fragments_exact (h : EnvBase env G Nb gw) (hp : PartOK env G N P) (A B : Nat) (hA : A < N) (hB : B < N) (hne : A ≠ B) :
    ∃ pa, setupPM env gw N A = some pa ∧
      (pa.outer B = none ↔ ∀ c, ¬ (P B c ∧ Vicinity env.n Nb P A gw c)) ∧
      (∀ l, pa.outer B = some l → l.length = gw + 1 ∧ ∀ w, w ≤ gw → ∃ r, l[w]? = some r ∧
        ∀ c, RMem env.n r c ↔ P B c ∧ Vicinity env.n Nb P A w c) ∧
      (∀ l, pa.inner B = some l → l.length = gw + 1 ∧ ∀ w, w ≤ gw → ∃ r, l[w]? = some r ∧
        ∀ c, RMem env.n r c ↔ P A c ∧ Vicinity env.n Nb P B w c) := by
  obtain ⟨_, pa, _, a2, _, _, _, _, _, _, _, a3, a4, _⟩ := setup_spec h hp A hA
  refine ⟨pa, a2, ⟨fun ho c hc => (a3 B hB).1 ho gw (by omega) c ⟨hne, hc.2, hc.1⟩, fun hh => ?_⟩, fun l hl => ?_, fun l hl => ?_⟩
  · cases ho : pa.outer B with
    | none => rfl
    | some l =>
      obtain ⟨_, ⟨w, c, hw, hc⟩, _⟩ := (a3 B hB).2 l ho
      exact (hh c ⟨hc.2.2, near_mono h hp A hA hw c hc.2.1⟩).elim
  · obtain ⟨l1, _, l2⟩ := (a3 B hB).2 l hl
    refine ⟨l1, fun w hw => ?_⟩
    obtain ⟨r, r1, r2⟩ := l2 w hw
    refine ⟨r, r1, fun c => ?_⟩
    rw [r2.2]
    unfold Needs
    tauto
  · obtain ⟨l1, _, l2⟩ := (a4 B hB).2 l hl
    refine ⟨l1, fun w hw => ?_⟩
    obtain ⟨r, r1, r2⟩ := l2 w hw
    refine ⟨r, r1, fun c => ?_⟩
    rw [r2.2]
    unfold Needs
    have := Ne.symm hne
    tauto

/-- **C21, coverage.** Every cell of the outer rim of `A` (the cells outside of its region which it needs for `gw`
updates) is in a fragment: in that of its owner if one of the `N` nodes owns it, otherwise in the outgroup fragment. -/
theorem outer_rim_covered (h : EnvBase env G Nb gw) (hp : PartOK env G N P) (A : Nat) (hA : A < N) :
    ∃ pa, setupPM env gw N A = some pa ∧
      (∀ c, RMem env.n pa.outerRim c ↔ Vicinity env.n Nb P A gw c ∧ ¬ P A c) ∧
      ∀ c, RMem env.n pa.outerRim c →
        (∀ B, B < N → P B c → ∃ l r, pa.outer B = some l ∧ l.getLast? = some r ∧ RMem env.n r c) ∧
        ((∃ r, pa.outerOut.getLast? = some r ∧ RMem env.n r c) ↔ ∀ B, B < N → ¬ P B c) := by
  obtain ⟨pm0, pa, _, a2, ⟨_, _, _, _, _, _, a5⟩, _, _, a6, _, _, _, a3, _, ⟨ro, o1, o2⟩, _⟩ := setup_spec h hp A hA
  have hR : ∀ c, RMem env.n pa.outerRim c ↔ Vicinity env.n Nb P A gw c ∧ ¬ P A c := by
    intro c; rw [a6]; exact a5.outerRim.2 c
  refine ⟨pa, a2, hR, fun c hc => ⟨fun B hB hPB => ?_, ⟨fun ⟨r, hr, hrc⟩ B hB hPB => ?_, fun hno => ?_⟩⟩⟩
  · have hc' := (hR c).1 hc
    have hne : A ≠ B := by rintro rfl; exact hc'.2 hPB
    have hN : Needs env.n Nb P A B gw c := ⟨hne, hc'.1, hPB⟩
    cases ho : pa.outer B with
    | none => exact ((a3 B hB).1 ho gw (by omega) c hN).elim
    | some l =>
      obtain ⟨l1, _, l2⟩ := (a3 B hB).2 l ho
      obtain ⟨r, r1, r2⟩ := l2 gw (by omega)
      exact ⟨l, r, rfl, by rw [List.getLast?_eq_getElem?, l1]; exact r1, (r2.2 c).2 hN⟩
  · have hl : pa.outerOut.getLast? = some ro := by rw [o1, List.getLast?_replicate]; simp
    rw [hl] at hr
    obtain rfl := Option.some.inj hr
    have hc' := (hR c).1 hc
    exact ((o2.2 c).1 hrc).2 B hB ⟨by rintro rfl; exact hc'.2 hPB, hc'.1, hPB⟩
  · refine ⟨ro, by rw [o1, List.getLast?_replicate]; simp, (o2.2 c).2 ⟨(hR c).1 hc, fun B hB hN => hno B hB hN.2.2⟩⟩

end

/-! ## Non-vacuity: structured and unstructured grids meet the hypotheses -/

/-- 1D torus of 12 cells, three nodes with the regions [0,5), [5,8), [8,12) -/
def part3 : Nat → Option Idx
  | 0 => regInsert 0 emptyIdx { origin := fun _ => 0, endX := 5 }
  | 1 => regInsert 0 emptyIdx { origin := fun _ => 5, endX := 8 }
  | 2 => regInsert 0 emptyIdx { origin := fun _ => 8, endX := 12 }
  | _ => none

def env3 : PMEnv := structuredEnv 0 part3 (fun _ => 12) (fun _ => true)

/-- the sets of coordinates -/
def P3 (i : Nat) (c : Crd) : Prop := [0, 5, 8].getD i 0 ≤ c 0 ∧ c 0 < [5, 8, 12].getD i 0

example : EnvOK env3 (C14.InDim 0 (fun _ => 12)) (MooreNb 0 (fun _ => true) (fun _ => 12)) 2 :=
  structured_ok 0 part3 (fun _ => 12) (fun _ => true) 2 (fun _ _ _ => by omega)

example : PartOK env3 (C14.InDim 0 (fun _ => 12)) 3 P3 := by
  have key : ∀ a b : Int, 0 ≤ a → b ≤ 12 → ∃ r, regInsert 0 emptyIdx { origin := fun _ => a, endX := b } = some r ∧ RegOK 0 r ∧
      (∀ c, RMem 0 r c ↔ a ≤ c 0 ∧ c 0 < b) ∧ ∀ c : Crd, (a ≤ c 0 ∧ c 0 < b) → C14.InDim 0 (fun _ => 12) c := by
    intro a b ha hb
    obtain ⟨r, h1, h2, h3⟩ := regInsert_spec 0 emptyIdx { origin := fun _ => a, endX := b } (regOK_empty 0)
    refine ⟨r, h1, h2, fun c => ?_, fun c hc k hk => ?_⟩
    · rw [h3]
      constructor
      · rintro (h | ⟨_, h, h'⟩)
        · exact (regEmpty_mem 0 _ h).elim
        · exact ⟨h, h'⟩
      · rintro ⟨h, h'⟩; exact Or.inr ⟨fun k h1 h2 => by omega, h, h'⟩
    · obtain rfl : k = 0 := by omega
      simp only
      omega
  intro i hi
  have : i = 0 ∨ i = 1 ∨ i = 2 := by omega
  rcases this with rfl | rfl | rfl
  · exact key 0 5 (by decide) (by decide)
  · exact key 5 8 (by decide) (by decide)
  · exact key 8 12 (by decide) (by decide)

/-- observable data: key, and per width the streaks of the fragment -/
def showFrags (pm : Option PM) (inner : Bool) (node : Nat) : Option (List (List (Int × Int))) :=
  pm.bind fun pm => (if inner then pm.inner node else pm.outer node).bind fun l =>
    l.mapM (fun r => (toVector 0 r).map (List.map (fun s => (s.origin 0, s.endX))))

/-- node 0 expects the cells 10, 11 of node 2 (periodic boundary), node 2 provides the same -/
example : showFrags (setupPM env3 2 3 0) false 2 = some [[], [(11, 12)], [(10, 12)]] ∧
    showFrags (setupPM env3 2 3 2) true 0 = some [[], [(11, 12)], [(10, 12)]] := by decide +kernel

end LGD.C21
