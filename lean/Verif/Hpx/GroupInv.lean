import Verif.Hpx.Group

/-!
# Steps preserve the invariant
-/

namespace LGD.HpxGroup
open LGD.Step LGD.Patch LGD.C26 LGD.C43

variable {κ α : Type} [DecidableEq κ] {C : Cluster κ α} {W : Nat} {S : Sim κ α} {own outer : Nat → κ → Prop} {nb : κ → κ → Prop}
variable {b1 b2 : Nat → Nat → List α} {total : Nat} {ini : Nat → St κ α} {n : Nat} {k : Nat → Nat} {t : HSt κ α}

/-- groups which don't exist yet are as good as fresh ones -/
def absNodes (ini : Nat → St κ α) (t : HSt κ α) (i : Nat) : St κ α := if t.phase i = 4 then t.nodes i else ini i

/-- The groups behave like the abstract cluster in C43 at `k i` nano steps. What was sent by an existing group and not consumed yet is underway or in the receive buffer, in some order.
`n` steps were executed so far. -/
structure HInv (C : Cluster κ α) (W : Nat) (S : Sim κ α) (own : Nat → κ → Prop) (total : Nat) (ini : Nat → St κ α) (n : Nat) (k : Nat → Nat) (t : HSt κ α) : Prop where
  inv : CInv C W own (absU S) (absV S) k (absNodes ini t)
  k0 : ∀ i, i < C.N → t.phase i ≠ 4 → k i = 0
  kt : ∀ i, i < C.N → k i ≤ total
  ph : ∀ i, i < C.N → t.phase i ≤ 4
  st : ∀ i, i < C.N → t.steer i = S.steerers
  err : t.err = false
  on : ∀ i j, i < C.N → j < C.N → C.recvRegion i j ≠ [] → t.phase j = 4 →
    (t.fly i j ++ t.buf i j).Perm (((List.range (k j / W + 1)).map (parcel C W S (absU S) i j)).drop (k i / W)) ∧ t.del i j + (t.fly i j).length = k j / W + 1
  off : ∀ i j, i < C.N → j < C.N → t.phase j ≠ 4 ∨ C.recvRegion i j = [] → t.fly i j = [] ∧ t.buf i j = [] ∧ t.del i j = 0
  out : ∀ i j, ¬ (i < C.N ∧ j < C.N) → t.fly i j = []
  late : ∀ i j, i < C.N → j < C.N → C.recvRegion i j ≠ [] → t.phase j ≠ 4 → k i / W = 0
  count : n = ∑ i ∈ Finset.range C.N, t.phase i + ∑ i ∈ Finset.range C.N, k i + ∑ i ∈ Finset.range C.N, ∑ j ∈ Finset.range C.N, t.del i j

section
variable (h : ClusterOK C W S own outer nb)
include h

omit [DecidableEq κ] in
theorem width_pos {i : Nat} (hi : i < C.N) : 0 < W := by
  have := (h.fit i hi).width
  rwa [h.width i hi] at this

omit [DecidableEq κ] in
theorem due_iff {i : Nat} (hi : i < C.N) (s : Nat) : due (C.env i) s = true ↔ S.first < s ∧ (s - S.first) % W = 0 := by
  unfold due
  change (decide (t0 (C.env i) < s) && (s - t0 (C.env i)) % (C.env i).W == 0) = true ↔ _
  rw [(h.fits i hi).t0, h.width i hi, Bool.and_eq_true, decide_eq_true_eq, beq_iff_eq]

omit h in
omit [DecidableEq κ] in
theorem keys_nodup (i j m q : Nat) (hW : 0 < W) (u : Nat → κ → α) : ((((List.range m).map (parcel C W S u i j)).drop q).map Prod.fst).Nodup := by
  rw [List.map_drop]
  apply (List.drop_sublist _ _).nodup
  rw [List.map_map]
  apply List.nodup_range.map_on
  intro a _ b _ hab
  simp only [Function.comp, parcel] at hab
  have : (a + 1) * W = (b + 1) * W := by omega
  have := Nat.eq_of_mul_eq_mul_right hW this
  omega

omit h [DecidableEq κ] in
/-- values determined by keys -/
theorem mem_on (hI : HInv C W S own total ini n k t) {i j : Nat} (hi : i < C.N) (hj : j < C.N) {p : Nat × List α} (hp : p ∈ t.fly i j ++ t.buf i j) :
    C.recvRegion i j ≠ [] ∧ t.phase j = 4 ∧ ∃ m, k i / W ≤ m ∧ m < k j / W + 1 ∧ p = parcel C W S (absU S) i j m := by
  by_cases h4 : t.phase j = 4
  · by_cases hne : C.recvRegion i j = []
    · obtain ⟨e1, e2, -⟩ := hI.off i j hi hj (Or.inr hne)
      rw [e1, e2] at hp; simp at hp
    · refine ⟨hne, h4, ?_⟩
      have := (hI.on i j hi hj hne h4).1.mem_iff.1 hp
      rw [← List.map_drop, List.mem_map] at this
      obtain ⟨m, hm, rfl⟩ := this
      rw [List.range_eq_range', List.drop_range', List.mem_range'_1] at hm
      exact ⟨m, by omega, by omega, rfl⟩
  · obtain ⟨e1, e2, -⟩ := hI.off i j hi hj (Or.inl h4)
    rw [e1, e2] at hp; simp at hp

variable (hl : ∀ n (g h : κ → α) c, (∀ d, nb c d → g d = h d) → S.upd n g c = S.upd n h c)

omit [DecidableEq κ] in
/-- the position in time -/
theorem glob_eq (hI : HInv C W S own total ini n k t) {i : Nat} (hi : i < C.N) (h4 : t.phase i = 4) : glob (C.env i) (t.nodes i) = S.first + k i := by
  have := (hI.inv.node i hi).glob
  rw [(h.fits i hi).t0] at this
  unfold absNodes at this
  rwa [if_pos h4] at this

omit [DecidableEq κ] in
/-- what has to be in the receive buffer -/
theorem avail_mem (hI : HInv C W S own total ini n k t) {i : Nat} (hi : i < C.N) (h4 : t.phase i = 4) (ha : Avail C t i) (hk : (k i + 1) % W = 0) {j : Nat} (hj : j < C.N)
    (hne : C.recvRegion i j ≠ []) : t.phase j = 4 ∧ k i / W < k j / W + 1 ∧ k i / W + 1 = (k i + 1) / W ∧ (k i / W + 1) * W = k i + 1 ∧ parcel C W S (absU S) i j (k i / W) ∈ t.buf i j := by
  have hW := width_pos h hi
  have hg := glob_eq h hI hi h4
  have hdiv : (k i + 1) / W * W = k i + 1 := Nat.div_mul_cancel (Nat.dvd_of_mod_eq_zero hk)
  have hq : (k i + 1) / W = k i / W + 1 := by
    rw [Nat.succ_div, if_pos (Nat.dvd_of_mod_eq_zero hk)]
  obtain ⟨p, hp, hp1⟩ := ha (by rw [due_iff h hi, hg]; exact ⟨by omega, by rw [show S.first + k i + 1 - S.first = k i + 1 by omega]; exact hk⟩) j hj hne
  obtain ⟨-, h4j, m, h1, h2, rfl⟩ := mem_on hI hi hj (List.mem_append_right _ hp)
  rw [hg] at hp1
  simp only [parcel] at hp1
  have : (m + 1) * W = (k i / W + 1) * W := by rw [← hq, hdiv]; omega
  have := Nat.eq_of_mul_eq_mul_right hW this
  obtain rfl : m = k i / W := by omega
  exact ⟨h4j, h2, hq.symm, by rw [← hq, hdiv], hp⟩

include hl in
/-- a nano step is one of the abstract cluster -/
theorem update_eq (hst : S.steerers.length ≤ 1) (hI : HInv C W S own total ini n k t) {i : Nat} (hi : i < C.N) (h4 : t.phase i = 4) (ha : Avail C t i) {o : List Nat}
    (ho : o.Perm (List.range (t.steer i).length)) :
    reorder o (t.steer i) = t.steer i ∧ ∃ st, update1 (envOf C t i o) (before t i o) = some st ∧
      CInv C W own (absU S) (absV S) (Function.update k i (k i + 1)) (Function.update (absNodes ini t) i st) := by
  have hW := width_pos h hi
  have hg := glob_eq h hI hi h4
  have habs : absNodes ini t i = t.nodes i := if_pos h4
  have hS := hI.inv.node i hi
  rw [habs] at hS
  have hs := hI.st i hi
  have hos := perm_range_le_one ho (by rw [hs]; exact hst)
  have hr : reorder o (t.steer i) = t.steer i := by rw [hos]; exact reorder_range _ _ rfl
  have e1 : (C.env i).steerers = t.steer i := by rw [hs, h.sameSteerers i hi]
  have hsg : reorder o (t.nodes i).sg = (t.nodes i).sg := by
    rw [hos]; exact reorder_range _ _ (by rw [← e1]; exact (List.Forall₂.length_eq hS.sg).symm)
  have hsi : reorder o (t.nodes i).si = (t.nodes i).si := by
    rw [hos]; exact reorder_range _ _ (by rw [← e1]; exact (List.Forall₂.length_eq hS.si).symm)
  have hb : before t i o = t.nodes i := by unfold before; rw [hsg, hsi]
  have he : envOf C t i o = withProv (C.env i) (bufProv C (t.buf i) i) := by unfold envOf withProv; rw [hr, ← e1]
  have hrd : Ready C (absNodes ini t) i := by
    rw [ready_iff h hI.inv i hi]
    intro hm j hj hne
    obtain ⟨-, h1, h2, -⟩ := avail_mem h hI hi h4 ha hm hj hne
    omega
  obtain ⟨st, s1, s2⟩ := step_ok h hl hI.inv i hi hrd
  refine ⟨hr, st, ?_, s2⟩
  rw [hb, he, ← s1, habs]
  refine update1_congr (E := C.env i) (p := bufProv C (t.buf i) i) (q := linkProv C (absNodes ini t) i) (h.fit i hi).nano (t.nodes i) ?_ ?_
  · rw [hS.nano, hS.glob]
  · intro hv s hs1 hs2
    rw [hS.valid, h.width i hi] at hv
    rw [hg] at hs1 hs2
    rw [h.width i hi] at hs2
    have hlt := Nat.mod_lt (k i) hW
    have hkW : k i % W = W - 1 := by omega
    have hm : (k i + 1) % W = 0 := by
      have := Nat.div_add_mod (k i) W
      rw [show k i + 1 = W * (k i / W) + W by omega]
      simp
    funext g
    unfold bufProv linkProv
    by_cases hd : due (C.env i) s = true
    · rw [if_pos hd, if_pos hd]
      rw [due_iff h hi] at hd
      have hs : s = S.first + k i + 1 := by
        obtain ⟨a, ha⟩ := Nat.dvd_of_mod_eq_zero hd.2
        obtain ⟨b, hb⟩ := Nat.dvd_of_mod_eq_zero hm
        have h1 : W * b ≤ W * a := by omega
        have h2 : W * a < W * (b + 1) := by rw [Nat.mul_add]; omega
        have h3 := Nat.le_of_mul_le_mul_left h1 hW
        have h4 := Nat.lt_of_mul_lt_mul_left h2
        have : a = b := by omega
        subst this
        omega
      have : ∀ (l : List Nat) (g : κ → α), (∀ j ∈ l, j < C.N) →
          l.foldl (fun g j => if C.recvRegion i j = [] then g else loadRegion (C.recvRegion i j) ((((t.buf i j).find? fun p => p.1 == s).map Prod.snd).getD []) g) g =
          l.foldl (fun g j => if C.recvRegion i j = [] then g else loadRegion (C.recvRegion i j) ((sentTo C i j (absNodes ini t j)).getD (patchNo (C.env i) s) []) g) g := by
        intro l
        induction l with
        | nil => intro g _; rfl
        | cons j l ih =>
          intro g hl
          rw [List.foldl_cons, List.foldl_cons, ih _ (fun y hy => hl y (List.mem_cons_of_mem _ hy))]
          congr 1
          by_cases hne : C.recvRegion i j = []
          · rw [if_pos hne, if_pos hne]
          · have hj := hl j (List.mem_cons_self ..)
            obtain ⟨-, a1, a2, a3, a4⟩ := avail_mem h hI hi h4 ha hm hj hne
            rw [if_neg hne, if_neg hne]
            congr 1
            have hno : patchNo (C.env i) s = k i / W := by
              unfold patchNo
              change (s - t0 (C.env i)) / (C.env i).W - 1 = _
              rw [h.width i hi, (h.fits i hi).t0, hs, show S.first + k i + 1 - S.first = k i + 1 by omega, ← a2, Nat.add_sub_cancel]
            rw [hno, sent_len h hI.inv i j hi hj, List.getD_eq_getElem?_getD, List.getElem?_map, List.getElem?_range a1]
            cases hf : (t.buf i j).find? fun p => p.1 == s with
            | none =>
              rw [List.find?_eq_none] at hf
              have := hf _ a4
              simp only [parcel, beq_iff_eq] at this
              exact absurd (by rw [a3, hs]; omega) this
            | some p =>
              have h1 := List.find?_some hf
              obtain ⟨-, -, m, m1, m2, rfl⟩ := mem_on hI hi hj (List.mem_append_right _ (List.mem_of_find?_eq_some hf))
              simp only [parcel, beq_iff_eq] at h1
              have : (m + 1) * W = (k i / W + 1) * W := by omega
              have := Nat.eq_of_mul_eq_mul_right hW this
              obtain rfl : m = k i / W := by omega
              rfl
      exact this _ _ fun j hj => List.mem_range.1 hj
    · rw [if_neg hd, if_neg hd]

end

end LGD.HpxGroup
