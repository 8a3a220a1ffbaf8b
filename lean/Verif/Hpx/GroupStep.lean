import Verif.Hpx.GroupInv

/-!
# Executions of update groups on top of HPX
-/

namespace LGD.HpxGroup
open LGD.Step LGD.Patch LGD.C26 LGD.C43

variable {κ α : Type} [DecidableEq κ] {C : Cluster κ α} {W : Nat} {S : Sim κ α} {own outer : Nat → κ → Prop} {nb : κ → κ → Prop}
variable {total : Nat} {ini : Nat → St κ α} {n : Nat} {k : Nat → Nat} {t : HSt κ α}

/-- results of creating the steppers -/
def IniOK (C : Cluster κ α) (S : Sim κ α) (own : Nat → κ → Prop) (b1 b2 : Nat → Nat → List α) (ini : Nat → St κ α) : Prop :=
  ∀ i, i < C.N → initGrids { C.env i with prov := fun _ g => g } (b1 i) (b2 i) = some (ini i) ∧ SInv (C.env i) (own i) (absU S) (absV S) 0 (ini i)

section
variable {b1 b2 : Nat → Nat → List α} (h : ClusterOK C W S own outer nb)
include h

omit [DecidableEq κ] in
theorem width_ne {i : Nat} (hi : i < C.N) : W ≠ 0 := (width_pos h hi).ne'

omit h [DecidableEq κ] in
theorem inv_advance (hI : HInv C W S own total ini n k t) {i : Nat} (hi : i < C.N) (h3 : t.phase i < 3) :
    HInv C W S own total ini (n + 1) k { t with phase := Function.update t.phase i (t.phase i + 1) } := by
  have hp : ∀ j, Function.update t.phase i (t.phase i + 1) j = 4 ↔ t.phase j = 4 := by
    intro j
    by_cases hj : j = i
    · subst hj; rw [Function.update_self]; omega
    · rw [Function.update_of_ne hj]
  have ha : absNodes ini { t with phase := Function.update t.phase i (t.phase i + 1) } = absNodes ini t := by
    funext j
    simp only [absNodes, hp]
  refine ⟨by rw [ha]; exact hI.inv, fun j hj h4 => hI.k0 j hj (by rwa [ne_eq, ← hp]), hI.kt, ?_, hI.st, hI.err,
    fun a b ha hb hne h4 => hI.on a b ha hb hne ((hp b).1 h4),
    fun a b ha hb ho => hI.off a b ha hb (ho.imp_left fun h4 => by rwa [ne_eq, ← hp]), hI.out,
    fun a b ha hb hne h4 => hI.late a b ha hb hne (by rwa [ne_eq, ← hp]), ?_⟩
  · intro j hj
    have := hI.ph j hj
    show Function.update t.phase i (t.phase i + 1) j ≤ 4
    by_cases hji : j = i
    · subst hji; rw [Function.update_self]; omega
    · rw [Function.update_of_ne hji]; exact this
  · show n + 1 = ∑ j ∈ Finset.range C.N, Function.update t.phase i (t.phase i + 1) j + ∑ j ∈ Finset.range C.N, k j + ∑ a ∈ Finset.range C.N, ∑ b ∈ Finset.range C.N, t.del a b
    rw [sum_bump _ _ _ hi, hI.count]
    omega

theorem inv_create (hini : IniOK C S own b1 b2 ini) (hI : HInv C W S own total ini n k t) {i : Nat} (hi : i < C.N) (h3 : t.phase i = 3) :
    HInv C W S own total ini (n + 1) k
      { t with phase := Function.update t.phase i 4, nodes := Function.update t.nodes i (ini i), fly := emit C i [] (ini i).log t.fly } := by
  have hk := hI.k0 i hi (by omega)
  have hW := width_pos h hi
  have hp : ∀ j, j ≠ i → Function.update t.phase i 4 j = t.phase j := fun j hj => Function.update_of_ne hj _ _
  have habs : absNodes ini { t with phase := Function.update t.phase i 4, nodes := Function.update t.nodes i (ini i), fly := emit C i [] (ini i).log t.fly } = absNodes ini t := by
    funext j
    by_cases hj : j = i
    · subst hj; simp [absNodes, h3]
    · simp [absNodes, hj]
  have hfly : ∀ a b, ¬ (b = i ∧ a < C.N ∧ C.sendRegion i a ≠ []) → emit C i [] (ini i).log t.fly a b = t.fly a b := fun a b hab => if_neg hab
  have hpar : ∀ a, a < C.N → parcels C a i (ini i).log = (List.range 1).map (parcel C W S (absU S) a i) := by
    intro a ha
    rw [parcels_eq' h a i ha hi (hini i hi).2, Nat.zero_div]
  refine ⟨by rw [habs]; exact hI.inv, ?_, hI.kt, ?_, hI.st, hI.err, ?_, ?_, ?_, ?_, ?_⟩
  · intro j hj h4
    by_cases hji : j = i
    · subst hji; exact hk
    · exact hI.k0 j hj (by rwa [← hp j hji])
  · intro j hj
    show Function.update t.phase i 4 j ≤ 4
    by_cases hji : j = i
    · subst hji; rw [Function.update_self]
    · rw [hp j hji]; exact hI.ph j hj
  · intro a b ha hb hne h4
    show (emit C i [] (ini i).log t.fly a b ++ t.buf a b).Perm _ ∧ t.del a b + (emit C i [] (ini i).log t.fly a b).length = _
    by_cases hbi : b = i
    · subst hbi
      obtain ⟨e1, e2, e3⟩ := hI.off a b ha hb (Or.inl (by omega))
      have e4 := hI.late a b ha hb hne (by omega)
      have : emit C b [] (ini b).log t.fly a b = (List.range 1).map (parcel C W S (absU S) a b) := by
        unfold emit
        rw [if_pos ⟨rfl, ha, by rw [h.agree a b ha hb]; exact hne⟩, e1, hpar a ha]
        rfl
      rw [this, e2, e3, e4, hk, Nat.zero_div]
      simp
    · rw [hfly a b (fun hh => hbi hh.1)]
      exact hI.on a b ha hb hne (by rw [← hp b hbi]; exact h4)
  · intro a b ha hb ho
    show emit C i [] (ini i).log t.fly a b = [] ∧ t.buf a b = [] ∧ t.del a b = 0
    by_cases hbi : b = i
    · subst hbi
      have hr : C.recvRegion a b = [] := by
        rcases ho with ho | ho
        · exact absurd (Function.update_self ..) ho
        · exact ho
      rw [hfly a b (fun hh => hh.2.2 (by rw [h.agree a b ha hb]; exact hr))]
      exact hI.off a b ha hb (Or.inr hr)
    · rw [hfly a b (fun hh => hbi hh.1)]
      exact hI.off a b ha hb (ho.imp_left fun h4 => by rw [← hp b hbi]; exact h4)
  · intro a b hab
    show emit C i [] (ini i).log t.fly a b = []
    rw [hfly a b (fun hh => hab ⟨hh.2.1, by rw [hh.1]; exact hi⟩)]
    exact hI.out a b hab
  · intro a b ha hb hne h4
    by_cases hbi : b = i
    · subst hbi; exact absurd (Function.update_self ..) h4
    · exact hI.late a b ha hb hne (by rw [← hp b hbi]; exact h4)
  · show n + 1 = ∑ j ∈ Finset.range C.N, Function.update t.phase i 4 j + ∑ j ∈ Finset.range C.N, k j + ∑ a ∈ Finset.range C.N, ∑ b ∈ Finset.range C.N, t.del a b
    have := sum_bump t.phase C.N i hi
    rw [h3] at this
    rw [this, hI.count]
    omega

omit h in
omit [DecidableEq κ] in
theorem fly_lt (hI : HInv C W S own total ini n k t) {i j : Nat} (hne : t.fly i j ≠ []) : i < C.N ∧ j < C.N := by
  by_contra hc
  exact hne (hI.out i j hc)

omit h [DecidableEq κ] in
theorem inv_deliver (hI : HInv C W S own total ini n k t) {i j : Nat} {l r : List (Nat × List α)} {p : Nat × List α} (hf : t.fly i j = l ++ p :: r) :
    HInv C W S own total ini (n + 1) k { t with fly := upd2 t.fly i j (l ++ r), buf := upd2 t.buf i j (t.buf i j ++ [p]), del := upd2 t.del i j (t.del i j + 1) } := by
  obtain ⟨hi, hj⟩ := fly_lt hI (i := i) (j := j) (by rw [hf]; simp)
  obtain ⟨hne, h4, -⟩ := mem_on hI hi hj (p := p) (by rw [hf]; simp)
  have hu : ∀ {β : Type} (f : Nat → Nat → β) (v : β) a b, ¬ (a = i ∧ b = j) → upd2 f i j v a b = f a b := fun f v a b hab => if_neg hab
  have hs : ∀ {β : Type} (f : Nat → Nat → β) (v : β), upd2 f i j v i j = v := fun f v => if_pos ⟨rfl, rfl⟩
  refine ⟨hI.inv, hI.k0, hI.kt, hI.ph, hI.st, hI.err, ?_, ?_, ?_, hI.late, ?_⟩
  · intro a b ha hb hne h4
    show (upd2 t.fly i j (l ++ r) a b ++ upd2 t.buf i j (t.buf i j ++ [p]) a b).Perm _ ∧ upd2 t.del i j (t.del i j + 1) a b + (upd2 t.fly i j (l ++ r) a b).length = _
    by_cases hab : a = i ∧ b = j
    · obtain ⟨rfl, rfl⟩ := hab
      rw [hs, hs, hs]
      obtain ⟨e1, e2⟩ := hI.on a b ha hb hne h4
      refine ⟨List.Perm.trans ?_ e1, ?_⟩
      · rw [hf]
        have : ((l ++ r) ++ (t.buf a b ++ [p])).Perm (p :: (l ++ r) ++ t.buf a b) := by
          rw [← List.append_assoc]
          exact List.perm_append_comm
        exact this.trans (List.Perm.append_right _ List.perm_middle.symm)
      · rw [← e2, hf]
        simp
        omega
    · rw [hu _ _ a b hab, hu _ _ a b hab, hu _ _ a b hab]
      exact hI.on a b ha hb hne h4
  · intro a b ha hb ho
    show upd2 t.fly i j (l ++ r) a b = [] ∧ upd2 t.buf i j (t.buf i j ++ [p]) a b = [] ∧ upd2 t.del i j (t.del i j + 1) a b = 0
    by_cases hab : a = i ∧ b = j
    · obtain ⟨rfl, rfl⟩ := hab
      rcases ho with ho | ho
      · exact absurd h4 ho
      · exact absurd ho hne
    · rw [hu _ _ a b hab, hu _ _ a b hab, hu _ _ a b hab]
      exact hI.off a b ha hb ho
  · intro a b hab
    show upd2 t.fly i j (l ++ r) a b = []
    rw [hu _ _ a b (fun hh => hab ⟨by rw [hh.1]; exact hi, by rw [hh.2]; exact hj⟩)]
    exact hI.out a b hab
  · show n + 1 = ∑ j ∈ Finset.range C.N, t.phase j + ∑ j ∈ Finset.range C.N, k j + ∑ a ∈ Finset.range C.N, ∑ b ∈ Finset.range C.N, upd2 t.del i j (t.del i j + 1) a b
    rw [sum_bump2 _ _ _ _ hi hj, hI.count]
    omega

omit [DecidableEq κ] in
/-- no patch arrives twice -/
theorem not_twice (hI : HInv C W S own total ini n k t) {i j : Nat} {l r : List (Nat × List α)} {p : Nat × List α} (hf : t.fly i j = l ++ p :: r) :
    ∀ q ∈ t.buf i j, q.1 ≠ p.1 := by
  obtain ⟨hi, hj⟩ := fly_lt hI (i := i) (j := j) (by rw [hf]; simp)
  obtain ⟨hne, h4, -⟩ := mem_on hI hi hj (p := p) (by rw [hf]; simp)
  have hn := ((hI.on i j hi hj hne h4).1.map Prod.fst).nodup_iff.2 (keys_nodup i j _ _ (width_pos h hi) _)
  rw [List.map_append, List.nodup_append] at hn
  intro q hq he
  exact hn.2.2 p.1 (List.mem_map_of_mem (by rw [hf]; simp)) q.1 (List.mem_map_of_mem hq) he.symm

variable (hl : ∀ n (g h : κ → α) c, (∀ d, nb c d → g d = h d) → S.upd n g c = S.upd n h c)

include hl in
theorem inv_update (hst : S.steerers.length ≤ 1) (hI : HInv C W S own total ini n k t) {i : Nat} (hi : i < C.N) (h4 : t.phase i = 4)
    (hlt : glob (C.env i) (t.nodes i) < (C.env i).startStep * (C.env i).nanoSteps + total) (ha : Avail C t i) {o : List Nat}
    (ho : o.Perm (List.range (t.steer i).length)) {st : St κ α} (hu : update1 (envOf C t i o) (before t i o) = some st) :
    HInv C W S own total ini (n + 1) (Function.update k i (k i + 1)) { t with
        nodes := Function.update t.nodes i st
        steer := Function.update t.steer i (reorder o (t.steer i))
        fly := emit C i (t.nodes i).log st.log t.fly
        buf := consume C i (glob (C.env i) (t.nodes i) + 1) t.buf } := by
  obtain ⟨hr, st', s1, s2⟩ := update_eq h hl hst hI hi h4 ha ho
  rw [s1] at hu
  obtain rfl : st' = st := by injection hu
  have hW := width_pos h hi
  have hg := glob_eq h hI hi h4
  have habs : absNodes ini t i = t.nodes i := if_pos h4
  have hkt : k i < total := by
    change glob (C.env i) (t.nodes i) < t0 (C.env i) + total at hlt
    rw [hg, (h.fits i hi).t0] at hlt
    omega
  have hdue : due (C.env i) (glob (C.env i) (t.nodes i) + 1) = true ↔ (k i + 1) % W = 0 := by
    rw [due_iff h hi, hg, show S.first + k i + 1 - S.first = k i + 1 by omega]
    exact ⟨fun x => x.2, fun x => ⟨by omega, x⟩⟩
  have hnd : (k i + 1) % W ≠ 0 → (k i + 1) / W = k i / W := by
    intro hm
    rw [Nat.succ_div, if_neg (fun hd => hm (Nat.mod_eq_zero_of_dvd hd))]
    rfl
  have hki : ∀ j, j ≠ i → Function.update k i (k i + 1) j = k j := fun j hj => Function.update_of_ne hj _ _
  have hkk : Function.update k i (k i + 1) i = k i + 1 := Function.update_self ..
  have hfly : ∀ a b, ¬ (b = i ∧ a < C.N ∧ C.sendRegion i a ≠ []) → emit C i (t.nodes i).log st'.log t.fly a b = t.fly a b := fun a b hab => if_neg hab
  have hbuf : ∀ a b, a ≠ i → consume C i (glob (C.env i) (t.nodes i) + 1) t.buf a b = t.buf a b := fun a b hab => if_neg (fun hh => hab hh.1)
  have hS := hI.inv.node i hi
  rw [habs] at hS
  have hS' := s2.node i hi
  rw [hkk, Function.update_self] at hS'
  refine ⟨?_, ?_, ?_, hI.ph, ?_, hI.err, ?_, ?_, ?_, ?_, ?_⟩
  · have : absNodes ini { t with
        nodes := Function.update t.nodes i st'
        steer := Function.update t.steer i (reorder o (t.steer i))
        fly := emit C i (t.nodes i).log st'.log t.fly
        buf := consume C i (glob (C.env i) (t.nodes i) + 1) t.buf } = Function.update (absNodes ini t) i st' := by
      funext j
      by_cases hj : j = i
      · subst hj; simp [absNodes, h4]
      · simp [absNodes, hj]
    rw [this]
    exact s2
  · intro j hj hj4
    have : j ≠ i := by rintro rfl; exact hj4 h4
    rw [hki j this]
    exact hI.k0 j hj hj4
  · intro j hj
    by_cases hji : j = i
    · subst hji; rw [hkk]; omega
    · rw [hki j hji]; exact hI.kt j hj
  · intro j hj
    show Function.update t.steer i (reorder o (t.steer i)) j = _
    by_cases hji : j = i
    · subst hji; rw [Function.update_self, hr]; exact hI.st j hj
    · rw [Function.update_of_ne hji]; exact hI.st j hj
  · intro a b haN hb hne h4b
    show (emit C i (t.nodes i).log st'.log t.fly a b ++ consume C i (glob (C.env i) (t.nodes i) + 1) t.buf a b).Perm _ ∧
      t.del a b + (emit C i (t.nodes i).log st'.log t.fly a b).length = _
    obtain ⟨e1, e2⟩ := hI.on a b haN hb hne h4b
    have hab : a ≠ b := by rintro rfl; exact hne (LinkProg.no_self h a haN)
    by_cases hai : a = i
    · subst hai
      have hba : b ≠ a := fun e => hab e.symm
      rw [hfly a b (fun hh => hba hh.1), hki b hba, hkk]
      refine ⟨?_, e2⟩
      by_cases hm : (k a + 1) % W = 0
      · obtain ⟨-, c1, c2, c3, c4⟩ := avail_mem h hI hi h4 ha hm hb hne
        have hc : consume C a (glob (C.env a) (t.nodes a) + 1) t.buf a b = (t.buf a b).filter fun p => p.1 != (glob (C.env a) (t.nodes a) + 1) :=
          if_pos ⟨rfl, hdue.2 hm⟩
        have hkey : ∀ m, (parcel C W S (absU S) a b m).1 = glob (C.env a) (t.nodes a) + 1 ↔ m = k a / W := by
          intro m
          rw [hg]
          unfold parcel
          constructor
          · intro e
            have : (m + 1) * W = (k a / W + 1) * W := by dsimp only at e; omega
            have := Nat.eq_of_mul_eq_mul_right hW this
            omega
          · rintro rfl
            dsimp only
            omega
        have hnd := ((e1.map Prod.fst).nodup_iff.2 (keys_nodup a b _ _ hW _))
        rw [List.map_append, List.nodup_append] at hnd
        have hfl : (t.fly a b).filter (fun p => p.1 != (glob (C.env a) (t.nodes a) + 1)) = t.fly a b := by
          rw [List.filter_eq_self]
          intro p hp
          simp only [bne_iff_ne]
          intro e
          refine hnd.2.2 p.1 (List.mem_map_of_mem hp) _ (List.mem_map_of_mem c4) ?_
          rw [e, (hkey _).2 rfl]
        have e3 := e1.filter (fun p => p.1 != (glob (C.env a) (t.nodes a) + 1))
        rw [List.filter_append, hfl] at e3
        rw [hc, ← c2]
        refine e3.trans (List.Perm.of_eq ?_)
        rw [← List.map_drop, ← List.map_drop, List.range_eq_range', List.drop_range', List.drop_range', List.filter_map]
        have hsz : k b / W + 1 - k a / W = (k b / W + 1 - (k a / W + 1)) + 1 := by omega
        rw [hsz, List.range'_succ, List.filter_cons]
        have : ((fun p : Nat × List α => p.1 != (glob (C.env a) (t.nodes a) + 1)) ∘ parcel C W S (absU S) a b) (0 + k a / W * 1) = false := by
          simp only [Function.comp, bne_eq_false_iff_eq]
          exact (hkey _).2 (by omega)
        rw [if_neg (by rw [this]; simp)]
        congr 1
        rw [List.filter_eq_self.2]
        · congr 1
        · intro m hm
          rw [List.mem_range'_1] at hm
          simp only [Function.comp, bne_iff_ne]
          intro e
          have := (hkey m).1 e
          omega
      · have hc : consume C a (glob (C.env a) (t.nodes a) + 1) t.buf a b = t.buf a b :=
          if_neg (fun hh => hm (hdue.1 hh.2))
        rw [hc, hnd hm]
        exact e1
    · rw [hbuf a b hai, hki a hai]
      by_cases hbi : b = i
      · subst hbi
        rw [hkk]
        have hx : emit C b (t.nodes b).log st'.log t.fly a b = t.fly a b ++ (parcels C a b st'.log).drop (parcels C a b (t.nodes b).log).length :=
          if_pos ⟨rfl, haN, by rw [h.agree a b haN hb]; exact hne⟩
        rw [hx, parcels_eq' h a b haN hb hS', parcels_eq' h a b haN hb hS]
        have hle : k b / W ≤ (k b + 1) / W := Nat.div_le_div_right (by omega)
        have hsk := hI.inv.skew a b haN hb hne
        set L := fun m => (List.range m).map (parcel C W S (absU S) a b) with hL
        have hLl : ∀ m, (L m).length = m := by intro m; simp [hL]
        have hsplit : L ((k b + 1) / W + 1) = L (k b / W + 1) ++ (L ((k b + 1) / W + 1)).drop (L (k b / W + 1)).length := by
          conv_lhs => rw [← List.take_append_drop (L (k b / W + 1)).length (L ((k b + 1) / W + 1))]
          congr 1
          simp only [hL]
          rw [← List.map_take, List.take_range, List.length_map, List.length_range, Nat.min_eq_left (by omega)]
        change (t.fly a b ++ (L ((k b + 1) / W + 1)).drop (L (k b / W + 1)).length ++ t.buf a b).Perm ((L ((k b + 1) / W + 1)).drop (k a / W)) ∧
          t.del a b + (t.fly a b ++ (L ((k b + 1) / W + 1)).drop (L (k b / W + 1)).length).length = _
        constructor
        · conv_rhs => rw [hsplit, List.drop_append_of_le_length (by rw [hLl]; omega)]
          refine List.Perm.trans ?_ (List.Perm.append_right _ e1)
          rw [List.append_assoc, List.append_assoc]
          exact List.Perm.append_left _ List.perm_append_comm
        · rw [List.length_append, List.length_drop, hLl, hLl]
          omega
      · rw [hfly a b (fun hh => hbi hh.1), hki b hbi]
        exact ⟨e1, e2⟩
  · intro a b haN hb ho
    show emit C i (t.nodes i).log st'.log t.fly a b = [] ∧ consume C i (glob (C.env i) (t.nodes i) + 1) t.buf a b = [] ∧ t.del a b = 0
    obtain ⟨e1, e2, e3⟩ := hI.off a b haN hb ho
    refine ⟨?_, ?_, e3⟩
    · rw [hfly a b, e1]
      rintro ⟨rfl, -, hs⟩
      rcases ho with ho | ho
      · exact ho h4
      · exact hs (by rw [h.agree a b haN hb]; exact ho)
    · unfold consume
      rw [e2]
      split <;> rfl
  · intro a b hab
    show emit C i (t.nodes i).log st'.log t.fly a b = []
    rw [hfly a b (fun hh => hab ⟨hh.2.1, by rw [hh.1]; exact hi⟩)]
    exact hI.out a b hab
  · intro a b haN hb hne hb4
    have := hI.late a b haN hb hne hb4
    by_cases hai : a = i
    · subst hai
      rw [hkk]
      by_cases hm : (k a + 1) % W = 0
      · exact absurd (avail_mem h hI hi h4 ha hm hb hne).1 hb4
      · rw [hnd hm]; exact this
    · rw [hki a hai]; exact this
  · show n + 1 = ∑ j ∈ Finset.range C.N, t.phase j + ∑ j ∈ Finset.range C.N, Function.update k i (k i + 1) j + ∑ a ∈ Finset.range C.N, ∑ b ∈ Finset.range C.N, t.del a b
    rw [sum_bump _ _ _ hi, hI.count]
    omega

include hl in
/-- every step preserves the invariant and counts -/
theorem inv_step (hst : S.steerers.length ≤ 1) (hini : IniOK C S own b1 b2 ini) (hI : HInv C W S own total ini n k t) {u : HSt κ α} (hs : HStep C b1 b2 total t u) :
    ∃ k', HInv C W S own total ini (n + 1) k' u := by
  cases hs with
  | advance i hi h3 _ => exact ⟨k, inv_advance hI hi h3⟩
  | create i st hi h3 _ hc =>
    rw [(hini i hi).1] at hc
    obtain rfl : ini i = st := by injection hc
    exact ⟨k, inv_create h hini hI hi h3⟩
  | createFail i hi h3 _ hc => rw [(hini i hi).1] at hc; cases hc
  | deliver i j l p r hf _ => exact ⟨k, inv_deliver hI hf⟩
  | deliverTwice i j l p r hf hq =>
    obtain ⟨q, hq, he⟩ := hq
    exact absurd he (not_twice h hI hf q hq)
  | update i o st hi h4 hlt ha ho hu => exact ⟨_, inv_update h hl hst hI hi h4 hlt ha ho hu⟩
  | updateFail i o hi h4 hlt ha ho hu =>
    obtain ⟨-, st, s1, -⟩ := update_eq h hl hst hI hi h4 ha ho
    rw [s1] at hu; cases hu

include hl in
theorem ini_exists (b1 b2 : Nat → Nat → List α) : ∃ ini, IniOK C S own b1 b2 ini := by
  have key : ∀ i, ∃ st, i < C.N → initGrids { C.env i with prov := fun _ g => g } (b1 i) (b2 i) = some st ∧
      SInv (C.env i) (own i) (absU S) (absV S) 0 st := by
    intro i
    by_cases hi : i < C.N
    · obtain ⟨st, s1, s2⟩ := initGrids_ok (E := { C.env i with prov := fun _ g => g }) (fit_prov (h.fit i hi) _) (h.steerOK ((h.fits i hi).prov _))
        (by intro n g h' c hc; change (C.env i).upd n g c = (C.env i).upd n h' c; rw [h.sameUpd i hi]; exact hl n g h' c hc)
        (serial_ok h i hi _ ((h.fits i hi).prov _) rfl)
        (by
          refine ⟨fun _ _ _ _ _ => rfl, fun _ _ _ => rfl, fun _ _ _ _ _ _ => Or.inl rfl, ?_⟩
          intro m hm hlt
          exfalso
          have hlt' : m * (C.env i).W < (C.env i).W := Nat.lt_of_add_lt_add_left hlt
          have := Nat.mul_le_mul_right (C.env i).W hm
          have hW := (h.fit i hi).width
          simp at this
          omega) (b1 i) (b2 i)
      exact ⟨st, fun _ => ⟨s1, (sinv_prov _).mp s2⟩⟩
    · exact ⟨⟨S.initial, S.initial, 0, 0, 0, { buffer := fun _ => [] }, { buffer := fun _ => [] }, [], [], []⟩, fun hh => absurd hh hi⟩
  choose ini hini using key
  exact ⟨ini, hini⟩

theorem inv_start (hini : IniOK C S own b1 b2 ini) (nodes : Nat → St κ α) : HInv C W S own total ini 0 (fun _ => 0) (start C nodes) where
  inv := by
    refine ⟨fun i hi => ?_, fun i j hi hj _ => by simp⟩
    show SInv _ _ _ _ _ (if (0 : Nat) = 4 then _ else ini i)
    rw [if_neg (by omega)]
    exact (hini i hi).2
  k0 := fun _ _ _ => rfl
  kt := fun _ _ => Nat.zero_le _
  ph := fun _ _ => Nat.zero_le _
  st := fun i hi => h.sameSteerers i hi
  err := rfl
  on := fun i j _ _ _ h4 => by cases h4
  off := fun _ _ _ _ _ => ⟨rfl, rfl, rfl⟩
  out := fun _ _ _ => rfl
  late := fun _ _ _ _ _ _ => Nat.zero_div _
  count := by simp [start]

include hl in
theorem inv_run (hst : S.steerers.length ≤ 1) (hini : IniOK C S own b1 b2 ini) (nodes : Nat → St κ α) {u : HSt κ α} (hr : HRun C b1 b2 total n (start C nodes) u) :
    ∃ k, HInv C W S own total ini n k u := by
  generalize hs : start C nodes = s at hr
  induction hr with
  | nil t => subst hs; exact ⟨_, inv_start h hini nodes⟩
  | snoc n s t u _ h2 ih =>
    obtain ⟨k, hk⟩ := ih hs
    exact inv_step h hl hst hini hk h2

omit h in
omit [DecidableEq κ] in
/-- bound on the number of steps -/
theorem inv_bound (hI : HInv C W S own total ini n k t) : n ≤ C.N * 4 + C.N * total + C.N * (C.N * (total / W + 1)) := by
  rw [hI.count]
  have a1 : ∑ i ∈ Finset.range C.N, t.phase i ≤ C.N * 4 := by
    have := Finset.sum_le_card_nsmul (Finset.range C.N) t.phase 4 (fun i hi => hI.ph i (Finset.mem_range.1 hi))
    simpa using this
  have a2 : ∑ i ∈ Finset.range C.N, k i ≤ C.N * total := by
    have := Finset.sum_le_card_nsmul (Finset.range C.N) k total (fun i hi => hI.kt i (Finset.mem_range.1 hi))
    simpa using this
  have a3 : ∑ i ∈ Finset.range C.N, ∑ j ∈ Finset.range C.N, t.del i j ≤ C.N * (C.N * (total / W + 1)) := by
    have := Finset.sum_le_card_nsmul (Finset.range C.N) (fun i => ∑ j ∈ Finset.range C.N, t.del i j) (C.N * (total / W + 1)) (fun i hi => by
      have := Finset.sum_le_card_nsmul (Finset.range C.N) (t.del i) (total / W + 1) (fun j hj => by
        have hi := Finset.mem_range.1 hi
        have hj := Finset.mem_range.1 hj
        have hle : k j / W ≤ total / W := Nat.div_le_div_right (hI.kt j hj)
        by_cases ho : t.phase j ≠ 4 ∨ C.recvRegion i j = []
        · rw [(hI.off i j hi hj ho).2.2]; exact Nat.zero_le _
        · rw [not_or, not_not] at ho
          have := (hI.on i j hi hj ho.2 ho.1).2
          omega)
      simpa using this)
    simpa using this
  omega

include hl in
/-- something can happen until all groups are at the end -/
theorem progress (hst : S.steerers.length ≤ 1) (hini : IniOK C S own b1 b2 ini) (hI : HInv C W S own total ini n k t) (hs : ∀ u, ¬ HStep C b1 b2 total t u) :
    (∀ i, i < C.N → t.phase i = 4 ∧ k i = total) ∧ ∀ i j, t.fly i j = [] := by
  have hfly : ∀ i j, t.fly i j = [] := by
    intro i j
    cases hf : t.fly i j with
    | nil => rfl
    | cons p r => exact absurd (HStep.deliver t i j [] p r hf (not_twice h hI (l := []) hf)) (hs _)
  have h3 : ∀ i, i < C.N → 3 ≤ t.phase i := by
    by_contra hc
    simp only [not_forall] at hc
    obtain ⟨i, hi, hlt⟩ := hc
    obtain ⟨m, hm, hmin⟩ := exists_min t.phase C.N (by omega)
    have := hmin i hi
    exact hs _ (HStep.advance t m hm (by omega) hmin)
  have h4 : ∀ i, i < C.N → t.phase i = 4 := by
    intro i hi
    by_contra hc
    have := h3 i hi
    have := hI.ph i hi
    exact hs _ (HStep.create t i (ini i) hi (by omega) (fun a ha _ => h3 a ha) (hini i hi).1)
  refine ⟨fun i hi => ⟨h4 i hi, ?_⟩, hfly⟩
  by_contra hne
  have hki := hI.kt i hi
  obtain ⟨m, hm, hmin⟩ := exists_min k C.N (by omega)
  have hkm : k m < total := by have := hmin i hi; omega
  have hW := width_pos h hm
  have hg := glob_eq h hI hm (h4 m hm)
  have ha : Avail C t m := by
    intro hd j hj hr
    rw [due_iff h hm, hg, show S.first + k m + 1 - S.first = k m + 1 by omega] at hd
    have hp := (hI.on m j hm hj hr (h4 j hj)).1
    rw [hfly m j, List.nil_append] at hp
    refine ⟨parcel C W S (absU S) m j (k m / W), hp.mem_iff.2 ?_, ?_⟩
    · rw [← List.map_drop, List.range_eq_range', List.drop_range']
      refine List.mem_map_of_mem ?_
      have : k m / W ≤ k j / W := Nat.div_le_div_right (hmin j hj)
      rw [List.mem_range'_1]
      omega
    · rw [hg]
      have hdiv : (k m + 1) / W * W = k m + 1 := Nat.div_mul_cancel (Nat.dvd_of_mod_eq_zero hd.2)
      rw [Nat.succ_div, if_pos (Nat.dvd_of_mod_eq_zero hd.2)] at hdiv
      unfold parcel
      dsimp only
      omega
  obtain ⟨-, st, s1, -⟩ := update_eq h hl hst hI hm (h4 m hm) ha (List.Perm.refl _)
  refine hs _ (HStep.update t m _ st hm (h4 m hm) ?_ ha (List.Perm.refl _) s1)
  change glob (C.env m) (t.nodes m) < t0 (C.env m) + total
  rw [hg, (h.fits m hm).t0]
  omega

end

end LGD.HpxGroup
