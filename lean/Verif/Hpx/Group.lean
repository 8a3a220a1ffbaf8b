import Verif.Hpx.GroupModel
import Verif.Comm.LinkSim
import Mathlib.Algebra.BigOperators.Group.Finset.Basic
import Mathlib.Algebra.BigOperators.Group.Finset.Piecewise
import Mathlib.Algebra.Order.BigOperators.Group.Finset
import Mathlib.Data.List.Perm.Basic

/-!
# Invariant of update groups on top of HPX
-/

namespace LGD.HpxGroup
open LGD.Step LGD.Patch LGD.C26 LGD.C43

variable {κ α : Type} [DecidableEq κ] {C : Cluster κ α} {W : Nat} {S : Sim κ α} {own outer : Nat → κ → Prop} {nb : κ → κ → Prop}

/-! ## What `update1` asks of link providers -/

/-- another provider -/
def withProv (E : Env κ α) (p : Nat → (κ → α) → κ → α) : Env κ α := { E with prov := p }

theorem ghostLoop_congr {E : Env κ α} {p q : Nat → (κ → α) → κ → α} (hn : 0 < E.nanoSteps) (g0 : Nat) (st : St κ α) (hnano : st.nano = glob E st % E.nanoSteps) :
    ∀ n, (∀ s, glob E st ≤ s → s < glob E st + n → p s = q s) →
      ghostLoop (withProv E p) g0 st n = ghostLoop (withProv E q) g0 st n ∧
      ∀ st', ghostLoop (withProv E p) g0 st n = some st' → glob E st' = glob E st + n ∧ st'.nano = (glob E st + n) % E.nanoSteps := by
  intro n
  induction n with
  | zero =>
    intro _
    refine ⟨rfl, fun st' h => ?_⟩
    simp only [ghostLoop, Option.some.injEq] at h
    subst h
    exact ⟨rfl, hnano⟩
  | succ n ih =>
    intro hp
    obtain ⟨h1, h2⟩ := ih (fun s h1 h2 => hp s h1 (by omega))
    cases hst : ghostLoop (withProv E p) g0 st n with
    | none => rw [ghostLoop, ghostLoop, ← h1, hst]; exact ⟨rfl, fun _ h => by simp at h⟩
    | some st1 =>
      obtain ⟨e1, e2⟩ := h2 st1 hst
      have ep : p (glob E st1) = q (glob E st1) := hp _ (by omega) (by omega)
      have hi : ghostIter (withProv E p) g0 st1 n = ghostIter (withProv E q) g0 st1 n := by
        have hs : ∀ (s : Nat) (r : List κ) (fs : List (Steerer κ α)) (as) (g : κ → α), steer (withProv E p) s r fs as g = steer (withProv E q) s r fs as g := by
          intro s r fs
          induction fs with
          | nil => intro as g; rfl
          | cons f fs ih =>
            intro as g
            cases as with
            | nil => rfl
            | cons a as =>
              simp only [steer]
              congr 1
              funext a'
              rw [ih]
        unfold ghostIter
        show Option.map _ (steer (withProv E p) (glob E st1) (E.rim n) E.steerers st1.sg (p (glob E st1) st1.old)) =
          Option.map _ (steer (withProv E q) (glob E st1) (E.rim n) E.steerers st1.sg (q (glob E st1) st1.old))
        rw [hs, ep]
        rfl
      rw [ghostLoop, ghostLoop, ← h1, hst]
      refine ⟨hi, fun st' h => ?_⟩
      simp only [Option.bind_some] at h
      unfold ghostIter at h
      rw [Option.map_eq_some_iff] at h
      obtain ⟨pr, -, rfl⟩ := h
      have := incNano_glob (E := E) hn { st1 with old := updateRegion (E.rim (n + 1)) (E.upd st1.nano pr.2) st1.new, new := pr.2, sg := pr.1 } (glob E st + n) e1 e2
      exact ⟨this.1, this.2⟩

omit [DecidableEq κ] in
theorem saveKernel_glob {E : Env κ α} {st st' : St κ α} (h : saveKernel E st = some st') : glob E st' = glob E st ∧ st'.nano = st.nano := by
  unfold saveKernel at h
  rw [Option.map_eq_some_iff] at h
  obtain ⟨b, -, rfl⟩ := h
  exact ⟨rfl, rfl⟩

theorem restoreRim_glob {E : Env κ α} {st st' : St κ α} {r : Bool} (h : restoreRim E st r = some st') : glob E st' = glob E st ∧ st'.nano = st.nano := by
  unfold restoreRim at h
  rw [Option.map_eq_some_iff] at h
  obtain ⟨b, -, rfl⟩ := h
  exact ⟨rfl, rfl⟩

theorem updateGhost_congr {E : Env κ α} {p q : Nat → (κ → α) → κ → α} (hn : 0 < E.nanoSteps) (st : St κ α) (hnano : st.nano = glob E st % E.nanoSteps)
    (hp : ∀ s, glob E st ≤ s → s < glob E st + E.W → p s = q s) : updateGhost (withProv E p) st = updateGhost (withProv E q) st := by
  unfold updateGhost
  show (saveKernel E st).bind _ = (saveKernel E st).bind _
  cases h1 : saveKernel E st with
  | none => rfl
  | some st1 =>
    simp only [Option.bind_some]
    show (restoreRim E st1 false).bind _ = (restoreRim E st1 false).bind _
    cases h2 : restoreRim E st1 false with
    | none => rfl
    | some st2 =>
      simp only [Option.bind_some]
      obtain ⟨a1, a2⟩ := saveKernel_glob h1
      obtain ⟨a3, a4⟩ := restoreRim_glob h2
      have := (ghostLoop_congr (E := E) (p := p) (q := q) hn (glob E st2) st2 (by rw [a4, a2, a3, a1]; exact hnano) E.W (by rw [a3, a1]; exact hp)).1
      show (ghostLoop (withProv E p) (glob E st2) st2 E.W).bind _ = (ghostLoop (withProv E q) (glob E st2) st2 E.W).bind _
      rw [this]
      rfl

/-- Only the patches for the synchronisation point matter. -/
theorem update1_congr {E : Env κ α} {p q : Nat → (κ → α) → κ → α} (hn : 0 < E.nanoSteps) (st : St κ α) (hnano : st.nano = glob E st % E.nanoSteps)
    (hp : st.valid - 1 = 0 → ∀ s, glob E st < s → s ≤ glob E st + E.W → p s = q s) : update1 (withProv E p) st = update1 (withProv E q) st := by
  have hsteer : ∀ (s : Nat) (r : List κ) (fs : List (Steerer κ α)) (as) (g : κ → α), steer (withProv E p) s r fs as g = steer (withProv E q) s r fs as g := by
    intro s r fs
    induction fs with
    | nil => intro as g; rfl
    | cons f fs ih =>
      intro as g
      cases as with
      | nil => rfl
      | cons a as =>
        simp only [steer]
        congr 1
        funext a'
        rw [ih]
  have hsi : steerInner (withProv E p) = steerInner (withProv E q) := by
    funext st
    unfold steerInner
    rw [hsteer]
    rfl
  unfold update1
  rw [hsi]
  dsimp only
  congr 1
  set st1 := incNano (withProv E p) { st with valid := st.valid - 1, old := updateRegion ((withProv E p).inner ((withProv E p).W - (st.valid - 1))) ((withProv E p).upd st.nano st.old) st.new, new := st.old } with hst1
  have e : incNano (withProv E q) { st with valid := st.valid - 1, old := updateRegion ((withProv E q).inner ((withProv E q).W - (st.valid - 1))) ((withProv E q).upd st.nano st.old) st.new, new := st.old } = st1 := rfl
  rw [e]
  by_cases hv : st1.valid = 0
  · rw [if_pos hv, if_pos hv]
    have hv' : st.valid - 1 = 0 := by
      rw [← hv, hst1, (incNano_fields (E := withProv E p) _).2.2.1]
    have hg := incNano_glob (E := E) hn { st with valid := st.valid - 1, old := updateRegion (E.inner (E.W - (st.valid - 1))) (E.upd st.nano st.old) st.new, new := st.old } (glob E st) rfl hnano
    have hg1 : glob E st1 = glob E st + 1 := hg.1
    have hg2 : st1.nano = (glob E st + 1) % E.nanoSteps := hg.2
    have hgl : ∀ r : Nat → (κ → α) → κ → α, glob (withProv E r) st1 = glob E st1 := fun _ => rfl
    rw [hgl p, hgl q]
    rw [updateGhost_congr (E := E) (p := p) (q := q) hn { st1 with log := st1.log ++ [.inner (glob E st1) st1.old] } ?_ ?_]
    · rfl
    · show st1.nano = glob E st1 % E.nanoSteps
      rw [hg2, hg1]
    · intro s h1 h2
      change glob E st1 ≤ s at h1
      change s < glob E st1 + E.W at h2
      exact hp hv' s (by omega) (by omega)
  · rw [if_neg hv, if_neg hv]
    rfl

/-! ## Parcels -/

omit [DecidableEq κ] in
theorem parcels_ghosts (C : Cluster κ α) (i j : Nat) (log : List (Ev κ α)) :
    parcels C i j log = ((ghosts log).filter (fun p => due (C.env j) p.1)).map (fun p => (p.1, saveRegion (C.sendRegion j i) p.2)) := by
  unfold parcels ghosts
  induction log with
  | nil => rfl
  | cons e l ih =>
    cases e with
    | inner s g => simpa using ih
    | ghost s g =>
      by_cases hd : due (C.env j) s = true
      · simp only [List.filterMap_cons, hd, if_true, List.filter_cons]
        simp only [List.map_cons]
        rw [ih]
      · simp only [List.filterMap_cons, hd, List.filter_cons]
        simpa using ih

/-- the parcel number `m` from `j` to `i` -/
def parcel (C : Cluster κ α) (W : Nat) (S : Sim κ α) (u : Nat → κ → α) (i j m : Nat) : Nat × List α :=
  (S.first + (m + 1) * W, saveRegion (C.recvRegion i j) (u (S.first + (m + 1) * W)))

omit [DecidableEq κ] in
theorem parcels_eq (h : ClusterOK C W S own outer nb) (i j : Nat) (hi : i < C.N) (hj : j < C.N) {u v : Nat → κ → α} {k : Nat} {st : St κ α}
    (hI : SInv (C.env j) (own j) u v k st) : parcels C i j st.log = (List.range (k / W + 1)).map (parcel C W S (sh (C.env j) u v) i j) := by
  have hs := hI.ghosts
  have hW := (h.fit j hj).width
  rw [h.width j hj, (h.fits j hj).t0] at hs
  rw [h.width j hj] at hW
  have hdue : ∀ s, due (C.env j) s = (decide (S.first < s) && (s - S.first) % W == 0) := by
    intro s; unfold due; rw [h.width j hj]; change (decide (t0 (C.env j) < s) && (s - t0 (C.env j)) % W == 0) = _; rw [(h.fits j hj).t0]
  have e2 : ∀ p ∈ ghosts st.log, saveRegion (C.sendRegion j i) p.2 = saveRegion (C.recvRegion i j) (sh (C.env j) u v p.1) := by
    intro p hp
    rw [h.agree i j hi hj]
    exact save_congr (fun c hc => hs.2 p hp c (h.inRim i j hi hj c hc))
  have e3 : ((ghosts st.log).filter (fun p => due (C.env j) p.1)).map (fun p => (p.1, saveRegion (C.sendRegion j i) p.2)) =
      (((ghosts st.log).map (·.1)).filter (due (C.env j))).map (fun s => (s, saveRegion (C.recvRegion i j) (sh (C.env j) u v s))) := by
    rw [List.filter_map, List.map_map]
    apply List.map_congr_left
    intro p hp
    have := e2 p (List.mem_of_mem_filter hp)
    simp only [Function.comp]
    rw [this]
  rw [parcels_ghosts, e3, hs.1, List.filter_map, List.map_map]
  have e4 : List.filter (due (C.env j) ∘ fun x => S.first + x) (List.range ((k / W + 1) * W + 1)) =
      List.filter (fun r => decide (0 < r) && r % W == 0) (List.range ((k / W + 1) * W + 1)) := by
    congr 1
    funext r
    simp only [Function.comp, hdue]
    rw [Nat.add_sub_cancel_left]
    congr 1
    simp
  rw [e4, filter_range W (k / W + 1) hW, List.map_map]
  rfl

omit [DecidableEq κ] in
/-- in terms of the serial simulation -/
theorem parcel_sh (h : ClusterOK C W S own outer nb) (i j : Nat) (hj : j < C.N) (u v : Nat → κ → α) (m : Nat) (hW : 0 < W) :
    parcel C W S (sh (C.env j) u v) i j m = parcel C W S u i j m := by
  unfold parcel sh
  have : 0 < (m + 1) * W := Nat.mul_pos (by omega) hW
  rw [(h.fits j hj).t0, if_neg (by omega)]

omit [DecidableEq κ] in
theorem parcels_eq' (h : ClusterOK C W S own outer nb) (i j : Nat) (hi : i < C.N) (hj : j < C.N) {u v : Nat → κ → α} {k : Nat} {st : St κ α}
    (hI : SInv (C.env j) (own j) u v k st) : parcels C i j st.log = (List.range (k / W + 1)).map (parcel C W S u i j) := by
  have hW := (h.fit j hj).width
  rw [h.width j hj] at hW
  rw [parcels_eq h i j hi hj hI]
  exact List.map_congr_left fun m _ => parcel_sh h i j hj u v m hW

/-! ## Orders of steerers -/

theorem perm_range_le_one {o : List Nat} {n : Nat} (h : o.Perm (List.range n)) (hn : n ≤ 1) : o = List.range n := by
  have : n = 0 ∨ n = 1 := by omega
  rcases this with rfl | rfl
  · exact List.perm_nil.1 h
  · exact List.perm_singleton.1 h

theorem reorder_range {β : Type} (l : List β) (n : Nat) (h : l.length = n) : reorder (List.range n) l = l := by
  subst h
  unfold reorder
  induction l using List.reverseRecOn with
  | nil => rfl
  | append_singleton l x ih =>
    rw [List.length_append, List.length_singleton, List.range_succ, List.filterMap_append]
    congr 1
    · refine Eq.trans (List.filterMap_congr fun m hm => ?_) ih
      rw [List.getElem?_append_left (List.mem_range.1 hm)]
    · simp

/-! ## Sums -/

theorem sum_bump (f : Nat → Nat) (N i : Nat) (hi : i < N) : ∑ x ∈ Finset.range N, Function.update f i (f i + 1) x = ∑ x ∈ Finset.range N, f x + 1 := by
  rw [Finset.sum_update_of_mem (Finset.mem_range.2 hi), ← Finset.sum_sdiff (Finset.singleton_subset_iff.2 (Finset.mem_range.2 hi)), Finset.sum_singleton]
  omega

theorem sum_bump2 (f : Nat → Nat → Nat) (N i j : Nat) (hi : i < N) (hj : j < N) :
    ∑ x ∈ Finset.range N, ∑ y ∈ Finset.range N, upd2 f i j (f i j + 1) x y = ∑ x ∈ Finset.range N, ∑ y ∈ Finset.range N, f x y + 1 := by
  rw [← sum_bump (fun x => ∑ y ∈ Finset.range N, f x y) N i hi]
  apply Finset.sum_congr rfl
  intro x _
  by_cases hx : x = i
  · subst hx
    rw [Function.update_self, ← sum_bump (f x) N j hj]
    apply Finset.sum_congr rfl
    intro y _
    by_cases hy : y = j
    · subst hy; simp [upd2]
    · simp [upd2, hy]
  · rw [Function.update_of_ne hx]
    apply Finset.sum_congr rfl
    intro y _
    simp [upd2, hx]

end LGD.HpxGroup
