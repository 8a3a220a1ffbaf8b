import Verif.Region.AdjModel
import Verif.Region.OnAfter
import Verif.Region.SetOps
import Verif.Props.C04
import Verif.Props.C05
import Verif.Props.C07
import Verif.Props.C10

/-!
# C11 – `RegionBasedAdjacency`
-/

namespace LGD.C11
open LGD.C04 LGD.C05 LGD.C10

/-! ## iterator ranges -/

def PosOf (n : Nat) (idx : Idx) (i : Nat) (it : SIter) : Prop :=
  (i < (idx 0).length → At n idx (fun _ => 0) 0 i it) ∧ ((idx 0).length ≤ i → siEq n it (siEnd idx) = true)

theorem siEq_iff (n : Nat) (a b : SIter) : siEq n a b = true ↔ ∀ k, k ≤ n → a.pos k = b.pos k := by
  unfold siEq
  rw [List.all_eq_true]
  constructor
  · intro h k hk; exact of_decide_eq_true (h k (by simp; omega))
  · intro h k hk; exact decide_eq_true (h k (by simp at hk; omega))

theorem posOf_zero {n : Nat} {idx : Idx} {i : Nat} {it : SIter} (h : PosOf n idx i it) (hi : i ≤ (idx 0).length) : it.pos 0 = i := by
  by_cases hl : i < (idx 0).length
  · rw [(h.1 hl).pos 0 (by omega)]; rfl
  · have := (siEq_iff n it _).1 (h.2 (by omega)) 0 (by omega)
    rw [this]; simp [siEnd]; omega

theorem posOf_eq {n : Nat} {idx : Idx} {i j : Nat} {a b : SIter} (ha : PosOf n idx i a) (hb : PosOf n idx j b)
    (hi : i ≤ (idx 0).length) (hj : j ≤ (idx 0).length) : siEq n a b = true ↔ i = j := by
  constructor
  · intro h
    have := (siEq_iff n a b).1 h 0 (by omega)
    rwa [posOf_zero ha hi, posOf_zero hb hj] at this
  · rintro rfl
    rw [siEq_iff]
    intro k hk
    by_cases hl : i < (idx 0).length
    · rw [(ha.1 hl).pos k hk, (hb.1 hl).pos k hk]
    · rw [(siEq_iff n a _).1 (ha.2 (by omega)) k hk, (siEq_iff n b _).1 (hb.2 (by omega)) k hk]

theorem rangeLoop_spec {n : Nat} {idx : Idx} {t : Tree n} (h : Rep n idx t) {j : Nat} {stop : SIter} (hj : j ≤ (idx 0).length)
    (hs : PosOf n idx j stop) (r : Nat) : ∀ (i : Nat) (it : SIter) (fuel : Nat), i + r = j → r < fuel → PosOf n idx i it →
      rangeLoop n idx stop fuel it = some ((((List.range (idx 0).length).map (streakAt n idx)).drop i).take r) := by
  induction r with
  | zero =>
    intro i it fuel hi hf hp
    obtain ⟨f, rfl⟩ : ∃ f, fuel = f + 1 := ⟨fuel - 1, by omega⟩
    rw [rangeLoop, if_pos ((posOf_eq hp hs (by omega) hj).2 (by omega))]
    simp
  | succ r ih =>
    intro i it fuel hi hf hp
    obtain ⟨f, rfl⟩ : ∃ f, fuel = f + 1 := ⟨fuel - 1, by omega⟩
    rw [rangeLoop, if_neg (by rw [posOf_eq hp hs (by omega) hj]; omega)]
    have ha := hp.1 (by omega)
    obtain ⟨it', h1, h2, h3⟩ := siNext_spec h (fun _ => 0) 0 i it (by omega) ha
    rw [h1, Option.bind_some, ih (i + 1) it' f (by omega) (by omega) ⟨h2, fun hh => (h3 (by omega)).1⟩, Option.map_some]
    have hlen : i < ((List.range (idx 0).length).map (streakAt n idx)).length := by simp; omega
    rw [List.drop_eq_getElem_cons hlen, List.take_succ_cons]
    congr 2
    rw [ha.streak, shiftS_zero]
    simp

/-! ## invariants -/

/-- Spec: edges inserted so far. -/
abbrev Graph := Int → Int → Prop

structure RInv (M : Int) (st : RBA) (E : Graph) : Prop where
  len : st.regions.length = st.limits.length
  top : M ∈ st.limits
  sorted : st.limits.Pairwise (· ≤ ·)
  bound : ∀ a b, E a b → a ≤ M ∧ b < M
  reg : ∀ j r, st.regions[j]? = some r → RegOK 1 r ∧ ∀ c, RMem 1 r c ↔ E (c 1) (c 0) ∧ rbaIndex st.limits (c 1) = j

theorem index_lt {l : List Int} {M y : Int} (h : M ∈ l) (hy : y ≤ M) : rbaIndex l y < l.length := by
  unfold rbaIndex
  refine Classical.byContradiction (fun hc => ?_)
  have hle : (l.takeWhile (fun x => decide (x < y))).length = l.length := by
    have := (List.takeWhile_sublist (fun x => decide (x < y)) (l := l)).length_le
    omega
  have heq : l.takeWhile (fun x => decide (x < y)) = l := (List.takeWhile_sublist _).eq_of_length hle
  have hall := List.all_takeWhile (p := fun x => decide (x < y)) (l := l)
  rw [heq, List.all_eq_true] at hall
  have := hall M h
  simp at this
  omega

/-- effect of inserting a limit at the position of its own index -/
theorem index_split (l : List Int) (nl : Int) (i : Nat) (hi : rbaIndex l nl = i) (y : Int) :
    rbaIndex (l.take i ++ nl :: l.drop i) y =
      if rbaIndex l y < i then rbaIndex l y else if rbaIndex l y = i ∧ y ≤ nl then i else rbaIndex l y + 1 := by
  have hil : i ≤ l.length := by
    rw [← hi]; exact (List.takeWhile_sublist _).length_le
  have hlen : (l.take i).length = i := by simp; omega
  have e1 : rbaIndex l y = rbaIndex (l.take i ++ l.drop i) y := by rw [List.take_append_drop]
  have e2 : i = rbaIndex (l.take i ++ l.drop i) nl := by rw [List.take_append_drop, hi]
  rw [e1]
  unfold rbaIndex at *
  rw [List.takeWhile_append, List.takeWhile_append]
  rw [List.takeWhile_append] at e2
  have hle : ((l.take i).takeWhile (fun x => decide (x < y))).length ≤ i := by
    have := (List.takeWhile_sublist (fun x => decide (x < y)) (l := l.take i)).length_le
    omega
  by_cases hf : ((l.take i).takeWhile (fun x => decide (x < y))).length = (l.take i).length
  · rw [if_pos hf, if_pos hf]
    simp only [List.length_append, hlen]
    rw [if_neg (by omega)]
    -- the limits from position `i` on are not below `nl`
    have hnl : ((l.drop i).takeWhile (fun x => decide (x < nl))).length = 0 := by
      split at e2
      · rw [List.length_append, hlen] at e2; omega
      · rename_i hn
        have := (List.takeWhile_sublist (fun x => decide (x < nl)) (l := l.take i)).length_le
        omega
    by_cases hy : y ≤ nl
    · have h0 : ((l.drop i).takeWhile (fun x => decide (x < y))).length = 0 := by
        cases hd : l.drop i with
        | nil => rfl
        | cons a as =>
          rw [hd] at hnl
          by_cases ha : a < nl
          · simp [List.takeWhile_cons, ha] at hnl
          · have : ¬ a < y := by omega
            simp [List.takeWhile_cons, this]
      rw [h0, if_pos ⟨by omega, hy⟩]
      have : ¬ nl < y := by omega
      simp [List.takeWhile_cons, this]
    · rw [if_neg (by tauto)]
      have : nl < y := by omega
      simp [List.takeWhile_cons, this]
      omega
  · rw [if_neg hf, if_neg hf, if_pos (by omega)]

theorem index_mono_split (l : List Int) (nl : Int) (i : Nat) (hi : rbaIndex l nl = i) (hs : l.Pairwise (· ≤ ·)) :
    (l.take i ++ nl :: l.drop i).Pairwise (· ≤ ·) := by
  have ht : l.takeWhile (fun x => decide (x < nl)) = l.take i := by
    unfold rbaIndex at hi
    rw [← hi]
    exact (List.prefix_iff_eq_take.1 (List.takeWhile_prefix _))
  have hlt : ∀ x ∈ l.take i, x < nl := by
    intro x hx
    rw [← ht] at hx
    have := List.all_takeWhile (p := fun x => decide (x < nl)) (l := l)
    rw [List.all_eq_true] at this
    simpa using this x hx
  have hge : ∀ x ∈ l.drop i, nl ≤ x := by
    have hs2 : (l.drop i).Pairwise (· ≤ ·) := hs.sublist (List.drop_sublist _ _)
    cases hd : l.drop i with
    | nil => simp
    | cons a as =>
      rw [hd] at hs2
      have ha : nl ≤ a := by
        refine Classical.byContradiction (fun hc => ?_)
        have hdw : l.dropWhile (fun x => decide (x < nl)) = a :: as := by
          have h1 := List.takeWhile_append_dropWhile (p := fun x => decide (x < nl)) (l := l)
          have h2 := List.take_append_drop i l
          rw [ht] at h1
          have := List.append_cancel_left (h1.trans h2.symm)
          rw [this, hd]
        have := List.head?_dropWhile_not (fun x => decide (x < nl)) l
        rw [hdw] at this
        simp at this
        omega
      intro x hx
      rcases List.mem_cons.1 hx with rfl | hx
      · exact ha
      · have := (List.pairwise_cons.1 hs2).1 x hx
        omega
  rw [List.pairwise_append]
  refine ⟨hs.sublist (List.take_sublist _ _), List.pairwise_cons.2 ⟨hge, hs.sublist (List.drop_sublist _ _)⟩, ?_⟩
  intro a ha b hb
  rcases List.mem_cons.1 hb with rfl | hb
  · have := hlt a ha; omega
  · have := hlt a ha
    have := hge b hb
    omega

theorem before_xy (a : Crd) (x y : Int) : CrdLt 1 a (xy x y) ↔ a 1 < y ∨ (a 1 = y ∧ a 0 < x) := by
  unfold CrdLt
  constructor
  · rintro ⟨k, h1, h2, h3⟩
    have : k = 0 ∨ k = 1 := by omega
    rcases this with rfl | rfl
    · have := h3 1 (by omega) (by omega)
      simp [xy] at h2 this
      exact Or.inr ⟨this, h2⟩
    · simp [xy] at h2; exact Or.inl h2
  · rintro (h | ⟨h1, h2⟩)
    · exact ⟨1, by omega, by simpa [xy] using h, fun j a b => by omega⟩
    · refine ⟨0, by omega, by simpa [xy] using h2, fun j a b => ?_⟩
      have : j = 1 := by omega
      subst this; simpa [xy] using h1

theorem split_spec (M : Int) (maxSize : Nat) (st : RBA) (E : Graph) (h : RInv M st E) (i : Nat) (hi : i < st.regions.length) :
    ∃ st', rbaSplit M maxSize st i = some st' ∧ RInv M st' E := by
  have hri : st.regions[i]? = some st.regions[i] := List.getElem?_eq_getElem hi
  unfold rbaSplit
  rw [hri, Option.bind_some]
  generalize st.regions[i] = r at hri
  obtain ⟨⟨t, ht⟩, hm⟩ := h.reg i r hri
  by_cases hsz : numStreaks r ≤ maxSize
  · rw [if_pos hsz]; exact ⟨st, rfl, h⟩
  · rw [if_neg hsz]
    have hlen : 0 < (r 0).length := by unfold numStreaks at hsz; omega
    have hcan := ht.canon
    have hr1 : 0 < (r 1).length := by
      have := P_lt ht hlen 1 (by omega)
      omega
    have hmid : (r 1).length / 2 < (r 1).length := Nat.div_lt_self hr1 (by omega)
    obtain ⟨e, he⟩ : ∃ e, (r 1)[(r 1).length / 2]? = some e := ⟨_, List.getElem?_eq_getElem hmid⟩
    rw [he, Option.bind_some]
    -- the new limit is a row of the region
    have hrow : ∃ j, j < (r 0).length ∧ (streakAt 1 r j).origin 1 = e.1 := by
      have hk := ht.keys
      have hin : e.1 ∈ (r 1).map Prod.fst := List.mem_map.2 ⟨e, List.mem_of_getElem? he, rfl⟩
      rw [← hk] at hin
      rw [List.mem_eraseDups] at hin
      obtain ⟨s, hs, hse⟩ := List.mem_map.1 hin
      obtain ⟨j, hj, rfl⟩ := List.mem_map.1 hs
      exact ⟨j, by simpa using hj, hse⟩
    obtain ⟨j0, hj0, hj0e⟩ := hrow
    have hstreak : ∀ j, j < (r 0).length → RMem 1 r (streakAt 1 r j).origin := by
      intro j hj
      have hin : streakAt 1 r j ∈ (List.range (r 0).length).map (streakAt 1 r) := List.mem_map.2 ⟨j, by simpa using hj, rfl⟩
      exact (hcan.mem _).2 ⟨_, hin, fun _ _ _ => rfl, Int.le_refl _, hcan.pos _ hin⟩
    have hidx : rbaIndex st.limits e.1 = i := by
      have := ((hm _).1 (hstreak j0 hj0)).2
      rwa [hj0e] at this
    obtain ⟨mid, m, o1, o2, o3, o4, o5⟩ := onAfter_spec ht (xy M e.1) (fun k a b => by omega)
    obtain ⟨b, b1, b2, b3⟩ := siBegin_spec ht (fun _ => 0) 0
    have hl1 := rangeLoop_spec ht o2 ⟨o3, o4⟩ m 0 b (numStreaks r + 1) (by omega) (by unfold numStreaks; omega) ⟨b2, fun h0 => b3 (by omega)⟩
    have hl2 := rangeLoop_spec ht (Nat.le_refl _) (stop := siEnd r) ⟨fun h0 => by omega, fun _ => siEq_end_refl 1 r⟩
      ((r 0).length - m) m mid (numStreaks r + 1) (by omega) (by unfold numStreaks; omega) ⟨o3, o4⟩
    rw [List.drop_zero] at hl1
    rw [List.take_of_length_le (by simp)] at hl2
    rw [o1, Option.bind_some, b1, Option.bind_some, hl1, Option.bind_some, hl2, Option.bind_some]
    obtain ⟨r1, i1, i2, i3⟩ := insAll_spec 1 (((List.range (r 0).length).map (streakAt 1 r)).take m) emptyIdx (regOK_empty 1)
    obtain ⟨r2, k1, k2, k3⟩ := insAll_spec 1 (((List.range (r 0).length).map (streakAt 1 r)).drop m) emptyIdx (regOK_empty 1)
    rw [i1, Option.bind_some, k1, Option.bind_some]
    have hlt : ∀ j, j < (r 0).length → ((streakAt 1 r j).origin 1 ≤ e.1 ↔ j < m) := by
      intro j hj
      rw [← o5 j hj, before_xy]
      have := h.bound _ _ ((hm _).1 (hstreak j hj)).1
      constructor
      · intro hh
        by_cases he : (streakAt 1 r j).origin 1 < e.1
        · exact Or.inl he
        · exact Or.inr ⟨by omega, this.2⟩
      · rintro (hh | ⟨hh, _⟩) <;> omega
    have hmem1 : ∀ c, RMem 1 r1 c ↔ RMem 1 r c ∧ c 1 ≤ e.1 := by
      intro c
      rw [i3, hcan.mem]
      constructor
      · rintro (h0 | ⟨s, hs, hc⟩)
        · exact (regEmpty_mem 1 c h0).elim
        · obtain ⟨j, hj, rfl⟩ := List.mem_take_iff_getElem.1 hs
          simp only [List.getElem_map, List.getElem_range] at hc
          simp only [List.length_map, List.length_range] at hj
          refine ⟨⟨_, List.mem_map.2 ⟨j, List.mem_range.2 (by omega), rfl⟩, hc⟩, ?_⟩
          rw [hc.1 1 (by omega) (by omega)]
          exact (hlt j (by omega)).2 (by omega)
      · rintro ⟨⟨s, hs, hc⟩, hle⟩
        obtain ⟨j, hj, rfl⟩ := List.mem_map.1 hs
        have hj := List.mem_range.1 hj
        rw [hc.1 1 (by omega) (by omega)] at hle
        refine Or.inr ⟨_, List.mem_take_iff_getElem.2 ⟨j, ?_, ?_⟩, hc⟩
        · have := (hlt j hj).1 hle; simp; omega
        · simp
    have hmem2 : ∀ c, RMem 1 r2 c ↔ RMem 1 r c ∧ ¬ c 1 ≤ e.1 := by
      intro c
      rw [k3, hcan.mem]
      constructor
      · rintro (h0 | ⟨s, hs, hc⟩)
        · exact (regEmpty_mem 1 c h0).elim
        · obtain ⟨j, hj, rfl⟩ := List.mem_drop_iff_getElem.1 hs
          simp only [List.getElem_map, List.getElem_range] at hc
          simp only [List.length_map, List.length_range] at hj
          refine ⟨⟨_, List.mem_map.2 ⟨m + j, List.mem_range.2 (by omega), rfl⟩, hc⟩, ?_⟩
          rw [hc.1 1 (by omega) (by omega), hlt (m + j) (by omega)]
          omega
      · rintro ⟨⟨s, hs, hc⟩, hle⟩
        obtain ⟨j, hj, rfl⟩ := List.mem_map.1 hs
        have hj := List.mem_range.1 hj
        rw [hc.1 1 (by omega) (by omega), hlt j hj] at hle
        refine Or.inr ⟨_, List.mem_drop_iff_getElem.2 ⟨j - m, ?_, ?_⟩, hc⟩
        · simp; omega
        · simp
          congr 1; omega
    refine ⟨_, rfl, ?_, ?_, ?_, h.bound, ?_⟩
    · have := h.len
      simp only [List.length_append, List.length_cons, List.length_take, List.length_drop]
      omega
    · have := h.top
      rw [← List.take_append_drop i st.limits] at this
      simp only [List.mem_append, List.mem_cons] at this ⊢
      tauto
    · exact index_mono_split _ _ _ hidx h.sorted
    · intro j r' hj
      have hix := index_split st.limits e.1 i hidx
      simp only at hj ⊢
      have htl : (st.regions.take i).length = i := by simp; omega
      by_cases hji : j < i
      · rw [List.getElem?_append_left (by omega), List.getElem?_take_of_lt hji] at hj
        obtain ⟨q1, q2⟩ := h.reg j r' hj
        refine ⟨q1, fun c => ?_⟩
        rw [q2, hix]
        refine and_congr Iff.rfl ?_
        split
        · exact Iff.rfl
        · split <;> omega
      · rw [List.getElem?_append_right (by omega), htl] at hj
        by_cases e0 : j = i
        · subst e0
          simp only [Nat.sub_self, List.getElem?_cons_zero, Option.some.injEq] at hj
          subst hj
          refine ⟨i2, fun c => ?_⟩
          rw [hmem1, hm, hix]
          constructor
          · rintro ⟨⟨q1, q2⟩, q3⟩; exact ⟨q1, by rw [if_neg (by omega), if_pos ⟨q2, q3⟩]⟩
          · rintro ⟨q1, q2⟩
            split at q2
            · omega
            · split at q2
              · rename_i q4; exact ⟨⟨q1, q4.1⟩, q4.2⟩
              · omega
        · by_cases e1 : j = i + 1
          · subst e1
            simp only [Nat.add_sub_cancel_left, List.getElem?_cons_succ, List.getElem?_cons_zero, Option.some.injEq] at hj
            subst hj
            refine ⟨k2, fun c => ?_⟩
            rw [hmem2, hm, hix]
            constructor
            · rintro ⟨⟨q1, q2⟩, q3⟩; exact ⟨q1, by rw [if_neg (by omega), if_neg (fun q4 => q3 q4.2), q2]⟩
            · rintro ⟨q1, q2⟩
              split at q2
              · omega
              · split at q2
                · omega
                · rename_i q4; exact ⟨⟨q1, by omega⟩, fun q5 => q4 ⟨by omega, q5⟩⟩
          · obtain ⟨j', rfl⟩ : ∃ j', j = i + 2 + j' := ⟨j - (i + 2), by omega⟩
            rw [show i + 2 + j' - i = j' + 1 + 1 by omega, List.getElem?_cons_succ, List.getElem?_cons_succ, List.getElem?_drop] at hj
            obtain ⟨q1, q2⟩ := h.reg _ r' hj
            refine ⟨q1, fun c => ?_⟩
            rw [q2, hix]
            refine and_congr Iff.rfl ?_
            split
            · omega
            · split <;> omega

/-- replacing the region responsible for `src` by one with additional targets -/
theorem set_inv (M : Int) (st : RBA) (E : Graph) (h : RInv M st E) (src : Int) (T : Int → Prop) (hs : src ≤ M)
    (hT : ∀ d, T d → d < M) (r r' : Idx) (hr : st.regions[rbaIndex st.limits src]? = some r) (hok : RegOK 1 r')
    (hm : ∀ c, RMem 1 r' c ↔ RMem 1 r c ∨ (c 1 = src ∧ T (c 0))) :
    RInv M { st with regions := st.regions.set (rbaIndex st.limits src) r' } (fun a b => E a b ∨ (a = src ∧ T b)) := by
  refine ⟨by simpa using h.len, h.top, h.sorted, ?_, ?_⟩
  · rintro a b (q | ⟨rfl, q⟩)
    · exact h.bound a b q
    · exact ⟨hs, hT b q⟩
  · intro j x hj
    simp only at hj ⊢
    rw [List.getElem?_set] at hj
    by_cases e : rbaIndex st.limits src = j
    · rw [if_pos e] at hj
      have hl : rbaIndex st.limits src < st.regions.length := by rw [h.len]; exact index_lt h.top hs
      rw [if_pos (by omega)] at hj
      cases hj
      refine ⟨hok, fun c => ?_⟩
      rw [hm, (h.reg _ r hr).2]
      constructor
      · rintro (⟨q1, q2⟩ | ⟨q1, q2⟩)
        · exact ⟨Or.inl q1, by omega⟩
        · exact ⟨Or.inr ⟨q1, q2⟩, by rw [q1]; exact e⟩
      · rintro ⟨q1 | q1, q2⟩
        · exact Or.inl ⟨q1, by omega⟩
        · exact Or.inr q1
    · rw [if_neg e] at hj
      obtain ⟨q1, q2⟩ := h.reg j x hj
      refine ⟨q1, fun c => ?_⟩
      rw [q2]
      constructor
      · rintro ⟨a, b⟩; exact ⟨Or.inl a, b⟩
      · rintro ⟨a | ⟨a, _⟩, b⟩
        · exact ⟨a, b⟩
        · exact (e (by rw [← a]; exact b)).elim

theorem SMem_xy (d src : Int) (c : Crd) : SMem 1 { origin := xy d src, endX := d + 1 } c ↔ c 1 = src ∧ c 0 = d := by
  constructor
  · rintro ⟨h1, h2, h3⟩
    have := h1 1 (by omega) (by omega)
    simp only [xy] at this h2 h3
    simp at this h2 h3
    exact ⟨this, by omega⟩
  · rintro ⟨h1, h2⟩
    refine ⟨fun k a b => ?_, by simp [xy]; omega, by simp only; omega⟩
    have : k = 1 := by omega
    subst this; simp [xy]; exact h1

theorem insert_spec (M : Int) (maxSize : Nat) (st : RBA) (E : Graph) (h : RInv M st E) (src dst : Int) (hs : src ≤ M) (hd : dst < M) :
    ∃ st', rbaInsert M maxSize st src dst = some st' ∧ RInv M st' (fun a b => E a b ∨ (a = src ∧ b = dst)) := by
  have hl : rbaIndex st.limits src < st.regions.length := by rw [h.len]; exact index_lt h.top hs
  have hr := List.getElem?_eq_getElem hl
  unfold rbaInsert
  simp only [hr, Option.bind_some]
  obtain ⟨r', h1, h2, h3⟩ := regInsert_spec 1 (st.regions[rbaIndex st.limits src]) { origin := xy dst src, endX := dst + 1 } (h.reg _ _ hr).1
  rw [h1, Option.bind_some]
  have hinv := set_inv M st E h src (fun b => b = dst) hs (fun d hd' => by omega) _ r' hr h2 (fun c => by rw [h3, SMem_xy])
  exact split_spec M maxSize _ _ hinv _ (by simpa using hl)

theorem mem_sortIns (a x : Int) (l : List Int) : x ∈ sortIns a l ↔ x = a ∨ x ∈ l := by
  induction l with
  | nil => simp [sortIns]
  | cons b l ih =>
    rw [sortIns]
    split
    · rw [List.mem_cons]
    · rw [List.mem_cons, ih, List.mem_cons]; tauto

theorem mem_sortInts (x : Int) (l : List Int) : x ∈ sortInts l ↔ x ∈ l := by
  induction l with
  | nil => rfl
  | cons a l ih => rw [sortInts, mem_sortIns, ih, List.mem_cons]

theorem insertMany_spec (M : Int) (maxSize : Nat) (st : RBA) (E : Graph) (h : RInv M st E) (src : Int) (dst : List Int) (hs : src ≤ M)
    (hd : ∀ d ∈ dst, d < M) :
    ∃ st', rbaInsertMany M maxSize st src dst = some st' ∧ RInv M st' (fun a b => E a b ∨ (a = src ∧ b ∈ dst)) := by
  have hl : rbaIndex st.limits src < st.regions.length := by rw [h.len]; exact index_lt h.top hs
  have hr := List.getElem?_eq_getElem hl
  unfold rbaInsertMany
  obtain ⟨buf, b1, b2, b3⟩ := insAll_spec 1 ((sortInts dst).map (fun d => { origin := xy d src, endX := d + 1 }))
    emptyIdx (regOK_empty 1)
  rw [b1, Option.bind_some]
  simp only [hr, Option.bind_some]
  obtain ⟨r', h1, h2, h3⟩ := regPlusAssign_spec 1 (st.regions[rbaIndex st.limits src]) buf (h.reg _ _ hr).1 b2
  rw [h1, Option.bind_some]
  have hinv := set_inv M st E h src (fun b => b ∈ dst) hs hd _ r' hr h2 (fun c => by
    rw [h3, b3]
    refine or_congr Iff.rfl ?_
    constructor
    · rintro (q | ⟨s, q1, q2⟩)
      · exact (regEmpty_mem 1 c q).elim
      · obtain ⟨d, q3, rfl⟩ := List.mem_map.1 q1
        have := (SMem_xy d src c).1 q2
        exact ⟨this.1, by rw [this.2]; exact (mem_sortInts _ _).1 q3⟩
    · rintro ⟨q1, q2⟩
      exact Or.inr ⟨_, List.mem_map.2 ⟨c 0, (mem_sortInts _ _).2 q2, rfl⟩, (SMem_xy _ src c).2 ⟨q1, rfl⟩⟩)
  exact split_spec M maxSize _ _ hinv _ (by simpa using hl)

/-! ## queries -/

theorem xsOf_sorted (s : Streak) : (xsOf s).Pairwise (· < ·) := by
  unfold xsOf
  rw [List.pairwise_map]
  exact List.Pairwise.imp (fun h => by omega) List.pairwise_lt_range

theorem neighbors_spec (M : Int) (st : RBA) (E : Graph) (h : RInv M st E) (node : Int) (hn : node ≤ M) :
    ∃ l, rbaNeighbors st node = some l ∧ l.Pairwise (· < ·) ∧ ∀ x, x ∈ l ↔ E node x := by
  have hl : rbaIndex st.limits node < st.regions.length := by rw [h.len]; exact index_lt h.top hn
  have hri := List.getElem?_eq_getElem hl
  unfold rbaNeighbors
  rw [hri, Option.bind_some]
  generalize st.regions[rbaIndex st.limits node] = r at hri
  obtain ⟨hok, hm⟩ := h.reg _ r hri
  obtain ⟨sz, box, g1, _, g3⟩ := determineGeometry_spec 1 r hok
  obtain ⟨t, ht⟩ := hok
  rw [g1, Option.bind_some]
  simp only
  obtain ⟨a, i, a1, a2, a3, a4, a5⟩ := onAfter_spec ht (xy (box.origin 0) node) (fun k p q => by omega)
  obtain ⟨b, j, b1, b2, b3, b4, b5⟩ := onAfter_spec ht (xy (box.origin 0 + box.dims 0) node) (fun k p q => by omega)
  have hcan := ht.canon
  have hstreak : ∀ j, j < (r 0).length → RMem 1 r (streakAt 1 r j).origin := by
    intro j hj
    have hin : streakAt 1 r j ∈ (List.range (r 0).length).map (streakAt 1 r) := List.mem_map.2 ⟨j, by simpa using hj, rfl⟩
    exact (hcan.mem _).2 ⟨_, hin, fun _ _ _ => rfl, Int.le_refl _, hcan.pos _ hin⟩
  have hij : i ≤ j := by
    refine Classical.byContradiction (fun hc => ?_)
    have hjl : j < (r 0).length := by omega
    have q1 := (a5 j hjl).2 (by omega)
    have q2 : ¬ CrdLt 1 (streakAt 1 r j).origin (xy (box.origin 0 + box.dims 0) node) := fun q => by
      have := (b5 j hjl).1 q; omega
    have hb := g3.2.1 _ (hstreak j hjl) 0 (by omega)
    rw [before_xy] at q1 q2
    omega
  have hrow : ∀ k, k < (r 0).length → ((i ≤ k ∧ k < j) ↔ (streakAt 1 r k).origin 1 = node) := by
    intro k hk
    have q1 := a5 k hk
    have q2 := b5 k hk
    have hb := g3.2.1 _ (hstreak k hk) 0 (by omega)
    rw [before_xy] at q1 q2
    omega
  have hloop := rangeLoop_spec ht b2 ⟨b3, b4⟩ (j - i) i a (numStreaks r + 1) (by omega) (by unfold numStreaks; omega) ⟨a3, a4⟩
  rw [a1, Option.bind_some, b1, Option.bind_some, hloop, Option.map_some]
  have hmemL : ∀ s, s ∈ (((List.range (r 0).length).map (streakAt 1 r)).drop i).take (j - i) →
      s ∈ (List.range (r 0).length).map (streakAt 1 r) ∧ s.origin 1 = node := by
    intro s hs
    obtain ⟨k, hk, rfl⟩ := List.mem_take_iff_getElem.1 hs
    simp only [List.length_drop, List.length_map, List.length_range] at hk
    simp only [List.getElem_drop, List.getElem_map, List.getElem_range]
    exact ⟨List.mem_map.2 ⟨i + k, List.mem_range.2 (by omega), rfl⟩, (hrow (i + k) (by omega)).1 ⟨by omega, by omega⟩⟩
  refine ⟨_, rfl, ?_, fun x => ?_⟩
  · rw [List.pairwise_flatMap]
    refine ⟨fun s _ => xsOf_sorted s, ?_⟩
    have hsub : (((List.range (r 0).length).map (streakAt 1 r)).drop i |>.take (j - i)).Pairwise (SBefore 1) :=
      hcan.sorted.sublist ((List.take_sublist _ _).trans (List.drop_sublist _ _))
    refine List.Pairwise.imp_of_mem ?_ hsub
    intro s s' hs hs' hb x hx y hy
    rw [mem_xsOf] at hx hy
    have e1 := (hmemL s hs).2
    have e2 := (hmemL s' hs').2
    rcases hb with ⟨k, q1, q2, q3, _⟩ | ⟨_, q⟩
    · have : k = 1 := by omega
      subst this; omega
    · omega
  · rw [List.mem_flatMap]
    have hE : E node x ↔ RMem 1 r (xy x node) := by
      rw [hm]
      simp [xy]
    rw [hE, hcan.mem]
    constructor
    · rintro ⟨s, hs, hx⟩
      obtain ⟨q1, q2⟩ := hmemL s hs
      rw [mem_xsOf] at hx
      refine ⟨s, q1, fun k p q => ?_, by simpa [xy] using hx.1, by simpa [xy] using hx.2⟩
      have : k = 1 := by omega
      subst this; simp [xy]; omega
    · rintro ⟨s, hs, p1, p2, p3⟩
      obtain ⟨k, hk, rfl⟩ := List.mem_map.1 hs
      have hk := List.mem_range.1 hk
      have q := p1 1 (by omega) (by omega)
      simp [xy] at p2 p3 q
      have hr := (hrow k hk).2 q.symm
      refine ⟨_, List.mem_take_iff_getElem.2 ⟨k - i, ?_, rfl⟩, ?_⟩
      · simp; omega
      · simp only [List.getElem_drop, List.getElem_map, List.getElem_range]
        rw [show i + (k - i) = k by omega, mem_xsOf]
        exact ⟨p2, p3⟩

theorem size_spec (E : Graph) (f : Int → Nat) (rs : List Idx) (k : Nat)
    (h : ∀ j r, rs[j]? = some r → RegOK 1 r ∧ ∀ c, RMem 1 r c ↔ E (c 1) (c 0) ∧ f (c 1) = k + j) :
    ∃ m, rbaSize rs = some m ∧ Card 1 (fun c => E (c 1) (c 0) ∧ k ≤ f (c 1) ∧ f (c 1) < k + rs.length) m := by
  induction rs generalizing k with
  | nil => exact ⟨0, rfl, [], by simp, fun c => by simp, rfl⟩
  | cons r rs ih =>
    obtain ⟨hok, hm⟩ := h 0 r rfl
    obtain ⟨m1, b, g1, ⟨l1, p1, p2, p3⟩, _⟩ := determineGeometry_spec 1 r hok
    obtain ⟨m2, g2, l2, q1, q2, q3⟩ := ih (k + 1) (fun j r' hj => by
      have := h (j + 1) r' (by simpa using hj)
      refine ⟨this.1, fun c => ?_⟩
      rw [this.2, show k + 1 + j = k + (j + 1) by omega])
    refine ⟨m1 + m2, by rw [rbaSize, g1, Option.bind_some, g2, Option.map_some], l1 ++ l2, ?_, fun c => ?_, ?_⟩
    · rw [List.pairwise_append]
      refine ⟨p1, q1, fun a ha b hb => ?_⟩
      have ea := (hm a).1 ((p2 a).2 ⟨a, ha, fun _ _ => rfl⟩)
      have eb := (q2 b).2 ⟨b, hb, fun _ _ => rfl⟩
      refine ⟨1, by omega, fun e => ?_⟩
      rw [e] at ea
      omega
    · simp only [List.mem_append]
      constructor
      · rintro ⟨e1, e2, e3⟩
        by_cases e4 : f (c 1) = k
        · obtain ⟨c', i1, i2⟩ := (p2 c).1 ((hm c).2 ⟨e1, by omega⟩)
          exact ⟨c', Or.inl i1, i2⟩
        · simp only [List.length_cons] at e3
          obtain ⟨c', i1, i2⟩ := (q2 c).1 ⟨e1, by omega, by omega⟩
          exact ⟨c', Or.inr i1, i2⟩
      · rintro ⟨c', i1 | i1, i2⟩
        · have := (hm c).1 ((p2 c).2 ⟨c', i1, i2⟩)
          simp only [List.length_cons]
          exact ⟨this.1, by omega, by omega⟩
        · have := (q2 c).2 ⟨c', i1, i2⟩
          simp only [List.length_cons]
          exact ⟨this.1, by omega, by omega⟩
    · rw [p3, q3, List.length_append]; omega

/-! ## histories -/

inductive Ins where
  | one (src dst : Int)
  | many (src : Int) (dst : List Int)

/-- Spec: edges after a history. -/
def edges : Graph → List Ins → Graph
  | E, [] => E
  | E, .one s d :: r => edges (fun a b => E a b ∨ (a = s ∧ b = d)) r
  | E, .many s l :: r => edges (fun a b => E a b ∨ (a = s ∧ b ∈ l)) r

/-- all nodes fit into the integer range of the platform -/
def Fits (M : Int) : List Ins → Prop
  | [] => True
  | .one s d :: r => s ≤ M ∧ d < M ∧ Fits M r
  | .many s l :: r => s ≤ M ∧ (∀ d ∈ l, d < M) ∧ Fits M r

def exec (M : Int) (maxSize : Nat) : RBA → List Ins → Option RBA
  | st, [] => some st
  | st, .one s d :: r => (rbaInsert M maxSize st s d).bind (fun st => exec M maxSize st r)
  | st, .many s l :: r => (rbaInsertMany M maxSize st s l).bind (fun st => exec M maxSize st r)

theorem exec_spec (M : Int) (maxSize : Nat) (ops : List Ins) (st : RBA) (E : Graph) (h : RInv M st E) (hf : Fits M ops) :
    ∃ st', exec M maxSize st ops = some st' ∧ RInv M st' (edges E ops) := by
  induction ops generalizing st E with
  | nil => exact ⟨st, rfl, h⟩
  | cons o r ih =>
    cases o with
    | one s d =>
      obtain ⟨st1, h1, h2⟩ := insert_spec M maxSize st E h s d hf.1 hf.2.1
      obtain ⟨st2, h3, h4⟩ := ih st1 _ h2 hf.2.2
      exact ⟨st2, by rw [exec, h1, Option.bind_some, h3], h4⟩
    | many s l =>
      obtain ⟨st1, h1, h2⟩ := insertMany_spec M maxSize st E h s l hf.1 hf.2.1
      obtain ⟨st2, h3, h4⟩ := ih st1 _ h2 hf.2.2
      exact ⟨st2, by rw [exec, h1, Option.bind_some, h3], h4⟩

/-- **C11.** After every sequence of insertions, for every split threshold: the neighbor list of every node is strictly
ascending and contains exactly the inserted targets, and `size()` is the number of distinct edges. The only assumption is
that node numbers fit into `int` (targets below the maximum). -/
theorem adjacency_correct (M : Int) (maxSize : Nat) (ops : List Ins) (hf : Fits M ops) :
    ∃ st, exec M maxSize (rbaNew M) ops = some st ∧
      (∀ node, node ≤ M → ∃ l, rbaNeighbors st node = some l ∧ l.Pairwise (· < ·) ∧
        ∀ x, x ∈ l ↔ edges (fun _ _ => False) ops node x) ∧
      (∃ m, rbaSize st.regions = some m ∧ Card 1 (fun c => edges (fun _ _ => False) ops (c 1) (c 0)) m) ∧
      st.limits.Pairwise (· ≤ ·) := by
  have h0 : RInv M (rbaNew M) (fun _ _ => False) := by
    refine ⟨rfl, by simp [rbaNew], by simp [rbaNew], fun _ _ h => h.elim, fun j r hj => ?_⟩
    have : r = emptyIdx := by
      unfold rbaNew at hj
      cases j with
      | zero => simpa using hj.symm
      | succ j => simp at hj
    subst this
    exact ⟨regOK_empty 1, fun c => ⟨fun h => (regEmpty_mem 1 c h).elim, fun h => h.1.elim⟩⟩
  obtain ⟨st, h1, h2⟩ := exec_spec M maxSize ops (rbaNew M) _ h0 hf
  refine ⟨st, h1, fun node hn => neighbors_spec M st _ h2 node hn, ?_, h2.sorted⟩
  obtain ⟨m, m1, l, m2, m3, m4⟩ := size_spec _ (rbaIndex st.limits) st.regions 0 (fun j r hj => by
    rw [Nat.zero_add]; exact h2.reg j r hj)
  refine ⟨m, m1, l, m2, fun c => ?_, m4⟩
  rw [← m3]
  constructor
  · intro he
    exact ⟨he, by omega, by rw [Nat.zero_add, h2.len]; exact index_lt h2.top (h2.bound _ _ he).1⟩
  · exact fun he => he.1

/-! non-vacuity: threshold 2 forces splits -/

def ops : List Ins := [.one 3 7, .one 1 2, .many 5 [9, 8, 1, 8], .one 3 1, .one 3 3, .many 1 [2, 3]]

example : Fits 100 ops := by simp [Fits, ops]
example : (exec 100 2 (rbaNew 100) ops).map (fun st => st.limits) = some [3, 3, 3, 3, 100] := by decide +kernel
example : (exec 100 2 (rbaNew 100) ops).bind (fun st => (rbaNeighbors st 5).bind (fun a => (rbaNeighbors st 3).bind (fun b =>
    (rbaNeighbors st 4).bind (fun c => (rbaSize st.regions).map (fun s => (a, b, c, s)))))) =
    some ([1, 8, 9], [1, 3, 7], [], 8) := by decide +kernel

end LGD.C11
