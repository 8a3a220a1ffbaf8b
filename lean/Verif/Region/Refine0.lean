import Verif.Region.Tree

/-!
# Region: refinement of level 0 (rows) and of the binary searches
-/

namespace LGD

theorem upperBound_spec (key : IPair → Int) (pre A B post : IVec) (c : Int)
    (hA : ∀ p ∈ A, key p ≤ c) (hB : ∀ p ∈ B, c < key p) :
    upperBound key (pre ++ (A ++ B) ++ post) pre.length (pre.length + (A ++ B).length) c =
      some (pre.length + A.length) := by
  unfold upperBound
  by_cases h0 : pre.length = pre.length + (A ++ B).length
  · rw [if_pos h0]
    have : (A ++ B).length = 0 := by omega
    simp only [List.length_append] at this
    rw [← h0]; congr 1; omega
  · rw [if_neg h0]
    have hne : 0 < (A ++ B).length := by omega
    have hseg : ((pre ++ (A ++ B) ++ post).take (pre.length + (A ++ B).length)).drop pre.length = A ++ B := by
      rw [show pre.length + (A ++ B).length = (pre ++ (A ++ B)).length by simp, List.take_left, List.drop_left]
    have htw : ((A ++ B).takeWhile (fun p => decide (key p ≤ c))).length = A.length := by
      rw [List.takeWhile_append_of_pos (by simpa using hA)]
      cases B with
      | nil => simp
      | cons b bs =>
        have := hB b (by simp)
        simp [List.takeWhile_cons]; omega
    have e1 : (pre ++ (A ++ B) ++ post)[pre.length]? = (A ++ B)[0]? := by
      rw [List.append_assoc, List.getElem?_append_right (by omega), List.getElem?_append_left (by omega)]
      simp
    have e2 : (pre ++ (A ++ B) ++ post)[pre.length + (A ++ B).length - 1]? = (A ++ B)[(A ++ B).length - 1]? := by
      rw [List.append_assoc, List.getElem?_append_right (by omega), List.getElem?_append_left (by omega)]
      congr 1; omega
    rw [e1, e2, List.getElem?_eq_getElem hne, List.getElem?_eq_getElem (show (A ++ B).length - 1 < (A ++ B).length by omega)]
    simp only [Option.bind_eq_bind, Option.bind_some]
    split
    · rename_i h
      have : A = [] := by
        cases A with
        | nil => rfl
        | cons a as => have := hA a (by simp); simp at h; omega
      subst this; simp
    · split
      · rename_i _ h
        have : B = [] := by
          apply Classical.byContradiction
          intro hb
          have hm : (A ++ B)[(A ++ B).length - 1]'(by omega) ∈ B := by
            have hl : 0 < B.length := List.length_pos_iff.2 hb
            rw [List.getElem_append_right (by rw [List.length_append]; omega)]
            exact List.getElem_mem _
          have := hB _ hm
          omega
        subst this; simp
      · rw [hseg, htw]

theorem rowSplit (r : List IPair) (hr : RowOK r) (x : Int) :
    ∃ A B, r = A ++ B ∧ (∀ p ∈ A, p.1 ≤ x) ∧ (∀ p ∈ B, x < p.1) := by
  induction r with
  | nil => exact ⟨[], [], rfl, by simp, by simp⟩
  | cons p ps ih =>
    by_cases h : p.1 ≤ x
    · obtain ⟨A, B, h1, h2, h3⟩ := ih hr.2.2
      refine ⟨p :: A, B, by simp [h1], ?_, h3⟩
      intro q hq
      rcases List.mem_cons.1 hq with rfl | hq
      · exact h
      · exact h2 q hq
    · refine ⟨[], p :: ps, rfl, by simp, ?_⟩
      intro q hq
      have := hr.1
      rcases List.mem_cons.1 hq with rfl | hq
      · omega
      · have := hr.2.1 q hq; omega

theorem getElem?_mid (P rest post : IVec) (p : IPair) : (P ++ (p :: rest) ++ post)[P.length]? = some p := by
  simp

theorem eraseIdx_mid (P rest post : IVec) (p : IPair) :
    (P ++ (p :: rest) ++ post).eraseIdx P.length = P ++ rest ++ post := by
  rw [List.append_assoc, List.eraseIdx_append_of_length_le (by omega)]
  simp

theorem insertIdx_mid (P rest : IVec) (p : IPair) :
    (P ++ rest).insertIdx P.length p = P ++ p :: rest := by
  induction P with
  | nil => simp
  | cons a as ih => simp [ih]

theorem intersectOrTouch_iff (a b : IPair) :
    intersectOrTouch a b = true ↔ (a.1 ≤ b.1 ∧ b.1 ≤ a.2) ∨ (b.1 ≤ a.1 ∧ a.1 ≤ b.2) := by
  simp [intersectOrTouch]

theorem intersectP_iff (a b : IPair) :
    intersectP a b = true ↔ (a.1 ≤ b.1 ∧ b.1 < a.2) ∨ (b.1 ≤ a.1 ∧ a.1 < b.2) := by
  simp [intersectP]

/-- What the insertion loop leaves behind, expressed via the row function. -/
def InsRes (P rest post : IVec) (cur : IPair) (n : Int) (st : InsState) : Prop :=
  st.cursor ≤ st.v.length ∧
  st.v.insertIdx st.cursor st.cur = P ++ insRow rest cur ++ post ∧
  st.inserts = n + (insRow rest cur).length - 1 - rest.length

theorem insLoop_spec (P rest post : IVec) (cur : IPair) (n : Int) (fuel : Nat) (hr : RowOK rest)
    (hge : ∀ p ∈ rest, cur.1 ≤ p.2) (hf : rest.length < fuel) :
    ∃ st, insLoop fuel { v := P ++ rest ++ post, cursor := P.length, stop := P.length + rest.length,
                         cur := cur, inserts := n } = some st ∧ InsRes P rest post cur n st := by
  induction rest generalizing fuel cur n with
  | nil =>
    obtain ⟨f, rfl⟩ : ∃ f, fuel = f + 1 := ⟨fuel - 1, by simp at hf; omega⟩
    refine ⟨_, by simp [insLoop]; rfl, ?_⟩
    refine ⟨by simp, ?_, by simp [insRow]⟩
    simpa [insRow] using insertIdx_mid P post cur
  | cons p ps ih =>
    obtain ⟨f, rfl⟩ : ∃ f, fuel = f + 1 := ⟨fuel - 1, by simp at hf; omega⟩
    have hp2 := hge p (by simp)
    have hp1 := hr.1
    unfold insLoop
    rw [if_neg (by simp)]
    simp only [getElem?_mid, Option.bind_eq_bind, Option.bind_some, eraseIdx_mid]
    by_cases h : cur.2 ≥ p.1
    · rw [if_pos h]
      have hit : intersectOrTouch p cur = true := by rw [intersectOrTouch_iff]; omega
      rw [if_pos hit]
      simp only
      have hins : insRow (p :: ps) cur = insRow ps (fuse p cur) := by
        rw [insRow, if_neg (by omega), if_neg (by omega)]
      have hge' : ∀ q ∈ ps, (fuse p cur).1 ≤ q.2 := by
        intro q hq
        have := hr.2.1 q hq
        have := hr.2.2.pos q hq
        simp only [fuse]; omega
      have hstop : P.length + (p :: ps).length - 1 = P.length + ps.length := by simp
      rw [hstop]
      cases ps with
      | nil =>
        simp only [List.length_nil, Nat.add_zero, if_true]
        refine ⟨_, rfl, by simp, ?_, by rw [hins]; simp [insRow]⟩
        rw [hins]
        simpa [insRow] using insertIdx_mid P post (fuse p cur)
      | cons q qs =>
        rw [if_neg (by simp)]
        simp only [getElem?_mid, Option.bind_some]
        by_cases hq : intersectOrTouch q (fuse p cur) = true
        · rw [if_pos hq]
          obtain ⟨st, h1, h2, h3, h4⟩ := ih (fuse p cur) (n - 1) f hr.2.2 hge' (by simp at hf ⊢; omega)
          refine ⟨st, h1, h2, ?_, ?_⟩
          · rw [h3, hins]
          · rw [h4, hins]; simp; omega
        · rw [if_neg hq]
          refine ⟨_, rfl, by simp, ?_, ?_⟩
          · rw [hins]
            have : insRow (q :: qs) (fuse p cur) = fuse p cur :: q :: qs := by
              rw [intersectOrTouch_iff] at hq
              have := hge' q (by simp)
              have := hr.2.2.1
              rw [insRow, if_neg (by omega), if_pos (by omega)]
            rw [this]
            simpa using insertIdx_mid P (q :: qs ++ post) (fuse p cur)
          · rw [hins]
            have : insRow (q :: qs) (fuse p cur) = fuse p cur :: q :: qs := by
              rw [intersectOrTouch_iff] at hq
              have := hge' q (by simp)
              have := hr.2.2.1
              rw [insRow, if_neg (by omega), if_pos (by omega)]
            rw [this]; simp; omega
    · rw [if_neg h]
      have hins : insRow (p :: ps) cur = cur :: p :: ps := by
        rw [insRow, if_neg (by omega), if_pos (by omega)]
      refine ⟨_, rfl, by simp, ?_, by rw [hins]; simp; omega⟩
      rw [hins]
      simpa using insertIdx_mid P (p :: ps ++ post) cur

theorem insRow_skip (A rest : List IPair) (s : IPair) (h : ∀ p ∈ A, p.2 < s.1) :
    insRow (A ++ rest) s = A ++ insRow rest s := by
  induction A with
  | nil => simp
  | cons a as ih =>
    rw [List.cons_append, insRow, if_pos (h a (by simp)), ih (fun p hp => h p (by simp [hp]))]
    simp

theorem exists_concat (A : List IPair) (h : A ≠ []) : ∃ A' a, A = A' ++ [a] :=
  ⟨A.dropLast, A.getLast h, (List.dropLast_concat_getLast h).symm⟩

theorem insert0_spec (pre row post : IVec) (x e : Int) (hr : RowOK row) (hx : x < e) :
    insert0 (pre ++ row ++ post) x e pre.length (pre.length + row.length) =
      some (pre ++ insRow row (x, e) ++ post, ((insRow row (x, e)).length : Int) - (row.length : Int)) := by
  obtain ⟨A, B, rfl, hA, hB⟩ := rowSplit row hr x
  unfold insert0
  rw [upperBound_spec Prod.fst pre A B post x hA hB]
  simp only [Option.bind_eq_bind, Option.bind_some]
  have hrr := RowOK_append.1 hr
  -- finishing step, common to all cases
  have fin : ∀ (st : InsState) (P rest : IVec) (cursor : Nat) (stop : Nat),
      P ++ rest = pre ++ (A ++ B) → cursor = P.length → stop = P.length + rest.length →
      pre.length ≤ P.length →
      insLoop ((pre ++ (A ++ B) ++ post).length + 1)
        { v := pre ++ (A ++ B) ++ post, cursor := cursor, stop := stop, cur := (x, e), inserts := 1 } = some st →
      st.cursor ≤ st.v.length → st.v.insertIdx st.cursor st.cur = pre ++ insRow (A ++ B) (x, e) ++ post →
      st.inserts = (insRow (A ++ B) (x, e)).length - ((A ++ B).length : Int) →
      ((insLoop ((pre ++ (A ++ B) ++ post).length + 1)
        { v := pre ++ (A ++ B) ++ post, cursor := cursor, stop := stop, cur := (x, e), inserts := 1 }).bind fun st =>
        if st.cursor ≤ st.v.length then some (st.v.insertIdx st.cursor st.cur, st.inserts) else none) =
      some (pre ++ insRow (A ++ B) (x, e) ++ post, (insRow (A ++ B) (x, e)).length - ((A ++ B).length : Int)) := by
    intro st P rest cursor stop _ _ _ _ hl h1 h2 h3
    rw [hl, Option.bind_some, if_pos h1, h2, h3]
  by_cases hAe : A = []
  · subst hAe
    simp only [List.length_nil, Nat.add_zero, if_true]
    obtain ⟨st, h1, h2, h3, h4⟩ := insLoop_spec pre B post (x, e) 1
      ((pre ++ ([] ++ B) ++ post).length + 1) hrr.2.1
      (by intro p hp; have := hB p hp; have := hrr.2.1.pos p hp; simp only; omega)
      (by simp; omega)
    exact fin st pre B _ _ (by simp) rfl (by simp) (Nat.le_refl _) h1 h2 h3 (by rw [h4]; simp; omega)
  · rw [if_neg (by have := List.length_pos_iff.2 hAe; omega)]
    obtain ⟨A', a, rfl⟩ := exists_concat A hAe
    have hA' : ∀ p ∈ A', p.2 < x := by
      intro p hp
      have h1 := (RowOK_append.1 hrr.1).2.2 p hp a (by simp)
      have h2 := hA a (by simp)
      omega
    have ha1 : a.1 ≤ x := hA a (by simp)
    have hcur : pre.length + (A' ++ [a]).length - 1 = (pre ++ A').length := by simp
    have hstop : pre.length + (A' ++ [a] ++ B).length = (pre ++ A').length + (a :: B).length := by simp; omega
    have hv : pre ++ (A' ++ [a] ++ B) ++ post = (pre ++ A') ++ (a :: B) ++ post := by simp
    have hskip : insRow (A' ++ [a] ++ B) (x, e) = A' ++ insRow (a :: B) (x, e) := by
      rw [List.append_assoc, insRow_skip A' _ _ hA']; simp
    have hrest : RowOK (a :: B) := by
      have := hr
      rw [List.append_assoc] at this
      simpa using (RowOK_append.1 this).2.1
    rw [hcur, hstop, hv, hskip]
    have hfuel : (a :: B).length < (pre ++ A' ++ a :: B ++ post).length + 1 := by simp; omega
    by_cases ha : x ≤ a.2
    · obtain ⟨st, h1, h2, h3, h4⟩ := insLoop_spec (pre ++ A') (a :: B) post (x, e) 1 _ hrest
        (by
          intro p hp
          rcases List.mem_cons.1 hp with rfl | hp
          · exact ha
          · have := hB p hp; have := hrest.pos p (by simp [hp]); simp only; omega) hfuel
      rw [h1, Option.bind_some, if_pos h2, h3, h4]
      simp; omega
    · -- the predecessor ends before: one step forward
      have hins : insRow (a :: B) (x, e) = a :: insRow B (x, e) := by
        rw [insRow, if_pos (by simp only; omega)]
      have hnot : intersectOrTouch a (x, e) = false := by
        rw [Bool.eq_false_iff]; intro h; rw [intersectOrTouch_iff] at h; simp only at h; have := hrest.1; omega
      obtain ⟨f, hf⟩ : ∃ f, (pre ++ A' ++ a :: B ++ post).length = f + 1 := ⟨_, by simp; rfl⟩
      rw [hf]
      unfold insLoop
      rw [if_neg (by simp)]
      simp only [getElem?_mid, Option.bind_eq_bind, Option.bind_some]
      rw [if_pos (show e ≥ a.1 by have := hrest.1; omega)]
      simp only [hnot, Bool.false_eq_true, if_false]
      have hv2 : pre ++ A' ++ (a :: B) ++ post = (pre ++ A' ++ [a]) ++ B ++ post := by simp
      have hc2 : (pre ++ A').length + 1 = (pre ++ A' ++ [a]).length := by simp; omega
      have hs2 : (pre ++ A').length + (a :: B).length = (pre ++ A' ++ [a]).length + B.length := by simp; omega
      rw [hv2, hc2, hs2, hins]
      cases B with
      | nil =>
        simp only [List.length_nil, Nat.add_zero, if_true, Option.bind_some]
        rw [if_pos (by simp)]
        have := insertIdx_mid (pre ++ A' ++ [a]) post (x, e)
        simp only [List.append_nil, this, insRow]
        simp; omega
      | cons b bs =>
        rw [if_neg (by simp)]
        simp only [getElem?_mid, Option.bind_some]
        have hb := hB b (by simp)
        have hbp := hrest.2.2.1
        by_cases hq : intersectOrTouch b (x, e) = true
        · rw [if_pos hq]
          have hlen : (pre ++ A' ++ a :: b :: bs ++ post).length =
            (pre ++ A').length + 1 + (b :: bs).length + post.length := by simp; omega
          obtain ⟨st, h1, h2, h3, h4⟩ := insLoop_spec (pre ++ A' ++ [a]) (b :: bs) post (x, e) 1 (f + 1)
            hrest.2.2
            (by
              intro p hp
              have := hB p hp; have := hrest.2.2.pos p hp; simp only; omega)
            (by omega)
          rw [h1, Option.bind_some, if_pos h2, h3, h4]
          simp; omega
        · rw [if_neg hq]
          rw [intersectOrTouch_iff] at hq
          simp only at hq
          simp only [Option.bind_some]
          rw [if_pos (by simp)]
          have := insertIdx_mid (pre ++ A' ++ [a]) (b :: bs ++ post) (x, e)
          rw [← List.append_assoc] at this
          rw [this]
          have : insRow (b :: bs) (x, e) = (x, e) :: b :: bs := by
            rw [insRow, if_neg (by simp only; omega), if_pos (by simp only; omega)]
          rw [this]
          simp; omega

/-! ### removal -/

theorem substract_disjoint (p s : IPair) (h : intersectP s p = false) : substract p s = [p] := by
  unfold substract
  have : intersectP p s = false := by
    rw [Bool.eq_false_iff] at h ⊢
    intro hh; apply h; rw [intersectP_iff] at hh ⊢; omega
  simp [this]

theorem remRow_disjoint (r : List IPair) (s : IPair) (h : ∀ p ∈ r, intersectP s p = false) : remRow r s = r := by
  induction r with
  | nil => rfl
  | cons p ps ih =>
    rw [remRow, substract_disjoint p s (h p (by simp)), ih (fun q hq => h q (by simp [hq]))]
    rfl

theorem remRow_append (a b : List IPair) (s : IPair) : remRow (a ++ b) s = remRow a s ++ remRow b s := by
  induction a with
  | nil => rfl
  | cons p ps ih => simp [remRow, ih]

theorem intersectP_comm (a b : IPair) : intersectP a b = intersectP b a := by
  rw [Bool.eq_iff_iff, intersectP_iff, intersectP_iff]; omega

theorem remLoop_spec (P rest post : IVec) (cur : IPair) (n : Int) (fuel : Nat) (hr : RowOK rest) (hcur : cur.1 < cur.2)
    (hge : ∀ p ∈ rest.tail, cur.1 < p.1) (hf : rest.length < fuel) :
    ∃ st, remLoop cur fuel { v := P ++ rest ++ post, cursor := P.length, stop := P.length + rest.length,
                             inserts := n } = some st ∧
      st.v = P ++ remRow rest cur ++ post ∧ st.inserts = n + (remRow rest cur).length - rest.length := by
  induction rest generalizing fuel n P with
  | nil =>
    obtain ⟨f, rfl⟩ : ∃ f, fuel = f + 1 := ⟨fuel - 1, by simp at hf; omega⟩
    exact ⟨_, by simp [remLoop]; rfl, by simp [remRow], by simp [remRow]⟩
  | cons p ps ih =>
    obtain ⟨f, rfl⟩ : ∃ f, fuel = f + 1 := ⟨fuel - 1, by simp at hf; omega⟩
    have hps : ∀ q ∈ ps, cur.1 < q.1 := by simpa using hge
    unfold remLoop
    rw [if_neg (by simp)]
    simp only [getElem?_mid, Option.bind_eq_bind, Option.bind_some]
    -- both branches lead to the same shape
    have hstate : (if intersectP cur p = true then
          ({ v := (P ++ (p :: ps) ++ post).take P.length ++ substract p cur ++ (P ++ (p :: ps) ++ post).drop (P.length + 1),
             cursor := P.length + (substract p cur).length,
             stop := P.length + (p :: ps).length + (substract p cur).length - 1,
             inserts := n + (((substract p cur).length : Int) - 1) } : RemState)
        else { v := P ++ (p :: ps) ++ post, cursor := P.length + 1, stop := P.length + (p :: ps).length, inserts := n })
        = { v := (P ++ substract p cur) ++ ps ++ post, cursor := (P ++ substract p cur).length,
            stop := (P ++ substract p cur).length + ps.length, inserts := n + (((substract p cur).length : Int) - 1) } := by
      split
      · have e1 : (P ++ (p :: ps) ++ post).take P.length = P := by simp
        have e2 : (P ++ (p :: ps) ++ post).drop (P.length + 1) = ps ++ post := by
          rw [List.append_assoc, ← List.drop_drop, List.drop_left]; simp
        rw [e1, e2]
        simp; omega
      · rename_i h
        rw [substract_disjoint p cur (by simpa using h)]
        simp; omega
    rw [hstate]
    simp only
    have hrem : remRow (p :: ps) cur = substract p cur ++ remRow ps cur := rfl
    cases ps with
    | nil =>
      simp only [List.length_nil, Nat.add_zero, if_true]
      refine ⟨_, rfl, by simp [remRow], by simp [remRow]; omega⟩
    | cons q qs =>
      rw [if_neg (by simp)]
      simp only [getElem?_mid, Option.bind_some]
      by_cases hq : intersectP q cur = true
      · rw [if_pos hq]
        obtain ⟨st, h1, h2, h3⟩ := ih (P ++ substract p cur) (n + (((substract p cur).length : Int) - 1)) f hr.2.2
          (by intro r hr'; exact hps r (by simp at hr' ⊢; exact Or.inr hr')) (by simp at hf ⊢; omega)
        refine ⟨st, h1, ?_, ?_⟩
        · rw [h2, hrem]; simp
        · rw [h3, hrem]; simp; omega
      · rw [if_neg hq]
        have hq1 := hps q (by simp)
        have hdis : ∀ r ∈ q :: qs, intersectP cur r = false := by
          intro r hr'
          rw [intersectP_iff] at hq
          rw [Bool.eq_false_iff]
          intro hh
          rw [intersectP_iff] at hh
          rcases List.mem_cons.1 hr' with rfl | hr'
          · omega
          · have := hr.2.2.2.1 r hr'
            have := hr.2.2.1
            omega
        refine ⟨_, rfl, ?_, ?_⟩
        · rw [hrem, remRow_disjoint _ _ hdis]; simp
        · rw [hrem, remRow_disjoint _ _ hdis]; simp; omega

theorem remove0_spec (pre row post : IVec) (x e : Int) (hr : RowOK row) (hx : x < e) :
    remove0 (pre ++ row ++ post) x e pre.length (pre.length + row.length) =
      some (pre ++ remRow row (x, e) ++ post, ((remRow row (x, e)).length : Int) - (row.length : Int)) := by
  obtain ⟨A, B, rfl, hA, hB⟩ := rowSplit row hr x
  unfold remove0
  rw [upperBound_spec Prod.fst pre A B post x hA hB]
  simp only [Option.bind_eq_bind, Option.bind_some]
  have hrr := RowOK_append.1 hr
  by_cases hAe : A = []
  · subst hAe
    simp only [List.length_nil, Nat.add_zero, if_true, List.nil_append]
    obtain ⟨st, h1, h2, h3⟩ := remLoop_spec pre B post (x, e) 0
      ((pre ++ B ++ post).length + 1) hrr.2.1 hx
      (fun p hp => hB p (List.mem_of_mem_tail hp))
      (by simp; omega)
    rw [h1, Option.bind_some, h2, h3]
    simp
  · rw [if_neg (by have := List.length_pos_iff.2 hAe; omega)]
    obtain ⟨A', a, rfl⟩ := exists_concat A hAe
    have hA' : ∀ p ∈ A', p.2 < x := by
      intro p hp
      have h1 := (RowOK_append.1 hrr.1).2.2 p hp a (by simp)
      have h2 := hA a (by simp)
      omega
    have hcur : pre.length + (A' ++ [a]).length - 1 = (pre ++ A').length := by simp
    have hstop : pre.length + (A' ++ [a] ++ B).length = (pre ++ A').length + (a :: B).length := by simp; omega
    have hv : pre ++ (A' ++ [a] ++ B) ++ post = (pre ++ A') ++ (a :: B) ++ post := by simp
    have hskip : remRow (A' ++ [a] ++ B) (x, e) = A' ++ remRow (a :: B) (x, e) := by
      rw [List.append_assoc, remRow_append, remRow_disjoint A']; simp
      intro p hp
      rw [Bool.eq_false_iff]; intro hh; rw [intersectP_iff] at hh
      have := hA' p hp
      have := hrr.1.pos p (by simp [hp])
      simp only at hh; omega
    have hrest : RowOK (a :: B) := by
      have := hr
      rw [List.append_assoc] at this
      simpa using (RowOK_append.1 this).2.1
    rw [hcur, hstop, hv, hskip]
    obtain ⟨st, h1, h2, h3⟩ := remLoop_spec (pre ++ A') (a :: B) post (x, e) 0
      ((pre ++ A' ++ a :: B ++ post).length + 1) hrest hx (by simpa using hB) (by simp; omega)
    rw [h1, Option.bind_some, h2, h3]
    simp; omega

end LGD
