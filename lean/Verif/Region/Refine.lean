import Verif.Region.Encode

/-!
# Region: the index-vector functions refine the tree functions
-/

namespace LGD

/-- The vectors `idx` contain tree `t` (levels `0..d`) between `pre` and `post`, and the offsets stored in `post`
continue seamlessly. -/
structure Ctx (d : Nat) (t : Tree d) (idx pre post : Idx) : Prop where
  hidx : ∀ k, k ≤ d → idx k = pre k ++ enc d t (fun j => (pre j).length) k ++ post k
  hbd : ∀ k, k < d → (post (k + 1) = [] → post k = []) ∧
    ∀ p ps, post (k + 1) = p :: ps → p.2 = ((pre k).length : Int) + cnt d t k

theorem splitKeys {α : Type} (l : List (Int × α)) (hl : KeysOK l) (c : Int) :
    (∃ L R, l = L ++ R ∧ (∀ p ∈ L, p.1 < c) ∧ (∀ p ∈ R, c < p.1)) ∨
    (∃ L a R, l = L ++ (c, a) :: R ∧ (∀ p ∈ L, p.1 < c) ∧ (∀ p ∈ R, c < p.1)) := by
  induction l with
  | nil => exact Or.inl ⟨[], [], rfl, by simp, by simp⟩
  | cons p ps ih =>
    by_cases h : p.1 < c
    · have aux : ∀ (L : List (Int × α)), (∀ q ∈ L, q.1 < c) → ∀ q ∈ p :: L, q.1 < c := by
        intro L hL q hq
        rcases List.mem_cons.1 hq with rfl | hq
        · exact h
        · exact hL q hq
      rcases ih hl.2 with ⟨L, R, h1, h2, h3⟩ | ⟨L, a, R, h1, h2, h3⟩
      · exact Or.inl ⟨p :: L, R, by simp [h1], aux L h2, h3⟩
      · exact Or.inr ⟨p :: L, a, R, by simp [h1], aux L h2, h3⟩
    · by_cases h' : p.1 = c
      · refine Or.inr ⟨[], p.2, ps, ?_, by simp, ?_⟩
        · rw [← h']; rfl
        · intro q hq; have := hl.1 q hq; omega
      · refine Or.inl ⟨[], p :: ps, rfl, by simp, ?_⟩
        intro q hq
        rcases List.mem_cons.1 hq with rfl | hq
        · omega
        · have := hl.1 q hq; omega

theorem upsert_found {α : Type} (c : Int) (f : α → α) (dflt a : α) (L R : List (Int × α)) (hL : ∀ p ∈ L, p.1 < c) :
    upsert c f dflt (L ++ (c, a) :: R) = L ++ (c, f a) :: R := by
  induction L with
  | nil => simp [upsert]
  | cons p ps ih =>
    rw [List.cons_append, upsert, if_pos (hL p (by simp)), ih (fun q hq => hL q (by simp [hq]))]
    rfl

theorem upsert_absent {α : Type} (c : Int) (f : α → α) (dflt : α) (L R : List (Int × α)) (hL : ∀ p ∈ L, p.1 < c)
    (hR : ∀ p ∈ R, c < p.1) : upsert c f dflt (L ++ R) = L ++ (c, dflt) :: R := by
  induction L with
  | nil =>
    cases R with
    | nil => simp [upsert]
    | cons r rs =>
      have := hR r (by simp)
      simp only [List.nil_append]
      rw [upsert, if_neg (by omega), if_neg (by omega)]
  | cons p ps ih =>
    rw [List.cons_append, upsert, if_pos (hL p (by simp)), ih (fun q hq => hL q (by simp [hq]))]
    rfl

theorem modDrop_found {α : Type} (c : Int) (f : α → α) (e : α → Bool) (a : α) (L R : List (Int × α))
    (hL : ∀ p ∈ L, p.1 < c) :
    modDrop c f e (L ++ (c, a) :: R) = L ++ (if e (f a) then R else (c, f a) :: R) := by
  induction L with
  | nil => simp [modDrop]
  | cons p ps ih =>
    rw [List.cons_append, modDrop, if_pos (hL p (by simp)), ih (fun q hq => hL q (by simp [hq]))]
    simp

theorem modDrop_absent {α : Type} (c : Int) (f : α → α) (e : α → Bool) (L R : List (Int × α)) (hL : ∀ p ∈ L, p.1 < c)
    (hR : ∀ p ∈ R, c < p.1) : modDrop c f e (L ++ R) = L ++ R := by
  induction L with
  | nil =>
    cases R with
    | nil => simp [modDrop]
    | cons r rs =>
      have := hR r (by simp)
      simp only [List.nil_append]
      rw [modDrop, if_neg (by omega), if_neg (by omega)]
  | cons p ps ih =>
    rw [List.cons_append, modDrop, if_pos (hL p (by simp)), ih (fun q hq => hL q (by simp [hq]))]

theorem toPos_nat (n : Nat) : toPos (n : Int) = some n := by simp [toPos]

theorem nextPos (idx : Idx) (d : Nat) (X Y : IVec) (n : Nat) (hv : idx (d + 1) = X ++ Y) (h0 : Y = [] → (idx d).length = n)
    (h1 : ∀ p ps, Y = p :: ps → p.2 = (n : Int)) : nextLevel idx d X.length = some n := by
  unfold nextLevel
  rw [hv]
  cases Y with
  | nil => simp [h0 rfl]
  | cons p ps =>
    rw [if_neg (by simp)]
    have : (X ++ p :: ps)[X.length]? = some p := by simp
    rw [this, Option.bind_some, h1 p ps rfl, toPos_nat]

/-- Entries following a child: siblings `R` and then `post`. -/
theorem bd_comb (d : Nat) (R : List (Int × Tree d)) (bR : Nat → Nat) (post : Idx) (n : Nat → Nat) (k : Nat) (hk : k < d + 1)
    (hn : n k = bR k + cnt (d + 1) (R : List (Int × Tree d)) k)
    (hpost : (post (k + 1) = [] → post k = []) ∧ ∀ p ps, post (k + 1) = p :: ps → p.2 = (n k : Int)) :
    (enc (d + 1) R bR (k + 1) ++ post (k + 1) = [] → enc (d + 1) R bR k ++ post k = []) ∧
    ∀ p ps, enc (d + 1) R bR (k + 1) ++ post (k + 1) = p :: ps → p.2 = (bR k : Int) := by
  obtain ⟨e1, e2⟩ := enc_head (d + 1) R bR k hk
  constructor
  · intro h
    rw [List.append_eq_nil_iff] at h ⊢
    exact ⟨e1 h.1, hpost.1 h.2⟩
  · intro p ps h
    cases he : enc (d + 1) R bR (k + 1) with
    | nil =>
      rw [he] at h
      have h2 := hpost.2 p ps (by simpa using h)
      have h3 : cnt (d + 1) (R : List (Int × Tree d)) k = 0 := by rw [← enc_len (d + 1) R bR k, e1 he]; rfl
      omega
    | cons r rs =>
      rw [he] at h
      simp only [List.cons_append, List.cons.injEq] at h
      rw [← h.1]; exact e2 r rs he

theorem incRemainder_mid (X Y : IVec) (δ : Nat → Int) (d : Nat) (n : Int) (hn : n = δ d) :
    incRemainder (X ++ Y) X.length n = X ++ shiftV δ (d + 1) Y := by
  subst hn
  unfold incRemainder
  split
  · rename_i h; simp [shiftV, h]
  · simp [shiftV]

theorem Idx.set_eq (idx : Idx) (k : Nat) (v : IVec) : idx.set k v k = v := by simp [Idx.set]

theorem Idx.set_ne (idx : Idx) (k j : Nat) (v : IVec) (h : j ≠ k) : idx.set k v j = idx j := by simp [Idx.set, h]

/-- Keys of the encoded top level. -/
theorem enc_top_keys (d : Nat) (L : List (Int × Tree d)) (b : Nat → Nat) (P : Int → Prop) (h : ∀ p ∈ L, P p.1) :
    ∀ p ∈ enc (d + 1) L b (d + 1), P p.1 := by
  induction L generalizing b with
  | nil => intro p hp; simp [enc_nil] at hp
  | cons q qs ih =>
    intro p hp
    rw [enc_cons] at hp
    simp only [if_true, List.mem_append, List.mem_singleton] at hp
    rcases hp with rfl | hp
    · exact h q (by simp)
    · exact ih _ (fun p hp => h p (by simp [hp])) p hp

theorem enc_top_length (d : Nat) (L : List (Int × Tree d)) (b : Nat → Nat) :
    (enc (d + 1) L b (d + 1)).length = L.length := by
  rw [enc_len, cnt_top]; rfl

/-- The situation on level `d + 1` around a child position. -/
theorem ctx_child (d : Nat) (L R M : List (Int × Tree d)) (sub : Tree d) (idx idx1 pre post : Idx)
    (hM : (M = [] ∧ sub = emptyT d) ∨ ∃ c, M = [(c, sub)])
    (hc : Ctx (d + 1) (L ++ M ++ R : List (Int × Tree d)) idx pre post)
    (h1 : ∀ k, k ≤ d → idx1 k = idx k) :
    Ctx d sub idx1
      (fun k => pre k ++ enc (d + 1) L (fun j => (pre j).length) k)
      (fun k => enc (d + 1) R (fun j => (pre j).length + cnt (d + 1) (L : List (Int × Tree d)) j + cnt d sub j) k ++ post k) := by
  have hcM : ∀ k, k ≤ d → cnt (d + 1) (M : List (Int × Tree d)) k = cnt d sub k := by
    intro k hk
    rcases hM with ⟨rfl, rfl⟩ | ⟨c, rfl⟩
    · rw [cnt_nil, cnt_empty]
    · rw [cnt_cons, cnt_nil]
      have : k ≠ d + 1 := by omega
      simp [this]
  have hlen : (fun j => (pre j ++ enc (d + 1) L (fun j => (pre j).length) j).length) =
      (fun j => (pre j).length + cnt (d + 1) (L : List (Int × Tree d)) j) := by
    funext j; rw [List.length_append, enc_len]
  constructor
  · intro k hk
    rw [h1 k hk, hc.hidx k (by omega), hlen, enc_append, enc_append]
    have hkd : k ≠ d + 1 := by omega
    have e1 : enc (d + 1) M (fun j => (pre j).length + cnt (d + 1) (L : List (Int × Tree d)) j) k =
        enc d sub (fun j => (pre j).length + cnt (d + 1) (L : List (Int × Tree d)) j) k := by
      rcases hM with ⟨rfl, rfl⟩ | ⟨c, rfl⟩
      · rw [enc_nil, enc_empty]
      · rw [enc_cons, enc_nil]; simp [hkd]
    have e2 : enc (d + 1) R (fun j => (pre j).length + cnt (d + 1) (L ++ M : List (Int × Tree d)) j) k =
        enc (d + 1) R (fun j => (pre j).length + cnt (d + 1) (L : List (Int × Tree d)) j + cnt d sub j) k := by
      apply enc_congr
      intro j hj
      rw [cnt_append, hcM j (by omega)]; omega
    rw [e1, e2]
    simp [List.append_assoc]
  · intro k hk
    have := bd_comb d R (fun j => (pre j).length + cnt (d + 1) (L : List (Int × Tree d)) j + cnt d sub j) post
      (fun j => (pre j).length + cnt (d + 1) (L ++ M ++ R : List (Int × Tree d)) j) k (by omega)
      (by simp only [cnt_append]; rw [hcM k (by omega)]; omega)
      (by
        have := hc.hbd k (by omega)
        refine ⟨this.1, fun p ps hp => ?_⟩
        rw [this.2 p ps hp]; push_cast; rfl)
    refine ⟨this.1, fun p ps hp => ?_⟩
    rw [this.2 p ps hp]
    simp only [List.length_append, enc_len]
    push_cast; rfl

/-- Position in level `d` where the children behind position `|L ++ M|` begin. -/
theorem ctx_next (d : Nat) (L R M : List (Int × Tree d)) (sub : Tree d) (idx pre post : Idx)
    (hM : (M = [] ∧ sub = emptyT d) ∨ ∃ c, M = [(c, sub)])
    (hc : Ctx (d + 1) (L ++ M ++ R : List (Int × Tree d)) idx pre post) (i : Nat)
    (hi : i = (pre (d + 1)).length + (L ++ M).length) :
    nextLevel idx d i = some ((pre d).length + cnt (d + 1) (L : List (Int × Tree d)) d + cnt d sub d) := by
  have hch := ctx_child d L R M sub idx idx pre post hM hc (fun _ _ => rfl)
  have hcM : ∀ k, k ≤ d → cnt (d + 1) (M : List (Int × Tree d)) k = cnt d sub k := by
    intro k hk
    rcases hM with ⟨rfl, rfl⟩ | ⟨c, rfl⟩
    · rw [cnt_nil, cnt_empty]
    · rw [cnt_cons, cnt_nil]
      have : k ≠ d + 1 := by omega
      simp [this]
  have hiX : i = (pre (d + 1) ++ enc (d + 1) (L ++ M : List (Int × Tree d)) (fun j => (pre j).length) (d + 1)).length := by
    rw [List.length_append, enc_top_length, hi]
  rw [hiX]
  have hb := bd_comb d R (fun j => (pre j).length + cnt (d + 1) (L ++ M : List (Int × Tree d)) j) post
      (fun j => (pre j).length + cnt (d + 1) (L ++ M ++ R : List (Int × Tree d)) j) d (by omega)
      (by simp only [cnt_append]; omega)
      (by
        have := hc.hbd d (by omega)
        refine ⟨this.1, fun p ps hp => ?_⟩
        rw [this.2 p ps hp]; push_cast; rfl)
  apply nextPos idx d _
    (enc (d + 1) R (fun j => (pre j).length + cnt (d + 1) (L ++ M : List (Int × Tree d)) j) (d + 1) ++ post (d + 1))
  · rw [hc.hidx (d + 1) (by omega), enc_append]; simp [List.append_assoc]
  · intro h0
    have h1 := hb.1 h0
    rw [hc.hidx d (by omega), enc_append, List.append_assoc, List.append_assoc, h1]
    simp only [List.append_nil, List.length_append, enc_len, cnt_append]
    rw [hcM d (by omega)]; omega
  · intro p ps hp
    rw [hb.2 p ps hp]
    simp only [cnt_append]
    rw [hcM d (by omega)]; push_cast; omega

/-- Reassembling the lower levels after the child `sub` was replaced by `sub'`. -/
theorem asm_low (d : Nat) (L R M M' : List (Int × Tree d)) (sub sub' : Tree d) (pre post : Idx) (v : IVec) (k : Nat)
    (hk : k ≤ d)
    (hM : (M = [] ∧ sub = emptyT d) ∨ ∃ c, M = [(c, sub)])
    (hM' : (M' = [] ∧ sub' = emptyT d) ∨ ∃ c, M' = [(c, sub')])
    (hv : v = (pre k ++ enc (d + 1) L (fun j => (pre j).length) k) ++
      enc d sub' (fun j => (pre j ++ enc (d + 1) L (fun j => (pre j).length) j).length) k ++
      shiftV (fun j => (cnt d sub' j : Int) - cnt d sub j) k
        (enc (d + 1) R (fun j => (pre j).length + cnt (d + 1) (L : List (Int × Tree d)) j + cnt d sub j) k ++ post k)) :
    v = pre k ++ enc (d + 1) (L ++ M' ++ R : List (Int × Tree d)) (fun j => (pre j).length) k ++
      shiftV (fun j => (cnt (d + 1) (L ++ M' ++ R : List (Int × Tree d)) j : Int) -
        cnt (d + 1) (L ++ M ++ R : List (Int × Tree d)) j) k (post k) := by
  have hcM : ∀ (M : List (Int × Tree d)) (sub : Tree d), ((M = [] ∧ sub = emptyT d) ∨ ∃ c, M = [(c, sub)]) → ∀ k, k ≤ d →
      cnt (d + 1) (M : List (Int × Tree d)) k = cnt d sub k := by
    intro M sub hM k hk
    rcases hM with ⟨rfl, rfl⟩ | ⟨c, rfl⟩
    · rw [cnt_nil, cnt_empty]
    · rw [cnt_cons, cnt_nil]
      have : k ≠ d + 1 := by omega
      simp [this]
  have hlen : (fun j => (pre j ++ enc (d + 1) L (fun j => (pre j).length) j).length) =
      (fun j => (pre j).length + cnt (d + 1) (L : List (Int × Tree d)) j) := by
    funext j; rw [List.length_append, enc_len]
  have hkd : k ≠ d + 1 := by omega
  have e1 : enc (d + 1) M' (fun j => (pre j).length + cnt (d + 1) (L : List (Int × Tree d)) j) k =
      enc d sub' (fun j => (pre j).length + cnt (d + 1) (L : List (Int × Tree d)) j) k := by
    rcases hM' with ⟨rfl, rfl⟩ | ⟨c, rfl⟩
    · rw [enc_nil, enc_empty]
    · rw [enc_cons, enc_nil]; simp [hkd]
  have e2 : enc (d + 1) R (fun j => (pre j).length + cnt (d + 1) (L ++ M' : List (Int × Tree d)) j) k =
      enc (d + 1) R (fun j => (pre j).length + cnt (d + 1) (L : List (Int × Tree d)) j + cnt d sub' j) k := by
    apply enc_congr
    intro j hj
    rw [cnt_append, hcM M' sub' hM' j (by omega)]; omega
  have e3 : enc (d + 1) R (fun j => (pre j).length + cnt (d + 1) (L : List (Int × Tree d)) j + cnt d sub' j) k =
      shiftV (fun j => (cnt d sub' j : Int) - cnt d sub j) k
        (enc (d + 1) R (fun j => (pre j).length + cnt (d + 1) (L : List (Int × Tree d)) j + cnt d sub j) k) := by
    apply enc_shift
    intro j; push_cast; omega
  have e4 : shiftV (fun j => (cnt (d + 1) (L ++ M' ++ R : List (Int × Tree d)) j : Int) -
        cnt (d + 1) (L ++ M ++ R : List (Int × Tree d)) j) k (post k) =
      shiftV (fun j => (cnt d sub' j : Int) - cnt d sub j) k (post k) := by
    apply shiftV_congr
    intro j hj
    simp only [cnt_append]
    rw [hcM M' sub' hM' j (by omega), hcM M sub hM j (by omega)]
    push_cast; omega
  rw [hv, hlen, enc_append, enc_append, e1, e2, e4, shiftV_append, e3]
  simp [List.append_assoc]

/-- Reassembling level `d + 1`. -/
theorem asm_top (d : Nat) (L R M M' : List (Int × Tree d)) (sub sub' : Tree d) (pre post : Idx)
    (hM : (M = [] ∧ sub = emptyT d) ∨ ∃ c, M = [(c, sub)])
    (hM' : (M' = [] ∧ sub' = emptyT d) ∨ ∃ c, M' = [(c, sub')]) :
    pre (d + 1) ++ enc (d + 1) L (fun j => (pre j).length) (d + 1) ++
      M'.map (fun p => (p.1, (((pre d).length + cnt (d + 1) (L : List (Int × Tree d)) d : Nat) : Int))) ++
      shiftV (fun j => (cnt d sub' j : Int) - cnt d sub j) (d + 1)
        (enc (d + 1) R (fun j => (pre j).length + cnt (d + 1) (L ++ M : List (Int × Tree d)) j) (d + 1) ++ post (d + 1)) =
    pre (d + 1) ++ enc (d + 1) (L ++ M' ++ R : List (Int × Tree d)) (fun j => (pre j).length) (d + 1) ++
      shiftV (fun j => (cnt (d + 1) (L ++ M' ++ R : List (Int × Tree d)) j : Int) -
        cnt (d + 1) (L ++ M ++ R : List (Int × Tree d)) j) (d + 1) (post (d + 1)) := by
  have hcM : ∀ (M : List (Int × Tree d)) (sub : Tree d), ((M = [] ∧ sub = emptyT d) ∨ ∃ c, M = [(c, sub)]) → ∀ k, k ≤ d →
      cnt (d + 1) (M : List (Int × Tree d)) k = cnt d sub k := by
    intro M sub hM k hk
    rcases hM with ⟨rfl, rfl⟩ | ⟨c, rfl⟩
    · rw [cnt_nil, cnt_empty]
    · rw [cnt_cons, cnt_nil]
      have : k ≠ d + 1 := by omega
      simp [this]
  have e1 : enc (d + 1) M' (fun j => (pre j).length + cnt (d + 1) (L : List (Int × Tree d)) j) (d + 1) =
      M'.map (fun p => (p.1, (((pre d).length + cnt (d + 1) (L : List (Int × Tree d)) d : Nat) : Int))) := by
    rcases hM' with ⟨rfl, rfl⟩ | ⟨c, rfl⟩
    · rw [enc_nil]; rfl
    · rw [enc_cons, enc_nil]; simp
  have e3 : enc (d + 1) R (fun j => (pre j).length + cnt (d + 1) (L ++ M' : List (Int × Tree d)) j) (d + 1) =
      shiftV (fun j => (cnt (d + 1) (L ++ M' : List (Int × Tree d)) j : Int) - cnt (d + 1) (L ++ M : List (Int × Tree d)) j) (d + 1)
        (enc (d + 1) R (fun j => (pre j).length + cnt (d + 1) (L ++ M : List (Int × Tree d)) j) (d + 1)) := by
    apply enc_shift
    intro j; push_cast; omega
  have e4 : ∀ v, shiftV (fun j => (cnt (d + 1) (L ++ M' ++ R : List (Int × Tree d)) j : Int) -
        cnt (d + 1) (L ++ M ++ R : List (Int × Tree d)) j) (d + 1) v =
      shiftV (fun j => (cnt d sub' j : Int) - cnt d sub j) (d + 1) v := by
    intro v
    apply shiftV_congr
    intro j hj
    simp only [cnt_append]
    rw [hcM M' sub' hM' j (by omega), hcM M sub hM j (by omega)]
    push_cast; omega
  have e5 : ∀ v, shiftV (fun j => (cnt (d + 1) (L ++ M' : List (Int × Tree d)) j : Int) -
        cnt (d + 1) (L ++ M : List (Int × Tree d)) j) (d + 1) v =
      shiftV (fun j => (cnt d sub' j : Int) - cnt d sub j) (d + 1) v := by
    intro v
    apply shiftV_congr
    intro j hj
    simp only [cnt_append]
    rw [hcM M' sub' hM' j (by omega), hcM M sub hM j (by omega)]
    push_cast; omega
  rw [enc_append, enc_append, e1, e3, e4, e5, shiftV_append]
  simp [List.append_assoc]

/-- Binary search on level `d + 1`. -/
theorem ub_level (d : Nat) (L R M : List (Int × Tree d)) (idx pre post : Idx) (c : Int)
    (hc : Ctx (d + 1) (L ++ M ++ R : List (Int × Tree d)) idx pre post)
    (hL : ∀ p ∈ L ++ M, p.1 ≤ c) (hR : ∀ p ∈ R, c < p.1) :
    upperBound Prod.fst (idx (d + 1)) (pre (d + 1)).length
      ((pre (d + 1)).length + topLen (d + 1) (L ++ M ++ R : List (Int × Tree d))) c =
      some ((pre (d + 1)).length + (L ++ M).length) := by
  have := upperBound_spec Prod.fst (pre (d + 1)) (enc (d + 1) (L ++ M : List (Int × Tree d)) (fun j => (pre j).length) (d + 1))
    (enc (d + 1) R (fun j => (pre j).length + cnt (d + 1) (L ++ M : List (Int × Tree d)) j) (d + 1)) (post (d + 1))
    c (enc_top_keys d (L ++ M) _ (fun x => x ≤ c) hL)
    (enc_top_keys d R _ (fun x => c < x) hR)
  rw [← enc_append] at this
  rw [← hc.hidx (d + 1) (by omega), enc_top_length, enc_top_length] at this
  exact this

theorem entry_absent (d : Nat) (L R : List (Int × Tree d)) (idx pre post : Idx) (c : Int)
    (hc : Ctx (d + 1) (L ++ [] ++ R : List (Int × Tree d)) idx pre post) (hL : ∀ p ∈ L, p.1 < c) :
    entryBefore (idx (d + 1)) (pre (d + 1)).length ((pre (d + 1)).length + L.length) c = some none := by
  unfold entryBefore
  split
  · rfl
  · rename_i hne
    have hlt : (pre (d + 1)).length + L.length - 1 <
        (pre (d + 1) ++ enc (d + 1) L (fun j => (pre j).length) (d + 1)).length := by
      rw [List.length_append, enc_top_length]; omega
    have hmem : ∃ p, (idx (d + 1))[(pre (d + 1)).length + L.length - 1]? = some p ∧
        p ∈ enc (d + 1) L (fun j => (pre j).length) (d + 1) := by
      rw [hc.hidx (d + 1) (by omega), List.append_nil, enc_append, ← List.append_assoc, List.append_assoc _ _ (post (d + 1)),
        List.getElem?_append_left hlt, List.getElem?_append_right (by omega)]
      have h2 : (pre (d + 1)).length + L.length - 1 - (pre (d + 1)).length <
        (enc (d + 1) L (fun j => (pre j).length) (d + 1)).length := by rw [enc_top_length]; omega
      rw [List.getElem?_eq_getElem h2]
      exact ⟨_, rfl, List.getElem_mem _⟩
    obtain ⟨p, hp1, hp2⟩ := hmem
    have := enc_top_keys d L _ (fun x => x < c) hL p hp2
    rw [hp1]
    simp only [Option.map_some]
    rw [if_neg (by omega)]

theorem top_vec (d : Nat) (L R M : List (Int × Tree d)) (idx pre post : Idx)
    (hc : Ctx (d + 1) (L ++ M ++ R : List (Int × Tree d)) idx pre post) :
    idx (d + 1) = pre (d + 1) ++ enc (d + 1) (L ++ M : List (Int × Tree d)) (fun j => (pre j).length) (d + 1) ++
      (enc (d + 1) R (fun j => (pre j).length + cnt (d + 1) (L ++ M : List (Int × Tree d)) j) (d + 1) ++ post (d + 1)) := by
  rw [hc.hidx (d + 1) (by omega), enc_append]; simp [List.append_assoc]

theorem top_vec_single (d : Nat) (L R : List (Int × Tree d)) (c : Int) (sub : Tree d) (idx pre post : Idx)
    (hc : Ctx (d + 1) (L ++ [(c, sub)] ++ R : List (Int × Tree d)) idx pre post) :
    idx (d + 1) = (pre (d + 1) ++ enc (d + 1) L (fun j => (pre j).length) (d + 1)) ++
      (c, (((pre d).length + cnt (d + 1) (L : List (Int × Tree d)) d : Nat) : Int)) ::
      (enc (d + 1) R (fun j => (pre j).length + cnt (d + 1) (L ++ [(c, sub)] : List (Int × Tree d)) j) (d + 1) ++
        post (d + 1)) := by
  rw [top_vec d L R _ idx pre post hc, enc_append, enc_cons, enc_nil]
  simp [List.append_assoc]

theorem entry_found (d : Nat) (L R : List (Int × Tree d)) (c : Int) (sub : Tree d) (idx pre post : Idx)
    (hc : Ctx (d + 1) (L ++ [(c, sub)] ++ R : List (Int × Tree d)) idx pre post) :
    entryBefore (idx (d + 1)) (pre (d + 1)).length ((pre (d + 1)).length + (L ++ [(c, sub)]).length) c =
      some (some (c, (((pre d).length + cnt (d + 1) (L : List (Int × Tree d)) d : Nat) : Int))) := by
  unfold entryBefore
  rw [if_neg (by simp)]
  have h2 : (pre (d + 1)).length + (L ++ [(c, sub)]).length - 1 =
      (pre (d + 1) ++ enc (d + 1) L (fun j => (pre j).length) (d + 1)).length := by
    rw [List.length_append (as := pre (d + 1)), enc_top_length]; simp
  have h1 := top_vec_single d L R c sub idx pre post hc
  rw [h1, h2, List.getElem?_append_right (Nat.le_refl _)]
  simp

theorem insertHelper_spec (d : Nat) (t : Tree d) (idx pre post : Idx) (s : Streak) (hs : s.origin 0 < s.endX)
    (ht : TreeOK d t) (hc : Ctx d t idx pre post) :
    ∃ idx', insertHelper d idx s (pre d).length ((pre d).length + topLen d t) =
        some (idx', (topLen d (insT d t s) : Int) - topLen d t) ∧
      (∀ k, k ≤ d → idx' k = pre k ++ enc d (insT d t s) (fun j => (pre j).length) k ++
        shiftV (fun j => (cnt d (insT d t s) j : Int) - cnt d t j) k (post k)) ∧
      (∀ k, d < k → idx' k = idx k) := by
  induction d generalizing idx pre post with
  | zero =>
    have h0 : idx 0 = pre 0 ++ t ++ post 0 := by simpa [enc] using hc.hidx 0 (by omega)
    refine ⟨idx.set 0 (pre 0 ++ insRow t (s.origin 0, s.endX) ++ post 0), ?_, ?_, ?_⟩
    · unfold insertHelper
      rw [h0, topLen, insert0_spec (pre 0) t (post 0) _ _ ht hs]
      simp [topLen, insT]
    · intro k hk
      have : k = 0 := by omega
      subst this
      simp [Idx.set_eq, enc, insT, shiftV]
    · intro k hk
      rw [Idx.set_ne _ _ _ _ (by omega)]
  | succ d ih =>
    have hk : KeysOK (t : List (Int × Tree d)) := ht.1
    have hsub := ht.2
    unfold insertHelper
    simp only [Option.bind_eq_bind]
    rcases splitKeys t hk (s.origin (d + 1)) with ⟨L, R, rfl, hL, hR⟩ | ⟨L, sub, R, ht0, hL, hR⟩
    · -- key absent
      have hc' : Ctx (d + 1) (L ++ [] ++ R : List (Int × Tree d)) idx pre post := by simpa using hc
      have hub := ub_level d L R [] idx pre post (s.origin (d + 1)) hc'
        (fun p hp => by have := hL p (by simpa using hp); omega) hR
      simp only [List.append_nil] at hub
      rw [hub, Option.bind_some, entry_absent d L R idx pre post _ hc' hL]
      simp only [Option.bind_some]
      rw [ctx_next d L R [] (emptyT d) idx pre post (Or.inl ⟨rfl, rfl⟩) hc'
        ((pre (d + 1)).length + L.length) (by simp), cnt_empty, Nat.add_zero]
      simp only [Option.bind_some]
      obtain ⟨v1, hv1⟩ : ∃ v1, v1 = (idx (d + 1)).insertIdx ((pre (d + 1)).length + L.length)
          (s.origin (d + 1), (((pre d).length + cnt (d + 1) (L : List (Int × Tree d)) d : Nat) : Int)) := ⟨_, rfl⟩
      rw [← hv1]
      have hch := ctx_child d L R [] (emptyT d) idx (idx.set (d + 1) v1) pre post (Or.inl ⟨rfl, rfl⟩) hc'
        (fun k hk => Idx.set_ne _ _ _ _ (by omega))
      obtain ⟨idx', h1, h2, h3⟩ := ih (emptyT d) (idx.set (d + 1) v1) _ _ (emptyT_ok d) hch
      simp only [List.length_append, enc_len, topLen_emptyT, Nat.add_zero] at h1
      rw [h1]
      simp only [Option.bind_some]
      have hi1 : idx' (d + 1) = v1 := by rw [h3 (d + 1) (by omega), Idx.set_eq]
      have hins : insT (d + 1) (L ++ R : List (Int × Tree d)) s =
          (L ++ [(s.origin (d + 1), insT d (emptyT d) s)] ++ R : List (Int × Tree d)) := by
        show upsert _ _ _ (L ++ R) = _
        rw [upsert_absent _ _ _ _ _ hL hR]
        simp
      refine ⟨idx'.set (d + 1) (incRemainder (idx' (d + 1)) ((pre (d + 1)).length + L.length + 1)
          ((topLen d (insT d (emptyT d) s) : Int) - (0 : Nat))), ?_, ?_, ?_⟩
      · rw [hins]
        congr 2
        simp [topLen]; omega
      · intro k hk
        rw [hins]
        have htt : (L ++ R) = L ++ [] ++ R := by simp
        rw [htt]
        by_cases hkd : k = d + 1
        · subst hkd
          rw [Idx.set_eq, hi1, hv1, ← asm_top d L R [] _ (emptyT d) (insT d (emptyT d) s) pre post (Or.inl ⟨rfl, rfl⟩)
            (Or.inr ⟨_, rfl⟩)]
          have hX : (pre (d + 1)).length + L.length =
            (pre (d + 1) ++ enc (d + 1) L (fun j => (pre j).length) (d + 1)).length := by
            rw [List.length_append, enc_top_length]
          have htv := top_vec d L R [] idx pre post hc'
          simp only [List.append_nil] at htv ⊢
          rw [htv, hX, insertIdx_mid]
          have hX2 : (pre (d + 1) ++ enc (d + 1) L (fun j => (pre j).length) (d + 1)).length + 1 =
            (pre (d + 1) ++ enc (d + 1) L (fun j => (pre j).length) (d + 1) ++
              [(s.origin (d + 1), (((pre d).length + cnt (d + 1) (L : List (Int × Tree d)) d : Nat) : Int))]).length := by
            simp only [List.length_append, List.length_cons, List.length_nil]
          rw [hX2, show ∀ (a : IVec) (p : IPair) (b : IVec), a ++ p :: b = (a ++ [p]) ++ b by simp]
          have hd0 : ((topLen d (insT d (emptyT d) s) : Int) - (0 : Nat)) =
            (fun j => (cnt d (insT d (emptyT d) s) j : Int) - cnt d (emptyT d) j) d := by
            simp only
            rw [cnt_empty, cnt_top]
          rw [incRemainder_mid _ _ (fun j => (cnt d (insT d (emptyT d) s) j : Int) - cnt d (emptyT d) j) d _ hd0]
          rfl
        · have hkd' : k ≤ d := by omega
          rw [Idx.set_ne _ _ _ _ hkd]
          exact asm_low d L R [] _ (emptyT d) (insT d (emptyT d) s) pre post _ k hkd' (Or.inl ⟨rfl, rfl⟩)
            (Or.inr ⟨_, rfl⟩) (h2 k hkd')
      · intro k hk
        rw [Idx.set_ne _ _ _ _ (by omega), h3 k (by omega), Idx.set_ne _ _ _ _ (by omega)]
    · -- key present
      have ht1 : t = (L ++ [(s.origin (d + 1), sub)] ++ R : List (Int × Tree d)) := by rw [ht0]; simp
      clear ht0
      subst ht1
      have hub := ub_level d L R _ idx pre post (s.origin (d + 1)) hc
        (fun p hp => by
          rcases List.mem_append.1 hp with hp | hp
          · have := hL p hp; omega
          · simp at hp; rw [hp]; exact Int.le_refl _) hR
      rw [hub, Option.bind_some, entry_found d L R _ sub idx pre post hc]
      simp only [Option.bind_some]
      rw [toPos_nat]
      rw [ctx_next d L R _ sub idx pre post (Or.inr ⟨_, rfl⟩) hc _ rfl]
      simp only [Option.bind_some]
      have hch := ctx_child d L R _ sub idx idx pre post (Or.inr ⟨_, rfl⟩) hc (fun k hk => rfl)
      have hsubOK := (hsub (s.origin (d + 1), sub) (by simp)).1
      obtain ⟨idx', h1, h2, h3⟩ := ih sub idx _ _ hsubOK hch
      simp only [List.length_append, enc_len] at h1
      rw [cnt_top, h1]
      simp only [Option.bind_some]
      have hins : insT (d + 1) (L ++ [(s.origin (d + 1), sub)] ++ R : List (Int × Tree d)) s =
          (L ++ [(s.origin (d + 1), insT d sub s)] ++ R : List (Int × Tree d)) := by
        show upsert _ _ _ (L ++ [(s.origin (d + 1), sub)] ++ R) = _
        rw [List.append_assoc]
        rw [List.singleton_append, upsert_found _ _ _ _ _ _ hL]
        simp
      refine ⟨idx'.set (d + 1) (incRemainder (idx' (d + 1)) ((pre (d + 1)).length + (L ++ [(s.origin (d + 1), sub)]).length)
          ((topLen d (insT d sub s) : Int) - topLen d sub)), ?_, ?_, ?_⟩
      · rw [hins]
        congr 2
        simp [topLen]
      · intro k hk
        rw [hins]
        by_cases hkd : k = d + 1
        · subst hkd
          rw [Idx.set_eq, h3 (d + 1) (by omega), ← asm_top d L R _ _ sub (insT d sub s) pre post (Or.inr ⟨_, rfl⟩)
            (Or.inr ⟨_, rfl⟩)]
          rw [top_vec_single d L R _ sub idx pre post hc]
          rw [show ∀ (a : IVec) (p : IPair) (b : IVec), a ++ p :: b = (a ++ [p]) ++ b by simp]
          have hX2 : (pre (d + 1)).length + (L.length + [(s.origin (d + 1), sub)].length) =
            (pre (d + 1) ++ enc (d + 1) L (fun j => (pre j).length) (d + 1) ++
              [(s.origin (d + 1), (((pre d).length + cnt (d + 1) (L : List (Int × Tree d)) d : Nat) : Int))]).length := by
            simp only [List.length_append, enc_top_length]; simp; omega
          rw [List.length_append, hX2]
          have hd0 : ((topLen d (insT d sub s) : Int) - topLen d sub) =
            (fun j => (cnt d (insT d sub s) j : Int) - cnt d sub j) d := by
            simp only
            rw [cnt_top, cnt_top]
          rw [incRemainder_mid _ _ (fun j => (cnt d (insT d sub s) j : Int) - cnt d sub j) d _ hd0]
          rfl
        · have hkd' : k ≤ d := by omega
          rw [Idx.set_ne _ _ _ _ hkd]
          exact asm_low d L R _ _ sub (insT d sub s) pre post _ k hkd' (Or.inr ⟨_, rfl⟩)
            (Or.inr ⟨_, rfl⟩) (h2 k hkd')
      · intro k hk
        rw [Idx.set_ne _ _ _ _ (by omega), h3 k (by omega)]

theorem removeHelper_spec (d : Nat) (t : Tree d) (idx pre post : Idx) (s : Streak) (hs : s.origin 0 < s.endX)
    (ht : TreeOK d t) (hc : Ctx d t idx pre post) :
    ∃ idx', removeHelper d idx s (pre d).length ((pre d).length + topLen d t) =
        some (idx', (topLen d (remT d t s) : Int) - topLen d t) ∧
      (∀ k, k ≤ d → idx' k = pre k ++ enc d (remT d t s) (fun j => (pre j).length) k ++
        shiftV (fun j => (cnt d (remT d t s) j : Int) - cnt d t j) k (post k)) ∧
      (∀ k, d < k → idx' k = idx k) := by
  induction d generalizing idx pre post with
  | zero =>
    have h0 : idx 0 = pre 0 ++ t ++ post 0 := by simpa [enc] using hc.hidx 0 (by omega)
    refine ⟨idx.set 0 (pre 0 ++ remRow t (s.origin 0, s.endX) ++ post 0), ?_, ?_, ?_⟩
    · unfold removeHelper
      rw [h0, topLen, remove0_spec (pre 0) t (post 0) _ _ ht hs]
      simp [topLen, remT]
    · intro k hk
      have : k = 0 := by omega
      subst this
      simp [Idx.set_eq, enc, remT, shiftV]
    · intro k hk
      rw [Idx.set_ne _ _ _ _ (by omega)]
  | succ d ih =>
    have hk : KeysOK (t : List (Int × Tree d)) := ht.1
    have hsub := ht.2
    unfold removeHelper
    simp only [Option.bind_eq_bind]
    rcases splitKeys t hk (s.origin (d + 1)) with ⟨L, R, rfl, hL, hR⟩ | ⟨L, sub, R, ht0, hL, hR⟩
    · -- key absent
      have hc' : Ctx (d + 1) (L ++ [] ++ R : List (Int × Tree d)) idx pre post := by simpa using hc
      have hub := ub_level d L R [] idx pre post (s.origin (d + 1)) hc'
        (fun p hp => by have := hL p (by simpa using hp); omega) hR
      simp only [List.append_nil] at hub
      rw [hub, Option.bind_some, entry_absent d L R idx pre post _ hc' hL]
      simp only [Option.bind_some]
      have hrem : remT (d + 1) (L ++ R : List (Int × Tree d)) s = (L ++ R : List (Int × Tree d)) := by
        show modDrop _ _ _ (L ++ R) = _
        rw [modDrop_absent _ _ _ _ _ hL hR]
      rw [hrem]
      refine ⟨idx, by simp, ?_, fun _ _ => rfl⟩
      intro k hk
      rw [hc.hidx k hk]
      congr 1
      rw [shiftV_congr _ (fun _ => 0) k _ (by intro j _; omega)]
      cases k <;> simp [shiftV]
    · -- key present
      have ht1 : t = (L ++ [(s.origin (d + 1), sub)] ++ R : List (Int × Tree d)) := by rw [ht0]; simp
      clear ht0
      subst ht1
      have hub := ub_level d L R _ idx pre post (s.origin (d + 1)) hc
        (fun p hp => by
          rcases List.mem_append.1 hp with hp | hp
          · have := hL p hp; omega
          · simp at hp; rw [hp]; exact Int.le_refl _) hR
      rw [hub, Option.bind_some, entry_found d L R _ sub idx pre post hc]
      simp only [Option.bind_some]
      rw [toPos_nat]
      rw [ctx_next d L R _ sub idx pre post (Or.inr ⟨_, rfl⟩) hc _ rfl]
      simp only [Option.bind_some]
      have hch := ctx_child d L R _ sub idx idx pre post (Or.inr ⟨_, rfl⟩) hc (fun k hk => rfl)
      have hsubOK := (hsub (s.origin (d + 1), sub) (by simp)).1
      obtain ⟨idx', h1, h2, h3⟩ := ih sub idx _ _ hsubOK hch
      simp only [List.length_append, enc_len] at h1
      rw [cnt_top, h1]
      simp only [Option.bind_some]
      have hd0 : ((topLen d (remT d sub s) : Int) - topLen d sub) =
        (fun j => (cnt d (remT d sub s) j : Int) - cnt d sub j) d := by
        simp only
        rw [cnt_top, cnt_top]
      by_cases hemp : topLen d (remT d sub s) = 0
      · rw [if_pos (by rw [hemp]; push_cast; omega)]
        have hempT := (topLen_eq_zero d _).1 hemp
        have hrem : remT (d + 1) (L ++ [(s.origin (d + 1), sub)] ++ R : List (Int × Tree d)) s =
            (L ++ [] ++ R : List (Int × Tree d)) := by
          show modDrop _ _ _ (L ++ [(s.origin (d + 1), sub)] ++ R) = _
          rw [List.append_assoc, List.singleton_append, modDrop_found _ _ _ _ _ _ hL]
          simp [hemp]
        refine ⟨_, congrArg some (Prod.ext rfl ?_), ?_, ?_⟩
        · rw [hrem]; simp [topLen]; omega
        · intro k hk
          rw [hrem]
          by_cases hkd : k = d + 1
          · subst hkd
            rw [Idx.set_eq, h3 (d + 1) (by omega), ← asm_top d L R _ [] sub (remT d sub s) pre post (Or.inr ⟨_, rfl⟩)
              (Or.inl ⟨rfl, hempT⟩)]
            rw [top_vec_single d L R _ sub idx pre post hc]
            have hX2 : (pre (d + 1)).length + (L.length + [(s.origin (d + 1), sub)].length) - 1 =
              (pre (d + 1) ++ enc (d + 1) L (fun j => (pre j).length) (d + 1)).length := by
              simp only [List.length_append, enc_top_length]; simp
            rw [List.length_append, hX2]
            have := eraseIdx_mid (pre (d + 1) ++ enc (d + 1) L (fun j => (pre j).length) (d + 1))
              (enc (d + 1) R (fun j => (pre j).length + cnt (d + 1) (L ++ [(s.origin (d + 1), sub)] : List (Int × Tree d)) j) (d + 1) ++
                post (d + 1)) []
              (s.origin (d + 1), (((pre d).length + cnt (d + 1) (L : List (Int × Tree d)) d : Nat) : Int))
            simp only [List.append_nil] at this
            rw [this]
            rw [incRemainder_mid _ _ (fun j => (cnt d (remT d sub s) j : Int) - cnt d sub j) d _ hd0]
            simp
          · have hkd' : k ≤ d := by omega
            rw [Idx.set_ne _ _ _ _ hkd]
            exact asm_low d L R _ _ sub (remT d sub s) pre post _ k hkd' (Or.inr ⟨_, rfl⟩)
              (Or.inl ⟨rfl, hempT⟩) (h2 k hkd')
        · intro k hk
          rw [Idx.set_ne _ _ _ _ (by omega), h3 k (by omega)]
      · rw [if_neg (by push_cast; omega)]
        have hrem : remT (d + 1) (L ++ [(s.origin (d + 1), sub)] ++ R : List (Int × Tree d)) s =
            (L ++ [(s.origin (d + 1), remT d sub s)] ++ R : List (Int × Tree d)) := by
          show modDrop _ _ _ (L ++ [(s.origin (d + 1), sub)] ++ R) = _
          rw [List.append_assoc, List.singleton_append, modDrop_found _ _ _ _ _ _ hL]
          simp [hemp]
        refine ⟨_, congrArg some (Prod.ext rfl ?_), ?_, ?_⟩
        · rw [hrem]; simp [topLen]
        · intro k hk
          rw [hrem]
          by_cases hkd : k = d + 1
          · subst hkd
            rw [Idx.set_eq, h3 (d + 1) (by omega), ← asm_top d L R _ _ sub (remT d sub s) pre post (Or.inr ⟨_, rfl⟩)
              (Or.inr ⟨_, rfl⟩)]
            rw [top_vec_single d L R _ sub idx pre post hc]
            rw [show ∀ (a : IVec) (p : IPair) (b : IVec), a ++ p :: b = (a ++ [p]) ++ b by simp]
            have hX2 : (pre (d + 1)).length + (L.length + [(s.origin (d + 1), sub)].length) =
              (pre (d + 1) ++ enc (d + 1) L (fun j => (pre j).length) (d + 1) ++
                [(s.origin (d + 1), (((pre d).length + cnt (d + 1) (L : List (Int × Tree d)) d : Nat) : Int))]).length := by
              simp only [List.length_append, enc_top_length]; simp; omega
            rw [List.length_append, hX2]
            rw [incRemainder_mid _ _ (fun j => (cnt d (remT d sub s) j : Int) - cnt d sub j) d _ hd0]
            rfl
          · have hkd' : k ≤ d := by omega
            rw [Idx.set_ne _ _ _ _ hkd]
            exact asm_low d L R _ _ sub (remT d sub s) pre post _ k hkd' (Or.inr ⟨_, rfl⟩)
              (Or.inr ⟨_, rfl⟩) (h2 k hkd')
        · intro k hk
          rw [Idx.set_ne _ _ _ _ (by omega), h3 k (by omega)]

theorem lookupRow (row : List IPair) (hr : RowOK row) (x e : Int) (hx : x < e) :
    (∃ p ∈ row, p.1 ≤ x ∧ e ≤ p.2) ↔ ∀ y, x ≤ y → y < e → RowMem row y := by
  constructor
  · rintro ⟨p, hp, h1, h2⟩ y hy1 hy2
    exact ⟨p, hp, by omega, by omega⟩
  · intro h
    obtain ⟨p, hp, h1, h2⟩ := h x (Int.le_refl _) hx
    refine ⟨p, hp, h1, ?_⟩
    apply Classical.byContradiction
    intro hlt
    obtain ⟨q, hq, h3, h4⟩ := h p.2 (by omega) (by omega)
    have key : ∀ (r : List IPair), RowOK r → ∀ p ∈ r, ∀ q ∈ r, p = q ∨ p.2 < q.1 ∨ q.2 < p.1 := by
      intro r
      induction r with
      | nil => intro _ p hp; simp at hp
      | cons a as ih =>
        intro hr p hp q hq
        rcases List.mem_cons.1 hp with h1 | h1 <;> rcases List.mem_cons.1 hq with h2 | h2
        · exact Or.inl (h1.trans h2.symm)
        · rw [h1]; exact Or.inr (Or.inl (hr.2.1 q h2))
        · rw [h2]; exact Or.inr (Or.inr (hr.2.1 p h1))
        · exact ih hr.2.2 p h1 q h2
    have := hr.pos p hp
    rcases key row hr p hp q hq with rfl | h | h <;> omega

theorem lookup0_spec (pre row post : IVec) (x e : Int) (hr : RowOK row) (hx : x < e) (hne : row ≠ []) :
    ∃ b, (do
      let ub ← upperBound Prod.fst (pre ++ row ++ post) pre.length (pre.length + row.length) x
      let cursor := if ub = pre.length then ub else ub - 1
      let p ← (pre ++ row ++ post)[cursor]?
      some (decide (p.1 ≤ x) && decide (p.2 ≥ e))) = some b ∧ (b = true ↔ ∃ p ∈ row, p.1 ≤ x ∧ e ≤ p.2) := by
  obtain ⟨A, B, rfl, hA, hB⟩ := rowSplit row hr x
  rw [upperBound_spec Prod.fst pre A B post x hA hB]
  simp only [Option.bind_eq_bind, Option.bind_some]
  have hrr := RowOK_append.1 hr
  by_cases hAe : A = []
  · subst hAe
    cases B with
    | nil => simp at hne
    | cons b bs =>
      have hb := hB b (by simp)
      refine ⟨false, ?_, ?_⟩
      · simp only [List.length_nil, Nat.add_zero, if_true, List.nil_append, getElem?_mid, Option.bind_some]
        simp; omega
      · simp only [Bool.false_eq_true, false_iff]
        rintro ⟨p, hp, h1, h2⟩
        have := hB p (by simpa using hp); omega
  · rw [if_neg (by have := List.length_pos_iff.2 hAe; omega)]
    obtain ⟨A', a, rfl⟩ := exists_concat A hAe
    have hcur : pre.length + (A' ++ [a]).length - 1 = (pre ++ A').length := by simp
    have hv : pre ++ (A' ++ [a] ++ B) ++ post = (pre ++ A') ++ (a :: B) ++ post := by simp
    rw [hcur, hv, getElem?_mid]
    simp only [Option.bind_some]
    refine ⟨_, rfl, ?_⟩
    simp only [Bool.and_eq_true, decide_eq_true_eq]
    constructor
    · intro h; exact ⟨a, by simp, h.1, h.2⟩
    · rintro ⟨p, hp, h1, h2⟩
      simp only [List.mem_append, List.mem_singleton] at hp
      rcases hp with (hp | rfl) | hp
      · have h3 := (RowOK_append.1 hrr.1).2.2 p hp a (by simp)
        have h4 := hA a (by simp)
        omega
      · exact ⟨h1, h2⟩
      · have := hB p hp; omega

theorem lookupHelper_spec (d : Nat) (t : Tree d) (idx pre post : Idx) (s : Streak) (hs : s.origin 0 < s.endX)
    (ht : TreeOK d t) (hc : Ctx d t idx pre post) (hne : topLen d t ≠ 0 ∨ 0 < d ∨ idx 0 = []) :
    ∃ b, lookupHelper d idx s (pre d).length ((pre d).length + topLen d t) = some b ∧
      (b = true ↔ ∀ c, SMem d s c → TMem d t c) := by
  induction d generalizing idx pre post with
  | zero =>
    have h0 : idx 0 = pre 0 ++ t ++ post 0 := by simpa [enc] using hc.hidx 0 (by omega)
    have sem : (∃ p ∈ (t : List IPair), p.1 ≤ s.origin 0 ∧ s.endX ≤ p.2) ↔ ∀ c, SMem 0 s c → TMem 0 t c := by
      rw [lookupRow t ht _ _ hs]
      constructor
      · rintro h c ⟨_, h1, h2⟩; exact h _ h1 h2
      · intro h y h1 h2; exact h (fun _ => y) ⟨fun k _ _ => by omega, h1, h2⟩
    unfold lookupHelper
    by_cases he : (idx 0).isEmpty
    · rw [if_pos he]
      refine ⟨false, rfl, ?_⟩
      rw [← sem]
      have : t = [] := by
        rw [List.isEmpty_iff, h0] at he; simp at he; exact he.2.1
      subst this
      simp
    · rw [if_neg he]
      have hne' : t ≠ [] := by
        rcases hne with h | h | h
        · intro h'; apply h; rw [h']; rfl
        · omega
        · rw [h] at he; simp at he
      obtain ⟨b, h1, h2⟩ := lookup0_spec (pre 0) t (post 0) (s.origin 0) s.endX ht hs hne'
      refine ⟨b, ?_, h2.trans sem⟩
      rw [h0]; exact h1
  | succ d ih =>
    have hk : KeysOK (t : List (Int × Tree d)) := ht.1
    have hsub := ht.2
    unfold lookupHelper
    simp only [Option.bind_eq_bind]
    rcases splitKeys t hk (s.origin (d + 1)) with ⟨L, R, rfl, hL, hR⟩ | ⟨L, sub, R, ht0, hL, hR⟩
    · have hc' : Ctx (d + 1) (L ++ [] ++ R : List (Int × Tree d)) idx pre post := by simpa using hc
      have hub := ub_level d L R [] idx pre post (s.origin (d + 1)) hc'
        (fun p hp => by have := hL p (by simpa using hp); omega) hR
      simp only [List.append_nil] at hub
      rw [hub, Option.bind_some, entry_absent d L R idx pre post _ hc' hL]
      refine ⟨false, rfl, ?_⟩
      simp only [Bool.false_eq_true, false_iff]
      intro h
      obtain ⟨p, hp, hp2, _⟩ := h s.origin ⟨fun _ _ _ => rfl, Int.le_refl _, hs⟩
      rcases List.mem_append.1 hp with hp | hp
      · have := hL p hp; omega
      · have := hR p hp; omega
    · have ht1 : t = (L ++ [(s.origin (d + 1), sub)] ++ R : List (Int × Tree d)) := by rw [ht0]; simp
      clear ht0
      subst ht1
      have hub := ub_level d L R _ idx pre post (s.origin (d + 1)) hc
        (fun p hp => by
          rcases List.mem_append.1 hp with hp | hp
          · have := hL p hp; omega
          · simp at hp; rw [hp]; exact Int.le_refl _) hR
      rw [hub, Option.bind_some, entry_found d L R _ sub idx pre post hc]
      simp only [Option.bind_some]
      rw [toPos_nat]
      rw [ctx_next d L R _ sub idx pre post (Or.inr ⟨_, rfl⟩) hc _ rfl]
      simp only [Option.bind_some]
      have hch := ctx_child d L R _ sub idx idx pre post (Or.inr ⟨_, rfl⟩) hc (fun k hk => rfl)
      have hsubOK := hsub (s.origin (d + 1), sub) (by simp)
      obtain ⟨b, h1, h2⟩ := ih sub idx _ _ hsubOK.1 hch (Or.inl hsubOK.2)
      simp only [List.length_append, enc_len] at h1
      rw [cnt_top, h1]
      refine ⟨b, rfl, ?_⟩
      rw [h2]
      constructor
      · intro h c hc
        rw [SMem_succ] at hc
        exact ⟨(s.origin (d + 1), sub), by simp, hc.1.symm, h c hc.2⟩
      · intro h c hc
        have hfix : TMem (d + 1) (L ++ [(s.origin (d + 1), sub)] ++ R : List (Int × Tree d))
            (fun k => if k = d + 1 then s.origin (d + 1) else c k) := by
          apply h
          rw [SMem_succ]
          refine ⟨by simp, ?_⟩
          obtain ⟨a1, a2, a3⟩ := hc
          refine ⟨fun k h1 h2 => ?_, ?_, ?_⟩
          · have : k ≠ d + 1 := by omega
            simp [this, a1 k h1 h2]
          · simpa using a2
          · simpa using a3
        obtain ⟨p, hp, hp2, hp3⟩ := hfix
        simp only [if_pos] at hp2
        have : p.2 = sub := KeysOK_unique hk (k := s.origin (d + 1))
          (by have : p = (s.origin (d + 1), p.2) := Prod.ext hp2 rfl
              rw [← this]; exact hp) (by simp)
        rw [this] at hp3
        refine (TMem_congr d sub _ c ?_).1 hp3
        intro k hk
        have : k ≠ d + 1 := by omega
        simp [this]

end LGD
