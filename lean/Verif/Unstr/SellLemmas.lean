import Verif.Unstr.SellModel

/-!
# Lemmas about the SELL-C-sigma container
-/

namespace LGD.Sell

variable {V α : Type}

/-- entries of a row -/
def rowOf (m : List (Entry V)) (x : Int) : List (Entry V) := m.filter fun e => decide (e.1.1 = x)

/-! ## vectors -/

theorem readAll_ok (l : List α) (is : List Nat) (f : Nat → α) (h : ∀ i ∈ is, l[i]? = some (f i)) : readAll l is = some (is.map f) := by
  unfold readAll
  rw [if_pos]
  · congr 1
    induction is with
    | nil => rfl
    | cons i is ih =>
      rw [List.filterMap_cons_some (h i (List.mem_cons_self ..)), List.map_cons, ih fun j hj => h j (List.mem_cons_of_mem _ hj)]
  · rw [List.all_eq_true]
    intro i hi
    rw [decide_eq_true_eq]
    exact (List.getElem?_eq_some_iff.1 (h i hi)).1

theorem writeAt_ok (l : List α) (i : Nat) (v : α) (h : i < l.length) : writeAt l i v = some (l.set i v) := by
  unfold writeAt; rw [if_pos h]

theorem writeFrom_ok (l vs : List α) (a : Nat) (h : a + vs.length ≤ l.length) : writeFrom l a vs = some (l.take a ++ vs ++ l.drop (a + vs.length)) := by
  unfold writeFrom; rw [if_pos h]

/-! ## row lengths -/

theorem countRows_ok (m : List (Entry V)) : ∀ l : List Nat, (∀ e ∈ m, 0 ≤ e.1.1 ∧ e.1.1 < l.length) →
    ∃ l', countRows m l = some l' ∧ l'.length = l.length ∧ ∀ i : Nat, l'[i]? = (l[i]?).map (· + (rowOf m i).length) := by
  induction m with
  | nil => intro l _; exact ⟨l, rfl, rfl, fun i => by simp [rowOf]⟩
  | cons e m ih =>
    intro l h
    obtain ⟨h0, h1⟩ := h e (List.mem_cons_self ..)
    have hlt : e.1.1.toNat < l.length := by omega
    obtain ⟨l', h2, h3, h4⟩ := ih (l.set e.1.1.toNat (l[e.1.1.toNat] + 1)) (fun a ha => by rw [List.length_set]; exact h a (List.mem_cons_of_mem _ ha))
    refine ⟨l', ?_, by simpa using h3, fun i => ?_⟩
    · unfold countRows
      rw [if_pos h0, List.getElem?_eq_getElem hlt, Option.bind_some, h2]
    · rw [h4 i, List.getElem?_set]
      unfold rowOf
      by_cases hi : e.1.1.toNat = i
      · rw [if_pos hi, if_pos (by omega), ← hi, List.getElem?_eq_getElem hlt, Option.map_some, Option.map_some, List.filter_cons_of_pos (by simp; omega), List.length_cons]
        congr 1; omega
      · rw [if_neg hi, List.filter_cons_of_neg (by simp; omega)]

/-! ## sorting scopes -/

/-- the rows are sorted by descending length in each scope, stable -/
structure Sorted (sigma : Nat) (f : Nat → Nat) (P : List Nat) : Prop where
  perm : P.Perm (List.range P.length)
  scope : ∀ (i x : Nat), P[i]? = some x → x / sigma = i / sigma
  desc : ∀ (i j x y : Nat), i < j → P[i]? = some x → P[j]? = some y → i / sigma = j / sigma → f y ≤ f x ∧ (f x = f y → x < y)

instance : Std.Total longer := ⟨fun a b => by unfold longer; omega⟩
instance : IsTrans (Nat × Nat) longer := ⟨fun a b c => by unfold longer; omega⟩
instance : Std.Total firstLe := ⟨fun a b => by unfold firstLe; omega⟩
instance : IsTrans (Nat × Nat) firstLe := ⟨fun a b c => by unfold firstLe; omega⟩

/-- the comparison refined by the row number -/
def longer' (a b : Nat × Nat) : Prop := b.1 < a.1 ∨ (b.1 = a.1 ∧ a.2 < b.2)

theorem insert_stable (a : Nat × Nat) (l : List (Nat × Nat)) (h : l.Pairwise longer') (ha : ∀ b ∈ l, a.2 < b.2) : (l.orderedInsert longer a).Pairwise longer' := by
  induction l with
  | nil => simp
  | cons b l ih =>
    rw [List.orderedInsert_cons]
    rw [List.pairwise_cons] at h
    split
    · rename_i hab
      rw [List.pairwise_cons, List.pairwise_cons]
      refine ⟨fun c hc => ?_, h.1, h.2⟩
      have h1 : longer' b c ∨ c = b := by
        rw [List.mem_cons] at hc
        rcases hc with hc | hc
        · exact Or.inr hc
        · exact Or.inl (h.1 c hc)
      have h2 := ha c hc
      unfold longer longer' at *
      rcases h1 with h1 | h1
      · omega
      · subst h1; omega
    · rename_i hab
      rw [List.pairwise_cons]
      refine ⟨fun c hc => ?_, ih h.2 fun c hc => ha c (List.mem_cons_of_mem _ hc)⟩
      rw [List.mem_orderedInsert] at hc
      rcases hc with hc | hc
      · subst hc
        unfold longer longer' at *
        omega
      · exact h.1 c hc

theorem sort_stable (l : List (Nat × Nat)) (h : l.Pairwise fun a b => a.2 < b.2) : (l.insertionSort longer).Pairwise longer' := by
  induction l with
  | nil => simp
  | cons a l ih =>
    rw [List.pairwise_cons] at h
    rw [List.insertionSort_cons]
    exact insert_stable a _ (ih h.2) fun b hb => h.1 b ((List.mem_insertionSort _).1 hb)

theorem zipIdx_shift (l : List Nat) (f : Nat → Nat) : (l.map f).zip l = l.map fun x => (f x, x) := by
  induction l with
  | nil => rfl
  | cons a l ih => simp [ih]

/-- state of the loop after the scopes before row `T` -/
structure ScopeInv (sigma R : Nat) (f : Nat → Nat) (old : List (Nat × Nat)) (T : Nat) (P : List Nat) (st : Scopes) : Prop where
  len : P.length = T
  le : T ≤ R
  sorted : Sorted sigma f P
  c2r : st.chunkRowToReal.length = R ∧ st.chunkRowToReal.take T = P
  tail : ∀ i, T ≤ i → i < R → ∃ x, st.chunkRowToReal[i]? = some x ∧ x < R
  r2s : st.realRowToSorted = old ++ P.zipIdx
  copy : st.rowLengthCopy = P.map f ++ List.replicate (R - T) 0

theorem scopeStep_ok {sigma R : Nat} {f : Nat → Nat} {old : List (Nat × Nat)} {s : Nat} {P : List Nat} {st : Scopes} {rl : List Nat} (hs : 0 < sigma) (hR : s * sigma < R)
    (hrl : ∀ i, i < R → rl[i]? = some (f i)) (inv : ScopeInv sigma R f old (s * sigma) P st) :
    ∃ P' st', scopeStep sigma R rl s st = some st' ∧ ScopeInv sigma R f old (min R ((s + 1) * sigma)) P' st' := by
  obtain ⟨h1, h2, h3, ⟨h4, h5⟩, h6, h7, h8⟩ := inv
  have hk : s * sigma + min sigma (R - s * sigma) = min R ((s + 1) * sigma) := by rw [Nat.succ_mul]; omega
  generalize hkk : min sigma (R - s * sigma) = k at hk
  have hkpos : 0 < k := by omega
  have hks : k ≤ sigma := by omega
  generalize hrows : ((List.range k).map fun i => s * sigma + i) = rows
  have hrl' : rows.length = k := by rw [← hrows]; simp
  have hmem : ∀ x, x ∈ rows ↔ s * sigma ≤ x ∧ x < s * sigma + k := by
    intro x
    rw [← hrows]
    simp only [List.mem_map, List.mem_range]
    exact ⟨fun ⟨i, h, e⟩ => by omega, fun h => ⟨x - s * sigma, by omega, by omega⟩⟩
  have hread : readAll rl rows = some (rows.map f) := readAll_ok _ _ _ fun i hi => hrl i (by have := (hmem i).1 hi; omega)
  have hasc : (rows.map fun x => (f x, x)).Pairwise fun a b => a.2 < b.2 := by
    rw [← hrows, List.map_map, List.pairwise_map]
    exact List.Pairwise.imp (fun {a b} h => by simp only [Function.comp]; omega) List.pairwise_lt_range
  have hst := sort_stable _ hasc
  have hpm := List.perm_insertionSort longer (rows.map fun x => (f x, x))
  generalize hsd : (rows.map fun x => (f x, x)).insertionSort longer = sd at hst hpm
  have hfst : sd.map Prod.fst = (sd.map Prod.snd).map f := by
    rw [List.map_map]
    refine List.map_congr_left fun p hp => ?_
    obtain ⟨x, _, rfl⟩ := List.mem_map.1 (hpm.mem_iff.1 hp)
    rfl
  have hsnd : (sd.map Prod.snd).Perm rows := by
    have := hpm.map Prod.snd
    rwa [List.map_map, show (Prod.snd ∘ fun x => (f x, x)) = (id : Nat → Nat) from rfl, List.map_id] at this
  have hdesc : (sd.map Prod.snd).Pairwise fun x y => f y < f x ∨ (f y = f x ∧ x < y) := by
    rw [List.pairwise_map]
    refine List.Pairwise.imp_of_mem (fun {a b} ha hb h => ?_) hst
    obtain ⟨x, _, rfl⟩ := List.mem_map.1 (hpm.mem_iff.1 ha)
    obtain ⟨y, _, rfl⟩ := List.mem_map.1 (hpm.mem_iff.1 hb)
    exact h
  have hlen : (sd.map Prod.snd).length = k := by rw [hsnd.length_eq, hrl']
  generalize hQ : sd.map Prod.snd = Q at *
  have hQmem : ∀ x, x ∈ Q ↔ s * sigma ≤ x ∧ x < s * sigma + k := fun x => by rw [hsnd.mem_iff, hmem]
  have hcopylen : st.rowLengthCopy.length = R := by rw [h8]; simp [h1]; omega
  refine ⟨P ++ Q, ⟨st.chunkRowToReal.take (s * sigma) ++ Q ++ st.chunkRowToReal.drop (s * sigma + Q.length), st.realRowToSorted ++ Q.zipIdx (s * sigma),
    st.rowLengthCopy.take (s * sigma) ++ Q.map f ++ st.rowLengthCopy.drop (s * sigma + (Q.map f).length)⟩, ?_, ?_⟩
  · unfold scopeStep
    simp only [hkk, hrows]
    rw [hread, Option.bind_some, zipIdx_shift, hsd, hQ, writeFrom_ok _ _ _ (by omega), Option.bind_some, hfst, writeFrom_ok _ _ _ (by rw [List.length_map]; omega)]
    rfl
  · have hlenPQ : (P ++ Q).length = s * sigma + k := by rw [List.length_append, h1, hlen]
    rw [← hk]
    refine ⟨hlenPQ, by omega, ⟨?_, ?_, ?_⟩, ⟨?_, ?_⟩, ?_, ?_, ?_⟩
    · rw [hlenPQ, List.range_add]
      refine List.Perm.append ?_ ?_
      · have := h3.perm; rwa [h1] at this
      · rw [hrows]; exact hsnd
    · intro i x hi
      rw [List.getElem?_append] at hi
      split at hi
      · exact h3.scope i x hi
      · rename_i hge
        have hx := (hQmem x).1 (List.mem_of_getElem? hi)
        have hi' := (List.getElem?_eq_some_iff.1 hi).1
        rw [Nat.div_eq_of_lt_le (m := x) (k := s) (by omega) (by rw [Nat.succ_mul]; omega), Nat.div_eq_of_lt_le (m := i) (k := s) (by omega) (by rw [Nat.succ_mul]; omega)]
    · intro i j x y hij hi hj hsc
      rw [List.getElem?_append] at hi hj
      by_cases c1 : j < P.length
      · rw [if_pos c1] at hj
        rw [if_pos (by omega)] at hi
        exact h3.desc i j x y hij hi hj hsc
      · rw [if_neg c1] at hj
        have hj' := (List.getElem?_eq_some_iff.1 hj).1
        have hjs : j / sigma = s := Nat.div_eq_of_lt_le (by omega) (by rw [Nat.succ_mul]; omega)
        have c2 : ¬ i < P.length := by
          intro c2
          have : i / sigma < s := by rw [Nat.div_lt_iff_lt_mul hs]; omega
          omega
        rw [if_neg c2] at hi
        obtain ⟨hi', hie⟩ := List.getElem?_eq_some_iff.1 hi
        obtain ⟨hj'', hje⟩ := List.getElem?_eq_some_iff.1 hj
        have := List.pairwise_iff_getElem.1 hdesc (i - P.length) (j - P.length) hi' hj'' (by omega)
        rw [hie, hje] at this
        omega
    · simp only [List.length_append, List.length_take, List.length_drop, hlen, h4]; omega
    · simp only
      rw [h5, List.take_append_of_le_length (by omega), ← hlenPQ, List.take_length]
    · intro i hi1 hi2
      obtain ⟨x, hx, hxR⟩ := h6 i (by omega) hi2
      refine ⟨x, ?_, hxR⟩
      simp only
      rw [h5, List.getElem?_append_right (by omega), List.getElem?_drop, hlenPQ, hlen]
      rw [← hx]; congr 1; omega
    · simp only
      rw [h7, List.zipIdx_append, h1, List.append_assoc, Nat.zero_add]
    · simp only
      rw [h8, List.take_append_of_le_length (by simp; omega), List.length_map, hlen, List.drop_append, List.map_append, List.take_of_length_le (by simp; omega),
        List.drop_of_length_le (by simp; omega), List.nil_append, List.length_map, h1, List.drop_replicate]
      congr 2; omega

theorem scopeLoop_ok {sigma R : Nat} {f : Nat → Nat} {old : List (Nat × Nat)} {rl : List Nat} (hs : 0 < sigma) (hrl : ∀ i, i < R → rl[i]? = some (f i)) :
    ∀ (k s : Nat) (P : List Nat) (st : Scopes), (k + s - 1) * sigma < R → ScopeInv sigma R f old (min R (s * sigma)) P st →
    ∃ P' st', scopeLoop sigma R rl k s st = some st' ∧ ScopeInv sigma R f old (min R ((k + s) * sigma)) P' st' := by
  intro k
  induction k with
  | zero => intro s P st _ inv; exact ⟨P, st, rfl, by rwa [Nat.zero_add]⟩
  | succ k ih =>
    intro s P st hk inv
    have hlt : s * sigma < R := lt_of_le_of_lt (Nat.mul_le_mul_right sigma (by omega)) hk
    rw [Nat.min_eq_right hlt.le] at inv
    obtain ⟨P1, st1, e1, inv1⟩ := scopeStep_ok hs hlt hrl inv
    obtain ⟨P2, st2, e2, inv2⟩ := ih (s + 1) P1 st1 (by rwa [show k + (s + 1) - 1 = k + 1 + s - 1 by omega]) inv1
    refine ⟨P2, st2, ?_, by rwa [show k + 1 + s = k + (s + 1) by omega]⟩
    unfold scopeLoop
    rw [e1, Option.bind_some, e2]

/-! ## lookup -/

theorem lowerBound_ok (L : List (Nat × Nat)) (x y : Nat) (hs : L.Pairwise firstLe) (hm : (x, y) ∈ L) (hu : ∀ y', (x, y') ∈ L → y' = y) : lowerBound L (x : Int) = some (x, y) := by
  unfold lowerBound
  induction L with
  | nil => simp at hm
  | cons a L ih =>
    rw [List.pairwise_cons] at hs
    rw [List.dropWhile_cons]
    split
    · rename_i h
      rw [decide_eq_true_eq] at h
      refine ih hs.2 ?_ fun y' hy => hu y' (List.mem_cons_of_mem _ hy)
      rw [List.mem_cons] at hm
      rcases hm with hm | hm
      · subst hm; simp at h
      · exact hm
    · rename_i h
      rw [decide_eq_true_eq] at h
      have hax : a.1 = x := by
        rw [List.mem_cons] at hm
        rcases hm with hm | hm
        · rw [← hm]
        · have := hs.1 _ hm
          unfold firstLe at this
          simp only at this
          omega
      have := hu a.2 (by rw [← hax]; exact List.mem_cons_self ..)
      rw [List.head?_cons, ← hax, ← this]

/-! ## chunks -/

/-- offset of a chunk -/
def off (G : Nat → Nat) (C : Nat) : Nat → Nat
  | 0 => 0
  | k + 1 => off G C k + G k * C

theorem off_mono (G : Nat → Nat) (C : Nat) {a b : Nat} (h : a ≤ b) : off G C a ≤ off G C b := by
  induction h with
  | refl => exact Nat.le_refl _
  | step _ ih => exact le_trans ih (Nat.le_add_right _ _)

theorem max_ok (l : List Nat) (h : l ≠ []) : ∃ m, l.max? = some m ∧ m ∈ l ∧ ∀ x ∈ l, x ≤ m := by
  cases hm : l.max? with
  | none => rw [List.max?_eq_none_iff] at hm; exact absurd hm h
  | some m => exact ⟨m, rfl, List.max?_eq_some_iff.1 hm⟩

theorem chunkLoop_ok {C R K : Nat} {f : Nat → Nat} {rl c2r : List Nat} {G : Nat → Nat} (hrl : ∀ i, i < R → rl[i]? = some (f i)) {P : Nat → Nat} (hP : ∀ i, i < K * C → c2r[i]? = some (P i) ∧ P i < R)
    (hG : ∀ k, k < K → ((List.range C).map fun i => f (P (k * C + i))).max? = some (G k)) :
    ∀ (m k : Nat) (cl co : List Nat), m + k = K → cl.length = K → (∀ j, j < k → cl[j]? = some (G j)) → co.length = K + 1 → (∀ j, j < k ∨ j = 0 → co[j]? = some (off G C j)) →
    ∃ cl' co', chunkLoop C rl c2r m k (cl, co, off G C k) = some (cl', co', off G C K) ∧ cl'.length = K ∧ (∀ j, j < K → cl'[j]? = some (G j)) ∧ co'.length = K + 1 ∧
      (∀ j, j < K ∨ j = 0 → co'[j]? = some (off G C j)) := by
  intro m
  induction m with
  | zero =>
    intro k cl co hk h1 h2 h3 h4
    obtain rfl : k = K := by omega
    exact ⟨cl, co, rfl, h1, h2, h3, h4⟩
  | succ m ih =>
    intro k cl co hk h1 h2 h3 h4
    have hkC : ∀ i ∈ (List.range C).map fun i => k * C + i, i < K * C := by
      intro i hi
      obtain ⟨j, hj, rfl⟩ := List.mem_map.1 hi
      rw [List.mem_range] at hj
      have : (k + 1) * C ≤ K * C := Nat.mul_le_mul_right _ (by omega)
      rw [Nat.succ_mul] at this
      omega
    have e1 : readAll c2r ((List.range C).map fun i => k * C + i) = some (((List.range C).map fun i => k * C + i).map P) := readAll_ok _ _ _ fun i hi => (hP i (hkC i hi)).1
    have e2 : readAll rl (((List.range C).map fun i => k * C + i).map P) = some ((((List.range C).map fun i => k * C + i).map P).map f) := readAll_ok _ _ _ fun i hi => by
      obtain ⟨j, hj, rfl⟩ := List.mem_map.1 hi
      exact hrl _ (hP j (hkC j hj)).2
    have e3 : ((((List.range C).map fun i => k * C + i).map P).map f).max? = some (G k) := by
      rw [← hG k (by omega), List.map_map, List.map_map]; rfl
    have hset : ∀ j, j < k + 1 → (cl.set k (G k))[j]? = some (G j) := by
      intro j hj
      rw [List.getElem?_set]
      by_cases e : k = j
      · rw [if_pos e, if_pos (by omega), e]
      · rw [if_neg e]; exact h2 j (by omega)
    have hco : ∃ co', (if 0 < k then (co[k - 1]?).bind fun o => ((cl.set k (G k))[k - 1]?).bind fun l => writeAt co k (o + l * C) else some co) = some co' ∧ co'.length = K + 1 ∧
        ∀ j, j < k + 1 ∨ j = 0 → co'[j]? = some (off G C j) := by
      by_cases hk0 : 0 < k
      · refine ⟨co.set k (off G C k), ?_, by simpa using h3, fun j hj => ?_⟩
        · rw [if_pos hk0, h4 (k - 1) (by omega), Option.bind_some, hset (k - 1) (by omega), Option.bind_some, writeAt_ok _ _ _ (by omega)]
          congr 2
          obtain ⟨q, rfl⟩ : ∃ q, k = q + 1 := ⟨k - 1, by omega⟩
          rfl
        · rw [List.getElem?_set]
          by_cases e : k = j
          · rw [if_pos e, if_pos (by omega), e]
          · rw [if_neg e]; exact h4 j (by omega)
      · exact ⟨co, by rw [if_neg hk0], h3, fun j hj => h4 j (by omega)⟩
    obtain ⟨co', e4, h5, h6⟩ := hco
    obtain ⟨cl2, co2, e5, r⟩ := ih (k + 1) (cl.set k (G k)) co' (by omega) (by simpa using h1) hset h5 h6
    refine ⟨cl2, co2, ?_, r⟩
    unfold chunkLoop
    rw [e1, Option.bind_some, e2, Option.bind_some, e3, Option.bind_some, writeAt_ok _ _ _ (by omega), Option.bind_some, e4, Option.bind_some]
    exact e5

/-! ## values -/

/-- position of the `j`-th entry of the physical row `y` -/
def slot (o : Nat → Nat) (C y j : Nat) : Nat := o (y / C) + j * C + y % C

theorem slot_lt (G : Nat → Nat) {C : Nat} (hC : 0 < C) {y j : Nat} (hj : j < G (y / C)) : off G C (y / C) ≤ slot (off G C) C y j ∧ slot (off G C) C y j < off G C (y / C + 1) := by
  have h1 : (j + 1) * C ≤ G (y / C) * C := Nat.mul_le_mul_right _ hj
  rw [Nat.succ_mul] at h1
  have h2 := Nat.mod_lt y hC
  simp only [slot, off]
  omega

theorem slot_inj (G : Nat → Nat) {C : Nat} (hC : 0 < C) {y j y' j' : Nat} (hj : j < G (y / C)) (hj' : j' < G (y' / C)) (h : slot (off G C) C y j = slot (off G C) C y' j') : y = y' ∧ j = j' := by
  have h1 := slot_lt G hC hj
  have h2 := slot_lt G hC hj'
  have hk : y / C = y' / C := by
    rcases Nat.lt_trichotomy (y / C) (y' / C) with c | c | c
    · have := off_mono G C (show y / C + 1 ≤ y' / C from c); omega
    · exact c
    · have := off_mono G C (show y' / C + 1 ≤ y / C from c); omega
  have h3 := Nat.mod_lt y hC
  have h4 := Nat.mod_lt y' hC
  simp only [slot, hk] at h
  have h5 : j * C + y % C = j' * C + y' % C := by omega
  have h6 : j = j' := by
    have e1 : (j * C + y % C) / C = j := by rw [Nat.add_comm, Nat.add_mul_div_right _ _ hC, Nat.div_eq_of_lt h3, Nat.zero_add]
    have e2 : (j' * C + y' % C) / C = j' := by rw [Nat.add_comm, Nat.add_mul_div_right _ _ hC, Nat.div_eq_of_lt h4, Nat.zero_add]
    rw [← e1, h5, e2]
  subst h6
  refine ⟨?_, rfl⟩
  rw [← Nat.div_add_mod y C, ← Nat.div_add_mod y' C, hk, show y % C = y' % C by omega]

/-- the entries in `pre` are stored, all other positions are zero -/
structure Filled (sl : Int → Nat → Nat) (zero : V) (nv : Nat) (pre : List (Entry V)) (vs : List V) (cs : List Int) : Prop where
  vlen : vs.length = nv
  clen : cs.length = nv
  entry : ∀ (x : Int) (j : Nat) (e : Entry V), (rowOf pre x)[j]? = some e → vs[sl x j]? = some e.2 ∧ cs[sl x j]? = some e.1.2
  pad : ∀ i, i < nv → (∀ (x : Int) (j : Nat), j < (rowOf pre x).length → sl x j ≠ i) → vs[i]? = some zero ∧ cs[i]? = some 0

theorem rowOf_append (a b : List (Entry V)) (x : Int) : rowOf (a ++ b) x = rowOf a x ++ rowOf b x := by unfold rowOf; rw [List.filter_append]

theorem valueLoop_ok {C nv : Nat} {r2s : List (Nat × Nat)} {co : List Nat} {zero : V} {m : List (Entry V)} (ph : Int → Nat) (o : Nat → Nat)
    (hlb : ∀ e ∈ m, ∃ q, lowerBound r2s e.1.1 = some (q, ph e.1.1)) (hco : ∀ e ∈ m, co[ph e.1.1 / C]? = some (o (ph e.1.1 / C)))
    (hlt : ∀ x j, j < (rowOf m x).length → slot o C (ph x) j < nv)
    (hinj : ∀ x j x' j', j < (rowOf m x).length → j' < (rowOf m x').length → slot o C (ph x) j = slot o C (ph x') j' → x = x' ∧ j = j') :
    ∀ (rest pre : List (Entry V)) (cur : Int) (index : Nat) (vs : List V) (cs : List Int), pre ++ rest = m → rest.Pairwise (fun a b => a.1.1 ≤ b.1.1) →
      (∀ e ∈ pre, e.1.1 ≤ cur) → (∀ e ∈ rest, cur ≤ e.1.1) → index = (rowOf pre cur).length → Filled (fun x j => slot o C (ph x) j) zero nv pre vs cs →
      ∃ vs' cs', valueLoop C r2s co rest cur index vs cs = some (false, vs', cs') ∧ Filled (fun x j => slot o C (ph x) j) zero nv m vs' cs' := by
  intro rest
  induction rest with
  | nil =>
    intro pre cur index vs cs hm _ _ _ _ hf
    rw [List.append_nil] at hm
    subst hm
    exact ⟨vs, cs, rfl, hf⟩
  | cons e rest ih =>
    intro pre cur index vs cs hm hs hpre hrest hidx hf
    rw [List.pairwise_cons] at hs
    have hem : e ∈ m := by rw [← hm]; simp
    have hcur := hrest e (List.mem_cons_self ..)
    have hidx' : (if e.1.1 ≠ cur then 0 else index) = (rowOf pre e.1.1).length := by
      by_cases h : e.1.1 = cur
      · rw [if_neg (by simpa using h), hidx, h]
      · rw [if_pos h]
        unfold rowOf
        symm
        rw [List.length_eq_zero_iff, List.filter_eq_nil_iff]
        intro a ha
        have := hpre a ha
        rw [decide_eq_true_eq]
        omega
    obtain ⟨q, hq⟩ := hlb e hem
    have hrow : (rowOf pre e.1.1).length < (rowOf m e.1.1).length := by
      rw [← hm, rowOf_append, List.length_append]
      unfold rowOf
      rw [List.filter_cons_of_pos (by simp), List.length_cons]
      omega
    have hsl := hlt _ _ hrow
    have e1 : rowOf (pre ++ [e]) e.1.1 = rowOf pre e.1.1 ++ [e] := by rw [rowOf_append]; simp [rowOf]
    have e2 : ∀ x, x ≠ e.1.1 → rowOf (pre ++ [e]) x = rowOf pre x := by
      intro x hx
      rw [rowOf_append]
      have : rowOf [e] x = [] := by unfold rowOf; rw [List.filter_cons_of_neg (by simpa using Ne.symm hx), List.filter_nil]
      rw [this, List.append_nil]
    have hle : ∀ x, (rowOf pre x).length ≤ (rowOf m x).length := by
      intro x
      rw [← hm, rowOf_append, List.length_append]
      omega
    have hf' : Filled (fun x j => slot o C (ph x) j) zero nv (pre ++ [e]) (vs.set (slot o C (ph e.1.1) (rowOf pre e.1.1).length) e.2)
        (cs.set (slot o C (ph e.1.1) (rowOf pre e.1.1).length) e.1.2) := by
      refine ⟨by simpa using hf.vlen, by simpa using hf.clen, fun x j a ha => ?_, fun i hi hn => ?_⟩
      · rw [List.getElem?_set, List.getElem?_set]
        by_cases hx : x = e.1.1
        · subst hx
          rw [e1, List.getElem?_append] at ha
          split at ha
          · rename_i hj
            have hne : slot o C (ph e.1.1) (rowOf pre e.1.1).length ≠ slot o C (ph e.1.1) j := fun h => by
              have := (hinj _ _ _ _ hrow (lt_trans hj hrow) h).2
              omega
            rw [if_neg hne, if_neg hne]
            exact hf.entry _ _ _ ha
          · rename_i hj
            obtain ⟨h1, h2⟩ := List.getElem?_eq_some_iff.1 ha
            simp only [List.length_singleton] at h1
            have hj' : j = (rowOf pre e.1.1).length := by omega
            rw [List.getElem_singleton] at h2
            rw [hj', if_pos rfl, if_pos rfl, if_pos (by rw [hf.vlen]; exact hsl), if_pos (by rw [hf.clen]; exact hsl), h2]
            exact ⟨rfl, rfl⟩
        · rw [e2 x hx] at ha
          have hj := (List.getElem?_eq_some_iff.1 ha).1
          have hne : slot o C (ph e.1.1) (rowOf pre e.1.1).length ≠ slot o C (ph x) j := fun h =>
            hx (hinj _ _ _ _ hrow (lt_of_lt_of_le hj (hle x)) h).1.symm
          rw [if_neg hne, if_neg hne]
          exact hf.entry _ _ _ ha
      · have hne : slot o C (ph e.1.1) (rowOf pre e.1.1).length ≠ i := hn e.1.1 _ (by rw [e1]; simp)
        rw [List.getElem?_set, List.getElem?_set, if_neg hne, if_neg hne]
        refine hf.pad i hi fun x j hj => hn x j ?_
        by_cases hx : x = e.1.1
        · subst hx; rw [e1, List.length_append]; omega
        · rw [e2 x hx]; exact hj
    obtain ⟨vs', cs', h1, h2⟩ := ih (pre ++ [e]) e.1.1 ((rowOf pre e.1.1).length + 1) _ _ (by rw [List.append_assoc]; exact hm) hs.2
      (fun a ha => by
        rw [List.mem_append, List.mem_singleton] at ha
        rcases ha with ha | ha
        · exact le_trans (hpre a ha) hcur
        · rw [ha])
      hs.1 (by rw [e1]; simp) hf'
    refine ⟨vs', cs', ?_, h2⟩
    unfold valueLoop
    simp only [hidx', hq]
    rw [hco e hem, Option.bind_some]
    have hvl := hf.vlen
    have hcl := hf.clen
    rw [writeAt_ok _ _ _ (by rw [hvl]; exact hsl), Option.bind_some, writeAt_ok _ _ _ (by rw [hcl]; exact hsl), Option.bind_some]
    exact h1

theorem rowLoop_ok {C : Nat} {c : Sell V} (l : List (Int × V)) : ∀ i, (∀ (j : Nat) (e : Int × V), l[j]? = some e → c.column[i + j * C]? = some e.1 ∧ c.values[i + j * C]? = some e.2) →
    rowLoop C c l.length i = some l := by
  induction l with
  | nil => intro i _; rfl
  | cons a l ih =>
    intro i h
    obtain ⟨h1, h2⟩ := h 0 a rfl
    rw [Nat.zero_mul, Nat.add_zero] at h1 h2
    rw [List.length_cons]
    unfold rowLoop
    rw [h1, Option.bind_some, h2, Option.bind_some, ih (i + C) fun j e he => ?_]
    · rfl
    · have := h (j + 1) e (by simpa using he)
      rwa [Nat.succ_mul, Nat.add_comm (j * C), ← Nat.add_assoc] at this

end LGD.Sell
