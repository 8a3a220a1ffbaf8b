import Verif.Text.TextModel
import Mathlib.Tactic.Linarith

/-!
# `StringOps::tokenize` splits strings at delimiters
-/

namespace LGD.Text

/-- What splitting a string at delimiters means: tokens are maximal nonempty parts without delimiters. -/
inductive Splits (D : Str) : Str → List Str → Prop where
  | nil {s : Str} (h : ∀ c ∈ s, c ∈ D) : Splits D s []
  | cons {sep tok rest : Str} {ts : List Str} (hs : ∀ c ∈ sep, c ∈ D) (h0 : tok ≠ []) (ht : ∀ c ∈ tok, c ∉ D)
      (hr : rest = [] ∨ ∃ d r, rest = d :: r ∧ d ∈ D) (h : Splits D rest ts) : Splits D (sep ++ tok ++ rest) (tok :: ts)

/-! ## Uniqueness -/

/-- reading a string character by character, `cur` is the token so far -/
def words (D : Str) : Str → Str → List Str
  | cur, [] => if cur = [] then [] else [cur]
  | cur, c :: s => if c ∈ D then (if cur = [] then words D [] s else cur :: words D [] s) else words D (cur ++ [c]) s

theorem words_seps (D : Str) (sep s : Str) (h : ∀ c ∈ sep, c ∈ D) : words D [] (sep ++ s) = words D [] s := by
  induction sep with
  | nil => rfl
  | cons c sep ih =>
    rw [List.cons_append, words, if_pos (h c (by simp)), if_pos rfl]
    exact ih (fun x hx => h x (by simp [hx]))

theorem words_tok (D : Str) (tok s : Str) (h : ∀ c ∈ tok, c ∉ D) : ∀ cur, words D cur (tok ++ s) = words D (cur ++ tok) s := by
  induction tok with
  | nil => intro cur; simp
  | cons c tok ih =>
    intro cur
    rw [List.cons_append, words, if_neg (h c (by simp)), ih (fun x hx => h x (by simp [hx]))]
    simp

theorem words_of_splits {D s : Str} {ts : List Str} (h : Splits D s ts) : words D [] s = ts := by
  induction h with
  | @nil s h =>
    have := words_seps D s [] h
    rw [List.append_nil] at this
    rw [this]; rfl
  | @cons sep tok rest ts hs h0 ht hr _ ih =>
    rw [List.append_assoc, words_seps D sep _ hs, words_tok D tok rest ht]
    rw [List.nil_append]
    rcases hr with rfl | ⟨d, r, rfl, hd⟩
    · rw [words] at ih ⊢
      simp only [if_true] at ih
      rw [if_neg h0, ih]
    · rw [words, if_pos hd, if_neg h0]
      rw [words, if_pos hd, if_pos rfl] at ih
      rw [ih]

theorem splits_unique {D s : Str} {ts ts' : List Str} (h : Splits D s ts) (h' : Splits D s ts') : ts = ts' := by
  rw [← words_of_splits h, ← words_of_splits h']

/-! ## Sets -/

def Sorted (l : List Nat) : Prop := l.Pairwise (· < ·)

theorem mem_insSet (x y : Nat) (l : List Nat) : y ∈ insSet x l ↔ y = x ∨ y ∈ l := by
  induction l with
  | nil => simp [insSet]
  | cons a l ih =>
    unfold insSet
    split
    · simp
    · split
      · rename_i h; subst h; simp
      · simp only [List.mem_cons, ih]; tauto

theorem sorted_insSet (x : Nat) (l : List Nat) (h : Sorted l) : Sorted (insSet x l) := by
  induction l with
  | nil => simp [insSet, Sorted]
  | cons a l ih =>
    have h' := List.pairwise_cons.1 h
    unfold insSet
    split
    · rename_i hx
      refine List.pairwise_cons.2 ⟨fun y hy => ?_, h⟩
      rcases List.mem_cons.1 hy with rfl | hy
      · exact hx
      · exact Nat.lt_trans hx (h'.1 y hy)
    · split
      · exact h
      · rename_i h1 h2
        refine List.pairwise_cons.2 ⟨fun y hy => ?_, ih h'.2⟩
        rcases (mem_insSet x y l).1 hy with rfl | hy
        · omega
        · exact h'.1 y hy

theorem sorted_ext : ∀ (l l' : List Nat), Sorted l → Sorted l' → (∀ x, x ∈ l ↔ x ∈ l') → l = l'
  | [], [], _, _, _ => rfl
  | [], b :: l', _, _, h => absurd ((h b).2 (by simp)) (by simp)
  | a :: l, [], _, _, h => absurd ((h a).1 (by simp)) (by simp)
  | a :: l, b :: l', h1, h2, h => by
    have g1 := List.pairwise_cons.1 h1
    have g2 := List.pairwise_cons.1 h2
    have hab : a = b := by
      have ha := (h a).1 (by simp)
      have hb := (h b).2 (by simp)
      rcases List.mem_cons.1 ha with e | ha
      · exact e
      · rcases List.mem_cons.1 hb with e | hb
        · exact e.symm
        · have := g1.1 b hb; have := g2.1 a ha; omega
    subst hab
    rw [sorted_ext l l' g1.2 g2.2 (fun x => ?_)]
    constructor
    · intro hx
      have hlt := g1.1 x hx
      rcases List.mem_cons.1 ((h x).1 (by simp [hx])) with e | hx'
      · omega
      · exact hx'
    · intro hx
      have hlt := g2.1 x hx
      rcases List.mem_cons.1 ((h x).2 (by simp [hx])) with e | hx'
      · omega
      · exact hx'

/-! ## Finding delimiters -/

theorem find_none {s : Str} {c pos : Nat} (h : find s c pos = none) (x : Nat) (hx : pos ≤ x) : s[x]? ≠ some c := by
  unfold find at h
  split at h
  · rename_i hp
    simp only [Option.map_eq_none_iff, List.findIdx?_eq_none_iff] at h
    intro hc
    have hlt : x < s.length := by
      by_contra hge
      rw [List.getElem?_eq_none (by omega)] at hc; cases hc
    have : c ∈ s.drop pos := by
      rw [List.mem_iff_getElem?]
      exact ⟨x - pos, by rw [List.getElem?_drop]; rw [show pos + (x - pos) = x by omega]; exact hc⟩
    have := h c this
    simp at this
  · intro hc
    rw [List.getElem?_eq_none (by omega)] at hc
    cases hc

theorem find_some {s : Str} {c pos p : Nat} (h : find s c pos = some p) :
    pos ≤ p ∧ p < s.length ∧ s[p]? = some c ∧ ∀ x, pos ≤ x → x < p → s[x]? ≠ some c := by
  unfold find at h
  split at h
  · obtain ⟨k, hk, rfl⟩ := Option.map_eq_some_iff.1 h
    rw [List.findIdx?_eq_some_iff_getElem] at hk
    obtain ⟨h1, h2, h3⟩ := hk
    rw [List.length_drop] at h1
    refine ⟨by omega, by omega, ?_, fun x hx1 hx2 hc => ?_⟩
    · simp only [List.getElem_drop, beq_iff_eq] at h2
      rw [List.getElem?_eq_getElem (by omega), ← h2]
      congr 2; omega
    · have := h3 (x - pos) (by omega)
      simp only [List.getElem_drop, beq_iff_eq] at this
      apply this
      rw [List.getElem?_eq_getElem (by omega)] at hc
      simp only [Option.some.injEq] at hc
      rw [← hc]; congr 1; omega
  · cases h

theorem scan_spec (s : Str) (c : Nat) : ∀ (fuel pos : Nat) (st : List Nat × List Nat), s.length < pos + fuel → Sorted st.1 → Sorted st.2 →
    Sorted (scan s c fuel pos st).1 ∧ Sorted (scan s c fuel pos st).2 ∧
      (∀ x, x ∈ (scan s c fuel pos st).1 ↔ x ∈ st.1 ∨ (pos ≤ x ∧ s[x]? = some c)) ∧
      (∀ x, x ∈ (scan s c fuel pos st).2 ↔ x ∈ st.2 ∨ ∃ y, x = y + 1 ∧ pos ≤ y ∧ s[y]? = some c) := by
  intro fuel
  induction fuel with
  | zero =>
    intro pos st hf h1 h2
    have key : ∀ x, pos ≤ x → s[x]? ≠ some c := fun x hx hc => by
      rw [List.getElem?_eq_none (by omega)] at hc; cases hc
    refine ⟨h1, h2, fun x => ⟨Or.inl, ?_⟩, fun x => ⟨Or.inl, ?_⟩⟩
    · rintro (h | ⟨hx, hc⟩)
      · exact h
      · exact absurd hc (key x hx)
    · rintro (h | ⟨y, _, hy, hc⟩)
      · exact h
      · exact absurd hc (key y hy)
  | succ fuel ih =>
    intro pos st hf h1 h2
    rw [scan]
    cases hp : find s c pos with
    | none =>
      have key := fun x hx => find_none hp x hx
      refine ⟨h1, h2, fun x => ⟨Or.inl, ?_⟩, fun x => ⟨Or.inl, ?_⟩⟩
      · rintro (h | ⟨hx, hc⟩)
        · exact h
        · exact absurd hc (key x hx)
      · rintro (h | ⟨y, _, hy, hc⟩)
        · exact h
        · exact absurd hc (key y hy)
    | some p =>
      obtain ⟨q1, q2, q3, q4⟩ := find_some hp
      simp only [if_pos q2]
      obtain ⟨r1, r2, r3, r4⟩ := ih (p + 1) (insSet p st.1, insSet (p + 1) st.2) (by omega) (sorted_insSet _ _ h1) (sorted_insSet _ _ h2)
      refine ⟨r1, r2, fun x => ?_, fun x => ?_⟩
      · rw [r3 x, mem_insSet]
        constructor
        · rintro ((rfl | h) | ⟨h, h'⟩)
          · exact Or.inr ⟨q1, q3⟩
          · exact Or.inl h
          · exact Or.inr ⟨by omega, h'⟩
        · rintro (h | ⟨h, h'⟩)
          · exact Or.inl (Or.inr h)
          · rcases Nat.lt_trichotomy x p with hl | rfl | hg
            · exact absurd h' (q4 x h hl)
            · exact Or.inl (Or.inl rfl)
            · exact Or.inr ⟨by omega, h'⟩
      · rw [r4 x, mem_insSet]
        constructor
        · rintro ((rfl | h) | ⟨y, rfl, h, h'⟩)
          · exact Or.inr ⟨p, rfl, q1, q3⟩
          · exact Or.inl h
          · exact Or.inr ⟨y, rfl, by omega, h'⟩
        · rintro (h | ⟨y, rfl, h, h'⟩)
          · exact Or.inl (Or.inr h)
          · rcases Nat.lt_trichotomy y p with hl | rfl | hg
            · exact absurd h' (q4 y h hl)
            · exact Or.inl (Or.inl rfl)
            · exact Or.inr ⟨y, rfl, by omega, h'⟩

theorem scans_spec (s : Str) : ∀ (D : Str) (st : List Nat × List Nat), Sorted st.1 → Sorted st.2 →
    let r := D.foldl (fun st c => scan s c (s.length + 1) 0 st) st
    Sorted r.1 ∧ Sorted r.2 ∧ (∀ x, x ∈ r.1 ↔ x ∈ st.1 ∨ ∃ c ∈ D, s[x]? = some c) ∧
      (∀ x, x ∈ r.2 ↔ x ∈ st.2 ∨ ∃ y, x = y + 1 ∧ ∃ c ∈ D, s[y]? = some c) := by
  intro D
  induction D with
  | nil => intro st h1 h2; exact ⟨h1, h2, by simp, by simp⟩
  | cons d D ih =>
    intro st h1 h2
    obtain ⟨q1, q2, q3, q4⟩ := scan_spec s d (s.length + 1) 0 st (by omega) h1 h2
    obtain ⟨r1, r2, r3, r4⟩ := ih _ q1 q2
    refine ⟨r1, r2, fun x => ?_, fun x => ?_⟩
    · simp only [List.foldl_cons, r3 x, q3 x, List.mem_cons, Nat.zero_le, true_and]
      constructor
      · rintro ((h | h) | ⟨c, h, h'⟩)
        · exact Or.inl h
        · exact Or.inr ⟨d, Or.inl rfl, h⟩
        · exact Or.inr ⟨c, Or.inr h, h'⟩
      · rintro (h | ⟨c, rfl | h, h'⟩)
        · exact Or.inl (Or.inl h)
        · exact Or.inl (Or.inr h')
        · exact Or.inr ⟨c, h, h'⟩
    · simp only [List.foldl_cons, r4 x, q4 x, List.mem_cons, Nat.zero_le, true_and]
      constructor
      · rintro ((h | ⟨y, e, h⟩) | ⟨y, e, c, h, h'⟩)
        · exact Or.inl h
        · exact Or.inr ⟨y, e, d, Or.inl rfl, h⟩
        · exact Or.inr ⟨y, e, c, Or.inr h, h'⟩
      · rintro (h | ⟨y, e, c, rfl | h, h'⟩)
        · exact Or.inl (Or.inl h)
        · exact Or.inl (Or.inr ⟨y, e, h'⟩)
        · exact Or.inr ⟨y, e, c, h, h'⟩

/-! ## Assembling tokens -/

theorem splits_prepend {D s : Str} {ts : List Str} {d : Nat} (hd : d ∈ D) (h : Splits D s ts) : Splits D (d :: s) ts := by
  cases h with
  | nil h =>
    refine Splits.nil (fun c hc => ?_)
    rcases List.mem_cons.1 hc with rfl | hc
    · exact hd
    · exact h c hc
  | @cons sep tok rest ts hs h0 ht hr h =>
    refine Splits.cons (sep := d :: sep) (fun c hc => ?_) h0 ht hr h
    rcases List.mem_cons.1 hc with rfl | hc
    · exact hd
    · exact hs c hc

theorem splits_seps {D s : Str} {ts : List Str} (sep : Str) (hd : ∀ c ∈ sep, c ∈ D) (h : Splits D s ts) : Splits D (sep ++ s) ts := by
  induction sep with
  | nil => exact h
  | cons c sep ih => exact splits_prepend (hd c (by simp)) (ih (fun x hx => hd x (by simp [hx])))

theorem pairUp_spec (D s : Str) : ∀ (P : List Nat) (a : Nat), a ≤ s.length → Sorted P →
    (∀ x, x ∈ P ↔ a ≤ x ∧ ∃ c ∈ D, s[x]? = some c) →
    ∃ ts, pairUp s (a :: P.map (fun p => p + 1)) (P ++ [s.length]) = some ts ∧ Splits D (s.drop a) ts := by
  intro P
  induction P with
  | nil =>
    intro a ha _ hP
    have hfree : ∀ c ∈ s.drop a, c ∉ D := by
      intro c hc hD
      obtain ⟨i, hi⟩ := List.mem_iff_getElem?.1 hc
      rw [List.getElem?_drop] at hi
      have := (hP (a + i)).2 ⟨by omega, c, hD, hi⟩
      cases this
    by_cases e : a = s.length
    · refine ⟨[], ?_, ?_⟩
      · simp [pairUp, e]
      · rw [e, List.drop_length]; exact Splits.nil (by simp)
    · refine ⟨[s.drop a], ?_, ?_⟩
      · simp only [List.map_nil, List.nil_append, pairUp, ne_eq, e, not_false_eq_true, if_true, substr, ha]
        rw [List.take_of_length_le (by rw [List.length_drop])]
        rfl
      · have hne : s.drop a ≠ [] := by
          intro h
          have := congrArg List.length h
          rw [List.length_drop] at this
          simp at this; omega
        have := Splits.cons (D := D) (sep := []) (rest := []) (by simp) hne hfree (Or.inl rfl) (Splits.nil (by simp))
        simpa using this
  | cons p P ih =>
    intro a ha hs hP
    have hs' := List.pairwise_cons.1 hs
    obtain ⟨hap, d, hd, hpd⟩ := (hP p).1 (by simp)
    have hpl : p < s.length := by
      by_contra hge
      rw [List.getElem?_eq_none (by omega)] at hpd; cases hpd
    obtain ⟨ts, h1, h2⟩ := ih (p + 1) hpl hs'.2 (fun x => by
      constructor
      · intro hx
        have := hs'.1 x hx
        exact ⟨by omega, ((hP x).1 (by simp [hx])).2⟩
      · rintro ⟨hx, hc⟩
        rcases List.mem_cons.1 ((hP x).2 ⟨by omega, hc⟩) with e | h
        · omega
        · exact h)
    have hdrop : s.drop p = d :: s.drop (p + 1) := by
      rw [List.drop_eq_getElem_cons hpl]
      rw [List.getElem?_eq_getElem hpl] at hpd
      simp only [Option.some.injEq] at hpd
      rw [hpd]
    have h3 : Splits D (s.drop p) ts := by rw [hdrop]; exact splits_prepend hd h2
    by_cases e : a = p
    · refine ⟨ts, ?_, by rw [e]; exact h3⟩
      simp only [List.map_cons, List.cons_append, pairUp, ne_eq, e, not_true_eq_false, if_false]
      exact h1
    · refine ⟨(s.drop a).take (p - a) :: ts, ?_, ?_⟩
      · simp only [List.map_cons, List.cons_append, pairUp, ne_eq, e, not_false_eq_true, if_true, substr, ha, hap]
        rw [h1]; rfl
      · have hsplit : s.drop a = [] ++ (s.drop a).take (p - a) ++ s.drop p := by
          rw [List.nil_append]
          conv_lhs => rw [← List.take_append_drop (p - a) (s.drop a)]
          rw [List.drop_drop, show a + (p - a) = p by omega]
        have hc := Splits.cons (D := D) (sep := []) (tok := (s.drop a).take (p - a)) (by simp) (by
            intro h
            have := congrArg List.length h
            rw [List.length_take, List.length_drop] at this
            simp only [List.length_nil] at this; omega) (by
            intro c hc hD
            obtain ⟨i, hi⟩ := List.mem_iff_getElem?.1 hc
            rw [List.getElem?_take] at hi
            split at hi
            · rw [List.getElem?_drop] at hi
              have := (hP (a + i)).2 ⟨by omega, c, hD, hi⟩
              rcases List.mem_cons.1 this with h | h
              · omega
              · have := hs'.1 _ h; omega
            · cases hi) (Or.inr ⟨d, _, hdrop, hd⟩) h3
        rw [← hsplit] at hc
        exact hc

theorem tokenize_splits (s D : Str) : ∃ ts, tokenize s D = some ts ∧ Splits D s ts := by
  obtain ⟨r1, r2, r3, r4⟩ := scans_spec s D (insSet s.length [], insSet 0 []) (by simp [insSet, Sorted]) (by simp [insSet, Sorted])
  let P := (List.range s.length).filter (fun i => decide (∃ c ∈ D, s[i]? = some c))
  have hPs : Sorted P := (List.pairwise_lt_range (n := s.length)).filter _
  have hP : ∀ x, x ∈ P ↔ ∃ c ∈ D, s[x]? = some c := by
    intro x
    simp only [P, List.mem_filter, List.mem_range, decide_eq_true_eq]
    constructor
    · exact fun h => h.2
    · rintro ⟨c, h1, h2⟩
      refine ⟨?_, c, h1, h2⟩
      by_contra hge
      rw [List.getElem?_eq_none (by omega)] at h2; cases h2
  have hlt : ∀ x ∈ P, x < s.length := fun x hx => by
    simp only [P, List.mem_filter, List.mem_range] at hx; exact hx.1
  have e1 : (D.foldl (fun st c => scan s c (s.length + 1) 0 st) (insSet s.length [], insSet 0 [])).1 = P ++ [s.length] := by
    apply sorted_ext _ _ r1
    · refine List.pairwise_append.2 ⟨hPs, by simp, fun a ha b hb => ?_⟩
      simp only [List.mem_singleton] at hb
      rw [hb]; exact hlt a ha
    · intro x
      rw [r3 x]
      simp only [insSet, List.mem_append, hP x, List.mem_singleton]
      exact or_comm
  have e2 : (D.foldl (fun st c => scan s c (s.length + 1) 0 st) (insSet s.length [], insSet 0 [])).2 = 0 :: P.map (fun p => p + 1) := by
    apply sorted_ext _ _ r2
    · refine List.pairwise_cons.2 ⟨fun x hx => ?_, ?_⟩
      · obtain ⟨y, _, rfl⟩ := List.mem_map.1 hx; omega
      · exact List.pairwise_map.2 (hPs.imp (fun h => by omega))
    · intro x
      rw [r4 x]
      simp only [insSet, List.mem_cons, List.mem_map, hP, List.not_mem_nil, or_false]
      constructor
      · rintro (h | ⟨y, e, h⟩)
        · exact Or.inl h
        · exact Or.inr ⟨y, h, e.symm⟩
      · rintro (h | ⟨y, h, e⟩)
        · exact Or.inl h
        · exact Or.inr ⟨y, e.symm, h⟩
  obtain ⟨ts, h1, h2⟩ := pairUp_spec D s P 0 (Nat.zero_le _) hPs (fun x => by simp [hP x])
  refine ⟨ts, ?_, by simpa using h2⟩
  unfold tokenize
  simp only
  rw [e1, e2]
  exact h1

theorem tokenize_of_splits {s D : Str} {ts : List Str} (h : Splits D s ts) : tokenize s D = some ts := by
  obtain ⟨ts', h1, h2⟩ := tokenize_splits s D
  rw [h1, splits_unique h2 h]

/-! ## Joining -/

/-- a token: not empty, no delimiters -/
def Word (D t : Str) : Prop := t ≠ [] ∧ ∀ c ∈ t, c ∉ D

theorem foldl_join (d : Str) : ∀ (ts : List Str) (b : Str), ts.foldl (fun buf t => buf ++ d ++ t) b = b ++ ts.flatMap (fun t => d ++ t) := by
  intro ts
  induction ts with
  | nil => intro b; simp
  | cons t ts ih => intro b; rw [List.foldl_cons, ih]; simp

theorem splits_flatMap {D d : Str} (h0 : d ≠ []) (hd : ∀ c ∈ d, c ∈ D) : ∀ (ts : List Str), (∀ t ∈ ts, Word D t) →
    Splits D (ts.flatMap (fun t => d ++ t)) ts := by
  intro ts
  induction ts with
  | nil => intro _; exact Splits.nil (by simp)
  | cons t ts ih =>
    intro h
    rw [List.flatMap_cons]
    refine Splits.cons hd (h t (by simp)).1 (h t (by simp)).2 ?_ (ih (fun x hx => h x (by simp [hx])))
    cases ts with
    | nil => exact Or.inl rfl
    | cons u us =>
      cases d with
      | nil => exact absurd rfl h0
      | cons c d => exact Or.inr ⟨c, _, rfl, hd c (by simp)⟩

theorem join_splits {D d : Str} (h0 : d ≠ []) (hd : ∀ c ∈ d, c ∈ D) (ts : List Str) (h : ∀ t ∈ ts, Word D t) : Splits D (join ts d) ts := by
  cases ts with
  | nil => exact Splits.nil (by simp [join])
  | cons t ts =>
    simp only [join]
    rw [foldl_join]
    have := Splits.cons (D := D) (sep := []) (tok := t) (rest := ts.flatMap (fun t => d ++ t)) (by simp) (h t (by simp)).1 (h t (by simp)).2 (by
      cases ts with
      | nil => exact Or.inl rfl
      | cons u us =>
        cases d with
        | nil => exact absurd rfl h0
        | cons c d => exact Or.inr ⟨c, _, rfl, hd c (by simp)⟩) (splits_flatMap h0 hd ts (fun x hx => h x (by simp [hx])))
    simpa using this

/-- tokens followed by delimiters -/
theorem splits_after {D d : Str} (h0 : d ≠ []) (hd : ∀ c ∈ d, c ∈ D) {rest : Str} {us : List Str} (hr : Splits D rest us) : ∀ (ts : List Str), (∀ t ∈ ts, Word D t) →
    Splits D (ts.flatMap (fun t => t ++ d) ++ rest) (ts ++ us) := by
  intro ts
  induction ts with
  | nil => intro _; simpa using hr
  | cons t ts ih =>
    intro h
    have h1 := splits_seps d hd (ih (fun x hx => h x (by simp [hx])))
    have := Splits.cons (D := D) (sep := []) (tok := t) (by simp) (h t (by simp)).1 (h t (by simp)).2 (by
      cases d with
      | nil => exact absurd rfl h0
      | cons c d => exact Or.inr ⟨c, _, rfl, hd c (by simp)⟩) h1
    simpa using this

/-- the tokens of a string are words -/
theorem splits_words {D s : Str} {ts : List Str} (h : Splits D s ts) : ∀ t ∈ ts, Word D t := by
  induction h with
  | nil => simp
  | cons hs h0 ht hr _ ih =>
    intro t hm
    rcases List.mem_cons.1 hm with rfl | hm
    · exact ⟨h0, ht⟩
    · exact ih t hm

end LGD.Text
