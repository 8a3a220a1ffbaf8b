import Verif.Region.Facts
import Verif.Region.IterModel

/-!
# Region: flattened view of trees and index vectors
-/

namespace LGD

/-! ## trees -/

/-- Streaks of a tree in storage order, together with the index of the top-level entry they belong to. -/
def flatL (d : Nat) (sub : Tree d → List (Nat × Streak)) : List (Int × Tree d) → Nat → List (Nat × Streak)
  | [], _ => []
  | p :: ps, j =>
    (sub p.2).map (fun q => (j, { q.2 with origin := upd q.2.origin (d + 1) p.1 })) ++ flatL d sub ps (j + 1)

def rowFlat : List IPair → Nat → List (Nat × Streak)
  | [], _ => []
  | p :: ps, j => (j, { origin := upd (fun _ => 0) 0 p.1, endX := p.2 }) :: rowFlat ps (j + 1)

def flatP : (d : Nat) → Tree d → List (Nat × Streak)
  | 0, t => rowFlat t 0
  | d + 1, t => flatL d (flatP d) t 0

/-- No empty inner nodes. -/
def NE : (d : Nat) → Tree d → Prop
  | 0, _ => True
  | d + 1, t => ∀ p ∈ (t : List (Int × Tree d)), topLen d p.2 ≠ 0 ∧ NE d p.2

def app : (d : Nat) → Tree d → Tree d → Tree d
  | 0, t, u => List.append t u
  | _ + 1, t, u => List.append t u

def joinT (d : Nat) : List (Int × Tree d) → Tree d
  | [] => emptyT d
  | p :: ps => app d p.2 (joinT d ps)

theorem NE_of_ok (d : Nat) (t : Tree d) (h : TreeOK d t) : NE d t := by
  induction d with
  | zero => trivial
  | succ d ih => exact fun p hp => ⟨(h.2 p hp).2, ih p.2 (h.2 p hp).1⟩

theorem NE_app (d : Nat) (t u : Tree d) (h : NE d t) (h' : NE d u) : NE d (app d t u) := by
  cases d with
  | zero => trivial
  | succ d =>
    intro p hp
    rcases List.mem_append.1 hp with hp | hp
    · exact h p hp
    · exact h' p hp

theorem NE_join (d : Nat) (l : List (Int × Tree d)) (h : NE (d + 1) l) : NE d (joinT d l) := by
  induction l with
  | nil => cases d with
    | zero => trivial
    | succ d => intro p hp; simp [joinT, emptyT] at hp
  | cons p ps ih =>
    exact NE_app d _ _ (h p (by simp)).2 (ih (fun q hq => h q (by simp [hq])))

theorem topLen_app (d : Nat) (t u : Tree d) : topLen d (app d t u) = topLen d t + topLen d u := by
  cases d <;> simp [topLen, app]

/-- total number of grandchildren -/
def sumTop (d : Nat) : List (Int × Tree d) → Nat
  | [] => 0
  | p :: ps => topLen d p.2 + sumTop d ps

theorem sumTop_append (d : Nat) (l m : List (Int × Tree d)) : sumTop d (l ++ m) = sumTop d l + sumTop d m := by
  induction l with
  | nil => simp [sumTop]
  | cons p ps ih => simp [sumTop, ih]; omega

theorem topLen_join (d : Nat) (l : List (Int × Tree d)) : topLen d (joinT d l) = sumTop d l := by
  induction l with
  | nil => exact topLen_emptyT d
  | cons p ps ih => rw [joinT, topLen_app, ih]; rfl

theorem enc_app (d : Nat) (t u : Tree d) (b : Nat → Nat) (k : Nat) :
    enc d (app d t u) b k = enc d t b k ++ enc d u (fun j => b j + cnt d t j) k := by
  cases d with
  | zero =>
    simp only [enc, app]
    split <;> simp
  | succ d => exact enc_append d t u b k

theorem enc_join (d : Nat) (l : List (Int × Tree d)) (b : Nat → Nat) (k : Nat) (hk : k ≤ d) :
    enc (d + 1) l b k = enc d (joinT d l) b k := by
  induction l generalizing b with
  | nil => rw [joinT, enc_empty]; rfl
  | cons p ps ih =>
    rw [enc_cons, joinT, enc_app, if_neg (by omega), ih]

/-- Offsets stored on the top level. -/
def offs (d : Nat) : List (Int × Tree d) → Nat → IVec
  | [], _ => []
  | p :: ps, o => (p.1, (o : Int)) :: offs d ps (o + topLen d p.2)

theorem enc_offs (d : Nat) (l : List (Int × Tree d)) (b : Nat → Nat) : enc (d + 1) l b (d + 1) = offs d l (b d) := by
  induction l generalizing b with
  | nil => rfl
  | cons p ps ih =>
    rw [enc_cons, if_pos rfl, ih, cnt_top]; rfl

theorem offs_length (d : Nat) (l : List (Int × Tree d)) (o : Nat) : (offs d l o).length = l.length := by
  induction l generalizing o with
  | nil => rfl
  | cons p ps ih => simp [offs, ih]

theorem offs_append (d : Nat) (l m : List (Int × Tree d)) (o : Nat) :
    offs d (l ++ m) o = offs d l o ++ offs d m (o + sumTop d l) := by
  induction l generalizing o with
  | nil => simp [offs, sumTop]
  | cons p ps ih => simp [offs, sumTop, ih, Nat.add_assoc]

theorem offs_bound (d : Nat) (l : List (Int × Tree d)) (o : Nat) (h : ∀ p ∈ l, topLen d p.2 ≠ 0) :
    ∀ e ∈ offs d l o, (o : Int) ≤ e.2 ∧ e.2 < o + sumTop d l := by
  induction l generalizing o with
  | nil => simp [offs]
  | cons p ps ih =>
    intro e he
    have h0 := h p (by simp)
    simp only [offs, List.mem_cons] at he
    simp only [sumTop]
    rcases he with rfl | he
    · simp only; omega
    · have := ih _ (fun q hq => h q (by simp [hq])) e he
      omega

theorem offs_pairwise (d : Nat) (l : List (Int × Tree d)) (o : Nat) (h : ∀ p ∈ l, topLen d p.2 ≠ 0) :
    (offs d l o).Pairwise (fun a b => a.2 < b.2) := by
  induction l generalizing o with
  | nil => exact List.Pairwise.nil
  | cons p ps ih =>
    have h0 := h p (by simp)
    refine List.Pairwise.cons ?_ (ih _ (fun q hq => h q (by simp [hq])))
    intro e he
    have := offs_bound d ps _ (fun q hq => h q (by simp [hq])) e he
    simp only; omega

/-! ## parent positions -/

/-- Index of the last entry whose offset is not beyond `p`. -/
def par (v : IVec) (p : Nat) : Nat := v.countP (fun e => decide (e.2 ≤ (p : Int))) - 1

/-- Position on level `k` of the `i`-th streak. -/
def P (idx : Idx) (i : Nat) : Nat → Nat
  | 0 => i
  | k + 1 => par (idx (k + 1)) (P idx i k)

/-- The `i`-th streak. -/
def streakAt (n : Nat) (idx : Idx) (i : Nat) : Streak :=
  { origin := fun k => if k ≤ n then ((idx k)[P idx i k]?.getD (0, 0)).1 else 0,
    endX := ((idx 0)[i]?.getD (0, 0)).2 }

theorem P_congr (a b : Idx) (i : Nat) (k : Nat) (h : ∀ j, j ≤ k → a j = b j) : P a i k = P b i k := by
  induction k with
  | zero => rfl
  | succ k ih => rw [P, P, ih (fun j hj => h j (by omega)), h (k + 1) (by omega)]

theorem streakAt_congr (n : Nat) (a b : Idx) (i : Nat) (h : ∀ j, j ≤ n → a j = b j) : streakAt n a i = streakAt n b i := by
  unfold streakAt
  congr 1
  · funext k
    split
    · rw [P_congr a b i k (fun j hj => h j (by omega)), h k (by omega)]
    · rfl
  · rw [h 0 (by omega)]

theorem par_offs (d : Nat) (pre post : List (Int × Tree d)) (p : Int × Tree d) (q : Nat) (hq : q < topLen d p.2)
    (h : ∀ p' ∈ pre ++ p :: post, topLen d p'.2 ≠ 0) :
    par (offs d (pre ++ p :: post) 0) (q + sumTop d pre) = pre.length := by
  have h1 : ∀ e ∈ offs d pre 0, e.2 ≤ ((q + sumTop d pre : Nat) : Int) := by
    intro e he
    have := offs_bound d pre 0 (fun p' hp' => h p' (by simp [hp'])) e he
    omega
  have h2 : ∀ e ∈ offs d post (0 + sumTop d pre + topLen d p.2), ¬ e.2 ≤ ((q + sumTop d pre : Nat) : Int) := by
    intro e he
    have := offs_bound d post _ (fun p' hp' => h p' (by simp [hp'])) e he
    omega
  unfold par
  rw [offs_append, offs, List.countP_append, List.countP_cons]
  rw [List.countP_eq_length.2 (fun e he => by simpa using h1 e he)]
  rw [List.countP_eq_zero.2 (fun e he => by simpa using h2 e he)]
  rw [offs_length, if_pos (by simp only [decide_eq_true_eq]; omega)]
  omega

theorem rowFlat_append (a b : List IPair) (j : Nat) : rowFlat (a ++ b) j = rowFlat a j ++ rowFlat b (j + a.length) := by
  induction a generalizing j with
  | nil => simp [rowFlat]
  | cons p ps ih => simp [rowFlat, ih]; congr 1; omega

theorem rowFlat_shift (a : List IPair) (j m : Nat) : rowFlat a (j + m) = (rowFlat a j).map (fun q => (q.1 + m, q.2)) := by
  induction a generalizing j with
  | nil => rfl
  | cons p ps ih =>
    simp only [rowFlat, List.map_cons]
    rw [← ih, Nat.add_right_comm]

theorem flatL_append (d : Nat) (sub : Tree d → List (Nat × Streak)) (a b : List (Int × Tree d)) (j : Nat) :
    flatL d sub (a ++ b) j = flatL d sub a j ++ flatL d sub b (j + a.length) := by
  induction a generalizing j with
  | nil => simp [flatL]
  | cons p ps ih => simp only [List.cons_append, flatL, ih, List.append_assoc, List.length_cons]; congr 3; omega

theorem flatL_shift (d : Nat) (sub : Tree d → List (Nat × Streak)) (a : List (Int × Tree d)) (j m : Nat) :
    flatL d sub a (j + m) = (flatL d sub a j).map (fun q => (q.1 + m, q.2)) := by
  induction a generalizing j with
  | nil => rfl
  | cons p ps ih =>
    simp only [flatL, List.map_append, List.map_map]
    rw [← ih, Nat.add_right_comm]; rfl

theorem flatP_app (d : Nat) (t u : Tree d) :
    flatP d (app d t u) = flatP d t ++ (flatP d u).map (fun q => (q.1 + topLen d t, q.2)) := by
  cases d with
  | zero =>
    show rowFlat (t ++ u) 0 = _
    rw [rowFlat_append, rowFlat_shift]; rfl
  | succ d =>
    show flatL d (flatP d) (t ++ u) 0 = _
    rw [flatL_append, flatL_shift]; rfl

theorem flatP_empty (d : Nat) : flatP d (emptyT d) = [] := by cases d <;> rfl

theorem flatP_lt (d : Nat) (t : Tree d) : ∀ q ∈ flatP d t, q.1 < topLen d t := by
  cases d with
  | zero =>
    have : ∀ (r : List IPair) (j : Nat), ∀ q ∈ rowFlat r j, q.1 < j + r.length := by
      intro r
      induction r with
      | nil => simp [rowFlat]
      | cons p ps ih =>
        intro j q hq
        simp only [rowFlat, List.mem_cons] at hq
        rcases hq with rfl | hq
        · simp
        · have := ih _ q hq
          simp only [List.length_cons]; omega
    intro q hq
    simpa [topLen] using this t 0 q hq
  | succ d =>
    have : ∀ (r : List (Int × Tree d)) (j : Nat), ∀ q ∈ flatL d (flatP d) r j, q.1 < j + r.length := by
      intro r
      induction r with
      | nil => simp [flatL]
      | cons p ps ih =>
        intro j q hq
        simp only [flatL, List.mem_append, List.mem_map] at hq
        rcases hq with ⟨q', _, rfl⟩ | hq
        · simp
        · have := ih _ q hq
          simp only [List.length_cons]; omega
    intro q hq
    simpa [topLen] using this t 0 q hq

/-- Adding the coordinate of the next higher axis. -/
def lift (d : Nat) (v : IVec) (q : Nat × Streak) : Nat × Streak :=
  (par v q.1, { q.2 with origin := upd q.2.origin (d + 1) (v[par v q.1]?.getD (0, 0)).1 })

theorem flatP_succ (d : Nat) (t : List (Int × Tree d)) (h : ∀ p ∈ t, topLen d p.2 ≠ 0) :
    flatP (d + 1) t = (flatP d (joinT d t)).map (lift d (offs d t 0)) := by
  have key : ∀ (post pre : List (Int × Tree d)), (∀ p ∈ pre ++ post, topLen d p.2 ≠ 0) →
      flatL d (flatP d) post pre.length =
        (flatP d (joinT d post)).map (fun q => lift d (offs d (pre ++ post) 0) (q.1 + sumTop d pre, q.2)) := by
    intro post
    induction post with
    | nil => intro pre _; rw [joinT, flatP_empty]; rfl
    | cons p ps ih =>
      intro pre h
      have hih := ih (pre ++ [p]) (by simpa using h)
      rw [flatL, joinT, flatP_app, List.map_append, List.map_map]
      congr 1
      · apply List.map_congr_left
        intro q hq
        have hlt := flatP_lt d p.2 q hq
        have hp := par_offs d pre ps p q.1 hlt h
        unfold lift
        simp only [hp]
        rw [offs_append, offs, List.getElem?_append_right (by rw [offs_length]; omega), offs_length]
        simp
      · rw [List.length_append, List.length_singleton] at hih
        rw [hih]
        apply List.map_congr_left
        intro q _
        simp only [List.append_assoc, List.singleton_append, Function.comp]
        rw [sumTop_append]
        simp only [sumTop, Nat.add_zero]
        congr 2
        omega
  have := key t [] (by simpa using h)
  simp only [List.nil_append, List.length_nil, sumTop, Nat.add_zero] at this
  exact this

theorem rowFlat_range (r : List IPair) :
    rowFlat r 0 = (List.range r.length).map (fun i =>
      (i, ({ origin := upd (fun _ => 0) 0 (r[i]?.getD ((0, 0) : IPair)).1, endX := (r[i]?.getD ((0, 0) : IPair)).2 } : Streak))) := by
  induction r with
  | nil => rfl
  | cons p ps ih =>
    rw [List.length_cons, List.range_succ_eq_map, rowFlat, List.map_cons, List.map_map]
    rw [rowFlat_shift ps 0 1, ih, List.map_map]
    simp only [List.getElem?_cons_zero, Option.getD_some]
    congr 1

theorem flatP_enc (n : Nat) (t : Tree n) (h : NE n t) :
    flatP n t = (List.range (cnt n t 0)).map (fun i => (P (enc n t (fun _ => 0)) i n, streakAt n (enc n t (fun _ => 0)) i)) := by
  induction n with
  | zero =>
    show rowFlat t 0 = _
    rw [rowFlat_range]
    have : cnt 0 t 0 = t.length := by rw [cnt_top]; rfl
    rw [this]
    apply List.map_congr_left
    intro i _
    simp only [P, streakAt, enc]
    congr 2
    funext k
    unfold upd
    by_cases hk : k = 0
    · subst hk; simp [P]
    · rw [if_neg hk, if_neg (by omega)]
  | succ n ih =>
    rw [flatP_succ n t (fun p hp => (h p hp).1), ih _ (NE_join n t h), List.map_map]
    have hc : cnt (n + 1) t 0 = cnt n (joinT n t) 0 := by
      unfold cnt; rw [enc_join n t _ 0 (by omega)]
    rw [hc]
    apply List.map_congr_left
    intro i _
    have hj : ∀ j, j ≤ n → enc n (joinT n t) (fun _ => 0) j = enc (n + 1) t (fun _ => 0) j :=
      fun j hj => (enc_join n t _ j hj).symm
    have ho := (enc_offs n t (fun _ => 0)).symm
    simp only [Function.comp, lift]
    rw [P_congr _ _ i n hj, streakAt_congr n _ _ i hj, ho]
    have hP : par (enc (n + 1) t (fun _ => 0) (n + 1)) (P (enc (n + 1) t (fun _ => 0)) i n) =
        P (enc (n + 1) t (fun _ => 0)) i (n + 1) := rfl
    rw [hP]
    congr 1
    unfold streakAt
    congr 1
    funext k
    unfold upd
    by_cases hk : k = n + 1
    · subst hk; simp
    · rw [if_neg hk]
      by_cases hk' : k ≤ n
      · simp only; rw [if_pos hk', if_pos (by omega)]
      · simp only; rw [if_neg hk', if_neg (by omega)]

/-! ## order of coordinates and streaks -/

/-- Storage order: compare the highest axis first. -/
def CrdLt (n : Nat) (a b : Crd) : Prop := ∃ k, k ≤ n ∧ a k < b k ∧ ∀ j, k < j → j ≤ n → a j = b j

/-- `s` lies completely before `s'` and cannot be merged with it. -/
def SBefore (n : Nat) (s s' : Streak) : Prop :=
  (∃ k, 1 ≤ k ∧ k ≤ n ∧ s.origin k < s'.origin k ∧ ∀ j, k < j → j ≤ n → s.origin j = s'.origin j) ∨
    ((∀ j, 1 ≤ j → j ≤ n → s.origin j = s'.origin j) ∧ s.endX < s'.origin 0)

/-- A canonical streak list for the set `S`. -/
structure Canon (n : Nat) (l : List Streak) (S : Crd → Prop) : Prop where
  mem : ∀ c, S c ↔ ∃ s ∈ l, SMem n s c
  pos : ∀ s ∈ l, s.origin 0 < s.endX
  sorted : l.Pairwise (SBefore n)

theorem SMem_upd (d : Nat) (s : Streak) (x : Int) (c : Crd) :
    SMem (d + 1) { s with origin := upd s.origin (d + 1) x } c ↔ x = c (d + 1) ∧ SMem d s c := by
  rw [SMem_succ]
  have h1 : upd s.origin (d + 1) x (d + 1) = x := by simp [upd]
  have h2 : SMem d { s with origin := upd s.origin (d + 1) x } c ↔ SMem d s c := by
    unfold SMem
    have this : ∀ k, k ≤ d → upd s.origin (d + 1) x k = s.origin k := by
      intro k hk; unfold upd; rw [if_neg (by omega)]
    constructor
    · rintro ⟨a, b, e⟩
      refine ⟨fun k h h' => ?_, ?_, e⟩
      · rw [← this k h']; exact a k h h'
      · rw [← this 0 (by omega)]; exact b
    · rintro ⟨a, b, e⟩
      refine ⟨fun k h h' => ?_, ?_, e⟩
      · simp only; rw [this k h']; exact a k h h'
      · simp only; rw [this 0 (by omega)]; exact b
  rw [h2]
  simp only [h1]
  constructor
  · rintro ⟨a, b⟩; exact ⟨a.symm, b⟩
  · rintro ⟨a, b⟩; exact ⟨a.symm, b⟩

def flat (d : Nat) (t : Tree d) : List Streak := (flatP d t).map Prod.snd

theorem flat_succ_cons (d : Nat) (p : Int × Tree d) (ps : List (Int × Tree d)) :
    flat (d + 1) (p :: ps : List (Int × Tree d)) =
      (flat d p.2).map (fun s => { s with origin := upd s.origin (d + 1) p.1 }) ++ flat (d + 1) ps := by
  unfold flat
  show List.map Prod.snd (flatL d (flatP d) (p :: ps) 0) = _ ++ List.map Prod.snd (flatL d (flatP d) ps 0)
  rw [flatL, flatL_shift d _ ps 0 1]
  simp [Function.comp_def]

theorem flat_row_cons (p : IPair) (ps : List IPair) :
    flat 0 (p :: ps) = { origin := upd (fun _ => 0) 0 p.1, endX := p.2 } :: flat 0 ps := by
  unfold flat
  show List.map Prod.snd (rowFlat (p :: ps) 0) = _ :: List.map Prod.snd (rowFlat ps 0)
  rw [rowFlat, rowFlat_shift ps 0 1]
  simp [Function.comp_def]

theorem flat_mem (d : Nat) (t : Tree d) (c : Crd) : TMem d t c ↔ ∃ s ∈ flat d t, SMem d s c := by
  induction d with
  | zero =>
    induction t with
    | nil => simp [TMem, RowMem, flat, flatP, rowFlat]
    | cons p ps ih =>
      rw [flat_row_cons]
      simp only [TMem, RowMem] at ih ⊢
      simp only [List.mem_cons, exists_eq_or_imp] at ih ⊢
      rw [ih]
      have : SMem 0 { origin := upd (fun _ => 0) 0 p.1, endX := p.2 } c ↔ p.1 ≤ c 0 ∧ c 0 < p.2 := by
        unfold SMem
        constructor
        · rintro ⟨_, a, b⟩; exact ⟨by simpa [upd] using a, b⟩
        · rintro ⟨a, b⟩; exact ⟨fun k h h' => by omega, by simpa [upd] using a, b⟩
      rw [this]
  | succ d ih =>
    induction t with
    | nil => simp [TMem, flat, flatP, flatL]
    | cons p ps ihl =>
      rw [flat_succ_cons]
      have h1 : TMem (d + 1) (p :: ps : List (Int × Tree d)) c ↔
          (p.1 = c (d + 1) ∧ TMem d p.2 c) ∨ TMem (d + 1) (ps : List (Int × Tree d)) c := by
        simp only [TMem, List.mem_cons, exists_eq_or_imp]
      rw [h1, ihl, ih]
      constructor
      · rintro (⟨h2, s, h3, h4⟩ | ⟨s, h3, h4⟩)
        · exact ⟨_, List.mem_append_left _ (List.mem_map.2 ⟨s, h3, rfl⟩), (SMem_upd d s p.1 c).2 ⟨h2, h4⟩⟩
        · exact ⟨s, List.mem_append_right _ h3, h4⟩
      · rintro ⟨s, h3, h4⟩
        rcases List.mem_append.1 h3 with h3 | h3
        · obtain ⟨s', h5, rfl⟩ := List.mem_map.1 h3
          obtain ⟨h6, h7⟩ := (SMem_upd d s' p.1 c).1 h4
          exact Or.inl ⟨h6, s', h5, h7⟩
        · exact Or.inr ⟨s, h3, h4⟩

theorem flat_top (d : Nat) (t : List (Int × Tree d)) : ∀ s ∈ flat (d + 1) t, ∃ p ∈ t, s.origin (d + 1) = p.1 := by
  induction t with
  | nil => simp [flat, flatP, flatL]
  | cons p ps ih =>
    intro s hs
    rw [flat_succ_cons] at hs
    rcases List.mem_append.1 hs with hs | hs
    · obtain ⟨s', _, rfl⟩ := List.mem_map.1 hs
      exact ⟨p, by simp, by simp [upd]⟩
    · obtain ⟨q, hq, h⟩ := ih s hs
      exact ⟨q, by simp [hq], h⟩

theorem SBefore_upd (d : Nat) (s s' : Streak) (x : Int) (h : SBefore d s s') :
    SBefore (d + 1) { s with origin := upd s.origin (d + 1) x } { s' with origin := upd s'.origin (d + 1) x } := by
  have hu : ∀ (c : Crd) k, k ≤ d → upd c (d + 1) x k = c k := by
    intro c k hk; unfold upd; rw [if_neg (by omega)]
  have ht : ∀ (c : Crd), upd c (d + 1) x (d + 1) = x := by intro c; simp [upd]
  rcases h with ⟨k, h1, h2, h3, h4⟩ | ⟨h1, h2⟩
  · left
    refine ⟨k, h1, by omega, ?_, ?_⟩
    · simp only; rw [hu _ _ h2, hu _ _ h2]; exact h3
    · intro j hj hj'
      simp only
      by_cases e : j = d + 1
      · subst e; rw [ht, ht]
      · rw [hu _ _ (by omega), hu _ _ (by omega)]; exact h4 j hj (by omega)
  · right
    refine ⟨?_, ?_⟩
    · intro j hj hj'
      simp only
      by_cases e : j = d + 1
      · subst e; rw [ht, ht]
      · rw [hu _ _ (by omega), hu _ _ (by omega)]; exact h1 j hj (by omega)
    · simp only; rw [hu _ _ (by omega)]; exact h2

theorem flat_canon (d : Nat) (t : Tree d) (h : TreeOK d t) :
    (∀ s ∈ flat d t, s.origin 0 < s.endX) ∧ (flat d t).Pairwise (SBefore d) := by
  induction d with
  | zero =>
    have h' : RowOK t := h
    clear h
    induction t with
    | nil => simp [flat, flatP, rowFlat]
    | cons p ps ih =>
      rw [flat_row_cons]
      obtain ⟨i1, i2⟩ := ih h'.2.2
      have hm : ∀ (r : List IPair), ∀ s ∈ flat 0 r, ∃ q ∈ r, s.origin 0 = q.1 := by
        intro r
        induction r with
        | nil => simp [flat, flatP, rowFlat]
        | cons a as iha =>
          intro s hs
          rw [flat_row_cons] at hs
          rcases List.mem_cons.1 hs with rfl | hs
          · exact ⟨a, by simp, by simp [upd]⟩
          · obtain ⟨q, hq, e⟩ := iha s hs
            exact ⟨q, by simp [hq], e⟩
      refine ⟨?_, List.Pairwise.cons ?_ i2⟩
      · intro s hs
        rcases List.mem_cons.1 hs with rfl | hs
        · simpa [upd] using h'.1
        · exact i1 s hs
      · intro s hs
        obtain ⟨q, hq, e⟩ := hm ps s hs
        right
        exact ⟨fun j _ _ => by omega, by simp only; rw [e]; exact h'.2.1 q hq⟩
  | succ d ih =>
    obtain ⟨hk, hs⟩ := h
    induction t with
    | nil => simp [flat, flatP, flatL]
    | cons p ps ihl =>
      rw [flat_succ_cons]
      obtain ⟨i1, i2⟩ := ihl hk.2 (fun q hq => hs q (by simp [hq]))
      obtain ⟨j1, j2⟩ := ih p.2 (hs p (by simp)).1
      refine ⟨?_, List.pairwise_append.2 ⟨?_, i2, ?_⟩⟩
      · intro s h
        rcases List.mem_append.1 h with h | h
        · obtain ⟨s', h5, rfl⟩ := List.mem_map.1 h
          simpa [upd] using j1 s' h5
        · exact i1 s h
      · rw [List.pairwise_map]
        exact j2.imp (fun h => SBefore_upd d _ _ p.1 h)
      · intro a ha b hb
        obtain ⟨s', h5, rfl⟩ := List.mem_map.1 ha
        obtain ⟨q, hq, e⟩ := flat_top d ps b hb
        left
        refine ⟨d + 1, by omega, by omega, ?_, fun j h1 h2 => by omega⟩
        have := hk.1 q hq
        simp only [upd, if_pos]
        omega

theorem Rep.flat_eq {n : Nat} {idx : Idx} {t : Tree n} (h : Rep n idx t) :
    flat n t = (List.range (idx 0).length).map (streakAt n idx) := by
  unfold flat
  rw [flatP_enc n t (NE_of_ok n t h.ok), List.map_map, h.eq 0 (by omega), enc_len]
  apply List.map_congr_left
  intro i _
  exact streakAt_congr n _ _ i (fun j hj => (h.eq j hj).symm)

/-- The streaks of a well-formed region, listed by index, are a canonical list for its coordinates. -/
theorem Rep.canon {n : Nat} {idx : Idx} {t : Tree n} (h : Rep n idx t) :
    Canon n ((List.range (idx 0).length).map (streakAt n idx)) (RMem n idx) := by
  rw [← h.flat_eq]
  obtain ⟨h1, h2⟩ := flat_canon n t h.ok
  exact ⟨fun c => (h.mem_iff c).trans (flat_mem n t c), h1, h2⟩

/-! ## offsets of index vectors -/

/-- Offsets of a vector pointing into a vector of length `L`. -/
structure OffOK (v : IVec) (L : Nat) : Prop where
  incr : v.Pairwise (fun a b => a.2 < b.2)
  bnd : ∀ e ∈ v, 0 ≤ e.2 ∧ e.2 < (L : Int)
  head : ∀ e es, v = e :: es → e.2 = 0
  ne : v = [] → L = 0

theorem offOK_enc (n : Nat) (t : Tree n) (h : NE n t) (k : Nat) (hk : k < n) :
    OffOK (enc n t (fun _ => 0) (k + 1)) (cnt n t k) := by
  induction n with
  | zero => omega
  | succ n ih =>
    by_cases hkn : k = n
    · subst hkn
      have h' : ∀ p ∈ (t : List (Int × Tree k)), topLen k p.2 ≠ 0 := fun p hp => (h p hp).1
      have hc : cnt (k + 1) t k = sumTop k t := by
        unfold cnt; rw [enc_join k t _ k (by omega), enc_len, cnt_top, topLen_join]
      rw [enc_offs, hc]
      refine ⟨offs_pairwise k t 0 h', ?_, ?_, ?_⟩
      · intro e he
        have := offs_bound k t 0 h' e he
        omega
      · intro e es he
        cases t with
        | nil => simp [offs] at he
        | cons p ps => simp only [offs, List.cons.injEq] at he; rw [← he.1]; rfl
      · intro he
        cases t with
        | nil => rfl
        | cons p ps => simp [offs] at he
    · have := ih (joinT n t) (NE_join n t h) (by omega)
      rw [enc_join n t _ (k + 1) (by omega)]
      have hc : cnt (n + 1) t k = cnt n (joinT n t) k := by
        unfold cnt; rw [enc_join n t _ k (by omega)]
      rw [hc]; exact this

theorem Rep.offOK {n : Nat} {idx : Idx} {t : Tree n} (h : Rep n idx t) (k : Nat) (hk : k < n) :
    OffOK (idx (k + 1)) (idx k).length := by
  have := offOK_enc n t (NE_of_ok n t h.ok) k hk
  rw [h.eq (k + 1) (by omega), h.eq k (by omega), enc_len]
  exact this

end LGD
