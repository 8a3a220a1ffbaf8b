import Verif.Region.Refine0

/-!
# Region: encoding of trees as index vectors
-/

namespace LGD

/-- Index vectors of the children list of one node; `sub` encodes a child. `base k` is the length of everything stored
before on level `k`. -/
def encL (d : Nat) (sub : Tree d → (Nat → Nat) → Idx) : List (Int × Tree d) → (Nat → Nat) → Idx
  | [], _ => fun _ => []
  | p :: ps, base => fun k =>
    (if k = d + 1 then [(p.1, (base d : Int))] else sub p.2 base k) ++
      encL d sub ps (fun j => base j + (sub p.2 base j).length) k

/-- Index vectors (`Region::indices`) of a tree. -/
def enc : (d : Nat) → Tree d → (Nat → Nat) → Idx
  | 0, t, _ => fun k => if k = 0 then t else []
  | d + 1, t, base => encL d (enc d) t base

/-- Shift of the stored offsets on level `k` if the vectors on level `k - 1` grow by `δ (k-1)`. -/
def shiftV (δ : Nat → Int) (k : Nat) (v : IVec) : IVec :=
  match k with
  | 0 => v
  | k + 1 => v.map (fun p => (p.1, p.2 + δ k))

theorem shiftV_nil (δ : Nat → Int) (k : Nat) : shiftV δ k [] = [] := by cases k <;> rfl

theorem shiftV_append (δ : Nat → Int) (k : Nat) (u v : IVec) : shiftV δ k (u ++ v) = shiftV δ k u ++ shiftV δ k v := by
  cases k <;> simp [shiftV]

theorem shiftV_length (δ : Nat → Int) (k : Nat) (u : IVec) : (shiftV δ k u).length = u.length := by
  cases k <;> simp [shiftV]

theorem shiftV_congr (δ δ' : Nat → Int) (k : Nat) (u : IVec) (h : ∀ j, j + 1 = k → δ j = δ' j) :
    shiftV δ k u = shiftV δ' k u := by
  cases k with
  | zero => rfl
  | succ k => simp [shiftV, h k rfl]

theorem enc_above (d : Nat) (t : Tree d) (base : Nat → Nat) (k : Nat) (hk : d < k) : enc d t base k = [] := by
  induction d generalizing base with
  | zero => have : k ≠ 0 := by omega
            simp [enc, this]
  | succ d ih =>
    have : ∀ (l : List (Int × Tree d)) base, encL d (enc d) l base k = [] := by
      intro l
      induction l with
      | nil => intro base; rfl
      | cons p ps ihl =>
        intro base
        have h1 : k ≠ d + 1 := by omega
        simp only [encL, h1, if_false, ihl, ih p.2 base (by omega), List.append_nil]
    exact this t base

/-- Moving a tree by offsets `δ`. -/
theorem enc_shift (d : Nat) (t : Tree d) (b b' : Nat → Nat) (δ : Nat → Int) (hb : ∀ j, (b' j : Int) = b j + δ j) (k : Nat) :
    enc d t b' k = shiftV δ k (enc d t b k) := by
  induction d generalizing b b' k with
  | zero =>
    simp only [enc]
    split
    · rename_i h; subst h; rfl
    · rw [shiftV_nil]
  | succ d ih =>
    have : ∀ (l : List (Int × Tree d)) (b b' : Nat → Nat), (∀ j, (b' j : Int) = b j + δ j) →
        encL d (enc d) l b' k = shiftV δ k (encL d (enc d) l b k) := by
      intro l
      induction l with
      | nil => intro b b' _; simp [encL, shiftV_nil]
      | cons p ps ihl =>
        intro b b' hb
        simp only [encL]
        rw [shiftV_append]
        congr 1
        · split
          · rename_i h
            subst h
            simp [shiftV, hb d]
          · exact ih p.2 b b' hb k
        · apply ihl
          intro j
          have h1 := hb j
          have h2 : (enc d p.2 b' j).length = (enc d p.2 b j).length := by
            rw [ih p.2 b b' hb j, shiftV_length]
          rw [h2]; omega
    exact this t b b' hb

theorem enc_length (d : Nat) (t : Tree d) (b b' : Nat → Nat) (k : Nat) :
    (enc d t b k).length = (enc d t b' k).length := by
  rw [enc_shift d t b' b (fun j => (b j : Int) - b' j) (by intro j; omega) k, shiftV_length]

/-- Number of entries stored on level `k`. -/
def cnt (d : Nat) (t : Tree d) (k : Nat) : Nat := (enc d t (fun _ => 0) k).length

theorem enc_len (d : Nat) (t : Tree d) (b : Nat → Nat) (k : Nat) : (enc d t b k).length = cnt d t k :=
  enc_length d t b _ k

theorem cnt_nil (d : Nat) (k : Nat) : cnt (d + 1) ([] : List (Int × Tree d)) k = 0 := rfl

theorem cnt_cons (d : Nat) (p : Int × Tree d) (ps : List (Int × Tree d)) (k : Nat) :
    cnt (d + 1) (p :: ps : List (Int × Tree d)) k =
      (if k = d + 1 then 1 else cnt d p.2 k) + cnt (d + 1) (ps : List (Int × Tree d)) k := by
  unfold cnt
  show (encL d (enc d) (p :: ps) _ k).length = _
  simp only [encL, List.length_append]
  have := enc_length (d + 1) ps (fun j => 0 + (enc d p.2 (fun _ => 0) j).length) (fun _ => 0) k
  simp only [enc] at this
  rw [this]
  congr 1
  split <;> simp

theorem cnt_append (d : Nat) (l m : List (Int × Tree d)) (k : Nat) :
    cnt (d + 1) (l ++ m : List (Int × Tree d)) k = cnt (d + 1) l k + cnt (d + 1) m k := by
  induction l with
  | nil => simp [cnt_nil]
  | cons p ps ih => rw [List.cons_append, cnt_cons, cnt_cons, ih]; omega

theorem cnt_top (d : Nat) (t : Tree d) : cnt d t d = topLen d t := by
  cases d with
  | zero => simp [cnt, enc, topLen]
  | succ d =>
    have : ∀ l : List (Int × Tree d), cnt (d + 1) l (d + 1) = l.length := by
      intro l
      induction l with
      | nil => rfl
      | cons p ps ih => rw [cnt_cons, ih]; simp; omega
    exact this t

theorem cnt_empty (d : Nat) (k : Nat) : cnt d (emptyT d) k = 0 := by
  cases d with
  | zero => simp [cnt, enc, emptyT]
  | succ d => rfl

theorem enc_nil (d : Nat) (b : Nat → Nat) (k : Nat) : enc (d + 1) ([] : List (Int × Tree d)) b k = [] := rfl

theorem enc_empty (d : Nat) (b : Nat → Nat) (k : Nat) : enc d (emptyT d) b k = [] := by
  cases d with
  | zero => simp [enc, emptyT]
  | succ d => rfl

theorem enc_cons (d : Nat) (p : Int × Tree d) (ps : List (Int × Tree d)) (b : Nat → Nat) (k : Nat) :
    enc (d + 1) (p :: ps : List (Int × Tree d)) b k =
      (if k = d + 1 then [(p.1, (b d : Int))] else enc d p.2 b k) ++
        enc (d + 1) ps (fun j => b j + cnt d p.2 j) k := by
  have hf : (fun j => b j + (enc d p.2 b j).length) = (fun j => b j + cnt d p.2 j) := by
    funext j; rw [enc_len]
  show encL d (enc d) (p :: ps) b k = _
  simp only [encL]
  rw [hf]
  rfl

theorem enc_congr (d : Nat) (t : Tree d) (b b' : Nat → Nat) (k : Nat) (h : ∀ j, j + 1 = k → b j = b' j) :
    enc d t b k = enc d t b' k := by
  rw [enc_shift d t b' b (fun j => (b j : Int) - b' j) (by intro j; omega) k]
  rw [shiftV_congr _ (fun _ => 0) k _ (by intro j hj; have := h j hj; omega)]
  cases k <;> simp [shiftV]

theorem enc_append (d : Nat) (l m : List (Int × Tree d)) (b : Nat → Nat) (k : Nat) :
    enc (d + 1) (l ++ m : List (Int × Tree d)) b k =
      enc (d + 1) l b k ++ enc (d + 1) m (fun j => b j + cnt (d + 1) (l : List (Int × Tree d)) j) k := by
  by_cases hk : d + 1 < k
  · rw [enc_above (d + 1) (l ++ m) b k hk, enc_above (d + 1) l b k hk, enc_above (d + 1) m _ k hk]
    rfl
  induction l generalizing b with
  | nil => simp [enc_nil, cnt_nil]
  | cons p ps ih =>
    rw [List.cons_append, enc_cons, enc_cons, ih, List.append_assoc]
    congr 2
    apply enc_congr
    intro j hj
    have h : j ≠ d + 1 := by omega
    rw [cnt_cons]
    simp only [h, if_false]; omega

/-- First stored offset of a non-empty level: it points to the start of the level below. -/
theorem enc_head (d : Nat) (t : Tree d) (b : Nat → Nat) (k : Nat) (hk : k < d) :
    (enc d t b (k + 1) = [] → enc d t b k = []) ∧
    ∀ p ps, enc d t b (k + 1) = p :: ps → p.2 = (b k : Int) := by
  induction d generalizing b with
  | zero => omega
  | succ d ih =>
    have : ∀ (l : List (Int × Tree d)) (b : Nat → Nat),
        (enc (d + 1) l b (k + 1) = [] → enc (d + 1) l b k = []) ∧
        ∀ p ps, enc (d + 1) l b (k + 1) = p :: ps → p.2 = (b k : Int) := by
      intro l
      induction l with
      | nil => intro b; exact ⟨fun _ => rfl, fun p ps h => by simp [enc_nil] at h⟩
      | cons q qs ihl =>
        intro b
        rw [enc_cons, enc_cons]
        by_cases h : k = d
        · subst h
          simp
        · have h1 : k + 1 ≠ d + 1 := by omega
          have h2 : k ≠ d + 1 := by omega
          simp only [h1, h2, if_false]
          obtain ⟨i1, i2⟩ := ih q.2 b (by omega)
          obtain ⟨j1, j2⟩ := ihl (fun j => b j + cnt d q.2 j)
          constructor
          · intro h
            rw [List.append_eq_nil_iff] at h ⊢
            exact ⟨i1 h.1, j1 h.2⟩
          · intro p ps hp
            cases he : enc d q.2 b (k + 1) with
            | nil =>
              rw [he] at hp
              have := j2 p ps (by simpa using hp)
              rw [this]
              have h0 : enc d q.2 b k = [] := i1 he
              have : cnt d q.2 k = 0 := by rw [← enc_len d q.2 b k, h0]; rfl
              omega
            | cons r rs =>
              rw [he] at hp
              simp only [List.cons_append, List.cons.injEq] at hp
              have := i2 r rs he
              rw [← hp.1]; exact this
    exact this t b

end LGD
