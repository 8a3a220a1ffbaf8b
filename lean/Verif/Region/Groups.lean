import Verif.Region.Access

/-!
# Region: keys are sorted within each group of siblings
-/

namespace LGD

def topKeys : (d : Nat) → Tree d → List Int
  | 0, t => t.map Prod.fst
  | _ + 1, t => t.map Prod.fst

def SubOK : (d : Nat) → Tree d → Prop
  | 0, _ => True
  | d + 1, t => ∀ p ∈ (t : List (Int × Tree d)), (topKeys d p.2).Pairwise (· < ·) ∧ SubOK d p.2

theorem KeysOK_pairwise {α : Type} (l : List (Int × α)) (h : KeysOK l) : (l.map Prod.fst).Pairwise (· < ·) := by
  induction l with
  | nil => exact List.Pairwise.nil
  | cons p ps ih =>
    rw [List.map_cons, List.pairwise_cons]
    refine ⟨?_, ih h.2⟩
    intro x hx
    obtain ⟨q, hq, rfl⟩ := List.mem_map.1 hx
    exact h.1 q hq

theorem RowOK_keys (t : List IPair) (hok : RowOK t) : (t.map Prod.fst).Pairwise (· < ·) := by
  induction t with
  | nil => exact List.Pairwise.nil
  | cons p ps ih =>
    rw [List.map_cons, List.pairwise_cons]
    refine ⟨?_, ih hok.2.2⟩
    intro x hx
    obtain ⟨q, hq, rfl⟩ := List.mem_map.1 hx
    have := hok.2.1 q hq
    have := hok.1
    omega

theorem topKeys_sorted (d : Nat) (t : Tree d) (h : TreeOK d t) : (topKeys d t).Pairwise (· < ·) := by
  cases d with
  | zero => exact RowOK_keys t h
  | succ d => exact KeysOK_pairwise t h.1

theorem SubOK_of_ok (d : Nat) (t : Tree d) (h : TreeOK d t) : SubOK d t := by
  induction d with
  | zero => trivial
  | succ d ih => exact fun p hp => ⟨topKeys_sorted d p.2 (h.2 p hp).1, ih p.2 (h.2 p hp).1⟩

theorem SubOK_app (d : Nat) (t u : Tree d) (h : SubOK d t) (h' : SubOK d u) : SubOK d (app d t u) := by
  cases d with
  | zero => trivial
  | succ d =>
    intro p hp
    rcases List.mem_append.1 hp with hp | hp
    · exact h p hp
    · exact h' p hp

theorem SubOK_join (d : Nat) (l : List (Int × Tree d)) (h : SubOK (d + 1) l) : SubOK d (joinT d l) := by
  induction l with
  | nil => cases d with
    | zero => trivial
    | succ d => intro p hp; simp [joinT, emptyT] at hp
  | cons p ps ih =>
    exact SubOK_app d _ _ (h p (by simp)).2 (ih (fun q hq => h q (by simp [hq])))

theorem topKeys_length (d : Nat) (t : Tree d) : (topKeys d t).length = topLen d t := by
  cases d <;> simp [topKeys, topLen]

theorem enc_keys (d : Nat) (t : Tree d) (b : Nat → Nat) : (enc d t b d).map Prod.fst = topKeys d t := by
  cases d with
  | zero => simp [enc, topKeys]
  | succ d =>
    rw [enc_offs]
    have : ∀ (l : List (Int × Tree d)) o, (offs d l o).map Prod.fst = l.map Prod.fst := by
      intro l
      induction l with
      | nil => intro _; rfl
      | cons p ps ih => intro o; simp [offs, ih]
    rw [this]; rfl

theorem topKeys_join_append (d : Nat) (l m : List (Int × Tree d)) :
    topKeys d (joinT d (l ++ m)) = topKeys d (joinT d l) ++ topKeys d (joinT d m) := by
  have ha : ∀ (t u : Tree d), topKeys d (app d t u) = topKeys d t ++ topKeys d u := by
    intro t u
    cases d <;> simp [topKeys, app]
  induction l with
  | nil =>
    have : topKeys d (joinT d []) = [] := by cases d <;> rfl
    rw [this]; rfl
  | cons p ps ih =>
    rw [List.cons_append, joinT, ha, ih, joinT, ha, List.append_assoc]

/-- Siblings (entries with the same parent) have strictly ascending coordinates. -/
def Sib (v w : IVec) : Prop :=
  ∀ p p' (hp : p < w.length) (hp' : p' < w.length), p < p' → par v p = par v p' → (w[p]).1 < (w[p']).1

theorem sib_top (d : Nat) (t : List (Int × Tree d)) (h : ∀ p ∈ t, topLen d p.2 ≠ 0) (hs : SubOK (d + 1) t) (p p' : Nat)
    (hp' : p' < (topKeys d (joinT d t)).length) (hlt : p < p')
    (hpar : par (offs d t 0) p = par (offs d t 0) p') :
    (topKeys d (joinT d t))[p] < (topKeys d (joinT d t))[p'] := by
  have hL : (topKeys d (joinT d t)).length = sumTop d t := by rw [topKeys_length, topLen_join]
  have hoff : OffOK (offs d t 0) (sumTop d t) := by
    refine ⟨offs_pairwise d t 0 h, ?_, ?_, ?_⟩
    · intro e he
      have := offs_bound d t 0 h e he
      omega
    · intro e es he
      cases t with
      | nil => simp [offs] at he
      | cons p ps => simp only [offs, List.cons.injEq] at he; rw [← he.1]; rfl
    · intro he
      cases t with
      | nil => rfl
      | cons p ps => simp [offs] at he
  have hp1 : p < sumTop d t := by omega
  have hp2 : p' < sumTop d t := by omega
  obtain ⟨e, he, hle, _⟩ := par_spec hoff hp1
  obtain ⟨e', he', hle', hgt'⟩ := par_spec hoff hp2
  rw [← hpar] at he' hgt'
  obtain ⟨hj, hje⟩ := List.getElem?_eq_some_iff.1 he
  generalize hJ : par (offs d t 0) p = J at *
  rw [offs_length] at hj
  have hsplit : t = t.take J ++ t[J] :: t.drop (J + 1) := by
    rw [List.getElem_cons_drop, List.take_append_drop]
  generalize hx : t[J] = x at hsplit
  generalize hpre : t.take J = pre at hsplit
  generalize hpost : t.drop (J + 1) = post at hsplit
  have hlen : pre.length = J := by rw [← hpre, List.length_take]; omega
  -- bounds
  have hoff1 : (offs d t 0)[J]? = some (x.1, (sumTop d pre : Int)) := by
    rw [hsplit, offs_append, offs, List.getElem?_append_right (by rw [offs_length]; omega), offs_length, hlen]
    simp
  rw [he] at hoff1
  cases hoff1
  have hup : p' < sumTop d pre + topLen d x.2 := by
    cases post with
    | nil =>
      rw [hsplit, sumTop_append] at hp2
      simpa [sumTop] using hp2
    | cons y ys =>
      have : (offs d t 0)[J + 1]? = some (y.1, ((0 + sumTop d pre + topLen d x.2 : Nat) : Int)) := by
        rw [hsplit, offs_append, offs, offs, List.getElem?_append_right (by rw [offs_length]; omega), offs_length, hlen]
        simp
      have := hgt' (J + 1) _ (by omega) this
      simp only at this
      omega
  simp only at hle
  have hkeys : topKeys d (joinT d t) = topKeys d (joinT d pre) ++ (topKeys d x.2 ++ topKeys d (joinT d post)) := by
    have h1 : topKeys d (joinT d [x]) = topKeys d x.2 := by
      simp only [joinT]
      cases d <;> simp [topKeys, app, emptyT]
    rw [hsplit, topKeys_join_append, show x :: post = [x] ++ post from rfl, topKeys_join_append, h1]
  have hl1 : (topKeys d (joinT d pre)).length = sumTop d pre := by rw [topKeys_length, topLen_join]
  have hl2 : (topKeys d x.2).length = topLen d x.2 := topKeys_length d x.2
  have hget : ∀ q (hq : q < (topKeys d (joinT d t)).length) (hq' : q - sumTop d pre < (topKeys d x.2).length), sumTop d pre ≤ q →
      (topKeys d (joinT d t))[q] = (topKeys d x.2)[q - sumTop d pre] := by
    intro q hq hq' hge
    have : (topKeys d (joinT d t))[q]? = (topKeys d x.2)[q - sumTop d pre]? := by
      rw [hkeys, List.getElem?_append_right (by omega), hl1, List.getElem?_append_left hq']
    rw [List.getElem?_eq_getElem hq, List.getElem?_eq_getElem hq'] at this
    exact Option.some.inj this
  rw [hget p (by omega) (by omega) (by omega), hget p' (by omega) (by omega) (by omega)]
  have hmem : x ∈ t := by rw [hsplit]; simp
  exact List.pairwise_iff_getElem.1 (hs x hmem).1 _ _ _ _ (by omega)

theorem sib_enc (n : Nat) (t : Tree n) (h : NE n t) (hs : SubOK n t) (k : Nat) (hk : k < n) :
    Sib (enc n t (fun _ => 0) (k + 1)) (enc n t (fun _ => 0) k) := by
  induction n with
  | zero => omega
  | succ n ih =>
    by_cases hkn : k = n
    · subst hkn
      intro p p' hp hp' hlt hpar
      rw [enc_offs] at hpar
      have hv : enc (k + 1) t (fun _ => 0) k = enc k (joinT k t) (fun _ => 0) k := enc_join k t _ k (by omega)
      have hkeys := enc_keys k (joinT k t) (fun _ => 0)
      have hlen : (topKeys k (joinT k t)).length = (enc (k + 1) t (fun _ => 0) k).length := by
        rw [hv, ← hkeys, List.length_map]
      have key := sib_top k t (fun p hp => (h p hp).1) hs p p' (by omega) hlt hpar
      have hg : ∀ q (hq : q < (enc (k + 1) t (fun _ => 0) k).length), ((enc (k + 1) t (fun _ => 0) k)[q]).1 =
          (topKeys k (joinT k t))[q]'(by omega) := by
        intro q hq
        simp only [← hkeys, hv, List.getElem_map]
      rw [hg p hp, hg p' hp']
      exact key
    · have := ih (joinT n t) (NE_join n t h) (SubOK_join n t hs) (by omega)
      rw [enc_join n t _ (k + 1) (by omega), enc_join n t _ k (by omega)]
      exact this

theorem Rep.sib {n : Nat} {idx : Idx} {t : Tree n} (h : Rep n idx t) (k : Nat) (hk : k < n) :
    Sib (idx (k + 1)) (idx k) := by
  rw [h.eq (k + 1) (by omega), h.eq k (by omega)]
  exact sib_enc n t (NE_of_ok n t h.ok) (SubOK_of_ok n t h.ok) k hk

/-- Every position on every level belongs to some streak. -/
theorem P_surj {n : Nat} {idx : Idx} {t : Tree n} (h : Rep n idx t) (k : Nat) (hk : k ≤ n) :
    ∀ p, p < (idx k).length → ∃ i, i < (idx 0).length ∧ P idx i k = p := by
  induction k with
  | zero => intro p hp; exact ⟨p, hp, rfl⟩
  | succ k ih =>
    intro p hp
    have ho := h.offOK k (by omega)
    have hb := ho.bnd _ (List.getElem_mem hp)
    obtain ⟨i, h1, h2⟩ := ih (by omega) ((idx (k + 1))[p].2.toNat) (by omega)
    refine ⟨i, h1, ?_⟩
    rw [P, h2]
    apply par_unique ho (List.getElem?_eq_getElem hp) (by omega)
    intro e' he'
    obtain ⟨a, b⟩ := List.getElem?_eq_some_iff.1 he'
    have := List.pairwise_iff_getElem.1 ho.incr p (p + 1) hp a (by omega)
    rw [b] at this
    omega

end LGD
