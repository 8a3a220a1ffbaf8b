import Verif.Part.SubdivModel
import Verif.Part.Curve

/-!
# Correctness of the recursive subdivision iterators
-/

namespace LGD

variable {Q : Type}

/-- Spec: the traversal of a square (recursion over levels). -/
def walkF (G : Subdiv Q) : Nat → Q → List Crd
  | 0, _ => []
  | f + 1, q =>
    if G.size q ≤ 0 then []
    else if G.triv q then (List.range (G.len q).toNat).map (fun i : Nat => upd (G.org q) (G.dir q) (G.org q (G.dir q) + (i : Int)))
    else (List.range G.K).flatMap (fun j => walkF G f (G.kid q j))

def walk (G : Subdiv Q) (q : Q) : List Crd := walkF G ((G.size q).toNat + 1) q

structure Subdiv.Laws (G : Subdiv Q) (Inv : Q → Prop) : Prop where
  kpos : 0 < G.K
  size_nonneg : ∀ q, Inv q → 0 ≤ G.size q
  pos : ∀ q, Inv q → G.triv q = false → 0 < G.size q
  kid_inv : ∀ q j, Inv q → G.triv q = false → j < G.K → Inv (G.kid q j)
  kid_lt : ∀ q j, Inv q → G.triv q = false → j < G.K → G.size (G.kid q j) < G.size q
  len_eq : ∀ q, Inv q → G.triv q = true → 0 < G.size q → G.len q = G.size q
  accu_zero : ∀ q, Inv q → G.triv q = false → G.accu q 0 = 0
  accu_succ : ∀ q j, Inv q → G.triv q = false → j + 1 < G.K → G.accu q (j + 1) = G.accu q j + G.size (G.kid q j)
  accu_last : ∀ q, Inv q → G.triv q = false → G.size q = G.accu q (G.K - 1) + G.size (G.kid q (G.K - 1))
  last_pos : ∀ q, Inv q → G.triv q = false → 0 < G.size (G.kid q (G.K - 1))
  select_ok : ∀ q p, Inv q → G.triv q = false → 0 ≤ p → p < G.size q →
    G.select q p < G.K ∧ G.accu q (G.select q p) ≤ p ∧ p < G.accu q (G.select q p) + G.size (G.kid q (G.select q p))
  up_nil : G.up [] = []
  up_cons : ∀ q k st, k < G.K → G.up ((q, k) :: st) = if k + 1 = G.K then G.up st else (q, k + 1) :: st

/-- contents of the cache -/
def Subdiv.CacheOK (G : Subdiv Q) (Inv : Q → Prop) : Prop :=
  ∀ q l, Inv q → G.triv q = false → G.cached q = some l → l.map (fun c k => G.org q k + c k) = walk G q

variable {G : Subdiv Q} {Inv : Q → Prop}

theorem walkF_stable (L : G.Laws Inv) (f : Nat) : ∀ (g : Nat) (q : Q), Inv q → (G.size q).toNat < f → (G.size q).toNat < g →
    walkF G f q = walkF G g q := by
  induction f with
  | zero => intro g q _ h; omega
  | succ f ih =>
    intro g q hq h1 h2
    obtain ⟨g, rfl⟩ : ∃ g', g = g' + 1 := ⟨g - 1, by omega⟩
    rw [walkF, walkF]
    by_cases h0 : G.size q ≤ 0
    · rw [if_pos h0, if_pos h0]
    · rw [if_neg h0, if_neg h0]
      cases ht : G.triv q with
      | true => simp only [if_true]
      | false =>
        simp only [Bool.false_eq_true, if_false]
        have hc : ∀ j, j ∈ List.range G.K → walkF G f (G.kid q j) = walkF G g (G.kid q j) := by
          intro j hj
          have hj := List.mem_range.1 hj
          have hlt := L.kid_lt q j hq ht hj
          have hki := L.kid_inv q j hq ht hj
          have := L.size_nonneg _ hki
          exact ih g _ hki (by omega) (by omega)
        rw [List.flatMap_def, List.flatMap_def, List.map_congr_left hc]

theorem walk_triv (L : G.Laws Inv) {q : Q} (hq : Inv q) (ht : G.triv q = true) (h0 : 0 < G.size q) :
    walk G q = (List.range (G.size q).toNat).map (fun i : Nat => upd (G.org q) (G.dir q) (G.org q (G.dir q) + (i : Int))) := by
  unfold walk
  rw [walkF, if_neg (by omega), if_pos ht, L.len_eq q hq ht h0]

theorem walk_empty {q : Q} (h0 : G.size q ≤ 0) : walk G q = [] := by
  unfold walk
  rw [walkF, if_pos h0]

theorem walk_node (L : G.Laws Inv) {q : Q} (hq : Inv q) (ht : G.triv q = false) :
    walk G q = (List.range G.K).flatMap (fun j => walk G (G.kid q j)) := by
  have h0 := L.pos q hq ht
  rw [walk, walkF, if_neg (by omega)]
  simp only [ht, Bool.false_eq_true, if_false]
  have hc : ∀ j, j ∈ List.range G.K → walkF G (G.size q).toNat (G.kid q j) = walk G (G.kid q j) := by
    intro j hj
    have hj := List.mem_range.1 hj
    have hki := L.kid_inv q j hq ht hj
    have := L.size_nonneg _ hki
    have := L.kid_lt q j hq ht hj
    exact walkF_stable L _ _ _ hki (by omega) (by omega)
  rw [List.flatMap_def, List.flatMap_def, List.map_congr_left hc]

def pre (G : Subdiv Q) (q : Q) (j : Nat) : List Crd := (List.range j).flatMap (fun j => walk G (G.kid q j))
def afterK (G : Subdiv Q) (q : Q) (j : Nat) : List Crd := ((List.range G.K).drop (j + 1)).flatMap (fun j => walk G (G.kid q j))

theorem walk_split (L : G.Laws Inv) {q : Q} (hq : Inv q) (ht : G.triv q = false) (j : Nat) (hj : j < G.K) :
    walk G q = pre G q j ++ (walk G (G.kid q j) ++ afterK G q j) := by
  rw [walk_node L hq ht, pre, afterK]
  conv => lhs; rw [← List.take_append_drop (j + 1) (List.range G.K)]
  rw [List.flatMap_append, List.take_range, Nat.min_eq_left (by omega), List.range_succ, List.flatMap_append]
  simp [List.append_assoc]

theorem after_last (q : Q) (j : Nat) (h : G.K ≤ j + 1) : afterK G q j = [] := by
  unfold afterK
  rw [List.drop_eq_nil_of_le (by simpa using h)]; rfl

theorem after_succ (q : Q) (j : Nat) (h : j + 1 < G.K) : afterK G q j = walk G (G.kid q (j + 1)) ++ afterK G q (j + 1) := by
  unfold afterK
  rw [List.drop_eq_getElem_cons (by simpa using h), List.flatMap_cons]
  simp

theorem pre_len_of (L : G.Laws Inv) {q : Q} (hq : Inv q) (ht : G.triv q = false)
    (hl : ∀ j, j < G.K → ((walk G (G.kid q j)).length : Int) = G.size (G.kid q j)) (j : Nat) (hj : j < G.K) :
    ((pre G q j).length : Int) = G.accu q j := by
  induction j with
  | zero => rw [L.accu_zero q hq ht]; rfl
  | succ j ih =>
    have := ih (by omega)
    have hlj := hl j (by omega)
    rw [L.accu_succ q j hq ht hj]
    unfold pre at *
    rw [List.range_succ, List.flatMap_append, List.length_append]
    simp only [List.flatMap_cons, List.flatMap_nil, List.append_nil]
    omega

theorem walk_len (L : G.Laws Inv) : ∀ (m : Nat) (q : Q), Inv q → (G.size q).toNat = m → ((walk G q).length : Int) = G.size q := by
  intro m
  induction m using Nat.strongRecOn with
  | _ m ih =>
    intro q hq hm
    have hnn := L.size_nonneg q hq
    by_cases h0 : G.size q ≤ 0
    · rw [walk_empty h0]; simp; omega
    · cases ht : G.triv q with
      | true => rw [walk_triv L hq ht (by omega)]; simp; omega
      | false =>
        have hl : ∀ j, j < G.K → ((walk G (G.kid q j)).length : Int) = G.size (G.kid q j) := by
          intro j hj
          have hki := L.kid_inv q j hq ht hj
          have := L.kid_lt q j hq ht hj
          have := L.size_nonneg _ hki
          exact ih _ (by omega) _ hki rfl
        have hk := L.kpos
        have hp := pre_len_of L hq ht hl (G.K - 1) (by omega)
        rw [walk_split L hq ht (G.K - 1) (by omega), after_last q _ (by omega), List.append_nil, List.length_append]
        have := hl (G.K - 1) (by omega)
        have := L.accu_last q hq ht
        omega

theorem walk_length (L : G.Laws Inv) {q : Q} (hq : Inv q) : ((walk G q).length : Int) = G.size q := walk_len L _ q hq rfl

theorem pre_len (L : G.Laws Inv) {q : Q} (hq : Inv q) (ht : G.triv q = false) (j : Nat) (hj : j < G.K) :
    ((pre G q j).length : Int) = G.accu q j :=
  pre_len_of L hq ht (fun j hj => walk_length L (L.kid_inv q j hq ht hj)) j hj

/-! ## iterator states -/

/-- coordinates of the squares on the stack which have not been visited yet -/
def rest (G : Subdiv Q) : List (Q × Nat) → List Crd
  | [] => []
  | (q, k) :: st => afterK G q k ++ rest G st

def subRem (cursor : Crd) : SubLevel → List Crd
  | .triv d c => (List.range c.toNat).map (fun i : Nat => upd cursor d (cursor d + (i : Int)))
  | .cached o r => r.map (fun c k => o k + c k)

def Frames (G : Subdiv Q) (Inv : Q → Prop) (st : List (Q × Nat)) : Prop :=
  ∀ f ∈ st, Inv f.1 ∧ G.triv f.1 = false ∧ G.cached f.1 = none ∧ f.2 < G.K

/-- the coordinates still to be visited, including the current one, are `l` -/
structure Rem (G : Subdiv Q) (Inv : Q → Prop) (it : SqIter Q) (l : List Crd) : Prop where
  run : it.endReached = false
  frames : Frames G Inv it.stack
  head : (subRem it.cursor it.sub).head? = some it.cursor
  list : l = subRem it.cursor it.sub ++ rest G it.stack

theorem subRem_triv_head (c : Crd) (d : Nat) (m : Int) (h : 0 < m) : (subRem c (.triv d m)).head? = some c := by
  obtain ⟨k, rfl⟩ : ∃ k : Nat, m = ((k + 1 : Nat) : Int) := ⟨m.toNat - 1, by omega⟩
  rw [subRem, Int.toNat_natCast, List.range_succ_eq_map]
  simp only [List.map_cons, List.head?_cons]
  congr 1
  funext j
  unfold upd
  split
  · rename_i h; subst h; simp only [Nat.cast_zero, Int.add_zero]
  · rfl

theorem accu_le (L : G.Laws Inv) {q : Q} (hq : Inv q) (ht : G.triv q = false) (j : Nat) (hj : j < G.K) : 0 ≤ G.accu q j := by
  rw [← pre_len L hq ht j hj]; omega

theorem digDown_spec (L : G.Laws Inv) (C : G.CacheOK Inv) (fuel : Nat) : ∀ (it : SqIter Q) (offset base : Int) (q : Q) (quad : Nat) (st : List (Q × Nat)),
    it.stack = (q, quad) :: st → Frames G Inv st → Inv q → quad < G.K →
    (G.triv q = false → base = G.accu q quad) → (quad ≠ 0 → G.triv q = false ∧ G.cached q = none) → (quad = 0 → base = 0) →
    0 ≤ offset → base + offset < G.size q → (G.size q).toNat < fuel → it.endReached = false →
    ∃ it', digDown G fuel it offset = some it' ∧ it'.origin = it.origin ∧ Rem G Inv it' ((walk G q).drop (base + offset).toNat ++ rest G st) := by
  induction fuel with
  | zero => intro _ _ _ _ _ _ _ _ _ _ _ _ _ _ _ h; omega
  | succ fuel ih =>
    intro it offset base q quad st hst hfr hq hquad hb1 hb2 hb3 h0 hlt hf hrun
    have hbase : 0 ≤ base := by
      by_cases hz : quad = 0
      · rw [hb3 hz]
      · rw [hb1 (hb2 hz).1]; exact accu_le L hq (hb2 hz).1 quad hquad
    rw [digDown, hst]
    simp only
    rw [if_neg (by omega)]
    cases ht : G.triv q with
    | true =>
      have hz : quad = 0 := Classical.byContradiction (fun hz => by rw [(hb2 hz).1] at ht; cases ht)
      have hb := hb3 hz
      subst hb
      simp only [if_true]
      have hlen := L.len_eq q hq ht (by omega)
      refine ⟨_, rfl, rfl, hrun, hfr, subRem_triv_head _ _ _ (by omega), ?_⟩
      simp only [subRem]
      congr 1
      rw [walk_triv L hq ht (by omega), hlen]
      apply List.ext_getElem
      · simp; omega
      · intro i h1 h2
        simp only [List.getElem_drop, List.getElem_map, List.getElem_range]
        funext k
        unfold upd
        split
        · simp only [if_true]; omega
        · rfl
    | false =>
      simp only [Bool.false_eq_true, if_false]
      cases hc : G.cached q with
      | some l =>
        have hz : quad = 0 := Classical.byContradiction (fun hz => by rw [(hb2 hz).2] at hc; cases hc)
        have hb := hb3 hz
        subst hb
        simp only
        have hcl := C q l hq ht hc
        have hll : (l.length : Int) = G.size q := by
          have := walk_length L hq
          rw [← hcl, List.length_map] at this
          exact this
        cases hd : l.drop offset.toNat with
        | nil =>
          rw [List.drop_eq_nil_iff] at hd
          omega
        | cons c r =>
          refine ⟨_, rfl, rfl, hrun, hfr, rfl, ?_⟩
          simp only [subRem]
          rw [← hd, ← hcl, List.map_drop]
          congr 2
          omega
      | none =>
        simp only
        have hpos : offset + G.accu q quad = base + offset := by rw [hb1 ht]; omega
        rw [hpos]
        obtain ⟨s1, s2, s3⟩ := L.select_ok q (base + offset) hq ht (by omega) hlt
        generalize G.select q (base + offset) = i at s1 s2 s3
        rw [if_pos s1]
        have hki := L.kid_inv q i hq ht s1
        have hkl := L.kid_lt q i hq ht s1
        have hkn := L.size_nonneg _ hki
        obtain ⟨it', r1, r2, r3⟩ := ih { it with stack := (G.kid q i, 0) :: (q, i) :: st } (base + offset - G.accu q i) 0 (G.kid q i) 0
          ((q, i) :: st) rfl (by
            intro f hfm
            rcases List.mem_cons.1 hfm with rfl | hfm
            · exact ⟨hq, ht, hc, s1⟩
            · exact hfr f hfm) hki L.kpos (fun hkt => (L.accu_zero _ hki hkt).symm) (fun h => (h rfl).elim) (fun _ => rfl)
          (by omega) (by omega) (by omega) hrun
        refine ⟨it', r1, r2, ?_⟩
        have heq : (walk G q).drop (base + offset).toNat ++ rest G st =
            (walk G (G.kid q i)).drop (0 + (base + offset - G.accu q i)).toNat ++ rest G ((q, i) :: st) := by
          rw [rest, walk_split L hq ht i s1]
          have hpl := pre_len L hq ht i s1
          have hwl := walk_length L hki
          rw [List.drop_append, List.drop_eq_nil_of_le (by omega), List.nil_append, List.drop_append_of_le_length (by omega),
            List.append_assoc]
          congr 2
          omega
        rw [heq]; exact r3


theorem up_spec (L : G.Laws Inv) (st : List (Q × Nat)) (hfr : Frames G Inv st) :
    (G.up st = [] ∧ rest G st = []) ∨
    (∃ q k st', G.up st = (q, k + 1) :: st' ∧ k + 1 < G.K ∧ Frames G Inv ((q, k) :: st') ∧ rest G st = afterK G q k ++ rest G st') := by
  induction st with
  | nil => exact Or.inl ⟨L.up_nil, rfl⟩
  | cons f st ih =>
    obtain ⟨q, k⟩ := f
    have hf := hfr (q, k) (by simp)
    have hr : Frames G Inv st := fun g hg => hfr g (by simp [hg])
    rw [L.up_cons q k st hf.2.2.2]
    by_cases hk : k + 1 = G.K
    · rw [if_pos hk, rest, after_last q k (by omega), List.nil_append]
      exact ih hr
    · rw [if_neg hk]
      have := hf.2.2.2
      simp only at this
      exact Or.inr ⟨q, k, st, rfl, by omega, hfr, rfl⟩

theorem accu_lt (L : G.Laws Inv) {q : Q} (hq : Inv q) (ht : G.triv q = false) (j : Nat) (hj : j < G.K) : G.accu q j < G.size q := by
  have hk := L.kpos
  have h1 := L.accu_last q hq ht
  have h2 := L.last_pos q hq ht
  have h3 : ∀ d, j + d < G.K → G.accu q j ≤ G.accu q (j + d) := by
    intro d
    induction d with
    | zero => intro _; exact Int.le_refl _
    | succ d ih =>
      intro hd
      have := ih (by omega)
      have e := L.accu_succ q (j + d) hq ht (by omega)
      have := L.size_nonneg _ (L.kid_inv q (j + d) hq ht (by omega))
      rw [show j + (d + 1) = j + d + 1 by omega]
      omega
  have := h3 (G.K - 1 - j) (by omega)
  rw [show j + (G.K - 1 - j) = G.K - 1 by omega] at this
  omega

theorem digUpDown_spec (L : G.Laws Inv) (C : G.CacheOK Inv) (it : SqIter Q) (hfr : Frames G Inv it.stack) (hrun : it.endReached = false) :
    ∃ it', digUpDown G it = some it' ∧ it'.origin = it.origin ∧
      ((rest G it.stack = [] ∧ it'.endReached = true ∧ it'.cursor = it.origin) ∨ Rem G Inv it' (rest G it.stack)) := by
  unfold digUpDown
  rcases up_spec L it.stack hfr with ⟨h1, h2⟩ | ⟨q, k, st, h1, h2, h3, h4⟩
  · rw [h1]
    exact ⟨_, rfl, rfl, Or.inl ⟨h2, rfl, rfl⟩⟩
  · rw [h1]
    have hf := h3 (q, k) (by simp)
    simp only at hf
    obtain ⟨hq, ht, hc, _⟩ := hf
    have hal := accu_lt L hq ht (k + 1) h2
    obtain ⟨it', r1, r2, r3⟩ := digDown_spec L C (digFuel G ((q, k + 1) :: st)) { it with stack := (q, k + 1) :: st } 0 (G.accu q (k + 1)) q
      (k + 1) st rfl (fun g hg => h3 g (by simp [hg])) hq h2 (fun _ => rfl) (fun _ => ⟨ht, hc⟩) (fun h => by omega) (by omega) (by omega)
      (by unfold digFuel; simp only; omega) hrun
    refine ⟨it', r1, r2, Or.inr ?_⟩
    have hpl := pre_len L hq ht (k + 1) h2
    have heq : rest G it.stack = (walk G q).drop (G.accu q (k + 1) + 0).toNat ++ rest G st := by
      rw [h4, walk_split L hq ht (k + 1) h2, after_succ q k h2, List.drop_append, List.drop_eq_nil_of_le (by omega), List.nil_append,
        show (G.accu q (k + 1) + 0).toNat - (pre G q (k + 1)).length = 0 by omega, List.drop_zero]
    rw [heq]; exact r3

theorem next_spec (L : G.Laws Inv) (C : G.CacheOK Inv) (it : SqIter Q) (c : Crd) (l : List Crd) (h : Rem G Inv it (c :: l)) :
    c = it.cursor ∧ ∃ it', sqNext G it = some it' ∧ it'.origin = it.origin ∧
      ((l = [] ∧ it'.endReached = true ∧ it'.cursor = it.origin) ∨ Rem G Inv it' l) := by
  obtain ⟨hrun, hfr, hh, hl⟩ := h
  unfold sqNext
  rw [hrun]
  simp only [Bool.false_eq_true, if_false]
  cases hs : it.sub with
  | triv d m =>
    rw [hs] at hh hl
    have hm : 0 < m := by
      by_cases h0 : 0 < m
      · exact h0
      · rw [subRem, show m.toNat = 0 by omega] at hh; simp at hh
    obtain ⟨k, rfl⟩ : ∃ k : Nat, m = ((k + 1 : Nat) : Int) := ⟨m.toNat - 1, by omega⟩
    have hsub : subRem it.cursor (.triv d ((k + 1 : Nat) : Int)) = it.cursor :: subRem (upd it.cursor d (it.cursor d + 1)) (.triv d (k : Int)) := by
      rw [subRem, subRem, Int.toNat_natCast, Int.toNat_natCast, List.range_succ_eq_map, List.map_cons, List.map_map]
      congr 1
      · funext j; unfold upd; split
        · rename_i h; subst h; simp
        · rfl
      · apply List.map_congr_left
        intro i _
        funext j
        unfold upd
        simp only [Function.comp_apply]
        split
        · simp; omega
        · rfl
    rw [hsub, List.cons_append, List.cons.injEq] at hl
    refine ⟨hl.1, ?_⟩
    simp only
    by_cases hk : 0 < k
    · rw [if_pos (by omega)]
      refine ⟨_, rfl, rfl, Or.inr ⟨rfl, hfr, ?_, ?_⟩⟩
      · simp only
        exact subRem_triv_head _ _ _ (by omega)
      · simp only
        rw [hl.2, show ((k + 1 : Nat) : Int) - 1 = (k : Int) by omega]
    · rw [if_neg (by omega)]
      have hk0 : k = 0 := by omega
      subst hk0
      have hl2 : l = rest G it.stack := by rw [hl.2]; simp [subRem]
      rw [hl2]
      exact digUpDown_spec L C it hfr hrun
  | cached o r =>
    rw [hs] at hh hl
    cases r with
    | nil => simp [subRem] at hh
    | cons a r =>
      have hcur : it.cursor = fun k => o k + a k := by
        simp only [subRem, List.map_cons, List.head?_cons, Option.some.injEq] at hh
        exact hh.symm
      simp only [subRem, List.map_cons, List.cons_append, List.cons.injEq] at hl
      refine ⟨hl.1.trans hcur.symm, ?_⟩
      simp only
      cases r with
      | nil =>
        simp only
        have hl2 : l = rest G it.stack := by rw [hl.2]; simp
        rw [hl2]
        exact digUpDown_spec L C it hfr hrun
      | cons b r =>
        exact ⟨_, rfl, rfl, Or.inr ⟨rfl, hfr, rfl, hl.2⟩⟩

/-- iterator at position `p` of the traversal of `q` -/
def SqAt (G : Subdiv Q) (Inv : Q → Prop) (q : Q) (p : Nat) (it : SqIter Q) : Prop :=
  it.origin = G.org q ∧
  ((p < (walk G q).length ∧ Rem G Inv it ((walk G q).drop p)) ∨ ((walk G q).length ≤ p ∧ it.endReached = true ∧ it.cursor = G.org q))

theorem sqStart_spec (L : G.Laws Inv) (C : G.CacheOK Inv) (q : Q) (hq : Inv q) (p : Nat) :
    ∃ it, sqStart G q p = some it ∧ SqAt G Inv q (min p (walk G q).length) it := by
  have hwl := walk_length L hq
  unfold sqStart
  by_cases hp : p < (walk G q).length
  · obtain ⟨it, h1, h2, h3⟩ := digDown_spec L C (digFuel G [(q, 0)]) (SqIter.mk (G.org q) (G.org q) false [(q, 0)] (.triv 0 0))
      p 0 q 0 [] rfl (fun f hf => by simp at hf) hq L.kpos (fun ht => (L.accu_zero q hq ht).symm)
      (fun h => (h rfl).elim) (fun _ => rfl) (by omega) (by omega) (by unfold digFuel; simp only; omega) rfl
    refine ⟨it, h1, h2, Or.inl ?_⟩
    rw [Nat.min_eq_left (by omega)]
    refine ⟨hp, ?_⟩
    rw [rest, List.append_nil] at h3
    simpa using h3
  · refine ⟨SqIter.mk (G.org q) (G.org q) true [] (.triv 0 0), ?_, rfl, Or.inr ⟨by omega, rfl, rfl⟩⟩
    unfold digFuel
    simp only
    rw [digDown]
    simp only
    rw [if_pos (by omega)]

theorem rem_cursor (L : G.Laws Inv) (C : G.CacheOK Inv) {it : SqIter Q} {l : List Crd} (h : Rem G Inv it l) : l.head? = some it.cursor := by
  obtain ⟨_, _, hh, hl⟩ := h
  rw [hl, List.head?_append, hh]; rfl

theorem sq_curve (L : G.Laws Inv) (C : G.CacheOK Inv) (n : Nat) (q : Q)
    (hnd : (walk G q).Pairwise (fun a b => ¬ CEq n a b)) : IsCurve n (sqOps n G) (walk G q) (SqAt G Inv q) := by
  have hcur : ∀ p it, SqAt G Inv q p it → ∀ hp : p < (walk G q).length, it.cursor = (walk G q)[p] ∧ it.endReached = false := by
    intro p it h hp
    rcases h.2 with ⟨_, h2⟩ | ⟨h2, _⟩
    · refine ⟨?_, h2.run⟩
      have := rem_cursor L C h2
      rw [List.head?_drop, List.getElem?_eq_getElem hp] at this
      exact (Option.some.inj this).symm
    · omega
  refine ⟨?_, ?_, ?_⟩
  · intro p it x h hx
    obtain ⟨hp, rfl⟩ := List.getElem?_eq_some_iff.1 hx
    intro k _
    exact congrFun (hcur p it h hp).1 k
  · intro p it h hp
    rcases h.2 with ⟨_, h2⟩ | ⟨h2, _⟩
    · rw [List.drop_eq_getElem_cons hp] at h2
      obtain ⟨_, it', r1, r2, r3⟩ := next_spec L C it _ _ h2
      refine ⟨it', r1, r2.trans h.1, ?_⟩
      rcases r3 with ⟨e1, e2, e3⟩ | r3
      · rw [List.drop_eq_nil_iff] at e1
        exact Or.inr ⟨e1, e2, e3.trans h.1⟩
      · have hne := rem_cursor L C r3
        refine Or.inl ⟨Classical.byContradiction (fun hc => ?_), r3⟩
        rw [List.drop_eq_nil_of_le (by omega)] at hne
        cases hne
    · omega
  · intro p p' s t hs ht hp hp'
    show sqEq n s t = true ↔ p = p'
    unfold sqEq
    rw [Bool.and_eq_true, crdEq_iff, beq_iff_eq]
    by_cases h1 : p < (walk G q).length
    · obtain ⟨a1, a2⟩ := hcur p s hs h1
      by_cases h2 : p' < (walk G q).length
      · obtain ⟨b1, b2⟩ := hcur p' t ht h2
        rw [a1, a2, b1, b2]
        constructor
        · rintro ⟨_, h⟩
          rw [List.pairwise_iff_getElem] at hnd
          rcases Nat.lt_trichotomy p p' with hlt | heq | hgt
          · exact (hnd p p' h1 h2 hlt h).elim
          · exact heq
          · exact (hnd p' p h2 h1 hgt (fun k hk => (h k hk).symm)).elim
        · rintro rfl; exact ⟨rfl, fun _ _ => rfl⟩
      · rcases ht.2 with ⟨h3, _⟩ | ⟨_, b2, _⟩
        · omega
        · rw [a2, b2]
          constructor
          · rintro ⟨h, _⟩; cases h
          · intro h; omega
    · rcases hs.2 with ⟨h3, _⟩ | ⟨_, a2, a3⟩
      · omega
      · by_cases h2 : p' < (walk G q).length
        · obtain ⟨b1, b2⟩ := hcur p' t ht h2
          rw [a2, b2]
          constructor
          · rintro ⟨h, _⟩; cases h
          · intro h; omega
        · rcases ht.2 with ⟨h3, _⟩ | ⟨_, b2, b3⟩
          · omega
          · rw [a2, b2, a3, b3]
            exact ⟨fun _ => by omega, fun _ => ⟨rfl, fun _ _ => rfl⟩⟩

end LGD
