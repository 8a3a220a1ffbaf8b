import Verif.Part.HIndexSpec

/-!
# The H-indexing iterator follows the traversal of triangles
-/

namespace LGD.HX
open LGD

def mkTri (n : TB) (c : Int) : Tri := { counter := c, type := n.t, dims := (n.w, n.h), origin := (n.cx, n.cy) }

/-- admissible triangles -/
def OK (n : TB) : Prop := n.t < 4 ∧ 1 ≤ n.w ∧ 1 ≤ n.h

theorem kid_ok {n : TB} {c : Nat} (hw : 2 ≤ n.w) (hh : 2 ≤ n.h) : OK (kid n c) := by
  have := kid_lt n c hw hh
  exact ⟨kid_t n c, this.1, this.2.1⟩

theorem triSub_mk {n : TB} (h : OK n) {c : Nat} (hc : c < 4) : triSub (mkTri n c) = mkTri (kid n c) 0 := by
  obtain ⟨t, x, y, w, h'⟩ := n
  obtain ⟨h1, h2, h3⟩ := h
  simp only at h1 h2 h3
  unfold triSub
  simp only [mkTri]
  rw [half_nonneg (by omega), half_nonneg (by omega)]
  have ht : t = 0 ∨ t = 1 ∨ t = 2 ∨ t = 3 := by omega
  have hcc : c = 0 ∨ c = 1 ∨ c = 2 ∨ c = 3 := by omega
  rcases ht with rfl | rfl | rfl | rfl <;> rcases hcc with rfl | rfl | rfl | rfl <;>
    simp [-Int.natCast_natAbs, -Nat.cast_natAbs, triOrigin, triNext, kid, TB.cx, TB.cy] <;> omega

theorem triv2_iff {w h : Int} (hw : 1 ≤ w) (hh : 1 ≤ h) : triv2 (w, h) = true ↔ w = 1 ∨ h = 1 := by
  unfold triv2
  simp only [Bool.or_eq_true, decide_eq_true_eq]
  have hp : 0 < w * h := Int.mul_pos (by omega) (by omega)
  have key : (w - 1) * (h - 1) = w * h - w - h + 1 := by
    rw [Int.sub_mul, Int.mul_sub, Int.mul_one, Int.one_mul]; omega
  constructor
  · rintro (h0 | h0)
    · omega
    · have : (w - 1) * (h - 1) = 0 := by omega
      rcases Int.mul_eq_zero.1 this with h1 | h1 <;> omega
  · intro h0
    right
    have : (w - 1) * (h - 1) = 0 := Int.mul_eq_zero.2 (by omega)
    omega

theorem triLeaf_iff {maxC : Int} {n : TB} (h : OK n) : triLeaf maxC (n.w, n.h) = true ↔ leaf maxC n := by
  unfold triLeaf triCached leaf
  rw [Bool.or_eq_true, triv2_iff h.2.1 h.2.2, decide_eq_true_eq]
  have := h.2.1
  have := h.2.2
  simp only
  omega

/-! ## lengths -/

theorem line_length {n : TB} (h : OK n) (h1 : n.w = 1 ∨ n.h = 1) :
    ((line n).length : Int) = if n.t = 1 ∨ n.t = 3 then 0 else n.w * n.h := by
  have := h.2.1
  have := h.2.2
  unfold line
  split
  · rfl
  · split
    · have : n.h = 1 := by omega
      rw [this, Int.mul_one, List.length_map, List.length_range]; omega
    · have : n.w = 1 := by omega
      rw [this, Int.one_mul]
      split <;> rw [List.length_map, List.length_range] <;> omega

theorem triLenF_spec (f : Nat) : ∀ (n : TB) (c : Int), OK n → (n.w + n.h).toNat ≤ f → triLenF f (mkTri n c) = (walk n).length := by
  induction f with
  | zero => intro n c h hf; have := h.2.1; have := h.2.2; omega
  | succ f ih =>
    intro n c h hf
    have hw := h.2.1
    have hh := h.2.2
    rw [triLenF]
    by_cases h1 : n.w = 1 ∨ n.h = 1
    · rw [if_pos (show triv2 (mkTri n c).dims = true from (triv2_iff hw hh).2 h1), walk_line ⟨hw, hh⟩ h1, line_length h h1]; rfl
    · rw [if_neg (show ¬ triv2 (mkTri n c).dims = true from fun hc => h1 ((triv2_iff hw hh).1 hc)), walk_kids (by omega) (by omega)]
      have hk : ∀ j : Nat, j < 4 → triLenF f (triSub (mkTri n j)) = (walk (kid n j)).length := by
        intro j hj
        rw [triSub_mk h hj]
        have := kid_lt n j (by omega) (by omega)
        exact ih _ _ (kid_ok (by omega) (by omega)) (by omega)
      have k0 : triLenF f (triSub { mkTri n c with counter := 0 }) = _ := hk 0 (by decide)
      have k1 : triLenF f (triSub { mkTri n c with counter := 1 }) = _ := hk 1 (by decide)
      have k2 : triLenF f (triSub { mkTri n c with counter := 2 }) = _ := hk 2 (by decide)
      have k3 : triLenF f (triSub { mkTri n c with counter := 3 }) = _ := hk 3 (by decide)
      rw [k0, k1, k2, k3]
      simp only [List.length_append]
      omega

theorem triLen_spec {n : TB} (c : Int) (h : OK n) : triLen (mkTri n c) = (walk n).length :=
  triLenF_spec _ n c h (by show (n.w + n.h).toNat ≤ triFuel (n.w, n.h); unfold triFuel; simp only; omega)

theorem triLen_zero {n : TB} (c : Int) (h : n.w * n.h = 0) : triLen (mkTri n c) = 0 := by
  unfold triLen triFuel
  rw [triLenF, if_pos]
  · show (if _ then (0 : Int) else n.w * n.h) = 0
    rw [h]; split <;> rfl
  · show triv2 (n.w, n.h) = true
    unfold triv2
    simp [h]

/-! ## stack -/

abbrev Frame := TB × Int

def toStack (fr : List Frame) : List Tri := fr.map (fun p => mkTri p.1 p.2)

def FrameOK (maxC : Int) (p : Frame) : Prop := OK p.1 ∧ (p.2 = -1 ∨ (0 ≤ p.2 ∧ p.2 ≤ 3 ∧ ¬ leaf maxC p.1))

/-- leaves of the sub triangles from `c` on -/
def kidsFrom (maxC : Int) (n : TB) (c : Nat) : List TB := ((List.range 4).drop c).flatMap (fun j => leaves maxC (kid n j))

def fromC (maxC : Int) (n : TB) (c : Nat) : List TB := if leaf maxC n then [n] else kidsFrom maxC n c

def frameLeaves (maxC : Int) (p : Frame) : List TB := if p.2 = -1 then leaves maxC p.1 else kidsFrom maxC p.1 (p.2 + 1).toNat

def stackLeaves (maxC : Int) (fr : List Frame) : List TB := fr.flatMap (frameLeaves maxC)

theorem kidsFrom_step {maxC : Int} {n : TB} {c : Nat} (hc : c < 4) : kidsFrom maxC n c = leaves maxC (kid n c) ++ kidsFrom maxC n (c + 1) := by
  have : c = 0 ∨ c = 1 ∨ c = 2 ∨ c = 3 := by omega
  rcases this with rfl | rfl | rfl | rfl <;> simp [kidsFrom, List.range_succ, List.flatMap_cons]

theorem kidsFrom_end {maxC : Int} {n : TB} : kidsFrom maxC n 4 = [] := rfl

theorem fromC_zero {maxC : Int} {n : TB} : fromC maxC n 0 = leaves maxC n := by
  unfold fromC
  split
  · rename_i h; rw [leaves_leaf h]
  · rename_i h
    rw [leaves_kids h, kidsFrom_step (by decide), kidsFrom_step (by decide), kidsFrom_step (by decide), kidsFrom_step (by decide), kidsFrom_end]
    simp

theorem triUp_spec (maxC : Int) (fr : List Frame) (hok : ∀ p ∈ fr, FrameOK maxC p) :
    (triUp (toStack fr) = [] ∧ stackLeaves maxC fr = []) ∨
    ∃ n, ∃ c : Nat, ∃ rest, triUp (toStack fr) = mkTri n c :: toStack rest ∧ c ≤ 3 ∧ (leaf maxC n → c = 0) ∧ OK n ∧
      (∀ p ∈ rest, FrameOK maxC p) ∧ stackLeaves maxC fr = fromC maxC n c ++ stackLeaves maxC rest := by
  induction fr with
  | nil => exact Or.inl ⟨rfl, rfl⟩
  | cons p fr ih =>
    obtain ⟨n, c⟩ := p
    have hp := hok (n, c) (List.mem_cons_self ..)
    have hrest : ∀ p ∈ fr, FrameOK maxC p := fun p h => hok p (List.mem_cons_of_mem _ h)
    have hup : triUp (toStack ((n, c) :: fr)) = if c + 1 = 4 then triUp (toStack fr) else mkTri n (c + 1) :: toStack fr := rfl
    have hst : stackLeaves maxC ((n, c) :: fr) = frameLeaves maxC (n, c) ++ stackLeaves maxC fr := rfl
    obtain ⟨hn, hc⟩ := hp
    simp only at hc
    by_cases h4 : c + 1 = 4
    · have hfl : frameLeaves maxC (n, c) = [] := by
        unfold frameLeaves
        simp only
        rw [if_neg (by omega), h4]
        exact kidsFrom_end
      rw [hup, if_pos h4, hst, hfl, List.nil_append]
      exact ih hrest
    · right
      rcases hc with hc | ⟨hc1, hc2, hc3⟩
      · refine ⟨n, 0, fr, ?_, by omega, fun _ => rfl, hn, hrest, ?_⟩
        · rw [hup, if_neg h4, hc]; rfl
        · rw [hst, fromC_zero, hc]; rfl
      · refine ⟨n, (c + 1).toNat, fr, ?_, by omega, fun h => (hc3 h).elim, hn, hrest, ?_⟩
        · rw [hup, if_neg h4, Int.toNat_of_nonneg (by omega)]
        · rw [hst]
          unfold frameLeaves fromC
          rw [if_neg hc3, if_neg (show ¬ c = -1 by omega)]

theorem triDown_spec (maxC : Int) (f : Nat) : ∀ (n : TB) (c : Nat) (fr : List Frame), OK n → c ≤ 3 → (leaf maxC n → c = 0) →
    (∀ p ∈ fr, FrameOK maxC p) → (n.w + n.h).toNat ≤ f →
    ∃ m fr' tl, triDown maxC f (mkTri n c) (toStack fr) = some (mkTri m 0, toStack fr') ∧ OK m ∧ leaf maxC m ∧ (∀ p ∈ fr', FrameOK maxC p) ∧
      fromC maxC n c = m :: tl ∧ stackLeaves maxC fr' = tl ++ stackLeaves maxC fr := by
  induction f with
  | zero => intro n c fr h _ _ _ hf; have := h.2.1; have := h.2.2; omega
  | succ f ih =>
    intro n c fr h hc hl hfr hf
    rw [triDown]
    by_cases hlf : leaf maxC n
    · have h0 := hl hlf
      subst h0
      rw [if_pos (show triLeaf maxC (mkTri n (0 : Nat)).dims = true from (triLeaf_iff h).2 hlf)]
      exact ⟨n, fr, [], rfl, h, hlf, hfr, by unfold fromC; rw [if_pos hlf], rfl⟩
    · rw [if_neg (show ¬ triLeaf maxC (mkTri n c).dims = true from fun hc => hlf ((triLeaf_iff h).1 hc)), triSub_mk h (by omega)]
      obtain ⟨h2, h3⟩ := not_leaf hlf
      have hk := kid_lt n c h2 h3
      have hfr' : ∀ p ∈ (n, (c : Int)) :: fr, FrameOK maxC p := by
        intro p hp
        rcases List.mem_cons.1 hp with rfl | hp
        · exact ⟨h, Or.inr ⟨by simp only; omega, by simp only; omega, hlf⟩⟩
        · exact hfr p hp
      obtain ⟨m, fr', tl, r1, r2, r3, r4, r5, r6⟩ := ih (kid n c) 0 ((n, (c : Int)) :: fr) (kid_ok h2 h3) (by omega) (fun _ => rfl) hfr' (by omega)
      refine ⟨m, fr', tl ++ kidsFrom maxC n (c + 1), r1, r2, r3, r4, ?_, ?_⟩
      · unfold fromC
        rw [if_neg hlf, kidsFrom_step (by omega), ← fromC_zero (n := kid n c), r5]; rfl
      · rw [r6]
        show tl ++ (frameLeaves maxC (n, (c : Int)) ++ stackLeaves maxC fr) = _
        have : frameLeaves maxC (n, (c : Int)) = kidsFrom maxC n (c + 1) := by
          unfold frameLeaves
          rw [if_neg (show ¬ (c : Int) = -1 by omega)]
          congr 1
        rw [this, List.append_assoc]

/-! ## sublevels -/

/-- triangle with its starting corner at (0, 0) -/
def node0 (t : Nat) (w h : Int) : TB := ⟨t, if t = 1 ∨ t = 3 then -w else 0, if t = 0 ∨ t = 1 then -h else 0, w, h⟩

def EntryT (cache : TCache) (w h : Int) (t : Nat) : Prop := cache w h t = walk (node0 t w h)

def CacheT (cache : TCache) (maxC : Int) : Prop := ∀ (w h : Int) (t : Nat), 2 ≤ w → w < maxC → 2 ≤ h → h < maxC → t < 4 → EntryT cache w h t

theorem walk_node0 (n : TB) : walk n = (walk (node0 n.t n.w n.h)).map (fun p => (n.cx + p.1, n.cy + p.2)) := by
  have h := walk_shift _ (node0 n.t n.w n.h) n.cx n.cy rfl
  have e : (node0 n.t n.w n.h).shift n.cx n.cy = n := by
    obtain ⟨t, x, y, w, h⟩ := n
    unfold node0 TB.shift TB.cx TB.cy
    simp only [TB.mk.injEq, true_and, and_true]
    constructor
    · split <;> omega
    · split <;> omega
  rw [e] at h
  rw [h]
  apply List.map_congr_left
  intro p _
  exact Prod.ext (Int.add_comm _ _) (Int.add_comm _ _)

def dirOf (m : TB) : P2 := if m.w > 1 then (1, 0) else (0, if m.t = 0 then -1 else 1)
def lenOf (m : TB) : Int := if m.w > 1 then m.w else m.h

/-- `k` coordinates of leaf `m` have been delivered -/
def SubAt (it : HxIter) (m : TB) (k : Nat) : Prop :=
  ((m.w = 1 ∨ m.h = 1) ∧ it.sub = .triv m.t k (dirOf m) (lenOf m) ∧ (k = 0 → it.cursor = (m.cx, m.cy)) ∧
    (0 < k → (walk m)[k - 1]? = some it.cursor)) ∨
  (¬ (m.w = 1 ∨ m.h = 1) ∧ ∃ rest, it.sub = .cached (m.cx, m.cy) rest ∧ rest.map (fun p => (m.cx + p.1, m.cy + p.2)) = (walk m).drop k)

/-- elements of a line -/
theorem line_get {n : TB} (h : OK n) (h1 : n.w = 1 ∨ n.h = 1) (ht : ¬ (n.t = 1 ∨ n.t = 3)) (i : Nat) (hi : (i : Int) < lenOf n) :
    (line n)[i]? = some (if n.w > 1 then (n.x + (i : Int), n.y) else if n.t = 0 then (n.x, n.y + n.h - 1 - (i : Int)) else (n.x, n.y + (i : Int))) := by
  unfold lenOf at hi
  unfold line
  rw [if_neg ht]
  split
  · rename_i hw
    rw [if_pos hw] at hi
    rw [List.getElem?_map, List.getElem?_range (by omega)]; rfl
  · rename_i hw
    rw [if_neg hw] at hi
    split
    · rw [List.getElem?_map, List.getElem?_range (by omega)]; rfl
    · rw [List.getElem?_map, List.getElem?_range (by omega)]; rfl

theorem line_len {n : TB} (h : OK n) (h1 : n.w = 1 ∨ n.h = 1) : ((line n).length : Int) = if n.t = 1 ∨ n.t = 3 then 0 else lenOf n := by
  rw [line_length h h1]
  have := h.2.1
  have := h.2.2
  unfold lenOf
  split
  · rfl
  · split
    · have : n.h = 1 := by omega
      rw [this, Int.mul_one]
    · have : n.w = 1 := by omega
      rw [this, Int.one_mul]

theorem triDone_spec {it : HxIter} {m : TB} {k : Nat} (hm : OK m) (h : SubAt it m k) : triDone it.sub = true ↔ (walk m).length ≤ k := by
  rcases h with ⟨h1, h2, _, _⟩ | ⟨h1, rest, h2, h3⟩
  · rw [h2, walk_line ⟨hm.2.1, hm.2.2⟩ h1]
    have hl := line_len hm h1
    show (decide (m.t % 2 = 1) || decide ((k : Int) ≥ lenOf m)) = true ↔ _
    rw [Bool.or_eq_true, decide_eq_true_eq, decide_eq_true_eq]
    have := hm.1
    by_cases ht : m.t = 1 ∨ m.t = 3
    · rw [if_pos ht] at hl; omega
    · rw [if_neg ht] at hl; omega
  · rw [h2]
    show rest.isEmpty = true ↔ _
    rw [List.isEmpty_iff]
    have := congrArg List.length h3
    rw [List.length_map, List.length_drop] at this
    rw [← List.length_eq_zero_iff]
    omega

theorem triStep_spec {it : HxIter} {m : TB} {k : Nat} (hm : OK m) (h : SubAt it m k) (hk : k < (walk m).length) :
    SubAt (triStep it) m (k + 1) ∧ (walk m)[k]? = some (triStep it).cursor ∧ (triStep it).stack = it.stack ∧
    (triStep it).endReached = it.endReached ∧ (triStep it).origin = it.origin := by
  rcases h with ⟨h1, h2, h3, h4⟩ | ⟨h1, rest, h2, h3⟩
  · have hw : walk m = line m := walk_line ⟨hm.2.1, hm.2.2⟩ h1
    rw [hw] at hk h4
    have hl := line_len hm h1
    have ht : ¬ (m.t = 1 ∨ m.t = 3) := by
      intro ht
      rw [if_pos ht] at hl; omega
    rw [if_neg ht] at hl
    have hcur : (line m)[k]? = some (triStep it).cursor := by
      rw [line_get hm h1 ht k (by omega)]
      unfold triStep
      rw [h2]
      congr 1
      show _ = (if (k : Int) = 0 then (if m.t = 0 then (it.cursor.1, it.cursor.2 - 1) else it.cursor)
                else (it.cursor.1 + (dirOf m).1, it.cursor.2 + (dirOf m).2))
      have := hm.2.1
      have := hm.2.2
      by_cases hk0 : k = 0
      · subst hk0
        rw [if_pos (show ((0 : Nat) : Int) = 0 from rfl), h3 rfl]
        unfold TB.cx TB.cy
        rw [if_neg ht]
        by_cases ht0 : m.t = 0
        · rw [if_pos ht0, if_pos ht0, if_pos (show m.t = 0 ∨ m.t = 1 from Or.inl ht0)]
          split <;> refine Prod.ext ?_ ?_ <;> simp only <;> omega
        · rw [if_neg ht0, if_neg ht0, if_neg (show ¬ (m.t = 0 ∨ m.t = 1) by omega)]
          split <;> refine Prod.ext ?_ ?_ <;> simp only <;> omega
      · rw [if_neg (show ¬ (k : Int) = 0 by omega)]
        have h5 := h4 (by omega)
        rw [line_get hm h1 ht (k - 1) (by omega)] at h5
        have h5 := Option.some.inj h5
        rw [← h5]
        unfold dirOf
        by_cases hw1 : m.w > 1
        · rw [if_pos hw1, if_pos hw1, if_pos hw1]; refine Prod.ext ?_ ?_ <;> simp only <;> omega
        · rw [if_neg hw1, if_neg hw1, if_neg hw1]
          by_cases ht0 : m.t = 0
          · rw [if_pos ht0, if_pos ht0, if_pos ht0]; refine Prod.ext ?_ ?_ <;> simp only <;> omega
          · rw [if_neg ht0, if_neg ht0, if_neg ht0]; refine Prod.ext ?_ ?_ <;> simp only <;> omega
    refine ⟨Or.inl ⟨h1, ?_, fun h => by omega, fun _ => ?_⟩, by rw [hw]; exact hcur, ?_, ?_, ?_⟩
    · unfold triStep; rw [h2]; rfl
    · rw [hw]; exact hcur
    · unfold triStep; rw [h2]
    · unfold triStep; rw [h2]
    · unfold triStep; rw [h2]
  · cases rest with
    | nil =>
      have := congrArg List.length h3
      rw [List.length_drop] at this
      simp at this
      omega
    | cons c r =>
      rw [List.drop_eq_getElem_cons hk, List.map_cons] at h3
      obtain ⟨e1, e2⟩ := List.cons.inj h3
      have hs : triStep it = { it with cursor := (m.cx + c.1, m.cy + c.2), sub := .cached (m.cx, m.cy) r } := by
        unfold triStep; rw [h2]
      rw [hs]
      exact ⟨Or.inr ⟨h1, r, rfl, e2⟩, by rw [List.getElem?_eq_getElem hk, ← e1], rfl, rfl, rfl⟩

/-- entering a leaf; trivial ones only at their start -/
theorem triEnter_spec {cache : TCache} {maxC : Int} (hc : CacheT cache maxC) {m : TB} (hm : OK m) (hl : leaf maxC m) (it : HxIter) (r : Nat)
    (hr : r = 0 ∨ (¬ (m.w = 1 ∨ m.h = 1) ∧ r < (walk m).length)) :
    ∃ it', triEnter cache it (mkTri m 0) r = some it' ∧ SubAt it' m r ∧ it'.stack = it.stack ∧ it'.endReached = it.endReached ∧ it'.origin = it.origin := by
  have hw := hm.2.1
  have hh := hm.2.2
  unfold triEnter
  by_cases h1 : m.w = 1 ∨ m.h = 1
  · have hr0 : r = 0 := by
      rcases hr with h | h
      · exact h
      · exact (h.1 h1).elim
    subst hr0
    rw [if_pos (show triv2 (mkTri m 0).dims = true from (triv2_iff hw hh).2 h1)]
    refine ⟨_, rfl, Or.inl ⟨h1, ?_, fun _ => rfl, fun h => by omega⟩, rfl, rfl, rfl⟩
    unfold dirOf lenOf
    show (if m.w > 1 then _ else _) = _
    by_cases hw1 : m.w > 1
    · rw [if_pos hw1, if_pos hw1, if_pos hw1]; rfl
    · rw [if_neg hw1, if_neg hw1, if_neg hw1]; rfl
  · have h2 : 2 ≤ m.w ∧ 2 ≤ m.h := by omega
    have hlt : r < (walk m).length := by
      rcases hr with h | h
      · rw [h]
        exact List.length_pos_iff.2 (walk_nonempty hm.1 h2.1 h2.2)
      · exact h.2
    have hcc : m.w < maxC ∧ m.h < maxC := by unfold leaf at hl; omega
    have he := hc m.w m.h m.t h2.1 hcc.1 h2.2 hcc.2 hm.1
    rw [if_neg (show ¬ triv2 (mkTri m 0).dims = true from fun hc => h1 ((triv2_iff hw hh).1 hc))]
    have hwn := walk_node0 m
    have hlen : r < (cache m.w m.h m.t).length := by
      rw [he]
      rw [hwn, List.length_map] at hlt
      exact hlt
    show ∃ it', (match (cache m.w m.h m.t).drop r with | [] => none | c :: r => some { it with sub := TriLevel.cached (m.cx, m.cy) (c :: r) }) = some it' ∧ _
    rw [List.drop_eq_getElem_cons hlen]
    refine ⟨_, rfl, Or.inr ⟨h1, _, rfl, ?_⟩, rfl, rfl, rfl⟩
    rw [← List.drop_eq_getElem_cons hlen, he, List.map_drop, ← hwn]

/-! ## iteration -/

/-- a running iterator which still has to deliver `R` -/
structure Live (maxC : Int) (it : HxIter) (m : TB) (k : Nat) (fr : List Frame) (R : List P2) : Prop where
  sub : SubAt it m k
  ok : OK m
  stack : it.stack = toStack fr
  frames : ∀ p ∈ fr, FrameOK maxC p
  run : it.endReached = false
  rest : R = (walk m).drop k ++ (stackLeaves maxC fr).flatMap walk

theorem hxLoop_spec {cache : TCache} {maxC : Int} (hc : CacheT cache maxC) (f : Nat) : ∀ (it : HxIter) (m : TB) (k : Nat) (fr : List Frame) (R : List P2),
    Live maxC it m k fr R → (stackLeaves maxC fr).length < f →
    (R = [] → ∃ it', hxLoop cache maxC f it = some it' ∧ it'.endReached = true ∧ it'.cursor = it.origin ∧ it'.origin = it.origin) ∧
    (∀ a R', R = a :: R' → ∃ it' m' k' fr', hxLoop cache maxC f it = some it' ∧ Live maxC it' m' k' fr' R' ∧ it'.cursor = a ∧
      it'.origin = it.origin ∧ (stackLeaves maxC fr').length ≤ (stackLeaves maxC fr).length) := by
  induction f with
  | zero => intro it m k fr R _ h; omega
  | succ f ih =>
    intro it m k fr R h hf
    rw [hxLoop]
    by_cases hd : triDone it.sub = true
    · rw [if_pos hd]
      have hk := (triDone_spec h.ok h.sub).1 hd
      have hR : R = (stackLeaves maxC fr).flatMap walk := by rw [h.rest, List.drop_eq_nil_of_le hk]; rfl
      rw [h.stack]
      rcases triUp_spec maxC fr h.frames with ⟨u1, u2⟩ | ⟨n, c, rest, u1, u2, u3, u4, u5, u6⟩
      · rw [u1]
        rw [u2] at hR
        refine ⟨fun _ => ⟨_, rfl, rfl, rfl, rfl⟩, fun a R' he => ?_⟩
        rw [hR] at he; cases he
      · rw [u1]
        obtain ⟨m', fr', tl, d1, d2, d3, d4, d5, d6⟩ := triDown_spec maxC (triFuel (n.w, n.h)) n c rest u4 u2 u3 u5 (by unfold triFuel; simp only; omega)
        have hst : stackLeaves maxC fr = m' :: stackLeaves maxC fr' := by rw [u6, d5, d6]; rfl
        have hmk : (mkTri n (c : Int)).dims = (n.w, n.h) := rfl
        simp only [hmk]
        rw [d1, Option.bind_some]
        obtain ⟨it', e1, e2, e3, e4, e5⟩ := triEnter_spec hc d2 d3 { it with stack := toStack fr' } 0 (Or.inl rfl)
        rw [e1, Option.bind_some]
        have hlive : Live maxC it' m' 0 fr' R := by
          refine ⟨e2, d2, e3, d4, ?_, ?_⟩
          · rw [e4]; exact h.run
          · rw [hR, hst, List.flatMap_cons, List.drop_zero]
        rw [hst, List.length_cons] at hf
        obtain ⟨i1, i2⟩ := ih it' m' 0 fr' R hlive (by omega)
        have ho : it'.origin = it.origin := e5
        rw [ho] at i1 i2
        refine ⟨i1, fun a R' he => ?_⟩
        obtain ⟨it'', m'', k'', fr'', j1, j2, j3, j4, j5⟩ := i2 a R' he
        exact ⟨it'', m'', k'', fr'', j1, j2, j3, j4, by rw [hst, List.length_cons]; omega⟩
    · rw [if_neg hd]
      have hk : k < (walk m).length := by
        refine Classical.byContradiction (fun hc => hd ((triDone_spec h.ok h.sub).2 (by omega)))
      obtain ⟨s1, s2, s3, s4, s5⟩ := triStep_spec h.ok h.sub hk
      have hR := h.rest
      rw [List.drop_eq_getElem_cons hk] at hR
      refine ⟨fun he => ?_, fun a R' he => ?_⟩
      · rw [hR] at he; cases he
      · rw [hR] at he
        obtain ⟨ea, eR⟩ := List.cons.inj he
        refine ⟨triStep it, m, k + 1, fr, rfl, ⟨s1, h.ok, by rw [s3]; exact h.stack, h.frames, by rw [s4]; exact h.run, eR.symm⟩, ?_, s5, Nat.le_refl _⟩
        rw [List.getElem?_eq_getElem hk] at s2
        rw [← ea]
        exact (Option.some.inj s2).symm

/-- iterator at position `p` of the sequence `L`; `N` bounds the number of triangles left -/
def HxAt (maxC : Int) (N : Nat) (o : P2) (L : List P2) (p : Nat) (it : HxIter) : Prop :=
  it.origin = o ∧
  ((p < L.length ∧ L[p]? = some it.cursor ∧ ∃ m k fr, Live maxC it m k fr (L.drop (p + 1)) ∧ (stackLeaves maxC fr).length ≤ N) ∨
   (L.length ≤ p ∧ it.endReached = true ∧ it.cursor = o))

theorem hxNext_live {cache : TCache} {maxC : Int} (hc : CacheT cache maxC) {N : Nat} {o : P2} {L : List P2} {p : Nat} {it : HxIter} {m : TB} {k : Nat}
    {fr : List Frame} (h : Live maxC it m k fr (L.drop p)) (hN : (stackLeaves maxC fr).length ≤ N) (ho : it.origin = o) (fuel : Nat) (hf : N < fuel) :
    ∃ it', hxNext cache maxC fuel it = some it' ∧ HxAt maxC N o L p it' := by
  unfold hxNext
  rw [h.run]
  obtain ⟨l1, l2⟩ := hxLoop_spec hc fuel it m k fr _ h (by omega)
  by_cases hp : p < L.length
  · obtain ⟨it', m', k', fr', j1, j2, j3, j4, j5⟩ := l2 _ _ (List.drop_eq_getElem_cons hp)
    exact ⟨it', j1, by rw [j4]; exact ho, Or.inl ⟨hp, by rw [List.getElem?_eq_getElem hp, j3], m', k', fr', j2, by omega⟩⟩
  · obtain ⟨it', j1, j2, j3, j4⟩ := l1 (List.drop_eq_nil_of_le (by omega))
    exact ⟨it', j1, by rw [j4]; exact ho, Or.inr ⟨by omega, j2, by rw [j3]; exact ho⟩⟩

theorem hxNext_spec {cache : TCache} {maxC : Int} (hc : CacheT cache maxC) {N : Nat} {o : P2} {L : List P2} {p : Nat} {it : HxIter}
    (h : HxAt maxC N o L p it) (hp : p < L.length) (fuel : Nat) (hf : N < fuel) :
    ∃ it', hxNext cache maxC fuel it = some it' ∧ HxAt maxC N o L (p + 1) it' := by
  obtain ⟨ho, h | h⟩ := h
  · obtain ⟨_, _, m, k, fr, hl, hN⟩ := h
    exact hxNext_live hc hl hN ho fuel hf
  · omega

theorem hxEnd_at (maxC : Int) (N : Nat) (o : P2) (L : List P2) : HxAt maxC N o L L.length (hxEnd o) := ⟨rfl, Or.inr ⟨Nat.le_refl _, rfl, rfl⟩⟩

theorem hxEq_iff {maxC : Int} {N : Nat} {o : P2} {L : List P2} (hnd : L.Nodup) {p q : Nat} {a b : HxIter} (ha : HxAt maxC N o L p a) (hb : HxAt maxC N o L q b)
    (hp : p ≤ L.length) (hq : q ≤ L.length) : hxEq a b = true ↔ p = q := by
  unfold hxEq
  rw [Bool.and_eq_true, beq_iff_eq, decide_eq_true_eq]
  obtain ⟨_, ⟨a1, a2, m, k, fr, al, _⟩ | ⟨a1, a2, a3⟩⟩ := ha <;> obtain ⟨_, ⟨b1, b2, m', k', fr', bl, _⟩ | ⟨b1, b2, b3⟩⟩ := hb
  · constructor
    · rintro ⟨_, h⟩
      rw [h, ← b2] at a2
      exact (List.getElem?_inj a1 hnd).1 a2
    · rintro rfl
      rw [a2] at b2
      exact ⟨by rw [al.run, bl.run], Option.some.inj b2⟩
  · constructor
    · rintro ⟨h, _⟩; rw [al.run, b2] at h; exact Bool.noConfusion h
    · intro h; omega
  · constructor
    · rintro ⟨h, _⟩; rw [a2, bl.run] at h; exact Bool.noConfusion h
    · intro h; omega
  · constructor
    · intro _; omega
    · intro _; exact ⟨by rw [a2, b2], by rw [a3, b3]⟩

theorem hxCollect_spec {cache : TCache} {maxC : Int} (hc : CacheT cache maxC) {N : Nat} {o : P2} {L : List P2} (hnd : L.Nodup) (fuel : Nat) (hf : N < fuel) (r : Nat) :
    ∀ (p : Nat) (it : HxIter) (m : Nat), HxAt maxC N o L p it → p + r = L.length → r < m →
      hxCollect cache maxC fuel (hxEnd o) m it = some (L.drop p) := by
  induction r with
  | zero =>
    intro p it m h hp hm
    obtain ⟨m, rfl⟩ : ∃ m', m = m' + 1 := ⟨m - 1, by omega⟩
    rw [hxCollect, if_pos ((hxEq_iff hnd h (hxEnd_at maxC N o L) (by omega) (Nat.le_refl _)).2 (by omega)), List.drop_eq_nil_of_le (by omega)]
  | succ r ih =>
    intro p it m h hp hm
    obtain ⟨m, rfl⟩ : ∃ m', m = m' + 1 := ⟨m - 1, by omega⟩
    rw [hxCollect, if_neg (fun he => by have := (hxEq_iff hnd h (hxEnd_at maxC N o L) (by omega) (Nat.le_refl _)).1 he; omega)]
    obtain ⟨it', h1, h2⟩ := hxNext_spec hc h (by omega) fuel hf
    rw [h1, Option.bind_some, ih (p + 1) it' m h2 (by omega) (by omega), Option.map_some]
    have hpl : p < L.length := by omega
    rw [List.drop_eq_getElem_cons hpl]
    obtain ⟨_, ⟨_, h3, _⟩ | ⟨h3, _⟩⟩ := h
    · rw [List.getElem?_eq_getElem hpl] at h3
      rw [Option.some.inj h3]
    · omega

/-! ## single triangles, filling the cache -/

theorem walk_nodup {n : TB} (ht : n.t < 4) (hw : 0 ≤ n.w) (hh : 0 ≤ n.h) : (walk n).Nodup := by
  obtain ⟨t, x, y, w, h⟩ := n
  obtain ⟨f1, f2⟩ := fills_pairs _ x y w h rfl
  have g1 := List.nodup_append.1 (f1 hw hh).1
  have g2 := List.nodup_append.1 (f2 hw hh).1
  simp only at ht
  have : t = 0 ∨ t = 1 ∨ t = 2 ∨ t = 3 := by omega
  rcases this with rfl | rfl | rfl | rfl
  · exact g2.1
  · exact g1.2.1
  · exact g1.1
  · exact g2.2.1

/-- iterations granted for a box -/
def enough (a b : Nat) : Nat := 2 * 4 ^ (a + b) + a * b + a + b + 3

theorem leaves_bound {maxC : Int} {n : TB} (h : OK n) : (leaves maxC n).length ≤ 4 ^ (n.w.toNat + n.h.toNat) := by
  have := (leaves_spec maxC _ n rfl h.2.1 h.2.2 h.1).2.1
  have h1 := h.2.1
  have h2 := h.2.2
  rw [show n.w.toNat + n.h.toNat = (n.w + n.h).toNat by omega]
  exact this

theorem walk_bound {n : TB} (h : n.t < 4) (hw : 0 ≤ n.w) (hh : 0 ≤ n.h) : (walk n).length ≤ n.w.toNat * n.h.toNat := by
  have := walk_length_le h hw hh
  have e : ((n.w.toNat * n.h.toNat : Nat) : Int) = n.w * n.h := by
    rw [Int.natCast_mul, Int.toNat_of_nonneg hw, Int.toNat_of_nonneg hh]
  omega

theorem hxTri_spec {cache : TCache} {maxC : Int} (hc : CacheT cache maxC) (t : Nat) (x y : Int) (ht : t < 4) (hx : 1 ≤ x) (hy : 1 ≤ y) (fuel : Nat)
    (hf : enough x.toNat y.toNat ≤ fuel) :
    (hxTri cache maxC fuel (0, 0) t (x, y)).bind (fun it => hxCollect cache maxC fuel (hxEnd (0, 0)) fuel it) = some (walk (node0 t x y)) := by
  have hok : OK (node0 t x y) := ⟨ht, hx, hy⟩
  have hmk : mkTri (node0 t x y) (0 : Nat) = { counter := 0, type := t, dims := (x, y), origin := (0, 0) } := by
    unfold mkTri
    congr 1
    refine Prod.ext ?_ ?_
    · unfold TB.cx node0
      simp only
      split <;> omega
    · unfold TB.cy node0
      simp only
      split <;> omega
  unfold hxTri
  rw [← hmk]
  obtain ⟨m, fr', tl, d1, d2, d3, d4, d5, d6⟩ := triDown_spec maxC (triFuel (x, y)) (node0 t x y) 0 [] hok (by omega) (fun _ => rfl)
    (fun p hp => by cases hp) (by unfold triFuel node0; simp only; omega)
  have d1 : triDown maxC (triFuel (x, y)) (mkTri (node0 t x y) (0 : Nat)) [] = some (mkTri m 0, toStack fr') := d1
  rw [d1, Option.bind_some]
  obtain ⟨it, e1, e2, e3, e4, e5⟩ := triEnter_spec hc d2 d3 { hxInit (0, 0) with stack := toStack fr' } 0 (Or.inl rfl)
  rw [e1, Option.bind_some]
  rw [fromC_zero] at d5
  have hst : stackLeaves maxC fr' = tl := by rw [d6]; exact List.append_nil _
  have hlb := leaves_bound (maxC := maxC) hok
  rw [d5, List.length_cons] at hlb
  have hlb : tl.length + 1 ≤ 4 ^ (x.toNat + y.toNat) := hlb
  have hwb := walk_bound (n := node0 t x y) ht (by show 0 ≤ x; omega) (by show 0 ≤ y; omega)
  have hwb : (walk (node0 t x y)).length ≤ x.toNat * y.toNat := hwb
  have hlive : Live maxC it m 0 fr' ((walk (node0 t x y)).drop 0) := by
    refine ⟨e2, d2, e3, d4, ?_, ?_⟩
    · rw [e4]; rfl
    · rw [List.drop_zero, List.drop_zero, hst, ← (leaves_spec maxC _ (node0 t x y) rfl hok.2.1 hok.2.2 hok.1).1, d5, List.flatMap_cons]
  unfold enough at hf
  obtain ⟨it', n1, n2⟩ := hxNext_live hc (N := tl.length) (o := (0, 0)) hlive (by rw [hst]) e5 fuel (by omega)
  rw [n1, Option.bind_some]
  have hnd := walk_nodup (n := node0 t x y) ht (by show 0 ≤ x; omega) (by show 0 ≤ y; omega)
  rw [hxCollect_spec hc hnd fuel (N := tl.length) (by omega) _ 0 it' fuel n2 (by omega : 0 + (walk (node0 t x y)).length = _) (by omega), List.drop_zero]

theorem enough_mono {a b c d : Nat} (h1 : a ≤ c) (h2 : b ≤ d) : enough a b ≤ enough c d := by
  unfold enough
  have e1 : 4 ^ (a + b) ≤ 4 ^ (c + d) := Nat.pow_le_pow_right (by decide) (by omega)
  have e2 : a * b ≤ c * d := Nat.mul_le_mul h1 h2
  omega

theorem tFillRow_spec (maxDim fuel : Nat) (hf : enough maxDim maxDim ≤ fuel) (y : Int) (hy : 2 ≤ y) (hym : y < maxDim) (l : List (Int × Nat)) :
    ∀ cache : TCache, (∀ p ∈ l, (2 ≤ p.1 ∧ p.1 < maxDim) ∧ p.2 < 4) →
    (∀ (x' y' : Int) (t : Nat), 2 ≤ x' → x' < maxDim → 2 ≤ y' → y' < y → t < 4 → EntryT cache x' y' t) →
    ∃ cache', tFillRow fuel y l cache = some cache' ∧ (∀ p ∈ l, EntryT cache' p.1 y p.2) ∧
      ∀ (x' y' : Int) (t : Nat), EntryT cache x' y' t → EntryT cache' x' y' t := by
  induction l with
  | nil => intro cache _ _; exact ⟨cache, rfl, (fun p hp => by cases hp), fun _ _ _ h => h⟩
  | cons p l ih =>
    intro cache hl hc
    obtain ⟨x, t⟩ := p
    obtain ⟨⟨hx, hxm⟩, ht⟩ := hl (x, t) (List.mem_cons_self ..)
    simp only at hx hxm ht
    have hcache : CacheT cache y := fun w h t h1 h2 h3 h4 h5 => hc w h t h1 (by omega) h3 h4 h5
    have he := hxTri_spec hcache t x y ht (by omega) (by omega) fuel (Nat.le_trans (enough_mono (by omega) (by omega)) hf)
    have hput : EntryT (tPut cache x y t (walk (node0 t x y))) x y t := by
      unfold EntryT tPut
      rw [if_pos ⟨rfl, rfl, rfl⟩]
    have hkeep : ∀ (x' y' : Int) (t' : Nat), EntryT cache x' y' t' → EntryT (tPut cache x y t (walk (node0 t x y))) x' y' t' := by
      intro x' y' t' h
      by_cases hh : x' = x ∧ y' = y ∧ t' = t
      · obtain ⟨rfl, rfl, rfl⟩ := hh; exact hput
      · unfold EntryT tPut
        rw [if_neg hh]; exact h
    obtain ⟨c', i1, i2, i3⟩ := ih (tPut cache x y t (walk (node0 t x y))) (fun p hp => hl p (List.mem_cons_of_mem _ hp))
      (fun x' y' t' h1 h2 h3 h4 h5 => hkeep _ _ _ (hc x' y' t' h1 h2 h3 h4 h5))
    refine ⟨c', ?_, fun p hp => ?_, fun x' y' t' h => i3 _ _ _ (hkeep _ _ _ h)⟩
    · rw [tFillRow, he, Option.bind_some]; exact i1
    · rcases List.mem_cons.1 hp with rfl | hp
      · exact i3 _ _ _ hput
      · exact i2 p hp

theorem tFillRows_spec (maxDim fuel : Nat) (hf : enough maxDim maxDim ≤ fuel) (r : Nat) : ∀ (a : Nat) (cache : TCache), a + r = maxDim - 2 →
    (∀ (x' y' : Int) (t : Nat), 2 ≤ x' → x' < maxDim → 2 ≤ y' → y' < (a : Int) + 2 → t < 4 → EntryT cache x' y' t) →
    ∃ cache', tFillRows fuel maxDim ((List.range' a r).map (fun i : Nat => (i : Int) + 2)) cache = some cache' ∧
      ∀ (x' y' : Int) (t : Nat), 2 ≤ x' → x' < maxDim → 2 ≤ y' → y' < maxDim → t < 4 → EntryT cache' x' y' t := by
  induction r with
  | zero =>
    intro a cache ha h
    refine ⟨cache, rfl, fun x' y' f h1 h2 h3 h4 h5 => h x' y' f h1 h2 h3 (by omega) h5⟩
  | succ r ih =>
    intro a cache ha h
    rw [List.range'_succ, List.map_cons, tFillRows]
    obtain ⟨c1, e1, e2, e3⟩ := tFillRow_spec maxDim fuel hf ((a : Int) + 2) (by omega) (by omega) (hPairs maxDim) cache
      (fun p hp => (mem_hPairs _ _).1 hp) h
    rw [e1, Option.bind_some]
    refine ih (a + 1) c1 (by omega) (fun x' y' f h1 h2 h3 h4 h5 => ?_)
    by_cases hy : y' < (a : Int) + 2
    · exact e3 _ _ _ (h x' y' f h1 h2 h3 hy h5)
    · have : y' = (a : Int) + 2 := by omega
      rw [this]
      exact e2 (x', f) ((mem_hPairs _ _).2 ⟨⟨h1, h2⟩, h5⟩)

theorem tFill_spec (maxDim fuel : Nat) (hf : enough maxDim maxDim ≤ fuel) : ∃ cache, tFill fuel maxDim = some cache ∧ CacheT cache maxDim := by
  obtain ⟨c, h1, h2⟩ := tFillRows_spec maxDim fuel hf (maxDim - 2) 0 (fun _ _ _ => []) (by omega) (fun x' y' f h1 h2 h3 h4 h5 => by omega)
  refine ⟨c, ?_, fun x y f a1 a2 a3 a4 a5 => h2 x y f a1 a2 a3 a4 a5⟩
  unfold tFill from2
  rw [List.range_eq_range']; exact h1

/-! ## seeking -/

def kidsWalk (n : TB) (i : Nat) : List P2 := ((List.range 4).drop i).flatMap (fun j => walk (kid n j))

theorem kidsWalk_step {n : TB} {c : Nat} (hc : c < 4) : kidsWalk n c = walk (kid n c) ++ kidsWalk n (c + 1) := by
  have : c = 0 ∨ c = 1 ∨ c = 2 ∨ c = 3 := by omega
  rcases this with rfl | rfl | rfl | rfl <;> simp [kidsWalk, List.range_succ, List.flatMap_cons]

theorem kidsWalk_zero {n : TB} (hw : 2 ≤ n.w) (hh : 2 ≤ n.h) : kidsWalk n 0 = walk n := by
  rw [walk_kids hw hh]
  simp [kidsWalk, List.range_succ, List.flatMap_cons]

theorem kidsFrom_walk {maxC : Int} {n : TB} (hw : 2 ≤ n.w) (hh : 2 ≤ n.h) (i : Nat) : (kidsFrom maxC n i).flatMap walk = kidsWalk n i := by
  unfold kidsFrom kidsWalk
  rw [List.flatMap_assoc]
  congr 1
  funext j
  have := kid_lt n j hw hh
  exact (leaves_spec maxC _ (kid n j) rfl this.1 this.2.1 (kid_t n j)).1

theorem triSkip_spec {n : TB} (h : OK n) (hw : 2 ≤ n.w) (hh : 2 ≤ n.h) (c : Int) (st : List Tri) (k : Nat) : ∀ (i r : Nat), i + k = 4 →
    r < (kidsWalk n i).length → ∃ (j r' : Nat), i ≤ j ∧ j < 4 ∧
      triSkip (mkTri n c) st k i r = (mkTri (kid n j) 0 :: mkTri n j :: st, (r' : Int)) ∧ r' < (walk (kid n j)).length ∧ (r = 0 → r' = 0) ∧
      (kidsWalk n i).drop r = (walk (kid n j)).drop r' ++ kidsWalk n (j + 1) := by
  induction k with
  | zero =>
    intro i r hi hr
    have : i = 4 := by omega
    subst this
    exact (Nat.not_lt_zero _ hr).elim
  | succ k ih =>
    intro i r hi hr
    have hk := kid_lt n i hw hh
    have hs : triSub { mkTri n c with counter := (i : Int) } = mkTri (kid n i) 0 := triSub_mk h (by omega)
    have hlen : triLen (mkTri (kid n i) 0) = (walk (kid n i)).length := triLen_spec 0 (kid_ok hw hh)
    rw [kidsWalk_step (by omega : i < 4)] at hr ⊢
    rw [List.length_append] at hr
    rw [triSkip]
    simp only [hs, hlen]
    by_cases hle : (walk (kid n i)).length ≤ r
    · rw [if_pos (by omega : ((walk (kid n i)).length : Int) ≤ r)]
      have e : (r : Int) - ((walk (kid n i)).length : Int) = ((r - (walk (kid n i)).length : Nat) : Int) := by omega
      rw [e]
      obtain ⟨j, r', i1, i2, i3, i4, i5, i6⟩ := ih (i + 1) (r - (walk (kid n i)).length) (by omega) (by omega)
      refine ⟨j, r', by omega, i2, i3, i4, fun h0 => i5 (by omega), ?_⟩
      rw [List.drop_append, List.drop_eq_nil_of_le hle, List.nil_append]; exact i6
    · rw [if_neg (by omega : ¬ ((walk (kid n i)).length : Int) ≤ r)]
      refine ⟨i, r, Nat.le_refl _, by omega, rfl, by omega, fun h0 => h0, ?_⟩
      rw [List.drop_append_of_le_length (by omega)]

theorem kidsFrom_le {maxC : Int} {n : TB} (d : Nat) : ∀ i, i + d ≤ 4 → (kidsFrom maxC n (i + d)).length ≤ (kidsFrom maxC n i).length := by
  induction d with
  | zero => intro i _; exact Nat.le_refl _
  | succ d ih =>
    intro i h
    have h1 := ih (i + 1) (by omega)
    rw [show i + (d + 1) = i + 1 + d by omega]
    rw [kidsFrom_step (maxC := maxC) (n := n) (by omega : i < 4), List.length_append]
    omega

theorem hxSeek_cons (cache : TCache) (maxC : Int) (f : Nat) (it : HxIter) (t : Tri) (st : List Tri) (r : Int) :
    hxSeek cache maxC (f + 1) it (t :: st) r =
      if triLen t ≤ r then
        (match st with
         | [] => some (hxFinish it)
         | t' :: st' => hxSeek cache maxC f it (t' :: st') (r - triLen t))
      else if triLeaf maxC t.dims then triEnter cache { it with stack := st } t r.toNat
      else hxSeek cache maxC f it (triSkip t st 4 0 r).1 (triSkip t st 4 0 r).2 := by
  rw [hxSeek.eq_def]
  rfl

/-- descending to the leaf which contains position `r` of a triangle -/
theorem hxSeek_spec {cache : TCache} {maxC : Int} (hc : CacheT cache maxC) (f : Nat) : ∀ (it : HxIter) (n : TB) (c : Int) (fr : List Frame) (r : Nat),
    OK n → (∀ p ∈ fr, FrameOK maxC p) → it.endReached = false → r < (walk n).length → (n.w + n.h).toNat ≤ f →
    (r = 0 ∨ ∀ m ∈ leaves maxC n, ¬ (m.w = 1 ∨ m.h = 1)) →
    ∃ it' m k fr', hxSeek cache maxC f it (mkTri n c :: toStack fr) r = some it' ∧
      Live maxC it' m k fr' ((walk n).drop r ++ (stackLeaves maxC fr).flatMap walk) ∧ it'.origin = it.origin ∧
      (stackLeaves maxC fr').length ≤ (leaves maxC n).length + (stackLeaves maxC fr).length := by
  induction f with
  | zero => intro it n c fr r h _ _ _ hf; have := h.2.1; have := h.2.2; omega
  | succ f ih =>
    intro it n c fr r h hfr he hr hf hg
    rw [hxSeek_cons, triLen_spec c h, if_neg (by omega)]
    by_cases hl : leaf maxC n
    · rw [if_pos (show triLeaf maxC (mkTri n c).dims = true from (triLeaf_iff h).2 hl), Int.toNat_natCast]
      have hcond : r = 0 ∨ (¬ (n.w = 1 ∨ n.h = 1) ∧ r < (walk n).length) := by
        rcases hg with hg | hg
        · exact Or.inl hg
        · exact Or.inr ⟨hg n (by rw [leaves_leaf hl]; exact List.mem_singleton_self _), hr⟩
      obtain ⟨it', e1, e2, e3, e4, e5⟩ := triEnter_spec hc h hl { it with stack := toStack fr } r hcond
      refine ⟨it', n, r, fr, e1, ⟨e2, h, e3, hfr, by rw [e4]; exact he, rfl⟩, e5, by omega⟩
    · rw [if_neg (show ¬ triLeaf maxC (mkTri n c).dims = true from fun hc => hl ((triLeaf_iff h).1 hc))]
      obtain ⟨h2, h3⟩ := not_leaf hl
      have hr' := hr
      rw [← kidsWalk_zero h2 h3] at hr'
      obtain ⟨j, r', s1, s2, s3, s4, s5, s6⟩ := triSkip_spec h h2 h3 c (toStack fr) 4 0 r rfl hr'
      rw [s3]
      have hk := kid_lt n j h2 h3
      have hlv : leaves maxC n = kidsFrom maxC n 0 := by rw [← fromC_zero]; unfold fromC; rw [if_neg hl]
      have hfr' : ∀ p ∈ (n, (j : Int)) :: fr, FrameOK maxC p := by
        intro p hp
        rcases List.mem_cons.1 hp with rfl | hp
        · exact ⟨h, Or.inr ⟨by simp only; omega, by simp only; omega, hl⟩⟩
        · exact hfr p hp
      have hfl : frameLeaves maxC (n, (j : Int)) = kidsFrom maxC n (j + 1) := by
        unfold frameLeaves
        rw [if_neg (show ¬ (j : Int) = -1 by omega)]
        congr 1
      have hst : stackLeaves maxC ((n, (j : Int)) :: fr) = kidsFrom maxC n (j + 1) ++ stackLeaves maxC fr := by
        show frameLeaves maxC (n, (j : Int)) ++ _ = _
        rw [hfl]; rfl
      obtain ⟨it', m, k, fr', i1, i2, i3, i4⟩ := ih it (kid n j) 0 ((n, (j : Int)) :: fr) r' (kid_ok h2 h3) hfr' he s4 (by omega) (by
        rcases hg with hg | hg
        · exact Or.inl (s5 hg)
        · right
          intro m hm
          refine hg m ?_
          rw [hlv]
          unfold kidsFrom
          rw [List.drop_zero]
          exact List.mem_flatMap.2 ⟨j, List.mem_range.2 s2, hm⟩)
      refine ⟨it', m, k, fr', i1, ?_, i3, ?_⟩
      · rw [hst, List.flatMap_append, kidsFrom_walk h2 h3, ← List.append_assoc, ← s6, kidsWalk_zero h2 h3] at i2
        exact i2
      · rw [hst, List.length_append] at i4
        have m1 := kidsFrom_le (maxC := maxC) (n := n) j 0 (by omega)
        rw [Nat.zero_add, kidsFrom_step (maxC := maxC) (n := n) s2, List.length_append] at m1
        rw [hlv]; omega

/-- the traversal of a box -/
def hxWalk (o d : P2) : List P2 := walk ⟨2, o.1, o.2, d.1, d.2⟩ ++ walk ⟨1, o.1, o.2, d.1, d.2⟩

theorem hxWalk_fills (o d : P2) (h1 : 0 ≤ d.1) (h2 : 0 ≤ d.2) : Fills (hxWalk o d) o.1 o.2 d.1 d.2 := (fills_pairs _ o.1 o.2 d.1 d.2 rfl).1 h1 h2

/-- no one-dimensional triangles -/
def Chunky (maxC : Int) (d : P2) : Prop := ∀ t, t < 4 → ∀ x y, ∀ m ∈ leaves maxC ⟨t, x, y, d.1, d.2⟩, ¬ (m.w = 1 ∨ m.h = 1)

theorem hxStart_spec {cache : TCache} {maxC : Int} (hc : CacheT cache maxC) (o d : P2) (h1 : 0 ≤ d.1) (h2 : 0 ≤ d.2) (fuel : Nat)
    (hf : enough d.1.toNat d.2.toNat ≤ fuel) (p : Nat) (hg : p = 0 ∨ (hxWalk o d).length ≤ p ∨ Chunky maxC d) :
    ∃ it, hxStart cache maxC fuel o d p = some it ∧ HxAt maxC (2 * 4 ^ (d.1.toNat + d.2.toNat)) o (hxWalk o d) p it := by
  let n2 : TB := ⟨2, o.1, o.2, d.1, d.2⟩
  let n1 : TB := ⟨1, o.1, o.2, d.1, d.2⟩
  have e2 : mkTri n2 0 = { counter := 0, type := 2, dims := d, origin := o } := rfl
  have e1 : mkTri n1 (-1) = { counter := -1, type := 1, dims := d, origin := (o.1 + d.1, o.2 + d.2) } := rfl
  have hlen : ∀ n : TB, n.w = d.1 → n.h = d.2 → n.t < 4 → ∀ c, triLen (mkTri n c) = (walk n).length := by
    intro n hw hh ht c
    by_cases hz : d.1 = 0 ∨ d.2 = 0
    · rw [triLen_zero c (by rw [hw, hh]; exact Int.mul_eq_zero.2 hz), walk_nil (by omega)]; rfl
    · exact triLen_spec c ⟨ht, by omega, by omega⟩
  have l2 := hlen n2 rfl rfl (by show 2 < 4; decide) 0
  have l1 := hlen n1 rfl rfl (by show 1 < 4; decide) (-1)
  have hL : hxWalk o d = walk n2 ++ walk n1 := rfl
  have hLl : (hxWalk o d).length = (walk n2).length + (walk n1).length := by rw [hL, List.length_append]
  unfold enough at hf
  obtain ⟨f, rfl⟩ : ∃ f, fuel = f + 2 := ⟨fuel - 2, by omega⟩
  unfold hxStart
  rw [← e2, ← e1]
  by_cases c2 : (walk n2).length ≤ p
  · rw [hxSeek, l2, if_pos (by omega)]
    by_cases c1 : (walk n1).length ≤ p - (walk n2).length
    · rw [hxSeek, l1, if_pos (by omega)]
      refine ⟨hxFinish (hxInit o), rfl, rfl, Or.inr ⟨by omega, rfl, rfl⟩⟩
    · have ho : OK n1 := by
        refine ⟨by show 1 < 4; decide, ?_, ?_⟩
        · refine Classical.byContradiction (fun hn => c1 ?_)
          rw [walk_nil (Or.inl (by omega))]; exact Nat.zero_le _
        · refine Classical.byContradiction (fun hn => c1 ?_)
          rw [walk_nil (Or.inr (by omega))]; exact Nat.zero_le _
      have e : (p : Int) - ((walk n2).length : Int) = ((p - (walk n2).length : Nat) : Int) := by omega
      rw [e]
      obtain ⟨it', m, k, fr', s1, s2, s3, s4⟩ := hxSeek_spec hc (f + 1) (hxInit o) n1 (-1) [] (p - (walk n2).length) ho (fun p hp => by cases hp) rfl (by omega)
        (by show (d.1 + d.2).toNat ≤ _; omega) (by
          rcases hg with hg | hg | hg
          · left; omega
          · omega
          · exact Or.inr (hg 1 (by decide) _ _))
      have s1 : hxSeek cache maxC (f + 1) (hxInit o) [mkTri n1 (-1)] ((p - (walk n2).length : Nat) : Int) = some it' := s1
      rw [s1, Option.bind_some]
      have hb := leaves_bound (maxC := maxC) ho
      have hb : (leaves maxC n1).length ≤ 4 ^ (d.1.toNat + d.2.toNat) := hb
      have s4 : (stackLeaves maxC fr').length ≤ (leaves maxC n1).length + 0 := s4
      have hN : (stackLeaves maxC fr').length ≤ 2 * 4 ^ (d.1.toNat + d.2.toNat) := by omega
      refine hxNext_live hc (L := hxWalk o d) (p := p) (m := m) (k := k) (fr := fr') ?_ hN s3 (f + 2) (by omega)
      have : (hxWalk o d).drop p = (walk n1).drop (p - (walk n2).length) ++ (stackLeaves maxC []).flatMap walk := by
        rw [hL, List.drop_append, List.drop_eq_nil_of_le c2, List.nil_append]
        exact (List.append_nil _).symm
      rw [this]; exact s2
  · have ho : OK n2 := by
      refine ⟨by show 2 < 4; decide, ?_, ?_⟩
      · refine Classical.byContradiction (fun hn => c2 ?_)
        rw [walk_nil (Or.inl (by omega))]; exact Nat.zero_le _
      · refine Classical.byContradiction (fun hn => c2 ?_)
        rw [walk_nil (Or.inr (by omega))]; exact Nat.zero_le _
    have ho1 : OK n1 := ⟨by show 1 < 4; decide, ho.2.1, ho.2.2⟩
    obtain ⟨it', m, k, fr', s1, s2, s3, s4⟩ := hxSeek_spec hc (f + 2) (hxInit o) n2 0 [(n1, -1)] p ho
      (fun q hq => by
        rw [List.mem_singleton] at hq
        subst hq
        exact ⟨ho1, Or.inl rfl⟩) rfl (by omega)
      (by show (d.1 + d.2).toNat ≤ _; omega) (by
        rcases hg with hg | hg | hg
        · left; omega
        · omega
        · exact Or.inr (hg 2 (by decide) _ _))
    have s1 : hxSeek cache maxC (f + 2) (hxInit o) [mkTri n2 0, mkTri n1 (-1)] (p : Int) = some it' := s1
    rw [s1, Option.bind_some]
    have hb := leaves_bound (maxC := maxC) ho
    have hb : (leaves maxC n2).length ≤ 4 ^ (d.1.toNat + d.2.toNat) := hb
    have hb1 := leaves_bound (maxC := maxC) ho1
    have hb1 : (leaves maxC n1).length ≤ 4 ^ (d.1.toNat + d.2.toNat) := hb1
    have hsl : stackLeaves maxC [(n1, -1)] = leaves maxC n1 := by
      show leaves maxC n1 ++ [] = _
      exact List.append_nil _
    rw [hsl] at s4 s2
    have hN : (stackLeaves maxC fr').length ≤ 2 * 4 ^ (d.1.toNat + d.2.toNat) := by omega
    refine hxNext_live hc (L := hxWalk o d) (p := p) (m := m) (k := k) (fr := fr') ?_ hN s3 (f + 2) (by omega)
    rw [(leaves_spec maxC _ n1 rfl ho1.2.1 ho1.2.2 ho1.1).1] at s2
    have : (hxWalk o d).drop p = (walk n2).drop p ++ walk n1 := by
      rw [hL, List.drop_append_of_le_length (by omega)]
    rw [this]; exact s2

/-- boxes whose triangles all are cached -/
theorem chunky_pow {maxC : Int} (hm : 17 ≤ maxC) (k : Nat) : ∀ n : TB, ((2 ^ (k + 1) : Nat) : Int) ≤ n.w → n.w ≤ ((2 ^ (k + 4) : Nat) : Int) →
    ((2 ^ (k + 1) : Nat) : Int) ≤ n.h → n.h ≤ ((2 ^ (k + 4) : Nat) : Int) → ∀ m ∈ leaves maxC n, ¬ (m.w = 1 ∨ m.h = 1) := by
  induction k with
  | zero =>
    intro n h1 h2 h3 h4 m hmm
    have h1 : (2 : Int) ≤ n.w := h1
    have h2 : n.w ≤ (16 : Int) := h2
    have h3 : (2 : Int) ≤ n.h := h3
    have h4 : n.h ≤ (16 : Int) := h4
    have hl : leaf maxC n := by unfold leaf; omega
    rw [leaves_leaf hl, List.mem_singleton] at hmm
    subst hmm; omega
  | succ k ih =>
    intro n h1 h2 h3 h4 m hmm
    have p1 : 2 ^ (k + 1 + 1) = 2 * 2 ^ (k + 1) := by rw [Nat.pow_succ]; omega
    have p4 : 2 ^ (k + 1 + 4) = 2 * 2 ^ (k + 4) := by rw [show k + 1 + 4 = k + 4 + 1 by omega, Nat.pow_succ]; omega
    have hp : 2 ≤ 2 ^ (k + 1) := by have := Nat.two_pow_pos k; rw [Nat.pow_succ]; omega
    rw [p1] at h1 h3
    rw [p4] at h2 h4
    generalize 2 ^ (k + 1) = a at *
    generalize 2 ^ (k + 4) = b at *
    by_cases hl : leaf maxC n
    · rw [leaves_leaf hl, List.mem_singleton] at hmm
      subst hmm; omega
    · have hk : ∀ c, m ∈ leaves maxC (kid n c) → ¬ (m.w = 1 ∨ m.h = 1) := by
        intro c hmc
        have := kid_dims n c
        exact ih (kid n c) (by omega) (by omega) (by omega) (by omega) m hmc
      rw [leaves_kids hl] at hmm
      simp only [List.mem_append] at hmm
      rcases hmm with h | h | h | h
      · exact hk 0 h
      · exact hk 1 h
      · exact hk 2 h
      · exact hk 3 h

theorem chunky_aspect {maxC : Int} (hm : 17 ≤ maxC) (d : P2) (h1 : 2 ≤ d.1) (h2 : 2 ≤ d.2) (h3 : d.1 ≤ 4 * d.2) (h4 : d.2 ≤ 4 * d.1) : Chunky maxC d := by
  have key : ∀ s : Int, 2 ≤ s → ∃ k : Nat, ((2 ^ (k + 1) : Nat) : Int) ≤ s ∧ s < ((2 ^ (k + 2) : Nat) : Int) := by
    intro s hs
    refine ⟨Nat.log2 s.toNat - 1, ?_, ?_⟩
    · have h := Nat.log2_self_le (n := s.toNat) (by omega)
      have : 1 ≤ Nat.log2 s.toNat := (Nat.le_log2 (by omega)).2 (by omega)
      rw [Nat.sub_add_cancel this]; omega
    · have h := Nat.lt_log2_self (n := s.toNat)
      have : 1 ≤ Nat.log2 s.toNat := (Nat.le_log2 (by omega)).2 (by omega)
      rw [show Nat.log2 s.toNat - 1 + 2 = Nat.log2 s.toNat + 1 by omega]; omega
  intro t _ x y
  obtain ⟨k, k1, k2⟩ := key (min d.1 d.2) (by omega)
  have p4 : 2 ^ (k + 4) = 4 * 2 ^ (k + 2) := by rw [show k + 4 = k + 2 + 1 + 1 by omega, Nat.pow_succ, Nat.pow_succ]; omega
  have q1 : ((2 ^ (k + 1) : Nat) : Int) ≤ d.1 := by omega
  have q2 : ((2 ^ (k + 1) : Nat) : Int) ≤ d.2 := by omega
  have q3 : d.1 ≤ ((2 ^ (k + 4) : Nat) : Int) := by rw [p4]; omega
  have q4 : d.2 ≤ ((2 ^ (k + 4) : Nat) : Int) := by rw [p4]; omega
  exact chunky_pow hm k ⟨t, x, y, d.1, d.2⟩ q1 q3 q2 q4

end LGD.HX
