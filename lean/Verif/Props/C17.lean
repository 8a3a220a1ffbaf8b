import Verif.Part.Hilbert

/-!
# C17 – `HilbertPartition`
-/

namespace LGD.C17
open LGD.C12 LGD.C04

theorem enum (b : Box) (h0 : 0 ≤ b.dims 0) (h1 : 0 ≤ b.dims 1) (f : Nat) (hf : f < 4) :
    (hWalk { origin := b.origin, dims := b.dims, form := f }).Pairwise (fun a b => ¬ CEq 1 a b) ∧
    (∀ c, (∃ c' ∈ hWalk { origin := b.origin, dims := b.dims, form := f }, CEq 1 c' c) ↔ InBox 1 b c) ∧
    ((hWalk { origin := b.origin, dims := b.dims, form := f }).length : Int) = Volume 1 b.dims := by
  have hq : HInv { origin := b.origin, dims := b.dims, form := f } := ⟨h0, h1, hf⟩
  have h := hWalk_enum hq
  refine ⟨h.2, h.1, ?_⟩
  have := walk_length (h_laws (fun _ _ _ => []) 0) hq
  rw [volume_eq]
  exact this

/-- **C17.** For every cache size (the code uses 17): filling the cache terminates, and with it, for every box with
non-negative extents, iteration from `begin()` to `end()` terminates, yields each coordinate of the box exactly once and
nothing else, and `curve[p]` is the `p`-th element of that sequence (the end iterator for larger `p`). -/
theorem traversal (maxDim : Nat) : ∃ cache, hFill maxDim = some cache ∧
    ∀ (b : Box), 0 ≤ b.dims 0 → 0 ≤ b.dims 1 → ∀ (fuel : Nat), Volume 1 b.dims < fuel →
    ∃ l, sqAll 1 (hSub cache maxDim) { origin := b.origin, dims := b.dims, form := 0 } fuel = some l ∧
      l.Pairwise (fun a b => ¬ CEq 1 a b) ∧ (∀ c, (∃ c' ∈ l, CEq 1 c' c) ↔ InBox 1 b c) ∧ (l.length : Int) = Volume 1 b.dims ∧
      ∀ p, ∃ it, hStart cache maxDim b p = some it ∧ (∀ x, l[p]? = some x → it.endReached = false ∧ it.cursor = x) ∧
        (l.length ≤ p → it.endReached = true ∧ it.cursor = b.origin) := by
  obtain ⟨cache, hc, hok⟩ := hFill_spec maxDim
  refine ⟨cache, hc, fun b h0 h1 fuel hf => ?_⟩
  obtain ⟨e1, e2, e3⟩ := enum b h0 h1 0 (by decide)
  rw [← hWalk_eq cache maxDim] at e1 e2 e3
  have hq : HInv { origin := b.origin, dims := b.dims, form := 0 } := ⟨h0, h1, (by decide : 0 < 4)⟩
  refine ⟨_, sqAll_spec (h_laws cache maxDim) hok hq e1 fuel ?_, e1, e2, e3, ?_⟩
  · rw [volume_eq] at hf; exact hf
  · intro p
    exact sqStart_get (h_laws cache maxDim) hok hq p

/-- Regions of a Hilbert partition: inside the box, disjoint, prescribed sizes, covering. -/
theorem partition (maxDim : Nat) : ∃ cache, hFill maxDim = some cache ∧
    ∀ (b : Box), 0 ≤ b.dims 0 → 0 ≤ b.dims 1 → ∀ (offset : Nat) (ws : List Nat) (fuel : Nat), Volume 1 b.dims < fuel →
      IsPartition 1 b offset ws (hRegion cache maxDim b offset ws fuel) := by
  obtain ⟨cache, hc, hok⟩ := hFill_spec maxDim
  refine ⟨cache, hc, fun b h0 h1 offset ws fuel hf => ?_⟩
  obtain ⟨e1, e2, e3⟩ := enum b h0 h1 0 (by decide)
  rw [← hWalk_eq cache maxDim] at e1 e2 e3
  have hq : HInv { origin := b.origin, dims := b.dims, form := 0 } := ⟨h0, h1, (by decide : 0 < 4)⟩
  exact curve_partition (sq_curve (h_laws cache maxDim) hok 1 _ e1) b _ offset ws fuel e1 e2 e3
    (fun p _ => sqStart_spec (h_laws cache maxDim) hok _ hq p) (by omega)

/-! ## on squares with power-of-two edges the curve is continuous -/

/-- neighbors in the von Neumann sense -/
def Adj (a b : Crd) : Prop := (a 0 - b 0).natAbs + (a 1 - b 1).natAbs = 1

/-- start and end corner for each form; axis 1 points downwards, hence "lower" means large -/
def startOff (f : Nat) (e : Int) : Int × Int := if f < 2 then (0, e - 1) else (e - 1, 0)
def endOff (f : Nat) (e : Int) : Int × Int := if f % 2 = 0 then (e - 1, e - 1) else (0, 0)

/-- all consecutive elements are adjacent -/
def Chain (l : List Crd) : Prop := ∀ (i : Nat) a b, l[i]? = some a → l[i + 1]? = some b → Adj a b

structure Path (l : List Crd) (x0 y0 x1 y1 : Int) : Prop where
  chain : Chain l
  first : ∃ a, l.head? = some a ∧ a 0 = x0 ∧ a 1 = y0
  last : ∃ a, l.getLast? = some a ∧ a 0 = x1 ∧ a 1 = y1

theorem Path.append {l m : List Crd} {x0 y0 x1 y1 x2 y2 x3 y3 : Int} (h : Path l x0 y0 x1 y1) (h' : Path m x2 y2 x3 y3)
    (ha : (x1 - x2).natAbs + (y1 - y2).natAbs = 1) : Path (l ++ m) x0 y0 x3 y3 := by
  obtain ⟨a, f1, f2, f3⟩ := h.first
  obtain ⟨z, l1, l2, l3⟩ := h.last
  obtain ⟨a', f1', f2', f3'⟩ := h'.first
  obtain ⟨z', l1', l2', l3'⟩ := h'.last
  refine ⟨fun i x y hx hy => ?_, ⟨a, ?_, f2, f3⟩, ⟨z', ?_, l2', l3'⟩⟩
  · rw [List.getLast?_eq_getElem?] at l1
    rw [List.head?_eq_getElem?] at f1'
    by_cases h1 : i + 1 < l.length
    · rw [List.getElem?_append_left (by omega)] at hx hy
      exact h.chain i x y hx hy
    · by_cases h2 : l.length ≤ i
      · rw [List.getElem?_append_right (by omega)] at hx hy
        have : i + 1 - l.length = i - l.length + 1 := by omega
        rw [this] at hy
        exact h'.chain _ x y hx hy
      · have : i = l.length - 1 := by omega
        subst this
        rw [List.getElem?_append_left (by omega), l1] at hx
        have : l.length - 1 + 1 - l.length = 0 := by omega
        rw [List.getElem?_append_right (by omega), this, f1'] at hy
        cases hx
        cases hy
        unfold Adj
        rw [l2, l3, f2', f3']; exact ha
  · rw [List.head?_append, f1]; rfl
  · rw [List.getLast?_append, l1']; rfl

theorem square_path (m : Nat) : ∀ (q : HSq) (e : Int), e = ((2 ^ m : Nat) : Int) → q.dims 0 = e → q.dims 1 = e → q.form < 4 →
    Path (hWalk q) (q.origin 0 + (startOff q.form e).1) (q.origin 1 + (startOff q.form e).2)
      (q.origin 0 + (endOff q.form e).1) (q.origin 1 + (endOff q.form e).2) := by
  induction m with
  | zero =>
    intro q e he h0 h1 hf
    have he : e = 1 := he
    subst he
    have hq : HInv q := ⟨by omega, by omega, hf⟩
    have ht : hasTriv 1 q.dims = true := by
      unfold hasTriv crdProd crdSum crdProd crdSum
      rw [h0, show q.dims (0 + 1) = 1 from h1]; decide
    have hs : (hSub (fun _ _ _ => []) 0).size q = 1 := by show q.dims 0 * q.dims 1 = 1; rw [h0, h1]; rfl
    have hw : hWalk q = [q.origin] := by
      unfold hWalk
      rw [walk_triv (h_laws _ _) hq ht (by rw [hs]; decide), hs]
      show [upd q.origin _ (q.origin _ + 0)] = _
      congr 1
      funext k
      unfold upd
      split
      · rename_i h; rw [h]; omega
      · rfl
    rw [hw]
    have s1 : startOff q.form 1 = (0, 0) := by unfold startOff; split <;> rfl
    have s2 : endOff q.form 1 = (0, 0) := by unfold endOff; split <;> rfl
    rw [s1, s2]
    exact ⟨fun i a b _ h => by simp at h, ⟨q.origin, rfl, by simp, by simp⟩, ⟨q.origin, rfl, by simp, by simp⟩⟩
  | succ m ih =>
    intro q e he h0 h1 hf
    obtain ⟨r, hr⟩ : ∃ r : Int, r = ((2 ^ m : Nat) : Int) := ⟨_, rfl⟩
    have hrp : 1 ≤ r := by have := Nat.two_pow_pos m; omega
    have her : e = 2 * r := by rw [he, hr, Nat.pow_succ]; omega
    have hq : HInv q := ⟨by omega, by omega, hf⟩
    have ht : hasTriv 1 q.dims = false := by
      cases h : hasTriv 1 q.dims with
      | false => rfl
      | true =>
        have hpos : 0 < crdProd 1 q.dims := by
          show 0 < q.dims 0 * q.dims 1
          exact Int.mul_pos (by omega) (by omega)
        have : q.dims 0 = 1 ∨ q.dims 1 = 1 := (hasTriv_pos (zinv1 hq) hpos).1 h 0 1 (by decide) (by decide)
        omega
    have hnode : hWalk q = (List.range 4).flatMap (fun j => hWalk (hKid q j)) := walk_node (h_laws _ _) hq ht
    have hexp : hWalk q = hWalk (hKid q 0) ++ (hWalk (hKid q 1) ++ (hWalk (hKid q 2) ++ hWalk (hKid q 3))) := by
      rw [hnode]
      show hWalk (hKid q 0) ++ (hWalk (hKid q 1) ++ (hWalk (hKid q 2) ++ (hWalk (hKid q 3) ++ []))) = _
      rw [List.append_nil]
    have hk : ∀ j, j < 4 → Path (hWalk (hKid q j)) (secX q (hSector q.form j) + (startOff (hForm q.form j) r).1)
        (secY q (hSector q.form j) + (startOff (hForm q.form j) r).2) (secX q (hSector q.form j) + (endOff (hForm q.form j) r).1)
        (secY q (hSector q.form j) + (endOff (hForm q.form j) r).2) := by
      intro j hj
      obtain ⟨g1, g2, g3⟩ := hKid_geo hq hj
      have := ih (hKid q j) r hr (by rw [g2]; show secW q _ = r; unfold secW; split <;> omega)
        (by rw [g2]; show secH q _ = r; unfold secH; split <;> omega) (by rw [g3]; exact hForm_lt hf hj)
      rw [g1, g3] at this
      exact this
    have k0 := hk 0 (by decide)
    have k1 := hk 1 (by decide)
    have k2 := hk 2 (by decide)
    have k3 := hk 3 (by decide)
    have e0 : q.dims 0 / 2 = r := by omega
    have e1 : q.dims 1 / 2 = r := by omega
    rw [hexp]
    have hfs : q.form = 0 ∨ q.form = 1 ∨ q.form = 2 ∨ q.form = 3 := by omega
    subst her
    rcases hfs with hf | hf | hf | hf <;> rw [hf] at k0 k1 k2 k3 ⊢ <;>
      simp [hSector, hForm, secX, secY, startOff, endOff, e0, e1] at k0 k1 k2 k3 ⊢
    all_goals
      have := k0.append (k1.append (k2.append k3 (by omega)) (by omega)) (by omega)
      refine (?_ : ∀ {a b c d a' b' c' d' : Int}, Path _ a b c d → a = a' → b = b' → c = c' → d = d' → Path _ a' b' c' d') this ?_ ?_ ?_ ?_
      · intro a b c d a' b' c' d' h h1 h2 h3 h4; rw [← h1, ← h2, ← h3, ← h4]; exact h
      all_goals omega

/-- On squares with an edge length of `2 ^ m`, consecutive coordinates are direct neighbors, the curve starts in the lower
left corner and ends in the lower right one. -/
theorem continuous (m : Nat) (b : Box) (h0 : b.dims 0 = ((2 ^ m : Nat) : Int)) (h1 : b.dims 1 = ((2 ^ m : Nat) : Int)) :
    Path (hWalk { origin := b.origin, dims := b.dims, form := 0 }) (b.origin 0) (b.origin 1 + b.dims 1 - 1)
      (b.origin 0 + b.dims 0 - 1) (b.origin 1 + b.dims 1 - 1) := by
  have := square_path m { origin := b.origin, dims := b.dims, form := 0 } _ rfl h0 h1 (by decide : 0 < 4)
  simp only [startOff, endOff] at this
  rw [h0, h1]
  refine (?_ : ∀ {a b c d a' b' c' d' : Int}, Path _ a b c d → a = a' → b = b' → c = c' → d = d' → Path _ a' b' c' d') this ?_ ?_ ?_ ?_
  · intro a b c d a' b' c' d' h h1 h2 h3 h4; rw [← h1, ← h2, ← h3, ← h4]; exact h
  · show b.origin 0 + 0 = _; omega
  · show b.origin 1 + (_ - 1) = _; omega
  · show b.origin 0 + (_ - 1) = _; omega
  · show b.origin 1 + (_ - 1) = _; omega

/-! ## examples -/

def pts (l : Option (List Crd)) : Option (List (Int × Int)) := l.map (fun l => l.map (fun c => (c 0, c 1)))

example : pts (sqAll 1 (hSub (fun _ _ _ => []) 0) { origin := xyc 5 7, dims := xyc 4 4, form := 0 } 17) = some [(5, 10), (6, 10), (6, 9), (5, 9),
    (5, 8), (5, 7), (6, 7), (6, 8), (7, 8), (7, 7), (8, 7), (8, 8), (8, 9), (7, 9), (7, 10), (8, 10)] := by decide +kernel

/-- the cache for squares below 4, and a traversal which uses it -/
example : pts ((hFill 4).bind (fun c => sqAll 1 (hSub c 4) { origin := xyc 0 0, dims := xyc 5 4, form := 0 } 21)) =
    pts (sqAll 1 (hSub (fun _ _ _ => []) 0) { origin := xyc 0 0, dims := xyc 5 4, form := 0 } 21) := by decide +kernel

example : pts ((hFill 4).bind (fun c => sqAll 1 (hSub c 4) { origin := xyc 0 0, dims := xyc 3 2, form := 0 } 21)) =
    some [(0, 1), (0, 0), (1, 0), (2, 0), (1, 1), (2, 1)] := by decide +kernel

/-- hypotheses are met -/
example : 0 ≤ (bx 0 0 0 5 4 0).dims 0 ∧ 0 ≤ (bx 0 0 0 5 4 0).dims 1 ∧ Volume 1 (bx 0 0 0 5 4 0).dims < (21 : Nat) := by decide

end LGD.C17
