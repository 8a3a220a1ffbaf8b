import Verif.Part.Z
import Verif.Part.HilbertModel

/-!
# The Hilbert curve is a traversal of its box
-/

namespace LGD
open LGD.C12

def HInv (q : HSq) : Prop := 0 ≤ q.dims 0 ∧ 0 ≤ q.dims 1 ∧ q.form < 4

def hBox (q : HSq) : Box := { origin := q.origin, dims := q.dims }

theorem zinv1 {q : HSq} (h : HInv q) : ZInv 1 (hBox q) := by
  intro k hk
  have : k = 0 ∨ k = 1 := by omega
  rcases this with rfl | rfl
  · exact h.1
  · exact h.2.1

theorem inBox1 (b : Box) (c : Crd) : InBox 1 b c ↔ (b.origin 0 ≤ c 0 ∧ c 0 < b.origin 0 + b.dims 0) ∧ (b.origin 1 ≤ c 1 ∧ c 1 < b.origin 1 + b.dims 1) := by
  constructor
  · intro h; exact ⟨h 0 (by omega), h 1 (by omega)⟩
  · rintro ⟨h0, h1⟩ k hk
    have : k = 0 ∨ k = 1 := by omega
    rcases this with rfl | rfl
    · exact h0
    · exact h1

/-- non-trivial squares: both extents are at least 2 -/
theorem h_nontriv {q : HSq} (h : HInv q) (ht : hasTriv 1 q.dims = false) : 2 ≤ q.dims 0 ∧ 2 ≤ q.dims 1 := by
  obtain ⟨h1, h2, _⟩ := not_triv (zinv1 h) ht
  have a0 := h2 0 (by omega)
  have a1 := h2 1 (by omega)
  have : ¬ (q.dims 0 = 1 ∨ q.dims 1 = 1) := by
    intro hc
    have : hasTriv 1 q.dims = true := (hasTriv_pos (zinv1 h) h1).2 (fun i j hij hj => by
      have e1 : i = 0 := by omega
      have e2 : j = 1 := by omega
      rw [e1, e2]; exact hc)
    rw [ht] at this; exact Bool.noConfusion this
  have a0 : 0 < q.dims 0 := a0
  have a1 : 0 < q.dims 1 := a1
  omega

/-- extents of sector `s` -/
def secW (q : HSq) (s : Nat) : Int := if s % 2 = 1 then q.dims 0 - q.dims 0 / 2 else q.dims 0 / 2
def secH (q : HSq) (s : Nat) : Int := if 2 ≤ s then q.dims 1 - q.dims 1 / 2 else q.dims 1 / 2
def secX (q : HSq) (s : Nat) : Int := if s % 2 = 1 then q.origin 0 + q.dims 0 / 2 else q.origin 0
def secY (q : HSq) (s : Nat) : Int := if 2 ≤ s then q.origin 1 + q.dims 1 / 2 else q.origin 1

theorem hSector_lt {f j : Nat} (hf : f < 4) (hj : j < 4) : hSector f j < 4 := by
  have : (f = 0 ∨ f = 1 ∨ f = 2 ∨ f = 3) ∧ (j = 0 ∨ j = 1 ∨ j = 2 ∨ j = 3) := by omega
  rcases this with ⟨rfl | rfl | rfl | rfl, rfl | rfl | rfl | rfl⟩ <;> decide

theorem hForm_lt {f j : Nat} (hf : f < 4) (hj : j < 4) : hForm f j < 4 := by
  have : (f = 0 ∨ f = 1 ∨ f = 2 ∨ f = 3) ∧ (j = 0 ∨ j = 1 ∨ j = 2 ∨ j = 3) := by omega
  rcases this with ⟨rfl | rfl | rfl | rfl, rfl | rfl | rfl | rfl⟩ <;> decide

theorem hSector_surj {f s : Nat} (hf : f < 4) (hs : s < 4) : ∃ j, j < 4 ∧ hSector f j = s := by
  have : (f = 0 ∨ f = 1 ∨ f = 2 ∨ f = 3) ∧ (s = 0 ∨ s = 1 ∨ s = 2 ∨ s = 3) := by omega
  rcases this with ⟨rfl | rfl | rfl | rfl, rfl | rfl | rfl | rfl⟩ <;> decide

theorem hSector_inj {f i j : Nat} (hf : f < 4) (hi : i < 4) (hj : j < 4) (h : hSector f i = hSector f j) : i = j := by
  have : (f = 0 ∨ f = 1 ∨ f = 2 ∨ f = 3) ∧ (i = 0 ∨ i = 1 ∨ i = 2 ∨ i = 3) ∧ (j = 0 ∨ j = 1 ∨ j = 2 ∨ j = 3) := by omega
  rcases this with ⟨rfl | rfl | rfl | rfl, rfl | rfl | rfl | rfl, rfl | rfl | rfl | rfl⟩ <;> revert h <;> decide

theorem hKid_geo {q : HSq} (h : HInv q) {j : Nat} (hj : j < 4) :
    (hKid q j).origin = xyo q.origin (secX q (hSector q.form j)) (secY q (hSector q.form j)) ∧
    (hKid q j).dims = xyc (secW q (hSector q.form j)) (secH q (hSector q.form j)) ∧ (hKid q j).form = hForm q.form j := by
  have hs := hSector_lt h.2.2 hj
  unfold hKid secX secY secW secH
  rw [half_nonneg h.1, half_nonneg h.2.1]
  have : hSector q.form j = 0 ∨ hSector q.form j = 1 ∨ hSector q.form j = 2 ∨ hSector q.form j = 3 := by omega
  rcases this with hs | hs | hs | hs <;> rw [hs] <;> refine ⟨?_, rfl, rfl⟩
  · funext k
    unfold xyo
    simp only [Nat.zero_mod, Nat.zero_ne_one, if_false, Nat.not_le_of_lt (by decide : 0 < 2)]
    split
    · rename_i h; rw [h]
    · split
      · rename_i h; rw [h]
      · rfl
  · rfl
  · rfl
  · rfl

theorem hKid_inv {q : HSq} (h : HInv q) {j : Nat} (hj : j < 4) : HInv (hKid q j) := by
  obtain ⟨_, h2, h3⟩ := hKid_geo h hj
  have h0 := h.1
  have h1 := h.2.1
  refine ⟨?_, ?_, by rw [h3]; exact hForm_lt h.2.2 hj⟩
  · rw [h2]; show 0 ≤ secW q _; unfold secW; split <;> omega
  · rw [h2]; show 0 ≤ secH q _; unfold secH; split <;> omega

def hSize (q : HSq) : Int := q.dims 0 * q.dims 1

theorem hKid_size {q : HSq} (h : HInv q) {j : Nat} (hj : j < 4) : hSize (hKid q j) = secW q (hSector q.form j) * secH q (hSector q.form j) := by
  unfold hSize
  rw [(hKid_geo h hj).2.1]; rfl

/-- `accuSizes` are the prefix sums of the quarter sizes -/
theorem hAccu_spec {q : HSq} (h : HInv q) :
    hAccu q 0 = 0 ∧ hAccu q 1 = hAccu q 0 + hSize (hKid q 0) ∧ hAccu q 2 = hAccu q 1 + hSize (hKid q 1) ∧
    hAccu q 3 = hAccu q 2 + hSize (hKid q 2) ∧ hSize q = hAccu q 3 + hSize (hKid q 3) := by
  rw [hKid_size h (by decide), hKid_size h (by decide), hKid_size h (by decide), hKid_size h (by decide)]
  obtain ⟨h0, h1, hf⟩ := h
  have e0 : hSize q = q.dims 0 * q.dims 1 := rfl
  rw [e0]
  simp only [hAccu, half_nonneg h0, half_nonneg h1]
  unfold secW secH
  obtain ⟨a, ha⟩ : ∃ a, a = q.dims 0 - q.dims 0 / 2 := ⟨_, rfl⟩
  obtain ⟨b, hb⟩ : ∃ b, b = q.dims 1 - q.dims 1 / 2 := ⟨_, rfl⟩
  have hw : q.dims 0 = q.dims 0 / 2 + a := by omega
  have hh : q.dims 1 = q.dims 1 / 2 + b := by omega
  rw [← ha, ← hb]
  generalize q.dims 0 / 2 = x at *
  generalize q.dims 1 / 2 = y at *
  rw [hw, hh]
  have : q.form = 0 ∨ q.form = 1 ∨ q.form = 2 ∨ q.form = 3 := by omega
  rcases this with hf | hf | hf | hf <;> rw [hf] <;> simp [hSector, Int.add_mul, Int.mul_add] <;> omega

theorem h_half_pos {q : HSq} (h : HInv q) (ht : hasTriv 1 q.dims = false) (s : Nat) :
    0 < secW q s ∧ secW q s < q.dims 0 ∧ 0 < secH q s ∧ secH q s < q.dims 1 := by
  obtain ⟨h0, h1⟩ := h_nontriv h ht
  unfold secW secH
  split <;> split <;> omega

theorem h_laws (cache : HCache) (maxC : Int) : (hSub cache maxC).Laws HInv := by
  refine { kpos := (by decide : 0 < 4), size_nonneg := ?_, pos := ?_, kid_inv := ?_, kid_lt := ?_, len_eq := ?_, accu_zero := ?_, accu_succ := ?_, accu_last := ?_, last_pos := ?_, select_ok := ?_, up_nil := rfl, up_cons := ?_ }
  · intro q hq; exact Int.mul_nonneg hq.1 hq.2.1
  · intro q hq ht
    obtain ⟨h0, h1⟩ := h_nontriv hq ht
    exact Int.mul_pos (by omega) (by omega)
  · intro q j hq _ hj; exact hKid_inv hq hj
  · intro q j hq ht hj
    show hSize (hKid q j) < q.dims 0 * q.dims 1
    rw [hKid_size hq hj]
    obtain ⟨h0, h1, h2, h3⟩ := h_half_pos hq ht (hSector q.form j)
    exact Int.mul_lt_mul h1 (by omega) h2 (by omega)
  · intro q hq ht h0
    have h0' : 0 < crdProd 1 q.dims := h0
    have := (hasTriv_pos (zinv1 hq) h0').1 ht 0 1 (by omega) (by omega)
    have hp := (prod_pos_iff 1 _ (zinv1 hq)).1 h0'
    have a0 : 0 < q.dims 0 := hp 0 (by omega)
    have a1 : 0 < q.dims 1 := hp 1 (by omega)
    have this : q.dims 0 = 1 ∨ q.dims 1 = 1 := this
    show (if q.dims 0 > 1 then q.dims 0 else q.dims 1) = q.dims 0 * q.dims 1
    split
    · have : q.dims 1 = 1 := by omega
      rw [this, Int.mul_one]
    · have : q.dims 0 = 1 := by omega
      rw [this, Int.one_mul]
  · intro q hq _; exact (hAccu_spec hq).1
  · intro q j hq _ hj
    obtain ⟨_, s1, s2, s3, _⟩ := hAccu_spec hq
    have hj : j + 1 < 4 := hj
    have : j = 0 ∨ j = 1 ∨ j = 2 := by omega
    rcases this with rfl | rfl | rfl
    · exact s1
    · exact s2
    · exact s3
  · intro q hq _; exact (hAccu_spec hq).2.2.2.2
  · intro q hq ht
    show 0 < hSize (hKid q 3)
    rw [hKid_size hq (by decide)]
    obtain ⟨h0, h1, h2, h3⟩ := h_half_pos hq ht (hSector q.form 3)
    exact Int.mul_pos h0 h2
  · intro q p hq ht h0 hp
    obtain ⟨s0, s1, s2, s3, s4⟩ := hAccu_spec hq
    have hp : p < hSize q := hp
    show hSelect q p < 4 ∧ hAccu q (hSelect q p) ≤ p ∧ p < hAccu q (hSelect q p) + hSize (hKid q (hSelect q p))
    unfold hSelect
    split
    · split
      · exact ⟨by decide, by omega, by omega⟩
      · exact ⟨by decide, by omega, by omega⟩
    · split
      · exact ⟨by decide, by omega, by omega⟩
      · exact ⟨by decide, by omega, by omega⟩
  · intro q k st _
    show hUp ((q, k) :: st) = _
    rw [hUp]; rfl

theorem h_geo (cache : HCache) (maxC : Int) : (hSub cache maxC).Geo HInv 1 (fun q c => InBox 1 (hBox q) c) := by
  refine { congr := ?_, empty := ?_, dir_le := ?_, triv := ?_, node := ?_, disj := ?_ }
  · intro q a b hab h k hk
    rw [← hab k hk]; exact h k hk
  · intro q c hq h0 hc
    rw [inBox1] at hc
    have : 0 < q.dims 0 * q.dims 1 := Int.mul_pos (by have := hc.1; simp only [hBox] at this; omega) (by have := hc.2; simp only [hBox] at this; omega)
    have h0 : q.dims 0 * q.dims 1 ≤ 0 := h0
    omega
  · intro q _ _; show (if q.dims 0 > 1 then 0 else 1) ≤ 1; split <;> omega
  · intro q c hq ht h0
    have hlen := (h_laws cache maxC).len_eq q hq ht h0
    have h0' : 0 < crdProd 1 q.dims := h0
    have := (hasTriv_pos (zinv1 hq) h0').1 ht 0 1 (by omega) (by omega)
    have hp := (prod_pos_iff 1 _ (zinv1 hq)).1 h0'
    have a0 : 0 < q.dims 0 := hp 0 (by omega)
    have a1 : 0 < q.dims 1 := hp 1 (by omega)
    have this : q.dims 0 = 1 ∨ q.dims 1 = 1 := this
    rw [← hlen, inBox1]
    show (q.origin 0 ≤ c 0 ∧ c 0 < q.origin 0 + q.dims 0) ∧ (q.origin 1 ≤ c 1 ∧ c 1 < q.origin 1 + q.dims 1) ↔
      ∃ i : Nat, (i : Int) < (if q.dims 0 > 1 then q.dims 0 else q.dims 1) ∧
        CEq 1 (upd q.origin (if q.dims 0 > 1 then 0 else 1) (q.origin (if q.dims 0 > 1 then 0 else 1) + (i : Int))) c
    have hce : ∀ a : Crd, CEq 1 a c ↔ a 0 = c 0 ∧ a 1 = c 1 := by
      intro a
      constructor
      · intro h; exact ⟨h 0 (by omega), h 1 (by omega)⟩
      · rintro ⟨h0, h1⟩ k hk
        have : k = 0 ∨ k = 1 := by omega
        rcases this with rfl | rfl
        · exact h0
        · exact h1
    simp only [hce]
    by_cases hx : q.dims 0 > 1
    · simp only [if_pos hx, upd, if_true]
      constructor
      · rintro ⟨h1, h2⟩
        exact ⟨(c 0 - q.origin 0).toNat, by omega, by omega, by simp; omega⟩
      · rintro ⟨i, h1, h2, h3⟩
        simp at h3
        omega
    · simp only [if_neg hx, upd, if_true]
      constructor
      · rintro ⟨h1, h2⟩
        exact ⟨(c 1 - q.origin 1).toNat, by omega, by simp; omega, by omega⟩
      · rintro ⟨i, h1, h2, h3⟩
        simp at h2
        omega
  · intro q c hq ht
    have hk : ∀ j, j < 4 → (InBox 1 (hBox (hKid q j)) c ↔ (secX q (hSector q.form j) ≤ c 0 ∧ c 0 < secX q (hSector q.form j) + secW q (hSector q.form j)) ∧
        (secY q (hSector q.form j) ≤ c 1 ∧ c 1 < secY q (hSector q.form j) + secH q (hSector q.form j))) := by
      intro j hj
      rw [inBox1]
      obtain ⟨g1, g2, _⟩ := hKid_geo hq hj
      simp only [hBox]
      rw [g1, g2]; rfl
    have h0 := hq.1
    have h1 := hq.2.1
    rw [inBox1]
    show (q.origin 0 ≤ c 0 ∧ c 0 < q.origin 0 + q.dims 0) ∧ (q.origin 1 ≤ c 1 ∧ c 1 < q.origin 1 + q.dims 1) ↔ ∃ j, j < 4 ∧ InBox 1 (hBox (hKid q j)) c
    constructor
    · intro hc
      obtain ⟨s, hs, hin⟩ : ∃ s, s < 4 ∧ (secX q s ≤ c 0 ∧ c 0 < secX q s + secW q s) ∧ (secY q s ≤ c 1 ∧ c 1 < secY q s + secH q s) := by
        by_cases hx : c 0 < q.origin 0 + q.dims 0 / 2 <;> by_cases hy : c 1 < q.origin 1 + q.dims 1 / 2
        · exact ⟨0, by decide, by simp [secX, secW, secY, secH]; omega⟩
        · exact ⟨2, by decide, by simp [secX, secW, secY, secH]; omega⟩
        · exact ⟨1, by decide, by simp [secX, secW, secY, secH]; omega⟩
        · exact ⟨3, by decide, by simp [secX, secW, secY, secH]; omega⟩
      obtain ⟨j, hj, rfl⟩ := hSector_surj hq.2.2 hs
      exact ⟨j, hj, (hk j hj).2 hin⟩
    · rintro ⟨j, hj, hin⟩
      have hin := (hk j hj).1 hin
      unfold secX secY secW secH at hin
      split at hin <;> split at hin <;> omega
  · intro q c i j hq ht hij hj hi hj'
    have hj : j < 4 := hj
    have hii : i < 4 := by omega
    have hne : hSector q.form i ≠ hSector q.form j := fun h => by have := hSector_inj hq.2.2 hii hj h; omega
    have hi : InBox 1 (hBox (hKid q i)) c := hi
    have hj' : InBox 1 (hBox (hKid q j)) c := hj'
    rw [inBox1] at hi hj'
    obtain ⟨g1, g2, _⟩ := hKid_geo hq hii
    obtain ⟨g3, g4, _⟩ := hKid_geo hq hj
    simp only [hBox] at hi hj'
    rw [g1, g2] at hi
    rw [g3, g4] at hj'
    have l1 := hSector_lt hq.2.2 hii
    have l2 := hSector_lt hq.2.2 hj
    have hi : (secX q (hSector q.form i) ≤ c 0 ∧ c 0 < secX q (hSector q.form i) + secW q (hSector q.form i)) ∧
        (secY q (hSector q.form i) ≤ c 1 ∧ c 1 < secY q (hSector q.form i) + secH q (hSector q.form i)) := hi
    have hj' : (secX q (hSector q.form j) ≤ c 0 ∧ c 0 < secX q (hSector q.form j) + secW q (hSector q.form j)) ∧
        (secY q (hSector q.form j) ≤ c 1 ∧ c 1 < secY q (hSector q.form j) + secH q (hSector q.form j)) := hj'
    generalize hSector q.form i = s at *
    generalize hSector q.form j = t at *
    unfold secX secY secW secH at hi hj'
    have : (s % 2 = 1) ≠ (t % 2 = 1) ∨ (2 ≤ s) ≠ (2 ≤ t) := by
      by_cases h1 : s % 2 = 1 <;> by_cases h2 : t % 2 = 1 <;> by_cases h3 : 2 ≤ s <;> by_cases h4 : 2 ≤ t <;> simp [h1, h2, h3, h4] <;> omega
    by_cases h1 : s % 2 = 1 <;> by_cases h2 : t % 2 = 1 <;> by_cases h3 : 2 ≤ s <;> by_cases h4 : 2 ≤ t <;>
      simp only [h1, h2, h3, h4, if_true, if_false] at hi hj' this <;> first | omega | (simp at this)

/-! ## translation and cache -/

/-- coordinates of the Hilbert curve in order -/
def hWalk (q : HSq) : List Crd := walk (hSub (fun _ _ _ => []) 0) q

theorem hWalk_eq (cache : HCache) (maxC : Int) (q : HSq) : walk (hSub cache maxC) q = hWalk q :=
  walk_cache (hSub (fun _ _ _ => []) 0) (hSub cache maxC).cached q

/-- `q` is `q0` shifted by `o` -/
def HRel (q q0 : HSq) (o : Crd) : Prop :=
  (q.dims 0 = q0.dims 0 ∧ q.dims 1 = q0.dims 1) ∧ q.form = q0.form ∧ q.origin = fun k => o k + q0.origin k

theorem h_shift (cache : HCache) (maxC : Int) : Shift (hSub cache maxC) HInv HRel := by
  refine { size := ?_, triv := ?_, dir := ?_, org := ?_, kid := ?_ }
  · rintro q q0 o ⟨⟨h0, h1⟩, _⟩; show q.dims 0 * q.dims 1 = q0.dims 0 * q0.dims 1; rw [h0, h1]
  · rintro q q0 o ⟨⟨h0, h1⟩, _⟩
    show hasTriv 1 q.dims = hasTriv 1 q0.dims
    simp only [hasTriv, crdProd, crdSum, h0, h1]; rfl
  · rintro q q0 o ⟨⟨h0, h1⟩, _⟩; show (if q.dims 0 > 1 then 0 else 1) = (if q0.dims 0 > 1 then 0 else 1); rw [h0]
  · rintro q q0 o ⟨_, _, h⟩; exact h
  · rintro q q0 o j ⟨⟨h0, h1⟩, h2, h3⟩
    have hx : q.origin 0 = o 0 + q0.origin 0 := by rw [h3]
    have hy : q.origin 1 = o 1 + q0.origin 1 := by rw [h3]
    show HRel (hKid q j) (hKid q0 j) o
    unfold hKid
    rw [h0, h1, h2, hx, hy]
    dsimp only
    split
    · exact ⟨⟨rfl, rfl⟩, rfl, h3⟩
    all_goals
      refine ⟨⟨rfl, rfl⟩, rfl, ?_⟩
      funext k
      show xyo _ _ _ k = o k + xyo _ _ _ k
      unfold xyo
      split
      · rename_i h; subst h; omega
      · split
        · rename_i h; subst h; omega
        · rw [h3]

theorem hWalk_shift {q : HSq} (hq : HInv q) : hWalk q = (hWalk { origin := xyc 0 0, dims := xyc (q.dims 0) (q.dims 1), form := q.form }).map (fun c k => q.origin k + c k) :=
  walk_shift (h_laws _ _) (h_shift (fun _ _ _ => []) 0) _ q _ q.origin hq hq
    ⟨⟨rfl, rfl⟩, rfl, by
      funext k
      show q.origin k = q.origin k + xyc 0 0 k
      unfold xyc; split <;> (try split) <;> omega⟩ rfl

/-- entry of the cache is correct -/
def Entry (cache : HCache) (x y : Int) (f : Nat) : Prop := cache x y f = hWalk { origin := xyc 0 0, dims := xyc x y, form := f }

theorem h_cacheOK {cache : HCache} {maxC : Int} (h : ∀ x y f, 2 ≤ x → x < maxC → 2 ≤ y → y < maxC → f < 4 → Entry cache x y f) :
    (hSub cache maxC).CacheOK HInv := by
  intro q l hq ht hl
  obtain ⟨h0, h1⟩ := h_nontriv hq ht
  have hl : (if q.dims 0 < maxC ∧ q.dims 1 < maxC then some (cache (q.dims 0) (q.dims 1) q.form) else none) = some l := hl
  split at hl
  · rename_i hc
    rw [← Option.some.inj hl, hWalk_eq, h _ _ _ h0 hc.1 h1 hc.2 hq.2.2]
    exact (hWalk_shift hq).symm
  · cases hl

theorem hWalk_enum {q : HSq} (hq : HInv q) : (∀ c, (∃ c' ∈ hWalk q, CEq 1 c' c) ↔ InBox 1 (hBox q) c) ∧ (hWalk q).Pairwise (fun a b => ¬ CEq 1 a b) :=
  walk_mem (h_laws _ _) (h_geo (fun _ _ _ => []) 0) _ q hq rfl

theorem hPut_entry {cache : HCache} {x y : Int} {f : Nat} {l : List Crd} (hl : l = hWalk { origin := xyc 0 0, dims := xyc x y, form := f })
    {x' y' : Int} {f' : Nat} (h : Entry cache x' y' f') : Entry (hPut cache x y f l) x' y' f' := by
  unfold Entry hPut
  split
  · rename_i hc
    obtain ⟨rfl, rfl, rfl⟩ := hc
    exact hl
  · exact h

theorem hFillRow_spec (maxDim : Nat) (y : Int) (hy : 2 ≤ y) (hy' : y ≤ maxDim) (L : List (Int × Nat)) : ∀ (cache : HCache),
    (∀ p ∈ L, 0 ≤ p.1 ∧ p.2 < 4) →
    (∀ (x' y' : Int) (f : Nat), 2 ≤ x' → x' < maxDim → 2 ≤ y' → y' < y → f < 4 → Entry cache x' y' f) →
    ∃ cache', hFillRow y L cache = some cache' ∧ (∀ p ∈ L, Entry cache' p.1 y p.2) ∧ (∀ x y f, Entry cache x y f → Entry cache' x y f) := by
  induction L with
  | nil => intro cache _ _; exact ⟨cache, rfl, fun p hp => (List.not_mem_nil hp).elim, fun _ _ _ h => h⟩
  | cons p L ih =>
    obtain ⟨x, f⟩ := p
    intro cache hL hc
    obtain ⟨hx, hf⟩ := hL (x, f) (List.mem_cons_self ..)
    have hinv : HInv { origin := xyc 0 0, dims := xyc x y, form := f } := ⟨hx, (by show 0 ≤ y; omega), hf⟩
    have hok : (hSub cache y).CacheOK HInv := h_cacheOK (fun x' y' f' h1 h2 h3 h4 h5 => hc x' y' f' h1 (by omega) h3 h4 h5)
    have hnd := (hWalk_enum hinv).2
    have hall := sqAll_spec (n := 1) (h_laws cache y) hok hinv (by rw [hWalk_eq]; exact hnd) ((x * y).toNat + 1) (by
      have : 0 ≤ x * y := Int.mul_nonneg hx (by omega)
      show x * y < _
      omega)
    rw [hWalk_eq] at hall
    obtain ⟨cache', r1, r2, r3⟩ := ih (hPut cache x y f (hWalk { origin := xyc 0 0, dims := xyc x y, form := f }))
      (fun p hp => hL p (List.mem_cons_of_mem _ hp)) (fun x' y' f' h1 h2 h3 h4 h5 => hPut_entry rfl (hc x' y' f' h1 h2 h3 h4 h5))
    refine ⟨cache', ?_, ?_, fun x' y' f' h => r3 _ _ _ (hPut_entry rfl h)⟩
    · rw [hFillRow, hall]; exact r1
    · intro p hp
      rcases List.mem_cons.1 hp with rfl | hp
      · apply r3
        unfold Entry hPut
        rw [if_pos ⟨rfl, rfl, rfl⟩]
      · exact r2 p hp

theorem mem_from2 (m : Nat) (x : Int) : x ∈ from2 m ↔ 2 ≤ x ∧ x < m := by
  unfold from2
  rw [List.mem_map]
  constructor
  · rintro ⟨i, hi, rfl⟩
    have := List.mem_range.1 hi
    omega
  · rintro ⟨h1, h2⟩
    exact ⟨(x - 2).toNat, List.mem_range.2 (by omega), by omega⟩

theorem mem_hPairs (m : Nat) (p : Int × Nat) : p ∈ hPairs m ↔ (2 ≤ p.1 ∧ p.1 < m) ∧ p.2 < 4 := by
  unfold hPairs
  rw [List.mem_flatMap]
  constructor
  · rintro ⟨x, hx, hp⟩
    obtain ⟨f, hf, rfl⟩ := List.mem_map.1 hp
    exact ⟨(mem_from2 m x).1 hx, List.mem_range.1 hf⟩
  · rintro ⟨hx, hf⟩
    exact ⟨p.1, (mem_from2 m _).2 hx, List.mem_map.2 ⟨p.2, List.mem_range.2 hf, rfl⟩⟩

theorem hFillRows_spec (maxDim : Nat) (r : Nat) : ∀ (a : Nat) (cache : HCache), a + r = maxDim - 2 →
    (∀ (x' y' : Int) (f : Nat), 2 ≤ x' → x' < maxDim → 2 ≤ y' → y' < (a : Int) + 2 → f < 4 → Entry cache x' y' f) →
    ∃ cache', hFillRows maxDim ((List.range' a r).map (fun i : Nat => (i : Int) + 2)) cache = some cache' ∧
      ∀ (x' y' : Int) (f : Nat), 2 ≤ x' → x' < maxDim → 2 ≤ y' → y' < maxDim → f < 4 → Entry cache' x' y' f := by
  induction r with
  | zero =>
    intro a cache ha h
    refine ⟨cache, rfl, fun x' y' f h1 h2 h3 h4 h5 => h x' y' f h1 h2 h3 (by omega) h5⟩
  | succ r ih =>
    intro a cache ha h
    rw [List.range'_succ, List.map_cons, hFillRows]
    obtain ⟨c1, e1, e2, e3⟩ := hFillRow_spec maxDim ((a : Int) + 2) (by omega) (by omega) (hPairs maxDim) cache
      (fun p hp => by have := (mem_hPairs _ _).1 hp; omega) h
    rw [e1, Option.bind_some]
    refine ih (a + 1) c1 (by omega) (fun x' y' f h1 h2 h3 h4 h5 => ?_)
    by_cases hy : y' < (a : Int) + 2
    · exact e3 _ _ _ (h x' y' f h1 h2 h3 hy h5)
    · have : y' = (a : Int) + 2 := by omega
      rw [this]
      exact e2 (x', f) ((mem_hPairs _ _).2 ⟨⟨h1, h2⟩, h5⟩)

/-- `fillCaches` terminates and fills in the right coordinates -/
theorem hFill_spec (maxDim : Nat) : ∃ cache, hFill maxDim = some cache ∧ (hSub cache maxDim).CacheOK HInv := by
  obtain ⟨c, h1, h2⟩ := hFillRows_spec maxDim (maxDim - 2) 0 (fun _ _ _ => []) (by omega) (fun x' y' f h1 h2 h3 h4 h5 => by omega)
  refine ⟨c, ?_, h_cacheOK (fun x y f a1 a2 a3 a4 a5 => h2 x y f a1 a2 a3 a4 a5)⟩
  unfold hFill from2
  rw [List.range_eq_range']; exact h1

end LGD
