import Verif.Misc.RandomModel

/-!
# Lemmas on random numbers
-/

namespace LGD.Rand

theorem get_ok {m : Nat → W} {i : Nat} (h : i ≤ N) : get m i = some (m i) := if_pos h
theorem put_ok {m : Nat → W} {i : Nat} {w : W} (h : i ≤ N) : put m i w = some (fun j => if j = i then w else m j) := if_pos h

theorem seedLoop_spec (j : Nat) : ∀ (s : Nat) (x : W) (m : Nat → W), s + j ≤ N + 1 →
    ∃ m', seedLoop j s x m = some m' ∧ (∀ i, i < s → m' i = m i) ∧ (∀ i, i < j → m' (s + i) = x * 69069 ^ (i + 1)) := by
  induction j with
  | zero => intro s x m _; exact ⟨m, rfl, fun _ _ => rfl, fun i hi => by omega⟩
  | succ j ih =>
    intro s x m h
    obtain ⟨m', h1, h2, h3⟩ := ih (s + 1) (x * 69069) (fun i => if i = s then x * 69069 else m i) (by omega)
    refine ⟨m', ?_, ?_, ?_⟩
    · rw [seedLoop, put_ok (by omega), Option.bind_some, h1]
    · intro i hi
      rw [h2 i (by omega), if_neg (by omega)]
    · intro i hi
      cases i with
      | zero =>
        rw [Nat.add_zero, h2 s (by omega), if_pos rfl]
        simp
      | succ i =>
        have := h3 i (by omega)
        rw [show s + (i + 1) = s + 1 + i by omega, this, BitVec.mul_assoc]
        congr 1
        rw [BitVec.pow_succ (n := i + 1), BitVec.mul_comm]

theorem seedMT_spec (seed : W) (s : State) : ∃ m, seedMT seed s = some ⟨m, s.next, 0⟩ ∧ ∀ i, i < N → m i = (seed ||| 1) * 69069 ^ i := by
  obtain ⟨m', h1, h2, h3⟩ := seedLoop_spec (N - 1) 1 (seed ||| 1) (fun i => if i = 0 then seed ||| 1 else s.mem i) (by unfold N; omega)
  refine ⟨m', ?_, ?_⟩
  · unfold seedMT
    rw [put_ok (by omega), Option.bind_some, h1]
    rfl
  · intro i hi
    cases i with
    | zero => rw [h2 0 (by omega)]; simp
    | succ i => rw [Nat.add_comm, h3 i (by unfold N at *; omega), Nat.add_comm]

/-- `x` obeys the recurrence -/
def Twisted (x : Nat → W) : Prop := ∀ k, x (k + N) = x (k + M) ^^^ twist (x k) (x (k + 1))

/-- after `t` iterations, in the batch which starts at `o` -/
structure Inv (x : Nat → W) (o t : Nat) (v : Vars) : Prop where
  p0 : v.p0 = t
  p2 : v.p2 = t + 2
  s0 : v.s0 = x (o + t)
  s1 : t + 1 < N → v.s1 = x (o + t + 1)
  done : ∀ i, i < t → v.mem i = x (o + N + i)
  todo : ∀ i, t ≤ i → i < N → v.mem i = x (o + i)

theorem reloadLoop_spec {x : Nat → W} (hx : Twisted x) (o : Nat) (j : Nat) : ∀ (t : Nat) (v : Vars), Inv x o t v →
    (v.pM = t + M ∧ t + j ≤ N - M ∨ v.pM + N = t + M ∧ t + j ≤ N - 1) →
    ∃ v', reloadLoop j v = some v' ∧ Inv x o (t + j) v' ∧ v'.pM = v.pM + j := by
  induction j with
  | zero => intro t v h _; exact ⟨v, rfl, h, rfl⟩
  | succ j ih =>
    intro t v h hp
    have ht : t + 1 < N := by unfold N M at *; omega
    have hpN : v.pM ≤ N := by unfold N M at *; omega
    have hval : v.mem v.pM = x (o + t + M) := by
      rcases hp with ⟨h1, h2⟩ | ⟨h1, h2⟩
      · rw [h.todo v.pM (by omega) (by unfold N M at *; omega), h1]; exact congrArg x (by omega)
      · rw [h.done v.pM (by unfold N M at *; omega)]; congr 1; omega
    have hnew : v.mem v.pM ^^^ twist v.s0 v.s1 = x (o + N + t) := by
      rw [hval, h.s0, h.s1 ht]
      have := hx (o + t)
      rw [show o + N + t = o + t + N by omega, this]
    have hinv : Inv x o (t + 1) ⟨fun i => if i = v.p0 then v.mem v.pM ^^^ twist v.s0 v.s1 else v.mem i, v.p0 + 1, v.p2 + 1, v.pM + 1, v.s1,
        if v.p2 = v.p0 then v.mem v.pM ^^^ twist v.s0 v.s1 else v.mem v.p2⟩ := by
      refine ⟨by simp [h.p0], by simp [h.p2], ?_, ?_, ?_, ?_⟩
      · exact h.s1 ht
      · intro h2
        simp only
        rw [if_neg (by rw [h.p0, h.p2]; omega), h.p2, h.todo (t + 2) (by omega) (by omega)]
        exact congrArg x (by omega)
      · intro i hi
        simp only
        by_cases he : i = v.p0
        · rw [if_pos he, hnew, he, h.p0]
        · rw [if_neg he]; exact h.done i (by rw [h.p0] at he; omega)
      · intro i hi hi'
        simp only
        rw [if_neg (by rw [h.p0]; omega)]
        exact h.todo i (by omega) hi'
    obtain ⟨v', i1, i2, i3⟩ := ih (t + 1) _ hinv (by
      simp only
      omega)
    refine ⟨v', ?_, ?_, ?_⟩
    · rw [reloadLoop, get_ok hpN, Option.bind_some, put_ok (by rw [h.p0]; omega), Option.bind_some, get_ok (by rw [h.p2]; unfold N at *; omega), Option.bind_some]
      exact i1
    · rw [show t + (j + 1) = t + 1 + j by omega]; exact i2
    · rw [i3]; simp only; omega

/-- the state after seeding and `k` calls -/
def AtCall (x : Nat → W) (k : Nat) (s : State) : Prop :=
  (∀ i, i < N → s.mem i = x (k + s.left.toNat + i)) ∧ 0 ≤ s.left ∧ s.left < N ∧ (0 < s.left → s.next = some (N - s.left.toNat))

theorem reloadMT_spec {x : Nat → W} (hx : Twisted x) (o : Nat) (s : State) (hl : ¬ s.left < -1) (h : ∀ i, i < N → s.mem i = x (o + i)) :
    ∃ m, reloadMT s = some (temper (x (o + N)), ⟨m, some 1, N - 1⟩) ∧ ∀ i, i < N → m i = x (o + N + i) := by
  have i0 : Inv x o 0 ⟨s.mem, 0, 2, M, s.mem 0, s.mem 1⟩ :=
    ⟨rfl, rfl, h 0 (by decide), fun _ => h 1 (by decide), fun i hi => by omega, fun i _ hi => h i hi⟩
  obtain ⟨v, v1, v2, v3⟩ := reloadLoop_spec hx o (N - M) 0 _ i0 (Or.inl ⟨by simp, by simp⟩)
  have i1 : Inv x o (0 + (N - M)) { v with pM := 0 } := ⟨v2.p0, v2.p2, v2.s0, v2.s1, v2.done, v2.todo⟩
  obtain ⟨w, w1, w2, w3⟩ := reloadLoop_spec hx o (M - 1) (0 + (N - M)) _ i1 (Or.inr ⟨by unfold N M; simp, by unfold N M; simp⟩)
  have ht : 0 + (N - M) + (M - 1) = N - 1 := by decide
  rw [ht] at w2
  have hp : w.pM = M - 1 := by rw [w3]; simp
  have hm0 : w.mem 0 = x (o + N) := by
    have := w2.done 0 (by decide)
    simpa using this
  have hnew : w.mem w.pM ^^^ twist w.s0 (w.mem 0) = x (o + N + (N - 1)) := by
    rw [hp, w2.done (M - 1) (by decide), w2.s0, hm0]
    have := hx (o + (N - 1))
    rw [show o + (N - 1) + N = o + N + (N - 1) by omega, show o + (N - 1) + M = o + N + (M - 1) by unfold N M; omega,
      show o + (N - 1) + 1 = o + N by unfold N; omega] at this
    exact this.symm
  refine ⟨fun i => if i = N - 1 then x (o + N + (N - 1)) else w.mem i, ?_, ?_⟩
  · unfold reloadMT
    rw [if_neg hl, Option.bind_some, v1, Option.bind_some, w1, Option.bind_some, get_ok (by rw [hp]; decide), Option.bind_some,
      put_ok (by rw [w2.p0]; decide), hnew, hm0, w2.p0]
    rfl
  · intro i hi
    simp only
    by_cases he : i = N - 1
    · rw [if_pos he, he]
    · rw [if_neg he]; exact w2.done i (by omega)

theorem randomMT_spec {x : Nat → W} (hx : Twisted x) {k : Nat} {s : State} (h : AtCall x k s) :
    ∃ s', randomMT s = some (temper (x (k + N)), s') ∧ AtCall x (k + 1) s' := by
  obtain ⟨h1, h2, h3, h4⟩ := h
  by_cases h0 : s.left = 0
  · obtain ⟨m, m1, m2⟩ := reloadMT_spec hx k { s with left := s.left - 1 } (by simp [h0]) (fun i hi => by
      have := h1 i hi
      simpa [h0] using this)
    refine ⟨⟨m, some 1, N - 1⟩, ?_, ?_⟩
    · unfold randomMT
      rw [if_pos (by omega)]
      exact m1
    · refine ⟨?_, ?_, ?_, ?_⟩
      · intro i hi
        simp only
        rw [m2 i hi]
        congr 1
      · show (0 : Int) ≤ (N : Int) - 1
        unfold N; omega
      · show (N : Int) - 1 < N
        omega
      · intro _
        rfl
  · have hn := h4 (by omega)
    have hlt : s.left.toNat < N := by omega
    refine ⟨⟨s.mem, some (N - s.left.toNat + 1), s.left - 1⟩, ?_, ?_⟩
    · unfold randomMT
      rw [if_neg (by omega), hn, Option.bind_some, get_ok (by omega)]
      rw [h1 (N - s.left.toNat) (by omega)]
      have : k + s.left.toNat + (N - s.left.toNat) = k + N := by omega
      rw [this]
      rfl
    · refine ⟨?_, ?_, ?_, ?_⟩
      · intro i hi
        simp only
        rw [h1 i hi]
        congr 1
        omega
      · simp only; omega
      · simp only; omega
      · intro hl
        simp only at hl ⊢
        congr 1
        omega

theorem draw_spec {x : Nat → W} (hx : Twisted x) (j : Nat) : ∀ {k : Nat} {s : State}, AtCall x k s →
    ∃ s', draw j s = some ((List.range j).map (fun i => temper (x (k + i + N))), s') ∧ AtCall x (k + j) s' := by
  induction j with
  | zero => intro k s h; exact ⟨s, rfl, h⟩
  | succ j ih =>
    intro k s h
    obtain ⟨s1, a1, a2⟩ := randomMT_spec hx h
    obtain ⟨s2, b1, b2⟩ := ih a2
    refine ⟨s2, ?_, by rw [show k + (j + 1) = k + 1 + j by omega]; exact b2⟩
    rw [draw, a1, Option.bind_some]
    simp only
    rw [b1, List.range_succ_eq_map, List.map_cons, List.map_map]
    simp only [Option.map_some, Nat.add_zero]
    congr 4
    funext i
    simp only [Function.comp]
    congr 2
    omega

end LGD.Rand
