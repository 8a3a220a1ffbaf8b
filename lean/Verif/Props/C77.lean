import Verif.Store.AllocModel
import Mathlib.Tactic.Linarith

/-!
# C77: `aligned_allocator` returns aligned, disjoint arrays and releases what it obtained

For alignments of at least 8 and sizes which don't overflow: whatever addresses `std::allocator` returns and whatever the program writes to its arrays, arrays are aligned, don't overlap, lie within chunks of
memory which were obtained, and deallocation releases exactly the chunk of the array.
-/

namespace LGD.C77
open LGD.Alloc

variable {A s : Nat}

/-- the arrays a program holds, with the number of their elements -/
abbrev Arrays := Nat → Option Nat

def arraysStep (A : Nat) (arr : Arrays) : Ev → Arrays
  | .allocate c n => Function.update arr (c + correction A c) (some n)
  | .write _ _ => arr
  | .deallocate p _ => Function.update arr p none

/-- events of programs which use memory properly, with an allocator which does not hand out memory in use -/
def Allowed (A s : Nat) (st : St) (arr : Arrays) : Ev → Prop
  | .allocate c n => 0 < c ∧ n * s + (A + 8) < 2 ^ 64 ∧ ∀ d size, st.heap d = some size → d + size ≤ c ∨ c + upsize A s n ≤ d
  | .write a _ => ∃ p n, arr p = some n ∧ p ≤ a ∧ a < p + n * s
  | .deallocate p n => arr p = some n

def Hist (A s : Nat) : List Ev → St → Arrays → Prop
  | [], _, _ => True
  | e :: es, st, arr => Allowed A s st arr e ∧ ∀ st', step A s st e = .ok st' → Hist A s es st' (arraysStep A arr e)

def arraysRun (A : Nat) : List Ev → Arrays → Arrays
  | [], arr => arr
  | e :: es, arr => arraysRun A es (arraysStep A arr e)

/-- relation of arrays and chunks -/
structure Inv (A s : Nat) (st : St) (arr : Arrays) : Prop where
  owner : ∀ p n, arr p = some n → ∃ c, 0 < c ∧ p = c + correction A c ∧ n * s + (A + 8) < 2 ^ 64 ∧ st.heap c = some (upsize A s n) ∧ ∀ k < 8, st.mem (p - 8 + k) = some (c, k)
  used : ∀ c size, st.heap c = some size → ∃ n, arr (c + correction A c) = some n ∧ size = upsize A s n ∧ n * s + (A + 8) < 2 ^ 64
  apart : ∀ c c' size size', st.heap c = some size → st.heap c' = some size' → c ≠ c' → c + size ≤ c' ∨ c' + size' ≤ c

theorem correction_spec (hA : 8 ≤ A) (c : Nat) : 8 ≤ correction A c ∧ correction A c < A + 8 ∧ A ∣ c + correction A c := by
  have h1 := Nat.mod_lt c (show 0 < A by omega)
  have h2 := Nat.div_add_mod c A
  unfold correction
  dsimp only
  split
  · refine ⟨by omega, by omega, ⟨c / A + 2, ?_⟩⟩
    rw [Nat.mul_add]; omega
  · refine ⟨by omega, by omega, ⟨c / A + 1, ?_⟩⟩
    rw [Nat.mul_add]; omega

theorem upsize_eq {n : Nat} (h : n * s + (A + 8) < 2 ^ 64) : upsize A s n = n * s + (A + 8) := by unfold upsize; exact Nat.mod_eq_of_lt h

theorem load_eq {mem : Nat → Byte} {a c : Nat} (h : ∀ k < 8, mem (a + k) = some (c, k)) : load mem a = some c := by
  have h0 := h 0 (by omega)
  rw [Nat.add_zero] at h0
  unfold load
  rw [h0]
  dsimp only
  rw [if_pos]
  rw [List.all_eq_true]
  intro k hk
  exact decide_eq_true (h k (List.mem_range.1 hk))

/-- a step of a proper program is defined and keeps the invariant -/
theorem step_ok (hA : 8 ≤ A) {st : St} {arr : Arrays} (hi : Inv A s st arr) {e : Ev} (he : Allowed A s st arr e) : ∃ st', step A s st e = .ok st' ∧ Inv A s st' (arraysStep A arr e) := by
  cases e with
  | allocate c n =>
    obtain ⟨hc, hn, hf⟩ := he
    have hu := upsize_eq hn
    obtain ⟨k1, k2, k3⟩ := correction_spec hA c
    refine ⟨⟨Function.update st.heap c (some (upsize A s n)), store st.mem (c + correction A c - 8) c⟩, ?_, ⟨?_, ?_, ?_⟩⟩
    · unfold step allocate
      dsimp only
      rw [if_neg (by omega), if_pos (by omega)]; rfl
    · -- existing chunks are not at `c`
      intro p m hp
      by_cases hpc : p = c + correction A c
      · subst hpc
        simp only [arraysStep, Function.update_self, Option.some.injEq] at hp
        subst hp
        refine ⟨c, hc, rfl, hn, by simp, fun k hk => ?_⟩
        simp only [store]
        rw [if_pos (by omega)]; congr 2; omega
      · simp only [arraysStep, Function.update_of_ne hpc] at hp
        obtain ⟨d, hd, h1, h2, h3, h4⟩ := hi.owner p m hp
        have hdc : d ≠ c := fun h => hpc (by rw [h1, h])
        have hud := upsize_eq h2
        obtain ⟨d1, d2, d3⟩ := correction_spec hA d
        refine ⟨d, hd, h1, h2, by simp only; rw [Function.update_of_ne hdc]; exact h3, fun k hk => ?_⟩
        simp only [store]
        rw [if_neg ?_, h4 k hk]
        rcases hf d _ h3 with h | h <;> omega
    · intro d size hd
      by_cases hdc : d = c
      · subst hdc
        simp only [Function.update_self, Option.some.injEq] at hd
        exact ⟨n, by simp [arraysStep], hd.symm, hn⟩
      · simp only [Function.update_of_ne hdc] at hd
        obtain ⟨m, h1, h2, h3⟩ := hi.used d size hd
        obtain ⟨d1, d2, _⟩ := correction_spec hA d
        have hud := upsize_eq h3
        refine ⟨m, ?_, h2, h3⟩
        have hne : d + correction A d ≠ c + correction A c := by rcases hf d size hd with h | h <;> omega
        simp only [arraysStep, Function.update_of_ne hne, h1]
    · intro d d' size size' h1 h2 hne
      simp only at h1 h2
      by_cases hd : d = c
      · have hd' : d' ≠ c := fun h => hne (hd.trans h.symm)
        subst hd
        simp only [Function.update_self, Option.some.injEq] at h1
        rw [Function.update_of_ne hd'] at h2
        rcases hf d' size' h2 with h | h <;> omega
      · rw [Function.update_of_ne hd] at h1
        by_cases hd' : d' = c
        · subst hd'
          simp only [Function.update_self, Option.some.injEq] at h2
          rcases hf d size h1 with h | h <;> omega
        · rw [Function.update_of_ne hd'] at h2
          exact hi.apart d d' size size' h1 h2 hne
  | write a b =>
    obtain ⟨p, n, hp, ha1, ha2⟩ := he
    obtain ⟨c, _, c1, c2, c3, _⟩ := hi.owner p n hp
    refine ⟨{ st with mem := Function.update st.mem a b }, rfl, ⟨?_, hi.used, hi.apart⟩⟩
    intro q m hq
    obtain ⟨d, d0, d1, d2, d3, d4⟩ := hi.owner q m hq
    refine ⟨d, d0, d1, d2, d3, fun k hk => ?_⟩
    have hne : q - 8 + k ≠ a := by
      obtain ⟨e1, e2, _⟩ := correction_spec hA c
      obtain ⟨f1, f2, _⟩ := correction_spec hA d
      have hu1 := upsize_eq c2
      have hu2 := upsize_eq d2
      by_cases hcd : c = d
      · subst hcd; omega
      · rcases hi.apart c d _ _ c3 d3 hcd with h | h <;> omega
    simp only
    rw [Function.update_of_ne hne]; exact d4 k hk
  | deallocate p n =>
    obtain ⟨c, c0, c1, c2, c3, c4⟩ := hi.owner p n he
    have hu := upsize_eq c2
    refine ⟨{ st with heap := Function.update st.heap c none }, ?_, ⟨?_, ?_, ?_⟩⟩
    · unfold step deallocate
      dsimp only
      rw [if_neg (by omega), load_eq c4]
      dsimp only
      rw [if_pos c3]
    · intro q m hq
      by_cases hqp : q = p
      · subst hqp; simp [arraysStep] at hq
      · simp only [arraysStep, Function.update_of_ne hqp] at hq
        obtain ⟨d, d0, d1, d2, d3, d4⟩ := hi.owner q m hq
        have hdc : d ≠ c := fun h => hqp (by rw [d1, c1, h])
        exact ⟨d, d0, d1, d2, by simp only; rw [Function.update_of_ne hdc]; exact d3, d4⟩
    · intro d size hd
      by_cases hdc : d = c
      · subst hdc; simp at hd
      · simp only [Function.update_of_ne hdc] at hd
        obtain ⟨m, h1, h2, h3⟩ := hi.used d size hd
        have hne : d + correction A d ≠ p := by
          obtain ⟨d1, d2, _⟩ := correction_spec hA d
          obtain ⟨e1, e2, _⟩ := correction_spec hA c
          have hud := upsize_eq h3
          rw [h2] at hd
          rcases hi.apart c d _ _ c3 hd (fun h => hdc h.symm) with h | h <;> omega
        exact ⟨m, by simp only [arraysStep, Function.update_of_ne hne, h1], h2, h3⟩
    · intro d d' size size' h1 h2 hne
      simp only at h1 h2
      by_cases hd : d = c
      · subst hd; simp at h1
      · by_cases hd' : d' = c
        · subst hd'; simp at h2
        · rw [Function.update_of_ne hd] at h1
          rw [Function.update_of_ne hd'] at h2
          exact hi.apart d d' size size' h1 h2 hne

/-- **C77.** No step of a proper program is undefined: all pointers are written within chunks, and each deallocation releases a chunk which was obtained, with its size. -/
theorem history (hA : 8 ≤ A) : ∀ (es : List Ev) {st : St} {arr : Arrays}, Inv A s st arr → Hist A s es st arr → ∃ st', run A s es st = .ok st' ∧ Inv A s st' (arraysRun A es arr)
  | [], st, arr, hi, _ => ⟨st, rfl, hi⟩
  | e :: es, st, arr, hi, hh => by
    obtain ⟨st', h1, h2⟩ := step_ok hA hi hh.1
    obtain ⟨st'', h3, h4⟩ := history hA es h2 (hh.2 st' h1)
    exact ⟨st'', by simp only [run, h1]; exact h3, h4⟩

/-- the address returned is the one of the array -/
theorem allocated (hA : 8 ≤ A) {st st' : St} {c n p : Nat} (h : allocate A s st c n = .ok (st', p)) (arr : Arrays) : arraysStep A arr (.allocate c n) p = some n ∧ A ∣ p := by
  unfold allocate at h
  split at h
  · cases h
  · dsimp only at h
    split at h
    · injection h with h
      injection h with _ h2
      subst h2
      exact ⟨by simp [arraysStep], (correction_spec hA c).2.2⟩
    · cases h

/-- at the start nothing is allocated -/
theorem start (A s : Nat) (mem : Nat → Byte) : Inv A s ⟨fun _ => none, mem⟩ (fun _ => none) := ⟨by simp, by simp, by simp⟩

/-- all arrays are aligned -/
theorem aligned (hA : 8 ≤ A) {st : St} {arr : Arrays} (hi : Inv A s st arr) {p n : Nat} (h : arr p = some n) : A ∣ p := by
  obtain ⟨c, _, h1, _⟩ := hi.owner p n h
  rw [h1]; exact (correction_spec hA c).2.2

/-- all arrays lie within a chunk obtained from `std::allocator`, behind its address -/
theorem inside (hA : 8 ≤ A) {st : St} {arr : Arrays} (hi : Inv A s st arr) {p n : Nat} (h : arr p = some n) : ∃ c size, st.heap c = some size ∧ c + 8 ≤ p ∧ p + n * s ≤ c + size := by
  obtain ⟨c, _, h1, h2, h3, _⟩ := hi.owner p n h
  obtain ⟨k1, k2, _⟩ := correction_spec hA c
  exact ⟨c, _, h3, by omega, by rw [upsize_eq h2]; omega⟩

/-- arrays don't overlap -/
theorem disjoint (hA : 8 ≤ A) {st : St} {arr : Arrays} (hi : Inv A s st arr) {p q m n : Nat} (hp : arr p = some m) (hq : arr q = some n) (hne : p ≠ q) : p + m * s ≤ q ∨ q + n * s ≤ p := by
  obtain ⟨c, _, c1, c2, c3, _⟩ := hi.owner p m hp
  obtain ⟨d, _, d1, d2, d3, _⟩ := hi.owner q n hq
  obtain ⟨e1, e2, _⟩ := correction_spec hA c
  obtain ⟨f1, f2, _⟩ := correction_spec hA d
  have hu1 := upsize_eq c2
  have hu2 := upsize_eq d2
  rcases hi.apart c d _ _ c3 d3 (fun h => hne (by rw [c1, d1, h])) with h | h <;> omega

/-- nothing leaks: if the program holds no array then all memory is released -/
theorem no_leak {st : St} (hi : Inv A s st (fun _ => none)) (c : Nat) : st.heap c = none := by
  cases h : st.heap c with
  | none => rfl
  | some size =>
    obtain ⟨n, h1, _⟩ := hi.used c size h
    cases h1

/-- the pointer in front of the array is aligned if the alignment is a multiple of 8 -/
theorem pointer_aligned (hA : 8 ≤ A) (h8 : 8 ∣ A) (c : Nat) : 8 ∣ c + correction A c - 8 := by
  obtain ⟨_, _, h⟩ := correction_spec hA c
  obtain ⟨k, hk⟩ := h8.trans h
  exact ⟨k - 1, by omega⟩

/-- **negation**: alignments 1 and 2 make `allocate` write in front of the chunk (chunks are aligned to 16 bytes) -/
theorem small_alignment (hA : A = 1 ∨ A = 2) {c : Nat} (hc : 16 ∣ c) (st : St) (n : Nat) : allocate A s st c n = .error .undefined := by
  have hk : correction A c = 2 * A := by
    unfold correction
    rcases hA with rfl | rfl <;> dsimp only <;> rw [if_pos (by omega)] <;> omega
  unfold allocate
  dsimp only
  rw [if_neg (by omega), hk, if_neg (by omega)]

/-- **negation**: sizes aren't checked for overflow; the array doesn't fit into the chunk then (and the request isn't refused) -/
theorem overflow (hA : 8 ≤ A) {n : Nat} (h : 2 ^ 64 ≤ n * s + (A + 8)) (hn : n * s < 2 ^ 64) (c : Nat) (hA2 : A + 8 < 2 ^ 64) : c + upsize A s n < c + correction A c + n * s := by
  obtain ⟨k1, _, _⟩ := correction_spec hA c
  have : upsize A s n < n * s := by
    unfold upsize
    rw [Nat.mod_eq_sub_mod h, Nat.mod_eq_of_lt (by omega)]
    omega
  omega

/-! ## Examples -/

/-- 10 doubles with alignment 64 in a chunk at address 1000: the array is at 1024; for a chunk at 1020 the next multiple is too close -/
example : correction 64 1000 = 24 ∧ correction 64 1020 = 68 ∧ correction 64 1024 = 64 := by decide

/-- two arrays; the program overwrites both with pointers; the first array is released -/
example : Hist 64 8 [.allocate 1000 10, .allocate 2000 1, .write 1103 (some (7, 0)), .write 2048 (some (2000, 0)), .deallocate 1024 10] ⟨fun _ => none, fun _ => none⟩ (fun _ => none) := by
  have c1 : correction 64 1000 = 24 := by decide
  have c2 : correction 64 2000 = 48 := by decide
  have u1 : upsize 64 8 10 = 152 := by decide
  have u2 : upsize 64 8 1 = 80 := by decide
  refine ⟨⟨by decide, by decide, fun d size h => by cases h⟩, fun st h => ?_⟩
  obtain rfl : _ = st := by
    simpa [step, allocate, Except.bind, c1, u1] using h
  refine ⟨⟨by decide, by decide, fun d size h => ?_⟩, fun st h => ?_⟩
  · by_cases hd : d = 1000
    · subst hd; simp at h; omega
    · simp [Function.update_of_ne hd] at h
  obtain rfl : _ = st := by
    simpa [step, allocate, Except.bind, c2, u2] using h
  refine ⟨⟨1024, 10, by simp [arraysStep, c1, c2, Function.update], by decide, by decide⟩, fun st h => ?_⟩
  refine ⟨⟨2048, 1, by simp [arraysStep, c1, c2, Function.update], by decide, by decide⟩, fun st h => ?_⟩
  exact ⟨by simp [Allowed, arraysStep, c1, c2, Function.update], fun _ _ => trivial⟩

example : upsize 64 8 (2 ^ 61 - 1) = 64 := by decide

end LGD.C77
