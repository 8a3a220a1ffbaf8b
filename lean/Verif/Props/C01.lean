import Verif.Region.Facts

/-!
# C01 – Region insert/remove/lookup behave like a set of coordinates
-/

namespace LGD.C01

/-- User-visible modifications of a region. -/
inductive Op where
  | insert (s : Streak)
  | remove (s : Streak)

/-- The operations on the index vectors (`none` = undefined behaviour / non-termination). -/
def run (n : Nat) : Idx → List Op → Option Idx
  | idx, [] => some idx
  | idx, .insert s :: ops => (regInsert n idx s).bind (fun i => run n i ops)
  | idx, .remove s :: ops => (regRemove n idx s).bind (fun i => run n i ops)

/-- Specification: coordinates of a streak. Streaks with `endX ≤ origin.x` have none. -/
def InStreak (n : Nat) (s : Streak) (c : Crd) : Prop :=
  s.origin 0 ≤ c 0 ∧ c 0 < s.endX ∧ ∀ k, 1 ≤ k → k ≤ n → c k = s.origin k

/-- Specification: a plain set of coordinates subjected to the same history. -/
def specSet (n : Nat) : (Crd → Prop) → List Op → (Crd → Prop)
  | S, [] => S
  | S, .insert s :: ops => specSet n (fun c => S c ∨ InStreak n s c) ops
  | S, .remove s :: ops => specSet n (fun c => S c ∧ ¬ InStreak n s c) ops

theorem inStreak_iff (n : Nat) (s : Streak) (c : Crd) : InStreak n s c ↔ SMem n s c := by
  unfold InStreak SMem
  constructor
  · rintro ⟨a, b, h⟩; exact ⟨h, a, b⟩
  · rintro ⟨h, a, b⟩; exact ⟨a, b, h⟩

theorem run_spec (n : Nat) (ops : List Op) (idx : Idx) (S : Crd → Prop) (h : RegOK n idx) (hS : ∀ c, RMem n idx c ↔ S c) :
    ∃ idx', run n idx ops = some idx' ∧ RegOK n idx' ∧ ∀ c, RMem n idx' c ↔ specSet n S ops c := by
  induction ops generalizing idx S with
  | nil => exact ⟨idx, rfl, h, hS⟩
  | cons op ops ih =>
    cases op with
    | insert s =>
      obtain ⟨i1, h1, h2, h3⟩ := regInsert_spec n idx s h
      obtain ⟨i2, h4, h5, h6⟩ := ih i1 (fun c => S c ∨ InStreak n s c) h2 (fun c => by rw [h3, hS, inStreak_iff])
      exact ⟨i2, by rw [run, h1, Option.bind_some, h4], h5, h6⟩
    | remove s =>
      obtain ⟨i1, h1, h2, h3⟩ := regRemove_spec n idx s h
      obtain ⟨i2, h4, h5, h6⟩ := ih i1 (fun c => S c ∧ ¬ InStreak n s c) h2 (fun c => by rw [h3, hS, inStreak_iff])
      exact ⟨i2, by rw [run, h1, Option.bind_some, h4], h5, h6⟩

/-- **C01.** For any dimension `n + 1` and any history of insertions and removals: no undefined behaviour occurs, and
afterwards `count(streak)` (streak non-empty) and `count(coord)` answer exactly as for a plain set. -/
theorem region_is_set (n : Nat) (ops : List Op) :
    ∃ idx, run n emptyIdx ops = some idx ∧
      (∀ s : Streak, s.origin 0 < s.endX →
        ∃ b, regCount n idx s = some b ∧ (b = true ↔ ∀ c, InStreak n s c → specSet n (fun _ => False) ops c)) ∧
      (∀ c : Crd, ∃ b, regCountCoord n idx c = some b ∧ (b = true ↔ specSet n (fun _ => False) ops c)) := by
  obtain ⟨idx, h1, ⟨t, h2⟩, h3⟩ := run_spec n ops emptyIdx (fun _ => False) (regOK_empty n)
    (fun c => ⟨fun h => (regEmpty_mem n c h).elim, fun h => h.elim⟩)
  refine ⟨idx, h1, ?_, ?_⟩
  · intro s hs
    obtain ⟨b, h4, h5⟩ := rep_count h2 s hs
    refine ⟨b, h4, h5.trans ?_⟩
    constructor
    · intro h c hc
      rw [← h3, h2.mem_iff]; exact h c ((inStreak_iff n s c).1 hc)
    · intro h c hc
      rw [← h2.mem_iff, h3]; exact h c ((inStreak_iff n s c).2 hc)
  · intro c
    obtain ⟨b, h4, h5⟩ := rep_countCoord h2 c
    exact ⟨b, h4, h5.trans ((h2.mem_iff c).symm.trans (h3 c))⟩

/-- Every history leads to a well-formed region; used by all other region properties. -/
theorem run_ok (n : Nat) (ops : List Op) (idx : Idx) (h : run n emptyIdx ops = some idx) :
    RegOK n idx ∧ ∀ c, RMem n idx c ↔ specSet n (fun _ => False) ops c := by
  obtain ⟨idx', h1, h2, h3⟩ := run_spec n ops emptyIdx (fun _ => False) (regOK_empty n)
    (fun c => ⟨fun h => (regEmpty_mem n c h).elim, fun h => h.elim⟩)
  rw [h] at h1
  cases h1
  exact ⟨h2, h3⟩

/-! ### non-vacuity: a 2D history with splitting, merging and a row that becomes empty -/

def mk2 (x y e : Int) : Streak := { origin := fun k => if k = 0 then x else y, endX := e }

def sample : List Op :=
  [.insert (mk2 0 0 4), .insert (mk2 6 0 9), .insert (mk2 3 1 8), .remove (mk2 1 0 3), .insert (mk2 4 0 6),
   .remove (mk2 0 1 20), .insert (mk2 5 5 5)]

example : ((run 1 emptyIdx sample).map (fun i => (i 0, i 1))) = some ([(0, 1), (3, 9)], [(0, 0)]) := by decide

theorem inStreak2 (x y e a b : Int) :
    InStreak 1 (mk2 x y e) (fun k => if k = 0 then a else b) ↔ x ≤ a ∧ a < e ∧ b = y := by
  constructor
  · rintro ⟨h1, h2, h3⟩
    have := h3 1 (by omega) (by omega)
    exact ⟨h1, h2, by simpa [mk2] using this⟩
  · rintro ⟨h1, h2, h3⟩
    refine ⟨h1, h2, fun k h4 h5 => ?_⟩
    have : k = 1 := by omega
    subst this
    simpa [mk2] using h3

example : specSet 1 (fun _ => False) sample (fun k => if k = 0 then 5 else 0) := by
  simp [specSet, sample, inStreak2]

example : ¬ specSet 1 (fun _ => False) sample (fun k => if k = 0 then 2 else 0) := by
  simp [specSet, sample, inStreak2]

end LGD.C01
