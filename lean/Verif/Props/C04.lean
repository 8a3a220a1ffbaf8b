import Verif.Props.C01
import Verif.Region.SetOps
import Verif.Region.CacheModel

/-!
# C04 – size() and boundingBox() always describe the current set
-/

namespace LGD.C04
open LGD.C01

/-! ## Specification -/

/-- `m` is the number of coordinates in `S` (coordinates are identified if they agree on all `n + 1` axes). -/
def Card (n : Nat) (S : Crd → Prop) (m : Int) : Prop :=
  ∃ l : List Crd, l.Pairwise (fun a b => ∃ k, k ≤ n ∧ a k ≠ b k) ∧
    (∀ c, S c ↔ ∃ c' ∈ l, ∀ k, k ≤ n → c' k = c k) ∧ m = l.length

/-- `b` is the smallest box around `S`; for the empty set it is the default box. -/
def Bounds (n : Nat) (S : Crd → Prop) (b : Box) : Prop :=
  ((∀ c, ¬ S c) → ∀ k, k ≤ n → b.origin k = 0 ∧ b.dims k = 0) ∧
  (∀ c, S c → ∀ k, k ≤ n → b.origin k ≤ c k ∧ c k < b.origin k + b.dims k) ∧
  ((∃ c, S c) → ∀ k, k ≤ n → (∃ c, S c ∧ c k = b.origin k) ∧ ∃ c, S c ∧ c k = b.origin k + b.dims k - 1)

/-! ## Programs over several regions -/

inductive Cmd where
  | insert (i : Nat) (s : Streak)
  | remove (i : Nat) (s : Streak)
  | clear (i : Nat)
  | copy (i j : Nat)
  | plus (i j k : Nat)
  | minus (i j k : Nat)
  | inter (i j k : Nat)
  | size (i : Nat)
  | box (i : Nat)

inductive Answer where
  | size (m : Int)
  | box (b : Box)

abbrev Store := Nat → GReg

def setReg (st : Store) (i : Nat) (g : GReg) : Store := fun j => if j = i then g else st j

/-- Execution of the modelled code. -/
def exec (n : Nat) : Store → List Cmd → Option (List Answer)
  | _, [] => some []
  | st, .insert i s :: r => (gInsert n (st i) s).bind (fun g => exec n (setReg st i g) r)
  | st, .remove i s :: r => (gRemove n (st i) s).bind (fun g => exec n (setReg st i g) r)
  | st, .clear i :: r => exec n (setReg st i (gClear (st i))) r
  | st, .copy i j :: r => exec n (setReg st i (st j)) r
  | st, .plus i j k :: r => (gPlus n (st j) (st k)).bind (fun g => exec n (setReg st i g) r)
  | st, .minus i j k :: r => (gMinus n (st j) (st k)).bind (fun g => exec n (setReg st i g) r)
  | st, .inter i j k :: r => (gAnd n (st j) (st k)).bind (fun g => exec n (setReg st i g) r)
  | st, .size i :: r => (gSize n (st i)).bind (fun p => (exec n (setReg st i p.1) r).map (fun a => .size p.2 :: a))
  | st, .box i :: r => (gBox n (st i)).bind (fun p => (exec n (setReg st i p.1) r).map (fun a => .box p.2 :: a))

def setSet (S : Nat → Crd → Prop) (i : Nat) (T : Crd → Prop) : Nat → Crd → Prop := fun j => if j = i then T else S j

/-- Specification: the answers a program over plain sets must give. -/
def Correct (n : Nat) : (Nat → Crd → Prop) → List Cmd → List Answer → Prop
  | _, [], a => a = []
  | S, .insert i s :: r, a => Correct n (setSet S i (fun c => S i c ∨ InStreak n s c)) r a
  | S, .remove i s :: r, a => Correct n (setSet S i (fun c => S i c ∧ ¬ InStreak n s c)) r a
  | S, .clear i :: r, a => Correct n (setSet S i (fun _ => False)) r a
  | S, .copy i j :: r, a => Correct n (setSet S i (S j)) r a
  | S, .plus i j k :: r, a => Correct n (setSet S i (fun c => S j c ∨ S k c)) r a
  | S, .minus i j k :: r, a => Correct n (setSet S i (fun c => S j c ∧ ¬ S k c)) r a
  | S, .inter i j k :: r, a => Correct n (setSet S i (fun c => S j c ∧ S k c)) r a
  | S, .size i :: r, a => ∃ m a', a = .size m :: a' ∧ Card n (S i) m ∧ Correct n S r a'
  | S, .box i :: r, a => ∃ b a', a = .box b :: a' ∧ Bounds n (S i) b ∧ Correct n S r a'

/-! ## Geometry computation -/

theorem geomLoop_size (l : List Streak) (mn mx : Crd) (z : Int) (h : ∀ s ∈ l, s.origin 0 < s.endX) :
    (geomLoop l (mn, mx, z)).2.2 = z + (l.flatMap coordsOf).length := by
  induction l generalizing mn mx z with
  | nil => simp [geomLoop]
  | cons s ss ih =>
    rw [geomLoop, ih _ _ _ (fun s' hs => h s' (by simp [hs]))]
    have h1 := h s (by simp)
    have : (coordsOf s).length = (s.endX - s.origin 0).toNat := by
      unfold coordsOf
      generalize (s.endX - s.origin 0).toNat = m
      generalize s.origin 0 = x
      induction m generalizing x with
      | zero => rfl
      | succ m ih => simp [coordsFrom, ih]
    simp only [List.flatMap_cons, List.length_append, this]
    omega

theorem geomLoop_box (l : List Streak) (mn mx : Crd) (z : Int) (k : Nat) :
    let r := geomLoop l (mn, mx, z)
    (r.1 k ≤ mn k ∧ (r.1 k = mn k ∨ ∃ s ∈ l, r.1 k = s.origin k) ∧ ∀ s ∈ l, r.1 k ≤ s.origin k) ∧
    (mx k ≤ r.2.1 k ∧ (r.2.1 k = mx k ∨ ∃ s ∈ l, r.2.1 k = upd s.origin 0 (s.endX - 1) k) ∧
      ∀ s ∈ l, upd s.origin 0 (s.endX - 1) k ≤ r.2.1 k) := by
  induction l generalizing mn mx z with
  | nil => simp [geomLoop]
  | cons s ss ih =>
    have := ih (fun k => min (mn k) (s.origin k)) (fun k => max (mx k) (upd s.origin 0 (s.endX - 1) k)) (z + (s.endX - s.origin 0))
    simp only at this
    rw [geomLoop]
    generalize geomLoop ss _ = r at this ⊢
    obtain ⟨⟨a1, a2, a3⟩, b1, b2, b3⟩ := this
    have q1 : r.1 k ≤ mn k := by clear a2 b2; omega
    have q2 : mx k ≤ r.2.1 k := by clear a2 b2; omega
    refine ⟨⟨q1, ?_, ?_⟩, q2, ?_, ?_⟩
    · clear b2
      rcases a2 with h | ⟨s', h, h'⟩
      · by_cases hm : mn k ≤ s.origin k
        · left; omega
        · right; exact ⟨s, by simp, by omega⟩
      · right; exact ⟨s', by simp [h], h'⟩
    · intro s' hs'
      rcases List.mem_cons.1 hs' with rfl | h
      · clear a2 b2; omega
      · exact a3 s' h
    · clear a2
      rcases b2 with h | ⟨s', h, h'⟩
      · by_cases hm : upd s.origin 0 (s.endX - 1) k ≤ mx k
        · left; omega
        · right; exact ⟨s, by simp, by omega⟩
      · right; exact ⟨s', by simp [h], h'⟩
    · intro s' hs'
      rcases List.mem_cons.1 hs' with rfl | h
      · clear a2 b2; omega
      · exact b3 s' h

theorem card_of_canon {n : Nat} {l : List Streak} {S : Crd → Prop} (h : Canon n l S) : Card n S (l.flatMap coordsOf).length := by
  refine ⟨l.flatMap coordsOf, ?_, ?_, rfl⟩
  · refine (flatMap_sorted n l h.pos h.sorted).imp ?_
    rintro a b ⟨k, h1, h2, _⟩
    exact ⟨k, h1, by omega⟩
  · intro c
    rw [h.mem]
    constructor
    · rintro ⟨s, h1, h2⟩
      refine ⟨upd s.origin 0 (c 0), List.mem_flatMap.2 ⟨s, h1, (mem_coordsOf s _ (h.pos s h1)).2 ⟨c 0, h2.2.1, h2.2.2, rfl⟩⟩, ?_⟩
      intro k hk
      unfold upd
      split
      · rename_i h; rw [h]
      · exact (h2.1 k (by omega) hk).symm
    · rintro ⟨c', h1, h2⟩
      obtain ⟨s, h3, h4⟩ := List.mem_flatMap.1 h1
      obtain ⟨y, h5, h6, rfl⟩ := (mem_coordsOf s c' (h.pos s h3)).1 h4
      have h0 := h2 0 (by omega)
      simp only [upd, if_true] at h0
      refine ⟨s, h3, ?_, by omega, by omega⟩
      intro k hk hk'
      have := h2 k hk'
      simp only [upd] at this
      rw [if_neg (by omega)] at this
      exact this.symm

theorem determineGeometry_spec (n : Nat) (idx : Idx) (h : RegOK n idx) :
    ∃ m b, determineGeometry n idx = some (m, b) ∧ Card n (RMem n idx) m ∧ Bounds n (RMem n idx) b := by
  unfold determineGeometry
  by_cases h0 : (idx 0).length = 0
  · rw [if_pos h0]
    have he := h.empty_iff.1 h0
    refine ⟨0, emptyBox, rfl, ⟨[], List.Pairwise.nil, ?_, rfl⟩, ?_, ?_, ?_⟩
    · intro c; simp [he c]
    · intro _ k _; exact ⟨rfl, rfl⟩
    · intro c hc; exact (he c hc).elim
    · rintro ⟨c, hc⟩; exact (he c hc).elim
  · rw [if_neg h0]
    obtain ⟨t, ht⟩ := h
    have hcan := ht.canon
    have hpos : 0 < (idx 0).length := by omega
    obtain ⟨it, h1, h2, _⟩ := siBegin_spec ht (fun _ => 0) 0
    rw [h1, Option.bind_some, toVector_eq ht, Option.map_some]
    obtain ⟨_, hstr⟩ := h2 hpos
    generalize hl : (List.range (idx 0).length).map (streakAt n idx) = l at *
    -- the first streak is a member of the list
    have hfirst : ∃ s ∈ l, it.streak = s := by
      refine ⟨streakAt n idx 0, ?_, ?_⟩
      · rw [← hl]; exact List.mem_map.2 ⟨0, by simpa using hpos, rfl⟩
      · rw [hstr, shiftS_zero]
    obtain ⟨f, hf, hfe⟩ := hfirst
    rw [hfe]
    generalize hr : geomLoop l (f.origin, f.origin, 0) = r
    have hsz := geomLoop_size l f.origin f.origin 0 hcan.pos
    rw [hr] at hsz
    have hbx := fun k => geomLoop_box l f.origin f.origin 0 k
    rw [hr] at hbx
    simp only at hbx
    obtain ⟨mn, mx, sz⟩ := r
    simp only at hsz hbx ⊢
    have hor : ∀ s ∈ l, RMem n idx s.origin := fun s hs => (hcan.mem _).2 ⟨s, hs, fun _ _ _ => rfl, by omega, hcan.pos s hs⟩
    have hor2 : ∀ s ∈ l, RMem n idx (upd s.origin 0 (s.endX - 1)) := by
      intro s hs
      refine (hcan.mem _).2 ⟨s, hs, ?_, ?_, ?_⟩
      · intro k hk _; unfold upd; rw [if_neg (by omega)]
      · have := hcan.pos s hs; simp only [upd, if_true]; omega
      · simp only [upd, if_true]; omega
    refine ⟨sz, _, rfl, ?_, ?_, ?_, ?_⟩
    · rw [hsz, Int.zero_add]; exact card_of_canon hcan
    · intro hne; exact (hne _ (hor f hf)).elim
    · intro c hc k hk
      obtain ⟨s, hs, hsm⟩ := (hcan.mem c).1 hc
      obtain ⟨⟨_, _, a3⟩, _, _, b3⟩ := hbx k
      have a3 := a3 s hs
      have b3 := b3 s hs
      show mn k ≤ c k ∧ c k < mn k + (mx k - mn k + 1)
      by_cases hk0 : k = 0
      · subst hk0
        simp only [upd, if_true] at b3
        have := hsm.2
        omega
      · have := hsm.1 k (by omega) hk
        unfold upd at b3
        rw [if_neg hk0] at b3
        omega
    · intro _ k hk
      obtain ⟨⟨a1, a2, a3⟩, b1, b2, b3⟩ := hbx k
      constructor
      · rcases a2 with h | ⟨s, hs, h⟩
        · exact ⟨f.origin, hor f hf, h.symm⟩
        · exact ⟨s.origin, hor s hs, h.symm⟩
      · show ∃ c, RMem n idx c ∧ c k = mn k + (mx k - mn k + 1) - 1
        rcases b2 with h | ⟨s, hs, h⟩
        · -- the initial value f.origin is dominated by the right end of f
          have h4 := b3 f hf
          have h5 := hcan.pos f hf
          refine ⟨upd f.origin 0 (f.endX - 1), hor2 f hf, ?_⟩
          clear a2
          by_cases hk0 : k = 0
          · subst hk0
            simp only [upd, if_true] at h4 ⊢
            omega
          · unfold upd at h4 ⊢
            rw [if_neg hk0] at h4 ⊢
            omega
        · exact ⟨_, hor2 s hs, by omega⟩

/-! ## Invariant -/

/-- The cache is correct whenever it is not marked as outdated. -/
structure GInv (n : Nat) (g : GReg) (S : Crd → Prop) : Prop where
  ok : RegOK n g.idx
  mem : ∀ c, RMem n g.idx c ↔ S c
  cache : g.tainted = false → Card n S g.mySize ∧ Bounds n S g.box

theorem card_congr {n : Nat} {S T : Crd → Prop} (h : ∀ c, S c ↔ T c) {m : Int} (hc : Card n S m) : Card n T m := by
  have : S = T := funext (fun c => propext (h c))
  rwa [← this]

theorem bounds_congr {n : Nat} {S T : Crd → Prop} (h : ∀ c, S c ↔ T c) {b : Box} (hc : Bounds n S b) : Bounds n T b := by
  have : S = T := funext (fun c => propext (h c))
  rwa [← this]

theorem empty_geom (n : Nat) (S : Crd → Prop) (h : ∀ c, ¬ S c) : Card n S 0 ∧ Bounds n S emptyBox := by
  refine ⟨⟨[], List.Pairwise.nil, fun c => by simp [h c], rfl⟩, fun _ k _ => ⟨rfl, rfl⟩, fun c hc => (h c hc).elim, ?_⟩
  rintro ⟨c, hc⟩; exact (h c hc).elim

theorem gFresh_inv (n : Nat) (idx : Idx) (S : Crd → Prop) (h : RegOK n idx) (hm : ∀ c, RMem n idx c ↔ S c) : GInv n (gFresh idx) S := by
  refine ⟨h, hm, fun ht => ?_⟩
  have h0 : (idx 0).length = 0 := by
    simpa [gFresh] using ht
  exact empty_geom n S (fun c hc => h.empty_iff.1 h0 c ((hm c).2 hc))

theorem gNew_inv (n : Nat) (S : Crd → Prop) (h : ∀ c, ¬ S c) : GInv n gNew S :=
  ⟨regOK_empty n, fun c => ⟨fun hc => (regEmpty_mem n c hc).elim, fun hc => (h c hc).elim⟩, fun _ => empty_geom n S h⟩

theorem gRefresh_inv {n : Nat} {g : GReg} {S : Crd → Prop} (h : GInv n g S) :
    ∃ g', gRefresh n g = some g' ∧ GInv n g' S ∧ Card n S g'.mySize ∧ Bounds n S g'.box := by
  unfold gRefresh
  by_cases ht : g.tainted = true
  · rw [if_pos ht]
    obtain ⟨m, b, h1, h2, h3⟩ := determineGeometry_spec n g.idx h.ok
    rw [h1]
    have h2' := card_congr h.mem h2
    have h3' := bounds_congr h.mem h3
    exact ⟨_, rfl, ⟨h.ok, h.mem, fun _ => ⟨h2', h3'⟩⟩, h2', h3'⟩
  · rw [if_neg ht]
    have ht' : g.tainted = false := by simpa using ht
    exact ⟨g, rfl, h, h.cache ht'⟩

theorem gInsert_inv {n : Nat} {g : GReg} {S : Crd → Prop} (h : GInv n g S) (s : Streak) :
    ∃ g', gInsert n g s = some g' ∧ GInv n g' (fun c => S c ∨ InStreak n s c) := by
  unfold gInsert
  by_cases hs : s.endX ≤ s.origin 0
  · rw [if_pos hs]
    have : S = (fun c => S c ∨ InStreak n s c) := by
      funext c; apply propext
      constructor
      · exact Or.inl
      · rintro (hc | ⟨h1, h2, _⟩)
        · exact hc
        · omega
    exact ⟨g, rfl, by rw [← this]; exact h⟩
  · rw [if_neg hs]
    obtain ⟨i, h1, h2, h3⟩ := regInsert_spec n g.idx s h.ok
    rw [h1]
    exact ⟨_, rfl, h2, fun c => by rw [h3, h.mem, inStreak_iff], fun ht => by simp at ht⟩

theorem gRemove_inv {n : Nat} {g : GReg} {S : Crd → Prop} (h : GInv n g S) (s : Streak) :
    ∃ g', gRemove n g s = some g' ∧ GInv n g' (fun c => S c ∧ ¬ InStreak n s c) := by
  unfold gRemove
  by_cases hs : s.endX ≤ s.origin 0 ∨ (g.idx 0).length = 0
  · rw [if_pos hs]
    have : S = (fun c => S c ∧ ¬ InStreak n s c) := by
      funext c; apply propext
      constructor
      · intro hc
        refine ⟨hc, ?_⟩
        rintro ⟨h1, h2, _⟩
        rcases hs with hs | hs
        · omega
        · exact h.ok.empty_iff.1 hs c ((h.mem c).2 hc)
      · exact fun hc => hc.1
    exact ⟨g, rfl, by rw [← this]; exact h⟩
  · rw [if_neg hs]
    obtain ⟨i, h1, h2, h3⟩ := regRemove_spec n g.idx s h.ok
    rw [h1]
    exact ⟨_, rfl, h2, fun c => by rw [h3, h.mem, inStreak_iff], fun ht => by simp at ht⟩

theorem gPlus_inv {n : Nat} {a b : GReg} {S T : Crd → Prop} (ha : GInv n a S) (hb : GInv n b T) :
    ∃ g, gPlus n a b = some g ∧ GInv n g (fun c => S c ∨ T c) := by
  unfold gPlus
  obtain ⟨r, h1, h2, h3⟩ := regPlus_spec n a.idx b.idx ha.ok hb.ok
  have h3' : ∀ c, RMem n r c ↔ S c ∨ T c := fun c => by rw [h3, ha.mem, hb.mem]
  by_cases h0 : (b.idx 0).length = 0
  · rw [if_pos h0]
    have : S = (fun c => S c ∨ T c) := by
      funext c; apply propext
      have := fun hc => hb.ok.empty_iff.1 h0 c ((hb.mem c).2 hc)
      tauto
    exact ⟨a, rfl, by rw [← this]; exact ha⟩
  rw [if_neg h0]
  by_cases h0a : (a.idx 0).length = 0
  · rw [if_pos h0a]
    have : T = (fun c => S c ∨ T c) := by
      funext c; apply propext
      have := fun hc => ha.ok.empty_iff.1 h0a c ((ha.mem c).2 hc)
      tauto
    exact ⟨b, rfl, by rw [← this]; exact hb⟩
  rw [if_neg h0a]
  obtain ⟨p1, hp1⟩ := isAppendable_spec n a.idx b.idx ha.ok hb.ok
  obtain ⟨p2, hp2⟩ := isAppendable_spec n b.idx a.idx hb.ok ha.ok
  rw [hp1, Option.bind_some, h1]
  by_cases hq : p1 = true
  · rw [if_pos hq]
    exact ⟨_, rfl, h2, h3', fun ht => by simp at ht⟩
  rw [if_neg hq, hp2, Option.bind_some]
  by_cases hq2 : p2 = true
  · rw [if_pos hq2]
    exact ⟨_, rfl, h2, h3', fun ht => by simp at ht⟩
  rw [if_neg hq2]
  exact ⟨_, rfl, gFresh_inv n r _ h2 h3'⟩

theorem gMinus_inv {n : Nat} {a b : GReg} {S T : Crd → Prop} (ha : GInv n a S) (hb : GInv n b T) :
    ∃ g, gMinus n a b = some g ∧ GInv n g (fun c => S c ∧ ¬ T c) := by
  unfold gMinus
  by_cases h0a : (a.idx 0).length = 0
  · rw [if_pos h0a]
    exact ⟨_, rfl, gNew_inv n _ (fun c hc => ha.ok.empty_iff.1 h0a c ((ha.mem c).2 hc.1))⟩
  rw [if_neg h0a]
  by_cases h0 : (b.idx 0).length = 0
  · rw [if_pos h0]
    have : S = (fun c => S c ∧ ¬ T c) := by
      funext c; apply propext
      have := fun hc => hb.ok.empty_iff.1 h0 c ((hb.mem c).2 hc)
      tauto
    exact ⟨a, rfl, by rw [← this]; exact ha⟩
  rw [if_neg h0]
  obtain ⟨r, h1, h2, h3⟩ := regMinus_spec n a.idx b.idx ha.ok hb.ok
  rw [h1]
  exact ⟨_, rfl, gFresh_inv n r _ h2 (fun c => by rw [h3, ha.mem, hb.mem])⟩

theorem gAnd_inv {n : Nat} {a b : GReg} {S T : Crd → Prop} (ha : GInv n a S) (hb : GInv n b T) :
    ∃ g, gAnd n a b = some g ∧ GInv n g (fun c => S c ∧ T c) := by
  unfold gAnd
  obtain ⟨r, h1, h2, h3⟩ := regAnd_spec n a.idx b.idx ha.ok hb.ok
  rw [h1]
  exact ⟨_, rfl, gFresh_inv n r _ h2 (fun c => by rw [h3, ha.mem, hb.mem])⟩

theorem setReg_inv {n : Nat} {st : Store} {S : Nat → Crd → Prop} (h : ∀ i, GInv n (st i) (S i)) {i : Nat} {g : GReg} {T : Crd → Prop}
    (hg : GInv n g T) : ∀ j, GInv n (setReg st i g j) (setSet S i T j) := by
  intro j
  unfold setReg setSet
  by_cases hj : j = i
  · simp only [hj, if_true]; exact hg
  · simp only [hj, if_false]; exact h j

theorem exec_spec (n : Nat) (cmds : List Cmd) (st : Store) (S : Nat → Crd → Prop) (h : ∀ i, GInv n (st i) (S i)) :
    ∃ a, exec n st cmds = some a ∧ Correct n S cmds a := by
  induction cmds generalizing st S with
  | nil => exact ⟨[], rfl, rfl⟩
  | cons c r ih =>
    cases c with
    | insert i s =>
      obtain ⟨g, h1, h2⟩ := gInsert_inv (h i) s
      obtain ⟨a, h3, h4⟩ := ih _ _ (setReg_inv h (i := i) h2)
      exact ⟨a, by rw [exec, h1, Option.bind_some, h3], h4⟩
    | remove i s =>
      obtain ⟨g, h1, h2⟩ := gRemove_inv (h i) s
      obtain ⟨a, h3, h4⟩ := ih _ _ (setReg_inv h (i := i) h2)
      exact ⟨a, by rw [exec, h1, Option.bind_some, h3], h4⟩
    | clear i =>
      obtain ⟨a, h3, h4⟩ := ih _ _ (setReg_inv h (i := i) (gNew_inv n (fun _ => False) (fun _ hc => hc)))
      exact ⟨a, by rw [exec]; exact h3, h4⟩
    | copy i j =>
      obtain ⟨a, h3, h4⟩ := ih _ _ (setReg_inv h (i := i) (h j))
      exact ⟨a, by rw [exec]; exact h3, h4⟩
    | plus i j k =>
      obtain ⟨g, h1, h2⟩ := gPlus_inv (h j) (h k)
      obtain ⟨a, h3, h4⟩ := ih _ _ (setReg_inv h (i := i) h2)
      exact ⟨a, by rw [exec, h1, Option.bind_some, h3], h4⟩
    | minus i j k =>
      obtain ⟨g, h1, h2⟩ := gMinus_inv (h j) (h k)
      obtain ⟨a, h3, h4⟩ := ih _ _ (setReg_inv h (i := i) h2)
      exact ⟨a, by rw [exec, h1, Option.bind_some, h3], h4⟩
    | inter i j k =>
      obtain ⟨g, h1, h2⟩ := gAnd_inv (h j) (h k)
      obtain ⟨a, h3, h4⟩ := ih _ _ (setReg_inv h (i := i) h2)
      exact ⟨a, by rw [exec, h1, Option.bind_some, h3], h4⟩
    | size i =>
      obtain ⟨g, h1, h2, h3, _⟩ := gRefresh_inv (h i)
      have hset : setSet S i (S i) = S := by
        funext j; unfold setSet; split
        · rename_i hj; rw [hj]
        · rfl
      obtain ⟨a, h4, h5⟩ := ih _ _ (setReg_inv h (i := i) h2)
      rw [hset] at h5
      refine ⟨.size g.mySize :: a, ?_, g.mySize, a, rfl, h3, h5⟩
      rw [exec, gSize, h1, Option.map_some, Option.bind_some, h4, Option.map_some]
    | box i =>
      obtain ⟨g, h1, h2, _, h3⟩ := gRefresh_inv (h i)
      have hset : setSet S i (S i) = S := by
        funext j; unfold setSet; split
        · rename_i hj; rw [hj]
        · rfl
      obtain ⟨a, h4, h5⟩ := ih _ _ (setReg_inv h (i := i) h2)
      rw [hset] at h5
      refine ⟨.box g.box :: a, ?_, g.box, a, rfl, h3, h5⟩
      rw [exec, gBox, h1, Option.map_some, Option.bind_some, h4, Option.map_some]

/-- **C04.** However modifications, copies, set operations and queries on any number of regions are interleaved: nothing
undefined happens, every `size()` is the number of coordinates and every `boundingBox()` is the tight bounding box of the
set at that point. -/
theorem cache_correct (n : Nat) (cmds : List Cmd) :
    ∃ a, exec n (fun _ => gNew) cmds = some a ∧ Correct n (fun _ _ => False) cmds a :=
  exec_spec n cmds _ _ (fun _ => gNew_inv n _ (fun _ h => h))

/-- `Card` determines the number. -/
theorem card_unique (n : Nat) (S : Crd → Prop) (m m' : Int) (h : Card n S m) (h' : Card n S m') : m = m' := by
  obtain ⟨l, h1, h2, rfl⟩ := h
  obtain ⟨l', h1', h2', rfl⟩ := h'
  have key : ∀ (l l' : List Crd), l.Pairwise (fun a b => ∃ k, k ≤ n ∧ a k ≠ b k) →
      (∀ c ∈ l, ∃ c' ∈ l', ∀ k, k ≤ n → c' k = c k) → l.length ≤ l'.length := by
    intro l
    induction l with
    | nil => intros; simp
    | cons a l ih =>
      intro l' hp hs
      rw [List.pairwise_cons] at hp
      obtain ⟨a', ha', hk⟩ := hs a (by simp)
      obtain ⟨u, v, rfl⟩ := List.append_of_mem ha'
      have := ih (u ++ v) hp.2 (by
        intro c hc
        obtain ⟨c', hc', hck⟩ := hs c (by simp [hc])
        rcases List.mem_append.1 hc' with hu | hv
        · exact ⟨c', List.mem_append.2 (Or.inl hu), hck⟩
        · rcases List.mem_cons.1 hv with rfl | hv
          · exfalso
            obtain ⟨k, k1, k2⟩ := hp.1 c hc
            exact k2 (by rw [← hk k k1, ← hck k k1])
          · exact ⟨c', List.mem_append.2 (Or.inr hv), hck⟩)
      simp only [List.length_append, List.length_cons] at this ⊢
      omega
  have e1 := key l l' h1 (fun c hc => by
    obtain ⟨c', a, b⟩ := (h2' c).1 ((h2 c).2 ⟨c, hc, fun _ _ => rfl⟩)
    exact ⟨c', a, b⟩)
  have e2 := key l' l h1' (fun c hc => by
    obtain ⟨c', a, b⟩ := (h2 c).1 ((h2' c).2 ⟨c, hc, fun _ _ => rfl⟩)
    exact ⟨c', a, b⟩)
  omega

/-! non-vacuity: a program that queries before and after modifications -/

def ansTriple : Answer → List Int
  | .size m => [m]
  | .box b => [b.origin 0, b.origin 1, b.dims 0, b.dims 1]

example : (exec 1 (fun _ => gNew) [.box 0, .insert 0 (mk2 3 2 7), .size 0, .insert 0 (mk2 (-1) 5 1), .box 0, .copy 1 0,
    .remove 0 (mk2 0 2 5), .size 0, .size 1, .minus 2 1 0, .box 2, .clear 0, .size 0]).map (List.map ansTriple) =
    some [[0, 0, 0, 0], [4], [-1, 2, 8, 4], [4], [6], [3, 2, 2, 1], [0]] := by decide

end LGD.C04
