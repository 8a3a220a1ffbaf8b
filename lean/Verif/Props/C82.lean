import Verif.Store.MultiCellModel
import Mathlib.Data.List.Basic

/-!
# C82: particles inserted during an update of a multi container cell
-/

namespace LGD.C82
open LGD.MultiCell

variable {P : Type} (upd : Nat → P → P × List (Nat × P))

/-- particles which a particle of member `m` inserts into member `j` -/
def spawns (m j : Nat) (p : P) : List P := ((upd m p).2.filter fun s => decide (s.1 = j)).map Prod.snd

/-- particles which the particles `l` of member `m` insert into member `j` -/
def spawned (m j : Nat) (l : List P) : List P := l.flatMap (spawns upd m j)

/-- updated particle -/
def new (m : Nat) (p : P) : P := (upd m p).1

theorem spawnAll_get (l : List (Nat × P)) : ∀ (st : St P) (j : Nat), spawnAll st l j = st j ++ (l.filter fun s => decide (s.1 = j)).map Prod.snd := by
  induction l with
  | nil => intro st j; simp [spawnAll]
  | cons s l ih =>
    intro st j
    have e : spawnAll st (s :: l) = spawnAll (push st s) l := rfl
    rw [e, ih]
    unfold push
    by_cases h : s.1 = j
    · rw [← h, Function.update_self, List.filter_cons_of_pos (by simp)]; simp
    · rw [Function.update_of_ne (Ne.symm h), List.filter_cons_of_neg (by simpa using h)]

/-- after `k` iterations -/
theorem loop_get (m : Nat) (st : St P) : ∀ k, k ≤ (st m).length → ∀ j,
    cargoLoop upd m k st j = (if j = m then ((st m).take k).map (new upd m) ++ (st m).drop k else st j) ++ spawned upd m j ((st m).take k) := by
  intro k
  induction k with
  | zero =>
    intro _ j
    by_cases h : j = m
    · subst h; simp [cargoLoop, spawned]
    · simp [cargoLoop, spawned, h]
  | succ k ih =>
    intro hk j
    have ihk := ih (by omega)
    have hm := ihk m
    rw [if_pos rfl] at hm
    have hlt : k < (st m).length := by omega
    have hlen : (((st m).take k).map (new upd m)).length = k := by rw [List.length_map, List.length_take]; omega
    have hdrop : (st m).drop k = (st m)[k] :: (st m).drop (k + 1) := List.drop_eq_getElem_cons hlt
    have htake : (st m).take (k + 1) = (st m).take k ++ [(st m)[k]] := (List.take_append_getElem hlt).symm
    have hget : (cargoLoop upd m k st m)[k]? = some (st m)[k] := by
      rw [hm, List.append_assoc, List.getElem?_append_right (by omega), hlen, Nat.sub_self, hdrop]; rfl
    have hset : (cargoLoop upd m k st m).set k (new upd m (st m)[k]) = ((st m).take (k + 1)).map (new upd m) ++ (st m).drop (k + 1) ++ spawned upd m m ((st m).take k) := by
      rw [hm, List.append_assoc, List.set_append_right _ _ (by omega), hlen, Nat.sub_self, hdrop, htake, List.map_append, List.append_assoc, List.append_assoc]
      rfl
    have hsp : spawned upd m j ((st m).take (k + 1)) = spawned upd m j ((st m).take k) ++ spawns upd m j (st m)[k] := by
      rw [htake]; unfold spawned; rw [List.flatMap_append]; simp
    simp only [cargoLoop, updateOne, hget]
    rw [spawnAll_get, hsp]
    by_cases h : j = m
    · subst h
      rw [Function.update_self, if_pos rfl]
      rw [show (upd j (st j)[k]).1 = new upd j (st j)[k] from rfl, hset, List.append_assoc]; rfl
    · rw [Function.update_of_ne h, if_neg h, ihk, if_neg h, List.append_assoc]; rfl

/-- one member: each particle which was there is updated once, inserted ones aren't and follow in order -/
theorem cargo (m : Nat) (st : St P) (j : Nat) : updateCargo upd m st j = (if j = m then (st m).map (new upd m) else st j) ++ spawned upd m j (st m) := by
  unfold updateCargo
  rw [loop_get upd m st _ (Nat.le_refl _), List.take_of_length_le (Nat.le_refl _), List.drop_of_length_le (Nat.le_refl _), List.append_nil]

/-- all members, if particles are inserted into their own member or ones declared before it: each particle which was there is updated once, inserted ones aren't -/
theorem backward (hb : ∀ m p j q, (j, q) ∈ (upd m p).2 → j ≤ m) (st : St P) : ∀ M j, updateAll upd M st j =
    if j < M then (st j).map (new upd j) ++ (List.range M).flatMap (fun m => if j ≤ m then spawned upd m j (st m) else []) else st j := by
  have hnone : ∀ m j l, m < j → spawned upd m j l = [] := by
    intro m j l h
    unfold spawned
    rw [List.flatMap_eq_nil_iff]
    intro p _
    unfold spawns
    rw [List.map_eq_nil_iff, List.filter_eq_nil_iff]
    rintro ⟨j', q⟩ hs he
    have := hb m p j' q hs
    have : j' = j := of_decide_eq_true he
    omega
  intro M
  induction M with
  | zero => intro j; rfl
  | succ M ih =>
    intro j
    have hM : updateAll upd M st M = st M := by rw [ih M, if_neg (Nat.lt_irrefl _)]
    simp only [updateAll]
    rw [cargo, hM]
    by_cases h1 : j = M
    · subst h1
      rw [if_pos rfl, if_pos (Nat.lt_succ_self _), List.range_succ, List.flatMap_append]
      have : (List.range j).flatMap (fun m => if j ≤ m then spawned upd m j (st m) else []) = [] := by
        rw [List.flatMap_eq_nil_iff]
        intro m hm
        rw [if_neg (by have := List.mem_range.1 hm; omega)]
      rw [this]; simp
    · rw [if_neg h1, ih j]
      by_cases h2 : j < M
      · rw [if_pos h2, if_pos (by omega), List.range_succ, List.flatMap_append, List.append_assoc]
        simp [Nat.le_of_lt h2]
      · rw [if_neg h2, if_neg (by omega), hnone M j _ (by omega), List.append_nil]

/-- nothing inserted: the order in which members are declared doesn't matter -/
theorem no_spawns (hn : ∀ m p, (upd m p).2 = []) (st : St P) {M j : Nat} (hj : j < M) : updateAll upd M st j = (st j).map (new upd j) := by
  rw [backward upd (fun m p j q h => by rw [hn] at h; exact absurd h (by simp)) st M j, if_pos hj]
  have : (List.range M).flatMap (fun m => if j ≤ m then spawned upd m j (st m) else []) = [] := by
    rw [List.flatMap_eq_nil_iff]
    intro m _
    by_cases h : j ≤ m
    · rw [if_pos h]
      unfold spawned
      rw [List.flatMap_eq_nil_iff]
      intro p _
      unfold spawns
      rw [hn]; rfl
    · rw [if_neg h]
  rw [this, List.append_nil]

/-- whatever is inserted: `updateAll` by recursion over members. A member's particles when its turn comes include those inserted by members declared before it; all of them are updated. -/
theorem all_members (st : St P) (M j : Nat) : updateAll upd (M + 1) st j =
    (if j = M then (updateAll upd M st M).map (new upd M) else updateAll upd M st j) ++ spawned upd M j (updateAll upd M st M) := by
  simp only [updateAll]; rw [cargo]

/-- negation: a particle of member 0 inserts `q` into member 1. It is updated at once, against the purpose of the code (boxcell.h:145-146) -/
theorem forward_updated (p q : P) (hp : (upd 0 p).2 = [(1, q)]) (hq : (upd 1 q).2 = []) : updateAll upd 2 (fun m => if m = 0 then [p] else []) 1 = [new upd 1 q] := by
  have h0 : updateAll upd 1 (fun m => if m = 0 then [p] else []) 1 = [q] := by
    rw [all_members]
    simp [updateAll, spawned, spawns, hp]
  rw [all_members, if_pos rfl, h0]
  simp [spawned, spawns, hq]

/-- … while it isn't if the members are declared the other way round -/
theorem backward_not_updated (p q : P) (hp : (upd 1 p).2 = [(0, q)]) : updateAll upd 2 (fun m => if m = 1 then [p] else []) 0 = [q] := by
  rw [all_members, all_members, all_members]
  simp [updateAll, spawned, spawns, hp]

/-- `update` starts from the copies of all members -/
theorem update_eq (M : Nat) (copied st : St P) (hb : ∀ m p j q, (j, q) ∈ (upd m p).2 → j ≤ m) {j : Nat} (hj : j < M) :
    update upd M copied st j = (copied j).map (new upd j) ++ (List.range M).flatMap (fun m => if j ≤ m then spawned upd m j (copied m) else []) := by
  unfold update
  rw [backward upd hb, if_pos hj, if_pos hj]
  congr 1
  apply List.flatMap_congr
  intro m hm
  rw [if_pos (List.mem_range.1 hm)]

/-! ### examples: a particle is a number of particles to be inserted and the number of its updates -/

/-- as many new particles are inserted into member `t` -/
def exU (t : Nat) : Nat → Nat × Nat → (Nat × Nat) × List (Nat × (Nat × Nat)) := fun _ p => ((0, p.2 + 1), List.replicate p.1 (t, (0, 0)))

/-- into the same member and the one before: not updated -/
example : update (exU 0) 2 (fun m => if m = 0 then [(2, 0)] else [(1, 0), (0, 5)]) (fun _ => []) 0 = [(0, 1), (0, 0), (0, 0), (0, 0)] ∧
    update (exU 0) 2 (fun m => if m = 0 then [(2, 0)] else [(1, 0), (0, 5)]) (fun _ => []) 1 = [(0, 1), (0, 6)] := by decide

/-- into the next member: those of member 0 are updated, the one of member 1 isn't -/
example : update (exU 1) 2 (fun m => if m = 0 then [(2, 0)] else [(1, 0), (0, 5)]) (fun _ => []) 1 = [(0, 1), (0, 6), (0, 1), (0, 1), (0, 0)] := by decide

end LGD.C82
