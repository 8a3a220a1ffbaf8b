import Verif.Props.C01
import Verif.Region.SetOps

/-!
# C03 – Region set algebra
-/

namespace LGD.C03
open LGD.C01

/-- Expressions a user can form: insertions/removals interleaved arbitrarily with the six binary operators. -/
inductive RExpr where
  | empty
  | insert (e : RExpr) (s : Streak)
  | remove (e : RExpr) (s : Streak)
  | plus (a b : RExpr)
  | plusAssign (a b : RExpr)
  | minus (a b : RExpr)
  | minusAssign (a b : RExpr)
  | inter (a b : RExpr)
  | interAssign (a b : RExpr)

/-- Evaluation on index vectors, `none` = undefined behaviour / non-termination. -/
def eval (n : Nat) : RExpr → Option Idx
  | .empty => some emptyIdx
  | .insert e s => (eval n e).bind (fun i => regInsert n i s)
  | .remove e s => (eval n e).bind (fun i => regRemove n i s)
  | .plus a b => (eval n a).bind (fun x => (eval n b).bind (fun y => regPlus n x y))
  | .plusAssign a b => (eval n a).bind (fun x => (eval n b).bind (fun y => regPlusAssign n x y))
  | .minus a b => (eval n a).bind (fun x => (eval n b).bind (fun y => regMinus n x y))
  | .minusAssign a b => (eval n a).bind (fun x => (eval n b).bind (fun y => regMinusAssign n x y))
  | .inter a b => (eval n a).bind (fun x => (eval n b).bind (fun y => regAnd n x y))
  | .interAssign a b => (eval n a).bind (fun x => (eval n b).bind (fun y => regAndAssign n x y))

/-- Specification: the same expression over plain sets of coordinates. -/
def den (n : Nat) : RExpr → Crd → Prop
  | .empty, _ => False
  | .insert e s, c => den n e c ∨ InStreak n s c
  | .remove e s, c => den n e c ∧ ¬ InStreak n s c
  | .plus a b, c => den n a c ∨ den n b c
  | .plusAssign a b, c => den n a c ∨ den n b c
  | .minus a b, c => den n a c ∧ ¬ den n b c
  | .minusAssign a b, c => den n a c ∧ ¬ den n b c
  | .inter a b, c => den n a c ∧ den n b c
  | .interAssign a b, c => den n a c ∧ den n b c

theorem eval_spec (n : Nat) (e : RExpr) :
    ∃ r, eval n e = some r ∧ RegOK n r ∧ ∀ c, RMem n r c ↔ den n e c := by
  induction e with
  | empty => exact ⟨emptyIdx, rfl, regOK_empty n, fun c => ⟨fun h => (regEmpty_mem n c h).elim, fun h => h.elim⟩⟩
  | insert e s ih =>
    obtain ⟨x, h1, h2, h3⟩ := ih
    obtain ⟨r, i1, i2, i3⟩ := regInsert_spec n x s h2
    exact ⟨r, by rw [eval, h1, Option.bind_some, i1], i2, fun c => by rw [i3, h3, den, inStreak_iff]⟩
  | remove e s ih =>
    obtain ⟨x, h1, h2, h3⟩ := ih
    obtain ⟨r, i1, i2, i3⟩ := regRemove_spec n x s h2
    exact ⟨r, by rw [eval, h1, Option.bind_some, i1], i2, fun c => by rw [i3, h3, den, inStreak_iff]⟩
  | plus a b iha ihb =>
    obtain ⟨x, h1, h2, h3⟩ := iha
    obtain ⟨y, k1, k2, k3⟩ := ihb
    obtain ⟨r, i1, i2, i3⟩ := regPlus_spec n x y h2 k2
    exact ⟨r, by rw [eval, h1, k1, Option.bind_some, Option.bind_some, i1], i2, fun c => by rw [i3, h3, k3, den]⟩
  | plusAssign a b iha ihb =>
    obtain ⟨x, h1, h2, h3⟩ := iha
    obtain ⟨y, k1, k2, k3⟩ := ihb
    obtain ⟨r, i1, i2, i3⟩ := regPlusAssign_spec n x y h2 k2
    exact ⟨r, by rw [eval, h1, k1, Option.bind_some, Option.bind_some, i1], i2, fun c => by rw [i3, h3, k3, den]⟩
  | minus a b iha ihb =>
    obtain ⟨x, h1, h2, h3⟩ := iha
    obtain ⟨y, k1, k2, k3⟩ := ihb
    obtain ⟨r, i1, i2, i3⟩ := regMinus_spec n x y h2 k2
    exact ⟨r, by rw [eval, h1, k1, Option.bind_some, Option.bind_some, i1], i2, fun c => by rw [i3, h3, k3, den]⟩
  | minusAssign a b iha ihb =>
    obtain ⟨x, h1, h2, h3⟩ := iha
    obtain ⟨y, k1, k2, k3⟩ := ihb
    obtain ⟨r, i1, i2, i3⟩ := regMinus_spec n x y h2 k2
    exact ⟨r, by rw [eval, h1, k1, Option.bind_some, Option.bind_some, regMinusAssign, i1], i2,
      fun c => by rw [i3, h3, k3, den]⟩
  | inter a b iha ihb =>
    obtain ⟨x, h1, h2, h3⟩ := iha
    obtain ⟨y, k1, k2, k3⟩ := ihb
    obtain ⟨r, i1, i2, i3⟩ := regAnd_spec n x y h2 k2
    exact ⟨r, by rw [eval, h1, k1, Option.bind_some, Option.bind_some, i1], i2, fun c => by rw [i3, h3, k3, den]⟩
  | interAssign a b iha ihb =>
    obtain ⟨x, h1, h2, h3⟩ := iha
    obtain ⟨y, k1, k2, k3⟩ := ihb
    obtain ⟨r, i1, i2, i3⟩ := regAnd_spec n y x k2 h2
    exact ⟨r, by rw [eval, h1, k1, Option.bind_some, Option.bind_some, regAndAssign, i1], i2,
      fun c => by rw [i3, h3, k3, den, and_comm]⟩

/-- **C03.** Every expression over regions evaluates without undefined behaviour, and lookups on the result answer as for
the same expression over sets. -/
theorem set_algebra (n : Nat) (e : RExpr) :
    ∃ r, eval n e = some r ∧ ∀ c, ∃ b, regCountCoord n r c = some b ∧ (b = true ↔ den n e c) := by
  obtain ⟨r, h1, ⟨t, h2⟩, h3⟩ := eval_spec n e
  refine ⟨r, h1, fun c => ?_⟩
  obtain ⟨b, h4, h5⟩ := rep_countCoord h2 c
  exact ⟨b, h4, h5.trans ((h2.mem_iff c).symm.trans (h3 c))⟩

/-- **C03**, equality form: two expressions yield regions which compare equal (`operator==`) exactly if they denote the
same set, e.g. all laws of Boolean algebra hold for the stored representation. -/
theorem set_algebra_eq (n : Nat) (e f : RExpr) :
    ∃ x y, eval n e = some x ∧ eval n f = some y ∧ (regEq n x y = true ↔ ∀ c, den n e c ↔ den n f c) := by
  obtain ⟨x, h1, ⟨t, h2⟩, h3⟩ := eval_spec n e
  obtain ⟨y, k1, ⟨u, k2⟩, k3⟩ := eval_spec n f
  refine ⟨x, y, h1, k1, ?_⟩
  rw [rep_eq_iff h2 k2]
  constructor
  · intro h c; rw [← h3, ← k3]; exact h c
  · intro h c; rw [h3, k3]; exact h c

/-! non-vacuity: overlapping 2D operands, all branches of the difference (split, trim at either end, untouched) -/

def ra : RExpr := .insert (.insert (.insert .empty (mk2 0 0 10)) (mk2 2 1 6)) (mk2 0 3 4)
def rb : RExpr := .insert (.insert (.insert .empty (mk2 3 0 5)) (mk2 0 1 4)) (mk2 3 3 9)

example : (eval 1 (.minus ra rb)).map (fun i => (i 0, i 1)) =
    some ([(0, 3), (5, 10), (4, 6), (0, 3)], [(0, 0), (1, 2), (3, 3)]) := by decide
example : (eval 1 (.inter ra rb)).map (fun i => (i 0, i 1)) =
    some ([(3, 5), (2, 4), (3, 4)], [(0, 0), (1, 1), (3, 2)]) := by decide
example : (eval 1 (.plus ra rb)).map (fun i => (i 0, i 1)) =
    some ([(0, 10), (0, 6), (0, 9)], [(0, 0), (1, 1), (3, 2)]) := by decide

end LGD.C03
