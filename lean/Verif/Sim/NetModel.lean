/-!
# Ranks which exchange messages

A program is a sequence of rounds, the same for all ranks. In a round a rank first waits for messages (`MPI_Waitall`), then
computes, then sends messages (`MPI_Isend`). Messages between two ranks with equal tags do not overtake each other (MPI
standard), so there is one queue per tag, source and destination. Rounds of different ranks interleave arbitrarily.
-/

namespace LGD.Net

/-- a program: `waits r i s` lists tags and sources of the messages rank `i` waits for in round `r` in local state `s`; `act` computes the
new local state and the messages to be sent (tag, destination, content), or `none` for an exception -/
structure Prog (σ μ τ : Type) where
  N : Nat
  total : Nat
  waits : Nat → Nat → σ → List (τ × Nat)
  act : Nat → Nat → σ → (τ → Nat → Option μ) → Option (σ × List (τ × Nat × μ))

/-- state of all ranks: next round, local state, messages sent but not received (tag, source, destination) -/
structure G (σ μ τ : Type) where
  round : Nat → Nat
  loc : Nat → σ
  q : τ → Nat → Nat → List μ

variable {σ μ τ : Type} [DecidableEq τ]

/-- rank `i` is not blocked -/
def Ready (A : Prog σ μ τ) (g : G σ μ τ) (i : Nat) : Prop :=
  ∀ w ∈ A.waits (g.round i) i (g.loc i), g.q w.1 w.2 i ≠ []

/-- the next round of rank `i` -/
def exec (A : Prog σ μ τ) (g : G σ μ τ) (i : Nat) : Option (G σ μ τ) :=
  let w := A.waits (g.round i) i (g.loc i)
  match A.act (g.round i) i (g.loc i) fun t j => (g.q t j i).head? with
  | none => none
  | some (s, out) => some {
      round := fun j => if j = i then g.round j + 1 else g.round j
      loc := fun j => if j = i then s else g.loc j
      q := fun t j d => (if d = i ∧ (t, j) ∈ w then (g.q t j d).tail else g.q t j d) ++
        if j = i then out.filterMap (fun m => if m.1 = t ∧ m.2.1 = d then some m.2.2 else none) else [] }

/-- executions: no messages in transit at the beginning, then ranks which are not blocked proceed in any order -/
inductive Reach (A : Prog σ μ τ) (start : Nat → σ) : G σ μ τ → Prop
  | init : Reach A start ⟨fun _ => 0, start, fun _ _ _ => []⟩
  | step (g g' : G σ μ τ) (i : Nat) : Reach A start g → i < A.N → g.round i < A.total → Ready A g i → exec A g i = some g' → Reach A start g'

end LGD.Net
