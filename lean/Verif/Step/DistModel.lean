import Verif.Step.VanillaModel

/-!
# Several steppers, connected by patch links

Each link is modelled by the list of patches its accepter was given; the provider's `m`-th `get` delivers the `m`-th
patch and blocks until it was sent. C25 proves that the PatchLink protocol behaves like this. One `update1` is one
atomic step: a stepper receives at the beginning of `updateGhost` and sends the patches for the next synchronisation
point at its end.
-/

namespace LGD.Step
open LGD.Patch

variable {κ α : Type} [DecidableEq κ]

/-- `N` update groups (updategroup.h:157-255). `recvRegion i j` is the region of the link provider on node `i` for patches from
`j` (last outer ghost zone fragment, lines 189-206), `sendRegion j i` the one of the link accepter on node `j` for patches to `i`
(last inner ghost zone fragment, lines 210-227). Links are only created for non-empty regions. -/
structure Cluster (κ α : Type) where
  N : Nat
  env : Nat → Env κ α
  recvRegion : Nat → Nat → List κ
  sendRegion : Nat → Nat → List κ

/-- nano steps for which the links are charged: `firstSyncPoint = startStep * NANO_STEPS + ghostZoneWidth`, stride
`ghostZoneWidth`, no end (updategroup.h:182-184, 197-200, 218-221) -/
def due (E : Env κ α) (s : Nat) : Bool :=
  decide (E.startStep * E.nanoSteps < s) && (s - E.startStep * E.nanoSteps) % E.W == 0

/-- index of the patch for nano step `s` -/
def patchNo (E : Env κ α) (s : Nat) : Nat := (s - E.startStep * E.nanoSteps) / E.W - 1

/-- the patches that the link accepter on node `j` for node `i` was given so far -/
def sentTo (C : Cluster κ α) (i j : Nat) (st : St κ α) : List (List α) :=
  st.log.filterMap fun e =>
    match e with
    | .ghost s g => if due (C.env j) s then some (saveRegion (C.sendRegion j i) g) else none
    | _ => none

/-- `notifyPatchProviders` for the link providers on node `i` (commonstepper.h:136-156) -/
def linkProv (C : Cluster κ α) (nodes : Nat → St κ α) (i s : Nat) (g : κ → α) : κ → α :=
  if due (C.env i) s then
    (List.range C.N).foldl (fun g j =>
      if C.recvRegion i j = [] then g
      else loadRegion (C.recvRegion i j) ((sentTo C i j (nodes j)).getD (patchNo (C.env i) s) []) g) g
  else g

/-- node `i` in the current state of the cluster -/
def envAt (C : Cluster κ α) (nodes : Nat → St κ α) (i : Nat) : Env κ α := { C.env i with prov := linkProv C nodes i }

/-- all patches node `i` needs for its next `update1` were sent: the providers do not block -/
def Ready (C : Cluster κ α) (nodes : Nat → St κ α) (i : Nat) : Prop :=
  due (C.env i) (glob (C.env i) (nodes i) + 1) = true → ∀ j, j < C.N → C.recvRegion i j ≠ [] →
    patchNo (C.env i) (glob (C.env i) (nodes i) + 1) < (sentTo C i j (nodes j)).length

/-- Executions: every node sets up its grids (no patches are due), then the nodes update independently of each
other, but wait for patches. -/
inductive Reach (C : Cluster κ α) (b1 b2 : Nat → Nat → List α) : (Nat → St κ α) → Prop
  | init (nodes) : (∀ i, i < C.N → initGrids { C.env i with prov := fun _ g => g } (b1 i) (b2 i) = some (nodes i)) → Reach C b1 b2 nodes
  | step (nodes i st) : Reach C b1 b2 nodes → i < C.N → Ready C nodes i → update1 (envAt C nodes i) (nodes i) = some st →
      Reach C b1 b2 (Function.update nodes i st)

end LGD.Step
