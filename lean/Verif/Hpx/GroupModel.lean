import Verif.Step.DistModel

/-!
# Update groups on top of HPX

`HPXUpdateGroup` (parallelization/nesting/hpxupdategroup.h), `HPXPatchLink` (communication/hpxpatchlink.h) and `HPXReceiver` (communication/hpxreceiver.h), as used by `HpxSimulator`
(parallelization/hpxsimulator.h) with `HPXStepper` (parallelization/nesting/hpxstepper.h).

HPX is modelled by its documented behaviour: `hpx::apply` starts an action on a remote component at some point in the future, in no particular order; `receive_buffer` hands out the value for a given step as soon as it
was stored, and a step can be stored only once; `find_all_from_basename` yields futures which become ready upon registration. `notifyPatchProviders` waits for all futures. The links of one group load disjoint regions, so that the order of their
continuations doesn't matter, but the adapters of steerers are called concurrently, hence in any order (hpxstepper.h:105-139); each call is atomic here, and the order is the same for the calls within one nano step. As in `Step/DistModel.lean`, one `update1` is one atomic step: it receives before it sends.
-/

namespace LGD.HpxGroup
open LGD.Step LGD.Patch

variable {κ α : Type} [DecidableEq κ]

/-- State of the simulation. `phase i` is the progress of the construction of update group `i`: number of finished stages of `init` before the stepper is created (own bounding box handed to the first
`allGather`, the expanded one to the second, providers registered; updategroup.h:172-206), 4 if the stepper exists. `steer i`: the steerers of its stepper in the order of the last calls. `fly i j`: parcels from `j` to `i` which
have not arrived. `buf i j`: contents of the `receive_buffer` on `i` for patches from `j`. `err`: exceptions. `del` is a history variable, it counts arrivals. -/
structure HSt (κ α : Type) where
  phase : Nat → Nat
  nodes : Nat → St κ α
  steer : Nat → List (Steerer κ α)
  fly : Nat → Nat → List (Nat × List α)
  buf : Nat → Nat → List (Nat × List α)
  del : Nat → Nat → Nat
  err : Bool

/-- what the link accepter on node `j` for node `i` has sent so far: nano step and patch (hpxpatchlink.h:104-131, commonstepper.h:111-134) -/
def parcels (C : Cluster κ α) (i j : Nat) (log : List (Ev κ α)) : List (Nat × List α) :=
  log.filterMap fun e =>
    match e with
    | .ghost s g => if due (C.env j) s then some (s, saveRegion (C.sendRegion j i) g) else none
    | _ => none

/-- `getAsync` of all link providers of node `i` (hpxpatchlink.h:162-190, hpxstepper.h:105-139) -/
def bufProv (C : Cluster κ α) (buf : Nat → List (Nat × List α)) (i s : Nat) (g : κ → α) : κ → α :=
  if due (C.env i) s then
    (List.range C.N).foldl (fun g j =>
      if C.recvRegion i j = [] then g
      else loadRegion (C.recvRegion i j) ((((buf j).find? fun p => p.1 == s).map Prod.snd).getD []) g) g
  else g

/-- the patches for the next nano step have arrived if it's due -/
def Avail (C : Cluster κ α) (t : HSt κ α) (i : Nat) : Prop :=
  due (C.env i) (glob (C.env i) (t.nodes i) + 1) = true → ∀ j, j < C.N → C.recvRegion i j ≠ [] →
    ∃ p ∈ t.buf i j, p.1 = glob (C.env i) (t.nodes i) + 1

/-- another order -/
def reorder {β : Type} (o : List Nat) (l : List β) : List β := o.filterMap (l[·]?)

/-- set an entry of a table -/
def upd2 {β : Type} (f : Nat → Nat → β) (i j : Nat) (v : β) : Nat → Nat → β := fun a b => if a = i ∧ b = j then v else f a b

/-- node `i` sends what was added to its log -/
def emit (C : Cluster κ α) (i : Nat) (log log' : List (Ev κ α)) (fly : Nat → Nat → List (Nat × List α)) : Nat → Nat → List (Nat × List α) :=
  fun a b => if b = i ∧ a < C.N ∧ C.sendRegion i a ≠ [] then fly a b ++ (parcels C a i log').drop (parcels C a i log).length else fly a b

/-- taking patches for nano step `s` out of the receive buffers of node `i` -/
def consume (C : Cluster κ α) (i s : Nat) (buf : Nat → Nat → List (Nat × List α)) : Nat → Nat → List (Nat × List α) :=
  fun a b => if a = i ∧ due (C.env i) s = true then (buf a b).filter fun p => p.1 != s else buf a b

/-- node `i` before its next nano step, with steerers in order `o` -/
def before (t : HSt κ α) (i : Nat) (o : List Nat) : St κ α :=
  { t.nodes i with sg := reorder o (t.nodes i).sg, si := reorder o (t.nodes i).si }

/-- its environment -/
def envOf (C : Cluster κ α) (t : HSt κ α) (i : Nat) (o : List Nat) : Env κ α :=
  { C.env i with prov := bufProv C (t.buf i) i, steerers := reorder o (t.steer i) }

/-- One step of the simulation of `total` nano steps. -/
inductive HStep (C : Cluster κ α) (b1 b2 : Nat → Nat → List α) (total : Nat) : HSt κ α → HSt κ α → Prop
  /-- stages of `init` up to the registration of providers: the results of `allGather` are available once all groups have contributed (hpxreceiver.h:109-140, updategroup.h:172-206) -/
  | advance (t i) : i < C.N → t.phase i < 3 → (∀ j, j < C.N → t.phase i ≤ t.phase j) →
      HStep C b1 b2 total t { t with phase := Function.update t.phase i (t.phase i + 1) }
  /-- accepters look up their receivers (hpxpatchlink.h:82-96), then the stepper is created -/
  | create (t i st) : i < C.N → t.phase i = 3 → (∀ a, a < C.N → C.sendRegion i a ≠ [] → 3 ≤ t.phase a) →
      initGrids { C.env i with prov := fun _ g => g } (b1 i) (b2 i) = some st →
      HStep C b1 b2 total t { t with phase := Function.update t.phase i 4, nodes := Function.update t.nodes i st, fly := emit C i [] st.log t.fly }
  | createFail (t i) : i < C.N → t.phase i = 3 → (∀ a, a < C.N → C.sendRegion i a ≠ [] → 3 ≤ t.phase a) →
      initGrids { C.env i with prov := fun _ g => g } (b1 i) (b2 i) = none →
      HStep C b1 b2 total t { t with err := true }
  /-- `HPXReceiver::receive` (hpxreceiver.h:98-101) -/
  | deliver (t i j l p r) : t.fly i j = l ++ p :: r → (∀ q ∈ t.buf i j, q.1 ≠ p.1) →
      HStep C b1 b2 total t { t with fly := upd2 t.fly i j (l ++ r), buf := upd2 t.buf i j (t.buf i j ++ [p]), del := upd2 t.del i j (t.del i j + 1) }
  | deliverTwice (t i j l p r) : t.fly i j = l ++ p :: r → (∃ q ∈ t.buf i j, q.1 = p.1) →
      HStep C b1 b2 total t { t with err := true }
  /-- one nano step -/
  | update (t i o st) : i < C.N → t.phase i = 4 → glob (C.env i) (t.nodes i) < (C.env i).startStep * (C.env i).nanoSteps + total → Avail C t i →
      o.Perm (List.range (t.steer i).length) → update1 (envOf C t i o) (before t i o) = some st →
      HStep C b1 b2 total t { t with
        nodes := Function.update t.nodes i st
        steer := Function.update t.steer i (reorder o (t.steer i))
        fly := emit C i (t.nodes i).log st.log t.fly
        buf := consume C i (glob (C.env i) (t.nodes i) + 1) t.buf }
  | updateFail (t i o) : i < C.N → t.phase i = 4 → glob (C.env i) (t.nodes i) < (C.env i).startStep * (C.env i).nanoSteps + total → Avail C t i →
      o.Perm (List.range (t.steer i).length) → update1 (envOf C t i o) (before t i o) = none →
      HStep C b1 b2 total t { t with err := true }

/-- `n` steps -/
inductive HRun (C : Cluster κ α) (b1 b2 : Nat → Nat → List α) (total : Nat) : Nat → HSt κ α → HSt κ α → Prop
  | nil (t) : HRun C b1 b2 total 0 t t
  | snoc (n s t u) : HRun C b1 b2 total n s t → HStep C b1 b2 total t u → HRun C b1 b2 total (n + 1) s u

/-- nothing has happened yet; `nodes` is arbitrary -/
def start (C : Cluster κ α) (nodes : Nat → St κ α) : HSt κ α where
  phase := fun _ => 0
  nodes := nodes
  steer := fun i => (C.env i).steerers
  fly := fun _ _ => []
  buf := fun _ _ => []
  del := fun _ _ => 0
  err := false

end LGD.HpxGroup
