import Mathlib.Logic.Function.Basic

/-!
# Start-up of `HpxSimulator`: `gatherAndBroadcastLocalityIndices`

`L` localities run the function at the same time for the same `basename`. A promise is `none` until its value is set; setting it again throws (`fault`). Remote actions run at any time after they were sent.
`hpx::find_all_localities()` lists localities by their id and `broadcast` returns the results in this order. `S` is the type of speeds, `corr` the multiplication by `speedGuide`.
The maps of promises are taken to be accessed atomically (only `initPromise` is guarded by `mapMutex`).
-/

namespace LGD.HpxStart

variable {S : Type}

/-- correction of the speeds of a locality's update groups (hpxsimulator.cpp:77-81) -/
def corrected (corr : S → S) : List S → List S
  | [] => []
  | x :: xs => corr x :: corrected corr xs

/-- the loop of locality 0 over the results (hpxsimulator.cpp:99-111): flattened speeds, indices, `indexSum` -/
def gatherLoop : List (List S) → List S × List Nat × Nat → List S × List Nat × Nat
  | [], st => st
  | vec :: rest, (flat, indices, indexSum) => gatherLoop rest (flat ++ vec, indices ++ [indexSum], indexSum + vec.length)

/-- hpxsimulator.cpp:99-112 -/
def gather (vecs : List (List S)) : List S × List Nat :=
  let r := gatherLoop vecs ([], [], 0)
  (r.1, r.2.1 ++ [r.2.2])

/-- a locality -/
structure Loc (S : Type) where
  /-- progress of the function: 0-3 promises, 4 decision, 5 waiting for results (locality 0), 6 and 7 waiting for both futures, 8 done -/
  pc : Nat
  /-- `getUpdateGroupSpeeds` on this locality: 0 not sent, 1 sent, 2 replied -/
  get : Nat
  /-- `setNumberOfUpdateGroups` on this locality: 0 not sent, 1 sent, 2 first promise set, 3 done -/
  set : Nat
  speeds : Option (List S)
  init : Bool
  reply : Option (List S)
  glob : Option (List S)
  idx : Option (List Nat)
  outG : Option (List S)
  outI : Option (List Nat)
  /-- an exception was thrown -/
  fault : Bool
deriving DecidableEq

abbrev St (S : Type) := Nat → Loc S

def start : St S := fun _ => ⟨0, 0, 0, none, false, none, none, none, none, none, false⟩

inductive Act
  | main (r : Nat)
  | reply (r : Nat)
  | setG (r : Nat)
  | setI (r : Nat)
deriving DecidableEq

/-- the next step of the function on locality `r` (hpxsimulator.cpp:68-121); `none` if it has to wait -/
def mainStep (L : Nat) (corr : S → S) (speeds : Nat → List S) (s : St S) (r : Nat) : Option (St S) :=
  let l := s r
  match l.pc with
  | 0 => some (Function.update s r (if l.speeds.isSome then { l with fault := true } else { l with pc := 1, speeds := some (corrected corr (speeds r)) }))
  | 1 => some (Function.update s r { l with pc := 2 })
  | 2 => some (Function.update s r { l with pc := 3 })
  | 3 => some (Function.update s r (if l.init then { l with fault := true } else { l with pc := 4, init := true }))
  | 4 => if r = 0 then some fun q => if q < L then { s q with get := 1, pc := if q = 0 then 5 else (s q).pc } else s q
         else some (Function.update s r { l with pc := 6 })
  | 5 => if (List.range L).all fun q => (s q).reply.isSome then
           some fun q => if q < L then { s q with set := 1, pc := if q = 0 then 6 else (s q).pc } else s q
         else none
  | 6 => l.glob.map fun g => Function.update s r { l with pc := 7, outG := some g }
  | 7 => l.idx.map fun i => Function.update s r { l with pc := 8, outI := some i }
  | _ => none

/-- the values locality 0 sends along with `setNumberOfUpdateGroups` -/
def sent (L : Nat) (s : St S) : List S × List Nat := gather ((List.range L).map fun q => (s q).reply.getD [])

/-- a step of the system -/
def step (L : Nat) (corr : S → S) (speeds : Nat → List S) (s : St S) : Act → Option (St S)
  | .main r => if r < L then mainStep L corr speeds s r else none
  -- `getUpdateGroupSpeeds` (hpxsimulator.cpp:17-32)
  | .reply r =>
    if r < L ∧ (s r).get = 1 ∧ (s r).init = true then (s r).speeds.map fun v => Function.update s r { s r with get := 2, reply := some v } else none
  -- `setNumberOfUpdateGroups` (hpxsimulator.cpp:34-41)
  | .setG r =>
    if r < L ∧ (s r).set = 1 then some (Function.update s r (if (s r).glob.isSome then { s r with fault := true } else { s r with set := 2, glob := some (sent L s).1 })) else none
  | .setI r =>
    if r < L ∧ (s r).set = 2 then some (Function.update s r (if (s r).idx.isSome then { s r with fault := true } else { s r with set := 3, idx := some (sent L s).2 })) else none

/-- an execution -/
def exec (L : Nat) (corr : S → S) (speeds : Nat → List S) : St S → List Act → Option (St S)
  | s, [] => some s
  | s, a :: as => (step L corr speeds s a).bind fun s => exec L corr speeds s as

/-- another simulator with the same `basename` on locality `r`: the function starts over while all promises remain (hpxsimulator.cpp:12-15) -/
def again (s : St S) (r : Nat) : St S := Function.update s r { s r with pc := 0 }

end LGD.HpxStart
