import Verif.Patch.PatchModel

/-!
# `PatchLink`

An accepter on one rank and a provider on another one, connected by MPI. MPI is modelled as follows: messages of one
(source, destination, tag) triple are matched in the order of the `MPI_Isend` and `MPI_Irecv` calls; the content of a
non-blocking send is read from the send buffer at any time between the call and the completion of the request; a
receive writes to its buffer at any time after it was posted. `wait` blocks until all requests are complete.
-/

namespace LGD.Link
open LGD.Patch

variable {κ α β : Type}

/-- fixed parameters of a link: `fixed` is the protocol (`SerializationBuffer<CELL>::FixedSize`); `save`/`load` are
`GridBase::saveRegion`/`loadRegion` for the region of the link; `pad` is what `vector::resize` fills in. -/
structure Par (κ α β : Type) where
  fixed : Bool
  save : (κ → α) → List β
  load : List β → (κ → α) → (κ → α)
  pad : β
  next : Nat
  last : Nat
  stride : Nat
  inf : Nat

/-- a message on its way; `none`: its content was not read from the send buffer yet -/
inductive Msg (β : Type) where
  | header (v : Option Nat)
  | payload (v : Option (List β))

/-- was the content read? -/
def Msg.captured : Msg β → Bool
  | .header v => v.isSome
  | .payload v => v.isSome

/-- a posted receive; `payload n` has room for `n` elements -/
inductive Recv where
  | header
  | payload (n : Nat)

/-- State of both sides. `sent` and `got` are history variables: the patches sent (step and grid) and the patches loaded
(step, destination grid before and after). `pending` is a `get` that waits for the payload (variable size protocol). -/
structure St (κ α β : Type) where
  sReq : List Nat
  sBuf : List β
  sSize : Nat
  chan : List (Msg β)
  rStored : List Nat
  rBuf : List β
  rSize : Nat
  posted : List Recv
  pending : Option (Nat × (κ → α))
  error : Bool
  sent : List (Nat × (κ → α))
  got : List (Nat × (κ → α) × (κ → α))

/-- first receive of a transmission, `recvFirstPart` (patchlink.h:259-267); the size of the buffer for fixed size
protocols is `buffer.size()` -/
def firstPart (P : Par κ α β) (rBuf : List β) : Recv := if P.fixed then .payload rBuf.length else .header

/-- State after `charge` on both sides (patchlink.h:68-72, 121-125, 212-216): one request, one posted receive. -/
def init (P : Par κ α β) (sBuf rBuf : List β) : St κ α β :=
  { sReq := setInsert P.next [], sBuf := sBuf, sSize := 0, chan := [], rStored := setInsert P.next [], rBuf := rBuf, rSize := 0,
    posted := [firstPart P rBuf], pending := none, error := false, sent := [], got := [] }

/-- the messages of one `put` (patchlink.h:141-142, 158-171) -/
def newMsgs (P : Par κ α β) : List (Msg β) := if P.fixed then [.payload none] else [.header none, .payload none]

/-- whether the step after the current one is still due (patchlink.h:145-146, 239-240) -/
def more (P : Par κ α β) (nextStep : Nat) : Bool := P.last == P.inf || decide (nextStep < P.last)

/-- the effect of `Accepter::put` after the check and `wait` (patchlink.h:138-151) -/
def doPut (P : Par κ α β) (st : St κ α β) (g : κ → α) (s : Nat) : St κ α β :=
  let nextStep := st.sReq.headD 0 + P.stride
  { st with
    sBuf := P.save g, sSize := (P.save g).length, chan := st.chan ++ newMsgs P
    sReq := (if more P nextStep then setInsert nextStep st.sReq else st.sReq).tail
    sent := st.sent ++ [(s, g)] }

/-- the end of `Provider::get` (patchlink.h:233-243, 246-251): load, then post the next receive -/
def doLoad (P : Par κ α β) (st : St κ α β) (g : κ → α) (s : Nat) : St κ α β :=
  let nextStep := st.rStored.headD 0 + P.stride
  { st with
    pending := none
    rStored := (if more P nextStep then setInsert nextStep st.rStored else st.rStored).tail
    posted := if more P nextStep then st.posted ++ [firstPart P st.rBuf] else st.posted
    got := st.got ++ [(s, g, P.load st.rBuf g)] }

/-- `std::vector::resize` -/
def resize (pad : β) (l : List β) (n : Nat) : List β := l.take n ++ List.replicate (n - l.length) pad

/-- MPI reads the content of message `m` from the send buffers -/
def capture (st : St κ α β) : Msg β → Msg β
  | .header none => .header (some st.sSize)
  | .payload none => .payload (some st.sBuf)
  | m => m

/-- MPI completes a receive -/
def deliver (st : St κ α β) (m : Msg β) (r : Recv) : St κ α β :=
  match m, r with
  | .header (some v), .header => { st with rSize := v }
  | .payload (some v), .payload n =>
    if v.length ≤ n then { st with rBuf := v ++ st.rBuf.drop v.length } else { st with error := true }  -- MPI_ERR_TRUNCATE
  | _, _ => { st with error := true }

/-- steps of MPI and of the provider -/
inductive RecvStep (P : Par κ α β) : St κ α β → St κ α β → Prop
  | capture (st pre m post) : st.chan = pre ++ m :: post → RecvStep P st { st with chan := pre ++ capture st m :: post }
  | deliver (st m rest r rs) : st.chan = m :: rest → m.captured = true → st.posted = r :: rs →
      RecvStep P st (deliver { st with chan := rest, posted := rs } m r)
  /-- `Provider::get` returns at once (patchlink.h:226-228) -/
  | getSkip (st) (s : Nat) : st.pending = none → (st.rStored = [] ∨ s < st.rStored.headD 0) → RecvStep P st st
  /-- `Provider::get` throws (patchlink.h:230) -/
  | getThrow (st) (s : Nat) : st.pending = none → st.rStored ≠ [] → st.rStored.headD 0 < s → RecvStep P st st
  /-- `Provider::get`, fixed size, after `wait` (patchlink.h:230-244) -/
  | getFixed (st g s) : P.fixed = true → st.pending = none → checkNanoStepGet st.rStored s = true → st.posted = [] →
      RecvStep P st (doLoad P st g s)
  /-- `Provider::get`, variable size, after the first `wait`: posts the receive for the payload (patchlink.h:274-278) -/
  | getBegin (st g s) : P.fixed = false → st.pending = none → checkNanoStepGet st.rStored s = true → st.posted = [] →
      RecvStep P st { st with rBuf := resize P.pad st.rBuf st.rSize, posted := [.payload st.rSize], pending := some (s, g) }
  /-- … and after the second one (patchlink.h:279) -/
  | getEnd (st g s) : st.pending = some (s, g) → st.posted = [] → RecvStep P st (doLoad P st g s)

/-- steps of the whole system -/
inductive Step (P : Par κ α β) : St κ α β → St κ α β → Prop
  | recv (st st') : RecvStep P st st' → Step P st st'
  /-- `Accepter::put` for a step that was not requested (patchlink.h:134-136) -/
  | putSkip (st) (s : Nat) : checkNanoStepPut st.sReq s = some false → Step P st st
  | putThrow (st) (s : Nat) : checkNanoStepPut st.sReq s = none → Step P st st
  | put (st g s) : checkNanoStepPut st.sReq s = some true → (∀ m ∈ st.chan, m.captured = true) → Step P st (doPut P st g s)

/-- reachable states -/
inductive Reach (P : Par κ α β) (s0 : St κ α β) : St κ α β → Prop
  | init : Reach P s0 s0
  | step (st st') : Reach P s0 st → Step P st st' → Reach P s0 st'

/-- sequences of steps in which the accepter does nothing -/
inductive RecvSteps (P : Par κ α β) : St κ α β → St κ α β → Prop
  | refl (st) : RecvSteps P st st
  | step (st st' st'') : RecvStep P st st' → RecvSteps P st' st'' → RecvSteps P st st''

end LGD.Link
