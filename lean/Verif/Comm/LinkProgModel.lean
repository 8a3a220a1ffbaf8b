import Verif.Comm.MpiModel
import Verif.Step.DistModel

/-!
# Update groups which exchange patches via MPI

The programs of the ranks of a distributed simulation on top of the message passing in `Comm/MpiModel.lean`, in terms of `PatchLink`
(`communication/patchlink.h`), `UpdateGroup` (`parallelization/nesting/updategroup.h`) and `MPIUpdateGroup`
(`parallelization/nesting/mpiupdategroup.h`). What a rank computes in between is a parameter here (`Net.comp`); `simNet` below plugs in `VanillaStepper`.

Simplifications: the patches of a synchronisation point are loaded one after the other before the rest of the nano step is computed; in the code local computations which
don't access the buffers of links (`saveKernel`, `restoreRim`, the update of the inner set) happen in between. The requests of a link are filed under the link's own `MPILayer`; the handles are
`2 * q` for the link accepter with destination `q` and `2 * q + 1` for the link provider with source `q`. Collectives at start-up (exchange of bounding boxes, updategroup.h:128-156),
load balancing and parallel writers are left out. The sets of requested and stored nano steps are covered by C25 and C43. Conversions to `int` aren't modelled.
-/

namespace LGD.LinkProg
open LGD.Mpi LGD.Step LGD.Patch

/-- memory of a rank: everything but links (grids, steppers); `buffer` and `dataSize` of the link accepter for rank `q`; `buffer` and `dataSize` of the link
provider for rank `q` -/
inductive Loc where
  | st
  | sb (q i : Nat)
  | ss (q : Nat)
  | rb (q i : Nat)
  | rs (q : Nat)
  deriving DecidableEq

/-- contents of memory -/
inductive Val (σ β : Type) where
  | st (x : σ)
  | cell (b : β)
  | size (n : Nat)

variable {σ β : Type}

/-- contents of messages are contents of memory -/
instance : Wire (Val σ β) (List (Val σ β)) where
  enc := id
  dec := some
  dec_enc _ := rfl

/-- the program of a rank; nothing is shown to the user apart from the final state -/
abbrev P (σ β : Type) := Proc Loc (Val σ β) (List (Val σ β)) Empty

/-- `N` ranks with links. `src r`: sources of the link providers of rank `r`; `dst r`: destinations of its link accepters, both in the order of creation (updategroup.h:186-227);
`fixed`: `SerializationBuffer::FixedSize` (serializationbuffer.h:26-68); `len a b`: number of elements of a fixed size buffer for patches from `a` to `b`; `save a b` and `load b a`: `saveRegion`
and `loadRegion` for such a patch; `comp r m`: what rank `r` computes before it sends patch number `m`.
`repaired` doesn't exist in the code: whether `cleanup()` waits for the first part of a pending transmission. -/
structure Net (σ β : Type) where
  N : Nat
  src : Nat → List Nat
  dst : Nat → List Nat
  fixed : Bool
  repaired : Bool
  len : Nat → Nat → Nat
  save : Nat → Nat → σ → List β
  load : Nat → Nat → List β → σ → σ
  comp : Nat → Nat → σ → Option σ

/-- `ParallelMPI::PATCH_LINK` or the like (mpiupdategroup.h:61-79); all links of an update group share one tag -/
def tag : Nat := 0

/-- handle of the requests of a link accepter -/
def hs (q : Nat) : Nat := 2 * q

/-- handle of the requests of a link provider -/
def hr (q : Nat) : Nat := 2 * q + 1

/-- `n` elements of the buffer of a link accepter -/
def sbs (q n : Nat) : List Loc := (List.range n).map (Loc.sb q)

/-- `n` elements of the buffer of a link provider -/
def rbs (q n : Nat) : List Loc := (List.range n).map (Loc.rb q)

/-- cells among values -/
def cellsOf : List (Val σ β) → List β
  | [] => []
  | .cell b :: vs => b :: cellsOf vs
  | _ :: vs => cellsOf vs

/-- continue with the state and the cells which were read -/
def withSt (k : σ → List β → P σ β) : List (Val σ β) → P σ β
  | .st x :: vs => k x (cellsOf vs)
  | _ => .abort

/-- continue with a size which was read -/
def withSize (k : Nat → P σ β) : List (Val σ β) → P σ β
  | [.size n] => k n
  | _ => .abort

variable (T : Net σ β)

/-- `recvFirstPart` (patchlink.h:259-267): the memory of the first receive of a patch on rank `r` from rank `q` -/
def first (r q : Nat) : List Loc := if T.fixed then rbs q (T.len q r) else [.rs q]

/-- `PatchLink::Provider::recv` (patchlink.h:246-251) -/
def recvP (r q : Nat) (k : P σ β) : P σ β := .irecv q tag (hr q) (first T r q) k

/-- `grid->loadRegion(buffer, region)`, buffer size `n` (patchlink.h:235) -/
def loadP (r q n : Nat) (k : P σ β) : P σ β :=
  .read (.st :: rbs q n) (withSt fun x vs => .write [(.st, .st (T.load r q vs x))] k)

/-- `recvSecondPart` for variable size (patchlink.h:274-279) -/
def secondP (q : Nat) (k : Nat → P σ β) : P σ β :=
  .read [.rs q] (withSize fun n => .irecv q tag (hr q) (rbs q n) (.wait (hr q) (k n)))

/-- `PatchLink::Provider::get` of a patch which is due (patchlink.h:230-243); links have no last nano step (updategroup.h:198-201) -/
def getP (r q : Nat) (k : P σ β) : P σ β :=
  .wait (hr q) <|
    if T.fixed then loadP T r q (T.len q r) (recvP T r q k)
    else secondP q fun n => loadP T r q n (recvP T r q k)

/-- fill the buffer of the link accepter for rank `q` -/
def fill (q : Nat) (m : List β) : List (Loc × Val σ β) := (sbs q m.length).zip (m.map Val.cell)

/-- `PatchLink::Accepter::put` of a patch which is due (patchlink.h:138-142) with `sendHeader` (158-171) -/
def putP (r q : Nat) (k : P σ β) : P σ β :=
  .wait (hs q) <| .read [.st] <| withSt fun x _ =>
    let m := T.save r q x
    .write (fill q m) <|
      if T.fixed then .isend q tag (hs q) (.cells (sbs q m.length)) k
      else .write [(.ss q, .size m.length)] <| .isend q tag (hs q) (.cells [.ss q]) <|
        .isend q tag (hs q) (.cells (sbs q m.length)) k

/-- `PatchLink::Provider::cleanup` while a transmission is in flight (patchlink.h:205-210) -/
def cleanP (q : Nat) (k : P σ β) : P σ β :=
  if T.fixed then k else if T.repaired then .wait (hr q) (secondP q fun _ => k) else secondP q fun _ => k

/-- do something for each element of a list -/
def forAll (f : Nat → P σ β → P σ β) : List Nat → P σ β → P σ β
  | [], k => k
  | q :: l, k => f q (forAll f l k)

/-- local computations -/
def compP (r m : Nat) (k : P σ β) : P σ β :=
  .read [.st] <| withSt fun x _ =>
    match T.comp r m x with
    | some y => .write [(.st, .st y)] k
    | none => .abort

/-- end of the life of an update group: `cleanup` of all links (updategroup.h:73-80; nothing to do for accepters), then their destruction (patchlink.h:55-58) -/
def endP (r : Nat) : P σ β :=
  forAll (cleanP T) (T.src r) <| forAll (fun q => .wait (hr q)) (T.src r) <| forAll (fun q => .wait (hs q)) (T.dst r) .done

/-- patches number `m` are sent, then follow `k` rounds -/
def rounds (r : Nat) : Nat → Nat → P σ β
  | 0, m => forAll (putP T r) (T.dst r) <| compP T r (m + 1) <| endP T r
  | k + 1, m => forAll (putP T r) (T.dst r) <| forAll (getP T r) (T.src r) <| compP T r (m + 1) <| rounds r k (m + 1)

/-- the program of rank `r` with `k` synchronisations: links are charged first, providers before accepters (updategroup.h:186-206, patchlink.h:212-216), then the stepper is created, which computes
its first patches, and so on -/
def rankP (k r : Nat) : P σ β :=
  if r < T.N then forAll (recvP T r) (T.src r) <| compP T r 0 <| rounds T r k 0 else .done

/-! ## `VanillaStepper`s as ranks -/

/-- state of a rank: the stepper, and for each source the patches it received so far (history variable) -/
structure Node (κ α : Type) where
  st : St κ α
  got : Nat → List (List α)

variable {κ α : Type} [DecidableEq κ]

/-- `notifyPatchProviders` for the link providers on node `i`: like `linkProv`, in terms of the patches that arrived -/
def gotProv (C : Cluster κ α) (got : Nat → List (List α)) (i s : Nat) (g : κ → α) : κ → α :=
  if due (C.env i) s then
    (List.range C.N).foldl (fun g j =>
      if C.recvRegion i j = [] then g
      else loadRegion (C.recvRegion i j) ((got j).getD (patchNo (C.env i) s) []) g) g
  else g

/-- `update(n)` (commonstepper.h:78-83) -/
def updateN (E : Env κ α) : Nat → St κ α → Option (St κ α)
  | 0, st => some st
  | n + 1, st => (update1 E st).bind (updateN E n)

/-- What rank `i` computes before it sends patch number `m`: construction of the stepper (`m = 0`), or as many nano steps as the ghost zone is wide; the last ones
are those up to nano step `total` (counted from the start). -/
def simComp (C : Cluster κ α) (b1 b2 : Nat → Nat → List α) (total i m : Nat) (x : Option (Node κ α)) : Option (Option (Node κ α)) :=
  let W := (C.env i).W
  match m, x with
  | 0, _ => (initGrids { C.env i with prov := fun _ g => g } (b1 i) (b2 i)).map fun st => some ⟨st, fun _ => []⟩
  | m + 1, some nd =>
    (updateN { C.env i with prov := gotProv C nd.got i } (min W (total - m * W)) nd.st).map fun st => some { nd with st := st }
  | _ + 1, none => none

/-- How `SerializationBuffer` represents the cells of a patch (serializationbuffer.h): a vector of cells, a raw buffer of `width` bytes per cell (SoA), or the output of some serialization library -/
structure Codec (α β : Type) where
  enc : List α → List β
  dec : List β → List α
  width : Nat
  dec_enc : ∀ l, dec (enc l) = l

/-- A distributed simulation of `total` nano steps as a net: rank `i` has a provider for `j` if `recvRegion i j` isn't empty, and an accepter for `j` if `sendRegion i j` isn't empty
(updategroup.h:189-227). The patch a link accepter sends is the one it was shown last. -/
def simNet (C : Cluster κ α) (cd : Codec α β) (b1 b2 : Nat → Nat → List α) (fixed repaired : Bool) (total : Nat) : Net (Option (Node κ α)) β where
  N := C.N
  src := fun i => (List.range C.N).filter fun j => decide (i < C.N) && !(C.recvRegion i j).isEmpty
  dst := fun j => (List.range C.N).filter fun i => decide (j < C.N) && !(C.sendRegion j i).isEmpty
  fixed := fixed
  repaired := repaired
  len := fun j i => cd.width * (C.recvRegion i j).length
  save := fun j i x => match x with
    | some nd => cd.enc (((sentTo C i j nd.st).getLast?).getD [])
    | none => []
  load := fun _ j p x => x.map fun nd => { nd with got := Function.update nd.got j (nd.got j ++ [cd.dec p]) }
  comp := fun i m x => simComp C b1 b2 total i m x

end LGD.LinkProg
