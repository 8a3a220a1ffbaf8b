import Mathlib.Logic.Function.Basic

/-!
# `MPILayer`: collective operations and bookkeeping of requests

`communication/mpilayer.h`. (`sendRegion`, `recvRegion`, `sendUnregisteredRegion` and `recvUnregisteredRegion` are part of `Comm/GatherModel.lean`.)

Collective operations are modelled by their joint effect: one function of the arguments of all ranks yields the result of one rank. Undefined behaviour and
calls which violate the MPI standard (mismatched sizes, buffers too small) are `none`. Counts are unbounded; datatypes match.

Requests are numbers; the library's view is the list of live requests. A handle is a number or `MPI_REQUEST_NULL` (`none`).
-/

namespace LGD.Layer

/-! ## Collective operations -/

section
variable {α : Type}

/-- `displacements[i + 1] = displacements[i] + lengths[i]` (mpilayer.h:376-378, 418-420, 446-448) -/
def dispLoop (lengths : List Nat) : Nat → Nat → List Nat → Option (List Nat)
  | 0, _, d => some d
  | m + 1, i, d =>
    (d[i]?).bind fun x => (lengths[i]?).bind fun l =>
      if i + 1 < d.length then dispLoop lengths m (i + 1) (d.set (i + 1) (x + l)) else none

/-- `displacements` on `N` ranks (mpilayer.h:374-378) -/
def displacements (N : Nat) (lengths : List Nat) : Option (List Nat) :=
  if N = 0 then none else dispLoop lengths (N - 1) 0 (List.replicate N 0)

/-- read `num` elements from a pointer to the elements `src` -/
def rd (src : List α) (num : Nat) : Option (List α) := if num ≤ src.length then some (src.take num) else none

/-- store elements in a buffer -/
def put (t : List α) (pos : Nat) (data : List α) : Option (List α) :=
  if pos + data.length ≤ t.length then some (t.take pos ++ data ++ t.drop (pos + data.length)) else none

/-- what a receiver of `MPI_Gatherv` or `MPI_Allgatherv` gets: the `num s` elements of rank `s` are stored from `displs[s]` on; `counts[s]` has to agree -/
def mpiGatherv (src : Nat → List α) (num : Nat → Option Nat) (counts displs : List Nat) : Nat → Nat → List α → Option (List α)
  | 0, _, t => some t
  | m + 1, s, t =>
    (num s).bind fun k => (rd (src s) k).bind fun data =>
      if counts[s]? = some k then (displs[s]?).bind fun d => (put t d data).bind fun t => mpiGatherv src num counts displs m (s + 1) t
      else none

/-- `allGatherV` (mpilayer.h:367-383) as seen by rank `me`; the arguments of all ranks are `src` and `lengths`; `front()` of an empty vector is undefined -/
def allGatherVTo (N : Nat) (src : Nat → List α) (lengths : Nat → List Nat) (me : Nat) (target : List α) : Option (List α) :=
  (displacements N (lengths me)).bind fun d =>
    if target = [] then none else mpiGatherv src (fun s => (lengths s)[s]?) (lengths me) d N 0 target

/-- `allGatherV` which returns a vector (mpilayer.h:356-365) -/
def allGatherV (N : Nat) (dflt : α) (src : Nat → List α) (lengths : Nat → List Nat) (me : Nat) : Option (List α) :=
  allGatherVTo N src lengths me (List.replicate (lengths me).sum dflt)

/-- `MPI_Allgather` (mpilayer.h:344) and the receiver of `MPI_Gather`: `num` elements of each rank -/
def mpiGather (N : Nat) (src : Nat → List α) (num : Nat) (target : List α) : Option (List α) :=
  mpiGatherv src (fun _ => some num) (List.replicate N num) ((List.range N).map fun s => s * num) N 0 target

/-- `allGather` which returns a vector (mpilayer.h:327-335, 347-354) -/
def allGather (N : Nat) (dflt : α) (src : Nat → α) : Option (List α) :=
  if N = 0 then none else mpiGather N (fun s => [src s]) 1 (List.replicate N dflt)

/-- `gather` (mpilayer.h:387-400) -/
def gather (N : Nat) (dflt : α) (src : Nat → α) (root me : Nat) : Option (List α) :=
  if N = 0 then none
  else if me = root then mpiGather N (fun s => [src s]) 1 (List.replicate N dflt)
  else some []

/-- `gatherV` for pointers (mpilayer.h:402-433): the contents of `target` afterwards; `&lengths[0]` is evaluated on all ranks -/
def gatherVPtr (N : Nat) (src : Nat → List α) (num : Nat → Nat) (lengths : List Nat) (root me : Nat) (target : List α) : Option (List α) :=
  if me = root then
    (displacements N lengths).bind fun d =>
      if lengths = [] then none else mpiGatherv src (fun s => some (num s)) lengths d N 0 target
  else if lengths = [] then none else some target

/-- `gatherV` for vectors (mpilayer.h:435-467): empty vectors become null pointers -/
def gatherV (N : Nat) (src : Nat → List α) (lengths : List Nat) (root me : Nat) (target : List α) : Option (List α) :=
  if me = root then
    (displacements N lengths).bind fun d =>
      mpiGatherv src (fun s => some (src s).length) lengths (if lengths = [] then [] else d) N 0 target
  else some target

/-- `MPI_Bcast` of `num` elements (mpilayer.h:480, 491, 511, 526): the contents of `buffer` afterwards, given the root's -/
def mpiBcast (rootBuf : List α) (num : Nat) (buffer : List α) : Option (List α) :=
  (rd rootBuf num).bind fun data => put buffer 0 data

/-- `broadcast` of one element (mpilayer.h:470-482) -/
def broadcast (src : Nat → α) (root me : Nat) : Option (List α) := mpiBcast [src root] 1 [src me]

/-- `broadcastVector` (mpilayer.h:494-513) -/
def broadcastVector (dflt : α) (src : Nat → List α) (root me : Nat) : Option (List α) :=
  (broadcast (fun r => (src r).length) root me).bind fun l => (l[0]?).bind fun size =>
    let buff := List.replicate size dflt
    if size = 0 then some buff
    else mpiBcast (src root) size (if me = root then src me else buff)

/-- `resize` of a vector -/
def resize (dflt : α) (l : List α) (n : Nat) : List α := l.take n ++ List.replicate (n - l.length) dflt

/-- `broadcastVector` in place (mpilayer.h:515-528) -/
def broadcastVectorTo (dflt : α) (buf : Nat → List α) (root me : Nat) : Option (List α) :=
  (broadcast (fun r => (buf r).length) root me).bind fun l => (l[0]?).bind fun size =>
    let buffer := resize dflt (buf me) size
    if 0 < size then mpiBcast (resize dflt (buf root) size) size buffer else some buffer

end

/-! ## Requests -/

/-- a handle; `none` is `MPI_REQUEST_NULL` -/
abbrev Handle := Option Nat

/-- members of `MPILayer` (mpilayer.h:531-533): `keys` are the keys of `requests`, `vec` the vectors found there -/
structure Obj where
  tag : Int
  keys : List Int
  vec : Int → List Handle

/-- what happened: an operation was posted by object `o` with a tag on the wire, filed under `key`; a request was completed and freed -/
inductive Ev where
  | post (o : Nat) (wire key : Int) (q : Nat)
  | free (q : Nat)
deriving DecidableEq

/-- all objects, and the library -/
structure World where
  objs : Nat → Option Obj
  next : Nat
  live : List Nat
  log : List Ev

inductive Err where
  /-- `std::logic_error` -/
  | logic
  /-- a call which violates the MPI standard: it refers to a request which doesn't exist any more, or to `MPI_REQUEST_NULL` where that isn't allowed -/
  | mpi
  /-- undefined behaviour -/
  | ub
  /-- no such object -/
  | object
deriving DecidableEq

def World.empty : World := ⟨fun _ => none, 0, [], []⟩

def World.set (w : World) (o : Nat) (L : Obj) : World := { w with objs := Function.update w.objs o (some L) }

/-- `requests[key]` inserts an empty vector if there is none -/
def Obj.touch (L : Obj) (key : Int) : Obj := { L with keys := if key ∈ L.keys then L.keys else L.keys ++ [key] }

/-- `requests[key] = v` -/
def Obj.put (L : Obj) (key : Int) (v : List Handle) : Obj := { L.touch key with vec := Function.update L.vec key v }

def World.obj (w : World) (o : Nat) : Except Err Obj := match w.objs o with | some L => .ok L | none => .error .object

/-- `MPI_Waitall` -/
def World.free (w : World) (hs : List Handle) : Except Err World :=
  let qs := hs.filterMap id
  if qs.Nodup ∧ ∀ q ∈ qs, q ∈ w.live then .ok { w with live := w.live.filter fun q => q ∉ qs, log := w.log ++ qs.map Ev.free }
  else .error .mpi

/-- `MPI_Isend` or `MPI_Irecv` with a tag on the wire, filed under `key` (mpilayer.h:94-96, 117-119, 225-234, 244-253) -/
def post (w : World) (o : Nat) (wire key : Int) : Except Err World :=
  (w.obj o).bind fun L => .ok
    { w.set o (L.put key (L.vec key ++ [some w.next])) with next := w.next + 1, live := w.live ++ [w.next], log := w.log ++ [.post o wire key w.next] }

/-- `send` and `recv` (mpilayer.h:86-120) -/
def send (w : World) (o : Nat) (tag : Int) : Except Err World := post w o tag tag

/-- `sendVec` and `recvVec` (mpilayer.h:217-254) of a vector with `len` elements: the layer's own tag on the wire; `&(*vec)[0]` of an empty vector is undefined -/
def sendVec (w : World) (o : Nat) (waitTag : Int) (len : Nat) : Except Err World :=
  (w.obj o).bind fun L => if len = 0 then .error .ub else post w o L.tag waitTag

/-- `wait` (mpilayer.h:157-168): also the number it returns -/
def wait (w : World) (o : Nat) (key : Int) : Except Err (World × Nat) :=
  (w.obj o).bind fun L => (w.free (L.vec key)).bind fun w' => .ok (w'.set o (L.put key []), (L.vec key).length)

/-- the loop of `waitAll` (mpilayer.h:143-151) -/
def waitKeys (o : Nat) : List Int → World → Except Err World
  | [], w => .ok w
  | k :: ks, w => (wait w o k).bind fun r => waitKeys o ks r.1

def waitAll (w : World) (o : Nat) : Except Err World := (w.obj o).bind fun L => waitKeys o L.keys w

/-- `test` (mpilayer.h:179-186): `finished` tells which operations have completed; `MPI_Testall` changes nothing unless all of them have -/
def test (w : World) (o : Nat) (key : Int) (finished : Nat → Bool) : Except Err World :=
  (w.obj o).bind fun L =>
    let qs := (L.vec key).filterMap id
    if ¬ ∀ q ∈ qs, q ∈ w.live then .error .mpi
    else if qs.all finished then (w.free (L.vec key)).bind fun w' => .ok (w'.set o (L.put key ((L.vec key).map fun _ => none)))
    else .ok (w.set o (L.touch key))

/-- `cancel` (mpilayer.h:131-138): `MPI_Cancel` needs an active request -/
def cancel (w : World) (o : Nat) (key : Int) : Except Err World :=
  (w.obj o).bind fun L =>
    if ∀ h ∈ L.vec key, ∃ q ∈ w.live, h = some q then .ok (w.set o (L.touch key)) else .error .mpi

/-- `MPILayer(communicator, tag)` (mpilayer.h:53-58) -/
def construct (w : World) (o : Nat) (tag : Int) : Except Err World :=
  if w.objs o = none then .ok (w.set o ⟨tag, [], fun _ => []⟩) else .error .object

/-- `MPILayer(const MPILayer&)` (mpilayer.h:60-70) -/
def copy (w : World) (o p : Nat) : Except Err World :=
  (w.obj p).bind fun L => if 0 < L.keys.length then .error .logic else if w.objs o = none then .ok (w.set o L) else .error .object

/-- the implicit copy assignment -/
def assign (w : World) (o p : Nat) : Except Err World :=
  (w.obj p).bind fun L => (w.obj o).bind fun _ => .ok (w.set o L)

/-- `~MPILayer()` (mpilayer.h:72-75) -/
def destroy (w : World) (o : Nat) : Except Err World :=
  (waitAll w o).bind fun w => .ok { w with objs := Function.update w.objs o none }

/-- calls -/
inductive Op where
  | construct (o : Nat) (tag : Int)
  | send (o : Nat) (tag : Int)
  | sendVec (o : Nat) (waitTag : Int) (len : Nat)
  | wait (o : Nat) (key : Int)
  | waitAll (o : Nat)
  | test (o : Nat) (key : Int) (finished : Nat → Bool)
  | destroy (o : Nat)

/-- the object which a call refers to -/
def Op.obj : Op → Nat
  | .construct o _ | .send o _ | .sendVec o _ _ | .wait o _ | .waitAll o | .test o _ _ | .destroy o => o

def step (w : World) : Op → Except Err World
  | .construct o tag => Layer.construct w o tag
  | .send o tag => Layer.send w o tag
  | .sendVec o t n => Layer.sendVec w o t n
  | .wait o key => (Layer.wait w o key).bind fun r => .ok r.1
  | .waitAll o => Layer.waitAll w o
  | .test o key f => Layer.test w o key f
  | .destroy o => Layer.destroy w o

def run (w : World) : List Op → Except Err World
  | [] => .ok w
  | op :: ops => (step w op).bind fun w => run w ops

end LGD.Layer
