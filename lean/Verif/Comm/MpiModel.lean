import Mathlib.Logic.Function.Basic

/-!
# Point-to-point message passing

Executable small-step semantics of the part of MPI which `MPILayer` wraps
(`communication/mpilayer.h`): `MPI_Isend` (line 95), `MPI_Irecv` (line 118), `MPI_Send`
(line 267), `MPI_Recv` (lines 279, 282), `MPI_Wait` (line 269) and `MPI_Waitall` (line 163).
The library itself belongs to the trusted base; what is modelled here is what the standard
promises, including everything it leaves open:

* any rank may run ahead of any other;
* a message may be copied out of the buffer of its sender as soon as it was posted ("eager"),
  or not before its receiver asked for it ("rendezvous"). The choice is made per message by an
  arbitrary oracle `eager`;
* data is copied at any time between the posting of an operation and the end of the
  wait which completes it, in any order;
* messages of one channel (sender, receiver, tag) don't overtake each other: the `i`-th send is
  matched with the `i`-th receive.

Erroneous use is a distinct outcome, `err`: touching memory which belongs to an operation that
was not waited for, and messages which don't fit their buffers.

Simplifications: one communicator; no wildcard receives, no probing, no cancellation (none of
them is used by the code modelled on top of this); datatypes are the constructors of the type of
messages.
-/

namespace LGD.Mpi

/-- sender, receiver, tag -/
structure Ch where
  src : Nat
  dst : Nat
  tag : Nat
deriving DecidableEq

/-- What a send operation points to: a temporary which nobody else sees, or memory. -/
inductive Payload (L M : Type) where
  | const (m : M)
  | cells (ls : List L)

/-- the memory a payload refers to -/
def Payload.ls {L M : Type} : Payload L M → List L
  | .const _ => []
  | .cells ls => ls

/-- What a rank still has to do. `L`: memory locations, `V`: their contents, `M`: messages,
`E`: visible events. -/
inductive Proc (L V M E : Type) where
  | done
  /-- undefined behaviour of the program itself -/
  | abort
  /-- `MPI_Isend` whose request is filed under `h` -/
  | isend (dst tag h : Nat) (p : Payload L M) (k : Proc L V M E)
  /-- `MPI_Irecv` to the given memory whose request is filed under `h` -/
  | irecv (src tag h : Nat) (ls : List L) (k : Proc L V M E)
  /-- `MPI_Recv` to a temporary -/
  | recv (src tag : Nat) (k : M → Proc L V M E)
  /-- an `MPI_Recv` which is under way as receive number `i` of its channel -/
  | recving (src tag i : Nat) (k : M → Proc L V M E)
  /-- `MPI_Waitall` for the requests filed under `h` -/
  | wait (h : Nat) (k : Proc L V M E)
  /-- read from own memory -/
  | read (ls : List L) (k : List V → Proc L V M E)
  /-- write to own memory -/
  | write (lvs : List (L × V)) (k : Proc L V M E)
  /-- something the user can see -/
  | emit (e : E) (k : Proc L V M E)

/-- a request which was not waited for: the handle, whether it's a send, its channel and number,
and the memory it owns -/
structure Req (L : Type) where
  h : Nat
  snd : Bool
  ch : Ch
  i : Nat
  ls : List L

structure Rank (L V M E : Type) where
  proc : Proc L V M E
  mem : L → V
  reqs : List (Req L)
  out : List E

/-- a send: its payload and, as soon as it has been copied, the message -/
structure Snd (L M : Type) where
  pay : Payload L M
  data : Option M

/-- a receive: its memory (`none` for a temporary) and, when done, the message -/
structure Rcv (L M : Type) where
  ls : Option (List L)
  got : Option M

structure St (L V M E : Type) where
  ranks : Nat → Rank L V M E
  sends : Ch → List (Snd L M)
  recvs : Ch → List (Rcv L M)
  err : Bool

/-- Who moves: a rank, or the library copying message `i` of a channel out of the memory of the
sender or to its receiver. -/
inductive Label where
  | loc (r : Nat)
  | fetch (ch : Ch) (i : Nat)
  | deliver (ch : Ch) (i : Nat)
deriving DecidableEq

/-- how memory contents travel in messages -/
class Wire (V M : Type) where
  enc : List V → M
  dec : M → Option (List V)
  dec_enc : ∀ vs, dec (enc vs) = some vs

section

variable {L V M E : Type} [DecidableEq L] [Wire V M]

/-- write values to locations, as many as there are of both -/
def store : List L → List V → (L → V) → (L → V)
  | l :: ls, v :: vs, mem => store ls vs (Function.update mem l v)
  | _, _, mem => mem

def overlap (a b : List L) : Bool := a.any fun l => b.contains l

/-- memory which mustn't be read: some receive may be writing there -/
def busyRead (reqs : List (Req L)) (ls : List L) : Bool :=
  reqs.any fun q => !q.snd && overlap ls q.ls

/-- memory which mustn't be written: some operation may be accessing it -/
def busyWrite (reqs : List (Req L)) (ls : List L) : Bool :=
  reqs.any fun q => overlap ls q.ls

/-- whether the operation behind a request has done its copying -/
def finished (s : St L V M E) (q : Req L) : Bool :=
  if q.snd then
    match (s.sends q.ch)[q.i]? with
    | some e => e.data.isSome
    | none => false
  else
    match (s.recvs q.ch)[q.i]? with
    | some e => e.got.isSome
    | none => false

/-- the next operation of rank `r` -/
def locStep (r : Nat) (s : St L V M E) : Option (St L V M E) :=
  let R := s.ranks r
  match R.proc with
  | .done => none
  | .abort => some { s with ranks := Function.update s.ranks r { R with proc := .done }, err := true }
  | .isend dst tag h p k =>
    let ch : Ch := ⟨r, dst, tag⟩
    some { s with
      ranks := Function.update s.ranks r
        { R with proc := k, reqs := ⟨h, true, ch, (s.sends ch).length, p.ls⟩ :: R.reqs }
      sends := Function.update s.sends ch (s.sends ch ++ [⟨p, none⟩])
      err := s.err || busyRead R.reqs p.ls }
  | .irecv src tag h ls k =>
    let ch : Ch := ⟨src, r, tag⟩
    some { s with
      ranks := Function.update s.ranks r
        { R with proc := k, reqs := ⟨h, false, ch, (s.recvs ch).length, ls⟩ :: R.reqs }
      recvs := Function.update s.recvs ch (s.recvs ch ++ [⟨some ls, none⟩])
      err := s.err || busyWrite R.reqs ls }
  | .recv src tag k =>
    let ch : Ch := ⟨src, r, tag⟩
    some { s with
      ranks := Function.update s.ranks r
        { R with proc := .recving src tag (s.recvs ch).length k }
      recvs := Function.update s.recvs ch (s.recvs ch ++ [⟨none, none⟩]) }
  | .recving src tag i k =>
    match (s.recvs ⟨src, r, tag⟩)[i]? with
    | some ⟨_, some m⟩ => some { s with ranks := Function.update s.ranks r { R with proc := k m } }
    | _ => none
  | .wait h k =>
    if R.reqs.all (fun q => q.h != h || finished s q) then
      some { s with
        ranks := Function.update s.ranks r
          { R with proc := k, reqs := R.reqs.filter fun q => q.h != h } }
    else none
  | .read ls k =>
    some { s with
      ranks := Function.update s.ranks r { R with proc := k (ls.map R.mem) }
      err := s.err || busyRead R.reqs ls }
  | .write lvs k =>
    some { s with
      ranks := Function.update s.ranks r
        { R with proc := k, mem := store (lvs.map Prod.fst) (lvs.map Prod.snd) R.mem }
      err := s.err || busyWrite R.reqs (lvs.map Prod.fst) }
  | .emit e k =>
    some { s with ranks := Function.update s.ranks r { R with proc := k, out := R.out ++ [e] } }

/-- the message a payload amounts to -/
def Payload.msg (mem : L → V) : Payload L M → M
  | .const m => m
  | .cells ls => Wire.enc (ls.map mem)

/-- The library copies message `i` out of the memory of the sender: at any time if it is sent
eagerly, otherwise not before the matching receive was posted. -/
def fetchStep (eager : Ch → Nat → Bool) (ch : Ch) (i : Nat) (s : St L V M E) :
    Option (St L V M E) :=
  match (s.sends ch)[i]? with
  | some ⟨p, none⟩ =>
    if eager ch i || decide (i < (s.recvs ch).length) then
      some { s with
        sends := Function.update s.sends ch
          ((s.sends ch).set i ⟨p, some (p.msg (s.ranks ch.src).mem)⟩) }
    else none
  | _ => none

/-- whether a message fits the memory it is received to -/
def fits (ls : List L) (m : M) : Bool :=
  match Wire.dec (V := V) m with
  | some vs => decide (vs.length ≤ ls.length)
  | none => false

/-- The library hands message `i` to the matching receive. -/
def deliverStep (ch : Ch) (i : Nat) (s : St L V M E) : Option (St L V M E) :=
  match (s.sends ch)[i]?, (s.recvs ch)[i]? with
  | some ⟨_, some m⟩, some ⟨none, none⟩ =>
    some { s with recvs := Function.update s.recvs ch ((s.recvs ch).set i ⟨none, some m⟩) }
  | some ⟨_, some m⟩, some ⟨some ls, none⟩ =>
    let R := s.ranks ch.dst
    some { s with
      ranks := Function.update s.ranks ch.dst
        { R with mem := store ls ((Wire.dec m).getD []) R.mem }
      recvs := Function.update s.recvs ch ((s.recvs ch).set i ⟨some ls, some m⟩)
      err := s.err || !fits (V := V) ls m }
  | _, _ => none

def next (eager : Ch → Nat → Bool) (s : St L V M E) : Label → Option (St L V M E)
  | .loc r => locStep r s
  | .fetch ch i => fetchStep eager ch i s
  | .deliver ch i => deliverStep ch i s

/-- some move of a rank or of the library -/
def Step (eager : Ch → Nat → Bool) (s t : St L V M E) : Prop := ∃ a, next eager s a = some t

/-- `n` moves in a row -/
inductive Run (eager : Ch → Nat → Bool) : Nat → St L V M E → St L V M E → Prop where
  | refl (s) : Run eager 0 s s
  | step {n s t u} : Step eager s t → Run eager n t u → Run eager (n + 1) s u

/-- All ranks are done, all messages have been received, and nothing went wrong. -/
structure Final (s : St L V M E) : Prop where
  done : ∀ r, (s.ranks r).proc = .done
  err : s.err = false
  sent : ∀ ch, ∀ e ∈ s.sends ch, e.data.isSome
  rcvd : ∀ ch, ∀ e ∈ s.recvs ch, e.got.isSome
  len : ∀ ch, (s.sends ch).length = (s.recvs ch).length
  /-- all requests were waited for -/
  reqs : ∀ r, (s.ranks r).reqs = []

/-- before the first operation -/
def start (procs : Nat → Proc L V M E) (mem : Nat → L → V) : St L V M E where
  ranks := fun r => ⟨procs r, mem r, [], []⟩
  sends := fun _ => []
  recvs := fun _ => []
  err := false

end

end LGD.Mpi
