import Mathlib.Logic.Function.Basic
import Mathlib.Data.List.Basic

/-!
# The dataflow simulator

Model of `HPXDataflowSimulator` (`parallelization/hpxdataflowsimulator.h`) together with
`HPXReceiver` (`communication/hpxreceiver.h`) as a transition system whose steps are the
indivisible actions of all threads on all localities; an execution is any sequence of steps, so
that schedulers and networks are arbitrary.

HPX itself belongs to the trusted base. What is modelled of it:

* `hpx::async`, `hpx::dataflow` and `future::then` create tasks, which run at any time after their
  arguments are ready (`hpxdataflowsimulator.h:218, 413, 419`);
* `hpx::apply` (lines 108, 125) sends a message, which arrives at any later time, in any order;
* `find_all_from_basename` (`hpxreceiver.h:76`) blocks until the name was registered;
* `receive_buffer` maps steps to promises; an entry disappears once its promise was fulfilled and
  its future was handed out. Storing a value to a promise that has one already is an exception, and
  so is asking twice for the same future;
* `sliding_semaphore`: `wait(u)` blocks until `u - max_difference <= lower_limit`, `signal(l)`
  raises the lower limit (lines 406, 422, 425).

The body of an update is one step: it reads immutable values (the messages), the cell of its
component, which nobody else accesses, and issues asynchronous sends.

Simplifications: integers don't overflow; steps, the chunk size and time are natural numbers
(negative values of `maxSteps()` act as 0); cell IDs are integers.
-/

namespace LGD.Dataflow

/-- A simulation: everything its executions depend on. `C`: cells, `M`: messages. -/
structure Sim (C M : Type) where
  /-- number of localities, `hpx::get_num_localities()` (line 341) -/
  L : Nat
  /-- the IDs of the cells of each locality in the order of `localRegion` (lines 367, 377) -/
  own : Nat → List Int
  /-- `adjacency->getNeighbors` (line 384) -/
  nbr : Int → List Int
  /-- `NANO_STEPS` -/
  ns : Nat
  /-- `initializer->maxSteps()` (line 400) -/
  maxSteps : Nat
  /-- `chunkSize` -/
  c : Nat
  /-- what `initializer->grid` puts to the cells (line 381) -/
  init : Int → C
  /-- `MESSAGE()` -/
  dflt : M
  /-- `CELL::update(hood, event)` of the cell with the given ID: gets nano step, step, its old state
  and the messages of its neighbors (`hood[j]`; `none` is the exception thrown by
  `operator[]`, line 83, for others); returns the new state and its calls of `hood.send` -/
  upd : Int → Nat → Nat → C → (Int → Option M) → C × List (Int × M)

/-- one entry of the `receive_buffer` of a receiver -/
inductive Entry (M : Type) where
  | absent
  /-- `receive` was called, the promise is not fulfilled -/
  | promised
  /-- `store_received` was called, nobody asked for the future -/
  | stored (m : M)

/-- an element of `receiveMessagesFutures` -/
inductive Fut (M : Type) where
  | none
  | pending
  | ready (m : M)

/-- a call of `setupDataflow` for one cell and chunk -/
inductive SPc where
  | idle
  | launched
  /-- in the loop of line 210 for global nano step `t`, at neighbor number `k` -/
  | run (t k : Nat)
  | done
deriving DecidableEq

/-- the position of a locality in the loop of line 408 -/
inductive MPc where
  /-- about to check the condition for chunk `q` -/
  | head (q : Nat)
  /-- about to launch `setupDataflow` for cell number `k` -/
  | launch (q k : Nat)
  /-- in `semaphore.wait` -/
  | sem (q : Nat)
  /-- in `hpx::when_all`, `q` chunks were launched -/
  | wait (q : Nat)
  /-- `run()` has returned -/
  | ret (q : Nat)
deriving DecidableEq

/-- what ends an execution prematurely -/
inductive Bad where
  /-- `nextTimeStepFutures[0]` of an empty vector (line 419) -/
  | emptyFutures
  /-- `semaphore.signal` for a semaphore that was destroyed as `run()` has returned (line 422) -/
  | dangling
  /-- `send` to a cell which is not a neighbor throws (lines 102, 119) -/
  | sendThrows
  /-- a second message for the same step and link -/
  | bufferThrows
  /-- a second request for the same step and link -/
  | futureThrows
deriving DecidableEq

/-- receiver, sender, global nano step at which it's due, cargo -/
structure Msg (M : Type) where
  dst : Int
  src : Int
  t : Nat
  val : M

structure St (C M : Type) where
  /-- number of receivers the constructor of the component of a cell has registered (line 171) -/
  regd : Int → Nat
  main : Nat → MPc
  setup : Int → Nat → SPc
  /-- receiver, sender, step: lines `receivers[neighbor]` -/
  buf : Int → Int → Nat → Entry M
  fut : Int → Int → Nat → Fut M
  /-- whether the dataflow object was created (line 218) -/
  armed : Int → Nat → Bool
  /-- whether the update task has run -/
  ran : Int → Nat → Bool
  cell : Int → C
  net : List (Msg M)
  /-- whether the continuation of line 419 was attached, and whether it has run -/
  att : Nat → Nat → Bool
  sig : Nat → Nat → Bool
  /-- lower limit of the semaphore of a locality -/
  lower : Nat → Nat
  bad : Option Bad

variable {C M : Type}

def put2 {α β γ : Type} [DecidableEq α] [DecidableEq β] (f : α → β → γ) (a : α) (b : β) (v : γ) :
    α → β → γ := fun x y => if x = a ∧ y = b then v else f x y

def put3 {α β γ δ : Type} [DecidableEq α] [DecidableEq β] [DecidableEq γ]
    (f : α → β → γ → δ) (a : α) (b : β) (c : γ) (v : δ) :
    α → β → γ → δ := fun x y z => if x = a ∧ y = b ∧ z = c then v else f x y z

namespace Sim

variable (P : Sim C M)

/-- all cells of the simulation -/
def cells : List Int := (List.range P.L).flatMap P.own

/-- loop condition of line 408 with `startStep = q * chunkSize` -/
def more (q : Nat) : Prop := q * P.c < P.maxSteps

instance (q : Nat) : Decidable (P.more q) := by unfold more; infer_instance

/-- global nano steps of chunk `q`: the loops of lines 203, 204 run through
`step * NANO_STEPS + nanoStep` in ascending order; `endStep` is defined in line 409 -/
def startT (q : Nat) : Nat := q * P.c * P.ns

def endT (q : Nat) : Nat := min P.maxSteps (q * P.c + P.c) * P.ns

/-- the initial state: components were ordered but not constructed (line 385) -/
def start : St C M where
  regd := fun _ => 0
  main := fun _ => .head 0
  setup := fun _ _ => .idle
  buf := fun _ _ _ => .absent
  fut := fun _ _ _ => .none
  armed := fun _ _ => false
  ran := fun _ _ => false
  cell := P.init
  net := []
  att := fun _ _ => false
  sig := fun _ _ => false
  lower := fun _ => 0
  bad := none

/-- `endpointName(basename, sender, receiver)` is registered -/
def Registered (s : St C M) (sender receiver : Int) : Prop :=
  ∃ k, k < s.regd receiver ∧ (P.nbr receiver)[k]? = some sender

/-- The future returned by `setupDataflow` for cell `i` and chunk `q` (line 233) is ready: if the
chunk is empty it's the future which was passed in. -/
def chunkReady (s : St C M) (i : Int) : Nat → Prop
  | 0 => s.setup i 0 = .done ∧ (P.startT 0 < P.endT 0 → s.ran i (P.endT 0 - 1) = true)
  | q + 1 => s.setup i (q + 1) = .done ∧
      (if P.startT (q + 1) < P.endT (q + 1) then s.ran i (P.endT (q + 1) - 1) = true
        else chunkReady s i q)

/-- `lastTimeStepFuture` of the update at `t` of chunk `q` is ready -/
def prevReady (s : St C M) (i : Int) (q t : Nat) : Prop :=
  if t = P.startT q then
    match q with
    | 0 => True
    | q + 1 => P.chunkReady s i q
  else s.ran i (t - 1) = true

/-- the messages visible to an update: `Neighborhood::operator[]` (lines 79-87) -/
def inbox (s : St C M) (i : Int) (t : Nat) (j : Int) : Option M :=
  if j ∈ P.nbr i then
    match s.fut i j t with
    | .ready m => some m
    | _ => none
  else none

/-- `CellComponent::update` (lines 237-252): the call of the cell's update -/
def result (s : St C M) (i : Int) (t : Nat) : C × List (Int × M) :=
  P.upd i (t % P.ns) (t / P.ns) (s.cell i) (P.inbox s i t)

/-- all messages of an update: what the cell sent, and empty messages to those neighbors which
got none (lines 132-140) -/
def outgoing (i : Int) (sent : List (Int × M)) : List (Int × M) :=
  sent ++ ((P.nbr i).filter fun j => !(sent.map Prod.fst).contains j).map fun j => (j, P.dflt)

/-- `receive_buffer::receive` (`hpxreceiver.h:104-107`) -/
def bufGet (s : St C M) (i j : Int) (t : Nat) : St C M :=
  match s.buf i j t with
  | .absent => { s with buf := put3 s.buf i j t .promised, fut := put3 s.fut i j t .pending }
  | .promised => { s with bad := some .futureThrows }
  | .stored m => { s with buf := put3 s.buf i j t .absent, fut := put3 s.fut i j t (.ready m) }

/-- `receive_buffer::store_received` (`hpxreceiver.h:98-101`) -/
def bufStore (s : St C M) (m : Msg M) : St C M :=
  match s.buf m.dst m.src m.t with
  | .absent => { s with buf := put3 s.buf m.dst m.src m.t (.stored m.val) }
  | .promised =>
    { s with
      buf := put3 s.buf m.dst m.src m.t .absent
      fut := put3 s.fut m.dst m.src m.t (.ready m.val) }
  | .stored _ => { s with buf := put3 s.buf m.dst m.src m.t .absent, bad := some .bufferThrows }

/-- lines 211-215: the future for neighbor `j` -/
def request (s : St C M) (i j : Int) (t : Nat) : St C M :=
  if 0 < t then bufGet s i j t
  else { s with fut := put3 s.fut i j t (.ready P.dflt) }

/-- One step of the system. -/
inductive Step : St C M → St C M → Prop where
  /-- constructor of `CellComponent` (lines 169-172): register the next receiver -/
  | construct {s} (i : Int) (hb : s.bad = none) (hi : i ∈ P.cells)
      (h : s.regd i < (P.nbr i).length) :
      Step s { s with regd := Function.update s.regd i (s.regd i + 1) }
  /-- line 408 -/
  | enter {s} (l q : Nat) (hb : s.bad = none) (hl : l < P.L) (h : s.main l = .head q)
      (hm : P.more q) :
      Step s { s with main := Function.update s.main l (.launch q 0) }
  | leave {s} (l q : Nat) (hb : s.bad = none) (hl : l < P.L) (h : s.main l = .head q)
      (hm : ¬ P.more q) :
      Step s { s with main := Function.update s.main l (.wait q) }
  /-- lines 412-415 -/
  | launch {s} (l q k : Nat) (i : Int) (hb : s.bad = none) (hl : l < P.L)
      (h : s.main l = .launch q k) (hk : (P.own l)[k]? = some i) :
      Step s { s with
        main := Function.update s.main l (.launch q (k + 1))
        setup := put2 s.setup i q .launched }
  /-- line 419 -/
  | attach {s} (l q k : Nat) (hb : s.bad = none) (hl : l < P.L)
      (h : s.main l = .launch q k) (hk : k = (P.own l).length) (hne : P.own l ≠ []) :
      Step s { s with
        main := Function.update s.main l (.sem q)
        att := put2 s.att l q true }
  | attachEmpty {s} (l q k : Nat) (hb : s.bad = none) (hl : l < P.L)
      (h : s.main l = .launch q k) (hne : P.own l = []) :
      Step s { s with bad := some .emptyFutures }
  /-- line 425 -/
  | pass {s} (l q : Nat) (hb : s.bad = none) (hl : l < P.L) (h : s.main l = .sem q)
      (hs : q * P.c ≤ s.lower l + 2 * P.c) :
      Step s { s with main := Function.update s.main l (.head (q + 1)) }
  /-- line 431 -/
  | finish {s} (l q : Nat) (hb : s.bad = none) (hl : l < P.L) (h : s.main l = .wait q)
      (hr : ∀ i ∈ P.own l, ∀ q', q = q' + 1 → P.chunkReady s i q') :
      Step s { s with main := Function.update s.main l (.ret q) }
  /-- lines 420-423 -/
  | signal {s} (l q : Nat) (i : Int) (hb : s.bad = none) (hl : l < P.L)
      (ha : s.att l q = true) (hs : s.sig l q = false)
      (hi : (P.own l)[0]? = some i) (hr : P.chunkReady s i q) (hm : ∀ q', s.main l ≠ .ret q') :
      Step s { s with
        sig := put2 s.sig l q true
        lower := Function.update s.lower l (max (s.lower l) (q * P.c)) }
  | signalLate {s} (l q q' : Nat) (i : Int) (hb : s.bad = none) (hl : l < P.L)
      (ha : s.att l q = true) (hs : s.sig l q = false)
      (hi : (P.own l)[0]? = some i) (hr : P.chunkReady s i q) (hm : s.main l = .ret q') :
      Step s { s with bad := some .dangling }
  /-- lines 198-200: the component exists, and the receivers were found if `startStep == 0` -/
  | begin {s} (i : Int) (q : Nat) (hb : s.bad = none) (hi : i ∈ P.cells)
      (h : s.setup i q = .launched) (hc : s.regd i = (P.nbr i).length)
      (hf : q * P.c = 0 → ∀ j ∈ P.nbr i, P.Registered s i j) :
      Step s { s with setup := put2 s.setup i q (.run (P.startT q) 0) }
  /-- lines 210-216 -/
  | get {s} (i j : Int) (q t k : Nat) (hb : s.bad = none) (hi : i ∈ P.cells)
      (h : s.setup i q = .run t k) (ht : t < P.endT q) (hj : (P.nbr i)[k]? = some j) :
      Step s (P.request { s with setup := put2 s.setup i q (.run t (k + 1)) } i j t)
  /-- lines 218-229 -/
  | arm {s} (i : Int) (q t k : Nat) (hb : s.bad = none) (hi : i ∈ P.cells)
      (h : s.setup i q = .run t k) (ht : t < P.endT q) (hk : k = (P.nbr i).length) :
      Step s { s with
        setup := put2 s.setup i q (.run (t + 1) 0)
        armed := put2 s.armed i t true }
  /-- line 233 -/
  | done {s} (i : Int) (q t k : Nat) (hb : s.bad = none) (hi : i ∈ P.cells)
      (h : s.setup i q = .run t k) (ht : P.endT q ≤ t) :
      Step s { s with setup := put2 s.setup i q .done }
  /-- lines 237-252 -/
  | update {s} (i : Int) (q t : Nat) (hb : s.bad = none) (hi : i ∈ P.cells)
      (hq : P.startT q ≤ t ∧ t < P.endT q) (ha : s.armed i t = true) (hr : s.ran i t = false)
      (hf : ∀ j ∈ P.nbr i, ∃ m, s.fut i j t = .ready m) (hp : P.prevReady s i q t)
      (hs : ∀ p ∈ (P.result s i t).2, p.1 ∈ P.nbr i) :
      Step s { s with
        ran := put2 s.ran i t true
        cell := Function.update s.cell i (P.result s i t).1
        net := s.net ++ (P.outgoing i (P.result s i t).2).map
          fun p => { dst := p.1, src := i, t := t + 1, val := p.2 } }
  | updateThrows {s} (i : Int) (q t : Nat) (hb : s.bad = none) (hi : i ∈ P.cells)
      (hq : P.startT q ≤ t ∧ t < P.endT q) (ha : s.armed i t = true) (hr : s.ran i t = false)
      (hf : ∀ j ∈ P.nbr i, ∃ m, s.fut i j t = .ready m) (hp : P.prevReady s i q t)
      (hs : ¬ ∀ p ∈ (P.result s i t).2, p.1 ∈ P.nbr i) :
      Step s { s with bad := some .sendThrows }
  /-- a message arrives: `HPXReceiver::receive` (`hpxreceiver.h:98-101`) -/
  | deliver {s} (a b : List (Msg M)) (m : Msg M) (hb : s.bad = none) (h : s.net = a ++ m :: b) :
      Step s (bufStore { s with net := a ++ b } m)

/-- executions of a given length from the initial state -/
inductive Exec : Nat → St C M → Prop where
  | start : Exec 0 P.start
  | step {n s s'} (h : Exec n s) (hs : P.Step s s') : Exec (n + 1) s'

end Sim

end LGD.Dataflow
