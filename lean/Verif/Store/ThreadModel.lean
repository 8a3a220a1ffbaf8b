import Verif.Store.LineModel

/-!
# Threaded updates of a region

The model covers the loops over streaks which `LGD_UPDATE_FUNCTOR_THREADING_SELECTOR_1` to `_8` (updatefunctormacros.h) select: which tasks are created, and which streaks each of them
updates. A task is a list of streaks. Tasks run concurrently: an execution is any interleaving of the updates of single cells (`Interleave`), where each task updates its cells in
order. Schedules with fewer threads than tasks are particular interleavings. The update of one cell is one step: it reads the source grid and its own cell of the target grid, and writes the latter.
`none` is undefined behaviour, or a loop which doesn't end. Integers are unbounded.
-/

namespace LGD.Thread
open LGD.Store LGD.Line

variable {α : Type}

/-! ## tasks -/

/-- `for (Iter i = it; i != e; ++i)` (updatefunctormacros.h:18-22, 33-37, 98-100), collecting `*i`; `none` if `e` isn't reached within `fuel` steps -/
def untilIt (n : Nat) (idx : Idx) (e : SIter) : Nat → SIter → Option (List Streak)
  | 0, _ => none
  | fuel + 1, it =>
    if siEq n it e then some []
    else (siNext n idx (fun _ => 0) 0 it).bind fun it' => (untilIt n idx e fuel it').map (it.streak :: ·)

/-- one iteration of `omp parallel for` over the planes of a region (updatefunctormacros.h:14-23, 29-38) -/
def plane (n : Nat) (idx : Idx) (c : Nat) : Option (List Streak) :=
  (planeIt n idx (c + 1)).bind fun e => (planeIt n idx c).bind fun i => untilIt n idx e ((idx 0).length + 1) i

/-- all iterations of `omp parallel for` over the planes of a region -/
def ompPlanes (n : Nat) (idx : Idx) : Option (List (List Streak)) := (List.range (idx n).length).mapM (plane n idx)

/-- the loop which creates HPX tasks (updatefunctormacros.h:94-103): `r` planes remain, plane `i` is next -/
def hpxLoop (n : Nat) (idx : Idx) : Nat → Nat → SIter → Option (List (List Streak))
  | 0, _, _ => some []
  | r + 1, i, last =>
    (planeIt n idx (i + 1)).bind fun next => (untilIt n idx next ((idx 0).length + 1) last).bind fun t => (hpxLoop n idx r (i + 1) next).map (t :: ·)

/-- HPX without fine grained parallelism (updatefunctormacros.h:89-106) -/
def hpxPlanes (n : Nat) (idx : Idx) : Option (List (List Streak)) := (siBegin n idx (fun _ => 0) 0).bind fun last => hpxLoop n idx (idx n).length 0 last

/-- `while (s.length() > granularity)` (updatefunctormacros.h:48-57, 117-126) for one streak; `%` truncates, and is undefined for 0 -/
def tranches (gran : Int) : Nat → Streak → Option (List Streak)
  | 0, _ => none
  | fuel + 1, s =>
    if s.endX - s.origin 0 > gran then
      if gran = 0 then none
      else
        let e := s.origin 0 + gran - (s.origin 0).tmod gran
        (tranches gran fuel { s with origin := upd s.origin 0 e }).map ({ s with endX := e } :: ·)
    else some [s]

/-- the vector `streaks` (updatefunctormacros.h:43-58, 111-127); each of its elements is a task (60-63, 131-136) -/
def fine (n : Nat) (idx : Idx) (gran : Int) : Option (List (List Streak)) :=
  (allStreaks n idx (fun _ => 0) 0).bind fun ss => (ss.mapM fun s => tranches gran ((s.endX - s.origin 0).toNat + 1) s).map fun l => l.flatten.map fun s => [s]

/-- what the choice depends on: the build (`LIBGEODECOMP_WITH_THREADS`, `LIBGEODECOMP_WITH_HPX`), the concurrency specification, and the threading specification of the model
(apitraits.h) -/
structure Spec where
  withThreads : Bool
  withHPX : Bool
  enableOpenMP : Bool
  enableHPX : Bool
  preferStatic : Bool
  preferFine : Bool
  modelOpenMP : Bool
  modelHPX : Bool
  gran : Int

/-- `LGD_UPDATE_FUNCTOR_THREADING_SELECTOR_1` to `_8` (updatefunctormacros.h:9-154) -/
def tasks (n : Nat) (sp : Spec) (idx : Idx) : Option (List (List Streak)) :=
  if sp.withThreads && sp.enableOpenMP && !sp.modelOpenMP then
    if sp.preferStatic then ompPlanes n idx
    else if !sp.preferFine then ompPlanes n idx
    else fine n idx sp.gran
  else if sp.withHPX && sp.enableHPX && !sp.modelHPX then
    if !sp.preferFine then hpxPlanes n idx
    else fine n idx sp.gran
  else (allStreaks n idx (fun _ => 0) 0).map fun ss => [ss]

/-! ## steps -/

/-- number of cells which the body of the loop updates for a streak: the line pointer path updates the first cell in any case (linepointerupdatefunctor.h:119-149) -/
def vanCount (s : Streak) : Nat := (s.endX - s.origin 0).toNat
def lineCount (s : Streak) : Nat := max 1 (s.endX - s.origin 0).toNat

/-- cell `j` of a streak, vanilla path (vanillaupdatefunctor.h:29-33) -/
def vanCell (st : Stencil) (upd : Nat → α → List α → α) (nano : Nat) (srcOff tgtOff : Crd) (old : View α) (loc' : Crd → Option Int) (i : Streak) (j : Nat) (g : Grid α) : Option (Grid α) :=
  (vanHood st old (LGD.upd (fun k => i.origin k + srcOff k) 0 (i.origin 0 + srcOff 0 + j))).bind fun hood =>
    (addr g (loc' (LGD.upd (fun k => i.origin k + tgtOff k) 0 (i.origin 0 + tgtOff 0 + j)))).bind fun p => (load g p 0).bind fun self => store g p 0 (upd nano self hood)

/-- cell `j` of a streak, line pointer path (linepointerupdatefunctor.h:115-163): the first cell is updated with the flag `west`, the last one with the flag `east` -/
def lineCell (n : Nat) (wraps : Nat → Bool) (st : Stencil) (upd : Nat → α → List α → α) (nano : Nat) (srcOff tgtOff : Crd) (old : View α) (loc' : Crd → Option Int) (i : Streak) (j : Nat)
    (g : Grid α) : Option (Grid α) :=
  let s : Streak := ⟨fun k => i.origin k + srcOff k, i.endX + srcOff 0⟩
  (assemble st old i).bind fun ptrs => (addr g (loc' fun k => i.origin k + tgtOff k)).bind fun p =>
    (lineHood st { rowFlags n wraps old s.origin with west := decide (j = 0), east := decide ((j : Int) + 1 = i.endX - i.origin 0) } old.mem ptrs j).bind fun hood =>
      (load g p j).bind fun self => store g p j (upd nano self hood)

/-- a path of the update functor: how many cells are updated for a streak, and how -/
structure Path (α : Type) where
  count : Streak → Nat
  cell : Streak → Nat → Grid α → Option (Grid α)

def vanPath (st : Stencil) (upd : Nat → α → List α → α) (nano : Nat) (srcOff tgtOff : Crd) (old : View α) (loc' : Crd → Option Int) : Path α :=
  ⟨vanCount, vanCell st upd nano srcOff tgtOff old loc'⟩

def linePath (n : Nat) (wraps : Nat → Bool) (st : Stencil) (upd : Nat → α → List α → α) (nano : Nat) (srcOff tgtOff : Crd) (old : View α) (loc' : Crd → Option Int) : Path α :=
  ⟨lineCount, lineCell n wraps st upd nano srcOff tgtOff old loc'⟩

/-- the steps of a task: cells of streaks -/
def steps (p : Path α) (t : List Streak) : List (Streak × Nat) := t.flatMap fun s => (List.range (p.count s)).map fun j => (s, j)

/-- `l` consists of the steps of all tasks; those of each task are in order -/
inductive Interleave {β : Type} : List (List β) → List β → Prop
  | done (ts : List (List β)) (h : ∀ t ∈ ts, t = []) : Interleave ts []
  | step (ts₁ : List (List β)) (a : β) (t : List β) (ts₂ : List (List β)) (l : List β) (h : Interleave (ts₁ ++ t :: ts₂) l) : Interleave (ts₁ ++ (a :: t) :: ts₂) (a :: l)

/-- an execution of steps -/
def run (p : Path α) (l : List (Streak × Nat)) (g : Grid α) : Option (Grid α) := l.foldlM (fun g a => p.cell a.1 a.2 g) g

end LGD.Thread
