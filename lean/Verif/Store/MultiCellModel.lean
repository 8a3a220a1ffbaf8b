import Mathlib.Logic.Function.Basic

/-!
# `MultiContainerCell` with `BoxCell` members

Members are numbered in the order of their declaration. `P` is the type of all particles. A particle's `update` sees the old grid (which isn't changed, so it isn't mentioned here), may change the particle
and may insert particles into members of the new cell by `hood->member << particle`. `upd m p` are the new particle and the inserted ones for a particle `p` in member `m`. Capacities are not
exceeded (otherwise `FixedArray` throws).
-/

namespace LGD.MultiCell

variable {P : Type} (upd : Nat → P → P × List (Nat × P))

/-- particles of all members of the new cell -/
abbrev St (P : Type) := Nat → List P

/-- `hood->member << particle` (multicontainercell.h:134-137, boxcell.h:105-110) -/
def push (st : St P) (s : Nat × P) : St P := Function.update st s.1 (st s.1 ++ [s.2])

/-- all insertions of a particle -/
def spawnAll (st : St P) (l : List (Nat × P)) : St P := l.foldl push st

/-- `i->update(allNeighbors, nanoStep)` (boxcell.h:150) -/
def updateOne (m : Nat) (st : St P) (i : Nat) : St P :=
  match (st m)[i]? with
  | some p => spawnAll (Function.update st m ((st m).set i (upd m p).1)) (upd m p).2
  | none => st

/-- the loop up to the number of particles when it starts (boxcell.h:145-151) -/
def cargoLoop (m : Nat) : Nat → St P → St P
  | 0, st => st
  | k + 1, st => updateOne upd m (cargoLoop m k st) k

/-- `BoxCell::updateCargo` (boxcell.h:140-152) -/
def updateCargo (m : Nat) (st : St P) : St P := cargoLoop upd m (st m).length st

/-- the second half of `update` (multicontainercell.h:166-169): `updateCargo` of one member after another, in the order of declaration (multicontainercell.h:77-78, preprocessor.hpp:188-212) -/
def updateAll : Nat → St P → St P
  | 0, st => st
  | M + 1, st => updateCargo upd M (updateAll M st)

/-- `update` (multicontainercell.h:153-170): first, all members are copied (multicontainercell.h:161-164); `copied m` is what `copyOver` yields for member `m` (BoxCell: properties C36, C37) -/
def update (M : Nat) (copied : St P) (st : St P) : St P := updateAll upd M (fun m => if m < M then copied m else st m)

end LGD.MultiCell
