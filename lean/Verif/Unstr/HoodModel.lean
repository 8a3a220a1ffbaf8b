import Verif.Unstr.SellModel
import Verif.Unstr.PeelModel

/-!
# Neighborhoods of unstructured grids

Iterators over the weights. `none` stands for undefined behaviour (access outside of a vector) or an endless loop. The pointers handed out by the iterators for struct-of-arrays grids are modelled by the
elements which a vectorized update loads from there.
-/

namespace LGD.Sell

variable {V : Type}

/-- members of `UnstructuredNeighborhood` which change (unstructuredneighborhood.h:177-181) -/
structure AHood where
  x : Nat
  chunk : Nat
  off : Nat
deriving DecidableEq, Repr

/-- constructor (unstructuredneighborhood.h:103-110) -/
def aMake (C x : Nat) : AHood := ⟨x, x / C, x % C⟩

/-- `operator++` (unstructuredneighborhood.h:112-117) and `updateIndices` (190-205) -/
def aInc (C : Nat) (h : AHood) : AHood := if C ≤ h.off + 1 then ⟨h.x + 1, h.chunk + 1, 0⟩ else ⟨h.x + 1, h.chunk, h.off + 1⟩

/-- `operator+=` (unstructuredneighborhood.h:127-131): only the index changes -/
def aAdd (h : AHood) (i : Nat) : AHood := { h with x := h.x + i }

/-- loop over `UnstructuredNeighborhoodHelpers::Iterator` (unstructuredneighborhood.h:36-66): pairs of `first()` and `second()` -/
def iterLoop (C : Nat) (c : Sell V) (stop : Nat) : Nat → Nat → Option (List (Int × V))
  | 0, _ => none
  | fuel + 1, i => if i = stop then some [] else
    (c.column[i]?).bind fun y => (c.values[i]?).bind fun v => (iterLoop C c stop fuel (i + C)).map fun l => (y, v) :: l

/-- `begin`, `end` (unstructuredneighborhood.h:153-168): the pairs seen by `for (auto& i: hood.weights())` -/
def aWeights (C : Nat) (c : Sell V) (h : AHood) : Option (List (Int × V)) :=
  (c.chunkOffset[h.chunk]?).bind fun o => (c.rowLength[h.x]?).bind fun len => iterLoop C c (o + h.off + C * len) (len + 1) (o + h.off)

/-- loop over `ScalarIterator` (unstructuredsoaneighborhood.h:113-158): `first()[0]`, `second()[0]` -/
def scalarLoop (C : Nat) (c : Sell V) (lane stop : Nat) : Nat → Nat → Option (List (Int × V))
  | 0, _ => none
  | fuel + 1, i => if i = stop then some [] else
    (c.column[i + lane]?).bind fun y => (c.values[i + lane]?).bind fun v => (scalarLoop C c lane stop fuel (i + C)).map fun l => (y, v) :: l

/-- `beginScalar`, `endScalar` (unstructuredsoaneighborhood.h:213-225): the pairs seen by a scalar pass -/
def scalarWeights (C : Nat) (c : Sell V) (h : Peel.Hood) : Option (List (Int × V)) :=
  (c.chunkOffset[h.chunk]?).bind fun o => (c.chunkOffset[h.chunk + 1]?).bind fun stop => scalarLoop C c h.intra stop (stop + 1) o

/-- `m` elements at position `i` -/
def loadAt {α : Type} (l : List α) (i m : Nat) : Option (List α) := if i + m ≤ l.length then some ((l.drop i).take m) else none

/-- loop over `Iterator` (unstructuredsoaneighborhood.h:55-105): the vectors of `C` elements at `first()` and `second()` -/
def vectorLoop (C : Nat) (c : Sell V) (stop : Nat) : Nat → Nat → Option (List (List Int × List V))
  | 0, _ => none
  | fuel + 1, i => if i = stop then some [] else
    (loadAt c.column i C).bind fun ys => (loadAt c.values i C).bind fun vs => (vectorLoop C c stop fuel (i + C)).map fun l => (ys, vs) :: l

/-- `begin`, `end` (unstructuredsoaneighborhood.h:199-211): the vectors seen by a vectorized pass -/
def vectorWeights (C : Nat) (c : Sell V) (h : Peel.Hood) : Option (List (List Int × List V)) :=
  (c.chunkOffset[h.chunk]?).bind fun o => (c.chunkOffset[h.chunk + 1]?).bind fun stop => vectorLoop C c stop (stop + 1) o

end LGD.Sell
