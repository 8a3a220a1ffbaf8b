import Mathlib.Data.List.Sort

/-!
# `SellCSigmaSparseMatrixContainer`

`none` stands for undefined behaviour (access outside of a vector). Row numbers, lengths and offsets inside of the container are non-negative by construction and modelled as natural numbers
(no overflow of `int`); rows and columns in the matrix are integers. `std::stable_sort` is modelled by insertion sort (the result of a stable sort is unique), `std::lower_bound` by a linear search
(same result on a sorted range). `std::sort` is not stable: the theorems are about every sorted permutation of the matrix.
-/

namespace LGD.Sell

/-- an entry of a matrix: (row, column), value (sellcsigmasparsematrixcontainer.h:176) -/
abbrev Entry (V : Type) := (Int × Int) × V

/-- members (sellcsigmasparsematrixcontainer.h:301-308) -/
structure Sell (V : Type) where
  values : List V
  column : List Int
  rowLength : List Nat
  chunkLength : List Nat
  chunkOffset : List Nat
  realRowToSorted : List (Nat × Nat)
  chunkRowToReal : List Nat
  dimension : Nat

variable {V α : Type}

/-- `(rows - 1) / d + 1` with C++'s division (sellcsigmasparsematrixcontainer.h:61-62, 188-189) -/
def blocks (rows d : Nat) : Nat := (Int.tdiv ((rows : Int) - 1) d + 1).toNat

/-- `std::vector::resize` -/
def resize (l : List α) (n : Nat) (default : α) : List α := l.take n ++ List.replicate (n - l.length) default

/-- constructor (sellcsigmasparsematrixcontainer.h:183-194) -/
def make (C N : Nat) : Sell V :=
  ⟨[], [], List.replicate N 0, List.replicate (blocks N C) 0, List.replicate (blocks N C + 1) 0, [], [], N⟩

/-- reads at several positions -/
def readAll (l : List α) (is : List Nat) : Option (List α) := if is.all (fun i => decide (i < l.length)) then some (is.filterMap fun i => l[i]?) else none

/-- writes at consecutive positions -/
def writeFrom (l : List α) (start : Nat) (vs : List α) : Option (List α) :=
  if start + vs.length ≤ l.length then some (l.take start ++ vs ++ l.drop (start + vs.length)) else none

/-- write at a position -/
def writeAt (l : List α) (i : Nat) (v : α) : Option (List α) := if i < l.length then some (l.set i v) else none

/-- get row lengths (sellcsigmasparsematrixcontainer.h:83-87) -/
def countRows : List (Entry V) → List Nat → Option (List Nat)
  | [], l => some l
  | e :: m, l => if 0 ≤ e.1.1 then (l[e.1.1.toNat]?).bind fun n => countRows m (l.set e.1.1.toNat (n + 1)) else none

/-- the comparison of `SortItem`s (sellcsigmasparsematrixcontainer.h:97-99): (length, index), longest first. `std::stable_sort` keeps the order of two items unless the second one is strictly less. -/
def longer (a b : Nat × Nat) : Prop := ¬ b.1 > a.1

instance : DecidableRel longer := fun a b => inferInstanceAs (Decidable (¬ b.1 > a.1))

/-- the comparison of the entries of `realRowToSorted` (sellcsigmasparsematrixcontainer.h:108-110) -/
def firstLe (a b : Nat × Nat) : Prop := ¬ b.1 < a.1

instance : DecidableRel firstLe := fun a b => inferInstanceAs (Decidable (¬ b.1 < a.1))

/-- state of the loop over the sorting scopes: `chunkRowToReal`, `realRowToSorted`, `rowLengthCopy` -/
structure Scopes where
  chunkRowToReal : List Nat
  realRowToSorted : List (Nat × Nat)
  rowLengthCopy : List Nat

/-- one sorting scope (sellcsigmasparsematrixcontainer.h:91-105) -/
def scopeStep (sigma rowsPadded : Nat) (rowLength : List Nat) (s : Nat) (st : Scopes) : Option Scopes :=
  let rows := (List.range (min sigma (rowsPadded - s * sigma))).map fun i => s * sigma + i
  (readAll rowLength rows).bind fun ls =>
    let sorted := (ls.zip rows).insertionSort longer
    (writeFrom st.chunkRowToReal (s * sigma) (sorted.map Prod.snd)).bind fun c2r =>
      (writeFrom st.rowLengthCopy (s * sigma) (sorted.map Prod.fst)).map fun copy =>
        ⟨c2r, st.realRowToSorted ++ (sorted.map Prod.snd).zipIdx (s * sigma), copy⟩

/-- map sorting scope (sellcsigmasparsematrixcontainer.h:89-106) -/
def scopeLoop (sigma rowsPadded : Nat) (rowLength : List Nat) : Nat → Nat → Scopes → Option Scopes
  | 0, _, st => some st
  | k + 1, s, st => (scopeStep sigma rowsPadded rowLength s st).bind (scopeLoop sigma rowsPadded rowLength k (s + 1))

/-- save chunk lengths and offsets (sellcsigmasparsematrixcontainer.h:114-124): the loop from chunk `k` on; `chunkLength`, `chunkOffset`, `numberOfValues` -/
def chunkLoop (C : Nat) (rowLength c2r : List Nat) : Nat → Nat → List Nat × List Nat × Nat → Option (List Nat × List Nat × Nat)
  | 0, _, st => some st
  | m + 1, k, (cl, co, nv) =>
    (readAll c2r ((List.range C).map fun i => k * C + i)).bind fun rows => (readAll rowLength rows).bind fun ls => (ls.max?).bind fun len =>
      (writeAt cl k len).bind fun cl' =>
        (if 0 < k then (co[k - 1]?).bind fun o => (cl'[k - 1]?).bind fun l => writeAt co k (o + l * C) else some co).bind fun co' =>
          chunkLoop C rowLength c2r m (k + 1) (cl', co', nv + len * C)

/-- `std::lower_bound` by the first component (sellcsigmasparsematrixcontainer.h:143-147) -/
def lowerBound (l : List (Nat × Nat)) (x : Int) : Option (Nat × Nat) := (l.dropWhile fun a => decide ((a.1 : Int) < x)).head?

/-- save values (sellcsigmasparsematrixcontainer.h:138-160): the loop over the remaining entries; the flag is set if an exception is thrown -/
def valueLoop (C : Nat) (r2s : List (Nat × Nat)) (co : List Nat) : List (Entry V) → Int → Nat → List V → List Int → Option (Bool × List V × List Int)
  | [], _, _, vs, cs => some (false, vs, cs)
  | e :: m, currentRow, index, vs, cs =>
    let index := if e.1.1 ≠ currentRow then 0 else index
    match lowerBound r2s e.1.1 with
    | none => some (true, vs, cs)
    | some it => (co[it.2 / C]?).bind fun start =>
      let idx := start + index * C + it.2 % C
      (writeAt vs idx e.2).bind fun vs' => (writeAt cs idx e.1.2).bind fun cs' => valueLoop C r2s co m e.1.1 (index + 1) vs' cs'

/-- `InitFromMatrix::operator()` (sellcsigmasparsematrixcontainer.h:55-161): exception thrown, container afterwards. `zero` is the value 0. `realRowToSorted` is not cleared. -/
def initSorted (C sigma : Nat) (zero : V) (c : Sell V) (m : List (Entry V)) : Option (Bool × Sell V) :=
  let numberOfChunks := blocks c.dimension C
  let numberOfSigmas := blocks c.dimension sigma
  let rowsPadded := numberOfChunks * C
  let co := resize c.chunkOffset (numberOfChunks + 1) 0
  let cl := resize c.chunkLength numberOfChunks 0
  (countRows m (List.replicate rowsPadded 0)).bind fun rowLength =>
    (scopeLoop sigma rowsPadded rowLength numberOfSigmas 0 ⟨resize c.chunkRowToReal rowsPadded 0, c.realRowToSorted, List.replicate rowsPadded 0⟩).bind fun st =>
      let r2s := st.realRowToSorted.insertionSort firstLe
      (writeAt co 0 0).bind fun co =>
        (chunkLoop C rowLength st.chunkRowToReal numberOfChunks 0 (cl, co, 0)).bind fun (cl, co, nv) =>
          (if 0 < numberOfChunks then (co[numberOfChunks - 1]?).bind fun o => (cl[numberOfChunks - 1]?).bind fun l => writeAt co numberOfChunks (o + l * C) else none).bind fun co =>
            (valueLoop C r2s co m 0 0 (List.replicate nv zero) (List.replicate nv 0)).map fun r =>
              (r.1, ⟨r.2.1, r.2.2, st.rowLengthCopy, cl, co, r2s, st.chunkRowToReal, c.dimension⟩)

/-- the loop in `getRow` (sellcsigmasparsematrixcontainer.h:209-211) -/
def rowLoop (C : Nat) (c : Sell V) : Nat → Nat → Option (List (Int × V))
  | 0, _ => some []
  | k + 1, index => (c.column[index]?).bind fun y => (c.values[index]?).bind fun v => (rowLoop C c k (index + C)).map fun l => (y, v) :: l

/-- `getRow` (sellcsigmasparsematrixcontainer.h:202-214), for non-negative row numbers -/
def getRow (C : Nat) (c : Sell V) (row : Nat) : Option (List (Int × V)) :=
  (c.chunkOffset[row / C]?).bind fun o => (c.rowLength[row]?).bind fun len => rowLoop C c len (o + row % C)

/-- `Coord<2>::operator<` (coord.h:481-484) -/
def coordLt (a b : Int × Int) : Prop := a.1 < b.1 ∨ (a.1 = b.1 ∧ a.2 < b.2)

/-- the result of `std::sort` (sellcsigmasparsematrixcontainer.h:224-226): a sorted permutation of the matrix, which one is unspecified -/
structure IsSort (m sorted : List (Entry V)) : Prop where
  perm : sorted.Perm m
  sorted : sorted.Pairwise fun a b => ¬ coordLt b.1 a.1

/-- `operator==` for containers of the same type (sellcsigmasparsematrixcontainer.h:230-236) -/
def eqSame [DecidableEq V] (a b : Sell V) : Bool :=
  decide (a.dimension = b.dimension) && decide (a.values = b.values) && decide (a.column = b.column) && decide (a.chunkLength = b.chunkLength)

/-- the loop in `operator==` for containers with different parameters (sellcsigmasparsematrixcontainer.h:245-249), from row `i` on -/
def eqLoop [DecidableEq V] (C1 C2 : Nat) (a b : Sell V) : Nat → Nat → Option Bool
  | 0, _ => some true
  | k + 1, i => (getRow C1 a i).bind fun x => (getRow C2 b i).bind fun y => if x ≠ y then some false else eqLoop C1 C2 a b k (i + 1)

/-- `operator==` for containers with different parameters (sellcsigmasparsematrixcontainer.h:238-252) -/
def eqOther [DecidableEq V] (C1 C2 : Nat) (a b : Sell V) : Option Bool := if a.dimension ≠ b.dimension then some false else eqLoop C1 C2 a b a.dimension 0

end LGD.Sell
