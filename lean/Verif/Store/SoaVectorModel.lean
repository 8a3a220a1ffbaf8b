import Verif.Ieee.RoundModel

/-!
# `LibFlatArray::soa_vector`

The vector stores its elements in a `soa_grid` of one dimension. `sizes` are the extents the compiler instantiated code for (macros.hpp:1063-1112); the first one which is large enough is used. An element is
abstract (the members are stored in separate arrays of the same length). `dflt` is a default constructed element, `junk` the content of memory where no element was constructed: `soa_grid` constructs
elements within its dimension, not up to its extent (soa_grid.hpp:453-456).
-/

namespace LGD.SoaVec
open LGD.Ieee

inductive Err
  | outOfRange
  | undefined
deriving DecidableEq, Repr

variable {α : Type}

/-- `select_size` (macros.hpp:1063-1088) -/
def sel (sizes : List Nat) (n : Nat) : Except Err Nat := match sizes.find? (fun s => decide (n ≤ s)) with | some e => .ok e | none => .error .outOfRange

/-- members (soa_vector.hpp:189-190, soa_grid.hpp:399-407): `mem` are the elements for which `grid` holds memory, `ext` is its extent (`none`: indeterminate) and `dim` its dimension -/
structure Vec (α : Type) where
  mem : List α
  ext : Option Nat
  dim : Nat
  count : Nat
deriving DecidableEq

variable (sizes : List Nat) (dflt junk : α)

/-- constructor (soa_vector.hpp:46-51, soa_grid.hpp:87-94) -/
def make (n : Nat) : Except Err (Vec α) := (sel sizes n).bind fun e => .ok ⟨List.replicate n dflt ++ List.replicate (e - n) junk, some e, n, n⟩

/-- constructor with a value (soa_vector.hpp:53-60) -/
def makeValue (n : Nat) (v : α) : Except Err (Vec α) := (sel sizes n).bind fun e => .ok ⟨List.replicate n v ++ List.replicate (e - n) junk, some e, n, n⟩

/-- `set` (soa_vector.hpp:67-72) -/
def set (v : Vec α) (i : Nat) (x : α) : Except Err (Vec α) := if i < v.mem.length then .ok { v with mem := v.mem.set i x } else .error .undefined

/-- `get` (soa_vector.hpp:79-84) -/
def get (v : Vec α) (i : Nat) : Except Err α := match v.mem[i]? with | some x => .ok x | none => .error .undefined

/-- `reserve` (soa_vector.hpp:111-125): a new grid, resized to its own extent, into which the elements are copied. `swap` (soa_grid.hpp:119-132) exchanges the dimension and extent of the first axis only; the others are 1. -/
def reserve (v : Vec α) (n : Nat) : Except Err (Vec α) :=
  (sel sizes n).bind fun e => (sel sizes e).bind fun e' =>
    match v.ext with
    | none => .error .undefined
    | some _ => if v.count ≤ e' ∧ v.count ≤ v.mem.length then .ok ⟨v.mem.take v.count ++ List.replicate (e - v.count) dflt ++ List.replicate (e' - max e v.count) junk, some e', e, v.count⟩ else .error .undefined

/-- `capacity` (soa_vector.hpp:127-132) -/
def capacity (v : Vec α) : Nat := v.dim

/-- `resize` (soa_vector.hpp:100-109) -/
def resize (v : Vec α) (n : Nat) : Except Err (Vec α) :=
  (if capacity v < n then reserve sizes dflt junk v n else .ok v).bind fun v => .ok { v with count := n }

/-- `clear` (soa_vector.hpp:134-139) -/
def clear (v : Vec α) : Vec α := { v with count := 0 }

/-- `static_cast<std::size_t>(count * 1.2)` with double precision -/
def grow (c : Nat) : Nat := ⌊rnd (rnd c * rnd (6 / 5))⌋.toNat

/-- `push_back` (soa_vector.hpp:141-151) -/
def pushBack (v : Vec α) (x : α) : Except Err (Vec α) :=
  (match v.ext with
    | none => (Except.error .undefined : Except Err (Vec α))
    | some e => if v.count = e then reserve sizes dflt junk v (grow v.count) else .ok v).bind fun v => (set v v.count x).bind fun v => .ok { v with count := v.count + 1 }

/-- `pop_back` (soa_vector.hpp:153-160); for empty vectors `count` wraps around -/
def popBack (v : Vec α) : Except Err (Vec α) := if v.count = 0 then .error .undefined else set { v with count := v.count - 1 } (v.count - 1) dflt

/-- copy constructor (implicit; soa_grid.hpp:96-105): elements are copied within the dimension, the extents are not initialised -/
def copy (v : Vec α) : Vec α := ⟨v.mem.take v.dim ++ List.replicate (v.mem.length - v.dim) junk, none, v.dim, v.count⟩

/-- assignment `w = v` (implicit; soa_grid.hpp:112-117, 134-160) -/
def assign (w v : Vec α) : Except Err (Vec α) :=
  (if w.dim = v.dim then .ok w else (sel sizes v.dim).bind fun e => .ok ⟨List.replicate v.dim dflt ++ List.replicate (e - v.dim) junk, some e, v.dim, w.count⟩).bind fun w =>
    .ok ⟨v.mem.take v.dim ++ w.mem.drop v.dim, w.ext, w.dim, v.count⟩

/-- one call of the interface -/
inductive Op (α : Type)
  | set (i : Nat) (x : α)
  | pushBack (x : α)
  | popBack
  | resize (n : Nat)
  | reserve (n : Nat)
  | clear

def step (v : Vec α) : Op α → Except Err (Vec α)
  | .set i x => set v i x
  | .pushBack x => pushBack sizes dflt junk v x
  | .popBack => popBack dflt v
  | .resize n => resize sizes dflt junk v n
  | .reserve n => reserve sizes dflt junk v n
  | .clear => .ok (clear v)

def run : List (Op α) → Vec α → Except Err (Vec α)
  | [], v => .ok v
  | o :: os, v => (step sizes dflt junk v o).bind (run os)

/-- `has_default_1d_sizes` (api_traits.hpp:67-72) -/
def default1d : List Nat :=
  [32, 64, 128, 192, 256, 512, 544, 1056, 2080, 4128, 8224, 16416, 32800, 65568, 131104, 262176, 524320, 1048608, 2097184, 4194336, 8388640, 16777248, 33554464, 67108896, 134217760, 268435488, 536870944,
    1073741856]

end LGD.SoaVec
