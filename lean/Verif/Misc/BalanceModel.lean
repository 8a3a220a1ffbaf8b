import Mathlib.Data.Rat.Floor
import Mathlib.Algebra.Order.Floor.Defs

/-!
# Load balancers

`double` is modelled by the rational numbers with a rounding function `rnd`, which is applied to the result of every arithmetic
operation; infinities and NaN are not modelled. `rnd = id` is exact arithmetic, `Ieee.rnd` is that of `double`s. `std::size_t` and `long` have 64 bits.
-/

namespace LGD.Balance

/-- outcome of a call: normal return, `std::invalid_argument`, `std::logic_error`, undefined behavior -/
inductive R (α : Type) where
  | ok (a : α)
  | invalid
  | logic
  | undefined
  deriving DecidableEq

/-- sequencing -/
def R.map {α β : Type} (f : α → β) : R α → R β
  | .ok a => .ok (f a)
  | .invalid => .invalid
  | .logic => .logic
  | .undefined => .undefined

/-- number of values of `std::size_t` -/
def M : Nat := 2 ^ 64

/-- conversion of `double` to an integer type: truncation -/
def trunc (x : ℚ) : Int := if 0 ≤ x then ⌊x⌋ else ⌈x⌉

/-- `(long)x` followed by conversion to `std::size_t`; undefined if the value does not fit a `long` -/
def viaLong (x : ℚ) : R Nat :=
  if trunc x < -2 ^ 63 ∨ 2 ^ 63 ≤ trunc x then .undefined else .ok (trunc x % (M : Int)).toNat

/-- `sum` of a vector of integers (stdcontaineroverloads.h:69-74) -/
def sumN (w : List Nat) : Nat := w.foldl (fun a x => (a + x) % M) 0

section
variable (rnd : ℚ → ℚ)

/-- `sum` of a vector of `double`s (stdcontaineroverloads.h:69-74) -/
def sumQ (l : List ℚ) : ℚ := l.foldl (fun a x => rnd (a + x)) 0

/-- the loop in `initialWeights` (loadbalancer.cpp:16-24) -/
def initialLoop (items : Nat) (total : ℚ) : Nat → ℚ → List ℚ → R (List Nat)
  | _, _, [] => .ok []
  | lastPos, _, [_] => .ok [(items + M - lastPos) % M]
  | lastPos, part, s :: r :: l =>
    let part' := rnd (part + s)
    let x := rnd (rnd (rnd items * part') / total)
    if total = 0 ∨ trunc x < 0 ∨ (M : Int) ≤ trunc x then .undefined
    else (initialLoop items total (trunc x).toNat part' (r :: l)).map ((((trunc x).toNat + M - lastPos) % M) :: ·)

/-- `LoadBalancer::initialWeights` (loadbalancer.cpp:6-27) -/
def initialWeights (items : Nat) (rankSpeeds : List ℚ) : R (List Nat) :=
  if rankSpeeds = [] then .invalid else initialLoop rnd items (sumQ rnd rankSpeeds) 0 0 rankSpeeds

/-- the inner loop of `expectedOptimalDistribution` (oozebalancer.cpp:50-75): `ret` is `ret[nodeC]`, items are pairs of
`remFractPerItem[itemC]` and `loadPerItem[itemC]` -/
def fill (ret remLoad : ℚ) : List (ℚ × ℚ) → ℚ × List (ℚ × ℚ)
  | [] => (ret, [])
  | (f, l) :: items =>
    if f = 0 then ((fill ret remLoad items).1, (f, l) :: (fill ret remLoad items).2)
    else if rnd (f * l) ≤ remLoad then
      if rnd (remLoad - rnd (f * l)) = 0 then (rnd (ret + f), (0, l) :: items)
      else
        let a := fill (rnd (ret + f)) (rnd (remLoad - rnd (f * l))) items
        (a.1, (0, l) :: a.2)
    else (rnd (ret + rnd (remLoad / l)), (rnd (f - rnd (remLoad / l)), l) :: items)

/-- the outer loop (oozebalancer.cpp:47-76) for `n` nodes, and the remainder for the last node (lines 78-79) -/
def fillAll (target : ℚ) : Nat → List (ℚ × ℚ) → List ℚ
  | 0, items => [rnd (0 + sumQ rnd (items.map Prod.fst))]
  | n + 1, items =>
    let a := fill rnd 0 target items
    a.1 :: fillAll target n a.2

/-- `loadPerItem` (oozebalancer.cpp:35-41) -/
def loadPerItem (weights : List Nat) (relativeLoads : List ℚ) : List ℚ :=
  (weights.zip relativeLoads).flatMap fun p => List.replicate p.1 (rnd (p.2 / rnd p.1))

/-- `expectedOptimalDistribution` (oozebalancer.cpp:19-82), for non-empty `weights` -/
def expectedOptimal (weights : List Nat) (relativeLoads : List ℚ) : List ℚ :=
  let target := rnd (sumQ rnd relativeLoads / rnd weights.length)
  if target = 0 then List.replicate weights.length (rnd (rnd (sumN weights) / rnd weights.length))
  else fillAll rnd target (weights.length - 1) ((loadPerItem rnd weights relativeLoads).map fun l => (1, l))

/-- `linearCombo` (oozebalancer.cpp:147-158) -/
def linearCombo (newLoadWeight : ℚ) (oldLoads : List Nat) (newLoads : List ℚ) : List ℚ :=
  (newLoads.zip oldLoads).map fun p => rnd (rnd (p.1 * newLoadWeight) + rnd (rnd p.2 * rnd (1 - newLoadWeight)))

/-- `frac` (oozebalancer.cpp:109-117) -/
def frac (x : ℚ) : ℚ := |rnd (x - trunc x)|

/-- `equalize` (oozebalancer.cpp:120-144), `balance` is the local variable of this name -/
def equalize (balance : ℚ) : List ℚ → R (List Nat)
  | [] => .undefined
  | [x] =>
    match viaLong x with
    | .ok k => .ok [if frac rnd x > rnd (1 / 2 - balance) then (k + 1) % M else k]
    | r => r.map fun _ => []
  | x :: y :: l =>
    match viaLong x with
    | .ok k =>
      if rnd (1 - frac rnd x) < balance then (equalize (rnd (balance - rnd (1 - frac rnd x))) (y :: l)).map ((k + 1) % M :: ·)
      else (equalize (rnd (balance + frac rnd x)) (y :: l)).map (k :: ·)
    | r => r.map fun _ => []

/-- `OozeBalancer::balance` (oozebalancer.cpp:85-106) -/
def ooze (newLoadWeight : ℚ) (weights : List Nat) (relativeLoads : List ℚ) : R (List Nat) :=
  if weights = [] then .undefined
  else
    match equalize rnd 0 (linearCombo rnd newLoadWeight weights (expectedOptimal rnd weights relativeLoads)) with
    | .ok ret => if sumN weights ≠ sumN ret then .logic else .ok ret
    | r => r

/-- the constructor of `OozeBalancer` (oozebalancer.cpp:8-14) rejects weights outside of `[0, 1]` -/
def oozeOK (newLoadWeight : ℚ) : Bool := ¬ (newLoadWeight < 0 ∨ newLoadWeight > 1)

/-- conversion of all loads of `RandomBalancer` -/
def scaled (loadsSum : Nat) (randSum : ℚ) : List ℚ → R (List Nat)
  | [] => .ok []
  | r :: l =>
    if randSum = 0 then .undefined
    else
      match viaLong (rnd (rnd (r * rnd loadsSum) / randSum)) with
      | .ok k => (scaled loadsSum randSum l).map (k :: ·)
      | r => r.map fun _ => []

/-- `ret[i]++` -/
def bump (ret : List Nat) (i : Nat) : List Nat := ret.modify i fun x => (x + 1) % M

/-- scatter the remainder (randombalancer.cpp:35-38): `index i` is the result of `randomMT()` -/
def scatter (index : Nat → Nat) : Nat → List Nat → List Nat
  | 0, ret => ret
  | i + 1, ret => scatter index i (bump ret (index (i + 1) % ret.length))

/-- `RandomBalancer::balance` (randombalancer.cpp:6-41), the random numbers are arguments. `remainder` is converted to
a 32 bit `unsigned`. -/
def random (base : List ℚ) (index : Nat → Nat) (weights : List Nat) : R (List Nat) :=
  let loadsSum := sumN weights
  match scaled rnd loadsSum (sumQ rnd base) base with
  | .ok ret =>
    let remainder : Int := loadsSum - (ret.sum : Int)
    if ret = [] ∧ remainder % 2 ^ 32 ≠ 0 then .undefined else .ok (scatter index (remainder % 2 ^ 32).toNat ret)
  | r => r

end

/-- `BiasBalancer::loadOnOneNodeOnly` (biasbalancer.cpp:13-19) -/
def loadOnOneNodeOnly (weights : List Nat) : R (List Nat) :=
  match weights with
  | [] => .undefined
  | _ :: l => .ok (sumN weights :: l.map fun _ => 0)

/-- `BiasBalancer::balance` (biasbalancer.cpp:22-32); the state is `pristine`, the delegate is a function. -/
def bias (delegate : List Nat → List ℚ → R (List Nat)) (pristine : Bool) (weights : List Nat) (loads : List ℚ) : R (List Nat) × Bool :=
  if pristine then (loadOnOneNodeOnly weights, false) else (delegate weights loads, pristine)

/-- `NoOpBalancer::balance` (noopbalancer.h:15-18), `MockBalancer::balance` (mockbalancer.cpp:15-23) -/
def noOp (weights : List Nat) (_ : List ℚ) : R (List Nat) := .ok weights

end LGD.Balance
