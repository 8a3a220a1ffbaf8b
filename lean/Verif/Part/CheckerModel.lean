import Verif.Part.CurveModel

/-!
# `CheckerboardingPartition`

The floating point `sqrt(remainingNodes)` is a parameter `limit` of the model.
-/

namespace LGD

/-- Loop of `primeFactors` (checkerboardingpartition.h:118-131): `count` candidates `i, i + 2, ...` remain. -/
def cbSieve : Nat → Nat → List Nat → List Nat
  | 0, _, primes => primes
  | count + 1, i, primes => cbSieve count (i + 2) (if primes.any (fun p => decide (i % p = 0)) then primes else primes ++ [i])

/-- `primeFactors(limit)` (checkerboardingpartition.h:112-134): candidates 3, 5, .. up to `limit`. -/
def cbPrimes (limit : Nat) : List Nat := cbSieve ((limit - 1) / 2) 3 [2]

/-- `while ((remainingNodes % *i) == 0)` (checkerboardingpartition.h:71-74); yields occurrences and the remainder; `none`: does not end
within `fuel` iterations, or division by zero. -/
def cbDivide (p : Nat) : Nat → Nat → Nat → Option (Nat × Nat)
  | 0, _, _ => none
  | fuel + 1, occ, rem => if p = 0 then none else if rem % p = 0 then cbDivide p fuel (occ + 1) (rem / p) else some (occ, rem)

/-- Loop over the primes (checkerboardingpartition.h:67-79); the list is already reversed. -/
def cbFactor (fuel : Nat) : List Nat → Nat → Option (List (Nat × Nat) × Nat)
  | [], rem => some ([], rem)
  | p :: ps, rem => (cbDivide p fuel 0 rem).bind (fun (occ, rem') => (cbFactor fuel ps rem').map (fun (fs, r) =>
      (if 0 < occ then (p, occ) :: fs else fs, r)))

/-- `minElement` (checkerboardingpartition.h:99-110): position of the first smallest entry. -/
def cbMinPos (l : List Nat) : Nat :=
  (List.range (l.length - 1)).foldl (fun m i => if l.getD (i + 1) 0 < l.getD m 0 then i + 1 else m) 0

/-- `*minElement(ret) *= prime` (checkerboardingpartition.h:93). -/
def cbMulMin (l : List Nat) (p : Nat) : List Nat := l.set (cbMinPos l) (l.getD (cbMinPos l) 0 * p)

/-- The inner loop (checkerboardingpartition.h:92-94). -/
def cbMulTimes (p : Nat) : Nat → List Nat → List Nat
  | 0, l => l
  | k + 1, l => cbMulTimes p k (cbMulMin l p)

/-- `std::sort` on the few entries, by insertion. -/
def cbIns (x : Nat) : List Nat → List Nat
  | [] => [x]
  | y :: ys => if x ≤ y then x :: y :: ys else y :: cbIns x ys

def cbSort : List Nat → List Nat
  | [] => []
  | x :: xs => cbIns x (cbSort xs)

/-- `getNodeGridDim` (checkerboardingpartition.h:59-97) for `DIM = n + 1`. -/
def cbGridDim (limit n totalNodes fuel : Nat) : Option (List Nat) :=
  (cbFactor fuel (cbPrimes limit).reverse totalNodes).map (fun (fs, rem) =>
    let fs := if rem ≠ 1 then (rem, 1) :: fs else fs
    cbSort (fs.foldl (fun l f => cbMulTimes f.1 f.2 l) (List.replicate (n + 1) 1)))

/-- `logicalCoord` (checkerboardingpartition.h:36-40), 2D and 3D. -/
def cbLogical (g : List Nat) (node : Nat) : Nat → Nat
  | 0 => node % g.getD 0 0
  | 1 => (node % (g.getD 0 0 * g.getD 1 0)) / g.getD 0 0
  | 2 => node / (g.getD 0 0 * g.getD 1 0)
  | _ => 0

/-- The cuboid of a node (checkerboardingpartition.h:42-49); `grid` is `origin`, `dimensions`. -/
def cbCuboid (limit n : Nat) (grid : Box) (nodes fuel node : Nat) : Option Box :=
  (cbGridDim limit n nodes fuel).map (fun g =>
    let realStart : Crd := fun k => cbLogical g node k * grid.dims k / (g.getD k 0 : Nat)
    let realEnd : Crd := fun k => (cbLogical g node k + 1) * grid.dims k / (g.getD k 0 : Nat)
    { origin := fun k => grid.origin k + realStart k, dims := fun k => realEnd k - realStart k })

/-- `getRegion` (checkerboardingpartition.h:34-52). -/
def cbRegion (limit n : Nat) (grid : Box) (nodes fuel node : Nat) : Option Idx :=
  (cbCuboid limit n grid nodes fuel node).bind (fun box => regInsertBox n emptyIdx box fuel)

end LGD
