import Verif.Geom.TopoModel
import Verif.Ieee.RoundModel

/-!
# Random numbers

Model of `misc/random.h` and `misc/random.cpp`. `unsigned` has 32 bits. Pointers into `state` are indices; `none` stands for an access
beyond the array, the division by zero, or the use of the pointer `next` before it was set.
-/

namespace LGD.Rand

abbrev W := BitVec 32

/-- `N` (random.cpp:62) -/
def N : Nat := 624

/-- `M` (random.cpp:63) -/
def M : Nat := 397

/-- `K` (random.cpp:64) -/
def K : W := 0x9908B0DF#32

/-- `mixBits` (random.cpp:65, 67-68) -/
def mixBits (u v : W) : W := (u &&& 0x80000000#32) ||| (v &&& 0x7FFFFFFF#32)

/-- the static variables (random.cpp:70-72) -/
structure State where
  /-- `state[0]`, …, `state[N]` -/
  mem : Nat → W
  next : Option Nat
  left : Int

/-- their values at program start -/
def start : State := ⟨fun _ => 0, none, -1⟩

/-- reading from `state` -/
def get (m : Nat → W) (i : Nat) : Option W := if i ≤ N then some (m i) else none

/-- writing to `state` -/
def put (m : Nat → W) (i : Nat) (w : W) : Option (Nat → W) := if i ≤ N then some (fun j => if j = i then w else m j) else none

/-- the loop of `seedMT` (random.cpp:125-126), `j` iterations to go -/
def seedLoop : Nat → Nat → W → (Nat → W) → Option (Nat → W)
  | 0, _, _, m => some m
  | j + 1, s, x, m => (put m s (x * 69069)).bind (seedLoop j (s + 1) (x * 69069))

/-- `seedMT` (random.cpp:74-127) -/
def seedMT (seed : W) (s : State) : Option State :=
  (put s.mem 0 (seed ||| 1)).bind fun m => (seedLoop (N - 1) 1 (seed ||| 1) m).map fun m => ⟨m, s.next, 0⟩

/-- the right hand side in random.cpp:142, 146, 149, without the first operand -/
def twist (s0 s1 : W) : W := (mixBits s0 s1 >>> 1) ^^^ (if s1 &&& 1 = 1 then K else 0)

/-- the variables of `reloadMT` -/
structure Vars where
  mem : Nat → W
  p0 : Nat
  p2 : Nat
  pM : Nat
  s0 : W
  s1 : W

/-- the loops in random.cpp:141-147, `j` iterations to go -/
def reloadLoop : Nat → Vars → Option Vars
  | 0, v => some v
  | j + 1, v =>
    (get v.mem v.pM).bind fun a => (put v.mem v.p0 (a ^^^ twist v.s0 v.s1)).bind fun m => (get m v.p2).bind fun b =>
      reloadLoop j ⟨m, v.p0 + 1, v.p2 + 1, v.pM + 1, v.s1, b⟩

/-- "tempering" (random.cpp:150-153, 166-170) -/
def temper (y : W) : W :=
  let y := y ^^^ (y >>> 11)
  let y := y ^^^ ((y <<< 7) &&& 0x9D2C5680#32)
  let y := y ^^^ ((y <<< 15) &&& 0xEFC60000#32)
  y ^^^ (y >>> 18)

/-- `reloadMT` (random.cpp:130-154) -/
def reloadMT (s : State) : Option (W × State) :=
  (if s.left < -1 then seedMT 4357 s else some s).bind fun s =>
    (reloadLoop (N - M) ⟨s.mem, 0, 2, M, s.mem 0, s.mem 1⟩).bind fun v =>
      (reloadLoop (M - 1) { v with pM := 0 }).bind fun v =>
        (get v.mem v.pM).bind fun a => (put v.mem v.p0 (a ^^^ twist v.s0 (v.mem 0))).map fun m =>
          (temper (v.mem 0), ⟨m, some 1, N - 1⟩)

/-- `randomMT` (random.cpp:157-171) -/
def randomMT (s : State) : Option (W × State) :=
  if s.left - 1 < 0 then reloadMT { s with left := s.left - 1 }
  else s.next.bind fun i => (get s.mem i).map fun y => (temper y, ⟨s.mem, some (i + 1), s.left - 1⟩)

/-- `k` calls -/
def draw : Nat → State → Option (List W × State)
  | 0, s => some ([], s)
  | k + 1, s => (randomMT s).bind fun r => (draw k r.2).map fun q => (r.1 :: q.1, q.2)

/-- `Random::genUnsigned` (random.h:18-21) -/
def genUnsigned (max : W) (s : State) : Option (W × State) :=
  (randomMT s).bind fun r => if max = 0 then none else some (r.1 % max, r.2)

/-- `Limits<unsigned>::getMax()` -/
def maxUnsigned : W := 0xFFFFFFFF#32

/-- `Random::genDouble` (random.h:23-26); `rd` rounds the results of operations on `double`s -/
def genDouble (rd : ℚ → ℚ) (max : ℚ) (s : State) : Option (ℚ × State) :=
  (genUnsigned maxUnsigned s).map fun r => (rd (rd ((r.1.toNat : ℚ) / maxUnsigned.toNat) * max), r.2)

/-- `Initializer::seedRNG` (initializer.h:85-98); the index is converted from `std::size_t` to `unsigned` -/
def seedRNG (n : Nat) (wraps : Nat → Bool) (dim c : Crd) (s : State) : Option State :=
  seedMT (BitVec.ofInt 32 (toIndex n (topoNormalize n wraps c dim) dim)) s

end LGD.Rand
