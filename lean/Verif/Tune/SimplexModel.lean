import Verif.Tune.ParamModel

/-!
# The simplex algorithm

misc/simplexoptimizer.h and misc/simplexoptimizer.cpp. Numbers as in `ParamModel`; of the limits of `double` only those the code mentions are modelled.
-/

namespace LGD.Tune

/-- `Limits<double>::getMin()` (limits.h:38-47): the smallest positive normal number -/
def dblMin : ℚ := 1 / 2 ^ 1022

/-- `Limits<double>::getMax()` (limits.h:24-36) -/
def dblMax : ℚ := 2 ^ 1024 - 2 ^ 971

/-- `SimplexVertex` (simplexoptimizer.h:19-47); -1 is the fitness of points which haven't been evaluated -/
structure Vertex where
  pt : List Param
  fit : ℚ
deriving DecidableEq

/-- value of a coordinate -/
def Vertex.val (v : Vertex) (j : Nat) : ℚ := (v.pt[j]?.map Param.value).getD 0

/-- copy of a point with new values -/
def setAll (x : List Param) (f : Nat → ℚ) : List Param := x.mapIdx fun j p => p.setValue (f j)

/-- `minInSimplex` (simplexoptimizer.cpp:257-269) -/
def minIdx (s : List Vertex) : Nat := (s.zipIdx.foldl (fun a v => if v.1.fit ≤ a.1 then (v.1.fit, v.2) else a) (dblMax, 0)).2

/-- `maxInSimplex` (lines 271-283) -/
def maxIdx (s : List Vertex) : Nat := (s.zipIdx.foldl (fun a v => if a.1 ≤ v.1.fit then (v.1.fit, v.2) else a) (dblMin, 0)).2

/-- `simplex[i]` -/
def vtx (s : List Vertex) (i : Nat) : Vertex := s.getD i ⟨[], -1⟩

/-- mean of all vertices but the worst in coordinate `j` (lines 294-300) -/
def meanAt (s : List Vertex) (j : Nat) : ℚ := ((s.eraseIdx (minIdx s)).map fun v => v.val j).sum / ((s.length : ℚ) - 1)

/-- first component of `reflection` (lines 286-307): the centre -/
def centre (s : List Vertex) : List Param := setAll (vtx s 0).pt (meanAt s)

/-- second component: the reflected point -/
def reflected (s : List Vertex) : List Param := setAll (vtx s 0).pt fun j => 2 * meanAt s j - (vtx s (minIdx s)).val j

/-- value of coordinate `j` of a point -/
def at' (x : List Param) (j : Nat) : ℚ := (x[j]?.map Param.value).getD 0

/-- `expansion` (lines 309-320) -/
def expansion (s : List Vertex) : List Param := setAll (vtx s 0).pt fun j => at' (reflected s) j * 2 - at' (centre s) j

/-- `merge` (lines 392-403) -/
def merge (a b : List Param) : List Param := setAll a fun j => (at' a j + at' b j) * (1 / 2)

/-- `partialOutsideContraction` (lines 322-326) -/
def outside (s : List Vertex) : List Param := merge (centre s) (reflected s)

/-- `partialInsideContraction` (lines 328-332) -/
def inside (s : List Vertex) : List Param := merge (centre s) (vtx s (minIdx s)).pt

/-- `totalContraction` (lines 334-340) -/
def contract (s : List Vertex) : List Vertex := s.map fun v => ⟨merge (vtx s (maxIdx s)).pt v.pt, -1⟩

/-- `comperator` (lines 378-390) -/
def comperator (s : List Vertex) (f : ℚ) : Int :=
  s.foldl (fun r v => let r := if v.fit = f ∧ r = -1 then r + 1 else r; if f < v.fit then r + 1 else r) (-1)

/-- coordinate `i` of a new simplex: `c` steps up, or down if that doesn't lead anywhere (lines 244-249) -/
def shift (p : Param) (d : ℚ) : Param :=
  let q := p.setValue (p.value + d)
  if q.value = p.value then q.setValue (p.value - d) else q

/-- `initSimplex` (lines 238-255) -/
def initSimplex (x : List Param) (mult : ℚ) (steps : List ℚ) : List Vertex :=
  ⟨x, -1⟩ :: (List.range x.length).map fun i => ⟨x.modify i fun p => shift p (mult * steps.getD i 0), -1⟩

/-- `checkConvergence` (lines 342-376): variance below the square of epsilon -/
def converged (s : List Vertex) (eps : ℚ) : Bool :=
  let f := (s.map Vertex.fit).sum * (1 / (s.length : ℚ))
  decide ((s.map fun v => (v.fit - f) * (v.fit - f)).sum * (1 / (s.length : ℚ)) < eps * eps)

/-- `eq` (lines 216-227) -/
def sameValues (s t : List Vertex) : Bool := s.map (fun v => v.pt.map Param.value) == t.map (fun v => v.pt.map Param.value)

/-- `SimplexOptimizer` while it runs; `seen`: evaluated points, `dropped`: points of reflection which were evaluated and then given up for the expansion -/
structure XSt where
  simplex : List Vertex
  mult : ℚ
  seen : List (List Param)
  dropped : List (List Param)
  done : Bool
deriving DecidableEq

/-- `evalSimplex` (lines 229-236) -/
def evalAll (eval : List Param → ℚ) (t : XSt) : XSt :=
  { t with simplex := t.simplex.map fun v => if v.fit < 0 then ⟨v.pt, eval v.pt⟩ else v, seen := t.seen ++ (t.simplex.filter fun v => decide (v.fit < 0)).map Vertex.pt }

/-- `simplex[worst] = v` -/
def put (t : XSt) (v : Vertex) : XSt := { t with simplex := t.simplex.set (minIdx t.simplex) v }

/-- the `switch` (lines 137-182) -/
def xMove (eval : List Param → ℚ) (t : XSt) : XSt :=
  let r := reflected t.simplex
  let t := { t with seen := t.seen ++ [r] }
  let c := comperator t.simplex (eval r)
  if c = -1 then
    let e := expansion t.simplex
    let t := { t with seen := t.seen ++ [e] }
    if (vtx t.simplex (maxIdx t.simplex)).fit < eval e then { put t ⟨e, eval e⟩ with dropped := t.dropped ++ [r] } else put t ⟨r, eval r⟩
  else if c = 1 then
    let e := outside t.simplex
    let t := { t with seen := t.seen ++ [e] }
    if eval r ≤ eval e then put t ⟨e, eval e⟩ else evalAll eval { t with simplex := contract t.simplex }
  else if c = 0 then
    let e := inside t.simplex
    let t := { t with seen := t.seen ++ [e] }
    if (vtx t.simplex (minIdx t.simplex)).fit ≤ eval e then put t ⟨e, eval e⟩ else t
  else
    let e := centre t.simplex
    let t := { t with seen := t.seen ++ [e] }
    if (vtx t.simplex (minIdx t.simplex)).fit < eval e then put t ⟨e, eval e⟩ else t

/-- a new simplex around the best point -/
def restart (eval : List Param → ℚ) (steps : List ℚ) (t : XSt) : XSt := evalAll eval { t with simplex := initSimplex (vtx t.simplex (maxIdx t.simplex)).pt t.mult steps }

/-- body of the loop (lines 132-208); `done` is `break` -/
def xIter (eval : List Param → ℚ) (eps : ℚ) (steps : List ℚ) (t : XSt) : XSt :=
  let t' := xMove eval t
  if 0 < eps then
    if converged t'.simplex eps then
      let u := restart eval steps t'
      if 2 ≤ t'.mult then { u with mult := u.mult * (1 / 2) } else { u with done := true }
    else t'
  else if sameValues t.simplex t'.simplex then
    if 2 ≤ t'.mult then restart eval steps { t' with mult := t'.mult * (1 / 2) } else { t' with done := true }
  else t'

/-- at most `k` iterations -/
def xLoop (eval : List Param → ℚ) (eps : ℚ) (steps : List ℚ) : Nat → XSt → XSt
  | 0, t => t
  | k + 1, t => let t' := xIter eval eps steps t; if t'.done then t' else xLoop eval eps steps k t'

/-- step sizes the constructor chooses (lines 113-121) -/
def defaultSteps (ps : List Param) : List ℚ := ps.map fun p => if 1 < p.gran then p.gran else 1

/-- constructor (lines 102-126) and `operator()` (lines 128-214); `none` is `std::invalid_argument` -/
def simplexSearch (ps : List Param) (eps mult : ℚ) (steps : List ℚ) (eval : List Param → ℚ) (k : Nat) : Option XSt :=
  let st := if steps = [] then defaultSteps ps else steps
  if st.length = ps.length then some (xLoop eval eps st k (evalAll eval ⟨initSimplex ps mult st, mult, [], [], false⟩)) else none

/-- the result (line 213) and `getFitness()` (line 212) -/
def XSt.result (t : XSt) : Vertex := vtx t.simplex (maxIdx t.simplex)

end LGD.Tune
