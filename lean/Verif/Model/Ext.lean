import Verif.Model.Algorithms
import Verif.Model.Summation
import Verif.Model.Quadrature
import Verif.Model.Finder

/-!
# The search with infinities and NaN

`simple_holo.py`, `simple_holo_newton.py`, `polynomial_holo.py`, `argument_estimator.py`, `sum_estimator.py`,
`quad_estimator.py` and the serial `rootfinder.py` once more, this time with numbers that may be infinite or
NaN ("not a number"), with the comparisons and the arithmetic of IEEE 754 for these (finite numbers are added, divided, …
exactly).  Simplifications: no progress bar, no ctrl+C, no overflow of finite numbers; only order 0 moments have a
cache (those of higher order are computed in the action for few roots of the polynomial variant, which is a parameter).
-/

namespace PyZeal

/-- a floating point number: finite, infinite or NaN (the sign of zero is dropped) -/
inductive XNum (K : Type)
  | fin (x : K)
  | pinf
  | ninf
  | nan
deriving DecidableEq

namespace XNum
variable {K : Type}

/-- `x` is neither infinite nor NaN -/
def finite : XNum K → Bool
  | .fin _ => true
  | _ => false

section
variable [Field K] [LinearOrder K]

/-- `-x` -/
def neg : XNum K → XNum K
  | .fin x => .fin (-x)
  | .pinf => .ninf
  | .ninf => .pinf
  | .nan => .nan

/-- `x + y` -/
def add : XNum K → XNum K → XNum K
  | .fin x, .fin y => .fin (x + y)
  | .nan, _ => .nan
  | _, .nan => .nan
  | .pinf, .ninf => .nan
  | .ninf, .pinf => .nan
  | .pinf, _ => .pinf
  | _, .pinf => .pinf
  | .ninf, _ => .ninf
  | _, .ninf => .ninf

/-- `x - y` -/
def sub (x y : XNum K) : XNum K := add x (neg y)

/-- `c * x` for a finite `c`; `0 * inf` is NaN -/
def scale (c : K) : XNum K → XNum K
  | .fin x => .fin (c * x)
  | .nan => .nan
  | .pinf => if c = 0 then .nan else if 0 < c then .pinf else .ninf
  | .ninf => if c = 0 then .nan else if 0 < c then .ninf else .pinf

/-- `x * y` -/
def mul : XNum K → XNum K → XNum K
  | .fin x, y => scale x y
  | .nan, _ => .nan
  | x, .fin y => scale y x
  | _, .nan => .nan
  | .pinf, .pinf => .pinf
  | .ninf, .ninf => .pinf
  | _, _ => .ninf

/-- `x / c` for a finite `c ≠ 0` -/
def over (x : XNum K) (c : K) : XNum K := scale c⁻¹ x

/-- `x < y`: false if one of them is NaN -/
def lt : XNum K → XNum K → Bool
  | .fin x, .fin y => decide (x < y)
  | .fin _, .pinf => true
  | .ninf, .fin _ => true
  | .ninf, .pinf => true
  | _, _ => false

/-- `x == y`: false if one of them is NaN -/
def eq : XNum K → XNum K → Bool
  | .fin x, .fin y => decide (x = y)
  | .pinf, .pinf => true
  | .ninf, .ninf => true
  | _, _ => false

/-- `x <= y` -/
def le (x y : XNum K) : Bool := lt x y || eq x y

/-- `abs(x)` -/
def abs : XNum K → XNum K
  | .fin x => .fin |x|
  | .nan => .nan
  | _ => .pinf

/-- `(a + b) / 2` -/
def mid (a b : XNum K) : XNum K := over (add a b) 2

/-- `sorted((a, b))` -/
def sorted (a b : XNum K) : XNum K × XNum K := if lt b a then (b, a) else (a, b)

/-- `xs.sum()` -/
def sum (xs : List (XNum K)) : XNum K := xs.foldl add (.fin 0)

end
end XNum

namespace Ext
variable {K σ : Type}

/-- complex numbers -/
abbrev XCx (K : Type) := Cx (XNum K)

/-- some part is NaN -/
def isNaN [DecidableEq K] (z : XCx K) : Bool := decide (z.re = .nan) || decide (z.im = .nan)

/-- a dictionary; keys are compared with `eq` (NaN is different from everything) -/
abbrev XDict (κ ν : Type) := List (κ × ν)

/-- `d.get(k)` -/
def lookup {κ ν : Type} (eq : κ → κ → Bool) (k : κ) (d : XDict κ ν) : Option ν := (d.find? (fun e => eq e.1 k)).map (·.2)

/-- `d[k] = v` -/
def put {κ ν : Type} (eq : κ → κ → Bool) (k : κ) (v : ν) (d : XDict κ ν) : XDict κ ν :=
  (k, v) :: d.filter (fun e => !eq e.1 k)

/-- `d.pop(k, None)` -/
def del {κ ν : Type} (eq : κ → κ → Bool) (k : κ) (d : XDict κ ν) : XDict κ ν := d.filter (fun e => !eq e.1 k)

/-- the context of a search (root_context.py 21-35) without container and progress bar -/
structure XCtx (K : Type) where
  f : XCx K → XCx K
  df : Option (XCx K → XCx K)
  precision : ℤ × ℤ
  reRan : XNum K × XNum K
  imRan : XNum K × XNum K

/-- the state of a search: the cache of the estimator (order 0), its internal state, the `addRoot` calls so far -/
structure XWorld (σ K : Type) where
  cache : XDict (XCx K × XCx K) (XCx K)
  est : σ
  added : List (XCx K × ℤ)

/-- `ArgumentEstimator.calcMomentAlongLine` for order 0 (argument_estimator.py 81-99) -/
abbrev XLineEst (σ K : Type) := XCx K → XCx K → XCtx K → Py (XWorld σ K) (XCx K)

section
variable [Field K] [LinearOrder K]

/-- `z == w` for complex numbers -/
def ceq (z w : XCx K) : Bool := XNum.eq z.re w.re && XNum.eq z.im w.im

/-- equality of the keys of the estimator's cache, which are lines -/
def lineEq (p q : XCx K × XCx K) : Bool := ceq p.1 q.1 && ceq p.2 q.2

/-- `z + w` -/
def cadd (z w : XCx K) : XCx K := ⟨XNum.add z.re w.re, XNum.add z.im w.im⟩

/-- `-z` -/
def cneg (z : XCx K) : XCx K := ⟨XNum.neg z.re, XNum.neg z.im⟩

/-- `x + y * 1j`: the product has the real part `y * 0`, which is NaN if `y` is infinite -/
def mkPoint (x y : XNum K) : XCx K := ⟨if y.finite then x else .nan, y⟩

/-- `np.linspace(a, b, n)`: `k * step + a` with `step = (b - a) / (n - 1)`, and the last point replaced by `b`
(numpy, `function_base.py`); simplified: the parts are computed separately (complex multiplication makes NaN of the
other part, too, if one part of `step` is infinite), and a single point is `a`. -/
def xLinspace (a b : XCx K) : ℕ → List (XCx K)
  | 0 => []
  | 1 => [a]
  | n + 2 =>
    (List.range (n + 1)).map (fun (k : ℕ) => cadd a
      ⟨XNum.scale (k : K) (XNum.over (XNum.sub b.re a.re) ((n : K) + 1)),
       XNum.scale (k : K) (XNum.over (XNum.sub b.im a.im) ((n : K) + 1))⟩) ++ [b]

/-- `10 ** (-p)` -/
def xeps (p : ℤ) : XNum K := .fin (eps10 K p)

/-- `context.container.addRoot` for some points -/
def addPoints (rs : List (XCx K × ℤ)) : Py (XWorld σ K) Unit := Py.modify fun w => { w with added := w.added ++ rs }

/-- the loop of `genFuncArr` (argument_estimator.py 118-139), at most `n` evaluations -/
def xFuncLoop (f : XCx K → XCx K) (shift : XCx K) : ℕ → List (XCx K) → Py (XWorld σ K) (List (XCx K) × List (XCx K))
  | 0, _ => Py.throw .outOfFuel
  | n + 1, zArr =>
    let zeros := zArr.filter fun z => ceq (f z) ⟨.fin 0, .fin 0⟩
    if zeros.isEmpty then pure (zArr, zArr.map f)
    else do
      addPoints (zeros.map fun z => (z, 0))
      xFuncLoop f shift n (zArr.map (cadd · shift))

/-- `ArgumentEstimator.genFuncArr` (argument_estimator.py 110-141) -/
def xFuncArr (fuel : ℕ → ℕ) (zStart zEnd : XCx K) (ctx : XCtx K) (size : ℕ) :
    Py (XWorld σ K) (List (XCx K) × List (XCx K)) :=
  xFuncLoop ctx.f
    (if XNum.eq zStart.im zEnd.im then ⟨.fin 0, .fin (2 * eps10 K ctx.precision.2)⟩
      else ⟨.fin (2 * eps10 K ctx.precision.1), .fin 0⟩)
    (fuel size) (xLinspace zStart zEnd size)

/-- one round of the loop in `calcMoment` (argument_estimator.py 67-76): a NaN in the cache is truthy -/
def xEdge (est : XLineEst σ K) (ctx : XCtx K) (e : XCx K × XCx K) : Py (XWorld σ K) (XCx K) := do
  let w ← Py.get
  match lookup lineEq e w.cache with
  | some v => if ceq v ⟨.fin 0, .fin 0⟩ then compute else pure v
  | none => compute
where
  /-- argument_estimator.py 70-76 -/
  compute : Py (XWorld σ K) (XCx K) := do
    let d ← est e.1 e.2 ctx
    Py.modify fun w => { w with cache := put lineEq (e.2, e.1) (cneg d) (put lineEq e d w.cache) }
    pure d

/-- the loop in `calcMoment` (argument_estimator.py 66-76) -/
def xSumEdges (est : XLineEst σ K) (ctx : XCtx K) : List (XCx K × XCx K) → XCx K → Py (XWorld σ K) (XCx K)
  | [], phi => pure phi
  | e :: es, phi => do
    let d ← xEdge est ctx e
    xSumEdges est ctx es (cadd phi d)

/-- the four oriented edges of a rectangle (argument_estimator.py 60-65) -/
def xEdges (re im : XNum K × XNum K) : List (XCx K × XCx K) :=
  [ (mkPoint re.1 im.1, mkPoint re.2 im.1)
  , (mkPoint re.2 im.1, mkPoint re.2 im.2)
  , (mkPoint re.2 im.2, mkPoint re.1 im.2)
  , (mkPoint re.1 im.2, mkPoint re.1 im.1) ]

/-- `estimator.calcMoment(0, reRan, imRan, context).real` (simple_holo.py 97-99, 205-207;
argument_estimator.py 27-79) -/
def xPhase (est : XLineEst σ K) (re im : XNum K × XNum K) (ctx : XCtx K) : Py (XWorld σ K) (XNum K) := do
  let m ← xSumEdges est ctx (xEdges re im) ⟨.fin 0, .fin 0⟩
  pure m.re

/-- `self.cache.remove(0, a, b)` -/
def xRemove (a b : XCx K) : Py (XWorld σ K) Unit := Py.modify fun w => { w with cache := del lineEq (a, b) w.cache }

/-- `decideRefinement` -/
abbrev XDecide (σ K : Type) := XNum K × XNum K → XNum K × XNum K → XNum K → XCtx K → Py (XWorld σ K) Unit

variable [FloorRing K]

/-- `getRootFromRectangle` (simple_holo.py 215-242): `int(np.round(phi / (2 * np.pi)))` raises `ValueError` for NaN
and `OverflowError` for an infinite phase -/
def xRootFromRectangle (pi : K) (right left top bottom phi : XNum K) : Py (XWorld σ K) Unit :=
  match phi with
  | .fin p => addPoints [(⟨XNum.mid left right, XNum.mid bottom top⟩, roundHalfEven (p / (2 * pi)))]
  | .nan => Py.throw .valueError
  | _ => Py.throw (.other 34)

/-- `SimpleArgumentAlgorithm.decideRefinement` (simple_holo.py 112-188) -/
def xSimple (est : XLineEst σ K) (pi : K) (self : XDecide σ K) : XDecide σ K := fun re im phi ctx =>
  let x1 := re.1
  let x2 := re.2
  let y1 := im.1
  let y2 := im.2
  let deltaRe := XNum.sub x2 x1
  let deltaIm := XNum.sub y2 y1
  let epsReal := eps10 K ctx.precision.1
  let epsImag := eps10 K ctx.precision.2
  if XNum.lt phi (.fin (TWO_PI pi)) then pure ()
  else if XNum.lt deltaRe (.fin epsReal) && XNum.lt deltaIm (.fin epsImag) then xRootFromRectangle pi x2 x1 y2 y1 phi
  else if XNum.lt (XNum.over deltaIm epsImag) (XNum.over deltaRe epsReal) then do
    let midPoint := XNum.mid x1 x2
    let phi1 ← xPhase est (x1, midPoint) (y1, y2) ctx
    self (x1, midPoint) (y1, y2) phi1 ctx
    xRemove (mkPoint x1 y2) (mkPoint x1 y1)
    let phi2 ← xPhase est (midPoint, x2) (y1, y2) ctx
    self (midPoint, x2) (y1, y2) phi2 ctx
    xRemove (mkPoint x2 y1) (mkPoint x2 y2)
  else do
    let midPoint := XNum.mid y1 y2
    let phi1 ← xPhase est (x1, x2) (y1, midPoint) ctx
    self (x1, x2) (y1, midPoint) phi1 ctx
    xRemove (mkPoint x1 y1) (mkPoint x2 y1)
    let phi2 ← xPhase est (x1, x2) (midPoint, y2) ctx
    self (x1, x2) (midPoint, y2) phi2 ctx
    xRemove (mkPoint x2 y2) (mkPoint x1 y2)

/-- the three argument based algorithms; `few` is what the Newton and the polynomial variant do in a rectangle with
few zeros (simple_holo_newton.py 68-101, polynomial_holo.py 73-103), an arbitrary computation -/
inductive XVariant (σ K : Type)
  | simple
  | newton (few : XNum K × XNum K → XNum K × XNum K → XNum K → XCtx K → Py (XWorld σ K) Unit)
  | polynomial (few : XNum K × XNum K → XNum K × XNum K → XNum K → XCtx K → Py (XWorld σ K) Unit)

/-- `decideRefinement` of the three algorithms (simple_holo.py 112-188, simple_holo_newton.py 29-103,
polynomial_holo.py 31-105) -/
def xDecide (est : XLineEst σ K) (pi : K) : XVariant σ K → XDecide σ K → XDecide σ K
  | .simple, self => xSimple est pi self
  | .newton few, self => fun re im phi ctx =>
    let small := XNum.lt (XNum.sub re.2 re.1) (xeps ctx.precision.1) && XNum.lt (XNum.sub im.2 im.1) (xeps ctx.precision.2)
    if XNum.lt (.fin (TWO_PI pi)) phi && small then xRootFromRectangle pi re.2 re.1 im.2 im.1 phi
    else if XNum.lt (.fin (TWO_PI pi)) phi && XNum.lt phi (.fin (FOUR_PI pi)) &&
        XNum.lt (XNum.sub re.2 re.1) (.fin (1 / 10)) && XNum.lt (XNum.sub im.2 im.1) (.fin (1 / 10)) then few re im phi ctx
    else xSimple est pi self re im phi ctx
  | .polynomial few, self => fun re im phi ctx =>
    let small := XNum.lt (XNum.sub re.2 re.1) (xeps ctx.precision.1) && XNum.lt (XNum.sub im.2 im.1) (xeps ctx.precision.2)
    if ctx.df.isNone then Py.throw .valueError
    else if XNum.lt (.fin (TWO_PI pi)) phi && small then xRootFromRectangle pi re.2 re.1 im.2 im.1 phi
    else if XNum.lt (.fin (TWO_PI pi)) phi && XNum.lt phi (.fin (MAX_PHASE pi)) then few re im phi ctx
    else xSimple est pi self re im phi ctx

/-- recursion with Python's recursion limit -/
def xDispatch (body : XDecide σ K → XDecide σ K) : ℕ → XDecide σ K
  | 0 => fun _ _ _ _ => Py.throw .recursionError
  | limit + 1 => body (xDispatch body limit)

/-- `calcRoots` (simple_holo.py 76-110); the cache is new or reset (simple_holo.py 92-96), so it is empty here -/
def xCalcRoots (est : XLineEst σ K) (pi : K) (variant : XVariant σ K) (limit : ℕ) (ctx : XCtx K) : Py (XWorld σ K) Unit := do
  Py.modify fun w => { w with cache := [] }
  let phi ← xPhase est ctx.reRan ctx.imRan ctx
  xDispatch (xDecide est pi variant) limit ctx.reRan ctx.imRan phi ctx

/-- the rectangle searched (`desymmetrizeDomain`, rootfinder.py 210-241) -/
def xDomain (re im : XNum K × XNum K) (precision : ℤ × ℤ) : (XNum K × XNum K) × (XNum K × XNum K) :=
  let r := XNum.sorted re.1 re.2
  let i := XNum.sorted im.1 im.2
  ((XNum.sub r.1 (.fin (eps10 K precision.1)), XNum.add r.2 (.fin (2 * eps10 K precision.1))),
   (XNum.sub i.1 (.fin (3 * eps10 K precision.2)), XNum.add i.2 (.fin (4 * eps10 K precision.2))))

/-- `RootFinder.calculateRoots` (rootfinder.py 112-170) of a finder whose algorithm is in state `est`: what it returns
or raises, and what its container received -/
def xCalculateRoots (est : XLineEst σ K) (pi : K) (variant : XVariant σ K) (limit : ℕ) (f : XCx K → XCx K)
    (df : Option (XCx K → XCx K)) (state : σ) (re im : XNum K × XNum K) (precision : ℤ × ℤ) :
    Except Err Unit × List (XCx K × ℤ) :=
  let p := (precision.1 + 1, precision.2 + 1)
  let r := xCalcRoots est pi variant limit ⟨f, df, p, (xDomain re im p).1, (xDomain re im p).2⟩ ⟨[], state, []⟩
  (r.1, r.2.added)

/-! ## The parallel finder -/

/-- `np.linspace(a, b, n)` for real numbers (parallel_finder.py 194-195) -/
def xLinspaceR (a b : XNum K) : ℕ → List (XNum K)
  | 0 => []
  | 1 => [a]
  | n + 2 =>
    (List.range (n + 1)).map (fun (k : ℕ) =>
      XNum.add a (XNum.scale (k : K) (XNum.over (XNum.sub b a) ((n : K) + 1)))) ++ [b]

/-- `ParallelRootFinder.createRootJobs` (parallel_finder.py 171-218) -/
def xCreateRootJobs (f : XCx K → XCx K) (df : Option (XCx K → XCx K)) (numProcesses : ℕ) (re im : XNum K × XNum K)
    (precision : ℤ × ℤ) : List (XCtx K) :=
  let realPts := xLinspaceR re.1 re.2 (numProcesses + 1)
  let imagPts := xLinspaceR im.1 im.2 (numProcesses + 1)
  (List.range (realPts.length - 1)).flatMap fun (i : ℕ) =>
    (List.range (imagPts.length - 1)).map fun (j : ℕ) =>
      { f := f, df := df, precision := precision,
        reRan := (realPts.getD i .nan, realPts.getD (i + 1) .nan),
        imRan := (imagPts.getD j .nan, imagPts.getD (j + 1) .nan) }

/-- the jobs of one piece, one after the other, in one child process; an exception ends the piece
(parallel_finder.py 220-229) -/
def xRunJobs (algorithm : XCtx K → Py (XWorld σ K) Unit) : List (XCtx K) → Py (XWorld σ K) Unit
  | [] => pure ()
  | ctx :: rest => do
    algorithm ctx
    xRunJobs algorithm rest

/-- `ParallelRootFinder.calculateRoots` (parallel_finder.py 92-169) of a finder whose algorithm is in state `est`: what it
returns or raises, and what is transferred to its container, in order (the filters and the container are left out);
`chunks`, `deliver`, `firstFailure`, `Schedule` as in Model/Finder.lean -/
def xCalculateRootsParallel (est : XLineEst σ K) (pi : K) (variant : XVariant σ K) (limit : ℕ) (f : XCx K → XCx K)
    (df : Option (XCx K → XCx K)) (state : σ) (cpus : ℕ) (re im : XNum K × XNum K) (precision : ℤ × ℤ)
    (sched : Schedule) : Except Err Unit × List (XCx K × ℤ) :=
  let p := (precision.1 + 1, precision.2 + 1)
  let d := xDomain re im p
  let jobs := xCreateRootJobs f df cpus d.1 d.2 p
  let results := (chunks cpus jobs.length jobs).map fun piece =>
    let r := xRunJobs (xCalcRoots est pi variant limit) piece ⟨[], state, []⟩
    (r.1, r.2.added)
  let queues := deliver (results.map Prod.snd) sched.turns
  if sched.interrupted then (.ok (), queues.1)
  else match firstFailure sched (results.map Prod.fst) with
    | .ok _ => (.ok (), queues.1 ++ queues.2.flatten)
    | .error e => (.error e, [])

/-! ## Summation estimator -/

/-- points and phase increments -/
abbrev XLine (K : Type) := List (XCx K) × List (XNum K)

/-- `tCache` (sum_estimator.py 20-26), for order 0 -/
abbrev XLineCache (K : Type) := XDict (XNum K) (XDict (XNum K × Side) (XLine K))

/-- the internal caches (sum_estimator.py 70-71) -/
structure XSumState (K : Type) where
  horizontal : XLineCache K
  vertical : XLineCache K

/-- Settings of a `SummationEstimator` (sum_estimator.py 65-67) and the external operations: `phase a b` is
`np.arctan2` of the quotient of function values `b / a`, `dist a b` is `abs(a - b)`. -/
structure XSumCfg (K : Type) where
  numPts : ℕ
  deltaPhi : K
  maxPrecision : K
  phase : XCx K → XCx K → XNum K
  dist : XCx K → XCx K → XNum K
  evals : ℕ → ℕ
  steps : ℕ

/-- equality of the inner keys -/
def sideEq (p q : XNum K × Side) : Bool := XNum.eq p.1 q.1 && decide (p.2 = q.2)

/-- `np.arctan2` of the quotients `funcArr[1:] / funcArr[:-1]` (sum_estimator.py 273-275, 306-307) -/
def xPhases (phase : XCx K → XCx K → XNum K) (fs : List (XCx K)) : List (XNum K) := List.zipWith phase fs fs.tail

/-- the `while` loop of `genPhiArr` (sum_estimator.py 279-319); `int` of an infinite number raises `OverflowError` -/
def xRefineLoop (cfg : XSumCfg K) (ctx : XCtx K) :
    ℕ → ℕ → List (XCx K) → List (XNum K) → Py (XWorld (XSumState K) K) (XLine K)
  | 0, _, _, _ => Py.throw .outOfFuel
  | n + 1, idx, zArr, phiArr =>
    match whereFrom (fun p => XNum.le (.fin cfg.deltaPhi) (XNum.abs p)) 0 phiArr with
    | [] => pure (zArr, phiArr)
    | k :: _ =>
      let zk := zArr.getD k ⟨.nan, .nan⟩
      let zk1 := zArr.getD (k + 1) ⟨.nan, .nan⟩
      if XNum.lt (cfg.dist zk zk1) (.fin cfg.maxPrecision) then pure (zArr, phiArr)
      else if maxZLength * cfg.numPts < zArr.length then pure (zArr, phiArr)
      else match XNum.abs (phiArr.getD k .nan) with
        | .fin p => do
          let factor := ⌊((idx + 1 : ℕ) : K) * (zRefine : K) * p / cfg.deltaPhi⌋.toNat
          let r ← xFuncArr cfg.evals zk zk1 ctx factor
          xRefineLoop cfg ctx n (idx + 1)
            (zArr.take (k + 1) ++ (r.1.drop 1).dropLast ++ zArr.drop (k + 1))
            (phiArr.take k ++ xPhases cfg.phase r.2 ++ phiArr.drop (k + 1))
        | _ => Py.throw (.other 34)

/-- `genPhiArr` (sum_estimator.py 245-319) -/
def xPhiArr (cfg : XSumCfg K) (zStart zEnd : XCx K) (ctx : XCtx K) : Py (XWorld (XSumState K) K) (XLine K) := do
  let r ← xFuncArr cfg.evals zStart zEnd ctx cfg.numPts
  xRefineLoop cfg ctx cfg.steps 0 r.1 (xPhases cfg.phase r.2)

/-- `storeCache` (sum_estimator.py 321-344; 177-178, 240-241) -/
def xStore (c : XLineCache K) (z lo hi : XNum K) (v : XLine K) : XLineCache K :=
  let inner := (lookup XNum.eq z c).getD []
  put XNum.eq z (put sideEq (hi, .stop) v (put sideEq (lo, .start) v inner)) c

/-- the lookups in the internal caches (sum_estimator.py 135-140, 154-158 and 199-204, 218-222) -/
def xCached (c : XLineCache K) (z lo hi : XNum K) : Option (Side × XLine K) :=
  match lookup XNum.eq z c with
  | none => none
  | some inner =>
    match lookup sideEq (lo, .start) inner with
    | some v => some (.start, v)
    | none => (lookup sideEq (hi, .stop) inner).map fun v => (.stop, v)

/-- start of the line cached (sum_estimator.py 141-151, 205-215) -/
def xCutEnd (proj : XCx K → XNum K) (v : XLine K) (hi : XNum K) : Option (XLine K) :=
  let indices := whereFrom (fun z => XNum.le (proj z) hi) 0 v.1
  if indices.length < 3 then none
  else
    let m := indices.getLastD 0
    some (v.1.take (m + 1), v.2.take (m + 1))

/-- end of a horizontal line cached (sum_estimator.py 160-170) -/
def xCutStartH (v : XLine K) (lo : XNum K) : Option (XLine K) :=
  let indices := whereFrom (fun z => XNum.le lo z.re) 0 v.1
  if indices.length < 3 then none
  else
    let m := indices.headD 0
    some (v.1.drop m, v.2.drop m)

/-- end of a vertical line cached (sum_estimator.py 223-233) -/
def xCutStartV (v : XLine K) (lo hi : XNum K) : Except Err (Option (XLine K)) :=
  if (whereFrom (fun z => XNum.le z.im hi) 0 v.1).length < 3 then .ok none
  else
    match whereFrom (fun z => XNum.le lo z.im) 0 v.1 with
    | [] => .error .indexError
    | m :: _ => .ok (some (v.1.drop m, v.2.drop m))

/-- the slice of a cached horizontal line that is reused (sum_estimator.py 135-176) -/
def xReuseH (c : XLineCache K) (lo hi y : XNum K) : Option (XLine K) :=
  match xCached c y lo hi with
  | none => none
  | some (.start, v) => xCutEnd Cx.re v hi
  | some (.stop, v) => xCutStartH v lo

/-- the slice of a cached vertical line that is reused (sum_estimator.py 199-239) -/
def xReuseV (c : XLineCache K) (lo hi x : XNum K) : Except Err (Option (XLine K)) :=
  match xCached c x lo hi with
  | none => .ok none
  | some (.start, v) => .ok (xCutEnd Cx.im v hi)
  | some (.stop, v) => xCutStartV v lo hi

/-- use the slice or sample the line -/
def xSliceOrSample (cfg : XSumCfg K) (zStart zEnd : XCx K) (ctx : XCtx K) :
    Option (XLine K) → Py (XWorld (XSumState K) K) (XLine K)
  | some v => pure v
  | none => xPhiArr cfg zStart zEnd ctx

/-- `sign * newValue[1].sum()` as a complex number; `sign = 1 if x1 < x2 else -1` (sum_estimator.py 133, 153) -/
def xSigned (a b : XNum K) (phis : List (XNum K)) : XCx K :=
  ⟨XNum.scale (if XNum.lt a b then 1 else -1) (XNum.sum phis), .fin 0⟩

/-- `retrieveCachedHorizontal` (sum_estimator.py 117-180) -/
def xHorizontal (cfg : XSumCfg K) (x1 x2 y : XNum K) (ctx : XCtx K) : Py (XWorld (XSumState K) K) (XCx K) := do
  let w ← Py.get
  let s := XNum.sorted x1 x2
  let v ← xSliceOrSample cfg (mkPoint s.1 y) (mkPoint s.2 y) ctx (xReuseH w.est.horizontal s.1 s.2 y)
  Py.modify fun w => { w with est := { w.est with horizontal := xStore w.est.horizontal y s.1 s.2 v } }
  pure (xSigned x1 x2 v.2)

/-- an optional slice or a raised error, as a computation -/
def xLift : Except Err (Option (XLine K)) → Py (XWorld (XSumState K) K) (Option (XLine K))
  | .ok v => pure v
  | .error e => Py.throw e

/-- `retrieveCachedVertical` (sum_estimator.py 182-243) -/
def xVertical (cfg : XSumCfg K) (y1 y2 x : XNum K) (ctx : XCtx K) : Py (XWorld (XSumState K) K) (XCx K) := do
  let w ← Py.get
  let s := XNum.sorted y1 y2
  let r ← xLift (xReuseV w.est.vertical s.1 s.2 x)
  let v ← xSliceOrSample cfg (mkPoint x s.1) (mkPoint x s.2) ctx r
  Py.modify fun w => { w with est := { w.est with vertical := xStore w.est.vertical x s.1 s.2 v } }
  pure (xSigned y1 y2 v.2)

/-- `SummationEstimator.calcMomentAlongLine` (sum_estimator.py 80-115) -/
def xSumLine (cfg : XSumCfg K) : XLineEst (XSumState K) K := fun a b ctx =>
  if XNum.eq a.im b.im then xHorizontal cfg a.re b.re a.im ctx
  else if XNum.eq a.re b.re then xVertical cfg a.im b.im a.re ctx
  else Py.throw .valueError

/-! ## Quadrature estimator -/

/-- External operations of the quadrature estimator: `quot d v` is `df(z) * z**0 / f(z)` of the two values, `romb`
is `scipy.integrate.romb`, `dist a b` is `abs(b - a)`. -/
structure XQuadCfg (K : Type) where
  quot : XCx K → XCx K → XCx K
  romb : List (XNum K) → XNum K → XNum K
  dist : XCx K → XCx K → XNum K
  evals : ℕ → ℕ
  steps : ℕ

/-- `genFuncArr` followed by the formation of the logarithmic derivative (quad_estimator.py 66-69, 82-87, 95-98) -/
def xQuadSample (cfg : XQuadCfg K) (df : XCx K → XCx K) (a b : XCx K) (ctx : XCtx K) (size : ℕ) :
    Py (XWorld σ K) (List (XCx K) × List (XCx K)) := do
  let r ← xFuncArr cfg.evals a b ctx size
  pure (r.1, List.zipWith (fun z v => cfg.quot (df z) v) r.1 r.2)

/-- `romb(y, dx)`: raises `ValueError` unless the number of samples is one plus a power of two -/
def xRombPy (romb : List (XNum K) → XNum K → XNum K) (y : List (XNum K)) (dx : XNum K) : Py (XWorld σ K) (XNum K) :=
  if 2 ^ Nat.log2 (y.length - 1) + 1 = y.length then pure (romb y dx) else Py.throw .valueError

/-- quad_estimator.py 72-73, 100-101 -/
def xQuadRomb (cfg : XQuadCfg K) (fs : List (XCx K)) (dx : XNum K) : Py (XWorld σ K) (XNum K × XNum K) := do
  let r ← xRombPy cfg.romb (fs.map Cx.re) dx
  let i ← xRombPy cfg.romb (fs.map Cx.im) dx
  pure (r, i)

/-- the local variables of the loop (quad_estimator.py 65-108) -/
structure XQuadVars (K : Type) where
  zStart : XCx K
  zEnd : XCx K
  samplePts : ℕ
  zArr : List (XCx K)
  funcArr : List (XCx K)
  result : XNum K × XNum K

/-- `mergeArrays` for one of the two arrays (quad_estimator.py 129-132) -/
def xMerge {α : Type} (old new : List α) : Py (XWorld σ K) (List α) :=
  if old.dropLast.length = new.length then
    match old.getLast? with
    | some l => pure (interleave old.dropLast new ++ [l])
    | none => Py.throw .indexError
  else Py.throw .valueError

/-- `(z + w) / 2` -/
def cmid (z w : XCx K) : XCx K := ⟨XNum.mid z.re w.re, XNum.mid z.im w.im⟩

/-- one refinement of the sample arrays (quad_estimator.py 78-98) -/
def xQuadRefine (cfg : XQuadCfg K) (df : XCx K → XCx K) (ctx : XCtx K) (v : XQuadVars K) :
    Py (XWorld σ K) (XQuadVars K) :=
  if expSamplePoints + 2 ≤ v.samplePts then do
    let zStart := cmid (v.zArr.getD 0 ⟨.nan, .nan⟩) (v.zArr.getD 1 ⟨.nan, .nan⟩)
    let zEnd := cmid (v.zArr.getD (v.zArr.length - 1) ⟨.nan, .nan⟩) (v.zArr.getD (v.zArr.length - 2) ⟨.nan, .nan⟩)
    let new ← xQuadSample cfg df zStart zEnd ctx (2 ^ v.samplePts)
    let z ← xMerge v.zArr new.1
    let fs ← xMerge v.funcArr new.2
    pure { v with zStart, zEnd, zArr := z, funcArr := fs, samplePts := v.samplePts + 1 }
  else do
    let r ← xQuadSample cfg df v.zStart v.zEnd ctx (2 ^ (v.samplePts + 1) + 1)
    pure { v with zArr := r.1, funcArr := r.2, samplePts := v.samplePts + 1 }

/-- `abs(new - old) < 1e-3` -/
def xClose (new old : XNum K) : Bool := XNum.lt (XNum.abs (XNum.sub new old)) (.fin (1 / 1000))

/-- the loop (quad_estimator.py 74-108) -/
def xQuadLoop (cfg : XQuadCfg K) (df : XCx K → XCx K) (ctx : XCtx K) (distance : XNum K) :
    ℕ → XQuadVars K → Py (XWorld σ K) (XQuadVars K)
  | 0, _ => Py.throw .outOfFuel
  | fuel + 1, v =>
    if v.samplePts ≤ maxSamplePoints then do
      let v' ← xQuadRefine cfg df ctx v
      let new ← xQuadRomb cfg v'.funcArr (XNum.over distance (2 ^ v'.samplePts))
      if xClose new.1 v.result.1 && xClose new.2 v.result.2 then pure v'
      else xQuadLoop cfg df ctx distance fuel { v' with result := new }
    else pure v

/-- `1 / x` -/
def xInv : XNum K → XNum K
  | .fin x => .fin x⁻¹
  | .nan => .nan
  | _ => .fin 0

/-- `complex((zEnd - zStart) * (-1j * realResult + imagResult) / distance)` (quad_estimator.py 111-113): the second
factor is `(0 * realResult + imagResult) - realResult * 1j`; simplified: division as multiplication by the inverse -/
def xQuadResult (zStart zEnd : XCx K) (result : XNum K × XNum K) (distance : XNum K) : XCx K :=
  let dx := XNum.sub zEnd.re zStart.re
  let dy := XNum.sub zEnd.im zStart.im
  let a := XNum.add (XNum.scale 0 result.1) result.2
  let b := XNum.neg result.1
  ⟨XNum.mul (XNum.sub (XNum.mul dx a) (XNum.mul dy b)) (xInv distance),
   XNum.mul (XNum.add (XNum.mul dx b) (XNum.mul dy a)) (xInv distance)⟩

/-- `QuadratureEstimator.calcMomentAlongLine` (quad_estimator.py 40-113), order 0 -/
def xQuadLine (cfg : XQuadCfg K) : XLineEst σ K := fun a b ctx =>
  match ctx.df with
  | none => Py.throw .valueError
  | some df => do
    let r ← xQuadSample cfg df a b ctx (2 ^ expSamplePoints + 1)
    let distance := cfg.dist a b
    let res ← xQuadRomb cfg r.2 (XNum.over distance (2 ^ expSamplePoints))
    let v ← xQuadLoop cfg df ctx distance cfg.steps
      { zStart := a, zEnd := b, samplePts := expSamplePoints, zArr := r.1, funcArr := r.2, result := res }
    pure (xQuadResult v.zStart v.zEnd v.result distance)

end
end Ext
end PyZeal
