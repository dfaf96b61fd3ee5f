import Verif.Model.Finder
import Verif.Model.Quadrature
import Verif.Model.Summation

/-! # Model of searches whose user supplied functions raise

The same code as in Model/Estimator.lean, Model/Summation.lean, Model/Quadrature.lean, Model/Algorithms.lean and
Model/Finder.lean, for user supplied functions which may raise: the target function, the derivative, the filters. Only the
definitions in which these functions are called are given anew; `World`, the caches and the slicing of lines are the same. -/

namespace PyZeal
variable {K σ : Type}

/-- Which calls of the user's functions raise: `f zs` tells whether `context.f(zs)` raises for the array `zs` (argument_estimator.py
118, 138), `df zs` the same for `context.df(zs)` (quad_estimator.py 69, 86, 98), `add r` whether a filter raises when the root
`r` is offered to the container (rounding_container.py 67). The values where nothing is raised are those of the functions in the
context. -/
structure Raises (K : Type) where
  f : List (Cx K) → Option Err
  df : List (Cx K) → Option Err
  add : Root K → Option Err

/-- raise the exception if there is one -/
def raiseIf : Option Err → Py σ Unit
  | none => pure ()
  | some e => Py.throw e

/-- `context.container.addRoot(root, ...)` with filters which may raise: the container is then left alone (C111). -/
def addRootR (R : Raises K) (r : Root K) : Py (World σ K) Unit := do
  raiseIf (R.add r)
  World.addRoot r

/-- a Python `for` loop over `addRoot` -/
def addRootsR (R : Raises K) : List (Root K) → Py (World σ K) Unit
  | [] => pure ()
  | r :: rs => do addRootR R r; addRootsR R rs

/-! ## Sampling -/

section
variable [Field K] [DecidableEq K]

/-- the `while` loop of `genFuncArr` (argument_estimator.py 118-139), see `genFuncLoop` -/
def genFuncLoopR (R : Raises K) (f : Cx K → Cx K) (shift : Cx K) :
    ℕ → List (Cx K) → Py (World σ K) (List (Cx K) × List (Cx K))
  | 0, _ => Py.throw .outOfFuel
  | n + 1, zArr => do
    raiseIf (R.f zArr)
    let zeros := zArr.filter fun z => decide (f z = 0)
    if zeros.isEmpty then pure (zArr, zArr.map f)
    else do
      addRootsR R (zeros.map fun z => (z, 0))
      genFuncLoopR R f shift n (zArr.map (· + shift))

/-- `ArgumentEstimator.genFuncArr` (argument_estimator.py 110-141) -/
def genFuncArrR (R : Raises K) (fuel : ℕ → ℕ) (zStart zEnd : Cx K) (ctx : RCtx K) (size : ℕ) :
    Py (World σ K) (List (Cx K) × List (Cx K)) :=
  genFuncLoopR R ctx.f (lineShift zStart zEnd ctx.precision) (fuel size) (linspace zStart zEnd size)

end

/-! ## Phase summation -/

section
variable [Field K] [LinearOrder K] [FloorRing K]

/-- the `while` loop of `genPhiArr` (sum_estimator.py 279-319), see `refineLoop` -/
def refineLoopR (R : Raises K) (cfg : SumCfg K) (ctx : RCtx K) :
    ℕ → ℕ → List (Cx K) → List K → Py (World (SumState K) K) (PhiLine K)
  | 0, _, _, _ => Py.throw .outOfFuel
  | n + 1, idx, zArr, phiArr =>
    match whereFrom (fun p => decide (cfg.deltaPhi ≤ |p|)) 0 phiArr with
    | [] => pure (zArr, phiArr)
    | k :: _ =>
      let zk := zArr.getD k 0
      let zk1 := zArr.getD (k + 1) 0
      if 0 < cfg.maxPrecision ∧ (zk - zk1).normSq < cfg.maxPrecision ^ 2 then
        pure (zArr, phiArr)
      else if maxZLength * cfg.numPts < zArr.length then pure (zArr, phiArr)
      else do
        let factor := ⌊((idx + 1 : ℕ) : K) * (zRefine : K) * |phiArr.getD k 0| / cfg.deltaPhi⌋.toNat
        let r ← genFuncArrR R cfg.evals zk zk1 ctx factor
        refineLoopR R cfg ctx n (idx + 1)
          (zArr.take (k + 1) ++ (r.1.drop 1).dropLast ++ zArr.drop (k + 1))
          (phiArr.take k ++ phases cfg.arg r.2 ++ phiArr.drop (k + 1))

/-- `genPhiArr` (sum_estimator.py 245-319) -/
def genPhiArrR (R : Raises K) (cfg : SumCfg K) (order : ℤ) (zStart zEnd : Cx K) (ctx : RCtx K) :
    Py (World (SumState K) K) (PhiLine K) :=
  if order ≠ 0 then Py.throw .notImplementedError
  else do
    let r ← genFuncArrR R cfg.evals zStart zEnd ctx cfg.numPts
    refineLoopR R cfg ctx cfg.steps 0 r.1 (phases cfg.arg r.2)

/-- use the slice or sample the line -/
def sliceOrSampleR (R : Raises K) (cfg : SumCfg K) (order : ℤ) (zStart zEnd : Cx K) (ctx : RCtx K) :
    Option (PhiLine K) → Py (World (SumState K) K) (PhiLine K)
  | some v => pure v
  | none => genPhiArrR R cfg order zStart zEnd ctx

/-- `retrieveCachedHorizontal` (sum_estimator.py 117-180) -/
def retrieveCachedHorizontalR (R : Raises K) (cfg : SumCfg K) (order : ℤ) (x1 x2 y : K) (ctx : RCtx K) :
    Py (World (SumState K) K) (Cx K) := do
  let w ← Py.get
  let lo := min x1 x2
  let hi := max x1 x2
  let v ← sliceOrSampleR R cfg order ⟨lo, y⟩ ⟨hi, y⟩ ctx (reuseH w.est.horizontal order lo hi y)
  Py.modify fun w =>
    { w with est := { w.est with horizontal := storeCache w.est.horizontal y order lo hi v } }
  pure (Cx.ofK (lineSign x1 x2 * v.2.sum))

/-- `retrieveCachedVertical` (sum_estimator.py 182-243) -/
def retrieveCachedVerticalR (R : Raises K) (cfg : SumCfg K) (order : ℤ) (y1 y2 x : K) (ctx : RCtx K) :
    Py (World (SumState K) K) (Cx K) := do
  let w ← Py.get
  let lo := min y1 y2
  let hi := max y1 y2
  let r ← liftReuse (reuseV w.est.vertical order lo hi x)
  let v ← sliceOrSampleR R cfg order ⟨x, lo⟩ ⟨x, hi⟩ ctx r
  Py.modify fun w =>
    { w with est := { w.est with vertical := storeCache w.est.vertical x order lo hi v } }
  pure (Cx.ofK (lineSign y1 y2 * v.2.sum))

/-- `SummationEstimator.calcMomentAlongLine` (sum_estimator.py 80-115) -/
def sumLineR (R : Raises K) (cfg : SumCfg K) : LineEst (SumState K) K := fun order zStart zEnd ctx =>
  if zStart.im = zEnd.im then
    retrieveCachedHorizontalR R cfg order zStart.re zEnd.re zStart.im ctx
  else if zStart.re = zEnd.re then
    retrieveCachedVerticalR R cfg order zStart.im zEnd.im zStart.re ctx
  else Py.throw .valueError

end

/-! ## Quadrature -/

section
variable [Field K] [LinearOrder K] [IsStrictOrderedRing K]

/-- `genFuncArr` and the logarithmic derivative (quad_estimator.py 66-69, 82-87, 95-98) -/
def quadSampleR (R : Raises K) (cfg : QuadCfg K) (df : Cx K → Cx K) (order : ℤ) (a b : Cx K) (ctx : RCtx K) (size : ℕ) :
    Py (World σ K) (List (Cx K) × List (Cx K)) := do
  let r ← genFuncArrR R cfg.evals a b ctx size
  raiseIf (R.df r.1)
  pure (r.1, logDeriv df order r.1 r.2)

/-- one refinement of the sample arrays (quad_estimator.py 78-98) -/
def quadRefineR (R : Raises K) (cfg : QuadCfg K) (df : Cx K → Cx K) (order : ℤ) (ctx : RCtx K) (v : QuadVars K) :
    Py (World σ K) (QuadVars K) :=
  if expSamplePoints + 2 ≤ v.samplePts then do
    let zStart := Cx.divK (v.zArr.getD 0 0 + v.zArr.getD 1 0) 2
    let zEnd := Cx.divK (v.zArr.getD (v.zArr.length - 1) 0 + v.zArr.getD (v.zArr.length - 2) 0) 2
    let new ← quadSampleR R cfg df order zStart zEnd ctx (2 ^ v.samplePts)
    let m ← mergeArrays (v.zArr, v.funcArr) new
    pure { v with zStart, zEnd, zArr := m.1, funcArr := m.2, samplePts := v.samplePts + 1 }
  else do
    let r ← quadSampleR R cfg df order v.zStart v.zEnd ctx (2 ^ (v.samplePts + 1) + 1)
    pure { v with zArr := r.1, funcArr := r.2, samplePts := v.samplePts + 1 }

/-- the loop in `calcMomentAlongLine` (quad_estimator.py 74-108) -/
def quadLoopR (R : Raises K) (cfg : QuadCfg K) (df : Cx K → Cx K) (order : ℤ) (ctx : RCtx K) (distance : K) :
    ℕ → QuadVars K → Py (World σ K) (QuadVars K)
  | 0, _ => Py.throw .outOfFuel
  | fuel + 1, v =>
    if v.samplePts ≤ maxSamplePoints then do
      let v' ← quadRefineR R cfg df order ctx v
      let new ← quadRomb cfg v'.funcArr (distance / 2 ^ v'.samplePts)
      if |new.1 - v.result.1| < 1 / 1000 ∧ |new.2 - v.result.2| < 1 / 1000 then pure v'
      else quadLoopR R cfg df order ctx distance fuel { v' with result := new }
    else pure v

/-- `QuadratureEstimator.calcMomentAlongLine` (quad_estimator.py 40-113) -/
def quadLineR (R : Raises K) (cfg : QuadCfg K) : LineEst σ K := fun order a b ctx =>
  match ctx.df with
  | none => Py.throw .valueError
  | some df => do
    let r ← quadSampleR R cfg df order a b ctx (2 ^ expSamplePoints + 1)
    let distance := cfg.abs (b - a)
    let res ← quadRomb cfg r.2 (distance / 2 ^ expSamplePoints)
    let v ← quadLoopR R cfg df order ctx distance cfg.steps
      { zStart := a, zEnd := b, samplePts := expSamplePoints, zArr := r.1, funcArr := r.2, result := res }
    pure (Cx.divK ((v.zEnd - v.zStart) * (⟨0, -1⟩ * Cx.ofK v.result.1 + Cx.ofK v.result.2)) distance)

end

/-! ## Algorithms -/

/-- `scipy.optimize.newton` for functions which may raise: the exceptions of the functions come out of it unchanged,
`RuntimeError` also stands for no convergence. See `NewtonSolver`. -/
structure NewtonSolverR (K : Type) where
  secant : (Cx K → Cx K) → Cx K → Cx K → K → Except Err (Cx K)
  newton : (Cx K → Cx K) → (Cx K → Cx K) → Cx K → K → Except Err (Cx K)
  grid : (Cx K → Cx K) → List (Cx K) → Option (Cx K → Cx K) → Except Err (List (Cx K))

/-- the result of a call, as a computation -/
def liftCall {α : Type} : Except Err α → Py σ α
  | .ok a => pure a
  | .error e => Py.throw e

section
variable [Field K] [LinearOrder K] [FloorRing K]

/-- `getRootFromRectangle` (simple_holo.py 215-242) -/
def getRootFromRectangleR (R : Raises K) (pi right left top bottom phi : K) (ctx : RCtx K) : Py (World σ K) Unit := do
  addRootR R (Cx.divK ⟨left + right, bottom + top⟩ 2, roundHalfEven (phi / (2 * pi)))
  World.advance ctx ((right - left) * (0 - 0))

/-- `SimpleArgumentAlgorithm.decideRefinement` (simple_holo.py 112-188) -/
def simpleDecideR (R : Raises K) (est : LineEst σ K) (pi : K) (self : Decide σ K) : Decide σ K := fun re im phi ctx =>
  let x1 := re.1
  let x2 := re.2
  let y1 := im.1
  let y2 := im.2
  let deltaRe := x2 - x1
  let deltaIm := y2 - y1
  let epsReal := eps10 K ctx.precision.1
  let epsImag := eps10 K ctx.precision.2
  if phi < TWO_PI pi then World.advance ctx (deltaRe * deltaIm)
  else if deltaRe < epsReal ∧ deltaIm < epsImag then getRootFromRectangleR R pi x2 x1 y2 y1 phi ctx
  else if deltaRe / epsReal > deltaIm / epsImag then do
    let midPoint := (x1 + x2) / 2
    let phi1 ← phaseOf est (x1, midPoint) (y1, y2) ctx
    self (x1, midPoint) (y1, y2) phi1 ctx
    cacheRemove ⟨x1, y2⟩ ⟨x1, y1⟩
    let phi2 ← phaseOf est (midPoint, x2) (y1, y2) ctx
    self (midPoint, x2) (y1, y2) phi2 ctx
    cacheRemove ⟨x2, y1⟩ ⟨x2, y2⟩
  else do
    let midPoint := (y1 + y2) / 2
    let phi1 ← phaseOf est (x1, x2) (y1, midPoint) ctx
    self (x1, x2) (y1, midPoint) phi1 ctx
    cacheRemove ⟨x1, y1⟩ ⟨x2, y1⟩
    let phi2 ← phaseOf est (x1, x2) (midPoint, y2) ctx
    self (x1, x2) (midPoint, y2) phi2 ctx
    cacheRemove ⟨x2, y2⟩ ⟨x1, y2⟩

/-- `SimpleArgumentAlgorithm` (simple_holo.py 76-188) -/
def simpleArgumentR (R : Raises K) (est : LineEst σ K) (pi : K) (limit : ℕ) (ctx : RCtx K) : Py (World σ K) Unit :=
  calcRoots est (simpleDecideR R est pi) limit ctx

/-- the `try` block (simple_holo_newton.py 68-93) -/
def newtonBlockR (R : Raises K) (nt : NewtonSolverR K) (re im : K × K) (ctx : RCtx K) : Py (World σ K) Unit := do
  let tol := min (eps10 K ctx.precision.1) (eps10 K ctx.precision.2)
  let z ← liftCall (nt.secant ctx.f ⟨re.1, 1 / 2 * (im.1 + im.2)⟩ ⟨re.2, 1 / 2 * (im.1 + im.2)⟩ tol)
  addRootR R (z, 1)
  match ctx.df with
  | none => pure ()
  | some df => do
    let z ← liftCall (nt.newton ctx.f df ⟨(re.1 + re.2) * (1 / 2), (im.1 + im.2) * (1 / 2)⟩ tol)
    addRootR R (z, 1)

/-- `SimpleArgumentNewtonAlgorithm.decideRefinement` (simple_holo_newton.py 29-103); `except RuntimeError` (94) catches such
exceptions of the user's functions, too -/
def newtonDecideR (R : Raises K) (nt : NewtonSolverR K) (est : LineEst σ K) (pi : K) (self : Decide σ K) : Decide σ K :=
  fun re im phi ctx =>
    let deltaRe := re.2 - re.1
    let deltaIm := im.2 - im.1
    let epsReal := eps10 K ctx.precision.1
    let epsImag := eps10 K ctx.precision.2
    if phi > TWO_PI pi ∧ deltaRe < epsReal ∧ deltaIm < epsImag then
      getRootFromRectangleR R pi re.2 re.1 im.2 im.1 phi ctx
    else if TWO_PI pi < phi ∧ phi < FOUR_PI pi ∧ deltaRe < 1 / 10 ∧ deltaIm < 1 / 10 then
      Py.tryFinally (Py.exceptRuntimeError (newtonBlockR R nt re im ctx))
        (World.advance ctx (deltaRe * deltaIm))
    else simpleDecideR R est pi self re im phi ctx

/-- `SimpleArgumentNewtonAlgorithm` -/
def simpleArgumentNewtonR (R : Raises K) (nt : NewtonSolverR K) (est : LineEst σ K) (pi : K) (limit : ℕ) (ctx : RCtx K) :
    Py (World σ K) Unit :=
  calcRoots est (newtonDecideR R nt est pi) limit ctx

/-- `AssociatedPolynomialAlgorithm.decideRefinement` (polynomial_holo.py 31-105) -/
def polynomialDecideR (R : Raises K) (polyRoots : List (Cx K) → List (Cx K)) (est : LineEst σ K) (pi : K)
    (self : Decide σ K) : Decide σ K := fun re im phi ctx =>
  match ctx.df with
  | none => Py.throw .valueError
  | some _ =>
    let deltaRe := re.2 - re.1
    let deltaIm := im.2 - im.1
    let epsReal := eps10 K ctx.precision.1
    let epsImag := eps10 K ctx.precision.2
    if phi > TWO_PI pi ∧ deltaRe < epsReal ∧ deltaIm < epsImag then
      getRootFromRectangleR R pi re.2 re.1 im.2 im.1 phi ctx
    else if TWO_PI pi < phi ∧ phi < MAX_PHASE pi then do
      let degree := (roundHalfEven (phi / (2 * pi))).toNat
      let ms ← moments est pi re im ctx ((List.range degree).map fun (k : ℕ) => (k : ℤ) + 1)
      let r := getRootsWithOrders (polyRoots (coefficientsFromMoments ms)) ctx.precision
      addRootsR R (r.1.zip r.2)
      World.advance ctx (deltaRe * deltaIm)
    else simpleDecideR R est pi self re im phi ctx

/-- `AssociatedPolynomialAlgorithm` -/
def associatedPolynomialR (R : Raises K) (polyRoots : List (Cx K) → List (Cx K)) (est : LineEst σ K) (pi : K) (limit : ℕ)
    (ctx : RCtx K) : Py (World σ K) Unit :=
  calcRoots est (polynomialDecideR R polyRoots est pi) limit ctx

/-- `NewtonGridAlgorithm.calcRoots` (newton_grid.py 44-84): the `try` block contains the call of the solver only -/
def newtonGridR (R : Raises K) (nt : NewtonSolverR K) (numSamplePoints : ℕ) (taskTruthy : Bool) (ctx : RCtx K) :
    Py (World σ K) Unit :=
  match nt.grid ctx.f (gridPoints ctx.reRan ctx.imRan numSamplePoints) ctx.df with
  | .error .runtimeError => pure ()
  | .error e => Py.throw e
  | .ok roots => do
    addRootsR R (roots.map fun z => (z, 0))
    if taskTruthy then
      World.advance ctx ((ctx.reRan.2 - ctx.reRan.1) * (ctx.imRan.2 - ctx.imRan.1))
    else pure ()

end

/-! ## The transfer of the parallel finder -/

section
variable [Field K] [LinearOrder K] [IsStrictOrderedRing K] [FloorRing K]

/-- the loop which empties the queue (parallel_finder.py 164-168), with filters which may raise: what is left in the queue then
is lost with it -/
def transfer (add : Root K → Option Err) (info : Bool) (ctx : FilterCtx K) :
    List (Root K) → AnyContainer K → Except Err Unit × AnyContainer K
  | [], c => (.ok (), c)
  | r :: rs, c =>
    match add r with
    | some e => (.error e, c)
    | none => transfer add info ctx rs (c.addRoot info r ctx)

/-- `ParallelRootFinder.calculateRoots` (parallel_finder.py 92-169), see `Finder.calculateRootsParallel`, with filters which may
raise. The workers use plain containers, which have no filters: exceptions of the target function come in with `fd.algorithm`. -/
def Finder.calculateRootsParallelR (add : Root K → Option Err) (fd : Finder σ K) (cpus : ℕ) (reRan imRan : K × K)
    (precision : Option (ℤ × ℤ)) (sched : Schedule) : Search σ K :=
  let precision := searchPrecision precision fd.precision
  let domain := desymmetrizeDomain reRan imRan precision
  let jobs := createRootJobs fd.f fd.df cpus domain.1 domain.2 precision fd.verbose
  let results := (chunks cpus jobs.length jobs).map (runPiece fd)
  let d := deliver (results.map Prod.snd) sched.turns
  let queue := if sched.interrupted then d.1 else d.1 ++ d.2.flatten
  let outcome := if sched.interrupted then .ok () else firstFailure sched (results.map Prod.fst)
  let precision := (precision.1 - 1, precision.2 - 1)
  let total := (domain.1.2 - domain.1.1) * (domain.2.2 - domain.2.1)
  let bar := if fd.verbose then some ⟨total, [], false⟩ else none
  match outcome with
  | .ok _ =>
    let filterContext : FilterCtx K := { f := fd.f, reRan := domain.1, imRan := domain.2, precision := precision }
    let t := transfer add fd.info filterContext queue fd.container
    ⟨t.1, { fd with container := t.2 }, sched.interrupted, bar⟩
  | .error e => ⟨.error e, fd, false, bar⟩

end
end PyZeal
