import Verif.Model.Estimator

/-! # Model of the root finding algorithms

`pyzeal/algorithms/constants.py`, `simple_holo.py`, `simple_holo_newton.py`, `polynomial_holo.py`,
`newton_grid.py`, `wrappers/classical_polynomial.py`. -/

namespace PyZeal

namespace Py
variable {σ : Type}

/-- `try: m  except RuntimeError: pass` -/
def exceptRuntimeError (m : Py σ Unit) : Py σ Unit := fun s =>
  match m s with
  | (.error .runtimeError, s') => (.ok (), s')
  | r => r

/-- `try: m  finally: fin` -/
def tryFinally (m fin : Py σ Unit) : Py σ Unit := fun s =>
  match fin (m s).2 with
  | (.ok _, s'') => ((m s).1, s'')
  | (.error e, s'') => (.error e, s'')

end Py

variable {K : Type} {σ : Type}

section
variable [Field K]

/-- `TWO_PI` (constants.py 15) -/
def TWO_PI (pi : K) : K := 8 / 10 * (2 * pi)
/-- `FOUR_PI` (constants.py 17) -/
def FOUR_PI (pi : K) : K := 65 / 100 * (4 * pi)
/-- `MAX_PHASE` (constants.py 25) -/
def MAX_PHASE (pi : K) : K := 85 / 100 * (8 * pi)

end

/-- `decideRefinement(reRan, imRan, phi, context)`, the overridable step of the argument based algorithms -/
abbrev Decide (σ K : Type) := K × K → K × K → K → RCtx K → Py (World σ K) Unit

section
variable [Field K] [LinearOrder K] [FloorRing K]

/-- `estimator.calcMoment(0, reRan, imRan, context).real` together with the log entry: `calculateRefinedMoment`
(simple_holo.py 190-213) and the first evaluation in `calcRoots` (simple_holo.py 97-99; not
logged there by the code). -/
def phaseOf (est : LineEst σ K) (re im : K × K) (ctx : RCtx K) : Py (World σ K) K := do
  let m ← calcMoment est 0 re im ctx
  Py.modify fun w => { w with log := w.log ++ [⟨re, im, m.re⟩] }
  pure m.re

/-- `self.cache.remove(0, a, b)` -/
def cacheRemove (a b : Cx K) : Py (World σ K) Unit :=
  Py.modify fun w => { w with cache := w.cache.remove 0 a b }

/-- `getRootFromRectangle` (simple_holo.py 215-242). `top.imag` and `bottom.imag` are the imaginary parts of real
numbers, i.e. 0, so the progress bar is advanced by 0. -/
def getRootFromRectangle (pi right left top bottom phi : K) (ctx : RCtx K) : Py (World σ K) Unit := do
  World.addRoot (Cx.divK ⟨left + right, bottom + top⟩ 2, roundHalfEven (phi / (2 * pi)))
  World.advance ctx ((right - left) * (0 - 0))

/-- `SimpleArgumentAlgorithm.decideRefinement` (simple_holo.py 112-188); `self` is the (possibly overridden)
`self.decideRefinement`. -/
def simpleDecide (est : LineEst σ K) (pi : K) (self : Decide σ K) : Decide σ K := fun re im phi ctx =>
  let x1 := re.1
  let x2 := re.2
  let y1 := im.1
  let y2 := im.2
  let deltaRe := x2 - x1
  let deltaIm := y2 - y1
  let epsReal := eps10 K ctx.precision.1
  let epsImag := eps10 K ctx.precision.2
  if phi < TWO_PI pi then World.advance ctx (deltaRe * deltaIm)
  else if deltaRe < epsReal ∧ deltaIm < epsImag then getRootFromRectangle pi x2 x1 y2 y1 phi ctx
  else if deltaRe / epsReal > deltaIm / epsImag then do
    let midPoint := (x1 + x2) / 2
    let phi1 ← phaseOf est (x1, midPoint) (y1, y2) ctx
    self (x1, midPoint) (y1, y2) phi1 ctx
    cacheRemove ⟨x1, y2⟩ ⟨x1, y1⟩
    let phi2 ← phaseOf est (midPoint, x2) (y1, y2) ctx
    self (midPoint, x2) (y1, y2) phi2 ctx
    cacheRemove ⟨x2, y1⟩ ⟨x2, y2⟩
  else do
    let midPoint := (y1 + y2) / 2
    let phi1 ← phaseOf est (x1, x2) (y1, midPoint) ctx
    self (x1, x2) (y1, midPoint) phi1 ctx
    cacheRemove ⟨x1, y1⟩ ⟨x2, y1⟩
    let phi2 ← phaseOf est (x1, x2) (midPoint, y2) ctx
    self (x1, x2) (midPoint, y2) phi2 ctx
    cacheRemove ⟨x2, y2⟩ ⟨x1, y2⟩

/-- Python's method dispatch with a recursion limit: `limit` nested calls of `decideRefinement` are possible, the
next one raises `RecursionError`. `body` is the class's implementation. -/
def dispatch (body : Decide σ K → Decide σ K) : ℕ → Decide σ K
  | 0 => fun _ _ _ _ => Py.throw .recursionError
  | limit + 1 => body (dispatch body limit)

/-- reset of a dirty cache at the start of `calcRoots` (simple_holo.py 92-95) -/
def resetCache : Py (World σ K) Unit :=
  Py.modify fun w => if w.cache.dirty then { w with cache := w.cache.reset } else w

/-- `SimpleArgumentAlgorithm.calcRoots` (simple_holo.py 76-110), inherited by all argument based algorithms -/
def calcRoots (est : LineEst σ K) (body : Decide σ K → Decide σ K) (limit : ℕ) (ctx : RCtx K) :
    Py (World σ K) Unit := do
  resetCache
  let phi ← phaseOf est ctx.reRan ctx.imRan ctx
  dispatch body limit ctx.reRan ctx.imRan phi ctx

/-- `SimpleArgumentAlgorithm`: `calcRoots` with its own `decideRefinement` -/
def simpleArgument (est : LineEst σ K) (pi : K) (limit : ℕ) (ctx : RCtx K) : Py (World σ K) Unit :=
  calcRoots est (simpleDecide est pi) limit ctx

/-! ## Newton variant -/

/-- `scipy.optimize.newton` as used here, `none` for `RuntimeError` (no convergence); external. `secant f x0 x1 tol`
is the call without derivative, `newton f df x0 tol` the one with derivative, `grid f pts df` the
vectorised call of the grid algorithm. -/
structure NewtonSolver (K : Type) where
  secant : (Cx K → Cx K) → Cx K → Cx K → K → Option (Cx K)
  newton : (Cx K → Cx K) → (Cx K → Cx K) → Cx K → K → Option (Cx K)
  grid : (Cx K → Cx K) → List (Cx K) → Option (Cx K → Cx K) → Option (List (Cx K))

/-- the result of an external solver, or `RuntimeError` -/
def orRuntimeError {α : Type} : Option α → Py (World σ K) α
  | some a => pure a
  | none => Py.throw .runtimeError

/-- the `try` block (simple_holo_newton.py 68-93) -/
def newtonBlock (nt : NewtonSolver K) (re im : K × K) (ctx : RCtx K) : Py (World σ K) Unit := do
  let tol := min (eps10 K ctx.precision.1) (eps10 K ctx.precision.2)
  let z ← orRuntimeError (nt.secant ctx.f ⟨re.1, 1 / 2 * (im.1 + im.2)⟩ ⟨re.2, 1 / 2 * (im.1 + im.2)⟩ tol)
  World.addRoot (z, 1)
  match ctx.df with
  | none => pure ()
  | some df => do
    let z ← orRuntimeError
      (nt.newton ctx.f df ⟨(re.1 + re.2) * (1 / 2), (im.1 + im.2) * (1 / 2)⟩ tol)
    World.addRoot (z, 1)

/-- `SimpleArgumentNewtonAlgorithm.decideRefinement` (simple_holo_newton.py 29-103) -/
def newtonDecide (nt : NewtonSolver K) (est : LineEst σ K) (pi : K) (self : Decide σ K) : Decide σ K :=
  fun re im phi ctx =>
    let deltaRe := re.2 - re.1
    let deltaIm := im.2 - im.1
    let epsReal := eps10 K ctx.precision.1
    let epsImag := eps10 K ctx.precision.2
    if phi > TWO_PI pi ∧ deltaRe < epsReal ∧ deltaIm < epsImag then
      getRootFromRectangle pi re.2 re.1 im.2 im.1 phi ctx
    else if TWO_PI pi < phi ∧ phi < FOUR_PI pi ∧ deltaRe < 1 / 10 ∧ deltaIm < 1 / 10 then
      Py.tryFinally (Py.exceptRuntimeError (newtonBlock nt re im ctx))
        (World.advance ctx (deltaRe * deltaIm))
    else simpleDecide est pi self re im phi ctx

/-- `SimpleArgumentNewtonAlgorithm` -/
def simpleArgumentNewton (nt : NewtonSolver K) (est : LineEst σ K) (pi : K) (limit : ℕ) (ctx : RCtx K) :
    Py (World σ K) Unit :=
  calcRoots est (newtonDecide nt est pi) limit ctx

/-! ## Associated polynomials -/

/-- the inner loop of `coefficientsFromMoments` (polynomial_holo.py 117-122) for one `k`: `coefficients[-i]` for
`i = 1, ..., k` are the elements of the list computed so far, newest first -/
def momentSum (coefficients moments : List (Cx K)) : Cx K :=
  go coefficients.reverse moments 1
where
  /-- `temp += tempSign * coefficients[-i] * moments[i-1]; tempSign *= -1` -/
  go : List (Cx K) → List (Cx K) → Cx K → Cx K
  | c :: cs, m :: ms, sign => sign * c * m + go cs ms (-sign)
  | _, _, _ => 0

/-- the loop over `k` (polynomial_holo.py 116-123); `k` counts the remaining rounds -/
def momentLoop (moments : List (Cx K)) : ℕ → List (Cx K) → List (Cx K)
  | 0, coefficients => coefficients
  | n + 1, coefficients =>
    momentLoop moments n (coefficients ++ [Cx.divK (momentSum coefficients moments) (coefficients.length : K)])

/-- the sign correction (polynomial_holo.py 125-128) -/
def alternate : Cx K → List (Cx K) → List (Cx K)
  | _, [] => []
  | sign, c :: cs => c * sign :: alternate (-sign) cs

/-- `coefficientsFromMoments` (polynomial_holo.py 107-131) -/
def coefficientsFromMoments (moments : List (Cx K)) : List (Cx K) :=
  (alternate 1 (momentLoop moments moments.length [1])).reverse

/-- the inner loop of `getRootsWithOrders` (classical_polynomial.py 30-37): find the first known root close to the new
one and count it there; `none` if there is none -/
def bump (eps : K × K) (root : Cx K) : List (Cx K × ℤ) → Option (List (Cx K × ℤ))
  | [] => none
  | (old, n) :: rest =>
    if |root.re - old.re| < eps.1 ∧ |root.im - old.im| < eps.2 then some ((old, n + 1) :: rest)
    else match bump eps root rest with
      | some rest' => some ((old, n) :: rest')
      | none => none

/-- the outer loop of `getRootsWithOrders` (classical_polynomial.py 29-41); the two parallel lists `uniqueRoots`, `orders`
are kept as one list of pairs -/
def clusterLoop (eps : K × K) : List (Cx K) → List (Cx K × ℤ) → List (Cx K × ℤ)
  | [], acc => acc
  | root :: rest, acc =>
    match bump eps root acc with
    | some acc' => clusterLoop eps rest acc'
    | none => clusterLoop eps rest (acc ++ [(root, 1)])

/-- `ClassicalPolynomial.getRootsWithOrders` (classical_polynomial.py 22-43) after `Polynomial(...).roots()` -/
def getRootsWithOrders (roots : List (Cx K)) (precision : ℤ × ℤ) : List (Cx K) × List ℤ :=
  let r := clusterLoop (eps10 K precision.1, eps10 K precision.2) roots []
  (r.map Prod.fst, r.map Prod.snd)

/-- the loop over the orders (polynomial_holo.py 80-88) -/
def moments (est : LineEst σ K) (pi : K) (re im : K × K) (ctx : RCtx K) :
    List ℤ → Py (World σ K) (List (Cx K))
  | [] => pure []
  | order :: rest => do
    let m ← calcMoment est order re im ctx
    let ms ← moments est pi re im ctx rest
    pure (Cx.divK m (2 * pi) :: ms)

/-- `AssociatedPolynomialAlgorithm.decideRefinement` (polynomial_holo.py 31-105); `polyRoots` is the external
`Polynomial(coefficients).roots()`. -/
def polynomialDecide (polyRoots : List (Cx K) → List (Cx K)) (est : LineEst σ K) (pi : K)
    (self : Decide σ K) : Decide σ K := fun re im phi ctx =>
  match ctx.df with
  | none => Py.throw .valueError
  | some _ =>
    let deltaRe := re.2 - re.1
    let deltaIm := im.2 - im.1
    let epsReal := eps10 K ctx.precision.1
    let epsImag := eps10 K ctx.precision.2
    if phi > TWO_PI pi ∧ deltaRe < epsReal ∧ deltaIm < epsImag then
      getRootFromRectangle pi re.2 re.1 im.2 im.1 phi ctx
    else if TWO_PI pi < phi ∧ phi < MAX_PHASE pi then do
      let degree := (roundHalfEven (phi / (2 * pi))).toNat
      let ms ← moments est pi re im ctx ((List.range degree).map fun (k : ℕ) => (k : ℤ) + 1)
      let r := getRootsWithOrders (polyRoots (coefficientsFromMoments ms)) ctx.precision
      World.addRoots (r.1.zip r.2)
      World.advance ctx (deltaRe * deltaIm)
    else simpleDecide est pi self re im phi ctx

/-- `AssociatedPolynomialAlgorithm` -/
def associatedPolynomial (polyRoots : List (Cx K) → List (Cx K)) (est : LineEst σ K) (pi : K) (limit : ℕ)
    (ctx : RCtx K) : Py (World σ K) Unit :=
  calcRoots est (polynomialDecide polyRoots est pi) limit ctx

/-! ## Newton grid -/

/-- `np.linspace` for real end points (newton_grid.py 55-66, parallel_finder.py 198-199) -/
def linspaceR (a b : K) (n : ℕ) : List K :=
  (List.range n).map fun (i : ℕ) => a + (i : K) / ((n : K) - 1) * (b - a)

/-- the start points (newton_grid.py 55-67) -/
def gridPoints (re im : K × K) (n : ℕ) : List (Cx K) :=
  (linspaceR re.1 re.2 n).flatMap fun x => (linspaceR im.1 im.2 n).map fun y => ⟨x, y⟩

/-- `NewtonGridAlgorithm.calcRoots` (newton_grid.py 44-84). `taskTruthy`: the progress update is guarded by the
truth value of `context.task`, an integer id (0 for the first task of a progress bar). -/
def newtonGrid (nt : NewtonSolver K) (numSamplePoints : ℕ) (taskTruthy : Bool) (ctx : RCtx K) :
    Py (World σ K) Unit :=
  match nt.grid ctx.f (gridPoints ctx.reRan ctx.imRan numSamplePoints) ctx.df with
  | none => pure ()
  | some roots => do
    World.addRoots (roots.map fun z => (z, 0))
    if taskTruthy then
      World.advance ctx ((ctx.reRan.2 - ctx.reRan.1) * (ctx.imRan.2 - ctx.imRan.1))
    else pure ()

end
end PyZeal
