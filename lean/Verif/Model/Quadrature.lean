import Verif.Model.Estimator

/-! # Model of the quadrature estimator

`pyzeal/algorithms/estimators/quad_estimator.py`. -/

namespace PyZeal
variable {K : Type}

/-- `EXP_SAMPLE_POINTS` (estimators/constants.py 14) -/
def expSamplePoints : ℕ := 10
/-- `MAX_SAMPLE_POINTS` (estimators/constants.py 16) -/
def maxSamplePoints : ℕ := 21

/-- External functions used by the quadrature estimator, as parameters: `romb` is the value of
`scipy.integrate.romb(y, dx)` for sample arrays of admissible length, `abs` the complex modulus. `evals`
bounds the loop of `genFuncArr`, `steps` the refinement loop (the real loops carry no such bound). -/
structure QuadCfg (K : Type) where
  romb : List K → K → K
  abs : Cx K → K
  evals : ℕ → ℕ
  steps : ℕ

section
variable {σ : Type}

/-- `scipy.integrate.romb(y, dx)`: raises `ValueError` unless the number of samples is one plus a power of two. -/
def rombPy (romb : List K → K → K) (y : List K) (dx : K) : Py (World σ K) K :=
  if 2 ^ Nat.log2 (y.length - 1) + 1 = y.length then pure (romb y dx) else Py.throw .valueError

/-- `np.vstack((xs, ys)).ravel("F")` for arrays of the same length: take elements alternately -/
def interleave {α : Type} : List α → List α → List α
  | x :: xs, y :: ys => x :: y :: interleave xs ys
  | _, _ => []

/-- `np.append(np.vstack((old[:-1], new)).ravel("F"), old[-1])` (quad_estimator.py 129-132); `vstack` raises
`ValueError` for different lengths, `old[-1]` raises `IndexError` for an empty array. -/
def mergeArray {α : Type} (old new : List α) : Py (World σ K) (List α) :=
  if old.dropLast.length = new.length then
    match old.getLast? with
    | some l => pure (interleave old.dropLast new ++ [l])
    | none => Py.throw .indexError
  else Py.throw .valueError

variable [Field K] [LinearOrder K] [IsStrictOrderedRing K]

/-- `context.df(zArr) * zArr**order / funcArr` (quad_estimator.py 69, 86, 98) -/
def logDeriv (df : Cx K → Cx K) (order : ℤ) (zs fs : List (Cx K)) : List (Cx K) :=
  List.zipWith (fun z v => df z * z ^ order / v) zs fs

/-- `genFuncArr` followed by the formation of the logarithmic derivative (quad_estimator.py 66-69, 82-87, 95-98) -/
def quadSample (cfg : QuadCfg K) (df : Cx K → Cx K) (order : ℤ) (a b : Cx K) (ctx : RCtx K) (size : ℕ) :
    Py (World σ K) (List (Cx K) × List (Cx K)) := do
  let r ← genFuncArr cfg.evals a b ctx size
  pure (r.1, logDeriv df order r.1 r.2)

/-- `romb(np.real(funcArr), h)`, `romb(np.imag(funcArr), h)` (quad_estimator.py 72-73, 100-101) -/
def quadRomb (cfg : QuadCfg K) (fs : List (Cx K)) (dx : K) : Py (World σ K) (K × K) := do
  let r ← rombPy cfg.romb (fs.map Cx.re) dx
  let i ← rombPy cfg.romb (fs.map Cx.im) dx
  pure (r, i)

/-- The local variables of the loop in `calcMomentAlongLine` (quad_estimator.py 65-108) -/
structure QuadVars (K : Type) where
  zStart : Cx K
  zEnd : Cx K
  samplePts : ℕ
  zArr : List (Cx K)
  funcArr : List (Cx K)
  result : K × K

/-- `QuadratureEstimator.mergeArrays` (quad_estimator.py 120-133) -/
def mergeArrays (old new : List (Cx K) × List (Cx K)) :
    Py (World σ K) (List (Cx K) × List (Cx K)) := do
  let z ← mergeArray old.1 new.1
  let f ← mergeArray old.2 new.2
  pure (z, f)

/-- one refinement of the sample arrays (quad_estimator.py 78-98). The array accesses `zArr[0]`, `zArr[1]`,
`zArr[-1]`, `zArr[-2]` use 0 if out of range (the array always has more than 1000 elements: see
`quadLine_safe`). -/
def quadRefine (cfg : QuadCfg K) (df : Cx K → Cx K) (order : ℤ) (ctx : RCtx K) (v : QuadVars K) :
    Py (World σ K) (QuadVars K) :=
  if expSamplePoints + 2 ≤ v.samplePts then do
    let zStart := Cx.divK (v.zArr.getD 0 0 + v.zArr.getD 1 0) 2
    let zEnd := Cx.divK (v.zArr.getD (v.zArr.length - 1) 0 + v.zArr.getD (v.zArr.length - 2) 0) 2
    let new ← quadSample cfg df order zStart zEnd ctx (2 ^ v.samplePts)
    let m ← mergeArrays (v.zArr, v.funcArr) new
    pure { v with zStart, zEnd, zArr := m.1, funcArr := m.2, samplePts := v.samplePts + 1 }
  else do
    let r ← quadSample cfg df order v.zStart v.zEnd ctx (2 ^ (v.samplePts + 1) + 1)
    pure { v with zArr := r.1, funcArr := r.2, samplePts := v.samplePts + 1 }

/-- the loop in `calcMomentAlongLine` (quad_estimator.py 74-108); `fuel` bounds the number of rounds -/
def quadLoop (cfg : QuadCfg K) (df : Cx K → Cx K) (order : ℤ) (ctx : RCtx K) (distance : K) :
    ℕ → QuadVars K → Py (World σ K) (QuadVars K)
  | 0, _ => Py.throw .outOfFuel
  | fuel + 1, v =>
    if v.samplePts ≤ maxSamplePoints then do
      let v' ← quadRefine cfg df order ctx v
      let new ← quadRomb cfg v'.funcArr (distance / 2 ^ v'.samplePts)
      if |new.1 - v.result.1| < 1 / 1000 ∧ |new.2 - v.result.2| < 1 / 1000 then pure v'
      else quadLoop cfg df order ctx distance fuel { v' with result := new }
    else pure v

/-- `QuadratureEstimator.calcMomentAlongLine` (quad_estimator.py 40-113) -/
def quadLine (cfg : QuadCfg K) : LineEst σ K := fun order a b ctx =>
  match ctx.df with
  | none => Py.throw .valueError
  | some df => do
    let r ← quadSample cfg df order a b ctx (2 ^ expSamplePoints + 1)
    let distance := cfg.abs (b - a)
    let res ← quadRomb cfg r.2 (distance / 2 ^ expSamplePoints)
    let v ← quadLoop cfg df order ctx distance cfg.steps
      { zStart := a, zEnd := b, samplePts := expSamplePoints, zArr := r.1, funcArr := r.2, result := res }
    pure (Cx.divK ((v.zEnd - v.zStart) * (⟨0, -1⟩ * Cx.ofK v.result.1 + Cx.ofK v.result.2)) distance)

end
end PyZeal
