import Verif.Model.Float
import Verif.Model.Summation

/-! # The summation estimator in floating-point arithmetic

`sum_estimator.py` and `genFuncArr` once more, with the operations of numpy as parameters: sample points, phases,
distances, refinement factors and sums are what the machine computes, not what they are in exact arithmetic. With the
exact operations it is the model of `Model/Summation.lean` (`sumLineF_exact`). -/

namespace PyZeal
variable {K : Type} {σ : Type}

/-- Settings of a `SummationEstimator` (sum_estimator.py 65-67) and the computed numpy operations it uses:
`lin` is `np.linspace` (argument_estimator.py 117), `phase a b` the phase from value `a` to value `b`,
`np.arctan2` of real and imaginary part of the computed quotient (sum_estimator.py 273-275, 306-307), `dist` is `abs(a - b)` (line 291),
`factor idx phi` the number of sample points of a refinement (297-299), `sum` is `ndarray.sum` (153 etc.). `evals` and
`steps` bound loops, see `SumCfg`. -/
structure SumOps (K : Type) where
  numPts : ℕ
  deltaPhi : K
  maxPrecision : K
  lin : Cx K → Cx K → ℕ → List (Cx K)
  phase : Cx K → Cx K → K
  dist : Cx K → Cx K → K
  factor : ℕ → K → ℕ
  sum : List K → K
  evals : ℕ → ℕ
  steps : ℕ

section
variable [Field K]

/-- the offset by which `genFuncArr` moves a line (argument_estimator.py 116, 134-137), as computed -/
def lineShiftF [DecidableEq K] (A : FloatOps K) (zStart zEnd : Cx K) (precision : ℤ × ℤ) : Cx K :=
  if zStart.im = zEnd.im then ⟨0, A.fl (2 * A.pow10 precision.2)⟩ else ⟨A.fl (2 * A.pow10 precision.1), 0⟩

/-- the `while` loop of `genFuncArr` (argument_estimator.py 118-139), see `genFuncLoop` -/
def genFuncLoopF [DecidableEq K] (A : FloatOps K) (f : Cx K → Cx K) (shift : Cx K) :
    ℕ → List (Cx K) → Py (World σ K) (List (Cx K) × List (Cx K))
  | 0, _ => Py.throw .outOfFuel
  | n + 1, zArr =>
    let zeros := zArr.filter fun z => decide (f z = 0)
    if zeros.isEmpty then pure (zArr, zArr.map f)
    else do
      World.addRoots (zeros.map fun z => (z, 0))
      genFuncLoopF A f shift n (zArr.map fun z => A.cx (z + shift))

/-- `genFuncArr` (argument_estimator.py 110-141) -/
def genFuncArrF [DecidableEq K] (A : FloatOps K) (S : SumOps K) (zStart zEnd : Cx K) (ctx : RCtx K) (size : ℕ) :
    Py (World σ K) (List (Cx K) × List (Cx K)) :=
  genFuncLoopF A ctx.f (lineShiftF A zStart zEnd ctx.precision) (S.evals size) (S.lin zStart zEnd size)

/-- the phases between successive values (sum_estimator.py 273-275, 306-307) -/
def phasesOf (phase : Cx K → Cx K → K) (fs : List (Cx K)) : List K := List.zipWith phase fs fs.tail

variable [LinearOrder K]

/-- the `while` loop of `genPhiArr` (sum_estimator.py 279-319), see `refineLoop` -/
def refineLoopF (A : FloatOps K) (S : SumOps K) (ctx : RCtx K) :
    ℕ → ℕ → List (Cx K) → List K → Py (World (SumState K) K) (PhiLine K)
  | 0, _, _, _ => Py.throw .outOfFuel
  | n + 1, idx, zArr, phiArr =>
    match whereFrom (fun p => decide (S.deltaPhi ≤ |p|)) 0 phiArr with
    | [] => pure (zArr, phiArr)
    | k :: _ =>
      let zk := zArr.getD k 0
      let zk1 := zArr.getD (k + 1) 0
      if S.dist zk zk1 < S.maxPrecision then pure (zArr, phiArr)
      else if maxZLength * S.numPts < zArr.length then pure (zArr, phiArr)
      else do
        let r ← genFuncArrF A S zk zk1 ctx (S.factor (idx + 1) (phiArr.getD k 0))
        refineLoopF A S ctx n (idx + 1)
          (zArr.take (k + 1) ++ (r.1.drop 1).dropLast ++ zArr.drop (k + 1))
          (phiArr.take k ++ phasesOf S.phase r.2 ++ phiArr.drop (k + 1))

/-- `genPhiArr` (sum_estimator.py 245-319) -/
def genPhiArrF (A : FloatOps K) (S : SumOps K) (order : ℤ) (zStart zEnd : Cx K) (ctx : RCtx K) :
    Py (World (SumState K) K) (PhiLine K) :=
  if order ≠ 0 then Py.throw .notImplementedError
  else do
    let r ← genFuncArrF A S zStart zEnd ctx S.numPts
    refineLoopF A S ctx S.steps 0 r.1 (phasesOf S.phase r.2)

/-- use the slice or sample the line, see `sliceOrSample` -/
def sliceOrSampleF (A : FloatOps K) (S : SumOps K) (order : ℤ) (zStart zEnd : Cx K) (ctx : RCtx K) :
    Option (PhiLine K) → Py (World (SumState K) K) (PhiLine K)
  | some v => pure v
  | none => genPhiArrF A S order zStart zEnd ctx

/-- `retrieveCachedHorizontal` (sum_estimator.py 117-180); the multiplication with the sign is exact -/
def retrieveCachedHorizontalF (A : FloatOps K) (S : SumOps K) (order : ℤ) (x1 x2 y : K) (ctx : RCtx K) :
    Py (World (SumState K) K) (Cx K) := do
  let w ← Py.get
  let lo := min x1 x2
  let hi := max x1 x2
  let v ← sliceOrSampleF A S order ⟨lo, y⟩ ⟨hi, y⟩ ctx (reuseH w.est.horizontal order lo hi y)
  Py.modify fun w =>
    { w with est := { w.est with horizontal := storeCache w.est.horizontal y order lo hi v } }
  pure (Cx.ofK (lineSign x1 x2 * S.sum v.2))

/-- `retrieveCachedVertical` (sum_estimator.py 182-243) -/
def retrieveCachedVerticalF (A : FloatOps K) (S : SumOps K) (order : ℤ) (y1 y2 x : K) (ctx : RCtx K) :
    Py (World (SumState K) K) (Cx K) := do
  let w ← Py.get
  let lo := min y1 y2
  let hi := max y1 y2
  let r ← liftReuse (reuseV w.est.vertical order lo hi x)
  let v ← sliceOrSampleF A S order ⟨x, lo⟩ ⟨x, hi⟩ ctx r
  Py.modify fun w =>
    { w with est := { w.est with vertical := storeCache w.est.vertical x order lo hi v } }
  pure (Cx.ofK (lineSign y1 y2 * S.sum v.2))

/-- `SummationEstimator.calcMomentAlongLine` (sum_estimator.py 80-115) -/
def sumLineF (A : FloatOps K) (S : SumOps K) : LineEst (SumState K) K := fun order zStart zEnd ctx =>
  if zStart.im = zEnd.im then
    retrieveCachedHorizontalF A S order zStart.re zEnd.re zStart.im ctx
  else if zStart.re = zEnd.re then
    retrieveCachedVerticalF A S order zStart.im zEnd.im zStart.re ctx
  else Py.throw .valueError

end

section
variable [Field K] [LinearOrder K] [FloorRing K]

/-- the refinement factor as computed: `int(idx * Z_REFINE * abs(phi) / deltaPhi)` (sum_estimator.py 297-299); `idx * Z_REFINE` is
an integer, `int` truncates (the value is not negative for `deltaPhi > 0`) -/
def factorF (A : FloatOps K) (deltaPhi : K) (idx : ℕ) (phi : K) : ℕ :=
  ⌊A.fl (A.fl (((idx * zRefine : ℕ) : K) * |phi|) / deltaPhi)⌋.toNat

/-- `np.linspace(a, b, n)` as computed: `step = (b - a) / (n - 1)`, the points are `arange(n) * step + a`, the last one is
replaced by `b`. (The first one, `0 * step + a`, is `a` for machine numbers `a`.) -/
def linspaceF (A : FloatOps K) (a b : Cx K) : ℕ → List (Cx K)
  | 0 => []
  | 1 => [a]
  | n + 2 =>
    let step := A.cx ⟨A.fl (b.re - a.re) / ((n + 1 : ℕ) : K), A.fl (b.im - a.im) / ((n + 1 : ℕ) : K)⟩
    a :: ((List.range n).map fun k =>
      A.cx (A.cx ⟨((k + 1 : ℕ) : K) * step.re, ((k + 1 : ℕ) : K) * step.im⟩ + a)) ++ [b]

/-- adding the numbers of an array in some order, rounding each sum: `ndarray.sum` adds pairwise, with several running sums
(numpy `pairwise_sum`); the order is a parameter. A leaf is an index of the array. -/
inductive SumTree | leaf (i : ℕ) | node (l r : SumTree)

/-- the indices added up -/
def SumTree.leaves : SumTree → List ℕ
  | .leaf i => [i]
  | .node l r => l.leaves ++ r.leaves

/-- length of the longest chain of additions -/
def SumTree.depth : SumTree → ℕ
  | .leaf _ => 0
  | .node l r => max l.depth r.depth + 1

/-- the sum as computed -/
def SumTree.eval (A : FloatOps K) (xs : List K) : SumTree → K
  | .leaf i => xs.getD i 0
  | .node l r => A.fl (l.eval A xs + r.eval A xs)

/-- The estimator with the shipped settings (`DEFAULT_NUM_PTS`, `DEFAULT_DELTA_PHI`, `DEFAULT_MAX_PRECISION`, constants.py
20-22) in Python's floats. Parameters are the computed complex quotient `quot b a`, the computed `arctan` of real and
imaginary part, the computed distance, the order of summation for arrays of each length, and a bound for the loop of
`genFuncArr`. The bound 116 for the refinement loop is never reached (`C106_shipped`, `C106_clear`). -/
def SumOps.shipped (quot : Cx K → Cx K → Cx K) (arctan : Cx K → K) (dist : Cx K → Cx K → K) (tree : ℕ → SumTree)
    (evals : ℕ → ℕ) : SumOps K where
  numPts := 6500
  deltaPhi := (double K).fl (1 / 100)
  maxPrecision := (double K).fl (1 / 10 ^ 10)
  lin := linspaceF (double K)
  phase := fun a b => arctan (quot b a)
  dist := dist
  factor := factorF (double K) ((double K).fl (1 / 100))
  sum := fun xs => if xs.length = 0 then 0 else (tree xs.length).eval (double K) xs
  evals := evals
  steps := 116

end
end PyZeal
