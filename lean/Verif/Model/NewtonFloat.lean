import Verif.Model.Float

/-! # The Newton variant of the argument based search in floating-point arithmetic

As Model/Float.lean, for `SimpleArgumentNewtonAlgorithm`: differences, midpoints, constants and comparisons are rounded after every operation; what `scipy.optimize.newton` returns for the
computed start points comes from the solver, which is arbitrary here (Model/NewtonRounded.lean is one). With exact arithmetic it is the exact model (`C153_exact`).
Not modelled: overflow, underflow, NaN; the log message. -/

namespace PyZeal
variable {K : Type} {σ : Type}

/-- `FOUR_PI = 0.65 * (4 * pi)` as computed (constants.py 17) -/
def FloatOps.fourPi [Field K] (A : FloatOps K) (pi : K) : K := A.fl (A.fl (65 / 100) * A.fl (4 * pi))

section
variable [Field K] [LinearOrder K]

/-- the `try` block (simple_holo_newton.py 68-93). `0.5 * (y1 + y2) * 1j` and the addition of a real number to it are componentwise; `(x1 + x2 + 1j * (y1 + y2)) * 0.5` rounds the sums and is halved
in each component. The tolerance is the smaller one of the computed `10 ** (-p)`. -/
def newtonBlockF (A : FloatOps K) (nt : NewtonSolver K) (re im : K × K) (ctx : RCtx K) : Py (World σ K) Unit := do
  let tol := min (A.pow10 ctx.precision.1) (A.pow10 ctx.precision.2)
  let z ← orRuntimeError (nt.secant ctx.f ⟨re.1, A.mid im.1 im.2⟩ ⟨re.2, A.mid im.1 im.2⟩ tol)
  World.addRoot (z, 1)
  match ctx.df with
  | none => pure ()
  | some df => do
    let z ← orRuntimeError (nt.newton ctx.f df ⟨A.mid re.1 re.2, A.mid im.1 im.2⟩ tol)
    World.addRoot (z, 1)

variable [FloorRing K]

/-- `SimpleArgumentNewtonAlgorithm.decideRefinement` (simple_holo_newton.py 29-103) -/
def newtonDecideF (A : FloatOps K) (nt : NewtonSolver K) (est : LineEst σ K) (pi : K) (self : Decide σ K) : Decide σ K :=
  fun re im phi ctx =>
    let deltaRe := A.fl (re.2 - re.1)
    let deltaIm := A.fl (im.2 - im.1)
    let epsReal := A.pow10 ctx.precision.1
    let epsImag := A.pow10 ctx.precision.2
    if phi > A.twoPi pi ∧ deltaRe < epsReal ∧ deltaIm < epsImag then
      getRootFromRectangleF A pi re.2 re.1 im.2 im.1 phi ctx
    else if A.twoPi pi < phi ∧ phi < A.fourPi pi ∧ deltaRe < A.fl (1 / 10) ∧ deltaIm < A.fl (1 / 10) then
      Py.tryFinally (Py.exceptRuntimeError (newtonBlockF A nt re im ctx)) (World.advance ctx (A.fl (deltaRe * deltaIm)))
    else simpleDecideF A est pi self re im phi ctx

/-- `calcRoots` (simple_holo.py 76-110) of `SimpleArgumentNewtonAlgorithm` -/
def simpleArgumentNewtonF (A : FloatOps K) (nt : NewtonSolver K) (est : LineEst σ K) (pi : K) (limit : ℕ) (ctx : RCtx K) : Py (World σ K) Unit := do
  resetCache
  let phi ← phaseOfF A est ctx.reRan ctx.imRan ctx
  dispatch (newtonDecideF A nt est pi) limit ctx.reRan ctx.imRan phi ctx

end
end PyZeal
