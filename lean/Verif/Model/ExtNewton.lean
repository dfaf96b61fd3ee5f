import Verif.Model.Ext

/-!
# The Newton step of the Newton variant with infinities and NaN

`simple_holo_newton.py` 68-101: what `XVariant.newton` does in a rectangle with few zeros.
-/

namespace PyZeal.Ext
variable {K σ : Type} [Field K] [LinearOrder K]

/-- `scipy.optimize.newton`, `none` for `RuntimeError`; external -/
structure XSolver (K : Type) where
  secant : (XCx K → XCx K) → XCx K → XCx K → K → Option (XCx K)
  newton : (XCx K → XCx K) → (XCx K → XCx K) → XCx K → K → Option (XCx K)

/-- the result of the solver, or `RuntimeError` -/
def xOrRuntimeError {α : Type} : Option α → Py (XWorld σ K) α
  | some a => pure a
  | none => Py.throw .runtimeError

/-- the `try` block (simple_holo_newton.py 68-93) -/
def xNewtonBlock (nt : XSolver K) (re im : XNum K × XNum K) (ctx : XCtx K) : Py (XWorld σ K) Unit := do
  let tol := min (eps10 K ctx.precision.1) (eps10 K ctx.precision.2)
  let y := XNum.scale (1 / 2) (XNum.add im.1 im.2)
  let z ← xOrRuntimeError (nt.secant ctx.f (mkPoint re.1 y) (mkPoint re.2 y) tol)
  addPoints [(z, 1)]
  match ctx.df with
  | none => pure ()
  | some df => do
    let z ← xOrRuntimeError (nt.newton ctx.f df
      (mkPoint (XNum.scale (1 / 2) (XNum.add re.1 re.2)) (XNum.scale (1 / 2) (XNum.add im.1 im.2))) tol)
    addPoints [(z, 1)]

/-- simple_holo_newton.py 68-101 without the progress bar -/
def xNewtonFew (nt : XSolver K) (re im : XNum K × XNum K) (_phi : XNum K) (ctx : XCtx K) : Py (XWorld σ K) Unit :=
  Py.exceptRuntimeError (xNewtonBlock nt re im ctx)

end PyZeal.Ext
