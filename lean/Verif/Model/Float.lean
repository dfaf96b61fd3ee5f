import Verif.Model.Algorithms
import Mathlib.Data.Int.Log

/-! # The argument based search in floating-point arithmetic

The other models compute exactly. This one rounds after every arithmetic operation of the search itself: the
differences, quotients and midpoints of `decideRefinement`, the candidate of `getRootFromRectangle`, the summation of
the four phases in `calcMoment`, the constants. The phases along lines come from the estimator, which is arbitrary
here. With `fl = id` it is the exact model (`simpleArgumentF_exact`).

Not modelled: overflow, underflow, NaN (the exponent is unbounded). -/

namespace PyZeal
variable {K : Type} {σ : Type}

/-- The arithmetic the search runs in. `fl` rounds an exact result to a machine number; `pow10 p` is the value of the
expression `10 ** (-p)`. -/
structure FloatOps (K : Type) where
  fl : K → K
  pow10 : ℤ → K

section
variable [Field K]

/-- rounding of both components -/
def FloatOps.cx (A : FloatOps K) (z : Cx K) : Cx K := ⟨A.fl z.re, A.fl z.im⟩

/-- `(a + b) / 2` as computed (simple_holo.py 166, 178, 235) -/
def FloatOps.mid (A : FloatOps K) (a b : K) : K := A.fl (A.fl (a + b) / 2)

/-- `TWO_PI = 0.8 * (2 * pi)` as computed (constants.py 15) -/
def FloatOps.twoPi (A : FloatOps K) (pi : K) : K := A.fl (A.fl (8 / 10) * A.fl (2 * pi))

variable [DecidableEq K]

/-- the loop in `calcMoment` (argument_estimator.py 66-76), rounding every addition; the numbers themselves come from the
cache and the estimator -/
def sumEdgesF (A : FloatOps K) (est : LineEst σ K) (order : ℤ) (ctx : RCtx K) :
    List (Cx K × Cx K) → Cx K → Py (World σ K) (Cx K)
  | [], phi => pure phi
  | e :: es, phi => do
    let d ← edgeMoment est order ctx e
    sumEdgesF A est order ctx es (A.cx (phi + d))

/-- `ArgumentEstimator.calcMoment` (argument_estimator.py 32-79) -/
def calcMomentF (A : FloatOps K) (est : LineEst σ K) (order : ℤ) (reRan imRan : K × K) (ctx : RCtx K) :
    Py (World σ K) (Cx K) :=
  sumEdgesF A est order ctx (edges reRan imRan) 0

/-- `calculateRefinedMoment` (simple_holo.py 190-213), see `phaseOf` -/
def phaseOfF (A : FloatOps K) (est : LineEst σ K) (re im : K × K) (ctx : RCtx K) : Py (World σ K) K := do
  let m ← calcMomentF A est 0 re im ctx
  Py.modify fun w => { w with log := w.log ++ [⟨re, im, m.re⟩] }
  pure m.re

end

section
variable [Field K] [LinearOrder K] [FloorRing K]

/-- `getRootFromRectangle` (simple_holo.py 215-242). Multiplication by `1j`, the addition of a real and an imaginary number
and the division of a complex number by `2.0` are exact or act componentwise. -/
def getRootFromRectangleF (A : FloatOps K) (pi right left top bottom phi : K) (ctx : RCtx K) :
    Py (World σ K) Unit := do
  World.addRoot (⟨A.mid left right, A.mid bottom top⟩, roundHalfEven (A.fl (phi / A.fl (2 * pi))))
  World.advance ctx (A.fl (A.fl (right - left) * A.fl (0 - 0)))

/-- `SimpleArgumentAlgorithm.decideRefinement` (simple_holo.py 112-188) -/
def simpleDecideF (A : FloatOps K) (est : LineEst σ K) (pi : K) (self : Decide σ K) : Decide σ K :=
  fun re im phi ctx =>
  let x1 := re.1
  let x2 := re.2
  let y1 := im.1
  let y2 := im.2
  let deltaRe := A.fl (x2 - x1)
  let deltaIm := A.fl (y2 - y1)
  let epsReal := A.pow10 ctx.precision.1
  let epsImag := A.pow10 ctx.precision.2
  if phi < A.twoPi pi then World.advance ctx (A.fl (deltaRe * deltaIm))
  else if deltaRe < epsReal ∧ deltaIm < epsImag then getRootFromRectangleF A pi x2 x1 y2 y1 phi ctx
  else if A.fl (deltaRe / epsReal) > A.fl (deltaIm / epsImag) then do
    let midPoint := A.mid x1 x2
    let phi1 ← phaseOfF A est (x1, midPoint) (y1, y2) ctx
    self (x1, midPoint) (y1, y2) phi1 ctx
    cacheRemove ⟨x1, y2⟩ ⟨x1, y1⟩
    let phi2 ← phaseOfF A est (midPoint, x2) (y1, y2) ctx
    self (midPoint, x2) (y1, y2) phi2 ctx
    cacheRemove ⟨x2, y1⟩ ⟨x2, y2⟩
  else do
    let midPoint := A.mid y1 y2
    let phi1 ← phaseOfF A est (x1, x2) (y1, midPoint) ctx
    self (x1, x2) (y1, midPoint) phi1 ctx
    cacheRemove ⟨x1, y1⟩ ⟨x2, y1⟩
    let phi2 ← phaseOfF A est (x1, x2) (midPoint, y2) ctx
    self (x1, x2) (midPoint, y2) phi2 ctx
    cacheRemove ⟨x2, y2⟩ ⟨x1, y2⟩

/-- `SimpleArgumentAlgorithm.calcRoots` (simple_holo.py 76-110) -/
def simpleArgumentF (A : FloatOps K) (est : LineEst σ K) (pi : K) (limit : ℕ) (ctx : RCtx K) :
    Py (World σ K) Unit := do
  resetCache
  let phi ← phaseOfF A est ctx.reRan ctx.imRan ctx
  dispatch (simpleDecideF A est pi) limit ctx.reRan ctx.imRan phi ctx

/-- exact arithmetic -/
def FloatOps.exact (K : Type) [Field K] : FloatOps K := ⟨id, eps10 K⟩

/-- Binary floating-point numbers with `t` significant bits (IEEE 754 round-to-nearest, ties-to-even) and unbounded
exponent; `t = 53` is the type `float` of Python (CPython, C `double`). -/
def flBin (t : ℕ) (x : K) : K :=
  if x = 0 then 0
  else
    let unit := (2 : K) ^ (Int.log 2 |x| - (t - 1 : ℤ))
    (roundHalfEven (x / unit) : K) * unit

/-- arithmetic with Python floats; `10 ** (-p)` is taken to be correctly rounded -/
def double (K : Type) [Field K] [LinearOrder K] [FloorRing K] : FloatOps K :=
  ⟨flBin 53, fun p => flBin 53 (eps10 K p)⟩

end
end PyZeal
