import Verif.Model.Float

/-! # The associated-polynomial variant of the argument based search in floating-point arithmetic

As Model/Float.lean, for `AssociatedPolynomialAlgorithm`: differences, midpoints, sums of line moments, constants and comparisons are rounded after every operation. What is computed from the moments
of a rectangle (the division by `2 * np.pi`, `coefficientsFromMoments`, numpy's `Polynomial(...).roots()` and `getRootsWithOrders`; polynomial_holo.py 88-92) is an arbitrary function `poly` here: whatever rounding
errors happen in there, `poly` may be what results. With exact arithmetic and the exact steps it is the exact model (`C156_exact`).
Not modelled: overflow, underflow, NaN, the exceptions `roots()` may raise; the log message. -/

namespace PyZeal
variable {K : Type} {σ : Type} [Field K]

/-- `MAX_PHASE = 0.85 * (8 * pi)` as computed (constants.py 25) -/
def FloatOps.maxPhase (A : FloatOps K) (pi : K) : K := A.fl (A.fl (85 / 100) * A.fl (8 * pi))

/-- the loop over the orders (polynomial_holo.py 80-88) before the division -/
def momentsF [DecidableEq K] (A : FloatOps K) (est : LineEst σ K) (re im : K × K) (ctx : RCtx K) : List ℤ → Py (World σ K) (List (Cx K))
  | [] => pure []
  | order :: rest => do
    let m ← calcMomentF A est order re im ctx
    let ms ← momentsF A est re im ctx rest
    pure (m :: ms)

variable [LinearOrder K] [FloorRing K]

/-- `AssociatedPolynomialAlgorithm.decideRefinement` (polynomial_holo.py 31-105) -/
def polynomialDecideF (A : FloatOps K) (poly : List (Cx K) → ℤ × ℤ → List (Root K)) (est : LineEst σ K) (pi : K) (self : Decide σ K) : Decide σ K :=
  fun re im phi ctx =>
  match ctx.df with
  | none => Py.throw .valueError
  | some _ =>
    let deltaRe := A.fl (re.2 - re.1)
    let deltaIm := A.fl (im.2 - im.1)
    let epsReal := A.pow10 ctx.precision.1
    let epsImag := A.pow10 ctx.precision.2
    if phi > A.twoPi pi ∧ deltaRe < epsReal ∧ deltaIm < epsImag then
      getRootFromRectangleF A pi re.2 re.1 im.2 im.1 phi ctx
    else if A.twoPi pi < phi ∧ phi < A.maxPhase pi then do
      let degree := (roundHalfEven (A.fl (phi / A.fl (2 * pi)))).toNat
      let ms ← momentsF A est re im ctx ((List.range degree).map fun (k : ℕ) => (k : ℤ) + 1)
      World.addRoots (poly ms ctx.precision)
      World.advance ctx (A.fl (deltaRe * deltaIm))
    else simpleDecideF A est pi self re im phi ctx

/-- `calcRoots` (simple_holo.py 76-110) of `AssociatedPolynomialAlgorithm` -/
def associatedPolynomialF (A : FloatOps K) (poly : List (Cx K) → ℤ × ℤ → List (Root K)) (est : LineEst σ K) (pi : K) (limit : ℕ) (ctx : RCtx K) : Py (World σ K) Unit := do
  resetCache
  let phi ← phaseOfF A est ctx.reRan ctx.imRan ctx
  dispatch (polynomialDecideF A poly est pi) limit ctx.reRan ctx.imRan phi ctx

end PyZeal
