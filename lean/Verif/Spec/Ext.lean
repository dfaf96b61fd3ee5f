import Verif.Model.Ext

/-!
# Specification: undefined values are not swallowed
-/

namespace PyZeal.Spec
open Ext
variable {K : Type} [Field K] [LinearOrder K]

/-- NaN goes through the operations of the summation estimator: the phase of a quotient is NaN if one of the values is;
there are at least two sample points -/
structure SumPropagates (cfg : XSumCfg K) : Prop where
  phase : ∀ a b, isNaN a = true ∨ isNaN b = true → cfg.phase a b = .nan
  points : 2 ≤ cfg.numPts

/-- NaN goes through the operations of the quadrature estimator: the quotient is NaN if the function value is, and
Romberg's method, which uses all samples, gives NaN if a sample is NaN -/
structure QuadPropagates (cfg : XQuadCfg K) : Prop where
  quot : ∀ d v, isNaN v = true → (cfg.quot d v).re = .nan
  romb : ∀ ys dx, XNum.nan ∈ ys → cfg.romb ys dx = .nan

/-- a point without infinite or undefined parts -/
def FinitePoint (z : XCx K) : Prop := ∃ x y, z = ⟨.fin x, .fin y⟩

/-- the function is undefined (NaN) at infinite or undefined points -/
def UndefinedOutside (f : XCx K → XCx K) : Prop := ∀ z, ¬ FinitePoint z → isNaN (f z) = true

/-- `z` is an exact zero of `f` -/
def ExactZero (f : XCx K → XCx K) (z : XCx K) : Prop := f z = ⟨.fin 0, .fin 0⟩

end PyZeal.Spec
