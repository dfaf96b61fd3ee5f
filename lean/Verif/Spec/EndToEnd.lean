import Verif.Spec.Build
import Verif.Model.Romberg
import Verif.Model.ScipySecant
import Mathlib.Analysis.SpecialFunctions.Complex.Arg

/-! # What is assumed of the libraries, and what the user chose (C136) -/

namespace PyZeal.Spec
open Settings

/-- The numerical libraries: `pi` and the absolute value are exact, `romb` is Romberg's method, `scipy.optimize.newton` is as in Model/ScipyNewton.lean and
Model/ScipySecant.lean (with `dx`, about 6.8e-6), loops of the quadrature estimator are not cut short; the angle is that of the complex number. -/
structure Libraries (X : Externals ℝ) (dx : ℝ) : Prop where
  pi : X.pi = Real.pi
  arg : ∀ z, X.arg z = Complex.arg ⟨z.re, z.im⟩
  romb : X.quad.romb = romberg
  abs : ∀ z, X.quad.abs z = √(z.re ^ 2 + z.im ^ 2)
  evals : ∀ n, 1 ≤ X.quad.evals n
  steps : 13 ≤ X.quad.steps
  newton : X.newton = scipyAll X.quad.abs dx
  step : 0 < dx
  limit : 4 ≤ X.limit

/-- The choices in force when a constructor is called with arguments `a` after the settings history `ops`: the rounding container, the algorithm `alg`, the
estimator `est`, the precision `q`. They may come from the arguments or from the settings; the settings themselves must not say `DEFAULT`. -/
structure Chosen (ops : List SOp) (a : FinderArgs) (alg : AlgorithmTypes) (est : EstimatorTypes) (q : ℤ × ℤ) (d : Defaults) : Prop where
  now : SettingsNow ops d
  concrete : d.algorithm ≠ .DEFAULT ∧ d.container ≠ .DEFAULT ∧ d.estimator ≠ .DEFAULT
  container : (FinderArgs.filled a d).container = .ROUNDING_CONTAINER
  algorithm : (FinderArgs.filled a d).algorithm = alg
  estimator : (FinderArgs.filled a d).estimator = est
  precision : (FinderArgs.filled a d).precision = some q

end PyZeal.Spec
