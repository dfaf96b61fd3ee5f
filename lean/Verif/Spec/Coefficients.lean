import Verif.Core.Num
import Mathlib.Algebra.Polynomial.Basic

/-! # Specification vocabulary: polynomials by their zeros -/

namespace PyZeal
variable {K : Type} [Field K] [LinearOrder K] [IsStrictOrderedRing K]

/-- the coefficients of the monic polynomial with the given roots, lowest degree first -/
noncomputable def Spec.coefficientsOf (zs : List (Cx K)) : List (Cx K) :=
  (List.range (zs.length + 1)).map fun (i : ℕ) =>
    ((zs.map fun z => Polynomial.X - Polynomial.C z).prod : Polynomial (Cx K)).coeff i

end PyZeal
