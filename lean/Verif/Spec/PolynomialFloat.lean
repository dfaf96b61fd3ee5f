import Verif.Model.PolynomialFloat
import Verif.Spec.NewtonFloat

/-! # Specification vocabulary for the associated-polynomial variant in floating-point arithmetic (C156) -/

namespace PyZeal.Spec
variable {K : Type} [Field K] [LinearOrder K] [FloorRing K]

/-- the computed test for constructing the polynomial: the phase lies strictly between the computed constants `TWO_PI` and `MAX_PHASE` -/
def Cell.FewTurnsF (A : FloatOps K) (pi : K) (c : Cell K) : Prop :=
  A.fl (A.fl (8 / 10) * A.fl (2 * pi)) < c.phi ∧ c.phi < A.fl (A.fl (85 / 100) * A.fl (8 * pi))

/-- rounding of both components -/
def roundCx (A : FloatOps K) (z : Cx K) : Cx K := ⟨A.fl z.re, A.fl z.im⟩

/-- the moment computed for a rectangle from the values `L` along its sides: their sum, rounded after each addition -/
def momentAround (A : FloatOps K) (L : ℤ → Cx K → Cx K → Cx K) (c : Cell K) (o : ℤ) : Cx K :=
  roundCx A (roundCx A (roundCx A (roundCx A (0 + L o ⟨c.re.1, c.im.1⟩ ⟨c.re.2, c.im.1⟩) +
    L o ⟨c.re.2, c.im.1⟩ ⟨c.re.2, c.im.2⟩) + L o ⟨c.re.2, c.im.2⟩ ⟨c.re.1, c.im.2⟩) +
    L o ⟨c.re.1, c.im.2⟩ ⟨c.re.1, c.im.1⟩)

/-- the computed moments of the orders 1 to the computed number of zeros -/
def momentsAround (A : FloatOps K) (pi : K) (L : ℤ → Cx K → Cx K → Cx K) (c : Cell K) : List (Cx K) :=
  (List.range (roundHalfEven (A.fl (c.phi / A.fl (2 * pi)))).toNat).map fun (k : ℕ) => momentAround A L c ((k : ℤ) + 1)

/-- An estimator with fixed values: along each line it returns a fixed value, which changes sign with the orientation, without touching the algorithm's cache. -/
structure FixedValues {σ : Type} (est : LineEst σ K) (ctx : RCtx K) (L : ℤ → Cx K → Cx K → Cx K) : Prop where
  reverse : ∀ o a b, L o b a = -L o a b
  value : ∀ o a b w, (est o a b ctx w).2.cache = w.cache ∧ ∀ v, (est o a b ctx w).1 = .ok v → v = L o a b

end PyZeal.Spec
