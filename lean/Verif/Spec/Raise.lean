import Verif.Model.Raise
import Verif.Spec.Finder

/-! # Specification vocabulary for user supplied functions which raise -/

namespace PyZeal.Spec
variable {K : Type}

/-- every exception the user's functions raise is one of `E` -/
structure Within (E : Err → Prop) (R : Raises K) : Prop where
  f : ∀ zs e, R.f zs = some e → E e
  df : ∀ zs e, R.df zs = some e → E e
  add : ∀ r e, R.add r = some e → E e

/-- the call gave the same as with functions which do not raise (`none`: it did not converge, which is a `RuntimeError`), or raised
an exception of the user's functions -/
def SameUnlessRaised {α : Type} (E : Err → Prop) (call : Except Err α) (total : Option α) : Prop :=
  (∃ a, call = .ok a ∧ total = some a) ∨ (call = .error .runtimeError ∧ total = none) ∨ ∃ e, E e ∧ call = .error e

/-- the external solver `nt'`, for functions which may raise, computes the same as `nt` unless one of the exceptions `E` occurs -/
structure SolvesLike (E : Err → Prop) (nt' : NewtonSolverR K) (nt : NewtonSolver K) : Prop where
  secant : ∀ f a b tol, SameUnlessRaised E (nt'.secant f a b tol) (nt.secant f a b tol)
  newton : ∀ f df a tol, SameUnlessRaised E (nt'.newton f df a tol) (nt.newton f df a tol)
  grid : ∀ f pts df, SameUnlessRaised E (nt'.grid f pts df) (nt.grid f pts df)

section
variable [Field K] [LinearOrder K] [IsStrictOrderedRing K] [FloorRing K]

/-- `RaisingEstimator R est' est`: the estimators of the code, `est'` with functions which raise as `R` says, `est` with functions
which do not raise -/
inductive RaisingEstimator (R : Raises K) : LineEst (SumState K) K → LineEst (SumState K) K → Prop
  | summation (cfg : SumCfg K) : RaisingEstimator R (sumLineR R cfg) (sumLine cfg)
  | quadrature (cfg : QuadCfg K) : RaisingEstimator R (quadLineR R cfg) (quadLine cfg)

/-- `RaisingAlgorithm R E alg' alg`: the algorithms of the code, `alg'` with functions which raise as `R` says, `alg` with functions
which do not raise. With Newton's method the functions raise no `RuntimeError` (see `C112_swallowed`). -/
inductive RaisingAlgorithm (R : Raises K) (E : Err → Prop) :
    (RCtx K → Py (World (SumState K) K) Unit) → (RCtx K → Py (World (SumState K) K) Unit) → Prop
  | simple (est' est) (pi : K) (limit : ℕ) (h : RaisingEstimator R est' est) :
      RaisingAlgorithm R E (simpleArgumentR R est' pi limit) (simpleArgument est pi limit)
  | newton (nt' nt) (est' est) (pi : K) (limit : ℕ) (h : RaisingEstimator R est' est) (hnt : SolvesLike E nt' nt)
      (hE : ¬ E .runtimeError) :
      RaisingAlgorithm R E (simpleArgumentNewtonR R nt' est' pi limit) (simpleArgumentNewton nt est pi limit)
  | polynomial (polyRoots : List (Cx K) → List (Cx K)) (est' est) (pi : K) (limit : ℕ) (h : RaisingEstimator R est' est) :
      RaisingAlgorithm R E (associatedPolynomialR R polyRoots est' pi limit) (associatedPolynomial polyRoots est pi limit)
  | grid (nt' nt) (n : ℕ) (t : Bool) (hnt : SolvesLike E nt' nt) (hE : ¬ E .runtimeError) :
      RaisingAlgorithm R E (newtonGridR R nt' n t) (newtonGrid nt n t)

end
end PyZeal.Spec
