import Verif.Spec.Use

/-! # Specification vocabulary: searches of different rectangles with one finder -/

namespace PyZeal.Spec
variable {K : Type} [Field K] [LinearOrder K]

/-- the rectangle a search with precision `p` looks at: the requested one, enlarged by at most `4 * 10^-(p+1)` at its sides -/
def LooksAt (p : ℤ × ℤ) (re im : K × K) (z : Cx K) : Prop :=
  min re.1 re.2 - (10 : K) ^ (-(p.1 + 1)) ≤ z.re ∧ z.re ≤ max re.1 re.2 + 2 * (10 : K) ^ (-(p.1 + 1)) ∧
  min im.1 im.2 - 3 * (10 : K) ^ (-(p.2 + 1)) ≤ z.im ∧ z.im ≤ max im.1 im.2 + 4 * (10 : K) ^ (-(p.2 + 1))

/-- the operation is not a search (in the process of the finder) that looks at a point of `S`; `stored` is the precision of the finder -/
def FinderOp.StaysOff (stored : ℤ × ℤ) (S : Cx K → Prop) : FinderOp K → Prop
  | .search re im call _ => ∀ p, Asked call stored p → ∀ z, LooksAt p re im z → ¬ S z
  | _ => True

variable [IsStrictOrderedRing K] [FloorRing K]

/-- the algorithms of the code with an estimator from `E` (the Newton grid uses none) -/
inductive AlgorithmWith (E : LineEst (SumState K) K → Prop) : (RCtx K → Py (World (SumState K) K) Unit) → Prop
  | simple (est) (pi : K) (limit : ℕ) (h : E est) : AlgorithmWith E (simpleArgument est pi limit)
  | newton (nt : NewtonSolver K) (est) (pi : K) (limit : ℕ) (h : E est) : AlgorithmWith E (simpleArgumentNewton nt est pi limit)
  | polynomial (polyRoots : List (Cx K) → List (Cx K)) (est) (pi : K) (limit : ℕ) (h : E est) :
      AlgorithmWith E (associatedPolynomial polyRoots est pi limit)
  | grid (nt : NewtonSolver K) (n : ℕ) (t : Bool) : AlgorithmWith E (newtonGrid nt n t)

/-- the quadrature estimator -/
inductive IsQuadrature : LineEst (SumState K) K → Prop
  | mk (cfg : QuadCfg K) : IsQuadrature (quadLine cfg)

end PyZeal.Spec
