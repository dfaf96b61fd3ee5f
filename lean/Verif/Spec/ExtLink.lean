import Verif.Spec.Ext
import Verif.Model.ExtNewton

/-!
# Specification: finite searches

Finite numbers among the floating point numbers, and functions and library operations which agree with the exact ones
for finite arguments.
-/

namespace PyZeal.Spec
open Ext
variable {K : Type}

/-- a finite complex number -/
def finC (z : Cx K) : XCx K := ⟨.fin z.re, .fin z.im⟩

/-- a finite range -/
def finRan (r : K × K) : XNum K × XNum K := (.fin r.1, .fin r.2)

/-- a finite root and its order -/
def finRoot (r : Root K) : XCx K × ℤ := (finC r.1, r.2)

/-- `xf` has at finite points the (finite) values of `f` -/
def FiniteValues (f : Cx K → Cx K) (xf : XCx K → XCx K) : Prop := ∀ z, xf (finC z) = finC (f z)

/-- both have no derivative, or derivatives with the same values at finite points -/
def FiniteDeriv (df : Option (Cx K → Cx K)) (xdf : Option (XCx K → XCx K)) : Prop :=
  (df = none ∧ xdf = none) ∨ ∃ d xd, df = some d ∧ xdf = some xd ∧ FiniteValues d xd

/-- for a function with finite values at finite points and finite starting points, the solvers return the same finite
numbers, or both fail -/
structure FiniteSolver (nt : NewtonSolver K) (xnt : XSolver K) : Prop where
  secant : ∀ f xf, FiniteValues f xf → ∀ a b tol,
    xnt.secant xf (finC a) (finC b) tol = (nt.secant f a b tol).map finC
  newton : ∀ f xf df xdf, FiniteValues f xf → FiniteValues df xdf → ∀ a tol,
    xnt.newton xf xdf (finC a) tol = (nt.newton f df a tol).map finC

section
variable [Field K] [LinearOrder K]

/-- the same settings and, for finite arguments (and nonzero divisors), the same library operations of the summation
estimator -/
structure FiniteSum (cfg : SumCfg K) (xcfg : XSumCfg K) : Prop where
  numPts : xcfg.numPts = cfg.numPts
  deltaPhi : xcfg.deltaPhi = cfg.deltaPhi
  maxPrecision : xcfg.maxPrecision = cfg.maxPrecision
  evals : xcfg.evals = cfg.evals
  steps : xcfg.steps = cfg.steps
  phase : ∀ a b, a ≠ 0 → xcfg.phase (finC a) (finC b) = .fin (cfg.arg (b / a))
  dist : ∀ a b, ∃ d, xcfg.dist (finC a) (finC b) = .fin d ∧ 0 ≤ d ∧ d ^ 2 = (a - b).normSq

variable [IsStrictOrderedRing K]

/-- the same for the quadrature estimator -/
structure FiniteQuad (cfg : QuadCfg K) (xcfg : XQuadCfg K) : Prop where
  evals : xcfg.evals = cfg.evals
  steps : xcfg.steps = cfg.steps
  quot : ∀ d v, v ≠ 0 → xcfg.quot (finC d) (finC v) = finC (d / v)
  romb : ∀ ys dx, xcfg.romb (ys.map .fin) (.fin dx) = .fin (cfg.romb ys dx)
  dist : ∀ a b, xcfg.dist (finC a) (finC b) = .fin (cfg.abs (b - a))

variable {σ : Type} [FloorRing K]

/-- A search with floating point numbers (its outcome and the roots it hands to the container) does the same as the search
`s` with exact arithmetic by a finder whose container was `before`: the same outcome, and the container received the
same roots in the same order. -/
def SameSearch (x : Except Err Unit × List (XCx K × ℤ)) (s : Search σ K) (before : AnyContainer K) (info : Bool)
    (context : FilterCtx K) : Prop :=
  ∃ roots : List (Root K), x = (s.outcome, roots.map finRoot) ∧
    s.finder.container = before.addRoots info context roots

end
end PyZeal.Spec
