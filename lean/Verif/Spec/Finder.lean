import Verif.Model.Finder
import Verif.Spec.Search
import Verif.Spec.Rounding
import Verif.Model.Quadrature
import Verif.Model.Summation

/-! # Specification vocabulary for root finders -/

namespace PyZeal.Spec
variable {K : Type}

/-- what a container holds: the elements of a rounding container's set, or everything put into a plain container -/
def held : AnyContainer K → List (Root K)
  | .rounding c => c.rootSet
  | .plain c => c.roots ++ c.queue

/-- the container holds nothing -/
def IsEmpty (c : AnyContainer K) : Prop := held c = []

/-- the container is a rounding container without filters -/
def RoundsFreely : AnyContainer K → Prop
  | .rounding c => c.filters = []
  | .plain _ => False

/-- the precision a rounding container was filled with is `p` (no condition on plain containers) -/
def FilledWith (p : ℤ × ℤ) : AnyContainer K → Prop
  | .rounding c => c.precision = p
  | .plain _ => True

/-- the set of a rounding container lists each element once (true of every Python set) -/
def IsSet : AnyContainer K → Prop
  | .rounding c => c.rootSet.Nodup
  | .plain _ => True

section
variable [Field K] [LinearOrder K] [IsStrictOrderedRing K] [FloorRing K]

/-- the estimators of the code -/
inductive ShippedEstimator : LineEst (SumState K) K → Prop
  | summation (cfg : SumCfg K) : ShippedEstimator (sumLine cfg)
  | quadrature (cfg : QuadCfg K) : ShippedEstimator (quadLine cfg)

/-- the algorithms of the code, with any of its estimators, any external solvers, any recursion limit -/
inductive ShippedAlgorithm : (RCtx K → Py (World (SumState K) K) Unit) → Prop
  | simple (est) (pi : K) (limit : ℕ) (h : ShippedEstimator est) : ShippedAlgorithm (simpleArgument est pi limit)
  | newton (nt : NewtonSolver K) (est) (pi : K) (limit : ℕ) (h : ShippedEstimator est) :
      ShippedAlgorithm (simpleArgumentNewton nt est pi limit)
  | polynomial (polyRoots : List (Cx K) → List (Cx K)) (est) (pi : K) (limit : ℕ) (h : ShippedEstimator est) :
      ShippedAlgorithm (associatedPolynomial polyRoots est pi limit)
  | grid (nt : NewtonSolver K) (n : ℕ) (t : Bool) : ShippedAlgorithm (newtonGrid nt n t)

/-- the (closed) rectangle a user asks for; the end points may come in any order -/
def Requested (reRan imRan : K × K) (z : Cx K) : Prop :=
  min reRan.1 reRan.2 ≤ z.re ∧ z.re ≤ max reRan.1 reRan.2 ∧ min imRan.1 imRan.2 ≤ z.im ∧ z.im ≤ max imRan.1 imRan.2

/-- the same rectangle, enlarged by less than `d` on each side -/
def RequestedWithin (d : K × K) (reRan imRan : K × K) (z : Cx K) : Prop :=
  min reRan.1 reRan.2 - d.1 < z.re ∧ z.re < max reRan.1 reRan.2 + d.1 ∧
  min imRan.1 imRan.2 - d.2 < z.im ∧ z.im < max imRan.1 imRan.2 + d.2

/-- the closed rectangle asked for, enlarged by `d` on each side -/
def Enlarged (d : K × K) (reRan imRan : K × K) : Cell K :=
  ⟨(min reRan.1 reRan.2 - d.1, max reRan.1 reRan.2 + d.1), (min imRan.1 imRan.2 - d.2, max imRan.1 imRan.2 + d.2), 0⟩

/-- In all searches for `f` with precision `p` in rectangles inside `region` the estimator conforms: `zeros` lists
the zeros (with multiplicity), see `Conforming` and `BoundaryHits`. -/
def GoodEstimator {σ : Type} (est : LineEst σ K) (f : Cx K → Cx K) (df : Option (Cx K → Cx K)) (p : ℤ × ℤ)
    (region : Cell K) (pi : K) (zeros : List (Cx K)) (L : ℤ → Cx K → Cx K → Cx K) : Prop :=
  ∀ ctx : RCtx K, ctx.f = f → ctx.df = df → ctx.precision = p → Cell.In ⟨ctx.reRan, ctx.imRan, 0⟩ region →
    Conforming est ctx pi zeros L ∧ BoundaryHits est ctx

/-- precision asked for in a call: the argument, or else the one stored in the finder -/
def Asked (call : Option (ℤ × ℤ)) (stored p : ℤ × ℤ) : Prop := call = some p ∨ call = none ∧ stored = p

end
end PyZeal.Spec
