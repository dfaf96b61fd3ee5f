import Verif.Model.Summation

/-! # Specification vocabulary for the summation estimator -/

namespace PyZeal
variable {K : Type}

/-- A history of line queries on one summation estimator (failing queries are caught by the caller). -/
def runLines [Field K] [LinearOrder K] [FloorRing K] (cfg : SumCfg K) (w : World (SumState K) K) :
    List (ℤ × Cx K × Cx K × RCtx K) → World (SumState K) K
  | [] => w
  | (o, a, b, ctx) :: qs => runLines cfg (sumLine cfg o a b ctx w).2 qs

namespace Spec

/-- the point lies on the boundary of the rectangle spanned by the two intervals -/
def OnBoundary [LinearOrder K] (re im : K × K) (z : Cx K) : Prop :=
  ((z.re = re.1 ∨ z.re = re.2) ∧ min im.1 im.2 ≤ z.im ∧ z.im ≤ max im.1 im.2) ∨
  ((z.im = im.1 ∨ z.im = im.2) ∧ min re.1 re.2 ≤ z.re ∧ z.re ≤ max re.1 re.2)

/-- the point lies on the closed segment between two points of an axis parallel line -/
def OnSegment [LinearOrder K] (a b z : Cx K) : Prop :=
  min a.re b.re ≤ z.re ∧ z.re ≤ max a.re b.re ∧ min a.im b.im ≤ z.im ∧ z.im ≤ max a.im b.im

end Spec
end PyZeal
