import Verif.Model.NewtonFloat
import Verif.Spec.Float
import Verif.Spec.NewtonRounded

/-! # Specification vocabulary for the Newton variant in floating-point arithmetic (C153, C154) -/

namespace PyZeal.Spec
variable {K : Type} [Field K] [LinearOrder K]

/-- the computed test for starting Newton's method: the phase lies strictly between the computed constants `TWO_PI` and `FOUR_PI` and the computed sides are below the computed `0.1` -/
def Cell.OneTurnF (A : FloatOps K) (pi : K) (c : Cell K) : Prop :=
  A.fl (A.fl (8 / 10) * A.fl (2 * pi)) < c.phi ∧ c.phi < A.fl (A.fl (65 / 100) * A.fl (4 * pi)) ∧
    A.fl (c.re.2 - c.re.1) < A.fl (1 / 10) ∧ A.fl (c.im.2 - c.im.1) < A.fl (1 / 10)

/-- the computed centre of a rectangle -/
def Cell.centreF (A : FloatOps K) (c : Cell K) : Cx K :=
  ⟨A.fl (A.fl (c.re.1 + c.re.2) / 2), A.fl (A.fl (c.im.1 + c.im.2) / 2)⟩

/-- the smaller one of the computed bounds `10 ** (-p)` -/
def tolF (A : FloatOps K) (p : ℤ × ℤ) : K := min (A.pow10 p.1) (A.pow10 p.2)

/-- Called for the rectangle `c`, the solver finds the point `z`: both calls (the second one only if there is a derivative) return a point which differs from `z` by less than the computed
`10 ** (-p)` in each coordinate. -/
def FindsF (A : FloatOps K) (nt : NewtonSolver K) (ctx : RCtx K) (c : Cell K) (z : Cx K) : Prop :=
  (∃ z', nt.secant ctx.f ⟨c.re.1, (Cell.centreF A c).im⟩ ⟨c.re.2, (Cell.centreF A c).im⟩ (tolF A ctx.precision) = some z' ∧
    Near (A.pow10 ctx.precision.1, A.pow10 ctx.precision.2) z' z) ∧
  ∀ df, ctx.df = some df → ∃ z', nt.newton ctx.f df (Cell.centreF A c) (tolF A ctx.precision) = some z' ∧
    Near (A.pow10 ctx.precision.1, A.pow10 ctx.precision.2) z' z

/-- `r` is what a call of the solver for the rectangle `c` returned, as a root of order 1 -/
def Solved (A : FloatOps K) (nt : NewtonSolver K) (ctx : RCtx K) (c : Cell K) (r : Root K) : Prop :=
  r.2 = 1 ∧ (nt.secant ctx.f ⟨c.re.1, (Cell.centreF A c).im⟩ ⟨c.re.2, (Cell.centreF A c).im⟩ (tolF A ctx.precision) = some r.1 ∨
    ∃ df, ctx.df = some df ∧ nt.newton ctx.f df (Cell.centreF A c) (tolF A ctx.precision) = some r.1)

/-- What the solver needs near the zero `z` of a rectangle: the derivative is steady (C133) and the computed operations are accurate (C150) on the disc around `z` whose radius is the width plus
twice the height plus the tolerance; the width is at least half of the tolerance, and width plus twice the height is at most `κ` times the width. -/
def TameAt (A : FloatOps ℝ) (O : SolverOps ℝ) (f df : Cx ℝ → Cx ℝ) (p : ℤ × ℤ) (c : Cell ℝ) (z : Cx ℝ) : Prop :=
  ∃ κ, tolF A p / 2 ≤ c.re.2 - c.re.1 ∧ (c.re.2 - c.re.1) + 2 * (c.im.2 - c.im.1) ≤ κ * (c.re.2 - c.re.1) ∧
    Steady f df z ((c.re.2 - c.re.1) + 2 * (c.im.2 - c.im.1) + tolF A p) ∧
    SolverAccurate O f df z ((c.re.2 - c.re.1) + 2 * (c.im.2 - c.im.1) + tolF A p) (tolF A p) κ

/-- The solver finds the zeros for which the search with the Newton variant starts it: in every rectangle a completed search looks at. -/
def SolverFindsF {K σ : Type} [Field K] [LinearOrder K] [FloorRing K] (A : FloatOps K) (nt : NewtonSolver K) (est : LineEst σ K) (pi : K) (limit : ℕ) (ctx : RCtx K) (zeros : List (Cx K)) : Prop :=
  ∀ w w', simpleArgumentNewtonF A nt est pi limit ctx w = (.ok (), w') → ∀ c ∈ newCells w w', Cell.OneTurnF A pi c → ∀ z ∈ zeros, Cell.HasHalfOpen c z → FindsF A nt ctx c z

end PyZeal.Spec
