import Verif.Core.Num
import Mathlib.Algebra.BigOperators.Group.List.Basic

/-! # Specification vocabulary for quadrature -/

namespace PyZeal.Spec
variable {K : Type} [Field K]

/-- the point at fraction `t` of the way from `a` to `b` -/
def along (a b : Cx K) (t : K) : Cx K := a + Cx.smul t (b - a)

/-- the `n + 1` equidistant points dividing the line from `a` to `b` into `n` intervals -/
def grid (a b : Cx K) (n : ℕ) : List (Cx K) :=
  (List.range (n + 1)).map fun (i : ℕ) => along a b ((i : K) / (n : K))

/-- The quadrature rule applied to real and imaginary part of `g` on the grid with `2^s` intervals. `d` is the
length of the line. -/
def quadAt (romb : List K → K → K) (g : Cx K → Cx K) (a b : Cx K) (d : K) (s : ℕ) : Cx K :=
  ⟨romb ((grid a b (2 ^ s)).map fun z => (g z).re) (d / 2 ^ s),
   romb ((grid a b (2 ^ s)).map fun z => (g z).im) (d / 2 ^ s)⟩

/-- two successive quadrature values agree to three digits in both components -/
def quadClose [LinearOrder K] (x y : Cx K) : Prop :=
  |y.re - x.re| < 1 / 1000 ∧ |y.im - x.im| < 1 / 1000

/-- the trapezoidal rule, a concrete quadrature rule for the examples -/
def trapezoid (y : List K) (dx : K) : K := dx * (y.sum - (y.headD 0 + y.getLastD 0) / 2)

end PyZeal.Spec
