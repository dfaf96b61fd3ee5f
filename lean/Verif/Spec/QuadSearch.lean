import Verif.Spec.Turn
import Mathlib.Analysis.SpecialFunctions.ExpDeriv
import Mathlib.Analysis.Calculus.IteratedDeriv.Defs
import Mathlib.Analysis.Analytic.Basic

/-! # Specification vocabulary: analytic functions, and the accuracy of numerical quadrature -/

namespace PyZeal.Spec

/-- a complex number of the model as a complex number of Mathlib -/
def point (z : Cx ℝ) : ℂ := ⟨z.re, z.im⟩

/-- On `S` the function `f` is `exp(G(z)) * prod (z - c)`, the product over the listed zeros (with multiplicity), and `df` is its derivative. `G` is
analytic, its third derivative at most `B`, and the argument `Im G` of the zero-free factor differs by at most `V` between points of `S`.
(Every function analytic in a neighbourhood of a rectangle, with finitely many zeros there, has this form; for polynomials `G` is constant, `B = V = 0`.) -/
structure AnalyticWith (f df : Cx ℝ → Cx ℝ) (S : Cx ℝ → Prop) (zeros : List (Cx ℝ)) (G : ℂ → ℂ) (B V : ℝ) : Prop where
  analytic : ∀ z, S z → AnalyticAt ℂ G (point z)
  value : ∀ z, S z → point (f z) = Complex.exp (G (point z)) * (zeros.map fun c => point z - point c).prod
  deriv : ∀ z, S z → HasDerivAt (fun u => Complex.exp (G u) * (zeros.map fun c => u - point c).prod) (point (df z)) (point z)
  bound : ∀ z, S z → ‖iteratedDeriv 3 G (point z)‖ ≤ B
  osc : ∀ a b, S a → S b → |(G (point b)).im - (G (point a)).im| ≤ V

/-- Bound for the error of the phase along one line of length `l`, if the `n` zeros have distance at least `d` from the line: first the error of
Romberg's method on `2^10` intervals, then the error caused by the wrong end points after more than two refinements (C32). -/
noncomputable def quadError (n : ℕ) (B V d l : ℝ) : ℝ :=
  l ^ 3 * (B + 2 * n / d ^ 3) / (3 * 4 ^ 10) + (Real.pi * n + V) / 2 ^ 12

/-- Every rectangle the search comes to look at (domain `re x im`, search precision `p`) has all zeros at some distance `d > 0` from its sides, such that the error bound along
each side is below a twentieth of a turn. (Only the proportion of the distance to the length of the side matters: for one zero a proportion of 1 : 75 is enough.) -/
def Resolved (p : ℤ × ℤ) (zeros : List (Cx ℝ)) (B V : ℝ) (re im : ℝ × ℝ) : Prop :=
  ∀ r i, Reached p zeros re im r i → ∃ d > 0, (∀ z, Cell.Boundary ⟨r, i, 0⟩ z → Far d zeros z) ∧
    quadError zeros.length B V d (r.2 - r.1) < Real.pi / 10 ∧ quadError zeros.length B V d (i.2 - i.1) < Real.pi / 10

end PyZeal.Spec
