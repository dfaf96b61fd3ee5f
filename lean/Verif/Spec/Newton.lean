import Verif.Spec.QuadSearch

/-! # Specification vocabulary: where Newton's method converges -/

namespace PyZeal.Spec

/-- `c` is a simple zero of `f`, and on the disc around `c` with radius `r` the derivative of `f` is `df` and differs from its value at `c` by at most a sixth of this value.
(Every simple zero of an analytic function has such a disc.) -/
structure Steady (f df : Cx ℝ → Cx ℝ) (c : Cx ℝ) (r : ℝ) : Prop where
  zero : f c = 0
  simple : df c ≠ 0
  deriv : ∀ z, ‖point z - point c‖ ≤ r → HasDerivAt (fun u : ℂ => point (f ⟨u.re, u.im⟩)) (point (df z)) (point z)
  steady : ∀ z, ‖point z - point c‖ ≤ r → ‖point (df z) - point (df c)‖ ≤ ‖point (df c)‖ / 6

/-- one step of Newton's method; a point where the derivative vanishes stays -/
noncomputable def newtonStep (f df : Cx ℝ → Cx ℝ) (z : Cx ℝ) : Cx ℝ := open Classical in if df z = 0 then z else z - f z / df z

/-- Whenever a search (rectangle `re x im`, search precision `p`) comes to a rectangle with sides below 0.1 which contains exactly one zero, the derivative is steady on the disc around
this zero whose radius is the sum of the sides. -/
def Tame (f df : Cx ℝ → Cx ℝ) (p : ℤ × ℤ) (zeros : List (Cx ℝ)) (re im : ℝ × ℝ) : Prop :=
  ∀ r i, Reached p zeros re im r i → Cell.count ⟨r, i, 0⟩ zeros = 1 → r.2 - r.1 < 1 / 10 → i.2 - i.1 < 1 / 10 →
    ∀ z ∈ zeros, Cell.HasHalfOpen ⟨r, i, 0⟩ z → Steady f df z ((r.2 - r.1) + (i.2 - i.1))

end PyZeal.Spec
