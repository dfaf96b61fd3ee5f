import Verif.Spec.Newton

/-! # Specification vocabulary: the secant method -/

namespace PyZeal.Spec

/-- `a, b` are two consecutive points after `k` steps of the secant method for `f` from `x0, x1`. Where the values at `a` and `b` are equal, no secant exists: then the next
point is the middle of the two, or the previous point. -/
inductive SecantAfter (f : Cx ℝ → Cx ℝ) (x0 x1 : Cx ℝ) : ℕ → Cx ℝ → Cx ℝ → Prop
  | start : SecantAfter f x0 x1 0 x0 x1
  | step {k a b} : SecantAfter f x0 x1 k a b → f b ≠ f a → SecantAfter f x0 x1 (k + 1) b (b - f b * (b - a) / (f b - f a))
  | middle {k a b} : SecantAfter f x0 x1 k a b → f b = f a → SecantAfter f x0 x1 (k + 1) b ((b + a) / 2)
  | stay {k a b} : SecantAfter f x0 x1 k a b → f b = f a → SecantAfter f x0 x1 (k + 1) b a

/-- The other start point next to `x`: `x * (1 + dx)` moved by `dx` away from zero (in the sense of the sign of the real part, for purely imaginary numbers of the imaginary part). -/
def Beside (dx : ℝ) (x y : Cx ℝ) : Prop :=
  point y = point x * (1 + dx) + (if 0 < x.re ∨ (x.re = 0 ∧ 0 ≤ x.im) then (dx : ℂ) else -(dx : ℂ))

end PyZeal.Spec
