import Verif.Core.Num

/-! # Specification: decimal rounding -/

namespace PyZeal.Spec
variable {K : Type} [Field K] [LinearOrder K]

/-- `y` is the multiple of `10^-p` closest to `x`; if `x` lies exactly between two
multiples, `y` is the one with even numerator (Python's documented `round`). -/
def NearestEven (p : ℤ) (x y : K) : Prop :=
  ∃ n : ℤ, y = (n : K) * (10 : K) ^ (-p) ∧ |x - y| ≤ (10 : K) ^ (-p) / 2 ∧
    (|x - y| = (10 : K) ^ (-p) / 2 → Even n)

/-- `x` has at most `p` decimal places. -/
def HasDecimals (p : ℤ) (x : K) : Prop := ∃ n : ℤ, x = (n : K) * (10 : K) ^ (-p)

/-- the complex number `w` is `z` with both coordinates rounded -/
def RoundsTo (p : ℤ × ℤ) (z w : Cx K) : Prop :=
  NearestEven p.1 z.re w.re ∧ NearestEven p.2 z.im w.im

end PyZeal.Spec
