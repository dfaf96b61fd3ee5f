import Verif.Model.Quadrature
import Mathlib.Algebra.BigOperators.Group.Finset.Basic

/-! # Romberg's method

`scipy.integrate.romb` (external), called in `pyzeal/algorithms/estimators/quad_estimator.py` 72-73 and 100-101. In
`Model/Quadrature.lean` it is a parameter; this is the algorithm scipy documents and implements, in exact arithmetic. -/

namespace PyZeal
variable {K : Type} [Field K]

/-- the first column `R[(i, 0)]` of the table: trapezoidal rule on `2^i` intervals, each row from the previous one. `n` is the number of
intervals of the samples `y`, `h` the length of the whole line; row `i + 1` adds `y[start:stop:step]` with `start = n / 2^(i+1)`,
`step = n / 2^i`, `stop = n`. -/
def rombTrap (y : List K) (n : ℕ) (h : K) : ℕ → K
  | 0 => (y.getD 0 0 + y.getD n 0) / 2 * h
  | i + 1 => 1 / 2 * (rombTrap y n h i + h / 2 ^ i * ((List.range (2 ^ i)).map fun m => y.getD (n / 2 ^ (i + 1) + m * (n / 2 ^ i)) 0).sum)

/-- `R[(i, j)]`, column `j` (first argument) from column `j - 1` -/
def rombTable (y : List K) (n : ℕ) (h : K) : ℕ → ℕ → K
  | 0, i => rombTrap y n h i
  | j + 1, i => rombTable y n h j i + (rombTable y n h j i - rombTable y n h j (i - 1)) / (4 ^ (j + 1) - 1)

/-- `scipy.integrate.romb(y, dx)` for `2^k + 1` samples: `R[(k, k)]` -/
def romberg (y : List K) (dx : K) : K :=
  rombTable y (y.length - 1) (((y.length - 1 : ℕ) : K) * dx) (Nat.log2 (y.length - 1)) (Nat.log2 (y.length - 1))

end PyZeal
