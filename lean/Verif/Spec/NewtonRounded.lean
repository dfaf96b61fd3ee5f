import Verif.Model.NewtonRounded
import Verif.Spec.Newton

/-! # How accurately a solver computes near a simple zero (C150-C152) -/

namespace PyZeal.Spec

/-- The arithmetic operations and the absolute value have relative error at most `u`, measured in the complex plane. (For doubles, without overflow and underflow, `u` is a few times `2^-53`.) -/
structure RelativeOps (O : SolverOps ℝ) (u : ℝ) : Prop where
  add : ∀ z w, ‖point (O.add z w) - (point z + point w)‖ ≤ u * ‖point z + point w‖
  sub : ∀ z w, ‖point (O.sub z w) - (point z - point w)‖ ≤ u * ‖point z - point w‖
  mul : ∀ z w, ‖point (O.mul z w) - point z * point w‖ ≤ u * ‖point z * point w‖
  div : ∀ z w, w ≠ 0 → ‖point (O.div z w) - point z / point w‖ ≤ u * ‖point z / point w‖
  abs : ∀ z, |O.abs z - ‖point z‖| ≤ u * ‖point z‖

/-- The user's function and derivative are evaluated accurately on the disc: values up to `d` times the slope of `f` at `c`, values of the derivative up to a sixtieth of that slope. -/
structure EvaluatesNear (O : SolverOps ℝ) (f df : Cx ℝ → Cx ℝ) (c : Cx ℝ) (r d : ℝ) : Prop where
  value : ∀ z, ‖point z - point c‖ ≤ r → ‖point (O.eval f z) - point (f z)‖ ≤ ‖point (df c)‖ * d
  slope : ∀ z, ‖point z - point c‖ ≤ r → ‖point (O.eval df z) - point (df z)‖ ≤ ‖point (df c)‖ / 60

/-- Everything the solver needs on the disc around `c` with radius `r`, for the tolerance `tol` and start points whose distances from the zero are together at most `κ ≥ 4` times their distance
from each other: evaluation accurate up to `tol / (40 * κ)`, and operations whose relative error times the size of the numbers is at most `tol / (320 * κ)`. -/
structure SolverAccurate (O : SolverOps ℝ) (f df : Cx ℝ → Cx ℝ) (c : Cx ℝ) (r tol κ : ℝ) : Prop where
  large : 4 ≤ κ
  inside : tol ≤ r
  eval : EvaluatesNear O f df c r (tol / (40 * κ))
  ops : ∃ u, 0 ≤ u ∧ RelativeOps O u ∧ 320 * (κ * (u * (‖point c‖ + r))) ≤ tol

/-- Whenever a search (rectangle `re x im`, search precision `p`) comes to a rectangle with sides below 0.1 which contains exactly one zero: the derivative is steady on the disc around this zero whose
radius is the sum of the sides plus the tolerance `10^-p` (the smaller one), and the solver is accurate there, with a `κ` for which the sum of the sides is at most `κ` times the horizontal one. -/
def TameComputed (O : SolverOps ℝ) (f df : Cx ℝ → Cx ℝ) (p : ℤ × ℤ) (zeros : List (Cx ℝ)) (re im : ℝ × ℝ) : Prop :=
  ∀ r i, Reached p zeros re im r i → Cell.count ⟨r, i, 0⟩ zeros = 1 → r.2 - r.1 < 1 / 10 → i.2 - i.1 < 1 / 10 →
    ∀ z ∈ zeros, Cell.HasHalfOpen ⟨r, i, 0⟩ z → ∃ κ, (r.2 - r.1) + (i.2 - i.1) ≤ κ * (r.2 - r.1) ∧
      Steady f df z ((r.2 - r.1) + (i.2 - i.1) + min ((10 : ℝ) ^ (-p.1)) (10 ^ (-p.2))) ∧
      SolverAccurate O f df z ((r.2 - r.1) + (i.2 - i.1) + min ((10 : ℝ) ^ (-p.1)) (10 ^ (-p.2))) (min ((10 : ℝ) ^ (-p.1)) (10 ^ (-p.2))) κ

/-- a computed Newton step for one point of an array; points where the computed derivative is zero stay -/
noncomputable def newtonStepC (O : SolverOps ℝ) (f df : Cx ℝ → Cx ℝ) (x : Cx ℝ) : Cx ℝ :=
  open Classical in if O.eval df x ≠ 0 then O.sub x (O.div (O.eval f x) (O.eval df x)) else x

end PyZeal.Spec
