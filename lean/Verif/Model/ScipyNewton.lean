import Verif.Model.Algorithms

/-! # `scipy.optimize.newton`

External; called in `pyzeal/algorithms/simple_holo_newton.py` 73-90 and `pyzeal/algorithms/newton_grid.py` 70. In `Model/Algorithms.lean` it is a
parameter (`NewtonSolver`); this is the algorithm scipy documents and implements, in exact arithmetic. `abs` is the absolute value of a complex number. -/

namespace PyZeal
variable {K : Type} [Field K] [LinearOrder K] [IsStrictOrderedRing K]

/-- Newton's method for one start point, `maxiter` steps (the argument): stop at a zero, at a step of at most `tol` (`np.isclose` with `rtol = 0`);
`RuntimeError` (`none`) if the derivative is zero, or without convergence. -/
def scipyNewton (abs : Cx K → K) (f df : Cx K → Cx K) (tol : K) : ℕ → Cx K → Option (Cx K)
  | 0, _ => none
  | n + 1, p0 =>
    if f p0 = 0 then some p0
    else if df p0 = 0 then none
    else
      let p := p0 - f p0 / df p0
      if abs (p - p0) ≤ tol then some p else scipyNewton abs f df tol n p

/-- one step of the secant method; the larger of the two values is divided by -/
def secantStep (abs : Cx K → K) (p0 q0 p1 q1 : Cx K) : Cx K :=
  if abs q0 < abs q1 then (-q0 / q1 * p1 + p0) / (1 - q0 / q1) else (-q1 / q0 * p0 + p1) / (1 - q1 / q0)

/-- the loop of the secant method: `RuntimeError` if the two values are equal but the points are not, or without convergence -/
def secantLoop (abs : Cx K → K) (f : Cx K → Cx K) (tol : K) : ℕ → Cx K → Cx K → Cx K → Cx K → Option (Cx K)
  | 0, _, _, _, _ => none
  | n + 1, p0, q0, p1, q1 =>
    if q1 = q0 then if p1 ≠ p0 then none else some ((p1 + p0) / 2)
    else
      let p := secantStep abs p0 q0 p1 q1
      if abs (p - p1) ≤ tol then some p else secantLoop abs f tol n p1 q1 p (f p)

/-- The secant method from two start points; the one with the smaller value becomes `p0`. (For equal start points scipy raises `ValueError`; the start points used here are different.) -/
def scipySecant (abs : Cx K → K) (f : Cx K → Cx K) (maxiter : ℕ) (x0 x1 : Cx K) (tol : K) : Option (Cx K) :=
  if abs (f x1) < abs (f x0) then secantLoop abs f tol maxiter x1 (f x1) x0 (f x0) else secantLoop abs f tol maxiter x0 (f x0) x1 (f x1)

/-- The loop of `_array_newton` with derivative: all points make a step at the same time, points with derivative zero stay. `failures` marks the points which have not converged,
`nzDer` those whose derivative was not zero in the last step. It stops if all values are zero, if all derivatives are zero, or if all points with non-zero derivative have converged. -/
def arrayLoop (abs : Cx K → K) (f df : Cx K → Cx K) (tol : K) : ℕ → List (Cx K) → List Bool → List Bool → List (Cx K) × List Bool × List Bool
  | 0, p, failures, nzDer => (p, failures, nzDer)
  | n + 1, p, failures, nzDer =>
    if ∀ x ∈ p, f x = 0 then (p, p.map fun _ => false, nzDer)
    else
      let nzDer := p.map fun x => decide (df x ≠ 0)
      if ∀ x ∈ p, df x = 0 then (p, failures, nzDer)
      else
        let p' := p.map fun x => if df x ≠ 0 then x - f x / df x else x
        let failures := List.zipWith (fun x failed => if df x ≠ 0 then decide (tol ≤ abs (f x / df x)) else failed) p failures
        if ∀ z ∈ List.zip nzDer failures, ¬ (z.1 = true ∧ z.2 = true) then (p', failures, nzDer) else arrayLoop abs f df tol n p' failures nzDer

/-- `_array_newton` with derivative: `RuntimeError` if no point has converged and none of them has derivative zero; otherwise all points are returned, also those which have not converged -/
def arrayNewton (abs : Cx K → K) (f df : Cx K → Cx K) (tol : K) (maxiter : ℕ) (x0 : List (Cx K)) : Option (List (Cx K)) :=
  let r := arrayLoop abs f df tol maxiter x0 (x0.map fun _ => true) (x0.map fun _ => true)
  if ∃ z ∈ List.zip r.2.1 r.2.2, z.1 = true ∧ z.2 = false then some r.1
  else if ∀ b ∈ r.2.1, b = true then none
  else some r.1

/-- The solver as it is called: `maxiter = 50`, in the grid algorithm with the default `tol = 1.48e-8`. The array version without derivative is left as a parameter. -/
def scipySolver (abs : Cx K → K) (arraySecant : (Cx K → Cx K) → List (Cx K) → Option (List (Cx K))) : NewtonSolver K where
  secant := fun f x0 x1 tol => scipySecant abs f 50 x0 x1 tol
  newton := fun f df x0 tol => scipyNewton abs f df tol 50 x0
  grid := fun f pts df =>
    match df with
    | some df => arrayNewton abs f df (148 / 10 ^ 10) 50 pts
    | none => arraySecant f pts

end PyZeal
