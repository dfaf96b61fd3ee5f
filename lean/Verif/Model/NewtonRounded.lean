import Verif.Model.ScipyNewton

/-! # `scipy.optimize.newton` with computed operations

The scalar methods and the array version with derivative of Model/ScipyNewton.lean once more, with every arithmetic operation replaced by a computed one: values of functions, sums, products, quotients and absolute
values are what the machine makes of them. (Called in simple_holo_newton.py 73-90, newton_grid.py 70.) With exact operations it is the exact model (`C150_exact_newton`, `C150_exact_secant`, `C152_exact`).
Not modelled: infinities, NaN, underflow. -/

namespace PyZeal
variable {K : Type}

/-- the operations as computed; `eval f z` is the computed value of the function `f` at `z` -/
structure SolverOps (K : Type) where
  eval : (Cx K → Cx K) → Cx K → Cx K
  add : Cx K → Cx K → Cx K
  sub : Cx K → Cx K → Cx K
  mul : Cx K → Cx K → Cx K
  div : Cx K → Cx K → Cx K
  abs : Cx K → K

section
variable [Field K] [LinearOrder K]

/-- Newton's method, see `scipyNewton`: `newton_step = fval / fder; p = p0 - newton_step; np.isclose(p, p0, rtol=0, atol=tol)` -/
def scipyNewtonC (O : SolverOps K) (f df : Cx K → Cx K) (tol : K) : ℕ → Cx K → Option (Cx K)
  | 0, _ => none
  | n + 1, p0 =>
    if O.eval f p0 = 0 then some p0
    else if O.eval df p0 = 0 then none
    else
      let p := O.sub p0 (O.div (O.eval f p0) (O.eval df p0))
      if O.abs (O.sub p p0) ≤ tol then some p else scipyNewtonC O f df tol n p

/-- one step of the secant method, see `secantStep`; negation is exact -/
def secantStepC (O : SolverOps K) (p0 q0 p1 q1 : Cx K) : Cx K :=
  if O.abs q0 < O.abs q1 then O.div (O.add (O.mul (O.div (-q0) q1) p1) p0) (O.sub 1 (O.div q0 q1))
  else O.div (O.add (O.mul (O.div (-q1) q0) p0) p1) (O.sub 1 (O.div q1 q0))

/-- the loop of the secant method, see `secantLoop` -/
def secantLoopC (O : SolverOps K) (f : Cx K → Cx K) (tol : K) : ℕ → Cx K → Cx K → Cx K → Cx K → Option (Cx K)
  | 0, _, _, _, _ => none
  | n + 1, p0, q0, p1, q1 =>
    if q1 = q0 then if p1 ≠ p0 then none else some (O.div (O.add p1 p0) 2)
    else
      let p := secantStepC O p0 q0 p1 q1
      if O.abs (O.sub p p1) ≤ tol then some p else secantLoopC O f tol n p1 q1 p (O.eval f p)

/-- the secant method from two start points, see `scipySecant` -/
def scipySecantC (O : SolverOps K) (f : Cx K → Cx K) (maxiter : ℕ) (x0 x1 : Cx K) (tol : K) : Option (Cx K) :=
  if O.abs (O.eval f x1) < O.abs (O.eval f x0) then secantLoopC O f tol maxiter x1 (O.eval f x1) x0 (O.eval f x0)
  else secantLoopC O f tol maxiter x0 (O.eval f x0) x1 (O.eval f x1)

/-- the loop of `_array_newton` with derivative, see `arrayLoop` -/
def arrayLoopC (O : SolverOps K) (f df : Cx K → Cx K) (tol : K) : ℕ → List (Cx K) → List Bool → List Bool → List (Cx K) × List Bool × List Bool
  | 0, p, failures, nzDer => (p, failures, nzDer)
  | n + 1, p, failures, nzDer =>
    if ∀ x ∈ p, O.eval f x = 0 then (p, p.map fun _ => false, nzDer)
    else
      let nzDer := p.map fun x => decide (O.eval df x ≠ 0)
      if ∀ x ∈ p, O.eval df x = 0 then (p, failures, nzDer)
      else
        let p' := p.map fun x => if O.eval df x ≠ 0 then O.sub x (O.div (O.eval f x) (O.eval df x)) else x
        let failures := List.zipWith (fun x failed => if O.eval df x ≠ 0 then decide (tol ≤ O.abs (O.div (O.eval f x) (O.eval df x))) else failed) p failures
        if ∀ z ∈ List.zip nzDer failures, ¬ (z.1 = true ∧ z.2 = true) then (p', failures, nzDer) else arrayLoopC O f df tol n p' failures nzDer

/-- `_array_newton` with derivative, see `arrayNewton` -/
def arrayNewtonC (O : SolverOps K) (f df : Cx K → Cx K) (tol : K) (maxiter : ℕ) (x0 : List (Cx K)) : Option (List (Cx K)) :=
  let r := arrayLoopC O f df tol maxiter x0 (x0.map fun _ => true) (x0.map fun _ => true)
  if ∃ z ∈ List.zip r.2.1 r.2.2, z.1 = true ∧ z.2 = false then some r.1
  else if ∀ b ∈ r.2.1, b = true then none
  else some r.1

/-- the solver as it is called: `maxiter = 50`, in the grid algorithm with the default `tol = 1.48e-8`; the array version without derivative is left as a parameter -/
def roundedSolver (O : SolverOps K) (arraySecant : (Cx K → Cx K) → List (Cx K) → Option (List (Cx K))) : NewtonSolver K where
  secant := fun f x0 x1 tol => scipySecantC O f 50 x0 x1 tol
  newton := fun f df x0 tol => scipyNewtonC O f df tol 50 x0
  grid := fun f pts df =>
    match df with
    | some df => arrayNewtonC O f df (148 / 10 ^ 10) 50 pts
    | none => arraySecant f pts

/-- exact operations -/
def SolverOps.exact (abs : Cx K → K) : SolverOps K := ⟨fun f z => f z, (· + ·), (· - ·), (· * ·), (· / ·), abs⟩

end
end PyZeal
