import Verif.Model.ScipyNewton

/-! # `scipy.optimize.newton` on an array without derivative

External; called in `pyzeal/algorithms/newton_grid.py` 70 when the finder has no derivative (`_array_newton` with `fprime=None`: the secant method for all start points at the same time),
in exact arithmetic. The arrays `p, p1, q0, q1, active, failures, nz_der` are one list of records. -/

namespace PyZeal
variable {K : Type} [Field K] [LinearOrder K] [IsStrictOrderedRing K]

/-- the entries of scipy's arrays which belong to one start point -/
structure SecantPt (K : Type) where
  p : Cx K
  p1 : Cx K
  q0 : Cx K
  q1 : Cx K
  active : Bool
  failed : Bool
  nz : Bool

/-- The second start point: `p * (1 + dx) + where(p >= 0, dx, -dx)`; numpy orders complex numbers lexicographically. `dx` is `eps ** 0.33`, about 6.8e-6. -/
def secondStart (dx : K) (x : Cx K) : Cx K :=
  x * ⟨1 + dx, 0⟩ + if 0 < x.re ∨ (x.re = 0 ∧ 0 ≤ x.im) then ⟨dx, 0⟩ else ⟨-dx, 0⟩

/-- the arrays at the beginning -/
def SecantPt.start (f : Cx K → Cx K) (dx : K) (x : Cx K) : SecantPt K :=
  ⟨x, secondStart dx x, f x, f (secondStart dx x), true, true, true⟩

/-- One step: where the two values differ the secant step; where they are equal for the first time the middle of the two points; otherwise nothing. -/
def SecantPt.move (abs : Cx K → K) (tol : K) (s : SecantPt K) : SecantPt K :=
  if s.nz = true then { s with p := s.p1 - s.q1 * (s.p1 - s.p) / (s.q1 - s.q0), failed := decide (tol ≤ abs (s.q1 * (s.p1 - s.p) / (s.q1 - s.q0))) }
  else { s with p := if s.active = true then (s.p1 + s.p) / 2 else s.p, active := false }

/-- `p1, p = p, p1; q0 = q1; q1 = f(p1)` -/
def SecantPt.swap (f : Cx K → Cx K) (s : SecantPt K) : SecantPt K := { s with p := s.p1, p1 := s.p, q0 := s.q1, q1 := f s.p }

/-- the loop: it stops if the two values are equal for all points, or if all points where they differ have converged -/
def arraySecantLoop (abs : Cx K → K) (f : Cx K → Cx K) (tol : K) : ℕ → List (SecantPt K) → List (SecantPt K)
  | 0, l => l
  | n + 1, l =>
    let l := l.map fun s => { s with nz := decide (s.q1 ≠ s.q0) }
    if ∀ s ∈ l, s.nz = false then l.map fun s => { s with p := (s.p1 + s.p) / 2 }
    else
      let l := l.map (SecantPt.move abs tol)
      if ∀ s ∈ l, s.nz = true → s.failed = false then l else arraySecantLoop abs f tol n (l.map (SecantPt.swap f))

/-- `_array_newton` without derivative: `RuntimeError` if no point has converged, and for none of them the last two values were equal; otherwise all points are returned -/
def arraySecant (abs : Cx K → K) (dx : K) (f : Cx K → Cx K) (tol : K) (maxiter : ℕ) (x0 : List (Cx K)) : Option (List (Cx K)) :=
  let r := arraySecantLoop abs f tol maxiter (x0.map (SecantPt.start f dx))
  if ∃ s ∈ r, s.nz = false ∧ s.failed = true then some (r.map SecantPt.p)
  else if ∀ s ∈ r, s.failed = true then none
  else some (r.map SecantPt.p)

/-- The solver as it is called, with and without derivative: `maxiter = 50`, in the grid algorithm with the default `tol = 1.48e-8`. -/
def scipyAll (abs : Cx K → K) (dx : K) : NewtonSolver K := scipySolver abs fun f pts => arraySecant abs dx f (148 / 10 ^ 10) 50 pts

end PyZeal
