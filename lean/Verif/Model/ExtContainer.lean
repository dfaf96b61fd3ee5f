import Verif.Model.Ext
import Verif.Model.Container

/-!
# Rounding containers with infinite and undefined roots

`rounding_container.py` and the predefined filters of `container_factory.py` for numbers which may be infinite or NaN.
-/

namespace PyZeal.Ext
variable {K : Type} [Field K] [LinearOrder K] [FloorRing K]

/-- `round(x, p)`: infinities and NaN stay what they are (for Python's floats with a number of digits, and for numpy's) -/
def xRound (x : XNum K) (p : ℤ) : XNum K :=
  match x with
  | .fin x => .fin (pyRound x p)
  | x => x

/-- `RoundingContainer.roundRoot` (rounding_container.py 141-151) -/
def xRoundRoot (root : Root (XNum K)) (precision : ℤ × ℤ) : Root (XNum K) :=
  (⟨xRound root.1.re precision.1, xRound root.1.im precision.2⟩, root.2)

/-- equality of roots, which are pairs of a complex number and an integer; `complex(…)` in `roundRoot` makes a new
object, so that the comparison is never by identity -/
def xRootEq (r s : Root (XNum K)) : Bool := ceq r.1 s.1 && decide (r.2 = s.2)

/-- `r in s` -/
def xMember (s : List (Root (XNum K))) (r : Root (XNum K)) : Bool := s.any fun x => xRootEq x r

/-- `s.add(r)` -/
def xSetAdd (s : List (Root (XNum K))) (r : Root (XNum K)) : List (Root (XNum K)) :=
  if xMember s r then s else s ++ [r]

/-- `RoundingContainer.addRoot` (rounding_container.py 50-87) -/
def xAddRoot (info : Bool) (c : RContainer (XNum K)) (root : Root (XNum K)) (ctx : FilterCtx (XNum K)) :
    RContainer (XNum K) :=
  if c.filters.all fun e => e.2 root ctx then
    let c := if ctx.precision ≠ c.precision then
        { c with rootSet := [], precision := ctx.precision } else c
    let rounded := xRoundRoot root c.precision
    if info = true ∧ xMember c.rootSet rounded = true then c
    else { c with rootSet := xSetAdd c.rootSet rounded }
  else c

/-- `RoundingContainer.removeRoot` (rounding_container.py 89-112) -/
def xRemoveRoot (c : RContainer (XNum K)) (root : Root (XNum K)) : Bool × RContainer (XNum K) :=
  let rounded := xRoundRoot root c.precision
  if xMember c.rootSet rounded then (true, { c with rootSet := c.rootSet.eraseP fun x => xRootEq x rounded })
  else (false, c)

/-- a call (rounding_container.py 50-112, 137-139, 153-172) -/
def xStep (c : RContainer (XNum K)) : ROp (XNum K) → RContainer (XNum K)
  | .add r ctx info => xAddRoot info c r ctx
  | .remove r => (xRemoveRoot c r).2
  | .clear => { c with rootSet := [] }
  | .register k p => { c with filters := c.filters.set k p }
  | .unregister k => { c with filters := c.filters.erase k }

/-- a history of calls -/
def xRun (c : RContainer (XNum K)) (ops : List (ROp (XNum K))) : RContainer (XNum K) := ops.foldl xStep c

/-- `_zero_in_bounds` (container_factory.py 56-68) -/
def xZeroInBounds : Filter (XNum K) := fun root ctx =>
  (XNum.le ctx.reRan.1 root.1.re && XNum.le root.1.re ctx.reRan.2) &&
    (XNum.le ctx.imRan.1 root.1.im && XNum.le root.1.im ctx.imRan.2)

/-- `_func_value_zero` (container_factory.py 36-54): the modulus of a value with an infinite part is infinite, that of
another value with a NaN part is NaN; `|w| < e` is expressed as `|w|² < e²` for finite `w` -/
def xFuncValueZero (threshold : ℤ) : Filter (XNum K) := fun root ctx =>
  match ctx.f root.1 with
  | ⟨.fin u, .fin v⟩ => decide (u * u + v * v < eps10 K threshold ^ 2)
  | _ => false

end PyZeal.Ext
