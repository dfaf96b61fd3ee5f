import Verif.Model.FloatContainer
import Verif.Spec.Float
import Verif.Spec.Rounding
import Verif.Spec.Finder

/-! # Specification vocabulary for containers in floating-point arithmetic -/

namespace PyZeal.Spec
variable {K : Type} [Field K] [LinearOrder K]

/-- `fl` rounds to a nearest machine number -/
def Nearest (fl : K → K) : Prop := ∀ x r, Machine fl x → |fl r - r| ≤ |x - r|

/-- `x` is a machine number in both coordinates -/
def MachineCx (fl : K → K) (z : Cx K) : Prop := Machine fl z.re ∧ Machine fl z.im

/-- between 0 and 22 decimals, and `x` has at most 15 significant digits with so many decimals -/
def InRange (p : ℤ) (x : K) : Prop := 0 ≤ p ∧ p ≤ 22 ∧ |x| * (10 : K) ^ p ≤ 2 ^ 50

/-- `InRange` in both coordinates -/
def InRangeCx (p : ℤ × ℤ) (z : Cx K) : Prop := InRange p.1 z.re ∧ InRange p.2 z.im

/-- a call which adds no root, or a root given by Python floats -/
def PythonCall (fl : K → K) : ROpF K → Prop
  | .add k r _ _ => k = .python ∧ MachineCx fl r.1
  | _ => True

/-- a call which adds no root, or one in the range above for the precision of the call -/
def InRangeCall : ROpF K → Prop
  | .add _ r ctx _ => InRangeCx ctx.precision r.1
  | _ => True

/-- after the call, `r` is no longer held, everything else is as before; the call returns `True` -/
def RemovesExactly (r : Root K) (before : RContainer K) (after : Bool × RContainer K) : Prop :=
  after.1 = true ∧ after.2.precision = before.precision ∧ after.2.filters = before.filters ∧
    ∀ s, s ∈ after.2.rootSet ↔ s ∈ before.rootSet ∧ s ≠ r

variable [IsStrictOrderedRing K] [FloorRing K]

/-- In all searches for `f` with precision `p` in rectangles inside `region` the estimator sees the zeros, in the given
arithmetic, see `SeesZeros` and `BoundaryHits`. -/
def GoodEstimatorF {σ : Type} (A : FloatOps K) (est : LineEst σ K) (f : Cx K → Cx K) (df : Option (Cx K → Cx K))
    (p : ℤ × ℤ) (region : Cell K) (pi : K) (zeros : List (Cx K)) (L : ℤ → Cx K → Cx K → Cx K) : Prop :=
  ∀ ctx : RCtx K, ctx.f = f → ctx.df = df → ctx.precision = p → Cell.In ⟨ctx.reRan, ctx.imRan, 0⟩ region →
    SeesZeros A est ctx pi zeros L ∧ BoundaryHits est ctx

/-- an end point of a range a user may ask for: a machine number, with at most 22 decimals and 14 significant digits -/
def EndPoint (fl : K → K) (p : ℤ) (x : K) : Prop := Machine fl x ∧ 0 ≤ p ∧ p ≤ 22 ∧ |x| * (10 : K) ^ p ≤ 2 ^ 49

end PyZeal.Spec
