import Verif.Model.Estimator

/-! # Specification of boundary sampling -/

namespace PyZeal.Spec
variable {K : Type} [Field K] [DecidableEq K]

/-- the points `base` moved by `j` times the offset -/
def shifted (base : List (Cx K)) (offset : Cx K) (j : ℕ) : List (Cx K) :=
  base.map fun z => z + Cx.smul (j : K) offset

/-- the points at which `f` vanishes, as candidates of unknown order 0 -/
def zeroHits (f : Cx K → Cx K) (pts : List (Cx K)) : List (Root K) :=
  (pts.filter fun z => decide (f z = 0)).map fun z => (z, 0)

end PyZeal.Spec
