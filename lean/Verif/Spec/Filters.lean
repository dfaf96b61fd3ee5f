import Verif.Spec.Finder

/-! # Specification vocabulary for root filters -/

namespace PyZeal.Spec
variable {K : Type} [Field K] [LinearOrder K]

/-- In the list of `setRootFilter` calls, `t` is the threshold of the last call for `FUNCTION_VALUE_ZERO`. -/
def LastThreshold (calls : List (FilterType × ℤ)) (t : ℤ) : Prop :=
  ∃ pre post, calls = pre ++ (FilterType.functionValueZero, t) :: post ∧
    ∀ e ∈ post, e.1 ≠ FilterType.functionValueZero

/-- the rectangle which is searched with working precision `p` when `reRan`, `imRan` is requested -/
def Searched (reRan imRan : K × K) (p : ℤ × ℤ) : Cell K :=
  ⟨(min reRan.1 reRan.2 - 10 ^ (-p.1), max reRan.1 reRan.2 + 2 * 10 ^ (-p.1)),
   (min imRan.1 imRan.2 - 3 * 10 ^ (-p.2), max imRan.1 imRan.2 + 4 * 10 ^ (-p.2)), 0⟩

/-- the candidate `z` satisfies all filters set by the calls: it lies in the searched rectangle `cell` if
`ZERO_IN_BOUNDS` was set, and `|f(z)| < 10^-t` if `FUNCTION_VALUE_ZERO` was set, the last time with threshold `t` -/
def Passes (calls : List (FilterType × ℤ)) (cell : Cell K) (f : Cx K → Cx K) (z : Cx K) : Prop :=
  ((∃ e ∈ calls, e.1 = FilterType.zeroInBounds) → Cell.Has cell z) ∧
  ∀ t, LastThreshold calls t → (f z).re ^ 2 + (f z).im ^ 2 < ((10 : K) ^ (-t)) ^ 2

end PyZeal.Spec
