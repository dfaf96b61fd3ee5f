import Verif.Model.Float
import Verif.Spec.Search

/-! # Specification vocabulary for the search in floating-point arithmetic -/

namespace PyZeal.Spec
variable {K : Type}

section
variable [Field K] [LinearOrder K]

/-- What is used of floating-point arithmetic: rounding to machine numbers is monotone, leaves machine numbers alone,
commutes with doubling, has a relative error of at most `u`, and the quotient of two machine numbers `a < b` is computed
as less than 1. (Proved for binary arithmetic with round-to-nearest: `flBin_rounds`.) -/
structure Rounds (fl : K → K) (u : K) : Prop where
  mono : ∀ x y, x ≤ y → fl x ≤ fl y
  idem : ∀ x, fl (fl x) = fl x
  double : ∀ x, fl (2 * x) = 2 * fl x
  one : fl 1 = 1
  near : ∀ x, |fl x - x| ≤ u * |x|
  quot : ∀ a b, 0 ≤ a → a < b → fl a = a → fl b = b → fl (a / b) < 1
  u_nonneg : 0 ≤ u
  u_small : u ≤ 1 / 16

/-- `x` is a machine number -/
def Machine (fl : K → K) (x : K) : Prop := fl x = x

/-- both computed bounds `10 ** (-p)` are positive machine numbers -/
def GoodPow (A : FloatOps K) (p : ℤ × ℤ) : Prop :=
  (Machine A.fl (A.pow10 p.1) ∧ 0 < A.pow10 p.1) ∧ Machine A.fl (A.pow10 p.2) ∧ 0 < A.pow10 p.2

/-- the sides of the rectangle are machine numbers -/
def Cell.Machine (fl : K → K) (c : Cell K) : Prop :=
  (Spec.Machine fl c.re.1 ∧ Spec.Machine fl c.re.2) ∧ Spec.Machine fl c.im.1 ∧ Spec.Machine fl c.im.2

/-- the phase of the rectangle is at least the computed constant `TWO_PI` -/
def Cell.TurnsF (A : FloatOps K) (pi : K) (c : Cell K) : Prop := A.fl (A.fl (8 / 10) * A.fl (2 * pi)) ≤ c.phi

/-- the phase computed for a rectangle from the values `L` along its sides: their sum, rounded after each addition -/
def phaseAround (A : FloatOps K) (L : ℤ → Cx K → Cx K → Cx K) (c : Cell K) : K :=
  A.fl (A.fl (A.fl (A.fl (0 + (L 0 ⟨c.re.1, c.im.1⟩ ⟨c.re.2, c.im.1⟩).re) +
    (L 0 ⟨c.re.2, c.im.1⟩ ⟨c.re.2, c.im.2⟩).re) + (L 0 ⟨c.re.2, c.im.2⟩ ⟨c.re.1, c.im.2⟩).re) +
    (L 0 ⟨c.re.1, c.im.2⟩ ⟨c.re.1, c.im.1⟩).re)

/-- An estimator which sees the given zeros, in floating-point arithmetic: along each line it returns a fixed value, which
changes sign with the orientation, without touching the algorithm's cache; and for every rectangle in the search
rectangle the phase computed from these values reaches `TWO_PI` exactly if a zero is inside. -/
structure SeesZeros {σ : Type} (A : FloatOps K) (est : LineEst σ K) (ctx : RCtx K) (pi : K) (zeros : List (Cx K))
    (L : ℤ → Cx K → Cx K → Cx K) : Prop where
  reverse : ∀ o a b, L o b a = -L o a b
  value : ∀ o a b w, (est o a b ctx w).2.cache = w.cache ∧ ∀ v, (est o a b ctx w).1 = .ok v → v = L o a b
  around : ∀ c : Cell K, Cell.In c ⟨ctx.reRan, ctx.imRan, 0⟩ → Cell.Machine A.fl c →
    (A.fl (A.fl (8 / 10) * A.fl (2 * pi)) ≤ phaseAround A L c ↔ ∃ z ∈ zeros, Cell.HasHalfOpen c z)

/-- no side reaches further from the axes than `R` -/
def Cell.Within (R : K) (c : Cell K) : Prop :=
  (|c.re.1| ≤ R ∧ |c.re.2| ≤ R) ∧ |c.im.1| ≤ R ∧ |c.im.2| ≤ R

end
end PyZeal.Spec
