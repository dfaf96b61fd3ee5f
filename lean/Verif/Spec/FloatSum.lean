import Verif.Model.FloatSum
import Mathlib.Analysis.SpecialFunctions.Complex.Arg

/-! # Specification vocabulary for the summation estimator in floating-point arithmetic -/

namespace PyZeal.Spec
variable {K : Type}

/-- What is used of `np.linspace`: the right number of points, the first and the last of which are the given ones; and of
the refinement factor: for an increment of at least `deltaPhi` it is at least 2. -/
structure Samples [Field K] [LinearOrder K] (S : SumOps K) : Prop where
  length : ∀ a b n, (S.lin a b n).length = n
  first : ∀ a b n, 1 ≤ n → (S.lin a b n).head? = some a
  last : ∀ a b n, 2 ≤ n → (S.lin a b n).getLast? = some b
  factor : ∀ idx phi, 1 ≤ idx → S.deltaPhi ≤ |phi| → 2 ≤ S.factor idx phi
  numPts : 2 ≤ S.numPts

/-- Computed phases are accurate up to `δ` and at most 4 (they lie between `-pi` and `pi`): the phase from value `a` to
value `b` is the difference of the arguments of `a` and `b`, up to `δ` and up to whole turns. -/
def PhaseWithin (S : SumOps ℝ) (δ : ℝ) : Prop :=
  ∀ a b : Cx ℝ, a ≠ 0 → b ≠ 0 → |S.phase a b| ≤ 4 ∧ ∃ k : ℤ,
    |S.phase a b - (Complex.arg ⟨b.re, b.im⟩ - Complex.arg ⟨a.re, a.im⟩ + 2 * Real.pi * k)| ≤ δ

/-- Computed sums of up to `N` numbers have an error of at most `γ` times the sum of the absolute values. -/
def SumWithin [Field K] [LinearOrder K] (S : SumOps K) (N : ℕ) (γ : K) : Prop :=
  ∀ l : List K, l.length ≤ N → |S.sum l - l.sum| ≤ γ * (l.map abs).sum

/-- Assumptions on the arithmetic of the summation estimator: lines have at most `N` increments, phases are accurate up to `δ`,
sums up to `γ`. (The estimator stops refining a line with more than `100 * numPts` points, so `N` is determined by the
size of one more refinement.) -/
structure SumArith (S : SumOps ℝ) (N : ℕ) (δ γ : ℝ) : Prop where
  samples : Samples S
  δ0 : 0 ≤ δ
  γ0 : 0 ≤ γ
  phase : PhaseWithin S δ
  sum : SumWithin S N γ
  len : ∀ idx phi, idx ≤ S.steps → |phi| ≤ 4 → 100 * S.numPts + S.factor idx phi ≤ N
  len0 : 100 * S.numPts ≤ N

/-- bound for the error of the phase computed along a line of at most `N` increments -/
def lineErr (N : ℕ) (δ γ : ℝ) : ℝ := N * (δ + 4 * γ)

/-- bound for the absolute value of the phase computed along a line -/
def lineMax (N : ℕ) (γ : ℝ) : ℝ := 4 * N * (1 + γ)

/-- bound for the error of the phase computed around a rectangle, with unit roundoff `u` -/
def rectErr (N : ℕ) (δ γ u : ℝ) : ℝ := 4 * lineErr N δ γ + 11 * u * lineMax N γ

/-- computed quotients of complex numbers have a relative error of at most `η` -/
def QuotWithin (quot : Cx ℝ → Cx ℝ → Cx ℝ) (η : ℝ) : Prop :=
  ∀ a b : Cx ℝ, a ≠ 0 → b ≠ 0 →
    ‖(⟨(quot b a).re, (quot b a).im⟩ : ℂ) - ⟨b.re, b.im⟩ / ⟨a.re, a.im⟩‖ ≤ η * ‖(⟨b.re, b.im⟩ : ℂ) / ⟨a.re, a.im⟩‖

/-- the computed `arctan2` of imaginary and real part has an error of at most `ε` -/
def ArctanWithin (arctan : Cx ℝ → ℝ) (ε : ℝ) : Prop := ∀ z : Cx ℝ, |arctan z - Complex.arg ⟨z.re, z.im⟩| ≤ ε

/-- an order of summation: every entry of an array of `n` numbers is added once -/
def SumsAll (tree : ℕ → SumTree) : Prop := ∀ n, 0 < n → (tree n).leaves.Perm (List.range n)

/-- Sampling the line between `a` and `b` always ends: there is a set of points containing both ends such that sampling
between any two points of the set ends, with points of the set. -/
def LineEnds {σ : Type} [Field K] [DecidableEq K] (A : FloatOps K) (S : SumOps K) (ctx : RCtx K) (a b : Cx K) : Prop :=
  ∃ P : Cx K → Prop, P a ∧ P b ∧ ∀ a' b', P a' → P b' → ∀ n (w : World σ K),
    ∃ r w', genFuncArrF A S a' b' ctx n w = (.ok r, w') ∧ ∀ z ∈ r.1, P z

/-- sampling the sides of a rectangle always ends -/
def SidesEnd {σ : Type} [Field K] [DecidableEq K] (A : FloatOps K) (S : SumOps K) (ctx : RCtx K) (re im : K × K) : Prop :=
  (LineEnds (σ := σ) A S ctx ⟨re.1, im.1⟩ ⟨re.2, im.1⟩ ∧ LineEnds (σ := σ) A S ctx ⟨re.2, im.1⟩ ⟨re.2, im.2⟩) ∧
  LineEnds (σ := σ) A S ctx ⟨re.2, im.2⟩ ⟨re.1, im.2⟩ ∧ LineEnds (σ := σ) A S ctx ⟨re.1, im.2⟩ ⟨re.1, im.1⟩

end PyZeal.Spec
