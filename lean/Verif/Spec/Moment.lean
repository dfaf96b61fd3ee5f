import Verif.Spec.QuadSearch
import Verif.Spec.Coefficients

/-! # Specification vocabulary: the accuracy of moments computed by quadrature -/

namespace PyZeal.Spec

/-- Bound for the second derivative of `z^k f'(z) / f(z)`, if `|z| <= R`, the `n` zeros of `f` have distance at least `d`, and the first three derivatives
of `G` (see `AnalyticWith`) are at most `B`. -/
noncomputable def momentBound (k n : ℕ) (B d R : ℝ) : ℝ :=
  k * (k - 1) * R ^ (k - 2) * (B + n / d) + 2 * k * R ^ (k - 1) * (B + n / d ^ 2) + R ^ k * (B + 2 * n / d ^ 3)

/-- Bound for the error of the moment of order `k` along one line of length `l`: the error of Romberg's method on `2^10` intervals. -/
noncomputable def momentError (k n : ℕ) (B d R l : ℝ) : ℝ := l ^ 3 * momentBound k n B d R / (3 * 4 ^ 10)

/-- on `S` the first three derivatives of `G` are at most `B`, and `|z| <= R` -/
structure BoundedBy (S : Cx ℝ → Prop) (G : ℂ → ℂ) (B R : ℝ) : Prop where
  one : ∀ z, S z → ‖iteratedDeriv 1 G (point z)‖ ≤ B
  two : ∀ z, S z → ‖iteratedDeriv 2 G (point z)‖ ≤ B
  three : ∀ z, S z → ‖iteratedDeriv 3 G (point z)‖ ≤ B
  radius : ∀ z, S z → ‖point z‖ ≤ R

/-- the sum of the `k`-th powers of the zeros in a rectangle -/
noncomputable def powerSum (k : ℕ) (zeros : List (Cx ℝ)) (re im : ℝ × ℝ) : ℂ :=
  ((zeros.filter fun c => decide (Cell.HasHalfOpen ⟨re, im, 0⟩ c)).map fun c => point c ^ k).sum

/-- The rectangles a search with associated polynomials comes to look at if its decisions are right: like `Reached`, but a rectangle is only halved
if it contains at least four zeros. -/
inductive PolyReached (p : ℤ × ℤ) (zeros : List (Cx ℝ)) (reRan imRan : ℝ × ℝ) : ℝ × ℝ → ℝ × ℝ → Prop
  | whole : PolyReached p zeros reRan imRan reRan imRan
  | left {re im : ℝ × ℝ} : PolyReached p zeros reRan imRan re im → ¬ Cell.Small p ⟨re, im, 0⟩ → 4 ≤ Cell.count ⟨re, im, 0⟩ zeros →
      (im.2 - im.1) / 10 ^ (-p.2) < (re.2 - re.1) / 10 ^ (-p.1) → PolyReached p zeros reRan imRan (re.1, (re.1 + re.2) / 2) im
  | right {re im : ℝ × ℝ} : PolyReached p zeros reRan imRan re im → ¬ Cell.Small p ⟨re, im, 0⟩ → 4 ≤ Cell.count ⟨re, im, 0⟩ zeros →
      (im.2 - im.1) / 10 ^ (-p.2) < (re.2 - re.1) / 10 ^ (-p.1) → PolyReached p zeros reRan imRan ((re.1 + re.2) / 2, re.2) im
  | lower {re im : ℝ × ℝ} : PolyReached p zeros reRan imRan re im → ¬ Cell.Small p ⟨re, im, 0⟩ → 4 ≤ Cell.count ⟨re, im, 0⟩ zeros →
      (re.2 - re.1) / 10 ^ (-p.1) ≤ (im.2 - im.1) / 10 ^ (-p.2) → PolyReached p zeros reRan imRan re (im.1, (im.1 + im.2) / 2)
  | upper {re im : ℝ × ℝ} : PolyReached p zeros reRan imRan re im → ¬ Cell.Small p ⟨re, im, 0⟩ → 4 ≤ Cell.count ⟨re, im, 0⟩ zeros →
      (re.2 - re.1) / 10 ^ (-p.1) ≤ (im.2 - im.1) / 10 ^ (-p.2) → PolyReached p zeros reRan imRan re ((im.1 + im.2) / 2, im.2)

/-- Every rectangle a search with associated polynomials comes to look at has all zeros at some distance `d > 0` from its sides, such that the phases
are accurate (as in `Resolved`); and if it contains `n = 1`, 2 or 3 zeros, the error bound for the moments of order `k = 1, ..., n` is at most `η * R^k`, and below 1/1250. -/
def PolyResolved (p : ℤ × ℤ) (zeros : List (Cx ℝ)) (B V R η : ℝ) (re im : ℝ × ℝ) : Prop :=
  ∀ r i, PolyReached p zeros re im r i → ∃ d > 0, (∀ z, Cell.Boundary ⟨r, i, 0⟩ z → Far d zeros z) ∧
    (∀ l, l = r.2 - r.1 ∨ l = i.2 - i.1 → quadError zeros.length B V d l < Real.pi / 10) ∧
    ∀ k, 1 ≤ k → k ≤ Cell.count ⟨r, i, 0⟩ zeros → Cell.count ⟨r, i, 0⟩ zeros ≤ 3 → ∀ l, l = r.2 - r.1 ∨ l = i.2 - i.1 →
      momentError k zeros.length B d R l ≤ η * R ^ k ∧ momentError k zeros.length B d R l < 1 / 1250

/-- Up to three numbers of absolute value at most `M` are recovered from the coefficients of the polynomial with these zeros, each up to an error `ρ`. -/
def SolvesWithin (polyRoots : List (Cx ℝ) → List (Cx ℝ)) (M ρ : ℝ) : Prop :=
  ∀ zs : List (Cx ℝ), zs.length ≤ 3 → (∀ z ∈ zs, ‖point z‖ ≤ M) →
    ∃ l, l.Perm zs ∧ List.Forall₂ (fun a b => ‖point a - point b‖ ≤ ρ) (polyRoots (coefficientsOf zs)) l

end PyZeal.Spec
