import Verif.Spec.Search
import Mathlib.Analysis.SpecialFunctions.Trigonometric.Basic

/-! # Specification vocabulary: functions with known zeros -/

namespace PyZeal.Spec

/-- For `z` in `S`: `f z = r(z) * exp(i * g(z)) * prod (z - c)`, the product over the listed zeros (with multiplicity), where `r > 0`
and the argument `g` of the zero-free factor changes by at most `M` per unit of length. Polynomials are the case of constant `r`, `g`, `M = 0`. -/
structure Factored (f : Cx ℝ → Cx ℝ) (S : Cx ℝ → Prop) (zeros : List (Cx ℝ)) (r g : Cx ℝ → ℝ) (M : ℝ) : Prop where
  pos : ∀ z, S z → 0 < r z
  eq : ∀ z, S z → f z = ⟨r z * Real.cos (g z), r z * Real.sin (g z)⟩ * (zeros.map fun c => z - c).prod
  lip : ∀ a b, S a → S b → |g b - g a| ≤ M * (|b.re - a.re| + |b.im - a.im|)

/-- `z` has distance at least `d` from all listed zeros -/
def Far (d : ℝ) (zeros : List (Cx ℝ)) (z : Cx ℝ) : Prop :=
  ∀ c ∈ zeros, d ^ 2 ≤ (z.re - c.re) ^ 2 + (z.im - c.im) ^ 2

/-- The rectangles a search comes to look at if its decisions are right: the search rectangle itself, and the two halves of every such
rectangle which is not yet small and contains a zero. The side is halved which is longer in units of the wanted accuracy (the vertical one if equal). -/
inductive Reached (p : ℤ × ℤ) (zeros : List (Cx ℝ)) (reRan imRan : ℝ × ℝ) : ℝ × ℝ → ℝ × ℝ → Prop
  | whole : Reached p zeros reRan imRan reRan imRan
  | left {re im : ℝ × ℝ} : Reached p zeros reRan imRan re im → ¬ Cell.Small p ⟨re, im, 0⟩ → 1 ≤ Cell.count ⟨re, im, 0⟩ zeros →
      (im.2 - im.1) / 10 ^ (-p.2) < (re.2 - re.1) / 10 ^ (-p.1) → Reached p zeros reRan imRan (re.1, (re.1 + re.2) / 2) im
  | right {re im : ℝ × ℝ} : Reached p zeros reRan imRan re im → ¬ Cell.Small p ⟨re, im, 0⟩ → 1 ≤ Cell.count ⟨re, im, 0⟩ zeros →
      (im.2 - im.1) / 10 ^ (-p.2) < (re.2 - re.1) / 10 ^ (-p.1) → Reached p zeros reRan imRan ((re.1 + re.2) / 2, re.2) im
  | lower {re im : ℝ × ℝ} : Reached p zeros reRan imRan re im → ¬ Cell.Small p ⟨re, im, 0⟩ → 1 ≤ Cell.count ⟨re, im, 0⟩ zeros →
      (re.2 - re.1) / 10 ^ (-p.1) ≤ (im.2 - im.1) / 10 ^ (-p.2) → Reached p zeros reRan imRan re (im.1, (im.1 + im.2) / 2)
  | upper {re im : ℝ × ℝ} : Reached p zeros reRan imRan re im → ¬ Cell.Small p ⟨re, im, 0⟩ → 1 ≤ Cell.count ⟨re, im, 0⟩ zeros →
      (re.2 - re.1) / 10 ^ (-p.1) ≤ (im.2 - im.1) / 10 ^ (-p.2) → Reached p zeros reRan imRan re ((im.1 + im.2) / 2, im.2)

/-- `z` lies on one of the four sides of the rectangle -/
def Cell.Boundary (c : Cell ℝ) (z : Cx ℝ) : Prop := Cell.Has c z ∧ ¬ Cell.Interior c z

/-- the estimator `est`, except that a line with the value exactly 0 counts as an error -/
def strictLine {σ K : Type} [Field K] [DecidableEq K] (est : LineEst σ K) : LineEst σ K := fun o a b ctx w =>
  match est o a b ctx w with
  | (.ok d, w') => if d = 0 then (.error .valueError, w') else (.ok d, w')
  | r => r

end PyZeal.Spec
