import Verif.Spec.Float
import Verif.Spec.FloatSum
import Verif.Spec.Turn

/-! # Specification vocabulary: searches with the summation estimator in floating-point arithmetic -/

namespace PyZeal.Spec

/-- both side lengths, as computed, are below the computed bounds `10 ** (-p)` -/
def ComputedSmall (A : FloatOps ℝ) (p : ℤ × ℤ) (re im : ℝ × ℝ) : Prop :=
  A.fl (re.2 - re.1) < A.pow10 p.1 ∧ A.fl (im.2 - im.1) < A.pow10 p.2

noncomputable instance (A : FloatOps ℝ) (p : ℤ × ℤ) (re im : ℝ × ℝ) : Decidable (ComputedSmall A p re im) := by
  unfold ComputedSmall; infer_instance

/-- the width, in units of `10 ** (-p)`, is larger than the height, as computed -/
def ComputedWide (A : FloatOps ℝ) (p : ℤ × ℤ) (re im : ℝ × ℝ) : Prop :=
  A.fl (A.fl (im.2 - im.1) / A.pow10 p.2) < A.fl (A.fl (re.2 - re.1) / A.pow10 p.1)

/-- The rectangles a search in floating-point arithmetic comes to look at if its decisions are right: the search rectangle itself, and
the two parts of every such rectangle which is not yet small and contains a zero. It is split at the computed midpoint of the side which is
longer in units of the wanted accuracy (the vertical one if equal). Compare `Reached`. -/
inductive ReachedF (A : FloatOps ℝ) (p : ℤ × ℤ) (zeros : List (Cx ℝ)) (reRan imRan : ℝ × ℝ) : ℝ × ℝ → ℝ × ℝ → Prop
  | whole : ReachedF A p zeros reRan imRan reRan imRan
  | left {re im : ℝ × ℝ} : ReachedF A p zeros reRan imRan re im → ¬ ComputedSmall A p re im → 1 ≤ Cell.count ⟨re, im, 0⟩ zeros →
      ComputedWide A p re im → ReachedF A p zeros reRan imRan (re.1, A.fl (A.fl (re.1 + re.2) / 2)) im
  | right {re im : ℝ × ℝ} : ReachedF A p zeros reRan imRan re im → ¬ ComputedSmall A p re im → 1 ≤ Cell.count ⟨re, im, 0⟩ zeros →
      ComputedWide A p re im → ReachedF A p zeros reRan imRan (A.fl (A.fl (re.1 + re.2) / 2), re.2) im
  | lower {re im : ℝ × ℝ} : ReachedF A p zeros reRan imRan re im → ¬ ComputedSmall A p re im → 1 ≤ Cell.count ⟨re, im, 0⟩ zeros →
      ¬ ComputedWide A p re im → ReachedF A p zeros reRan imRan re (im.1, A.fl (A.fl (im.1 + im.2) / 2))
  | upper {re im : ℝ × ℝ} : ReachedF A p zeros reRan imRan re im → ¬ ComputedSmall A p re im → 1 ≤ Cell.count ⟨re, im, 0⟩ zeros →
      ¬ ComputedWide A p re im → ReachedF A p zeros reRan imRan re (A.fl (A.fl (im.1 + im.2) / 2), im.2)

end PyZeal.Spec
