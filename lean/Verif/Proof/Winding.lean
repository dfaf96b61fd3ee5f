import Verif.Proof.Summation
import Mathlib.Analysis.SpecialFunctions.Complex.Arg

/-! # Phase sums are differences of arguments modulo full turns -/

set_option linter.unusedSectionVars false

namespace PyZeal
open Spec

/-- the model's complex numbers over `ℝ` as Mathlib's -/
def toC (z : Cx ℝ) : ℂ := ⟨z.re, z.im⟩

theorem toC_eq_zero {z : Cx ℝ} : toC z = 0 ↔ z = 0 := by
  constructor
  · intro h
    have h1 := congrArg Complex.re h
    have h2 := congrArg Complex.im h
    exact Cx.ext h1 h2
  · rintro rfl; rfl

theorem toC_mul (a b : Cx ℝ) : toC (a * b) = toC a * toC b := by
  apply Complex.ext <;> simp [toC]

theorem toC_div (a b : Cx ℝ) : toC (a / b) = toC a / toC b := by
  by_cases hb : b = 0
  · subst hb
    rw [div_zero]
    have : toC 0 = 0 := rfl
    rw [this]; simp
  · rw [eq_div_iff (fun h => hb (toC_eq_zero.1 h)), ← toC_mul, div_mul_cancel₀ _ hb]

/-- telescoping of the phases of a list of non-zero values -/
theorem phases_angle (arg : Cx ℝ → ℝ) (harg : ∀ z, arg z = Complex.arg (toC z))
    (l : List (Cx ℝ)) (u v : Cx ℝ) (hne : ∀ x ∈ l, x ≠ 0) (hu : l.head? = some u)
    (hv : l.getLast? = some v) :
    (((phases arg l).sum : ℝ) : Real.Angle) = (Complex.arg (toC v) : Real.Angle) -
      (Complex.arg (toC u) : Real.Angle) := by
  induction l generalizing u with
  | nil => simp at hu
  | cons a t ih =>
    simp only [List.head?_cons, Option.some.injEq] at hu
    subst hu
    cases t with
    | nil =>
      simp only [List.getLast?_singleton, Option.some.injEq] at hv
      subst hv
      simp [phases]
    | cons b t =>
      rw [phases_cons_cons, List.sum_cons, Real.Angle.coe_add,
        ih b (fun x hx => hne x (by simp at hx ⊢; tauto)) rfl (by simpa using hv), harg, toC_div,
        Complex.arg_div_coe_angle]
      · abel
      · exact fun h => hne b (by simp) (toC_eq_zero.1 h)
      · exact fun h => hne a (by simp) (toC_eq_zero.1 h)

/-- the phases of a line computed afresh, without zero hits -/
theorem genPhiArr_angle (cfg : SumCfg ℝ) (harg : ∀ z, cfg.arg z = Complex.arg (toC z))
    (ctx : RCtx ℝ) (hδ : 0 < cfg.deltaPhi) (hn : 2 ≤ cfg.numPts) (a b : Cx ℝ)
    (w : World (SumState ℝ) ℝ) (hw : w.fuse = none) (z' : List (Cx ℝ)) (p' : List ℝ)
    (w' : World (SumState ℝ) ℝ)
    (h : genPhiArr cfg 0 a b ctx w = (.ok (z', p'), w')) (hadd : w'.added = w.added) :
    ((p'.sum : ℝ) : Real.Angle) = (Complex.arg (toC (ctx.f b)) : Real.Angle) -
      (Complex.arg (toC (ctx.f a)) : Real.Angle) := by
  obtain ⟨h1, h2, h3, h4⟩ := genPhiArr_phases cfg ctx hδ hn a b w hw z' p' w' h hadd
  rw [h1]
  apply phases_angle _ harg
  · intro x hx
    obtain ⟨z, hz, rfl⟩ := List.mem_map.1 hx
    exact h2 z hz
  · simp [h3]
  · simp [h4]

end PyZeal
