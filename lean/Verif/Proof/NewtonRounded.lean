import Verif.Spec.NewtonRounded
import Verif.Proof.ScipyNewton

/-! # Convergence of the secant method and Newton's method with computed operations -/

set_option linter.unusedSectionVars false

namespace PyZeal
namespace Spec

/-- The computed operations are accurate on the disc around the zero `c` of `f` with radius `r`, for the tolerance `tol`, up to `δ` (a distance, small compared with `tol`):
values of `f` up to `δ` times the slope of `f` at `c`; values of the derivative up to a sixtieth of that slope; a Newton step up to `δ` for the division and `δ` for the subtraction;
and the test of closeness gives the right answer for points of the disc whose distance is at most `0.9 * tol` or more than `1.1 * tol`. -/
structure ComputesNear (O : SolverOps ℝ) (f df : Cx ℝ → Cx ℝ) (c : Cx ℝ) (r tol δ : ℝ) : Prop where
  value : ∀ z, ‖point z - point c‖ ≤ r → ‖point (O.eval f z) - point (f z)‖ ≤ ‖point (df c)‖ * δ
  slope : ∀ z, ‖point z - point c‖ ≤ r → ‖point (O.eval df z) - point (df z)‖ ≤ ‖point (df c)‖ / 60
  quot : ∀ z, ‖point z - point c‖ ≤ r → ‖point (O.div (O.eval f z) (O.eval df z)) - point (O.eval f z) / point (O.eval df z)‖ ≤ δ
  minus : ∀ z, ‖point z - point c‖ ≤ r → ‖point (O.sub z (O.div (O.eval f z) (O.eval df z))) - (point z - point (O.div (O.eval f z) (O.eval df z)))‖ ≤ δ
  close : ∀ z w, ‖point z - point c‖ ≤ r → ‖point w - point c‖ ≤ r →
    (‖point z - point w‖ ≤ 9 / 10 * tol → O.abs (O.sub z w) ≤ tol) ∧ (O.abs (O.sub z w) ≤ tol → ‖point z - point w‖ ≤ 11 / 10 * tol)

/-- The computed step of the secant method is, up to `tol / 20`, the intersection of the line through the computed values with zero, for points of the disc whose distance from
each other is not much smaller than their distances from `c` (by the factor `κ`) and at least half of the tolerance. -/
def SecantNear (O : SolverOps ℝ) (f : Cx ℝ → Cx ℝ) (c : Cx ℝ) (r tol κ : ℝ) : Prop :=
  ∀ z w, ‖point z - point c‖ ≤ r → ‖point w - point c‖ ≤ r → ‖point z - point c‖ + ‖point w - point c‖ ≤ κ * ‖point w - point z‖ → tol / 2 ≤ ‖point w - point z‖ →
    ‖point (secantStepC O z (O.eval f z) w (O.eval f w)) -
      (point z * point (O.eval f w) - point w * point (O.eval f z)) / (point (O.eval f w) - point (O.eval f z))‖ ≤ tol / 20

end Spec

open Spec

/-- the values grow at most with the slope -/
theorem Spec.Steady.diff2 {f df : Cx ℝ → Cx ℝ} {c : Cx ℝ} {r : ℝ} (h : Steady f df c r) {z w : Cx ℝ} (hz : ‖toC z - toC c‖ ≤ r) (hw : ‖toC w - toC c‖ ≤ r) :
    ‖toC (f w) - toC (f z)‖ ≤ 7 / 6 * ‖toC (df c)‖ * ‖toC w - toC z‖ := by
  have h1 := h.linear hz hw
  have h2 := norm_add_le (toC (f w) - toC (f z) - toC (df c) * (toC w - toC z)) (toC (df c) * (toC w - toC z))
  rw [sub_add_cancel, norm_mul] at h2
  linarith

/-- dividing an estimate by the slope -/
theorem quot_bound {a b k : ℝ} {d y : ℂ} (ha : 0 < a) (_ : 0 < k) (hd : k * a ≤ ‖d‖) (h : ‖d * y‖ ≤ a * b) : k * ‖y‖ ≤ b := by
  rw [norm_mul] at h
  have h1 : k * a * ‖y‖ ≤ a * b := (mul_le_mul_of_nonneg_right hd (norm_nonneg _)).trans h
  have h2 : a * (k * ‖y‖) ≤ a * b := by linarith
  exact le_of_mul_le_mul_left h2 ha

/-- a computed Newton step -/
theorem rounded_step {O : SolverOps ℝ} {f df : Cx ℝ → Cx ℝ} {c : Cx ℝ} {r tol δ : ℝ} (h : Steady f df c r) (hO : ComputesNear O f df c r tol δ) {z : Cx ℝ}
    (hz : ‖toC z - toC c‖ ≤ r) :
    O.eval df z ≠ 0 ∧ ‖toC (O.sub z (O.div (O.eval f z) (O.eval df z))) - toC c‖ ≤ 3 / 7 * ‖toC z - toC c‖ + 13 / 4 * δ := by
  have hr : ‖toC c - toC c‖ ≤ r := by rw [sub_self, norm_zero]; exact (norm_nonneg _).trans hz
  have ha := h.pos
  have l1 := h.linear hr hz
  rw [h.zero, toC_eq_zero.2 rfl, sub_zero] at l1
  have l2 : ‖toC (df z) - toC (df c)‖ ≤ ‖toC (df c)‖ / 6 := h.steady z hz
  have v1 : ‖toC (O.eval f z) - toC (f z)‖ ≤ ‖toC (df c)‖ * δ := hO.value z hz
  have v2 : ‖toC (O.eval df z) - toC (df z)‖ ≤ ‖toC (df c)‖ / 60 := hO.slope z hz
  have v3 : ‖toC (O.div (O.eval f z) (O.eval df z)) - toC (O.eval f z) / toC (O.eval df z)‖ ≤ δ := hO.quot z hz
  have v4 : ‖toC (O.sub z (O.div (O.eval f z) (O.eval df z))) - (toC z - toC (O.div (O.eval f z) (O.eval df z)))‖ ≤ δ := hO.minus z hz
  generalize toC (O.sub z (O.div (O.eval f z) (O.eval df z))) = P at *
  generalize toC (O.div (O.eval f z) (O.eval df z)) = Q at *
  have d1 : ‖toC (O.eval df z) - toC (df c)‖ ≤ 11 / 60 * ‖toC (df c)‖ := by
    have := norm_add_le (toC (O.eval df z) - toC (df z)) (toC (df z) - toC (df c))
    rw [sub_add_sub_cancel] at this
    linarith
  have d2 : ‖toC (O.eval f z) - toC (df c) * (toC z - toC c)‖ ≤ ‖toC (df c)‖ * δ + ‖toC (df c)‖ / 6 * ‖toC z - toC c‖ := by
    have := norm_add_le (toC (O.eval f z) - toC (f z)) (toC (f z) - toC (df c) * (toC z - toC c))
    rw [sub_add_sub_cancel] at this
    linarith
  have d3 : 49 / 60 * ‖toC (df c)‖ ≤ ‖toC (O.eval df z)‖ := by
    have := norm_sub_norm_le (toC (df c)) (toC (df c) - toC (O.eval df z))
    rw [sub_sub_cancel, norm_sub_rev] at this
    linarith
  have hne : toC (O.eval df z) ≠ 0 := by
    intro h0
    rw [h0, norm_zero] at d3
    linarith
  refine ⟨fun h0 => hne (toC_eq_zero.2 h0), ?_⟩
  generalize toC (O.eval df z) = D at *
  generalize toC (O.eval f z) = F at *
  have key : 49 / 60 * ‖toC z - toC c - F / D‖ ≤ 21 / 60 * ‖toC z - toC c‖ + δ := by
    refine quot_bound ha (by norm_num) d3 ?_
    have e : D * (toC z - toC c - F / D) = (toC z - toC c) * (D - toC (df c)) - (F - toC (df c) * (toC z - toC c)) := by
      field_simp
      ring
    rw [e]
    refine (norm_sub_le _ _).trans ?_
    rw [norm_mul]
    have := mul_le_mul_of_nonneg_left d1 (norm_nonneg (toC z - toC c))
    linarith
  have e2 : P - toC c = (P - (toC z - Q)) + (-(Q - F / D) + (toC z - toC c - F / D)) := by ring
  rw [e2]
  have t1 := norm_add_le (P - (toC z - Q)) (-(Q - F / D) + (toC z - toC c - F / D))
  have t2 := norm_add_le (-(Q - F / D)) (toC z - toC c - F / D)
  rw [norm_neg] at t2
  have hδ : 0 ≤ δ := (norm_nonneg _).trans v3
  linarith

/-- a computed zero is close to the zero -/
theorem rounded_zero {O : SolverOps ℝ} {f df : Cx ℝ → Cx ℝ} {c : Cx ℝ} {r tol δ : ℝ} (h : Steady f df c r) (hO : ComputesNear O f df c r tol δ) {z : Cx ℝ}
    (hz : ‖toC z - toC c‖ ≤ r) (h0 : O.eval f z = 0) : ‖toC z - toC c‖ ≤ 6 / 5 * δ := by
  have hr : ‖toC c - toC c‖ ≤ r := by rw [sub_self, norm_zero]; exact (norm_nonneg _).trans hz
  have v1 : ‖toC (O.eval f z) - toC (f z)‖ ≤ ‖toC (df c)‖ * δ := hO.value z hz
  have h1 := h.diff hr hz
  rw [h.zero, toC_eq_zero.2 rfl, sub_zero] at h1
  rw [h0, toC_eq_zero.2 rfl, zero_sub, norm_neg] at v1
  have h2 : ‖toC (df c)‖ * (5 / 6 * ‖toC z - toC c‖) ≤ ‖toC (df c)‖ * δ := by linarith
  have := le_of_mul_le_mul_left h2 h.pos
  linarith

/-- Newton's method with computed operations converges -/
theorem scipyNewtonC_converges {O : SolverOps ℝ} {f df : Cx ℝ → Cx ℝ} {c : Cx ℝ} {r tol δ : ℝ} (h : Steady f df c r) (hO : ComputesNear O f df c r tol δ)
    (htol : 0 < tol) (hr : tol ≤ r) (hδ : δ ≤ tol / 100) (n : ℕ) (p0 : Cx ℝ) (h0 : ‖toC p0 - toC c‖ ≤ r)
    (hn : ‖toC p0 - toC c‖ ≤ (7 / 3) ^ n * (tol / 2) + 7 / 4 * (13 / 4 * δ)) :
    ∃ z, scipyNewtonC O f df tol (n + 1) p0 = some z ∧ ‖toC z - toC c‖ ≤ 9 / 10 * tol := by
  have hclose : ∀ z w, ‖toC z - toC c‖ ≤ r → ‖toC w - toC c‖ ≤ r →
    (‖toC z - toC w‖ ≤ 9 / 10 * tol → O.abs (O.sub z w) ≤ tol) ∧ (O.abs (O.sub z w) ≤ tol → ‖toC z - toC w‖ ≤ 11 / 10 * tol) := hO.close
  induction n generalizing p0 with
  | zero =>
    obtain ⟨hd, hb⟩ := rounded_step h hO h0
    have hδ0 : 0 ≤ δ := (norm_nonneg _).trans (hO.quot p0 h0)
    unfold scipyNewtonC
    by_cases hf : O.eval f p0 = 0
    · rw [if_pos hf]
      exact ⟨_, rfl, by linarith [rounded_zero h hO h0 hf]⟩
    · rw [if_neg hf, if_neg hd]
      dsimp only
      generalize O.sub p0 (O.div (O.eval f p0) (O.eval df p0)) = p at *
      have hp : ‖toC p - toC c‖ ≤ r := by linarith
      have hst : ‖toC p - toC p0‖ ≤ ‖toC p - toC c‖ + ‖toC p0 - toC c‖ := by
        have := norm_sub_le (toC p - toC c) (toC p0 - toC c)
        rwa [sub_sub_sub_cancel_right] at this
      rw [pow_zero, one_mul] at hn
      rw [if_pos ((hclose p p0 hp h0).1 (by linarith))]
      exact ⟨_, rfl, by linarith⟩
  | succ n ih =>
    obtain ⟨hd, hb⟩ := rounded_step h hO h0
    have hδ0 : 0 ≤ δ := (norm_nonneg _).trans (hO.quot p0 h0)
    unfold scipyNewtonC
    by_cases hf : O.eval f p0 = 0
    · rw [if_pos hf]
      exact ⟨_, rfl, by linarith [rounded_zero h hO h0 hf]⟩
    · rw [if_neg hf, if_neg hd]
      dsimp only
      generalize O.sub p0 (O.div (O.eval f p0) (O.eval df p0)) = p at *
      have hp : ‖toC p - toC c‖ ≤ r := by linarith
      by_cases hs : O.abs (O.sub p p0) ≤ tol
      · rw [if_pos hs]
        refine ⟨_, rfl, ?_⟩
        have h1 := (hclose p p0 hp h0).2 hs
        have h2 : ‖toC p0 - toC c‖ ≤ ‖toC p - toC p0‖ + ‖toC p - toC c‖ := by
          have := norm_sub_le (toC p - toC c) (toC p - toC p0)
          rw [sub_sub_sub_cancel_left] at this
          linarith
        linarith
      · rw [if_neg hs]
        refine ih p hp ?_
        rw [pow_succ] at hn
        linarith

/-- the exact formula of the secant method for computed values -/
theorem secant_formula {O : SolverOps ℝ} {f df : Cx ℝ → Cx ℝ} {c : Cx ℝ} {r tol δ κ : ℝ} (h : Steady f df c r)
    (hv : ∀ z, ‖toC z - toC c‖ ≤ r → ‖toC (O.eval f z) - toC (f z)‖ ≤ ‖toC (df c)‖ * δ)
    (htol : 0 < tol) (hκ : 4 ≤ κ) (hδ : 2 * δ * κ ≤ tol / 20) {p0 p1 : Cx ℝ} (h0 : ‖toC p0 - toC c‖ ≤ r) (h1 : ‖toC p1 - toC c‖ ≤ r)
    (hk : ‖toC p0 - toC c‖ + ‖toC p1 - toC c‖ ≤ κ * ‖toC p1 - toC p0‖) (hw : tol / 2 ≤ ‖toC p1 - toC p0‖) :
    4 / 5 * ‖toC p1 - toC p0‖ * ‖toC (df c)‖ ≤ ‖toC (O.eval f p1) - toC (O.eval f p0)‖ ∧
      ‖(toC p0 * toC (O.eval f p1) - toC p1 * toC (O.eval f p0)) / (toC (O.eval f p1) - toC (O.eval f p0)) - toC c‖ ≤ 5 / 12 * ‖toC p1 - toC c‖ + tol / 30 := by
  have hr : ‖toC c - toC c‖ ≤ r := by rw [sub_self, norm_zero]; exact (norm_nonneg _).trans h0
  have ha := h.pos
  have l0 := h.linear hr h0
  have l1 := h.linear hr h1
  have l2 := h.linear h0 h1
  rw [h.zero, toC_eq_zero.2 rfl, sub_zero] at l0 l1
  have v0 : ‖toC (O.eval f p0) - toC (f p0)‖ ≤ ‖toC (df c)‖ * δ := hv p0 h0
  have v1 : ‖toC (O.eval f p1) - toC (f p1)‖ ≤ ‖toC (df c)‖ * δ := hv p1 h1
  have hd := h.diff h0 h1
  have hδ0 : 0 ≤ δ := by
    have := (norm_nonneg _).trans v0
    exact nonneg_of_mul_nonneg_right this ha
  have hδs : 2 * δ ≤ 1 / 40 * ‖toC p1 - toC p0‖ := by
    have : 2 * δ * 4 ≤ tol / 20 := (mul_le_mul_of_nonneg_left hκ (by linarith)).trans hδ
    linarith
  have hD : 4 / 5 * ‖toC p1 - toC p0‖ * ‖toC (df c)‖ ≤ ‖toC (O.eval f p1) - toC (O.eval f p0)‖ := by
    have t := norm_sub_norm_le (toC (f p1) - toC (f p0)) ((toC (f p1) - toC (f p0)) - (toC (O.eval f p1) - toC (O.eval f p0)))
    rw [sub_sub_cancel] at t
    have e : (toC (f p1) - toC (f p0)) - (toC (O.eval f p1) - toC (O.eval f p0)) = (toC (O.eval f p0) - toC (f p0)) - (toC (O.eval f p1) - toC (f p1)) := by ring
    have t2 := norm_sub_le (toC (O.eval f p0) - toC (f p0)) (toC (O.eval f p1) - toC (f p1))
    rw [← e] at t2
    have t3 := mul_le_mul_of_nonneg_left hδs ha.le
    have t4 := mul_nonneg ha.le (norm_nonneg (toC p1 - toC p0))
    linarith
  have hne : toC (O.eval f p1) - toC (O.eval f p0) ≠ 0 := by
    intro e
    rw [e, norm_zero] at hD
    have := mul_pos (show (0 : ℝ) < 4 / 5 * ‖toC p1 - toC p0‖ by linarith) ha
    linarith
  refine ⟨hD, ?_⟩
  -- the exact formula for the computed values
  have key : 4 / 5 * ‖toC p1 - toC p0‖ * ‖(toC p0 * toC (O.eval f p1) - toC p1 * toC (O.eval f p0)) / (toC (O.eval f p1) - toC (O.eval f p0)) - toC c‖ ≤
      1 / 3 * ‖toC p1 - toC c‖ * ‖toC p1 - toC p0‖ + δ * (‖toC p0 - toC c‖ + ‖toC p1 - toC c‖) := by
    refine quot_bound ha (by linarith) hD ?_
    have e : (toC (O.eval f p1) - toC (O.eval f p0)) *
        ((toC p0 * toC (O.eval f p1) - toC p1 * toC (O.eval f p0)) / (toC (O.eval f p1) - toC (O.eval f p0)) - toC c) =
        ((toC p1 - toC c) * (toC (f p1) - toC (f p0) - toC (df c) * (toC p1 - toC p0)) - (toC p1 - toC p0) * (toC (f p1) - toC (df c) * (toC p1 - toC c))) +
          ((toC p0 - toC c) * (toC (O.eval f p1) - toC (f p1)) - (toC p1 - toC c) * (toC (O.eval f p0) - toC (f p0))) := by
      field_simp
      ring
    rw [e]
    refine (norm_add_le _ _).trans ?_
    have t1 := norm_sub_le ((toC p1 - toC c) * (toC (f p1) - toC (f p0) - toC (df c) * (toC p1 - toC p0))) ((toC p1 - toC p0) * (toC (f p1) - toC (df c) * (toC p1 - toC c)))
    have t2 := norm_sub_le ((toC p0 - toC c) * (toC (O.eval f p1) - toC (f p1))) ((toC p1 - toC c) * (toC (O.eval f p0) - toC (f p0)))
    rw [norm_mul, norm_mul] at t1 t2
    have a1 := mul_le_mul_of_nonneg_left l2 (norm_nonneg (toC p1 - toC c))
    have a2 := mul_le_mul_of_nonneg_left l1 (norm_nonneg (toC p1 - toC p0))
    have a3 := mul_le_mul_of_nonneg_left v1 (norm_nonneg (toC p0 - toC c))
    have a4 := mul_le_mul_of_nonneg_left v0 (norm_nonneg (toC p1 - toC c))
    linarith
  generalize (toC p0 * toC (O.eval f p1) - toC p1 * toC (O.eval f p0)) / (toC (O.eval f p1) - toC (O.eval f p0)) = E at *
  have hpos : 0 < ‖toC p1 - toC p0‖ := by linarith
  have k2 : δ * (‖toC p0 - toC c‖ + ‖toC p1 - toC c‖) ≤ tol / 40 * ‖toC p1 - toC p0‖ := by
    refine (mul_le_mul_of_nonneg_left hk hδ0).trans ?_
    rw [← mul_assoc]
    exact mul_le_mul_of_nonneg_right (by linarith) hpos.le
  have k3 : ‖toC p1 - toC p0‖ * (4 / 5 * ‖E - toC c‖) ≤ ‖toC p1 - toC p0‖ * (1 / 3 * ‖toC p1 - toC c‖ + tol / 40) := by linarith
  have k4 := le_of_mul_le_mul_left k3 hpos
  linarith

/-- a computed step of the secant method -/
theorem rounded_secant {O : SolverOps ℝ} {f df : Cx ℝ → Cx ℝ} {c : Cx ℝ} {r tol δ κ : ℝ} (h : Steady f df c r) (hO : ComputesNear O f df c r tol δ) (hS : SecantNear O f c r tol κ)
    (htol : 0 < tol) (hκ : 4 ≤ κ) (hδ : 2 * δ * κ ≤ tol / 20) {p0 p1 : Cx ℝ} (h0 : ‖toC p0 - toC c‖ ≤ r) (h1 : ‖toC p1 - toC c‖ ≤ r)
    (hk : ‖toC p0 - toC c‖ + ‖toC p1 - toC c‖ ≤ κ * ‖toC p1 - toC p0‖) (hw : tol / 2 ≤ ‖toC p1 - toC p0‖) :
    O.eval f p1 ≠ O.eval f p0 ∧
      ‖toC (secantStepC O p0 (O.eval f p0) p1 (O.eval f p1)) - toC c‖ ≤ 5 / 12 * ‖toC p1 - toC c‖ + tol / 10 := by
  have hs : ‖toC (secantStepC O p0 (O.eval f p0) p1 (O.eval f p1)) -
      (toC p0 * toC (O.eval f p1) - toC p1 * toC (O.eval f p0)) / (toC (O.eval f p1) - toC (O.eval f p0))‖ ≤ tol / 20 := hS p0 p1 h0 h1 hk hw
  obtain ⟨hD, hE⟩ := secant_formula h hO.value htol hκ hδ h0 h1 hk hw
  have hpos := mul_pos (show (0 : ℝ) < 4 / 5 * ‖toC p1 - toC p0‖ by linarith) h.pos
  refine ⟨fun e => ?_, ?_⟩
  · rw [e, sub_self, norm_zero] at hD
    linarith
  · generalize (toC p0 * toC (O.eval f p1) - toC p1 * toC (O.eval f p0)) / (toC (O.eval f p1) - toC (O.eval f p0)) = E at *
    have t := norm_add_le (toC (secantStepC O p0 (O.eval f p0) p1 (O.eval f p1)) - E) (E - toC c)
    rw [sub_add_sub_cancel] at t
    linarith

/-- the secant loop with computed operations converges -/
theorem secantLoopC_converges {O : SolverOps ℝ} {f df : Cx ℝ → Cx ℝ} {c : Cx ℝ} {r tol δ κ : ℝ} (h : Steady f df c r) (hO : ComputesNear O f df c r tol δ) (hS : SecantNear O f c r tol κ)
    (htol : 0 < tol) (hr : tol ≤ r) (hκ : 4 ≤ κ) (hδ : 2 * δ * κ ≤ tol / 20) (n : ℕ) (p0 p1 : Cx ℝ) (h0 : ‖toC p0 - toC c‖ ≤ r) (h1 : ‖toC p1 - toC c‖ ≤ r)
    (hk : ‖toC p0 - toC c‖ + ‖toC p1 - toC c‖ ≤ κ * ‖toC p1 - toC p0‖) (hw : tol / 2 ≤ ‖toC p1 - toC p0‖)
    (hn : ‖toC p1 - toC c‖ ≤ (12 / 5) ^ n * (tol / 3) + 12 / 7 * (tol / 10)) :
    ∃ z, secantLoopC O f tol (n + 1) p0 (O.eval f p0) p1 (O.eval f p1) = some z ∧ ‖toC z - toC c‖ ≤ 24 / 25 * tol := by
  have hclose : ∀ z w, ‖toC z - toC c‖ ≤ r → ‖toC w - toC c‖ ≤ r →
    (‖toC z - toC w‖ ≤ 9 / 10 * tol → O.abs (O.sub z w) ≤ tol) ∧ (O.abs (O.sub z w) ≤ tol → ‖toC z - toC w‖ ≤ 11 / 10 * tol) := hO.close
  induction n generalizing p0 p1 with
  | zero =>
    obtain ⟨hq, hb⟩ := rounded_secant h hO hS htol hκ hδ h0 h1 hk hw
    unfold secantLoopC
    rw [if_neg hq]
    dsimp only
    generalize secantStepC O p0 (O.eval f p0) p1 (O.eval f p1) = p at *
    have hp : ‖toC p - toC c‖ ≤ r := by linarith
    have hst : ‖toC p - toC p1‖ ≤ ‖toC p - toC c‖ + ‖toC p1 - toC c‖ := by
      have := norm_sub_le (toC p - toC c) (toC p1 - toC c)
      rwa [sub_sub_sub_cancel_right] at this
    rw [pow_zero, one_mul] at hn
    rw [if_pos ((hclose p p1 hp h1).1 (by linarith))]
    exact ⟨_, rfl, by linarith⟩
  | succ n ih =>
    obtain ⟨hq, hb⟩ := rounded_secant h hO hS htol hκ hδ h0 h1 hk hw
    unfold secantLoopC
    rw [if_neg hq]
    dsimp only
    generalize secantStepC O p0 (O.eval f p0) p1 (O.eval f p1) = p at *
    have hp : ‖toC p - toC c‖ ≤ r := by linarith
    have h2 : ‖toC p1 - toC c‖ ≤ ‖toC p - toC p1‖ + ‖toC p - toC c‖ := by
      have := norm_sub_le (toC p - toC c) (toC p - toC p1)
      rw [sub_sub_sub_cancel_left] at this
      linarith
    by_cases hs : O.abs (O.sub p p1) ≤ tol
    · rw [if_pos hs]
      refine ⟨_, rfl, ?_⟩
      have h3 := (hclose p p1 hp h1).2 hs
      linarith
    · rw [if_neg hs]
      have h4 : 9 / 10 * tol < ‖toC p - toC p1‖ := by
        by_contra hc
        exact hs ((hclose p p1 hp h1).1 (not_lt.1 hc))
      refine ih p1 p h1 hp ?_ (by linarith) ?_
      · refine le_trans ?_ (mul_le_mul_of_nonneg_right hκ (norm_nonneg _))
        linarith
      · rw [pow_succ] at hn
        linarith

/-- the error of a computed step of the secant method, written with the quotient `ρ` of the two values -/
theorem frac_error {ρ p0 p1 E t m n q d P : ℂ} {u κ M : ℝ} (hu : 0 ≤ u) (hκ : 4 ≤ κ) (huκ : u * κ ≤ 1 / 320) (hρ : ‖ρ‖ ≤ 103 / 100) (hD : 2 / 3 ≤ κ * ‖1 - ρ‖)
    (hE : E * (1 - ρ) = p0 - ρ * p1) (hEM : ‖E‖ ≤ M) (hp0 : ‖p0‖ ≤ M) (hp1 : ‖p1‖ ≤ M) (ht : ‖t + ρ‖ ≤ u * ‖ρ‖) (hm : ‖m - t * p1‖ ≤ u * ‖t * p1‖) (hn : ‖n - (m + p0)‖ ≤ u * ‖m + p0‖)
    (hq : ‖q - ρ‖ ≤ u * ‖ρ‖) (hd : ‖d - (1 - q)‖ ≤ u * ‖1 - q‖) (hP : d ≠ 0 → ‖P - n / d‖ ≤ u * ‖n / d‖) : ‖P - E‖ ≤ 16 * (κ * (u * M)) := by
  have hM : 0 ≤ M := (norm_nonneg _).trans hEM
  have huM : 0 ≤ u * M := mul_nonneg hu hM
  have hu1 : u ≤ 1 / 1280 := by
    have := mul_le_mul_of_nonneg_left hκ hu
    linarith
  have huM1 : u * M ≤ 1 / 1280 * M := mul_le_mul_of_nonneg_right hu1 hM
  have t0 := mul_le_mul_of_nonneg_left hρ hu
  have t1 : ‖t + ρ‖ ≤ 103 / 100 * u := by linarith
  have t2 : ‖t‖ ≤ 104 / 100 := by
    have := norm_sub_le (t + ρ) ρ
    rw [add_sub_cancel_right] at this
    linarith
  have m0 : ‖t * p1‖ ≤ 104 / 100 * M := by
    rw [norm_mul]
    exact mul_le_mul t2 hp1 (norm_nonneg _) (by norm_num)
  have m1 : ‖m - t * p1‖ ≤ 104 / 100 * (u * M) := by
    have := mul_le_mul_of_nonneg_left m0 hu
    linarith
  have m2 : ‖m + p0‖ ≤ 205 / 100 * M := by
    have a := norm_add_le (m - t * p1) (t * p1)
    rw [sub_add_cancel] at a
    have b := norm_add_le m p0
    linarith
  have n1 : ‖n - (m + p0)‖ ≤ 205 / 100 * (u * M) := by
    have := mul_le_mul_of_nonneg_left m2 hu
    linarith
  have s1 : ‖(t + ρ) * p1‖ ≤ 103 / 100 * (u * M) := by
    rw [norm_mul]
    have := mul_le_mul t1 hp1 (norm_nonneg _) (by linarith)
    linarith
  have n2 : ‖n - (p0 - ρ * p1)‖ ≤ 412 / 100 * (u * M) := by
    have e : n - (p0 - ρ * p1) = (n - (m + p0)) + ((m - t * p1) + (t + ρ) * p1) := by ring
    rw [e]
    have a := norm_add_le (n - (m + p0)) ((m - t * p1) + (t + ρ) * p1)
    have b := norm_add_le (m - t * p1) ((t + ρ) * p1)
    linarith
  have q1 : ‖q - ρ‖ ≤ 103 / 100 * u := by linarith
  have q2 : ‖1 - q‖ ≤ 204 / 100 := by
    have e : 1 - q = 1 - ((q - ρ) + ρ) := by ring
    rw [e]
    have a := norm_sub_le 1 ((q - ρ) + ρ)
    have b := norm_add_le (q - ρ) ρ
    have c : ‖(1 : ℂ)‖ = 1 := norm_one
    linarith
  have d1 : ‖d - (1 - q)‖ ≤ 204 / 100 * u := by
    have := mul_le_mul_of_nonneg_left q2 hu
    linarith
  have d2 : ‖d - (1 - ρ)‖ ≤ 307 / 100 * u := by
    have e : d - (1 - ρ) = (d - (1 - q)) - (q - ρ) := by ring
    rw [e]
    have := norm_sub_le (d - (1 - q)) (q - ρ)
    linarith
  have d3 : 1 / 2 ≤ κ * ‖d‖ := by
    have a := norm_sub_norm_le (1 - ρ) ((1 - ρ) - d)
    rw [sub_sub_cancel, norm_sub_rev (1 - ρ) d] at a
    have b : ‖1 - ρ‖ ≤ ‖d‖ + 307 / 100 * u := by linarith
    have c := mul_le_mul_of_nonneg_left b (show 0 ≤ κ by linarith)
    linarith
  have hd0 : d ≠ 0 := by
    intro e
    rw [e, norm_zero] at d3
    linarith
  have r1 : ‖d * (n / d - E)‖ ≤ 719 / 100 * (u * M) := by
    have e : d * (n / d - E) = (n - (p0 - ρ * p1)) - E * (d - (1 - ρ)) := by
      rw [← hE]
      field_simp
      ring
    rw [e]
    have a := norm_sub_le (n - (p0 - ρ * p1)) (E * (d - (1 - ρ)))
    rw [norm_mul] at a
    have b := mul_le_mul hEM d2 (norm_nonneg _) hM
    linarith
  rw [norm_mul] at r1
  have r2 : 1 / 2 * ‖n / d - E‖ ≤ 719 / 100 * (κ * (u * M)) := by
    have a := mul_le_mul_of_nonneg_left r1 (show 0 ≤ κ by linarith)
    have b := mul_le_mul_of_nonneg_right d3 (norm_nonneg (n / d - E))
    linarith
  have huκM : κ * (u * M) ≤ 1 / 320 * M := by
    have := mul_le_mul_of_nonneg_right huκ hM
    linarith
  have r3 : ‖n / d‖ ≤ 2 * M := by
    have a := norm_add_le (n / d - E) E
    rw [sub_add_cancel] at a
    linarith
  have r4 : ‖P - n / d‖ ≤ 2 * (u * M) := by
    have a := mul_le_mul_of_nonneg_left r3 hu
    have := hP hd0
    linarith
  have r5 := mul_le_mul_of_nonneg_right hκ huM
  have a := norm_add_le (P - n / d) (n / d - E)
  rw [sub_add_sub_cancel] at a
  linarith

/-- computed values near a simple zero -/
theorem computesNear_of {O : SolverOps ℝ} {f df : Cx ℝ → Cx ℝ} {c : Cx ℝ} {r tol κ : ℝ} (h : Steady f df c r) (htol : 0 < tol) (hA : SolverAccurate O f df c r tol κ) :
    ComputesNear O f df c r tol (tol / (40 * κ)) := by
  obtain ⟨hκ, hr, hE, u, hu, hR, huM⟩ := hA
  obtain ⟨δ, hδ⟩ : ∃ δ, δ = tol / (40 * κ) := ⟨_, rfl⟩
  rw [← hδ] at hE ⊢
  have hκδ : κ * δ = tol / 40 := by
    rw [hδ]
    field_simp
  have hδ0 : 0 < δ := by rw [hδ]; positivity
  have hδ1 : 4 * δ ≤ tol / 40 := (mul_le_mul_of_nonneg_right hκ hδ0.le).trans_eq hκδ
  have hM : 0 ≤ ‖toC c‖ + r := by linarith [norm_nonneg (toC c)]
  have huM : 320 * (κ * (u * (‖toC c‖ + r))) ≤ tol := huM
  have huM1 : u * (‖toC c‖ + r) ≤ δ / 8 := by
    have : κ * (u * (‖toC c‖ + r)) ≤ κ * (δ / 8) := by linarith
    exact le_of_mul_le_mul_left this (by linarith)
  have huc : 0 ≤ u * ‖toC c‖ := mul_nonneg hu (norm_nonneg _)
  have hur : 0 ≤ u * r := mul_nonneg hu (by linarith)
  have hu1 : u ≤ 1 / 1280 := by
    have : u * r ≤ 1 / 1280 * r := by linarith
    exact le_of_mul_le_mul_right this (by linarith)
  have hQ : ∀ z, ‖toC z - toC c‖ ≤ r → O.eval df z ≠ 0 ∧ ‖toC (O.eval f z) / toC (O.eval df z)‖ ≤ 2 * r := by
    intro z hz
    have hr' : ‖toC c - toC c‖ ≤ r := by rw [sub_self, norm_zero]; linarith
    have ha := h.pos
    have l1 := h.diff2 hr' hz
    rw [h.zero, toC_eq_zero.2 rfl, sub_zero] at l1
    have l2 : ‖toC (df z) - toC (df c)‖ ≤ ‖toC (df c)‖ / 6 := h.steady z hz
    have v1 : ‖toC (O.eval f z) - toC (f z)‖ ≤ ‖toC (df c)‖ * δ := hE.value z hz
    have v2 : ‖toC (O.eval df z) - toC (df z)‖ ≤ ‖toC (df c)‖ / 60 := hE.slope z hz
    have d3 : 49 / 60 * ‖toC (df c)‖ ≤ ‖toC (O.eval df z)‖ := by
      have a := norm_add_le (toC (O.eval df z) - toC (df z)) (toC (df z) - toC (df c))
      rw [sub_add_sub_cancel] at a
      have := norm_sub_norm_le (toC (df c)) (toC (df c) - toC (O.eval df z))
      rw [sub_sub_cancel, norm_sub_rev] at this
      linarith
    have hne : toC (O.eval df z) ≠ 0 := by
      intro h0
      rw [h0, norm_zero] at d3
      linarith
    refine ⟨fun h0 => hne (toC_eq_zero.2 h0), ?_⟩
    rw [norm_div, div_le_iff₀ (norm_pos_iff.2 hne)]
    have a := norm_add_le (toC (O.eval f z) - toC (f z)) (toC (f z))
    rw [sub_add_cancel] at a
    have b := mul_le_mul_of_nonneg_left d3 (show 0 ≤ 2 * r by linarith)
    have e := mul_le_mul_of_nonneg_left hz ha.le
    have g := mul_le_mul_of_nonneg_left (show δ ≤ 1 / 160 * r by linarith) ha.le
    have k := mul_nonneg ha.le (show 0 ≤ r by linarith)
    linarith
  have hq : ∀ z, ‖toC z - toC c‖ ≤ r → ‖toC (O.div (O.eval f z) (O.eval df z)) - toC (O.eval f z) / toC (O.eval df z)‖ ≤ 2 * (u * r) := by
    intro z hz
    obtain ⟨h1, h2⟩ := hQ z hz
    have a : ‖toC (O.div (O.eval f z) (O.eval df z)) - toC (O.eval f z) / toC (O.eval df z)‖ ≤ u * ‖toC (O.eval f z) / toC (O.eval df z)‖ := hR.div _ _ h1
    have := mul_le_mul_of_nonneg_left h2 hu
    linarith
  refine ⟨hE.value, hE.slope, fun z hz => ?_, fun z hz => ?_, fun z w hz hw => ?_⟩
  · exact (hq z hz).trans (by linarith)
  · obtain ⟨h1, h2⟩ := hQ z hz
    have h3 := hq z hz
    have h4 : ‖toC (O.sub z (O.div (O.eval f z) (O.eval df z))) - (toC z - toC (O.div (O.eval f z) (O.eval df z)))‖ ≤
      u * ‖toC z - toC (O.div (O.eval f z) (O.eval df z))‖ := hR.sub _ _
    refine h4.trans ?_
    generalize toC (O.div (O.eval f z) (O.eval df z)) = Q at *
    have a := norm_sub_le (toC z) Q
    have b := norm_add_le (Q - toC (O.eval f z) / toC (O.eval df z)) (toC (O.eval f z) / toC (O.eval df z))
    rw [sub_add_cancel] at b
    have d := norm_add_le (toC z - toC c) (toC c)
    rw [sub_add_cancel] at d
    have hz' : ‖toC z - toC c‖ ≤ r := hz
    have e : ‖toC z - Q‖ ≤ ‖toC c‖ + 4 * r := by linarith
    have := mul_le_mul_of_nonneg_left e hu
    linarith
  · have s1 : ‖toC (O.sub z w) - (toC z - toC w)‖ ≤ u * ‖toC z - toC w‖ := hR.sub z w
    have s2 : |O.abs (O.sub z w) - ‖toC (O.sub z w)‖| ≤ u * ‖toC (O.sub z w)‖ := hR.abs _
    show (‖toC z - toC w‖ ≤ 9 / 10 * tol → O.abs (O.sub z w) ≤ tol) ∧ (O.abs (O.sub z w) ≤ tol → ‖toC z - toC w‖ ≤ 11 / 10 * tol)
    generalize toC (O.sub z w) = S at *
    rw [abs_le] at s2
    have a := norm_add_le (S - (toC z - toC w)) (toC z - toC w)
    rw [sub_add_cancel] at a
    have b := norm_sub_le S (S - (toC z - toC w))
    rw [sub_sub_cancel] at b
    have u1 := mul_le_mul_of_nonneg_right hu1 (norm_nonneg S)
    have u2 := mul_le_mul_of_nonneg_right hu1 (norm_nonneg (toC z - toC w))
    constructor <;> intro hyp <;> linarith

/-- computed steps of the secant method -/
theorem secantNear_of {O : SolverOps ℝ} {f df : Cx ℝ → Cx ℝ} {c : Cx ℝ} {r tol κ : ℝ} (h : Steady f df c r) (htol : 0 < tol) (hA : SolverAccurate O f df c r tol κ) :
    SecantNear O f c r tol κ := by
  have hN := computesNear_of h htol hA
  obtain ⟨hκ, hr, hE, u, hu, hR, huM⟩ := hA
  obtain ⟨δ, hδ⟩ : ∃ δ, δ = tol / (40 * κ) := ⟨_, rfl⟩
  rw [← hδ] at hE hN
  have hκδ : κ * δ = tol / 40 := by
    rw [hδ]
    field_simp
  have hδ0 : 0 < δ := by rw [hδ]; positivity
  have hδ1 : 4 * δ ≤ tol / 40 := (mul_le_mul_of_nonneg_right hκ hδ0.le).trans_eq hκδ
  have huM : 320 * (κ * (u * (‖toC c‖ + r))) ≤ tol := huM
  have hκc : 0 ≤ κ * (u * ‖toC c‖) := mul_nonneg (by linarith) (mul_nonneg hu (norm_nonneg _))
  have huκ : u * κ ≤ 1 / 320 := by
    have : u * κ * r ≤ 1 / 320 * r := by linarith
    exact le_of_mul_le_mul_right this (by linarith)
  have hu1 : u ≤ 1 / 1280 := by
    have := mul_le_mul_of_nonneg_left hκ hu
    linarith
  intro p0 p1 h0 h1 hk hw
  have h0 : ‖toC p0 - toC c‖ ≤ r := h0
  have h1 : ‖toC p1 - toC c‖ ≤ r := h1
  have hk : ‖toC p0 - toC c‖ + ‖toC p1 - toC c‖ ≤ κ * ‖toC p1 - toC p0‖ := hk
  have hw : tol / 2 ≤ ‖toC p1 - toC p0‖ := hw
  have hr' : ‖toC c - toC c‖ ≤ r := by rw [sub_self, norm_zero]; linarith
  obtain ⟨hD, hEc⟩ := secant_formula h hN.value htol hκ (by linarith) h0 h1 hk hw
  have up : ∀ p, ‖toC p - toC c‖ ≤ r → ‖toC p‖ ≤ ‖toC c‖ + r ∧ ‖toC (O.eval f p)‖ ≤ ‖toC (df c)‖ * (7 / 6 * ‖toC p - toC c‖ + δ) := by
    intro p hp
    have a := norm_add_le (toC p - toC c) (toC c)
    rw [sub_add_cancel] at a
    have b := h.diff2 hr' hp
    rw [h.zero, toC_eq_zero.2 rfl, sub_zero] at b
    have v : ‖toC (O.eval f p) - toC (f p)‖ ≤ ‖toC (df c)‖ * δ := hE.value p hp
    have d := norm_add_le (toC (O.eval f p) - toC (f p)) (toC (f p))
    rw [sub_add_cancel] at d
    constructor <;> linarith
  obtain ⟨m0, g0⟩ := up p0 h0
  obtain ⟨m1, g1⟩ := up p1 h1
  have ha := h.pos
  show ‖toC (secantStepC O p0 (O.eval f p0) p1 (O.eval f p1)) -
      (toC p0 * toC (O.eval f p1) - toC p1 * toC (O.eval f p0)) / (toC (O.eval f p1) - toC (O.eval f p0))‖ ≤ tol / 20
  have e0 := norm_nonneg (toC p0 - toC c)
  have e1 := norm_nonneg (toC p1 - toC c)
  -- the two cases are the same up to exchanging the points
  have both : ∀ a b : Cx ℝ, toC (O.eval f b) ≠ toC (O.eval f a) → 4 / 5 * ‖toC p1 - toC p0‖ * ‖toC (df c)‖ ≤ ‖toC (O.eval f b) - toC (O.eval f a)‖ →
      ‖toC (O.eval f b)‖ ≤ ‖toC (df c)‖ * (7 / 6 * (κ * ‖toC p1 - toC p0‖) + δ) → ‖toC a‖ ≤ ‖toC c‖ + r → ‖toC b‖ ≤ ‖toC c‖ + r →
      ‖(toC a * toC (O.eval f b) - toC b * toC (O.eval f a)) / (toC (O.eval f b) - toC (O.eval f a)) - toC c‖ ≤ r →
      O.abs (O.eval f a) ≤ O.abs (O.eval f b) →
      ‖toC (O.div (O.add (O.mul (O.div (-O.eval f a) (O.eval f b)) b) a) (O.sub 1 (O.div (O.eval f a) (O.eval f b)))) -
        (toC a * toC (O.eval f b) - toC b * toC (O.eval f a)) / (toC (O.eval f b) - toC (O.eval f a))‖ ≤ 16 * (κ * (u * (‖toC c‖ + r))) := by
    intro a b hne hgap hgb hma hmb hEr habs
    have A0 : |O.abs (O.eval f a) - ‖toC (O.eval f a)‖| ≤ u * ‖toC (O.eval f a)‖ := hR.abs _
    have A1 : |O.abs (O.eval f b) - ‖toC (O.eval f b)‖| ≤ u * ‖toC (O.eval f b)‖ := hR.abs _
    rw [abs_le] at A0 A1
    have u0 := mul_le_mul_of_nonneg_right hu1 (norm_nonneg (toC (O.eval f a)))
    have u1 := mul_le_mul_of_nonneg_right hu1 (norm_nonneg (toC (O.eval f b)))
    have hratio : ‖toC (O.eval f a)‖ ≤ 103 / 100 * ‖toC (O.eval f b)‖ := by linarith [norm_nonneg (toC (O.eval f b))]
    have hb0 : toC (O.eval f b) ≠ 0 := by
      intro e
      rw [e, norm_zero, mul_zero] at hratio
      exact hne (by rw [e, norm_le_zero_iff.1 hratio])
    have hbp := norm_pos_iff.2 hb0
    have hb0' : O.eval f b ≠ 0 := fun e => hb0 (toC_eq_zero.2 e)
    have t1 : ‖toC (O.div (-O.eval f a) (O.eval f b)) - toC (-O.eval f a) / toC (O.eval f b)‖ ≤ u * ‖toC (-O.eval f a) / toC (O.eval f b)‖ := hR.div _ _ hb0'
    have t2 : ‖toC (O.div (O.eval f a) (O.eval f b)) - toC (O.eval f a) / toC (O.eval f b)‖ ≤ u * ‖toC (O.eval f a) / toC (O.eval f b)‖ := hR.div _ _ hb0'
    have t3 : ‖toC (O.mul (O.div (-O.eval f a) (O.eval f b)) b) - toC (O.div (-O.eval f a) (O.eval f b)) * toC b‖ ≤ u * ‖toC (O.div (-O.eval f a) (O.eval f b)) * toC b‖ := hR.mul _ _
    have t4 : ‖toC (O.add (O.mul (O.div (-O.eval f a) (O.eval f b)) b) a) - (toC (O.mul (O.div (-O.eval f a) (O.eval f b)) b) + toC a)‖ ≤
      u * ‖toC (O.mul (O.div (-O.eval f a) (O.eval f b)) b) + toC a‖ := hR.add _ _
    have t5 : ‖toC (O.sub 1 (O.div (O.eval f a) (O.eval f b))) - (toC 1 - toC (O.div (O.eval f a) (O.eval f b)))‖ ≤ u * ‖toC 1 - toC (O.div (O.eval f a) (O.eval f b))‖ := hR.sub _ _
    have t6 : toC (O.sub 1 (O.div (O.eval f a) (O.eval f b))) ≠ 0 →
      ‖toC (O.div (O.add (O.mul (O.div (-O.eval f a) (O.eval f b)) b) a) (O.sub 1 (O.div (O.eval f a) (O.eval f b)))) -
        toC (O.add (O.mul (O.div (-O.eval f a) (O.eval f b)) b) a) / toC (O.sub 1 (O.div (O.eval f a) (O.eval f b)))‖ ≤
      u * ‖toC (O.add (O.mul (O.div (-O.eval f a) (O.eval f b)) b) a) / toC (O.sub 1 (O.div (O.eval f a) (O.eval f b)))‖ := fun hd => hR.div _ _ fun e => hd (toC_eq_zero.2 e)
    rw [toC_one] at t5
    rw [toC_neg, neg_div, norm_neg, sub_neg_eq_add] at t1
    have hsub : toC (O.eval f b) - toC (O.eval f a) ≠ 0 := sub_ne_zero.2 hne
    have hgap1 : 1 - toC (O.eval f a) / toC (O.eval f b) = (toC (O.eval f b) - toC (O.eval f a)) / toC (O.eval f b) := one_sub_div hb0
    refine frac_error hu hκ huκ ?_ ?_ ?_ ?_ hma hmb t1 t3 t4 t2 t5 t6
    · rw [norm_div, div_le_iff₀ hbp]
      exact hratio
    · rw [hgap1, norm_div, ← mul_div_assoc, le_div_iff₀ hbp]
      have b1 := mul_le_mul_of_nonneg_left hgap (show 0 ≤ κ by linarith)
      have b2 : κ * δ ≤ 1 / 20 * ‖toC p1 - toC p0‖ := by linarith
      have b3 : δ ≤ 1 / 80 * ‖toC p1 - toC p0‖ := by linarith
      have b4 := mul_le_mul_of_nonneg_left b3 ha.le
      have b5 : 0 ≤ ‖toC (df c)‖ * ‖toC p1 - toC p0‖ := mul_nonneg ha.le (norm_nonneg _)
      have b6 := mul_le_mul_of_nonneg_right hκ b5
      linarith
    · rw [hgap1]
      field_simp
    · have a1 := norm_add_le ((toC a * toC (O.eval f b) - toC b * toC (O.eval f a)) / (toC (O.eval f b) - toC (O.eval f a)) - toC c) (toC c)
      rw [sub_add_cancel] at a1
      linarith
  have hne : toC (O.eval f p1) - toC (O.eval f p0) ≠ 0 := by
    intro e
    rw [e, norm_zero] at hD
    have := mul_pos (show (0 : ℝ) < 4 / 5 * ‖toC p1 - toC p0‖ by linarith) ha
    linarith
  have hflip : (toC p0 * toC (O.eval f p1) - toC p1 * toC (O.eval f p0)) / (toC (O.eval f p1) - toC (O.eval f p0)) =
      (toC p1 * toC (O.eval f p0) - toC p0 * toC (O.eval f p1)) / (toC (O.eval f p0) - toC (O.eval f p1)) := by
    rw [← neg_div_neg_eq, neg_sub, neg_sub]
  have hb : ∀ e, 0 ≤ e → e ≤ κ * ‖toC p1 - toC p0‖ → ‖toC (df c)‖ * (7 / 6 * e + δ) ≤ ‖toC (df c)‖ * (7 / 6 * (κ * ‖toC p1 - toC p0‖) + δ) := fun e _ he =>
    mul_le_mul_of_nonneg_left (by linarith) ha.le
  have hEr : ‖(toC p0 * toC (O.eval f p1) - toC p1 * toC (O.eval f p0)) / (toC (O.eval f p1) - toC (O.eval f p0)) - toC c‖ ≤ r := by linarith
  unfold secantStepC
  split
  · rename_i hlt
    refine (both p0 p1 (sub_ne_zero.1 hne) hD (g1.trans (hb _ e1 (by linarith))) m0 m1 hEr hlt.le).trans (by linarith)
  · rename_i hlt
    rw [hflip] at hEr ⊢
    refine (both p1 p0 (sub_ne_zero.1 hne).symm (by rw [norm_sub_rev (toC (O.eval f p0))]; exact hD) (g0.trans (hb _ e0 (by linarith))) m1 m0 hEr (not_lt.1 hlt)).trans (by linarith)

/-! ## The array version -/

theorem arrayStepC_eq (O : SolverOps ℝ) (f df : Cx ℝ → Cx ℝ) (p : List (Cx ℝ)) :
    (p.map fun x => if O.eval df x ≠ 0 then O.sub x (O.div (O.eval f x) (O.eval df x)) else x) = p.map (newtonStepC O f df) := by
  refine List.map_congr_left fun x _ => ?_
  unfold newtonStepC
  by_cases h : O.eval df x = 0
  · rw [if_neg (not_not.2 h)]
  · rw [if_pos h]

/-- the points move independently of each other -/
theorem arrayLoopC_iterates (O : SolverOps ℝ) (f df : Cx ℝ → Cx ℝ) (tol : ℝ) (n : ℕ) (p : List (Cx ℝ)) (failures nzDer : List Bool) :
    ∃ k ≤ n, (arrayLoopC O f df tol n p failures nzDer).1 = p.map (newtonStepC O f df)^[k] := by
  induction n generalizing p failures nzDer with
  | zero => exact ⟨0, le_rfl, by simp [arrayLoopC]⟩
  | succ n ih =>
    unfold arrayLoopC
    split
    · exact ⟨0, Nat.zero_le _, by simp⟩
    · dsimp only
      split
      · exact ⟨0, Nat.zero_le _, by simp⟩
      · rw [arrayStepC_eq]
        split
        · exact ⟨1, by omega, rfl⟩
        · obtain ⟨k, hk, h⟩ := ih (p.map (newtonStepC O f df)) _ _
          refine ⟨k + 1, by omega, ?_⟩
          rw [h, List.map_map]
          rfl

/-- the test of convergence in the array version -/
theorem rounded_test {O : SolverOps ℝ} {f df : Cx ℝ → Cx ℝ} {c : Cx ℝ} {r tol κ : ℝ} (h : Steady f df c r) (htol : 0 < tol) (hA : SolverAccurate O f df c r tol κ) {z : Cx ℝ}
    (hz : ‖toC z - toC c‖ ≤ r) :
    (‖toC z - toC c‖ ≤ tol / 2 + 7 / 4 * (13 / 4 * (tol / (40 * κ))) → O.abs (O.div (O.eval f z) (O.eval df z)) < tol) ∧
    (O.abs (O.div (O.eval f z) (O.eval df z)) < tol → ‖toC (O.sub z (O.div (O.eval f z) (O.eval df z))) - toC c‖ ≤ 9 / 10 * tol) := by
  have hO := computesNear_of h htol hA
  obtain ⟨_, hb⟩ := rounded_step h hO hz
  have hm : ‖toC (O.sub z (O.div (O.eval f z) (O.eval df z))) - (toC z - toC (O.div (O.eval f z) (O.eval df z)))‖ ≤ tol / (40 * κ) := hO.minus z hz
  obtain ⟨hκ, hr, hE, u, hu, hR, huM⟩ := hA
  have hδ : tol / (40 * κ) ≤ tol / 100 := div_le_div_of_nonneg_left htol.le (by norm_num) (by linarith)
  have hδ0 : 0 ≤ tol / (40 * κ) := by positivity
  have huM : 320 * (κ * (u * (‖toC c‖ + r))) ≤ tol := huM
  have hκc : 0 ≤ κ * (u * ‖toC c‖) := mul_nonneg (by linarith) (mul_nonneg hu (norm_nonneg _))
  have hu1 : u ≤ 1 / 1280 := by
    have huκ : u * κ ≤ 1 / 320 := by
      have : u * κ * r ≤ 1 / 320 * r := by linarith
      exact le_of_mul_le_mul_right this (by linarith)
    have := mul_le_mul_of_nonneg_left hκ hu
    linarith
  have ha : |O.abs (O.div (O.eval f z) (O.eval df z)) - ‖toC (O.div (O.eval f z) (O.eval df z))‖| ≤ u * ‖toC (O.div (O.eval f z) (O.eval df z))‖ := hR.abs _
  rw [abs_le] at ha
  have hu2 := mul_le_mul_of_nonneg_right hu1 (norm_nonneg (toC (O.div (O.eval f z) (O.eval df z))))
  generalize tol / (40 * κ) = δ at *
  generalize O.abs (O.div (O.eval f z) (O.eval df z)) = A at *
  generalize toC (O.sub z (O.div (O.eval f z) (O.eval df z))) = P at *
  generalize toC (O.div (O.eval f z) (O.eval df z)) = Q at *
  have e1 : Q = (P - (toC z - Q)) + ((toC z - toC c) - (P - toC c)) := by ring
  have e2 : toC z - toC c = (P - toC c) + (Q - (P - (toC z - Q))) := by ring
  have t1 := norm_add_le (P - (toC z - Q)) ((toC z - toC c) - (P - toC c))
  rw [← e1] at t1
  have t2 := norm_sub_le (toC z - toC c) (P - toC c)
  have t3 := norm_add_le (P - toC c) (Q - (P - (toC z - Q)))
  rw [← e2] at t3
  have t4 := norm_sub_le Q (P - (toC z - Q))
  have n0 := norm_nonneg Q
  constructor <;> intro hyp <;> linarith

/-- what happens to a point near a simple zero -/
theorem arrayLoopC_converges {O : SolverOps ℝ} {f df : Cx ℝ → Cx ℝ} {c : Cx ℝ} {r tol κ : ℝ} (h : Steady f df c r) (htol : 0 < tol) (hA : SolverAccurate O f df c r tol κ)
    (n : ℕ) (p : List (Cx ℝ)) (failures nzDer : List Bool) (i : ℕ) (x : Cx ℝ) (hi : p[i]? = some x) (hf : i < failures.length)
    (h0 : ‖toC x - toC c‖ ≤ r) (hn : ‖toC x - toC c‖ ≤ (7 / 3) ^ n * (tol / 2) + 7 / 4 * (13 / 4 * (tol / (40 * κ)))) :
    ∃ y, (arrayLoopC O f df tol (n + 1) p failures nzDer).1[i]? = some y ∧ ‖toC y - toC c‖ ≤ 9 / 10 * tol ∧
      (arrayLoopC O f df tol (n + 1) p failures nzDer).2.1[i]? = some false := by
  have hO := computesNear_of h htol hA
  have hδ : tol / (40 * κ) ≤ tol / 100 := div_le_div_of_nonneg_left htol.le (by norm_num) (by linarith [hA.large])
  have hκ := hA.large
  have hδ0 : 0 ≤ tol / (40 * κ) := by positivity
  have hstay : ∀ x, ‖toC x - toC c‖ ≤ r → x ∈ p → (∀ y ∈ p, O.eval f y = 0) → ‖toC x - toC c‖ ≤ 9 / 10 * tol := fun x h0 hx hz => by
    linarith [rounded_zero h hO h0 (hz x hx)]
  induction n generalizing p failures nzDer x with
  | zero =>
    obtain ⟨hd, hb⟩ := rounded_step h hO h0
    obtain ⟨ht1, ht2⟩ := rounded_test h htol hA h0
    have hx : x ∈ p := List.mem_of_getElem? hi
    unfold arrayLoopC
    by_cases hz : ∀ y ∈ p, O.eval f y = 0
    · rw [if_pos hz]
      exact ⟨x, hi, hstay x h0 hx hz, by dsimp only; rw [List.getElem?_map, hi]; rfl⟩
    · rw [if_neg hz]
      dsimp only
      rw [if_neg (fun hall => hd (hall x hx))]
      rw [pow_zero, one_mul] at hn
      have hlt := ht1 hn
      have herr := ht2 hlt
      have hfail : (List.zipWith (fun x failed => if O.eval df x ≠ 0 then decide (tol ≤ O.abs (O.div (O.eval f x) (O.eval df x))) else failed) p failures)[i]? = some false := by
        rw [List.getElem?_zipWith, hi, List.getElem?_eq_getElem hf]
        simp only [Option.some.injEq]
        rw [if_pos hd]
        simpa using hlt
      have hstep : (p.map fun x => if O.eval df x ≠ 0 then O.sub x (O.div (O.eval f x) (O.eval df x)) else x)[i]? = some (O.sub x (O.div (O.eval f x) (O.eval df x))) := by
        rw [List.getElem?_map, hi]
        simp [hd]
      split
      · exact ⟨_, hstep, herr, hfail⟩
      · unfold arrayLoopC
        exact ⟨_, hstep, herr, hfail⟩
  | succ n ih =>
    obtain ⟨hd, hb⟩ := rounded_step h hO h0
    obtain ⟨ht1, ht2⟩ := rounded_test h htol hA h0
    have hx : x ∈ p := List.mem_of_getElem? hi
    unfold arrayLoopC
    by_cases hz : ∀ y ∈ p, O.eval f y = 0
    · rw [if_pos hz]
      exact ⟨x, hi, hstay x h0 hx hz, by dsimp only; rw [List.getElem?_map, hi]; rfl⟩
    · rw [if_neg hz]
      dsimp only
      rw [if_neg (fun hall => hd (hall x hx))]
      have hstep : (p.map fun x => if O.eval df x ≠ 0 then O.sub x (O.div (O.eval f x) (O.eval df x)) else x)[i]? = some (O.sub x (O.div (O.eval f x) (O.eval df x))) := by
        rw [List.getElem?_map, hi]
        simp [hd]
      have hlen : i < (List.zipWith (fun x failed => if O.eval df x ≠ 0 then decide (tol ≤ O.abs (O.div (O.eval f x) (O.eval df x))) else failed) p failures).length := by
        rw [List.length_zipWith]
        exact lt_min (List.getElem?_eq_some_iff.1 hi).1 hf
      have hfail : (List.zipWith (fun x failed => if O.eval df x ≠ 0 then decide (tol ≤ O.abs (O.div (O.eval f x) (O.eval df x))) else failed) p failures)[i]? =
          some (decide (tol ≤ O.abs (O.div (O.eval f x) (O.eval df x)))) := by
        rw [List.getElem?_zipWith, hi, List.getElem?_eq_getElem hf]
        simp only [Option.some.injEq]
        rw [if_pos hd]
      split
      · rename_i hall
        have hlt : ¬ tol ≤ O.abs (O.div (O.eval f x) (O.eval df x)) := by
          intro hle
          refine hall (true, true) ?_ ⟨rfl, rfl⟩
          refine List.mem_iff_getElem?.2 ⟨i, ?_⟩
          rw [List.getElem?_zip_eq_some]
          refine ⟨?_, by rw [hfail]; simp [hle]⟩
          rw [List.getElem?_map, hi]
          simp [hd]
        exact ⟨_, hstep, ht2 (not_le.1 hlt), by rw [hfail]; simp only [hlt, decide_false]⟩
      · have hr := hA.inside
        refine ih _ _ _ _ hstep hlen (by linarith) ?_ ?_
        · rw [pow_succ] at hn
          linarith
        · intro y hy hyp hall
          linarith [rounded_zero h hO hy (hall y hyp)]

/-- the array version returns, if one of the points is near a simple zero -/
theorem arrayNewtonC_converges {O : SolverOps ℝ} {f df : Cx ℝ → Cx ℝ} {c : Cx ℝ} {r tol κ : ℝ} (h : Steady f df c r) (htol : 0 < tol) (hA : SolverAccurate O f df c r tol κ)
    (n : ℕ) (p : List (Cx ℝ)) (i : ℕ) (x : Cx ℝ) (hi : p[i]? = some x)
    (h0 : ‖toC x - toC c‖ ≤ r) (hn : ‖toC x - toC c‖ ≤ (7 / 3) ^ n * (tol / 2) + 7 / 4 * (13 / 4 * (tol / (40 * κ)))) :
    ∃ out, arrayNewtonC O f df tol (n + 1) p = some out ∧ ∃ y, out[i]? = some y ∧ ‖toC y - toC c‖ ≤ 9 / 10 * tol := by
  obtain ⟨y, h1, h2, h3⟩ := arrayLoopC_converges h htol hA n p (p.map fun _ => true) (p.map fun _ => true) i x hi
    (by rw [List.length_map]; exact (List.getElem?_eq_some_iff.1 hi).1) h0 hn
  unfold arrayNewtonC
  dsimp only
  split
  · exact ⟨_, rfl, y, h1, h2⟩
  · rw [if_neg (fun hall => absurd (hall false (List.mem_of_getElem? h3)) (by simp))]
    exact ⟨_, rfl, y, h1, h2⟩

end PyZeal
