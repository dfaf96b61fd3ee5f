import Verif.Model.ScipyNewton
import Verif.Spec.Newton
import Verif.Proof.Turn
import Verif.Proof.QuadLine
import Mathlib.Analysis.Calculus.MeanValue

/-! # Convergence of the secant method and Newton's method near a simple zero -/

set_option linter.unusedSectionVars false

namespace PyZeal
open Spec

theorem toC_add (a b : Cx ℝ) : toC (a + b) = toC a + toC b := by apply Complex.ext <;> simp [toC]
theorem toC_neg (a : Cx ℝ) : toC (-a) = -toC a := by apply Complex.ext <;> simp [toC]
theorem toC_one : toC 1 = 1 := by apply Complex.ext <;> simp [toC]
theorem toC_injective {a b : Cx ℝ} (h : toC a = toC b) : a = b := by
  have := toC_eq_zero.1 (show toC (a - b) = 0 by rw [toC_sub, h, sub_self])
  exact sub_eq_zero.1 this

theorem norm_toC (z : Cx ℝ) : ‖toC z‖ = √(z.re ^ 2 + z.im ^ 2) := by
  rw [Complex.norm_def, Complex.normSq_apply]
  congr 1
  simp only [toC]
  ring

/-- `f` is nearly linear on the disc -/
theorem Spec.Steady.linear {f df : Cx ℝ → Cx ℝ} {c : Cx ℝ} {r : ℝ} (h : Steady f df c r) {z w : Cx ℝ} (hz : ‖toC z - toC c‖ ≤ r) (hw : ‖toC w - toC c‖ ≤ r) :
    ‖toC (f w) - toC (f z) - toC (df c) * (toC w - toC z)‖ ≤ ‖toC (df c)‖ / 6 * ‖toC w - toC z‖ := by
  have key := (convex_closedBall (toC c) r).norm_image_sub_le_of_norm_hasDerivWithin_le (𝕜 := ℂ)
    (f := fun u : ℂ => toC (f ⟨u.re, u.im⟩) - toC (df c) * u) (f' := fun u : ℂ => toC (df ⟨u.re, u.im⟩) - toC (df c)) (C := ‖toC (df c)‖ / 6)
    (x := toC z) (y := toC w) (fun u hu => by
      have hu' : ‖point ⟨u.re, u.im⟩ - point c‖ ≤ r := by rw [Metric.mem_closedBall, dist_eq_norm] at hu; exact hu
      have h1 := h.deriv ⟨u.re, u.im⟩ hu'
      have h2 : HasDerivAt (fun u : ℂ => toC (df c) * u) (toC (df c)) u := by
        simpa using (hasDerivAt_id u).const_mul (toC (df c))
      exact (h1.sub h2).hasDerivWithinAt) (fun u hu => by
      have hu' : ‖point ⟨u.re, u.im⟩ - point c‖ ≤ r := by rw [Metric.mem_closedBall, dist_eq_norm] at hu; exact hu
      exact h.steady ⟨u.re, u.im⟩ hu') (by rw [Metric.mem_closedBall, dist_eq_norm]; exact hz) (by rw [Metric.mem_closedBall, dist_eq_norm]; exact hw)
  have e : (toC (f w) - toC (f z) - toC (df c) * (toC w - toC z)) = (toC (f w) - toC (df c) * toC w) - (toC (f z) - toC (df c) * toC z) := by ring
  rw [e]
  exact key

theorem Spec.Steady.mono {f df : Cx ℝ → Cx ℝ} {c : Cx ℝ} {r s : ℝ} (h : Steady f df c r) (hs : s ≤ r) : Steady f df c s :=
  ⟨h.zero, h.simple, fun z hz => h.deriv z (hz.trans hs), fun z hz => h.steady z (hz.trans hs)⟩

theorem Spec.Steady.pos {f df : Cx ℝ → Cx ℝ} {c : Cx ℝ} {r : ℝ} (h : Steady f df c r) : 0 < ‖toC (df c)‖ :=
  norm_pos_iff.2 fun h0 => h.simple (toC_eq_zero.1 h0)

/-- the values at different points of the disc are different -/
theorem Spec.Steady.diff {f df : Cx ℝ → Cx ℝ} {c : Cx ℝ} {r : ℝ} (h : Steady f df c r) {z w : Cx ℝ} (hz : ‖toC z - toC c‖ ≤ r) (hw : ‖toC w - toC c‖ ≤ r) :
    5 / 6 * ‖toC (df c)‖ * ‖toC w - toC z‖ ≤ ‖toC (f w) - toC (f z)‖ := by
  have h1 := h.linear hz hw
  have h2 := norm_sub_norm_le (toC (df c) * (toC w - toC z)) (toC (df c) * (toC w - toC z) - (toC (f w) - toC (f z)))
  rw [sub_sub_cancel, norm_mul, norm_sub_rev (toC (df c) * (toC w - toC z))] at h2
  linarith

/-- the derivative does not vanish on the disc -/
theorem Spec.Steady.deriv_lower {f df : Cx ℝ → Cx ℝ} {c : Cx ℝ} {r : ℝ} (h : Steady f df c r) {z : Cx ℝ} (hz : ‖toC z - toC c‖ ≤ r) :
    5 / 6 * ‖toC (df c)‖ ≤ ‖toC (df z)‖ := by
  have h1 : ‖toC (df z) - toC (df c)‖ ≤ ‖toC (df c)‖ / 6 := h.steady z hz
  have h2 := norm_sub_norm_le (toC (df c)) (toC (df c) - toC (df z))
  rw [sub_sub_cancel, norm_sub_rev] at h2
  linarith

theorem Spec.Steady.deriv_ne {f df : Cx ℝ → Cx ℝ} {c : Cx ℝ} {r : ℝ} (h : Steady f df c r) {z : Cx ℝ} (hz : ‖toC z - toC c‖ ≤ r) : df z ≠ 0 := by
  intro h0
  have h1 := h.deriv_lower hz
  have h2 := h.pos
  rw [toC_eq_zero.2 h0, norm_zero] at h1
  linarith

theorem Spec.Steady.only {f df : Cx ℝ → Cx ℝ} {c : Cx ℝ} {r : ℝ} (h : Steady f df c r) {z : Cx ℝ} (hz : ‖toC z - toC c‖ ≤ r) (h0 : f z = 0) : z = c := by
  have hr : ‖toC c - toC c‖ ≤ r := by rw [sub_self, norm_zero]; exact (norm_nonneg _).trans hz
  have h1 := h.diff hr hz
  rw [h0, h.zero, sub_self, norm_zero] at h1
  have h2 := h.pos
  have h3 : ‖toC z - toC c‖ ≤ 0 := by
    by_contra hc
    have := mul_pos (mul_pos (show (0 : ℝ) < 5 / 6 by norm_num) h2) (not_le.1 hc)
    linarith
  exact toC_injective (sub_eq_zero.1 (norm_le_zero_iff.1 h3))

/-- an estimate `d * e = x` with `x` small and `d` large -/
theorem small_of_mul {a e s : ℝ} {d x : ℂ} (ha : 0 < a) {y : ℂ} (hy : d * y = x) (hd : 5 / 6 * a * s ≤ ‖d‖) (hx : ‖x‖ ≤ 1 / 3 * a * e * s) (hs : 0 < s) :
    ‖y‖ ≤ 2 / 5 * e := by
  have h1 : ‖d‖ * ‖y‖ ≤ 1 / 3 * a * e * s := by rw [← norm_mul, hy]; exact hx
  have h2 : 5 / 6 * a * s * ‖y‖ ≤ 1 / 3 * a * e * s := (mul_le_mul_of_nonneg_right hd (norm_nonneg _)).trans h1
  have h3 : a * s * (5 / 6 * ‖y‖) ≤ a * s * (1 / 3 * e) := by linarith
  have h4 := le_of_mul_le_mul_left h3 (mul_pos ha hs)
  linarith

/-- Newton's step reduces the error -/
theorem Spec.Steady.newton {f df : Cx ℝ → Cx ℝ} {c : Cx ℝ} {r : ℝ} (h : Steady f df c r) {z : Cx ℝ} (hz : ‖toC z - toC c‖ ≤ r) :
    ‖toC (z - f z / df z) - toC c‖ ≤ 2 / 5 * ‖toC z - toC c‖ := by
  have hr : ‖toC c - toC c‖ ≤ r := by rw [sub_self, norm_zero]; exact (norm_nonneg _).trans hz
  have hd : toC (df z) ≠ 0 := fun h0 => h.deriv_ne hz (toC_eq_zero.1 h0)
  have h1 := h.linear hr hz
  have h2 : ‖toC (df z) - toC (df c)‖ ≤ ‖toC (df c)‖ / 6 := h.steady z hz
  rw [h.zero, toC_eq_zero.2 rfl, sub_zero] at h1
  refine small_of_mul (d := toC (df z)) (s := 1) h.pos (x := (toC z - toC c) * (toC (df z) - toC (df c)) - (toC (f z) - toC (df c) * (toC z - toC c))) ?_
    (by linarith [h.deriv_lower hz]) ?_ one_pos
  · rw [toC_sub, toC_div]
    field_simp
    ring
  · refine (norm_sub_le _ _).trans ?_
    rw [norm_mul]
    have h3 := mul_le_mul_of_nonneg_left h2 (norm_nonneg (toC z - toC c))
    linarith

/-- the secant step is symmetric -/
theorem secantStep_eq (abs : Cx ℝ → ℝ) (habs : ∀ z, abs z = ‖toC z‖) {p0 q0 p1 q1 : Cx ℝ} (hq : q1 ≠ q0) :
    (toC q1 - toC q0) * toC (secantStep abs p0 q0 p1 q1) = toC p0 * toC q1 - toC p1 * toC q0 := by
  have hne : toC q1 - toC q0 ≠ 0 := fun h => hq (toC_injective (sub_eq_zero.1 h))
  unfold secantStep
  rw [habs, habs]
  split
  · rename_i hlt
    have h1 : toC q1 ≠ 0 := fun h => by rw [h, norm_zero] at hlt; exact absurd hlt (not_lt.2 (norm_nonneg _))
    rw [toC_div, toC_add, toC_mul, toC_div, toC_neg, toC_sub, toC_one, toC_div]
    have h2 : 1 - toC q0 / toC q1 ≠ 0 := by
      rw [one_sub_div h1]
      exact div_ne_zero hne h1
    field_simp
    ring
  · rename_i hlt
    have h1 : toC q0 ≠ 0 := fun h => by
      rw [h, norm_zero, not_lt] at hlt
      rw [h, norm_le_zero_iff.1 hlt, sub_self] at hne
      exact hne rfl
    have hne' : toC q0 - toC q1 ≠ 0 := fun h => hne (by rw [← neg_sub, h, neg_zero])
    rw [toC_div, toC_add, toC_mul, toC_div, toC_neg, toC_sub, toC_one, toC_div]
    have h2 : 1 - toC q1 / toC q0 ≠ 0 := by
      rw [one_sub_div h1]
      exact div_ne_zero hne' h1
    field_simp
    ring

/-- the secant step reduces the error -/
theorem Spec.Steady.secant {f df : Cx ℝ → Cx ℝ} {c : Cx ℝ} {r : ℝ} (h : Steady f df c r) (abs : Cx ℝ → ℝ) (habs : ∀ z, abs z = ‖toC z‖) {p0 p1 : Cx ℝ}
    (h0 : ‖toC p0 - toC c‖ ≤ r) (h1 : ‖toC p1 - toC c‖ ≤ r) (hne : p0 ≠ p1) :
    f p1 ≠ f p0 ∧ ‖toC (secantStep abs p0 (f p0) p1 (f p1)) - toC c‖ ≤ 2 / 5 * ‖toC p0 - toC c‖ ∧
      ‖toC (secantStep abs p0 (f p0) p1 (f p1)) - toC c‖ ≤ 2 / 5 * ‖toC p1 - toC c‖ := by
  have hr : ‖toC c - toC c‖ ≤ r := by rw [sub_self, norm_zero]; exact (norm_nonneg _).trans h0
  have hs : 0 < ‖toC p1 - toC p0‖ := norm_pos_iff.2 fun h => hne (toC_injective (sub_eq_zero.1 h)).symm
  have hd := h.diff h0 h1
  have hq : f p1 ≠ f p0 := by
    intro e
    rw [e, sub_self, norm_zero] at hd
    have := mul_pos (mul_pos (show (0 : ℝ) < 5 / 6 by norm_num) h.pos) hs
    linarith
  have hst := secantStep_eq abs habs (p0 := p0) (p1 := p1) hq
  have l0 := h.linear hr h0
  have l1 := h.linear hr h1
  have l2 := h.linear h0 h1
  rw [h.zero, toC_eq_zero.2 rfl, sub_zero] at l0 l1
  refine ⟨hq, small_of_mul h.pos (d := toC (f p1) - toC (f p0)) (s := ‖toC p1 - toC p0‖)
    (x := (toC p0 - toC c) * (toC (f p1) - toC (f p0) - toC (df c) * (toC p1 - toC p0)) - (toC p1 - toC p0) * (toC (f p0) - toC (df c) * (toC p0 - toC c)))
    (by rw [mul_sub, hst]; ring) hd ?_ hs, small_of_mul h.pos (d := toC (f p1) - toC (f p0)) (s := ‖toC p1 - toC p0‖)
    (x := (toC p1 - toC c) * (toC (f p1) - toC (f p0) - toC (df c) * (toC p1 - toC p0)) - (toC p1 - toC p0) * (toC (f p1) - toC (df c) * (toC p1 - toC c)))
    (by rw [mul_sub, hst]; ring) hd ?_ hs⟩
  · refine (norm_sub_le _ _).trans ?_
    rw [norm_mul, norm_mul]
    have a1 := mul_le_mul_of_nonneg_left l2 (norm_nonneg (toC p0 - toC c))
    have a2 := mul_le_mul_of_nonneg_left l0 (norm_nonneg (toC p1 - toC p0))
    linarith
  · refine (norm_sub_le _ _).trans ?_
    rw [norm_mul, norm_mul]
    have a1 := mul_le_mul_of_nonneg_left l2 (norm_nonneg (toC p1 - toC c))
    have a2 := mul_le_mul_of_nonneg_left l1 (norm_nonneg (toC p1 - toC p0))
    linarith

/-- a step of at most `tol` means that the error is at most two thirds of `tol` -/
theorem error_of_step {c p p1 : ℂ} {tol : ℝ} (h1 : ‖p - c‖ ≤ 2 / 5 * ‖p1 - c‖) (h2 : ‖p - p1‖ ≤ tol) : ‖p - c‖ ≤ 2 / 3 * tol := by
  have h3 : ‖p1 - c‖ ≤ ‖p - p1‖ + ‖p - c‖ := by
    have := norm_sub_le (p - c) (p - p1)
    rw [sub_sub_sub_cancel_left] at this
    linarith
  linarith

theorem step_of_error {c p p1 : ℂ} (h1 : ‖p - c‖ ≤ 2 / 5 * ‖p1 - c‖) : ‖p - p1‖ ≤ 7 / 5 * ‖p1 - c‖ := by
  have := norm_sub_le (p - c) (p1 - c)
  rw [sub_sub_sub_cancel_right] at this
  linarith

/-- the secant loop converges -/
theorem secantLoop_converges {f df : Cx ℝ → Cx ℝ} {c : Cx ℝ} {r : ℝ} (h : Steady f df c r) (abs : Cx ℝ → ℝ) (habs : ∀ z, abs z = ‖toC z‖) {tol : ℝ} (htol : 0 ≤ tol)
    (n : ℕ) (p0 p1 : Cx ℝ) (h0 : ‖toC p0 - toC c‖ ≤ r) (h1 : ‖toC p1 - toC c‖ ≤ r) (hne : p0 ≠ p1) (hn : (2 / 5) ^ n * ‖toC p1 - toC c‖ ≤ 5 / 7 * tol) :
    ∃ z, secantLoop abs f tol (n + 1) p0 (f p0) p1 (f p1) = some z ∧ ‖toC z - toC c‖ ≤ 2 / 3 * tol := by
  induction n generalizing p0 p1 with
  | zero =>
    obtain ⟨hq, _, hb⟩ := h.secant abs habs h0 h1 hne
    unfold secantLoop
    rw [if_neg hq]
    dsimp only
    have hst := step_of_error hb
    rw [pow_zero, one_mul] at hn
    rw [habs, toC_sub, if_pos (by linarith)]
    exact ⟨_, rfl, error_of_step hb (by linarith)⟩
  | succ n ih =>
    obtain ⟨hq, _, hb⟩ := h.secant abs habs h0 h1 hne
    unfold secantLoop
    rw [if_neg hq]
    dsimp only
    rw [habs, toC_sub]
    by_cases hs : ‖toC (secantStep abs p0 (f p0) p1 (f p1)) - toC p1‖ ≤ tol
    · rw [if_pos hs]
      exact ⟨_, rfl, error_of_step hb hs⟩
    · rw [if_neg hs]
      have hn0 := norm_nonneg (toC p1 - toC c)
      refine ih p1 _ h1 (by linarith) (fun e => hs ?_) ?_
      · rw [← e, sub_self, norm_zero]; exact htol
      · rw [pow_succ] at hn
        have := mul_le_mul_of_nonneg_left hb (pow_nonneg (show (0 : ℝ) ≤ 2 / 5 by norm_num) n)
        linarith

/-- Newton's method converges -/
theorem scipyNewton_converges {f df : Cx ℝ → Cx ℝ} {c : Cx ℝ} {r : ℝ} (h : Steady f df c r) (abs : Cx ℝ → ℝ) (habs : ∀ z, abs z = ‖toC z‖) {tol : ℝ} (htol : 0 ≤ tol)
    (n : ℕ) (p0 : Cx ℝ) (h0 : ‖toC p0 - toC c‖ ≤ r) (hn : (2 / 5) ^ n * ‖toC p0 - toC c‖ ≤ 5 / 7 * tol) :
    ∃ z, scipyNewton abs f df tol (n + 1) p0 = some z ∧ ‖toC z - toC c‖ ≤ 2 / 3 * tol := by
  induction n generalizing p0 with
  | zero =>
    have hb := h.newton h0
    unfold scipyNewton
    by_cases hf : f p0 = 0
    · rw [if_pos hf]
      refine ⟨_, rfl, ?_⟩
      rw [h.only h0 hf, sub_self, norm_zero]
      linarith
    · rw [if_neg hf, if_neg (h.deriv_ne h0)]
      dsimp only
      have hst := step_of_error hb
      rw [pow_zero, one_mul] at hn
      rw [habs, toC_sub (p0 - _), if_pos (by linarith)]
      exact ⟨_, rfl, error_of_step hb (by linarith)⟩
  | succ n ih =>
    have hb := h.newton h0
    unfold scipyNewton
    by_cases hf : f p0 = 0
    · rw [if_pos hf]
      refine ⟨_, rfl, ?_⟩
      rw [h.only h0 hf, sub_self, norm_zero]
      linarith
    · rw [if_neg hf, if_neg (h.deriv_ne h0)]
      dsimp only
      rw [habs, toC_sub (p0 - _)]
      by_cases hs : ‖toC (p0 - f p0 / df p0) - toC p0‖ ≤ tol
      · rw [if_pos hs]
        exact ⟨_, rfl, error_of_step hb hs⟩
      · rw [if_neg hs]
        have hn0 := norm_nonneg (toC p0 - toC c)
        refine ih _ (by linarith) ?_
        rw [pow_succ] at hn
        have := mul_le_mul_of_nonneg_left hb (pow_nonneg (show (0 : ℝ) ≤ 2 / 5 by norm_num) n)
        linarith

/-! ## The array version -/

theorem arrayStep_eq (f df : Cx ℝ → Cx ℝ) (p : List (Cx ℝ)) : (p.map fun x => if df x ≠ 0 then x - f x / df x else x) = p.map (newtonStep f df) := by
  refine List.map_congr_left fun x _ => ?_
  unfold newtonStep
  by_cases h : df x = 0
  · rw [if_neg (not_not.2 h), if_pos h]
  · rw [if_pos h, if_neg h]

/-- the points move independently of each other -/
theorem arrayLoop_iterates (abs : Cx ℝ → ℝ) (f df : Cx ℝ → Cx ℝ) (tol : ℝ) (n : ℕ) (p : List (Cx ℝ)) (failures nzDer : List Bool) :
    ∃ k ≤ n, (arrayLoop abs f df tol n p failures nzDer).1 = p.map (newtonStep f df)^[k] := by
  induction n generalizing p failures nzDer with
  | zero => exact ⟨0, le_rfl, by simp [arrayLoop]⟩
  | succ n ih =>
    unfold arrayLoop
    split
    · exact ⟨0, Nat.zero_le _, by simp⟩
    · dsimp only
      split
      · exact ⟨0, Nat.zero_le _, by simp⟩
      · rw [arrayStep_eq]
        split
        · exact ⟨1, by omega, rfl⟩
        · obtain ⟨k, hk, h⟩ := ih (p.map (newtonStep f df)) _ _
          refine ⟨k + 1, by omega, ?_⟩
          rw [h, List.map_map]
          rfl

/-- what happens to a point near a simple zero -/
theorem arrayLoop_converges {f df : Cx ℝ → Cx ℝ} {c : Cx ℝ} {r : ℝ} (h : Steady f df c r) (abs : Cx ℝ → ℝ) (habs : ∀ z, abs z = ‖toC z‖) {tol : ℝ} (htol : 0 ≤ tol)
    (n : ℕ) (p : List (Cx ℝ)) (failures nzDer : List Bool) (i : ℕ) (x : Cx ℝ) (hi : p[i]? = some x) (hf : i < failures.length)
    (h0 : ‖toC x - toC c‖ ≤ r) (hn : 7 / 5 * ((2 / 5) ^ n * ‖toC x - toC c‖) < tol) :
    ∃ y, (arrayLoop abs f df tol (n + 1) p failures nzDer).1[i]? = some y ∧ ‖toC y - toC c‖ ≤ 2 / 3 * tol ∧
      (arrayLoop abs f df tol (n + 1) p failures nzDer).2.1[i]? = some false := by
  induction n generalizing p failures nzDer x with
  | zero =>
    have hb := h.newton h0
    have hd := h.deriv_ne h0
    have hx : x ∈ p := List.mem_of_getElem? hi
    unfold arrayLoop
    by_cases hz : ∀ y ∈ p, f y = 0
    · rw [if_pos hz]
      refine ⟨x, hi, ?_, by dsimp only; rw [List.getElem?_map, hi]; rfl⟩
      rw [h.only h0 (hz x hx), sub_self, norm_zero]
      linarith
    · rw [if_neg hz]
      dsimp only
      rw [if_neg (fun hall => hd (hall x hx))]
      have hst := step_of_error hb
      have e : x - f x / df x - x = -(f x / df x) := by ring
      rw [← toC_sub, e, toC_neg, norm_neg] at hst
      rw [pow_zero, one_mul] at hn
      have herr : ‖toC (x - f x / df x) - toC c‖ ≤ 2 / 3 * tol :=
        error_of_step hb (by rw [← toC_sub, e, toC_neg, norm_neg]; linarith)
      have hfail : (List.zipWith (fun x failed => if df x ≠ 0 then decide (tol ≤ abs (f x / df x)) else failed) p failures)[i]? = some false := by
        rw [List.getElem?_zipWith, hi, List.getElem?_eq_getElem hf]
        simp only [Option.some.injEq]
        rw [if_pos hd, habs]
        simpa using lt_of_le_of_lt hst hn
      have hstep : (p.map fun x => if df x ≠ 0 then x - f x / df x else x)[i]? = some (x - f x / df x) := by
        rw [List.getElem?_map, hi]
        simp [hd]
      split
      · exact ⟨_, hstep, herr, hfail⟩
      · unfold arrayLoop
        exact ⟨_, hstep, herr, hfail⟩
  | succ n ih =>
    have hb := h.newton h0
    have hd := h.deriv_ne h0
    have hx : x ∈ p := List.mem_of_getElem? hi
    unfold arrayLoop
    by_cases hz : ∀ y ∈ p, f y = 0
    · rw [if_pos hz]
      refine ⟨x, hi, ?_, by dsimp only; rw [List.getElem?_map, hi]; rfl⟩
      rw [h.only h0 (hz x hx), sub_self, norm_zero]
      linarith
    · rw [if_neg hz]
      dsimp only
      rw [if_neg (fun hall => hd (hall x hx))]
      have e : x - f x / df x - x = -(f x / df x) := by ring
      have hstep : (p.map fun x => if df x ≠ 0 then x - f x / df x else x)[i]? = some (x - f x / df x) := by
        rw [List.getElem?_map, hi]
        simp [hd]
      have hlen : i < (List.zipWith (fun x failed => if df x ≠ 0 then decide (tol ≤ abs (f x / df x)) else failed) p failures).length := by
        rw [List.length_zipWith]
        exact lt_min (List.getElem?_eq_some_iff.1 hi).1 hf
      have hfail : (List.zipWith (fun x failed => if df x ≠ 0 then decide (tol ≤ abs (f x / df x)) else failed) p failures)[i]? =
          some (decide (tol ≤ abs (f x / df x))) := by
        rw [List.getElem?_zipWith, hi, List.getElem?_eq_getElem hf]
        simp only [Option.some.injEq]
        rw [if_pos hd]
      split
      · rename_i hall
        have hlt : ¬ tol ≤ abs (f x / df x) := by
          intro hle
          refine hall (true, true) ?_ ⟨rfl, rfl⟩
          refine List.mem_iff_getElem?.2 ⟨i, ?_⟩
          rw [List.getElem?_zip_eq_some]
          refine ⟨?_, by rw [hfail]; simp [hle]⟩
          rw [List.getElem?_map, hi]
          simp [hd]
        refine ⟨_, hstep, error_of_step hb ?_, by rw [hfail]; simp only [hlt, decide_false]⟩
        rw [← toC_sub, e, toC_neg, norm_neg, ← habs]
        exact (not_le.1 hlt).le
      · have hn0 := norm_nonneg (toC x - toC c)
        refine ih _ _ _ _ hstep hlen (by linarith) ?_
        rw [pow_succ] at hn
        have := mul_le_mul_of_nonneg_left hb (pow_nonneg (show (0 : ℝ) ≤ 2 / 5 by norm_num) n)
        linarith

/-- the array version returns, if one of the points is near a simple zero -/
theorem arrayNewton_converges {f df : Cx ℝ → Cx ℝ} {c : Cx ℝ} {r : ℝ} (h : Steady f df c r) (abs : Cx ℝ → ℝ) (habs : ∀ z, abs z = ‖toC z‖) {tol : ℝ} (htol : 0 ≤ tol)
    (n : ℕ) (p : List (Cx ℝ)) (i : ℕ) (x : Cx ℝ) (hi : p[i]? = some x)
    (h0 : ‖toC x - toC c‖ ≤ r) (hn : 7 / 5 * ((2 / 5) ^ n * ‖toC x - toC c‖) < tol) :
    ∃ out, arrayNewton abs f df tol (n + 1) p = some out ∧ (∃ k ≤ n + 1, out = p.map (newtonStep f df)^[k]) ∧
      ∃ y, out[i]? = some y ∧ ‖toC y - toC c‖ ≤ 2 / 3 * tol := by
  obtain ⟨y, h1, h2, h3⟩ := arrayLoop_converges h abs habs htol n p (p.map fun _ => true) (p.map fun _ => true) i x hi
    (by rw [List.length_map]; exact (List.getElem?_eq_some_iff.1 hi).1) h0 hn
  obtain ⟨k, hk, hk'⟩ := arrayLoop_iterates abs f df tol (n + 1) p (p.map fun _ => true) (p.map fun _ => true)
  unfold arrayNewton
  dsimp only
  split
  · exact ⟨_, rfl, ⟨k, hk, hk'⟩, y, h1, h2⟩
  · rw [if_neg (fun hall => absurd (hall false (List.mem_of_getElem? h3)) (by simp))]
    exact ⟨_, rfl, ⟨k, hk, hk'⟩, y, h1, h2⟩

end PyZeal
