import Verif.Proof.QuadSearch
import Mathlib.Analysis.Complex.CauchyIntegral
import Mathlib.Algebra.Ring.GeomSum

/-! # Moments of the logarithmic derivative around a rectangle -/

set_option linter.unusedSectionVars false

namespace PyZeal
open Spec Real MeasureTheory intervalIntegral

/-- the integral of `g` along the segment from `a` to `b` -/
noncomputable def lineInt (g : ℂ → ℂ) (a b : ℂ) : ℂ := (b - a) * ∫ t in (0 : ℝ)..1, g (a + t * (b - a))

theorem lineInt_reverse (g : ℂ → ℂ) (a b : ℂ) : lineInt g b a = - lineInt g a b := by
  unfold lineInt
  have h := integral_comp_sub_left (a := (0 : ℝ)) (b := 1) (fun t : ℝ => g (a + t * (b - a))) 1
  simp only [sub_self, sub_zero] at h
  have e : (fun t : ℝ => g (b + t * (a - b))) = fun t : ℝ => g (a + ((1 - t : ℝ) : ℂ) * (b - a)) := by
    funext t
    congr 1
    push_cast
    ring
  rw [e, h]
  ring

theorem lineInt_add {g h : ℂ → ℂ} {a b : ℂ} (hg : ∀ t : ℝ, 0 ≤ t → t ≤ 1 → ContinuousAt g (a + t * (b - a)))
    (hh : ∀ t : ℝ, 0 ≤ t → t ≤ 1 → ContinuousAt h (a + t * (b - a))) : lineInt (fun z => g z + h z) a b = lineInt g a b + lineInt h a b := by
  have hp : Continuous fun t : ℝ => a + (t : ℂ) * (b - a) := by fun_prop
  have hi : ∀ {g : ℂ → ℂ}, (∀ t : ℝ, 0 ≤ t → t ≤ 1 → ContinuousAt g (a + t * (b - a))) → IntervalIntegrable (fun t : ℝ => g (a + t * (b - a))) volume 0 1 := by
    intro g hg
    apply ContinuousOn.intervalIntegrable
    intro t ht
    rw [Set.uIcc_of_le zero_le_one] at ht
    exact ((hg t ht.1 ht.2).comp_of_eq hp.continuousAt rfl).continuousWithinAt
  unfold lineInt
  rw [integral_add (hi hg) (hi hh), mul_add]

theorem lineInt_congr {g h : ℂ → ℂ} {a b : ℂ} (hg : ∀ t : ℝ, 0 ≤ t → t ≤ 1 → g (a + t * (b - a)) = h (a + t * (b - a))) : lineInt g a b = lineInt h a b := by
  unfold lineInt
  congr 1
  apply integral_congr
  intro t ht
  rw [Set.uIcc_of_le zero_le_one] at ht
  exact hg t ht.1 ht.2

/-- a function with a primitive along the segment -/
theorem lineInt_prim {F g : ℂ → ℂ} {a b : ℂ} (h : ∀ t : ℝ, 0 ≤ t → t ≤ 1 → HasDerivAt F (g (a + t * (b - a))) (a + t * (b - a)))
    (hg : ∀ t : ℝ, 0 ≤ t → t ≤ 1 → ContinuousAt g (a + t * (b - a))) : lineInt g a b = F b - F a := by
  have hp : ∀ t : ℝ, HasDerivAt (fun s : ℝ => a + (s : ℂ) * (b - a)) (b - a) t := fun t => by
    have := (((hasDerivAt_id (t : ℂ)).mul_const (b - a)).const_add a).comp_ofReal
    simpa using this
  unfold lineInt
  rw [← intervalIntegral.integral_const_mul, integral_eq_sub_of_hasDerivAt (f := fun t : ℝ => F (a + t * (b - a)))]
  · simp
  · intro t ht
    rw [Set.uIcc_of_le zero_le_one] at ht
    refine ((h t ht.1 ht.2).comp_of_eq t (hp t) rfl).congr_deriv ?_
    ring
  · apply ContinuousOn.intervalIntegrable
    intro t ht
    rw [Set.uIcc_of_le zero_le_one] at ht
    exact (continuousAt_const.mul ((hg t ht.1 ht.2).comp_of_eq (hp t).continuousAt rfl)).continuousWithinAt

/-- the sum over the four sides of a rectangle -/
noncomputable def aroundRect (L : ℂ → ℂ → ℂ) (re im : ℝ × ℝ) : ℂ := ((edges re im).map fun e => L (toC e.1) (toC e.2)).sum

theorem toC_along (a b : Cx ℝ) (t : ℝ) : toC (along a b t) = toC a + t * (toC b - toC a) := by
  apply Complex.ext <;> simp [along, toC]

/-- Cauchy's theorem -/
theorem around_holomorphic {h : ℂ → ℂ} {re im : ℝ × ℝ} (hre : re.1 < re.2) (him : im.1 < im.2)
    (hh : ∀ z, Cell.Has (⟨re, im, 0⟩ : Cell ℝ) z → DifferentiableAt ℂ h (toC z)) : aroundRect (lineInt h) re im = 0 := by
  have hc := Complex.integral_boundary_rect_eq_zero_of_differentiableOn h ⟨re.1, im.1⟩ ⟨re.2, im.2⟩ (by
    intro z hz
    rw [Complex.mem_reProdIm] at hz
    dsimp only at hz
    rw [Set.uIcc_of_le hre.le, Set.uIcc_of_le him.le] at hz
    exact (hh ⟨z.re, z.im⟩ ⟨hz.1.1, hz.1.2, hz.2.1, hz.2.2⟩).differentiableWithinAt)
  have hor : ∀ x x' y : ℝ, lineInt h (toC ⟨x, y⟩) (toC ⟨x', y⟩) = ∫ s in x..x', h (s + y * Complex.I) := by
    intro x x' y
    have := smul_integral_comp_add_mul (a := (0 : ℝ)) (b := 1) (fun s : ℝ => h (s + y * Complex.I)) (x' - x) x
    simp only [mul_zero, add_zero, mul_one, add_sub_cancel] at this
    rw [← this]
    unfold lineInt
    have e : toC ⟨x', y⟩ - toC ⟨x, y⟩ = ((x' - x : ℝ) : ℂ) := by apply Complex.ext <;> simp [toC]
    rw [e, Complex.real_smul]
    congr 2
    funext t
    congr 1
    apply Complex.ext <;> simp [toC]
    ring
  have ver : ∀ x y y' : ℝ, lineInt h (toC ⟨x, y⟩) (toC ⟨x, y'⟩) = Complex.I • ∫ s in y..y', h (x + s * Complex.I) := by
    intro x y y'
    have := smul_integral_comp_add_mul (a := (0 : ℝ)) (b := 1) (fun s : ℝ => h (x + s * Complex.I)) (y' - y) y
    simp only [mul_zero, add_zero, mul_one, add_sub_cancel] at this
    rw [← this]
    unfold lineInt
    have e : toC ⟨x, y'⟩ - toC ⟨x, y⟩ = Complex.I * ((y' - y : ℝ) : ℂ) := by apply Complex.ext <;> simp [toC]
    rw [e, Complex.real_smul, smul_eq_mul, ← mul_assoc]
    congr 2
    funext t
    congr 1
    apply Complex.ext <;> simp [toC]
    ring
  unfold aroundRect edges
  simp only [List.map_cons, List.map_nil, List.sum_cons, List.sum_nil, add_zero]
  rw [hor, ver, hor, ver, integral_symm (a := re.1) (b := re.2), integral_symm (a := im.1) (b := im.2)]
  dsimp only at hc
  rw [smul_neg]
  linear_combination hc

/-- the integral of `1 / (z - c)` along a segment which avoids `c` -/
theorem lineInt_inv {a b c : ℂ} (h : ∀ t : ℝ, 0 ≤ t → t ≤ 1 → a + t * (b - a) ≠ c) :
    lineInt (fun z => (z - c)⁻¹) a b = Complex.log ((b - c) / (a - c)) := by
  have hac : a ≠ c := by simpa using h 0 le_rfl zero_le_one
  have n1 := sub_ne_zero.2 hac
  rw [lineInt_prim (F := fun z => Complex.log ((z - c) / (a - c)))]
  · rw [div_self n1, Complex.log_one, sub_zero]
  · intro t h0 h1
    have hs := segment_slit hac h t h0 h1
    have hh := (((hasDerivAt_id (a + t * (b - a))).sub_const c).div_const (a - c)).clog hs
    refine hh.congr_deriv ?_
    have n2 := sub_ne_zero.2 (h t h0 h1)
    simp only [id]
    field_simp
  · intro t h0 h1
    exact (continuousAt_id.sub continuousAt_const).inv₀ (sub_ne_zero.2 (h t h0 h1))

/-- points of a side of a rectangle avoid what is off the boundary -/
theorem edge_avoids {re im : ℝ × ℝ} (hre : re.1 < re.2) (him : im.1 < im.2) {c : Cx ℝ} (hc : ¬ Cell.Boundary ⟨re, im, 0⟩ c) {e : Cx ℝ × Cx ℝ} (he : e ∈ edges re im)
    (t : ℝ) (h0 : 0 ≤ t) (h1 : t ≤ 1) : toC e.1 + t * (toC e.2 - toC e.1) ≠ toC c := by
  intro h
  rw [← toC_along] at h
  have : along e.1 e.2 t = c := by
    have h2 := congrArg Complex.re h
    have h3 := congrArg Complex.im h
    exact Cx.ext h2 h3
  exact hc (this ▸ (edge_boundary hre him he).2.2 t h0 h1)

theorem around_inv {re im : ℝ × ℝ} (hre : re.1 < re.2) (him : im.1 < im.2) {c : Cx ℝ} (hc : ¬ Cell.Boundary ⟨re, im, 0⟩ c) :
    aroundRect (lineInt fun z => (z - toC c)⁻¹) re im = 2 * π * Complex.I * (if Cell.HasHalfOpen ⟨re, im, 0⟩ c then 1 else 0) := by
  have hbd : ¬ (((c.re = re.1 ∨ c.re = re.2) ∧ im.1 ≤ c.im ∧ c.im ≤ im.2) ∨ ((c.im = im.1 ∨ c.im = im.2) ∧ re.1 ≤ c.re ∧ c.re ≤ re.2)) := by
    intro h
    apply hc
    unfold Cell.Boundary Cell.Has Cell.Interior
    dsimp only
    rcases h with ⟨h | h, h1, h2⟩ | ⟨h | h, h1, h2⟩
    · exact ⟨⟨h.ge, h.le.trans hre.le, h1, h2⟩, fun k => k.1.ne h.symm⟩
    · exact ⟨⟨hre.le.trans h.ge, h.le, h1, h2⟩, fun k => k.2.1.ne h⟩
    · exact ⟨⟨h1, h2, h.ge, h.le.trans him.le⟩, fun k => k.2.2.1.ne h.symm⟩
    · exact ⟨⟨h1, h2, him.le.trans h.ge, h.le⟩, fun k => k.2.2.2.ne h⟩
  have ht := turn_around (zeros := [c]) (fun _ => 0) hre him (by simpa using hbd) 0
  have hl : ∀ e ∈ edges re im, lineInt (fun z => (z - toC c)⁻¹) (toC e.1) (toC e.2) = Complex.log ((toC e.2 - toC c) / (toC e.1 - toC c)) :=
    fun e he => lineInt_inv fun t h0 h1 => edge_avoids hre him hc he t h0 h1
  have hn1 : ∀ e ∈ edges re im, toC e.1 - toC c ≠ 0 := fun e he => sub_ne_zero.2 (by simpa using edge_avoids hre him hc he 0 le_rfl zero_le_one)
  have hn2 : ∀ e ∈ edges re im, toC e.2 - toC c ≠ 0 := fun e he => sub_ne_zero.2 (by simpa using edge_avoids hre him hc he 1 zero_le_one le_rfl)
  unfold aroundRect
  rw [List.map_congr_left hl]
  unfold edges at hn1 hn2 ⊢
  simp only [List.mem_cons, List.not_mem_nil, or_false, forall_eq_or_imp, forall_eq] at hn1 hn2
  obtain ⟨a1, a2, a3, a4⟩ := hn1
  have hlog : ∀ x y : ℂ, x ≠ 0 → y ≠ 0 → (Complex.log (x / y)).re = Real.log ‖x‖ - Real.log ‖y‖ := by
    intro x y hx hy
    rw [Complex.log_re, norm_div, Real.log_div (norm_ne_zero_iff.2 hx) (norm_ne_zero_iff.2 hy)]
  simp only [List.map_cons, List.map_nil, List.sum_cons, List.sum_nil, add_zero]
  unfold turn sweep at ht
  simp only [List.map_cons, List.map_nil, List.sum_cons, List.sum_nil, add_zero, sub_self] at ht
  have hcount : (Cell.count ⟨(re.1, re.2), (im.1, im.2), 0⟩ [c] : ℝ) = if Cell.HasHalfOpen ⟨re, im, 0⟩ c then 1 else 0 := by
    unfold Cell.count
    by_cases h : Cell.HasHalfOpen ⟨re, im, 0⟩ c
    · rw [if_pos h, List.filter_cons_of_pos (by simpa using h)]; simp
    · rw [if_neg h, List.filter_cons_of_neg (by simpa using h)]; simp
  rw [hcount] at ht
  have hifc : ((if Cell.HasHalfOpen ⟨re, im, 0⟩ c then 1 else 0 : ℂ)) = ((if Cell.HasHalfOpen ⟨re, im, 0⟩ c then 1 else 0 : ℝ) : ℂ) := by
    split <;> simp
  rw [hifc]
  generalize (if Cell.HasHalfOpen ⟨re, im, 0⟩ c then 1 else 0 : ℝ) = q at *
  apply Complex.ext
  · simp only [Complex.add_re]
    rw [hlog _ _ a2 a1, hlog _ _ a3 a2, hlog _ _ a4 a3, hlog _ _ a1 a4]
    simp
  · simp only [Complex.add_im, Complex.log_im]
    simp
    linarith

/-- the residue theorem for `z^k f'(z) / f(z)` on a rectangle -/
theorem around_moment {re im : ℝ × ℝ} (hre : re.1 < re.2) (him : im.1 < im.2) {zeros : List (Cx ℝ)} {G : ℂ → ℂ}
    (hG : ∀ z, Cell.Has (⟨re, im, 0⟩ : Cell ℝ) z → AnalyticAt ℂ G (toC z)) (hoff : ∀ c ∈ zeros, ¬ Cell.Boundary ⟨re, im, 0⟩ c) (k : ℕ) :
    aroundRect (lineInt fun z => z ^ k * logD (zeros.map toC) G z) re im =
      2 * π * Complex.I * ((zeros.filter fun c => decide (Cell.HasHalfOpen ⟨re, im, 0⟩ c)).map fun c => toC c ^ k).sum := by
  have hin : ∀ e ∈ edges re im, ∀ t : ℝ, 0 ≤ t → t ≤ 1 → Cell.Has (⟨re, im, 0⟩ : Cell ℝ) (along e.1 e.2 t) := fun e he t h0 h1 =>
    ((edge_boundary hre him he).2.2 t h0 h1).1
  induction zeros with
  | nil =>
    simp only [List.map_nil, List.filter_nil, List.sum_nil, mul_zero]
    apply around_holomorphic hre him
    intro z hz
    unfold logD
    simp only [List.map_nil, List.sum_nil, zero_add]
    exact ((differentiableAt_id.pow k).mul (hG z hz).deriv.differentiableAt)
  | cons c zs ih =>
    have ih := ih fun c hc => hoff c (by simp [hc])
    have hoc := hoff c (by simp)
    obtain ⟨q, hq⟩ : ∃ q : ℂ → ℂ, q = fun z => ∑ i ∈ Finset.range k, z ^ i * toC c ^ (k - 1 - i) := ⟨_, rfl⟩
    have hqd : Differentiable ℂ q := by
      rw [hq]; fun_prop
    have hqz := around_holomorphic (h := q) hre him fun z _ => hqd _
    have hinv := around_inv hre him hoc
    have hsplit : ∀ z, z ≠ toC c → z ^ k * logD ((c :: zs).map toC) G z = (q z + toC c ^ k * (z - toC c)⁻¹) + z ^ k * logD (zs.map toC) G z := by
      intro z hz
      have h1 := sub_ne_zero.2 hz
      have h2 : q z * (z - toC c) = z ^ k - toC c ^ k := by rw [hq]; exact (Commute.all z (toC c)).geom_sum₂_mul k
      have h3 : z ^ k * (z - toC c)⁻¹ = q z + toC c ^ k * (z - toC c)⁻¹ := by
        field_simp
        linear_combination -h2
      unfold logD
      simp only [List.map_cons, List.sum_cons]
      rw [← h3]
      ring
    have hcont : ∀ e ∈ edges re im, ∀ t : ℝ, 0 ≤ t → t ≤ 1 → ContinuousAt (fun z => toC c ^ k * (z - toC c)⁻¹) (toC e.1 + t * (toC e.2 - toC e.1)) :=
      fun e he t h0 h1 => continuousAt_const.mul ((continuousAt_id.sub continuousAt_const).inv₀ (sub_ne_zero.2 (edge_avoids hre him hoc he t h0 h1)))
    have hl : ∀ e ∈ edges re im, lineInt (fun z => z ^ k * logD ((c :: zs).map toC) G z) (toC e.1) (toC e.2) =
        (lineInt q (toC e.1) (toC e.2) + toC c ^ k * lineInt (fun z => (z - toC c)⁻¹) (toC e.1) (toC e.2)) + lineInt (fun z => z ^ k * logD (zs.map toC) G z) (toC e.1) (toC e.2) := by
      intro e he
      rw [lineInt_congr (h := fun z => (q z + toC c ^ k * (z - toC c)⁻¹) + z ^ k * logD (zs.map toC) G z) fun t h0 h1 => hsplit _ (edge_avoids hre him hoc he t h0 h1), lineInt_add (g := fun z => q z + toC c ^ k * (z - toC c)⁻¹)]
      · congr 1
        rw [lineInt_add (g := q) (fun _ _ _ => (hqd _).continuousAt) (hcont e he)]
        congr 1
        unfold lineInt
        rw [intervalIntegral.integral_const_mul]
        ring
      · intro t h0 h1
        exact (hqd _).continuousAt.add (hcont e he t h0 h1)
      · intro t h0 h1
        refine (continuousAt_id.pow k).mul (logD_deriv ?_ ?_).continuousAt
        · intro c' hc'
          obtain ⟨c'', h2, rfl⟩ := List.mem_map.1 hc'
          exact edge_avoids hre him (hoff c'' (by simp [h2])) he t h0 h1
        · rw [← toC_along]
          exact hG _ (hin e he t h0 h1)
    have hsum : aroundRect (lineInt fun z => z ^ k * logD ((c :: zs).map toC) G z) re im =
        (aroundRect (lineInt q) re im + toC c ^ k * aroundRect (lineInt fun z => (z - toC c)⁻¹) re im) + aroundRect (lineInt fun z => z ^ k * logD (zs.map toC) G z) re im := by
      unfold aroundRect
      rw [List.map_congr_left hl]
      unfold edges
      simp only [List.map_cons, List.map_nil, List.sum_cons, List.sum_nil]
      ring
    rw [hsum, hqz, hinv, ih]
    by_cases h : Cell.HasHalfOpen ⟨re, im, 0⟩ c
    · rw [if_pos h, List.filter_cons_of_pos (by simpa using h)]
      simp only [List.map_cons, List.sum_cons]
      ring
    · rw [if_neg h, List.filter_cons_of_neg (by simpa using h)]
      ring

end PyZeal
