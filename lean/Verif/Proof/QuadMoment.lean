import Verif.Proof.Moment
import Verif.Spec.Moment

/-! # The accuracy of moments computed by the quadrature estimator -/

set_option linter.unusedSectionVars false

namespace PyZeal
open Spec Real MeasureTheory intervalIntegral

theorem toC_pow (z : Cx ℝ) (k : ℕ) : toC (z ^ k) = toC z ^ k := by
  induction k with
  | zero => rw [pow_zero, pow_zero]; rfl
  | succ k ih => rw [pow_succ, pow_succ, toC_mul, ih]

theorem Spec.AnalyticWith.log_pow {f df : Cx ℝ → Cx ℝ} {S : Cx ℝ → Prop} {zeros : List (Cx ℝ)} {G : ℂ → ℂ} {B V : ℝ}
    (h : AnalyticWith f df S zeros G B V) {z : Cx ℝ} (hz : S z) (hne : ∀ c ∈ zeros, toC z ≠ toC c) (k : ℕ) :
    toC (df z * z ^ (k : ℤ) / f z) = toC z ^ k * logD (zeros.map toC) G (toC z) := by
  rw [← (h.log hz hne).2, toC_div, toC_mul, toC_div, toC_mul, zpow_natCast, toC_pow, zpow_zero]
  have : toC (1 : Cx ℝ) = 1 := rfl
  rw [this]
  ring

theorem list_sum_norm {u : ℂ → ℂ} (zs : List ℂ) (C : ℝ) (h : ∀ c ∈ zs, ‖u c‖ ≤ C) : ‖(zs.map u).sum‖ ≤ zs.length * C := by
  induction zs with
  | nil => simp
  | cons c l ih =>
    simp only [List.map_cons, List.sum_cons, List.length_cons]
    push_cast
    rw [add_mul, one_mul, add_comm (_ * C)]
    exact (norm_add_le _ _).trans (add_le_add (h c (by simp)) (ih fun c hc => h c (by simp [hc])))

theorem logD_norm {zs : List ℂ} {G : ℂ → ℂ} {z : ℂ} {d B : ℝ} (hd : 0 < d) (hz : ∀ c ∈ zs, d ≤ ‖z - c‖) (hB : ‖iteratedDeriv 1 G z‖ ≤ B) :
    ‖logD zs G z‖ ≤ B + zs.length / d := by
  have h2 := list_sum_norm (u := fun c => (z - c)⁻¹) zs (1 / d) fun c hc => by
    rw [norm_inv, one_div]
    exact inv_anti₀ hd (hz c hc)
  rw [iteratedDeriv_one] at hB
  unfold logD
  refine (norm_add_le _ _).trans ?_
  rw [mul_one_div] at h2
  linarith

theorem logD1_norm {zs : List ℂ} {G : ℂ → ℂ} {z : ℂ} {d B : ℝ} (hd : 0 < d) (hz : ∀ c ∈ zs, d ≤ ‖z - c‖) (hB : ‖iteratedDeriv 2 G z‖ ≤ B) :
    ‖logD1 zs G z‖ ≤ B + zs.length / d ^ 2 := by
  have h2 := list_sum_norm (u := fun c => -((z - c) ^ 2)⁻¹) zs (1 / d ^ 2) fun c hc => by
    rw [norm_neg, norm_inv, norm_pow, one_div]
    have := hz c hc
    gcongr
  rw [iteratedDeriv_succ, iteratedDeriv_one] at hB
  unfold logD1
  refine (norm_add_le _ _).trans ?_
  rw [mul_one_div] at h2
  linarith

/-- derivatives of `z^k f'(z) / f(z)` -/
noncomputable def momD1 (k : ℕ) (zs : List ℂ) (G : ℂ → ℂ) (z : ℂ) : ℂ := k * z ^ (k - 1) * logD zs G z + z ^ k * logD1 zs G z
noncomputable def momD2 (k : ℕ) (zs : List ℂ) (G : ℂ → ℂ) (z : ℂ) : ℂ :=
  k * (k - 1) * z ^ (k - 2) * logD zs G z + 2 * k * z ^ (k - 1) * logD1 zs G z + z ^ k * logD2 zs G z

theorem mom_deriv (k : ℕ) {zs : List ℂ} {G : ℂ → ℂ} {z : ℂ} (hz : ∀ c ∈ zs, z ≠ c) (hG : AnalyticAt ℂ G z) :
    HasDerivAt (fun z => z ^ k * logD zs G z) (momD1 k zs G z) z :=
  (hasDerivAt_pow k z).mul (logD_deriv hz hG)

theorem mom_deriv1 (k : ℕ) {zs : List ℂ} {G : ℂ → ℂ} {z : ℂ} (hz : ∀ c ∈ zs, z ≠ c) (hG : AnalyticAt ℂ G z) :
    HasDerivAt (momD1 k zs G) (momD2 k zs G z) z := by
  have h := (((hasDerivAt_pow (k - 1) z).const_mul (k : ℂ)).mul (logD_deriv hz hG)).add ((hasDerivAt_pow k z).mul (logD1_deriv hz hG))
  refine h.congr_deriv ?_
  unfold momD2
  rcases k with _ | k
  · simp
  · have : ((k + 1 - 1 : ℕ) : ℂ) = ((k + 1 : ℕ) : ℂ) - 1 := by push_cast; ring
    have e2 : k + 1 - 1 - 1 = k + 1 - 2 := by omega
    rw [this, e2]
    ring

theorem momD2_norm (k : ℕ) {zs : List ℂ} {G : ℂ → ℂ} {z : ℂ} {d B R : ℝ} (hd : 0 < d) (hz : ∀ c ∈ zs, d ≤ ‖z - c‖) (hR : ‖z‖ ≤ R)
    (h1 : ‖iteratedDeriv 1 G z‖ ≤ B) (h2 : ‖iteratedDeriv 2 G z‖ ≤ B) (h3 : ‖iteratedDeriv 3 G z‖ ≤ B) :
    ‖momD2 k zs G z‖ ≤ momentBound k zs.length B d R := by
  have a1 := logD_norm hd hz h1
  have a2 := logD1_norm hd hz h2
  have a3 := logD2_norm hd hz h3
  have hR0 : 0 ≤ R := (norm_nonneg _).trans hR
  have hk : ‖(k : ℂ) * ((k : ℂ) - 1)‖ = k * (k - 1) := by
    rcases k with _ | k
    · simp
    · have : ((k + 1 : ℕ) : ℂ) * (((k + 1 : ℕ) : ℂ) - 1) = (((k + 1) * k : ℕ) : ℂ) := by push_cast; ring
      rw [this, Complex.norm_natCast]
      push_cast; ring
  have hk0 : (0 : ℝ) ≤ k * (k - 1) := hk ▸ norm_nonneg _
  unfold momD2 momentBound
  refine (norm_add_le _ _).trans (add_le_add ((norm_add_le _ _).trans (add_le_add ?_ ?_)) ?_)
  · rw [norm_mul, norm_mul, hk, norm_pow]
    gcongr
  · rw [norm_mul, norm_mul, norm_mul, Complex.norm_ofNat, Complex.norm_natCast, norm_pow]
    gcongr
  · rw [norm_mul, norm_pow]
    gcongr

/-- Romberg's method for both components along a segment -/
theorem romberg_segment {g g1 g2 : ℂ → ℂ} {a u : ℂ} {l M : ℝ} (hu : ‖u‖ = 1) (hl : 0 < l)
    (h1 : ∀ t : ℝ, 0 ≤ t → t ≤ l → HasDerivAt g (g1 (a + t * u)) (a + t * u)) (h2 : ∀ t : ℝ, 0 ≤ t → t ≤ l → HasDerivAt g1 (g2 (a + t * u)) (a + t * u))
    (hM : ∀ t : ℝ, 0 ≤ t → t ≤ l → ‖g2 (a + t * u)‖ ≤ M) (k : ℕ) (y y' : List ℝ)
    (hy : y = (List.range (2 ^ k + 1)).map fun i : ℕ => (g (a + (((i : ℝ) * l / 2 ^ k : ℝ) : ℂ) * u)).re)
    (hy' : y' = (List.range (2 ^ k + 1)).map fun i : ℕ => (g (a + (((i : ℝ) * l / 2 ^ k : ℝ) : ℂ) * u)).im) :
    |romberg y (l / 2 ^ k) - (u⁻¹ * lineInt g a (a + l * u)).re| ≤ l ^ 3 * M / (3 * 4 ^ k) ∧
    |romberg y' (l / 2 ^ k) - (u⁻¹ * lineInt g a (a + l * u)).im| ≤ l ^ 3 * M / (3 * 4 ^ k) := by
  have hu0 : u ≠ 0 := by intro e; rw [e] at hu; simp at hu
  have hp : ∀ t : ℝ, HasDerivAt (fun s : ℂ => a + s * u) u (t : ℂ) := fun t => by
    simpa using ((hasDerivAt_id (t : ℂ)).mul_const u).const_add a
  have hi : IntervalIntegrable (fun t : ℝ => g (a + t * u)) volume 0 l := by
    apply ContinuousOn.intervalIntegrable
    intro t ht
    rw [Set.uIcc_of_le hl.le] at ht
    have hp' : Continuous fun t : ℝ => a + (t : ℂ) * u := by fun_prop
    exact ((h1 t ht.1 ht.2).continuousAt.comp_of_eq hp'.continuousAt rfl).continuousWithinAt
  have hL : u⁻¹ * lineInt g a (a + l * u) = ∫ t in (0 : ℝ)..l, g (a + t * u) := by
    have := smul_integral_comp_mul_left (a := (0 : ℝ)) (b := 1) (fun t : ℝ => g (a + t * u)) l
    simp only [mul_zero, mul_one] at this
    rw [← this, Complex.real_smul]
    unfold lineInt
    rw [add_sub_cancel_left]
    have e : (fun t : ℝ => g (a + t * (l * u))) = fun t : ℝ => g (a + ((l * t : ℝ) : ℂ) * u) := by
      funext t
      congr 1
      push_cast
      ring
    rw [e]
    field_simp
  have hre : (u⁻¹ * lineInt g a (a + l * u)).re = ∫ t in (0 : ℝ)..l, (g (a + t * u)).re := by
    rw [hL]
    exact (Complex.reCLM.intervalIntegral_comp_comm hi).symm
  have him : (u⁻¹ * lineInt g a (a + l * u)).im = ∫ t in (0 : ℝ)..l, (g (a + t * u)).im := by
    rw [hL]
    exact (Complex.imCLM.intervalIntegral_comp_comm hi).symm
  have e2 : ∀ z : ℂ, (-Complex.I * z).re = z.im := fun z => by simp
  rw [hre, him]
  constructor
  · refine romberg_err (φ := fun t : ℝ => (g (a + t * u)).re) (φ' := fun t : ℝ => (g1 (a + t * u) * u).re) (φ'' := fun t : ℝ => (g2 (a + t * u) * u * u).re) hl ?_ ?_ ?_ k y hy
    · intro t t0 t1
      exact ((h1 t t0 t1).comp (t : ℂ) (hp t)).real_of_complex
    · intro t t0 t1
      exact (((h2 t t0 t1).comp (t : ℂ) (hp t)).mul_const u).real_of_complex
    · intro t t0 t1
      refine (Complex.abs_re_le_norm _).trans ?_
      rw [norm_mul, norm_mul, hu, mul_one, mul_one]
      exact hM t t0 t1
  · refine romberg_err (φ := fun t : ℝ => (g (a + t * u)).im) (φ' := fun t : ℝ => (g1 (a + t * u) * u).im) (φ'' := fun t : ℝ => (g2 (a + t * u) * u * u).im) hl ?_ ?_ ?_ k y' hy'
    · intro t t0 t1
      have := (((h1 t t0 t1).comp (t : ℂ) (hp t)).const_mul (-Complex.I)).real_of_complex
      simp only [e2] at this
      exact this
    · intro t t0 t1
      have := ((((h2 t t0 t1).comp (t : ℂ) (hp t)).mul_const u).const_mul (-Complex.I)).real_of_complex
      simp only [e2] at this
      exact this
    · intro t t0 t1
      refine (Complex.abs_im_le_norm _).trans ?_
      rw [norm_mul, norm_mul, hu, mul_one, mul_one]
      exact hM t t0 t1

/-- The moment computed by the quadrature estimator along a line parallel to an axis -/
theorem quadLine_moment {σ : Type} (cfg : QuadCfg ℝ) (hromb : cfg.romb = romberg) (habs : ∀ z, cfg.abs z = √(z.re ^ 2 + z.im ^ 2))
    (hev : ∀ n, 1 ≤ cfg.evals n) (hsteps : 13 ≤ cfg.steps) (df : Cx ℝ → Cx ℝ) (ctx : RCtx ℝ) (hdf : ctx.df = some df)
    {S : Cx ℝ → Prop} {zeros : List (Cx ℝ)} {G : ℂ → ℂ} {B V d B' R : ℝ} (hf : AnalyticWith ctx.f df S zeros G B V) (hB : BoundedBy S G B' R) (hd : 0 < d)
    {a b : Cx ℝ} (hab : Axial a b) (hS : ∀ t, 0 ≤ t → t ≤ 1 → S (along a b t) ∧ Far d zeros (along a b t)) (k : ℕ)
    (herr : momentError k zeros.length B' d R (|b.re - a.re| + |b.im - a.im|) < 1 / 1250) (w : World σ ℝ) :
    ∃ v, quadLine cfg (k : ℤ) a b ctx w = (.ok v, w) ∧
      ‖toC v + Complex.I * lineInt (fun z => z ^ k * logD (zeros.map toC) G z) (toC a) (toC b)‖ ≤
        2 * momentError k zeros.length B' d R (|b.re - a.re| + |b.im - a.im|) := by
  have hlen : cfg.abs (b - a) = |b.re - a.re| + |b.im - a.im| := by
    rw [habs]
    simp only [Cx.sub_re, Cx.sub_im]
    rcases hab.2 with e | e <;> rw [e] <;> simp [Real.sqrt_sq_eq_abs]
  have hlpos : 0 < cfg.abs (b - a) := by
    rw [hlen]
    rcases hab.2 with e | e
    · have : b.re - a.re ≠ 0 := fun h => hab.1 (Cx.ext (by linarith) e)
      have := abs_pos.2 this
      positivity
    · have : b.im - a.im ≠ 0 := fun h => hab.1 (Cx.ext e (by linarith))
      have := abs_pos.2 this
      positivity
  rw [← hlen] at herr ⊢
  generalize hl : cfg.abs (b - a) = l at *
  have hne : ∀ t, 0 ≤ t → t ≤ 1 → ∀ c ∈ zeros, toC (along a b t) ≠ toC c := fun t h0 h1 c hc => (hS t h0 h1).2.ne hd hc
  have hf0 : ∀ t, 0 ≤ t → t ≤ 1 → ctx.f (along a b t) ≠ 0 := fun t h0 h1 => (hf.log (hS t h0 h1).1 (hne t h0 h1)).1
  obtain ⟨s', q, e, h⟩ := quadLine_exact cfg hev hsteps df k ctx hdf a b hf0 _ rfl w
  rw [hl] at e h
  rw [hromb] at h
  -- the direction
  obtain ⟨u, hu⟩ : ∃ u : ℂ, u = (toC b - toC a) / l := ⟨_, rfl⟩
  have hlC : (l : ℂ) ≠ 0 := by exact_mod_cast hlpos.ne'
  have hun : ‖u‖ = 1 := by
    have : ‖toC b - toC a‖ = l := by
      rw [← hl, habs, Complex.norm_def, Complex.normSq_apply]
      congr 1
      simp [toC]
      ring
    rw [hu, norm_div, this, Complex.norm_real, Real.norm_eq_abs, abs_of_pos hlpos, div_self hlpos.ne']
  have hu0 : u ≠ 0 := by intro h; rw [h] at hun; simp at hun
  have hend : toC a + l * u = toC b := by rw [hu]; field_simp; ring
  have halong : ∀ t : ℝ, toC (along a b t) = toC a + ((t * l : ℝ) : ℂ) * u := by
    intro t
    rw [toC_along, hu]
    push_cast
    field_simp
  have hback : ∀ t : ℝ, 0 ≤ t → t ≤ l → toC a + t * u = toC (along a b (t / l)) ∧ 0 ≤ t / l ∧ t / l ≤ 1 := by
    intro t h0 h1
    refine ⟨?_, by positivity, (div_le_one hlpos).2 h1⟩
    rw [halong, div_mul_cancel₀ _ hlpos.ne']
  have hane : ∀ t : ℝ, 0 ≤ t → t ≤ l → ∀ c ∈ zeros.map toC, toC a + t * u ≠ c := by
    intro t h0 h1 c hc
    obtain ⟨e1, e2, e3⟩ := hback t h0 h1
    obtain ⟨c', hc', rfl⟩ := List.mem_map.1 hc
    rw [e1]
    exact hne _ e2 e3 c' hc'
  have hana : ∀ t : ℝ, 0 ≤ t → t ≤ l → AnalyticAt ℂ G (toC a + t * u) := by
    intro t h0 h1
    obtain ⟨e1, e2, e3⟩ := hback t h0 h1
    rw [e1]
    exact hf.analytic _ (hS _ e2 e3).1
  have hsample : ∀ s i : ℕ, i ≤ 2 ^ s → toC (df (along a b ((i : ℝ) / ((2 ^ s : ℕ) : ℝ))) * (along a b ((i : ℝ) / ((2 ^ s : ℕ) : ℝ))) ^ (k : ℤ) /
      ctx.f (along a b ((i : ℝ) / ((2 ^ s : ℕ) : ℝ)))) = (toC a + (((i : ℝ) * l / 2 ^ s : ℝ) : ℂ) * u) ^ k * logD (zeros.map toC) G (toC a + (((i : ℝ) * l / 2 ^ s : ℝ) : ℂ) * u) := by
    intro s i hi
    have h0 : 0 ≤ (i : ℝ) / ((2 ^ s : ℕ) : ℝ) := by positivity
    have h1 : (i : ℝ) / ((2 ^ s : ℕ) : ℝ) ≤ 1 := (div_le_one (by positivity)).2 (by exact_mod_cast hi)
    have e1 : (i : ℝ) / ((2 ^ s : ℕ) : ℝ) * l = (i : ℝ) * l / 2 ^ s := by push_cast; ring
    rw [hf.log_pow (hS _ h0 h1).1 (hne _ h0 h1), halong, e1]
  obtain ⟨J, hJ⟩ : ∃ J, J = u⁻¹ * lineInt (fun z => z ^ k * logD (zeros.map toC) G z) (toC a) (toC b) := ⟨_, rfl⟩
  have hromb : ∀ s, |(quadAt romberg (fun z => df z * z ^ (k : ℤ) / ctx.f z) a b l s).re - J.re| ≤ l ^ 3 * momentBound k zeros.length B' d R / (3 * 4 ^ s) ∧
      |(quadAt romberg (fun z => df z * z ^ (k : ℤ) / ctx.f z) a b l s).im - J.im| ≤ l ^ 3 * momentBound k zeros.length B' d R / (3 * 4 ^ s) := by
    intro s
    have := romberg_segment (g := fun z => z ^ k * logD (zeros.map toC) G z) (g1 := momD1 k (zeros.map toC) G) (g2 := momD2 k (zeros.map toC) G) (a := toC a) (u := u) (l := l)
      (M := momentBound k zeros.length B' d R) hun hlpos
      (fun t h0 h1 => mom_deriv k (hane t h0 h1) (hana t h0 h1)) (fun t h0 h1 => mom_deriv1 k (hane t h0 h1) (hana t h0 h1))
      (fun t h0 h1 => by
        obtain ⟨e1, e2, e3⟩ := hback t h0 h1
        have hs := (hS _ e2 e3).1
        have := momD2_norm k (zs := zeros.map toC) (G := G) (z := toC a + t * u) (d := d) (B := B') (R := R) hd (by
          intro c hc
          obtain ⟨c', hc', rfl⟩ := List.mem_map.1 hc
          rw [e1]
          exact (hS _ e2 e3).2.norm hc') (by rw [e1]; exact hB.radius _ hs) (by rw [e1]; exact hB.one _ hs) (by rw [e1]; exact hB.two _ hs) (by rw [e1]; exact hB.three _ hs)
        rwa [List.length_map] at this) s
      ((grid a b (2 ^ s)).map fun z => (df z * z ^ (k : ℤ) / ctx.f z).re) ((grid a b (2 ^ s)).map fun z => (df z * z ^ (k : ℤ) / ctx.f z).im) ?_ ?_
    · rw [hend, ← hJ] at this
      exact this
    · unfold grid
      rw [List.map_map]
      apply List.map_congr_left
      intro i hi
      rw [← hsample s i (by simpa [Nat.lt_succ_iff] using hi)]
      rfl
    · unfold grid
      rw [List.map_map]
      apply List.map_congr_left
      intro i hi
      rw [← hsample s i (by simpa [Nat.lt_succ_iff] using hi)]
      rfl
  obtain ⟨ε, hε⟩ : ∃ ε, ε = momentError k zeros.length B' d R l := ⟨_, rfl⟩
  have r10 := hromb 10
  have r11 := hromb 11
  have hε10 : l ^ 3 * momentBound k zeros.length B' d R / (3 * 4 ^ 10) = ε := by rw [hε]; rfl
  have hε11 : l ^ 3 * momentBound k zeros.length B' d R / (3 * 4 ^ 11) = ε / 4 := by
    rw [← hε10]; ring
  rw [hε10] at r10
  rw [hε11] at r11
  rw [← hε] at herr ⊢
  obtain ⟨Q, hQ⟩ : ∃ Q, Q = quadAt romberg (fun z => df z * z ^ (k : ℤ) / ctx.f z) a b l := ⟨_, rfl⟩
  rw [← hQ] at h r10 r11
  have hclose : quadClose (Q 10) (Q 11) := by
    have a1 := abs_le.1 r10.1
    have a2 := abs_le.1 r10.2
    have a3 := abs_le.1 r11.1
    have a4 := abs_le.1 r11.2
    constructor <;> rw [abs_lt] <;> constructor <;> linarith
  have hq : s' = 11 ∧ q = Q 10 := by
    rcases h with ⟨t, h1, h2, h3, h4, h5, h6⟩ | ⟨h1, h2, h3⟩
    · have : t = 10 := by
        by_contra hc
        exact h4 10 le_rfl (by omega) hclose
      subst this
      exact ⟨h5, h6⟩
    · exact absurd hclose (h1 10 le_rfl (by norm_num))
  obtain ⟨rfl, rfl⟩ := hq
  refine ⟨_, e, ?_⟩
  have hv : toC (Cx.divK (Cx.smul (quadFactor ℝ 11) (b - a) * (⟨0, -1⟩ * Q 10)) l) = u * (-Complex.I * toC (Q 10)) := by
    have hfac : quadFactor ℝ 11 = 1 := by unfold quadFactor; rw [if_pos (by norm_num)]
    rw [hfac, hu]
    apply Complex.ext
    · rw [div_mul_eq_mul_div, Complex.div_ofReal_re]
      simp [toC, Cx.smul, Cx.divK]
      ring
    · rw [div_mul_eq_mul_div, Complex.div_ofReal_im]
      simp [toC, Cx.smul, Cx.divK]
      ring
  rw [hv]
  have hJ' : lineInt (fun z => z ^ k * logD (zeros.map toC) G z) (toC a) (toC b) = u * J := by rw [hJ]; field_simp
  rw [hJ']
  have : u * (-Complex.I * toC (Q 10)) + Complex.I * (u * J) = u * (-Complex.I * (toC (Q 10) - J)) := by ring
  rw [this, norm_mul, hun, one_mul, norm_mul, norm_neg, Complex.norm_I, one_mul]
  refine (Complex.norm_le_abs_re_add_abs_im _).trans ?_
  have a1 : |(toC (Q 10) - J).re| ≤ ε := r10.1
  have a2 : |(toC (Q 10) - J).im| ≤ ε := r10.2
  linarith

end PyZeal
