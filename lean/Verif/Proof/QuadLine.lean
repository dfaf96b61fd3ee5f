import Verif.Proof.Romberg
import Verif.Proof.Quadrature
import Verif.Proof.Turn
import Verif.Spec.QuadSearch
import Mathlib.Analysis.Calculus.Deriv.Inv
import Mathlib.Analysis.Complex.RealDeriv
import Mathlib.Analysis.SpecialFunctions.Complex.LogDeriv
import Mathlib.Analysis.Calculus.FDeriv.Analytic

/-! # The accuracy of the quadrature estimator along one line -/

set_option linter.unusedSectionVars false

namespace PyZeal
open Spec Real MeasureTheory intervalIntegral

theorem point_eq (z : Cx ℝ) : point z = toC z := rfl

/-- the logarithmic derivative of `exp(G) * prod (z - c)` and its two derivatives -/
noncomputable def logD (zs : List ℂ) (G : ℂ → ℂ) (z : ℂ) : ℂ := (zs.map fun c => (z - c)⁻¹).sum + deriv G z
noncomputable def logD1 (zs : List ℂ) (G : ℂ → ℂ) (z : ℂ) : ℂ := (zs.map fun c => -((z - c) ^ 2)⁻¹).sum + deriv (deriv G) z
noncomputable def logD2 (zs : List ℂ) (G : ℂ → ℂ) (z : ℂ) : ℂ := (zs.map fun c => 2 * ((z - c) ^ 3)⁻¹).sum + deriv (deriv (deriv G)) z

theorem hasDerivAt_list_sum {u u' : ℂ → ℂ → ℂ} (zs : List ℂ) (z : ℂ) (h : ∀ c ∈ zs, HasDerivAt (u c) (u' c z) z) :
    HasDerivAt (fun z => (zs.map fun c => u c z).sum) ((zs.map fun c => u' c z).sum) z := by
  induction zs with
  | nil => simpa using hasDerivAt_const z (0 : ℂ)
  | cons c l ih =>
    simp only [List.map_cons, List.sum_cons]
    exact (h c (by simp)).add (ih fun c hc => h c (by simp [hc]))

theorem logD_deriv {zs : List ℂ} {G : ℂ → ℂ} {z : ℂ} (hz : ∀ c ∈ zs, z ≠ c) (hG : AnalyticAt ℂ G z) :
    HasDerivAt (logD zs G) (logD1 zs G z) z := by
  refine (hasDerivAt_list_sum (u := fun c z => (z - c)⁻¹) (u' := fun c z => -((z - c) ^ 2)⁻¹) zs z ?_).add hG.deriv.differentiableAt.hasDerivAt
  intro c hc
  have h := ((hasDerivAt_id z).sub_const c).inv (sub_ne_zero.2 (hz c hc))
  refine h.congr_deriv ?_
  simp [neg_div]

theorem logD1_deriv {zs : List ℂ} {G : ℂ → ℂ} {z : ℂ} (hz : ∀ c ∈ zs, z ≠ c) (hG : AnalyticAt ℂ G z) :
    HasDerivAt (logD1 zs G) (logD2 zs G z) z := by
  refine (hasDerivAt_list_sum (u := fun c z => -((z - c) ^ 2)⁻¹) (u' := fun c z => 2 * ((z - c) ^ 3)⁻¹) zs z ?_).add hG.deriv.deriv.differentiableAt.hasDerivAt
  intro c hc
  have hne := sub_ne_zero.2 (hz c hc)
  have h := ((((hasDerivAt_id z).sub_const c).pow 2).inv (pow_ne_zero 2 hne)).neg
  refine h.congr_deriv ?_
  simp
  field_simp

theorem logD2_norm {zs : List ℂ} {G : ℂ → ℂ} {z : ℂ} {d B : ℝ} (hd : 0 < d) (hz : ∀ c ∈ zs, d ≤ ‖z - c‖) (hB : ‖iteratedDeriv 3 G z‖ ≤ B) :
    ‖logD2 zs G z‖ ≤ B + 2 * zs.length / d ^ 3 := by
  have h1 : iteratedDeriv 3 G z = deriv (deriv (deriv G)) z := by
    rw [iteratedDeriv_succ, iteratedDeriv_succ, iteratedDeriv_one]
  have h2 : ‖(zs.map fun c => 2 * ((z - c) ^ 3)⁻¹).sum‖ ≤ 2 * zs.length / d ^ 3 := by
    clear hB h1
    induction zs with
    | nil => simp
    | cons c l ih =>
      simp only [List.map_cons, List.sum_cons, List.length_cons]
      have := ih fun c hc => hz c (by simp [hc])
      have hc : ‖2 * ((z - c) ^ 3)⁻¹‖ ≤ 2 / d ^ 3 := by
        rw [norm_mul, norm_inv, norm_pow, Complex.norm_ofNat, div_eq_mul_inv]
        have := hz c (by simp)
        gcongr
      refine (norm_add_le _ _).trans ((add_le_add hc this).trans (le_of_eq ?_))
      push_cast
      ring
  unfold logD2
  rw [← h1]
  exact (norm_add_le _ _).trans (by linarith)

theorem prod_deriv (zs : List ℂ) (z : ℂ) (hz : ∀ c ∈ zs, z ≠ c) :
    HasDerivAt (fun u => (zs.map fun c => u - c).prod) ((zs.map fun c => z - c).prod * (zs.map fun c => (z - c)⁻¹).sum) z := by
  induction zs with
  | nil => simpa using hasDerivAt_const z (1 : ℂ)
  | cons c l ih =>
    simp only [List.map_cons, List.prod_cons, List.sum_cons]
    have h1 := ((hasDerivAt_id z).sub_const c)
    have h2 := h1.mul (ih fun c hc => hz c (by simp [hc]))
    refine h2.congr_deriv ?_
    have hne := sub_ne_zero.2 (hz c (by simp))
    simp only [id]
    field_simp

/-- what the estimator integrates is the logarithmic derivative -/
theorem Spec.AnalyticWith.log {f df : Cx ℝ → Cx ℝ} {S : Cx ℝ → Prop} {zeros : List (Cx ℝ)} {G : ℂ → ℂ} {B V : ℝ}
    (h : AnalyticWith f df S zeros G B V) {z : Cx ℝ} (hz : S z) (hne : ∀ c ∈ zeros, toC z ≠ toC c) :
    f z ≠ 0 ∧ toC (df z * z ^ (0 : ℤ) / f z) = logD (zeros.map toC) G (toC z) := by
  have hv := h.value z hz
  have hp : (zeros.map fun c => toC z - toC c).prod ≠ 0 := by
    rw [Ne, List.prod_eq_zero_iff]
    intro hm
    obtain ⟨c, hc, e⟩ := List.mem_map.1 hm
    exact hne c hc (sub_eq_zero.1 e)
  have hf0 : toC (f z) ≠ 0 := by
    rw [← point_eq, hv]
    exact mul_ne_zero (Complex.exp_ne_zero _) hp
  refine ⟨fun e => hf0 (toC_eq_zero.2 e), ?_⟩
  have hd := h.deriv z hz
  have hne' : ∀ c ∈ zeros.map toC, toC z ≠ c := by
    intro c hc
    obtain ⟨c', h1, rfl⟩ := List.mem_map.1 hc
    exact hne c' h1
  have hd2 := ((h.analytic z hz).differentiableAt.hasDerivAt.cexp).mul (prod_deriv (zeros.map toC) (toC z) hne')
  simp only [List.map_map, Function.comp_def] at hd2
  have := hd.unique hd2
  rw [zpow_zero, mul_one, toC_div, ← point_eq (df z), this, ← point_eq (f z), hv]
  unfold logD
  simp only [point_eq, List.map_map, Function.comp_def]
  have he := Complex.exp_ne_zero (G (toC z))
  field_simp
  ring

/-- a segment starting at 1 which avoids 0 avoids the negative real axis -/
theorem segment_slit {a u c : ℂ} {l : ℝ} (hac : a ≠ c) (h : ∀ t : ℝ, 0 ≤ t → t ≤ l → a + t * u ≠ c) (t : ℝ) (h0 : 0 ≤ t) (h1 : t ≤ l) :
    (a + t * u - c) / (a - c) ∈ Complex.slitPlane := by
  have hac' := sub_ne_zero.2 hac
  have e : (a + t * u - c) / (a - c) = 1 + t * (u / (a - c)) := by field_simp; ring
  rw [e, Complex.mem_slitPlane_iff]
  by_contra hcon
  push Not at hcon
  obtain ⟨c1, c2⟩ := hcon
  generalize hq : u / (a - c) = q at *
  have hu : u = q * (a - c) := by rw [← hq]; field_simp
  simp at c1 c2
  have ht : t ≠ 0 := by rintro rfl; norm_num at c1
  have hqi : q.im = 0 := by
    rcases c2 with c2 | c2
    · exact absurd c2 ht
    · exact c2
  have hqr : 0 < -q.re := by
    by_contra hc
    nlinarith
  have htp : 0 < t := lt_of_le_of_ne h0 (Ne.symm ht)
  refine h (1 / (-q.re)) (by positivity) ?_ ?_
  · refine le_trans ?_ h1
    rw [div_le_iff₀ hqr]
    nlinarith
  · have hqc : q = ((q.re : ℝ) : ℂ) := by apply Complex.ext <;> simp [hqi]
    have : ((q.re : ℝ) : ℂ) ≠ 0 := by
      rw [Ne, Complex.ofReal_eq_zero]; linarith
    rw [hu]
    generalize q.re = r at *
    rw [hqc]
    push_cast
    field_simp
    ring

/-- the primitive of the logarithmic derivative along a segment -/
noncomputable def logPrim (zs : List ℂ) (G : ℂ → ℂ) (a z : ℂ) : ℂ := (zs.map fun c => Complex.log ((z - c) / (a - c))).sum + G z

/-- Romberg's method for one component of the logarithmic derivative along a segment -/
theorem romberg_component {zs : List ℂ} {G : ℂ → ℂ} {a u : ℂ} {l d B : ℝ} (hu : ‖u‖ = 1) (hl : 0 < l) (hd : 0 < d)
    (hfar : ∀ t : ℝ, 0 ≤ t → t ≤ l → ∀ c ∈ zs, d ≤ ‖a + t * u - c‖) (hG : ∀ t : ℝ, 0 ≤ t → t ≤ l → AnalyticAt ℂ G (a + t * u))
    (hB : ∀ t : ℝ, 0 ≤ t → t ≤ l → ‖iteratedDeriv 3 G (a + t * u)‖ ≤ B) (ω : ℂ) (hω : ‖ω‖ = 1) (k : ℕ)
    (y : List ℝ) (hy : y = (List.range (2 ^ k + 1)).map fun i : ℕ => (ω * logD zs G (a + (((i : ℝ) * l / 2 ^ k : ℝ) : ℂ) * u)).re) :
    |romberg y (l / 2 ^ k) - (ω * u⁻¹ * (logPrim zs G a (a + l * u) - logPrim zs G a a)).re| ≤ l ^ 3 * (B + 2 * zs.length / d ^ 3) / (3 * 4 ^ k) := by
  have hu0 : u ≠ 0 := by intro e; rw [e] at hu; simp at hu
  have hne : ∀ t : ℝ, 0 ≤ t → t ≤ l → ∀ c ∈ zs, a + t * u ≠ c := by
    intro t h0 h1 c hc e
    have := hfar t h0 h1 c hc
    rw [e, sub_self, norm_zero] at this
    linarith
  have hne0 : ∀ c ∈ zs, a ≠ c := fun c hc => by simpa using hne 0 le_rfl hl.le c hc
  have hp : ∀ t : ℝ, HasDerivAt (fun s : ℂ => a + s * u) u (t : ℂ) := fun t => by
    simpa using ((hasDerivAt_id (t : ℂ)).mul_const u).const_add a
  have d0 : ∀ t : ℝ, 0 ≤ t → t ≤ l → HasDerivAt (fun t : ℝ => (ω * u⁻¹ * logPrim zs G a (a + t * u)).re) ((ω * logD zs G (a + t * u)).re) t := by
    intro t h0 h1
    have hprim : HasDerivAt (logPrim zs G a) (logD zs G (a + t * u)) (a + t * u) := by
      refine (hasDerivAt_list_sum (u := fun c z => Complex.log ((z - c) / (a - c))) (u' := fun c z => (z - c)⁻¹) zs _ ?_).add
        (hG t h0 h1).differentiableAt.hasDerivAt
      intro c hc
      have hs := segment_slit (hne0 c hc) (fun t h0 h1 => hne t h0 h1 c hc) t h0 h1
      have hh := (((hasDerivAt_id (a + t * u)).sub_const c).div_const (a - c)).clog hs
      refine hh.congr_deriv ?_
      have n1 := sub_ne_zero.2 (hne0 c hc)
      have n2 := sub_ne_zero.2 (hne t h0 h1 c hc)
      simp only [id]
      field_simp
    have hc := (hprim.comp (t : ℂ) (hp t)).const_mul (ω * u⁻¹)
    have := hc.real_of_complex
    refine this.congr_deriv ?_
    congr 1
    field_simp
  have d1 : ∀ t : ℝ, 0 ≤ t → t ≤ l → HasDerivAt (fun t : ℝ => (ω * logD zs G (a + t * u)).re) ((ω * (logD1 zs G (a + t * u) * u)).re) t := by
    intro t h0 h1
    exact (((logD_deriv (hne t h0 h1) (hG t h0 h1)).comp (t : ℂ) (hp t)).const_mul ω).real_of_complex
  have d2 : ∀ t : ℝ, 0 ≤ t → t ≤ l → HasDerivAt (fun t : ℝ => (ω * (logD1 zs G (a + t * u) * u)).re) ((ω * (logD2 zs G (a + t * u) * u * u)).re) t := by
    intro t h0 h1
    exact ((((logD1_deriv (hne t h0 h1) (hG t h0 h1)).comp (t : ℂ) (hp t)).mul_const u).const_mul ω).real_of_complex
  have hM : ∀ t : ℝ, 0 ≤ t → t ≤ l → |(ω * (logD2 zs G (a + t * u) * u * u)).re| ≤ B + 2 * zs.length / d ^ 3 := by
    intro t h0 h1
    refine (Complex.abs_re_le_norm _).trans ?_
    rw [norm_mul, norm_mul, norm_mul, hω, hu, one_mul, mul_one, mul_one]
    exact logD2_norm hd (hfar t h0 h1) (hB t h0 h1)
  have hI : ∫ t in (0 : ℝ)..l, (ω * logD zs G (a + t * u)).re = (ω * u⁻¹ * (logPrim zs G a (a + l * u) - logPrim zs G a a)).re := by
    rw [integral_eq_sub_of_hasDerivAt (f := fun t : ℝ => (ω * u⁻¹ * logPrim zs G a (a + t * u)).re)]
    · simp only [Complex.ofReal_zero, zero_mul, add_zero, mul_sub, Complex.sub_re]
    · intro t ht
      rw [Set.uIcc_of_le hl.le] at ht
      exact d0 t ht.1 ht.2
    · apply ContinuousOn.intervalIntegrable
      intro t ht
      rw [Set.uIcc_of_le hl.le] at ht
      exact (d1 t ht.1 ht.2).continuousAt.continuousWithinAt
  rw [← hI]
  exact romberg_err hl d1 d2 hM k y hy

/-- the value returned by the quadrature estimator on a line without zeros, up to a factor near 1 -/
theorem quadLine_scaled {σ : Type} (cfg : QuadCfg ℝ) (hev : ∀ n, 1 ≤ cfg.evals n) (hsteps : 13 ≤ cfg.steps) (df : Cx ℝ → Cx ℝ) (order : ℤ)
    (ctx : RCtx ℝ) (hdf : ctx.df = some df) (a b : Cx ℝ) (hf : ∀ t, 0 ≤ t → t ≤ 1 → ctx.f (along a b t) ≠ 0) (w : World σ ℝ) :
    ∃ (s : ℕ) (c : ℝ), quadLine cfg order a b ctx w = (.ok (Cx.smul c (Cx.divK (b - a) (cfg.abs (b - a)) *
        (⟨0, -1⟩ * quadAt cfg.romb (fun z => df z * z ^ order / ctx.f z) a b (cfg.abs (b - a)) s))), w) ∧
      10 ≤ s ∧ 1 - 1 / 2 ^ 12 ≤ c ∧ c ≤ 1 := by
  have hd : ∀ (c : ℝ) (q : Cx ℝ), Cx.divK (Cx.smul c (b - a) * q) (cfg.abs (b - a)) =
      Cx.smul c (Cx.divK (b - a) (cfg.abs (b - a)) * q) := by
    intro c q
    ext <;> simp <;> ring
  have hfac : ∀ s, s ≤ 22 → 1 - 1 / 2 ^ 12 ≤ quadFactor ℝ s ∧ quadFactor ℝ s ≤ 1 := by
    intro s hs
    unfold quadFactor
    split
    · norm_num
    · have h12 : 12 ≤ s - 1 := by omega
      have h1 : (2 : ℝ) ^ 12 ≤ 2 ^ (s - 1) := pow_le_pow_right₀ (by norm_num) h12
      have h2 : (1 : ℝ) / 2 ^ (s - 1) ≤ 1 / 2 ^ 12 := one_div_le_one_div_of_le (by positivity) h1
      have h3 : (0 : ℝ) ≤ 1 / 2 ^ (s - 1) := by positivity
      constructor <;> linarith
  obtain ⟨s', q, e, h⟩ := quadLine_exact cfg hev hsteps df order ctx hdf a b hf _ rfl w
  rw [hd] at e
  rcases h with ⟨t, h1, h2, h3, h4, h5, h6⟩ | ⟨h1, h2, h3⟩
  · subst h5 h6
    obtain ⟨g1, g2⟩ := hfac (t + 1) (by omega)
    exact ⟨t, quadFactor ℝ (t + 1), e, h1, g1, g2⟩
  · subst h2 h3
    obtain ⟨g1, g2⟩ := hfac 22 le_rfl
    exact ⟨22, quadFactor ℝ 22, e, by norm_num, g1, g2⟩

/-- a line parallel to one of the axes -/
def Axial (a b : Cx ℝ) : Prop := a ≠ b ∧ (a.im = b.im ∨ a.re = b.re)

theorem abs_turn_le (zeros : List (Cx ℝ)) (g : Cx ℝ → ℝ) (V : ℝ) (a b : Cx ℝ) (hV : |g b - g a| ≤ V) :
    |turn zeros g a b| ≤ π * zeros.length + V := by
  unfold turn
  have h1 := abs_sum_le zeros (fun c => sweep (toC c) (toC a) (toC b)) π fun c _ => Complex.abs_arg_le_pi _
  have h2 := abs_add_le (zeros.map fun c => sweep (toC c) (toC a) (toC b)).sum (g b - g a)
  linarith

/-- The phase computed by the quadrature estimator along a line parallel to an axis -/
theorem quadLine_phase {σ : Type} (cfg : QuadCfg ℝ) (hromb : cfg.romb = romberg) (habs : ∀ z, cfg.abs z = √(z.re ^ 2 + z.im ^ 2))
    (hev : ∀ n, 1 ≤ cfg.evals n) (hsteps : 13 ≤ cfg.steps) (df : Cx ℝ → Cx ℝ) (ctx : RCtx ℝ) (hdf : ctx.df = some df)
    {S : Cx ℝ → Prop} {zeros : List (Cx ℝ)} {G : ℂ → ℂ} {B V d : ℝ} (hf : AnalyticWith ctx.f df S zeros G B V) (hd : 0 < d)
    {a b : Cx ℝ} (hab : Axial a b) (hS : ∀ t, 0 ≤ t → t ≤ 1 → S (along a b t) ∧ Far d zeros (along a b t)) (w : World σ ℝ) :
    ∃ v, quadLine cfg 0 a b ctx w = (.ok v, w) ∧
      |v.re - turn zeros (fun z => (G (toC z)).im) a b| ≤ quadError zeros.length B V d (|b.re - a.re| + |b.im - a.im|) := by
  have hlen : cfg.abs (b - a) = |b.re - a.re| + |b.im - a.im| := by
    rw [habs]
    simp only [Cx.sub_re, Cx.sub_im]
    rcases hab.2 with e | e <;> rw [e] <;> simp [Real.sqrt_sq_eq_abs]
  have hlpos : 0 < cfg.abs (b - a) := by
    rw [hlen]
    rcases hab.2 with e | e
    · have : b.re - a.re ≠ 0 := fun h => hab.1 (Cx.ext (by linarith) e)
      have := abs_pos.2 this
      positivity
    · have : b.im - a.im ≠ 0 := fun h => hab.1 (Cx.ext e (by linarith))
      have := abs_pos.2 this
      positivity
  rw [← hlen]
  generalize hl : cfg.abs (b - a) = l at *
  have hne : ∀ t, 0 ≤ t → t ≤ 1 → ∀ c ∈ zeros, toC (along a b t) ≠ toC c := fun t h0 h1 c hc => (hS t h0 h1).2.ne hd hc
  have hf0 : ∀ t, 0 ≤ t → t ≤ 1 → ctx.f (along a b t) ≠ 0 := fun t h0 h1 => (hf.log (hS t h0 h1).1 (hne t h0 h1)).1
  obtain ⟨s, c, e, hs, c1, c2⟩ := quadLine_scaled cfg hev hsteps df 0 ctx hdf a b hf0 w
  rw [hl, hromb] at e
  -- the direction
  obtain ⟨u, hu⟩ : ∃ u : ℂ, u = (toC b - toC a) / l := ⟨_, rfl⟩
  have hlC : (l : ℂ) ≠ 0 := by exact_mod_cast hlpos.ne'
  have hur : u.re = (b.re - a.re) / l := by rw [hu, Complex.div_ofReal_re]; rfl
  have hui : u.im = (b.im - a.im) / l := by rw [hu, Complex.div_ofReal_im]; rfl
  have hu1 : |u.re| + |u.im| = 1 := by
    rw [hur, hui, abs_div, abs_div, abs_of_pos hlpos, ← add_div, ← hlen, div_self hlpos.ne']
  have hu0 : u.re = 0 ∨ u.im = 0 := by
    rcases hab.2 with e | e
    · right; rw [hui, e]; simp
    · left; rw [hur, e]; simp
  have hun : ‖u‖ = 1 := by
    rw [Complex.norm_def, Complex.normSq_apply]
    rcases hu0 with h | h <;> rw [h] at hu1 ⊢ <;> simp at hu1 ⊢ <;> nlinarith [abs_mul_abs_self u.im, abs_mul_abs_self u.re]
  have hend : toC a + l * u = toC b := by rw [hu]; field_simp; ring
  have halong : ∀ t : ℝ, toC (along a b t) = toC a + ((t * l : ℝ) : ℂ) * u := by
    intro t
    have h1 : toC (along a b t) = toC a + t * (toC b - toC a) := by
      apply Complex.ext <;> simp [along, toC]
    rw [h1, hu]
    push_cast
    field_simp
  have hback : ∀ t : ℝ, 0 ≤ t → t ≤ l → toC a + t * u = toC (along a b (t / l)) ∧ 0 ≤ t / l ∧ t / l ≤ 1 := by
    intro t h0 h1
    refine ⟨?_, by positivity, (div_le_one hlpos).2 h1⟩
    rw [halong, div_mul_cancel₀ _ hlpos.ne']
  have hcomp : ∀ ω : ℂ, ‖ω‖ = 1 → ∀ y : List ℝ,
      (y = (List.range (2 ^ s + 1)).map fun i : ℕ => (ω * logD (zeros.map toC) G (toC a + (((i : ℝ) * l / 2 ^ s : ℝ) : ℂ) * u)).re) →
      |romberg y (l / 2 ^ s) - (ω * u⁻¹ * (logPrim (zeros.map toC) G (toC a) (toC b) - logPrim (zeros.map toC) G (toC a) (toC a))).re| ≤
        l ^ 3 * (B + 2 * zeros.length / d ^ 3) / (3 * 4 ^ s) := by
    intro ω hω y hy
    have := romberg_component (zs := zeros.map toC) (G := G) (a := toC a) (u := u) (l := l) (d := d) (B := B) hun hlpos hd ?_ ?_ ?_ ω hω s y hy
    · rw [hend, List.length_map] at this
      exact this
    · intro t h0 h1 c hc
      obtain ⟨e1, e2, e3⟩ := hback t h0 h1
      obtain ⟨c', hc', rfl⟩ := List.mem_map.1 hc
      rw [e1]
      exact (hS _ e2 e3).2.norm hc'
    · intro t h0 h1
      obtain ⟨e1, e2, e3⟩ := hback t h0 h1
      rw [e1]
      exact hf.analytic _ (hS _ e2 e3).1
    · intro t h0 h1
      obtain ⟨e1, e2, e3⟩ := hback t h0 h1
      rw [e1]
      exact hf.bound _ (hS _ e2 e3).1
  obtain ⟨J, hJ⟩ : ∃ J, J = u⁻¹ * (logPrim (zeros.map toC) G (toC a) (toC b) - logPrim (zeros.map toC) G (toC a) (toC a)) := ⟨_, rfl⟩
  have hsample : ∀ i : ℕ, i ≤ 2 ^ s → toC (df (along a b ((i : ℝ) / ((2 ^ s : ℕ) : ℝ))) * (along a b ((i : ℝ) / ((2 ^ s : ℕ) : ℝ))) ^ (0 : ℤ) /
      ctx.f (along a b ((i : ℝ) / ((2 ^ s : ℕ) : ℝ)))) = logD (zeros.map toC) G (toC a + (((i : ℝ) * l / 2 ^ s : ℝ) : ℂ) * u) := by
    intro i hi
    have h0 : 0 ≤ (i : ℝ) / ((2 ^ s : ℕ) : ℝ) := by positivity
    have h1 : (i : ℝ) / ((2 ^ s : ℕ) : ℝ) ≤ 1 := (div_le_one (by positivity)).2 (by exact_mod_cast hi)
    rw [(hf.log (hS _ h0 h1).1 (hne _ h0 h1)).2, halong]
    congr 3
    push_cast
    ring_nf
  have hqre : |(quadAt romberg (fun z => df z * z ^ (0 : ℤ) / ctx.f z) a b l s).re - J.re| ≤ l ^ 3 * (B + 2 * zeros.length / d ^ 3) / (3 * 4 ^ s) := by
    have := hcomp 1 (by simp) ((grid a b (2 ^ s)).map fun z => (df z * z ^ (0 : ℤ) / ctx.f z).re) ?_
    · rw [hJ]
      simpa [quadAt] using this
    · unfold grid
      rw [List.map_map]
      apply List.map_congr_left
      intro i hi
      rw [one_mul, ← hsample i (by simpa [Nat.lt_succ_iff] using hi)]
      rfl
  have hqim : |(quadAt romberg (fun z => df z * z ^ (0 : ℤ) / ctx.f z) a b l s).im - J.im| ≤ l ^ 3 * (B + 2 * zeros.length / d ^ 3) / (3 * 4 ^ s) := by
    have := hcomp (-Complex.I) (by simp) ((grid a b (2 ^ s)).map fun z => (df z * z ^ (0 : ℤ) / ctx.f z).im) ?_
    · have e3 : (-Complex.I * u⁻¹ * (logPrim (zeros.map toC) G (toC a) (toC b) - logPrim (zeros.map toC) G (toC a) (toC a))).re = J.im := by
        rw [hJ, mul_assoc]; simp
      rw [e3] at this
      exact this
    · unfold grid
      rw [List.map_map]
      apply List.map_congr_left
      intro i hi
      rw [← hsample i (by simpa [Nat.lt_succ_iff] using hi)]
      simp [toC]
  -- the exact value
  have hturn : turn zeros (fun z => (G (toC z)).im) a b = u.re * J.im + u.im * J.re := by
    have hu00 : u ≠ 0 := by intro h; rw [h] at hun; simp at hun
    have h1 : u * J = logPrim (zeros.map toC) G (toC a) (toC b) - logPrim (zeros.map toC) G (toC a) (toC a) := by
      rw [hJ]; field_simp
    have h2 : u.re * J.im + u.im * J.re = (u * J).im := by rw [Complex.mul_im]
    rw [h2, h1]
    unfold turn logPrim sweep
    have h3 : ((zeros.map toC).map fun c => Complex.log ((toC a - c) / (toC a - c))).sum = 0 := by
      apply List.sum_eq_zero
      intro x hx
      obtain ⟨c, hc, rfl⟩ := List.mem_map.1 hx
      obtain ⟨c', hc', rfl⟩ := List.mem_map.1 hc
      have := hne 0 le_rfl zero_le_one c' hc'
      have ha0 : along a b 0 = a := by ext <;> simp [along]
      rw [ha0] at this
      rw [div_self (sub_ne_zero.2 this), Complex.log_one]
    have h4 : (((zeros.map toC).map fun c => Complex.log ((toC b - c) / (toC a - c))).sum).im =
        (zeros.map fun c => Complex.arg ((toC b - toC c) / (toC a - toC c))).sum := by
      clear h3 hne hsample hqre hqim hcomp hS hf e hJ h1 h2
      induction zeros with
      | nil => simp
      | cons c l ih =>
        simp only [List.map_cons, List.sum_cons, Complex.add_im, Complex.log_im]
        rw [ih]
    rw [h3, zero_add, Complex.sub_im, Complex.add_im, h4]
    ring
  refine ⟨_, e, ?_⟩
  have hre : (Cx.smul c (Cx.divK (b - a) l * (⟨0, -1⟩ * quadAt romberg (fun z => df z * z ^ (0 : ℤ) / ctx.f z) a b l s)) : Cx ℝ).re =
      c * (u.re * (quadAt romberg (fun z => df z * z ^ (0 : ℤ) / ctx.f z) a b l s).im +
        u.im * (quadAt romberg (fun z => df z * z ^ (0 : ℤ) / ctx.f z) a b l s).re) := by
    rw [hur, hui]
    simp [Cx.smul, Cx.divK]
  rw [hre]
  have hV := abs_turn_le zeros (fun z => (G (toC z)).im) V a b (by
    have h0 := (hS 0 le_rfl zero_le_one).1
    have h1 := (hS 1 zero_le_one le_rfl).1
    have ha0 : along a b 0 = a := by ext <;> simp [along]
    have hb1 : along a b 1 = b := by ext <;> simp [along]
    rw [ha0] at h0
    rw [hb1] at h1
    exact hf.osc a b h0 h1)
  generalize turn zeros (fun z => (G (toC z)).im) a b = T at *
  generalize quadAt romberg (fun z => df z * z ^ (0 : ℤ) / ctx.f z) a b l s = Q at *
  have hE : l ^ 3 * (B + 2 * zeros.length / d ^ 3) / (3 * 4 ^ s) ≤ l ^ 3 * (B + 2 * zeros.length / d ^ 3) / (3 * 4 ^ 10) := by
    have hB0 : 0 ≤ l ^ 3 * (B + 2 * zeros.length / d ^ 3) := by
      have h1 := (abs_nonneg _).trans hqre
      by_contra hc
      have := div_neg_of_neg_of_pos (not_le.1 hc) (by positivity : (0 : ℝ) < 3 * 4 ^ s)
      linarith
    apply div_le_div_of_nonneg_left hB0 (by positivity)
    have : (4 : ℝ) ^ 10 ≤ 4 ^ s := pow_le_pow_right₀ (by norm_num) hs
    linarith
  unfold quadError
  generalize l ^ 3 * (B + 2 * zeros.length / d ^ 3) / (3 * 4 ^ s) = ε at *
  have hQ : |u.re * Q.im + u.im * Q.re - T| ≤ ε := by
    have : u.re * Q.im + u.im * Q.re - T = u.re * (Q.im - J.im) + u.im * (Q.re - J.re) := by rw [hturn]; ring
    rw [this]
    refine (abs_add_le _ _).trans ?_
    rw [abs_mul, abs_mul]
    calc |u.re| * |Q.im - J.im| + |u.im| * |Q.re - J.re| ≤ |u.re| * ε + |u.im| * ε :=
          add_le_add (mul_le_mul_of_nonneg_left hqim (abs_nonneg _)) (mul_le_mul_of_nonneg_left hqre (abs_nonneg _))
      _ = ε := by rw [← add_mul, hu1, one_mul]
  generalize u.re * Q.im + u.im * Q.re = q at *
  have e5 : c * q - T = c * (q - T) - (1 - c) * T := by ring
  rw [e5]
  have hε : 0 ≤ ε := (abs_nonneg _).trans hQ
  have hc0 : 0 ≤ c := le_trans (by norm_num) c1
  calc |c * (q - T) - (1 - c) * T| ≤ |c * (q - T)| + |(1 - c) * T| := abs_sub _ _
    _ = c * |q - T| + (1 - c) * |T| := by rw [abs_mul, abs_mul, abs_of_nonneg hc0, abs_of_nonneg (by linarith : 0 ≤ 1 - c)]
    _ ≤ ε + (π * zeros.length + V) / 2 ^ 12 := by
        have h1 : c * |q - T| ≤ ε := by nlinarith [abs_nonneg (q - T)]
        have h2 : (1 - c) * |T| ≤ 1 / 2 ^ 12 * |T| := mul_le_mul_of_nonneg_right (by linarith) (abs_nonneg _)
        have h3 : 1 / 2 ^ 12 * |T| ≤ (π * zeros.length + V) / 2 ^ 12 := by
          rw [div_mul_eq_mul_div, one_mul]
          gcongr
        linarith
    _ ≤ _ := by linarith

end PyZeal
