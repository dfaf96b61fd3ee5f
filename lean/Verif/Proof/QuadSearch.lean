import Verif.Proof.QuadLine
import Verif.Proof.Reach

/-! # Searches with numerical quadrature -/

set_option linter.unusedSectionVars false

namespace PyZeal
open Spec

theorem sweep_reverse {c a b : ℂ} (h : (b - c) / (a - c) ∈ Complex.slitPlane) : sweep c b a = - sweep c a b := by
  unfold sweep
  have e : (a - c) / (b - c) = ((b - c) / (a - c))⁻¹ := by rw [inv_div]
  rw [e, Complex.arg_inv, if_neg (Complex.mem_slitPlane_iff_arg.1 h).1]

theorem turn_reverse {zeros : List (Cx ℝ)} (g : Cx ℝ → ℝ) {a b : Cx ℝ} (h : ∀ c ∈ zeros, ∀ t, 0 ≤ t → t ≤ 1 → toC (along a b t) ≠ toC c) :
    turn zeros g b a = - turn zeros g a b := by
  have hal : ∀ t : ℝ, toC (along a b t) = toC a + t * (toC b - toC a) := by
    intro t
    apply Complex.ext <;> simp [along, toC]
  have hs : ∀ c ∈ zeros, sweep (toC c) (toC b) (toC a) = - sweep (toC c) (toC a) (toC b) := by
    intro c hc
    apply sweep_reverse
    have h0 := h c hc 0 le_rfl zero_le_one
    rw [hal] at h0
    simp only [Complex.ofReal_zero, zero_mul, add_zero] at h0
    have := segment_slit (a := toC a) (u := toC b - toC a) (c := toC c) (l := 1) h0 (fun t h0 h1 => by rw [← hal]; exact h c hc t h0 h1) 1 zero_le_one le_rfl
    simpa using this
  unfold turn
  have : (zeros.map fun c => sweep (toC c) (toC b) (toC a)).sum = - (zeros.map fun c => sweep (toC c) (toC a) (toC b)).sum := by
    clear h hal
    induction zeros with
    | nil => simp
    | cons c l ih =>
      simp only [List.map_cons, List.sum_cons]
      rw [hs c (by simp), ih fun c hc => hs c (by simp [hc])]
      ring
  rw [this]
  ring

/-- points on the sides of a rectangle -/
theorem edge_boundary {re im : ℝ × ℝ} (hre : re.1 < re.2) (him : im.1 < im.2) {e : Cx ℝ × Cx ℝ} (he : e ∈ edges re im) :
    Axial e.1 e.2 ∧ (|e.2.re - e.1.re| + |e.2.im - e.1.im| = re.2 - re.1 ∨ |e.2.re - e.1.re| + |e.2.im - e.1.im| = im.2 - im.1) ∧
    ∀ t, 0 ≤ t → t ≤ 1 → Cell.Boundary ⟨re, im, 0⟩ (along e.1 e.2 t) := by
  have a1 : |re.2 - re.1| = re.2 - re.1 := abs_of_pos (by linarith)
  have a2 : |re.1 - re.2| = re.2 - re.1 := by rw [abs_sub_comm]; exact a1
  have a3 : |im.2 - im.1| = im.2 - im.1 := abs_of_pos (by linarith)
  have a4 : |im.1 - im.2| = im.2 - im.1 := by rw [abs_sub_comm]; exact a3
  unfold edges at he
  simp only [List.mem_cons, List.not_mem_nil, or_false] at he
  have bd : ∀ (t : ℝ) z, 0 ≤ t → t ≤ 1 → ((z.re = re.1 ∨ z.re = re.2) ∧ im.1 ≤ z.im ∧ z.im ≤ im.2) ∨ ((z.im = im.1 ∨ z.im = im.2) ∧ re.1 ≤ z.re ∧ z.re ≤ re.2) →
      Cell.Boundary ⟨re, im, 0⟩ z := by
    intro t z _ _ h
    unfold Cell.Boundary Cell.Has Cell.Interior
    dsimp only
    rcases h with ⟨h | h, h1, h2⟩ | ⟨h | h, h1, h2⟩
    · exact ⟨⟨h.ge, h.le.trans hre.le, h1, h2⟩, fun k => k.1.ne h.symm⟩
    · exact ⟨⟨hre.le.trans h.ge, h.le, h1, h2⟩, fun k => k.2.1.ne h⟩
    · exact ⟨⟨h1, h2, h.ge, h.le.trans him.le⟩, fun k => k.2.2.1.ne h.symm⟩
    · exact ⟨⟨h1, h2, him.le.trans h.ge, h.le⟩, fun k => k.2.2.2.ne h⟩
  rcases he with rfl | rfl | rfl | rfl
  · refine ⟨⟨fun h => hre.ne (congrArg Cx.re h), .inl rfl⟩, .inl (by simp [a1]), fun t h0 h1 => bd t _ h0 h1 (.inr ⟨.inl (by simp [along]), ?_, ?_⟩)⟩ <;>
      simp [along] <;> nlinarith
  · refine ⟨⟨fun h => him.ne (congrArg Cx.im h), .inr rfl⟩, .inr (by simp [a3]), fun t h0 h1 => bd t _ h0 h1 (.inl ⟨.inr (by simp [along]), ?_, ?_⟩)⟩ <;>
      simp [along] <;> nlinarith
  · refine ⟨⟨fun h => hre.ne (congrArg Cx.re h).symm, .inl rfl⟩, .inl (by simp [a2]), fun t h0 h1 => bd t _ h0 h1 (.inr ⟨.inr (by simp [along]), ?_, ?_⟩)⟩ <;>
      simp [along] <;> nlinarith
  · refine ⟨⟨fun h => him.ne (congrArg Cx.im h).symm, .inr rfl⟩, .inr (by simp [a4]), fun t h0 h1 => bd t _ h0 h1 (.inl ⟨.inl (by simp [along]), ?_, ?_⟩)⟩ <;>
      simp [along] <;> nlinarith

theorem reached_pos {p : ℤ × ℤ} {zeros : List (Cx ℝ)} {reRan imRan re im : ℝ × ℝ} (hre : reRan.1 < reRan.2) (him : imRan.1 < imRan.2)
    (h : Reached p zeros reRan imRan re im) : re.1 < re.2 ∧ im.1 < im.2 := by
  induction h with
  | whole => exact ⟨hre, him⟩
  | left _ _ _ _ ih | right _ _ _ _ ih | lower _ _ _ _ ih | upper _ _ _ _ ih =>
    obtain ⟨a1, a2⟩ := ih
    refine ⟨?_, ?_⟩ <;> first | assumption | (dsimp only; linarith)

/-- the quadrature estimator is accurate -/
theorem quad_good {σ : Type} (cfg : QuadCfg ℝ) (hromb : cfg.romb = romberg) (habs : ∀ z, cfg.abs z = √(z.re ^ 2 + z.im ^ 2))
    (hev : ∀ n, 1 ≤ cfg.evals n) (hsteps : 13 ≤ cfg.steps) (df : Cx ℝ → Cx ℝ) (ctx : RCtx ℝ) (hdf : ctx.df = some df)
    (hre : ctx.reRan.1 < ctx.reRan.2) (him : ctx.imRan.1 < ctx.imRan.2)
    {zeros : List (Cx ℝ)} {G : ℂ → ℂ} {B V : ℝ} (hf : AnalyticWith ctx.f df (Cell.Has ⟨ctx.reRan, ctx.imRan, 0⟩) zeros G B V)
    {Rch : ℝ × ℝ → ℝ × ℝ → Prop} (hRch : ∀ r i, Rch r i → Reached ctx.precision zeros ctx.reRan ctx.imRan r i)
    (hres : ∀ r i, Rch r i → ∃ d > 0, (∀ z, Cell.Boundary ⟨r, i, 0⟩ z → Far d zeros z) ∧
      quadError zeros.length B V d (r.2 - r.1) < Real.pi / 10 ∧ quadError zeros.length B V d (i.2 - i.1) < Real.pi / 10) :
    Good (σ := σ) (quadLine cfg) ctx zeros Rch (turn zeros fun z => (G (toC z)).im) := by
  constructor
  · intro re im hob e he w
    obtain ⟨d, hd, hfar, q1, q2⟩ := hres re im hob
    obtain ⟨p1, p2⟩ := reached_pos hre him (hRch _ _ hob)
    obtain ⟨hax, hlen, hbd⟩ := edge_boundary p1 p2 he
    have hS : ∀ t, 0 ≤ t → t ≤ 1 → Cell.Has ⟨ctx.reRan, ctx.imRan, 0⟩ (along e.1 e.2 t) ∧ Far d zeros (along e.1 e.2 t) := by
      intro t h0 h1
      have hb := hbd t h0 h1
      refine ⟨?_, hfar _ hb⟩
      obtain ⟨a1, a2, a3, a4, a5, a6⟩ := reached_in hre.le him.le (hRch _ _ hob)
      obtain ⟨b1, b2, b3, b4⟩ := hb.1
      exact ⟨a1.trans b1, b2.trans a3, a4.trans b3, b4.trans a6⟩
    obtain ⟨v, h1, h2⟩ := quadLine_phase cfg hromb habs hev hsteps df ctx hdf hf hd hax hS w
    refine ⟨v, h1, lt_of_le_of_lt h2 ?_, turn_reverse _ fun c hc t h0 h1 => (hS t h0 h1).2.ne hd hc⟩
    rcases hlen with h | h <;> rw [h]
    · exact q1
    · exact q2
  · intro re im hob
    obtain ⟨d, hd, hfar, _⟩ := hres re im hob
    obtain ⟨p1, p2⟩ := reached_pos hre him (hRch _ _ hob)
    rw [← turn_around (fun z => (G (toC z)).im) p1 p2 _ 0]
    · simp only [edges, List.map_cons, List.map_nil, List.sum_cons, List.sum_nil]
      ring
    · intro z hz hbad
      have hb : Cell.Boundary ⟨re, im, 0⟩ z := by
        unfold Cell.Boundary Cell.Has Cell.Interior
        dsimp only
        rcases hbad with ⟨h1 | h1, h2, h3⟩ | ⟨h1 | h1, h2, h3⟩
        · exact ⟨⟨h1.ge, h1.le.trans p1.le, h2, h3⟩, fun h => h.1.ne h1.symm⟩
        · exact ⟨⟨p1.le.trans h1.ge, h1.le, h2, h3⟩, fun h => h.2.1.ne h1⟩
        · exact ⟨⟨h2, h3, h1.ge, h1.le.trans p2.le⟩, fun h => h.2.2.1.ne h1.symm⟩
        · exact ⟨⟨h2, h3, p2.le.trans h1.ge, h1.le⟩, fun h => h.2.2.2.ne h1⟩
      have := hfar z hb z hz
      simp at this
      nlinarith

/-- a continuous choice of the argument along a line -/
theorem AnalyticWith_argument {f df : Cx ℝ → Cx ℝ} {S : Cx ℝ → Prop} {zeros : List (Cx ℝ)} {G : ℂ → ℂ} {B V d : ℝ} (hf : AnalyticWith f df S zeros G B V)
    (hd : 0 < d) {a b : Cx ℝ} (hS : ∀ t, 0 ≤ t → t ≤ 1 → S (along a b t) ∧ Far d zeros (along a b t)) :
    ∃ θ : ℝ → ℝ, ContinuousOn θ (Set.Icc 0 1) ∧
      (∀ t ∈ Set.Icc (0 : ℝ) 1, point (f (along a b t)) = (‖point (f (along a b t))‖ : ℂ) * Complex.exp (θ t * Complex.I)) ∧
      θ 1 - θ 0 = turn zeros (fun z => (G (toC z)).im) a b := by
  have hal : ∀ t : ℝ, toC (along a b t) = toC a + t * (toC b - toC a) := by
    intro t
    apply Complex.ext <;> simp [along, toC]
  have ha0 : along a b 0 = a := by ext <;> simp [along]
  have hb1 : along a b 1 = b := by ext <;> simp [along]
  have hne : ∀ t, 0 ≤ t → t ≤ 1 → ∀ c ∈ zeros, toC (along a b t) ≠ toC c := fun t h0 h1 c hc => (hS t h0 h1).2.ne hd hc
  have hnea : ∀ c ∈ zeros, toC a ≠ toC c := fun c hc => by have := hne 0 le_rfl zero_le_one c hc; rwa [ha0] at this
  have hslit : ∀ c ∈ zeros, ∀ t : ℝ, 0 ≤ t → t ≤ 1 → (toC (along a b t) - toC c) / (toC a - toC c) ∈ Complex.slitPlane := by
    intro c hc t h0 h1
    rw [hal]
    exact segment_slit (hnea c hc) (fun t h0 h1 => by rw [← hal]; exact hne t h0 h1 c hc) t h0 h1
  have hcal : Continuous fun t : ℝ => toC (along a b t) := by
    have : (fun t : ℝ => toC (along a b t)) = fun t : ℝ => toC a + t * (toC b - toC a) := funext hal
    rw [this]
    fun_prop
  refine ⟨fun t => (G (toC (along a b t))).im + (zeros.map fun c => sweep (toC c) (toC a) (toC (along a b t)) + Complex.arg (toC a - toC c)).sum, ?_, ?_, ?_⟩
  · have h1 : ContinuousOn (fun t : ℝ => (G (toC (along a b t))).im) (Set.Icc 0 1) := by
      intro t ht
      have := (hf.analytic _ (hS t ht.1 ht.2).1).continuousAt
      have h2 : ContinuousAt (fun t : ℝ => G (toC (along a b t))) t := ContinuousAt.comp (f := fun t : ℝ => toC (along a b t)) (g := G) this hcal.continuousAt
      exact (Complex.continuous_im.continuousAt.comp h2).continuousWithinAt
    have h2 : ContinuousOn (fun t : ℝ => (zeros.map fun c => sweep (toC c) (toC a) (toC (along a b t)) + Complex.arg (toC a - toC c)).sum) (Set.Icc 0 1) := by
      clear hf hS hne
      induction zeros with
      | nil => simpa using continuousOn_const
      | cons c l ih =>
        simp only [List.map_cons, List.sum_cons]
        refine ContinuousOn.add (ContinuousOn.add ?_ continuousOn_const)
          (ih (fun c hc => hnea c (by simp [hc])) (fun c hc => hslit c (by simp [hc])))
        intro t ht
        unfold sweep
        have h3 : ContinuousAt (fun t : ℝ => (toC (along a b t) - toC c) / (toC a - toC c)) t :=
          ((hcal.sub continuous_const).div_const _).continuousAt
        exact (ContinuousAt.comp (f := fun t : ℝ => (toC (along a b t) - toC c) / (toC a - toC c)) (g := Complex.arg)
          (Complex.continuousAt_arg (hslit c (by simp) t ht.1 ht.2)) h3).continuousWithinAt
    exact h1.add h2
  · intro t ht
    have key : ∃ r : ℝ, 0 < r ∧ point (f (along a b t)) = (r : ℂ) * Complex.exp (((G (toC (along a b t))).im +
        (zeros.map fun c => sweep (toC c) (toC a) (toC (along a b t)) + Complex.arg (toC a - toC c)).sum : ℝ) * Complex.I) := by
      rw [hf.value _ (hS t ht.1 ht.2).1]
      have h1 : ∃ r : ℝ, 0 < r ∧ (zeros.map fun c => point (along a b t) - point c).prod = (r : ℂ) * Complex.exp
          (((zeros.map fun c => sweep (toC c) (toC a) (toC (along a b t)) + Complex.arg (toC a - toC c)).sum : ℝ) * Complex.I) := by
        clear hf hS hslit
        induction zeros with
        | nil => exact ⟨1, one_pos, by simp⟩
        | cons c l ih =>
          obtain ⟨r, r0, hr⟩ := ih (fun t h0 h1 c hc => hne t h0 h1 c (by simp [hc])) (fun c hc => hnea c (by simp [hc]))
          have n1 := hne t ht.1 ht.2 c (by simp)
          have n2 := hnea c (by simp)
          refine ⟨‖(toC (along a b t) - toC c) / (toC a - toC c)‖ * ‖toC a - toC c‖ * r, ?_, ?_⟩
          · have := norm_pos_iff.2 (sub_ne_zero.2 n2)
            have := norm_pos_iff.2 (div_ne_zero (sub_ne_zero.2 n1) (sub_ne_zero.2 n2))
            positivity
          · simp only [List.map_cons, List.prod_cons, List.sum_cons, hr]
            have e1 := Complex.norm_mul_exp_arg_mul_I ((toC (along a b t) - toC c) / (toC a - toC c))
            have e2 := Complex.norm_mul_exp_arg_mul_I (toC a - toC c)
            have e3 : point (along a b t) - point c = ((toC (along a b t) - toC c) / (toC a - toC c)) * (toC a - toC c) := by
              rw [div_mul_cancel₀ _ (sub_ne_zero.2 n2)]; rfl
            rw [e3]
            unfold sweep
            conv_lhs => rw [← e1]
            conv_lhs => enter [1, 2]; rw [← e2]
            push_cast
            rw [add_mul, add_mul, Complex.exp_add, Complex.exp_add]
            ring
      obtain ⟨r, r0, hr⟩ := h1
      refine ⟨Real.exp (G (toC (along a b t))).re * r, by positivity, ?_⟩
      rw [hr]
      have e : G (point (along a b t)) = ((G (toC (along a b t))).re : ℂ) + ((G (toC (along a b t))).im : ℂ) * Complex.I := (Complex.re_add_im _).symm
      rw [e, Complex.exp_add]
      push_cast
      rw [add_mul, Complex.exp_add]
      ring
    obtain ⟨r, r0, hr⟩ := key
    have hn : ‖point (f (along a b t))‖ = r := by
      rw [hr, norm_mul, Complex.norm_exp_ofReal_mul_I, mul_one, Complex.norm_real, Real.norm_of_nonneg r0.le]
    rw [hn]
    exact hr
  · dsimp only
    rw [ha0, hb1]
    unfold turn
    have h1 : (zeros.map fun c => sweep (toC c) (toC a) (toC b) + Complex.arg (toC a - toC c)).sum -
        (zeros.map fun c => sweep (toC c) (toC a) (toC a) + Complex.arg (toC a - toC c)).sum = (zeros.map fun c => sweep (toC c) (toC a) (toC b)).sum := by
      clear hf hS hslit hne
      induction zeros with
      | nil => simp
      | cons c l ih =>
        have := ih fun c hc => hnea c (by simp [hc])
        simp only [List.map_cons, List.sum_cons]
        have e : sweep (toC c) (toC a) (toC a) = 0 := by
          unfold sweep
          rw [div_self (sub_ne_zero.2 (hnea c (by simp))), Complex.arg_one]
        rw [e]
        linarith
    linarith

end PyZeal
