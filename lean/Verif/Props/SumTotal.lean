import Verif.Props.SumNewton

/-! # Property C98: searches with the summation estimator that are known to return -/

set_option linter.unusedSectionVars false

namespace PyZeal.Props
open Spec

/-- The conditions under which `C98_total_partial` shows that the search returns: along every side of a rectangle the search comes to look at,
the argument of `f` at the two ends differs by more than twice the turn between neighbouring samples; the rectangles are not lower than the distance of neighbouring
samples; `f` has finitely many zeros in the plane, and the bounds for the loops and for the recursion are large enough. -/
structure Safe (cfg : SumCfg ℝ) (ctx : RCtx ℝ) (zeros : List (Cx ℝ)) (L d M : ℝ) (limit : ℕ) : Prop where
  turn : ∀ re im, Reached ctx.precision zeros ctx.reRan ctx.imRan re im → ∀ e ∈ edges re im,
    2 * stepTurn cfg.numPts L d M zeros.length < |cfg.arg (ctx.f e.2 / ctx.f e.1)|
  high : ∀ re im, Reached ctx.precision zeros ctx.reRan ctx.imRan re im → L / ((cfg.numPts : ℝ) - 1) ≤ im.2 - im.1
  loops : ∃ Z : List (Cx ℝ), (∀ z, ctx.f z = 0 → z ∈ Z) ∧ (∀ n, Z.length * n + 1 ≤ cfg.evals n) ∧ 99 * cfg.numPts / 98 + 2 ≤ cfg.steps
  depth : ∃ m n, Cell.Below ctx.precision m n ⟨ctx.reRan, ctx.imRan, 0⟩ ∧ m + n < limit

theorem strict_returns {cfg : SumCfg ℝ} (harg : ∀ z, cfg.arg z = Complex.arg ⟨z.re, z.im⟩) (hδ : 0 < cfg.deltaPhi) (hn : 2 ≤ cfg.numPts)
    {ctx : RCtx ℝ} (hre : ctx.reRan.1 < ctx.reRan.2) (him : ctx.imRan.1 < ctx.imRan.2)
    {zeros : List (Cx ℝ)} {r g : Cx ℝ → ℝ} {M d : ℝ} (hf : Factored ctx.f (Cell.Has ⟨ctx.reRan, ctx.imRan, 0⟩) zeros r g M)
    (hM : 0 ≤ M) (hd : 0 < d)
    (hfine : FineEnough cfg.numPts (max (ctx.reRan.2 - ctx.reRan.1) (ctx.imRan.2 - ctx.imRan.1)) d M zeros.length)
    (hfar : ∀ re im, Reached ctx.precision zeros ctx.reRan ctx.imRan re im → ∀ z, Cell.Boundary ⟨re, im, 0⟩ z → Far d zeros z)
    {limit : ℕ} (hsafe : Safe cfg ctx zeros (max (ctx.reRan.2 - ctx.reRan.1) (ctx.imRan.2 - ctx.imRan.1)) d M limit)
    {body : Decide (SumState ℝ) ℝ → Decide (SumState ℝ) ℝ} {stop : Cell ℝ → Prop} {act : Cell ℝ → Py (World (SumState ℝ) ℝ) Unit}
    (hstop : Stops (strictLine (sumLine cfg)) ctx body stop act) (hsm : ∀ c, ¬ stop c → Cell.Turns Real.pi c ∧ ¬ Cell.Small ctx.precision c)
    (hact : Quiet act) (hfin : ∀ c, Finishes (act c))
    (w : World (SumState ℝ) ℝ) (hfuse : w.fuse = none) (hest : w.est = SumState.fresh) :
    ∃ w', calcRoots (strictLine (sumLine cfg)) body limit ctx w = (.ok (), w') := by
  obtain ⟨s1, s2, ⟨Z, z1, z2, z3⟩, m, n, b1, b2⟩ := hsafe
  have D := sumData harg hδ hn hre him hf hM hd hfine hfar
  exact sum_search_completes D (fun u v w hw => C25_terminates cfg hδ (by omega) u v ctx w hw Z z1 z2 z3) s2 s1 hstop hsm hact hfin limit m n b1 b2 w hfuse hest

/-- C98 with all hypotheses on the function and the settings, none on the run: under the hypotheses of `C98_search_partial` on the zeros and the sample size, and
the conditions `Safe`, the search returns; the candidates are exactly the final rectangles with zeros in them (centre, number
of zeros), every zero in the rectangle is near a candidate, every candidate is near a zero, and the orders sum up to the number of zeros. -/
theorem C98_total_partial (cfg : SumCfg ℝ) (harg : ∀ z, cfg.arg z = Complex.arg ⟨z.re, z.im⟩) (hδ : 0 < cfg.deltaPhi) (hn : 2 ≤ cfg.numPts)
    (ctx : RCtx ℝ) (hre : ctx.reRan.1 < ctx.reRan.2) (him : ctx.imRan.1 < ctx.imRan.2)
    (zeros : List (Cx ℝ)) (r g : Cx ℝ → ℝ) (M d : ℝ) (hf : Factored ctx.f (Cell.Has ⟨ctx.reRan, ctx.imRan, 0⟩) zeros r g M)
    (hM : 0 ≤ M) (hd : 0 < d)
    (hfine : FineEnough cfg.numPts (max (ctx.reRan.2 - ctx.reRan.1) (ctx.imRan.2 - ctx.imRan.1)) d M zeros.length)
    (hfar : ∀ re im, Reached ctx.precision zeros ctx.reRan ctx.imRan re im → ∀ z, Cell.Boundary ⟨re, im, 0⟩ z → Far d zeros z)
    (limit : ℕ) (hsafe : Safe cfg ctx zeros (max (ctx.reRan.2 - ctx.reRan.1) (ctx.imRan.2 - ctx.imRan.1)) d M limit)
    (w : World (SumState ℝ) ℝ) (hfuse : w.fuse = none) (hest : w.est = SumState.fresh) :
    ∃ w', simpleArgument (sumLine cfg) Real.pi limit ctx w = (.ok (), w') ∧
    newRoots w w' = ((newCells w w').filter fun c => decide (Cell.Stop Real.pi ctx.precision c ∧ 1 ≤ Cell.count c zeros)).map
      (fun c => (Cell.centre c, (Cell.count c zeros : ℤ))) ∧
    (∀ z ∈ zeros, Cell.HasHalfOpen ⟨ctx.reRan, ctx.imRan, 0⟩ z → ∃ r ∈ newRoots w w', 1 ≤ r.2 ∧
      Near (10 ^ (-ctx.precision.1) / 2, 10 ^ (-ctx.precision.2) / 2) z r.1) ∧
    (∀ r ∈ newRoots w w', 1 ≤ r.2 ∧ ∃ z ∈ zeros, Near (10 ^ (-ctx.precision.1) / 2, 10 ^ (-ctx.precision.2) / 2) z r.1) ∧
    ((newRoots w w').map Prod.snd).sum = Cell.count ⟨ctx.reRan, ctx.imRan, 0⟩ zeros := by
  obtain ⟨w', hr⟩ := strict_returns harg hδ hn hre him hf hM hd hfine hfar hsafe (simple_stops _ Real.pi ctx) simple_open (quiet_simple _ _)
    (Finishes.simpleAct Real.pi ctx) w hfuse hest
  obtain ⟨a1, _, a2, a3, a4, a5, _⟩ := C98_search_partial cfg harg hδ hn ctx hre him zeros r g M d hf hM hd hfine hfar limit w w' hfuse hest hr
  exact ⟨w', a1, a2, a3, a4, a5⟩

/-- C98 for the Newton variant, with all hypotheses on the function and the settings: as `C98_newton_partial`, but that the search returns is a conclusion.
(The solver may fail on any rectangle; `C98_newton_partial` says what happens if it does not.) -/
theorem C98_newton_total_partial (nt : NewtonSolver ℝ) (cfg : SumCfg ℝ) (harg : ∀ z, cfg.arg z = Complex.arg ⟨z.re, z.im⟩) (hδ : 0 < cfg.deltaPhi) (hn : 2 ≤ cfg.numPts)
    (ctx : RCtx ℝ) (hre : ctx.reRan.1 < ctx.reRan.2) (him : ctx.imRan.1 < ctx.imRan.2)
    (zeros : List (Cx ℝ)) (r g : Cx ℝ → ℝ) (M d : ℝ) (hf : Factored ctx.f (Cell.Has ⟨ctx.reRan, ctx.imRan, 0⟩) zeros r g M)
    (hM : 0 ≤ M) (hd : 0 < d)
    (hfine : FineEnough cfg.numPts (max (ctx.reRan.2 - ctx.reRan.1) (ctx.imRan.2 - ctx.imRan.1)) d M zeros.length)
    (hfar : ∀ re im, Reached ctx.precision zeros ctx.reRan ctx.imRan re im → ∀ z, Cell.Boundary ⟨re, im, 0⟩ z → Far d zeros z)
    (limit : ℕ) (hsafe : Safe cfg ctx zeros (max (ctx.reRan.2 - ctx.reRan.1) (ctx.imRan.2 - ctx.imRan.1)) d M limit)
    (w : World (SumState ℝ) ℝ) (hfuse : w.fuse = none) (hest : w.est = SumState.fresh) :
    ∃ w', simpleArgumentNewton nt (sumLine cfg) Real.pi limit ctx w = (.ok (), w') ∧
    (∀ r ∈ newRoots w w', 1 ≤ r.2 ∧ ∃ c ∈ newCells w w',
      (Cell.Small ctx.precision c ∧ r.1 = Cell.centre c ∧ r.2 = (Cell.count c zeros : ℤ)) ∨
      (Cell.count c zeros = 1 ∧ r.2 = 1 ∧ SolverResult nt ctx c r.1)) ∧
    ((∀ c, Cell.count c zeros = 1 → ∀ z ∈ zeros, Cell.HasHalfOpen c z → ∃ z',
        nt.secant ctx.f ⟨c.re.1, (Cell.centre c).im⟩ ⟨c.re.2, (Cell.centre c).im⟩
          (min ((10 : ℝ) ^ (-ctx.precision.1)) (10 ^ (-ctx.precision.2))) = some z' ∧
        Near ((10 : ℝ) ^ (-ctx.precision.1), (10 : ℝ) ^ (-ctx.precision.2)) z z') →
      ∀ z ∈ zeros, Cell.HasHalfOpen ⟨ctx.reRan, ctx.imRan, 0⟩ z → ∃ r ∈ newRoots w w', 1 ≤ r.2 ∧
        Near ((10 : ℝ) ^ (-ctx.precision.1), (10 : ℝ) ^ (-ctx.precision.2)) z r.1) := by
  obtain ⟨w', hr⟩ := strict_returns harg hδ hn hre him hf hM hd hfine hfar hsafe (newton_stops nt _ Real.pi ctx) newton_open (quiet_newton _ _ _)
    (Finishes.newtonAct nt Real.pi ctx) w hfuse hest
  obtain ⟨a1, _, a2, a3, a4⟩ := C98_newton_partial nt cfg harg hδ hn ctx hre him zeros r g M d hf hM hd hfine hfar limit w w' hfuse hest hr
  refine ⟨w', a1, fun r hr => ?_, fun h => a4 fun c hc h1 => h c (a2 c hc h1)⟩
  obtain ⟨b1, c, hc, b2⟩ := a3 r hr
  refine ⟨b1, c, hc, b2.imp_right ?_⟩
  rintro ⟨b3, b4, b5⟩
  exact ⟨a2 c hc b3, b4, b5⟩

/-- C98 for finders, with all hypotheses on the function and the settings: as `C98_finder_partial`, but that the search returns is a conclusion. -/
theorem C98_finder_total_partial (fd : Finder (SumState ℝ) ℝ) (cfg : SumCfg ℝ) (harg : ∀ z, cfg.arg z = Complex.arg ⟨z.re, z.im⟩)
    (hδ : 0 < cfg.deltaPhi) (hn : 2 ≤ cfg.numPts) (limit : ℕ) (halg : fd.algorithm = simpleArgument (sumLine cfg) Real.pi limit)
    (hfresh : fd.est = SumState.fresh) (hcont : RoundsFreely fd.container) (re im : ℝ × ℝ) (call : Option (ℤ × ℤ)) (p : ℤ × ℤ)
    (hp : Asked call fd.precision p) (dom : (ℝ × ℝ) × (ℝ × ℝ)) (hdom : dom = desymmetrizeDomain re im (p.1 + 1, p.2 + 1))
    (zeros : List (Cx ℝ)) (r g : Cx ℝ → ℝ) (M d : ℝ) (hf : Factored fd.f (Cell.Has ⟨dom.1, dom.2, 0⟩) zeros r g M)
    (hM : 0 ≤ M) (hd : 0 < d)
    (hfine : FineEnough cfg.numPts (max (dom.1.2 - dom.1.1) (dom.2.2 - dom.2.1)) d M zeros.length)
    (hfar : ∀ re im, Reached (p.1 + 1, p.2 + 1) zeros dom.1 dom.2 re im → ∀ z, Cell.Boundary ⟨re, im, 0⟩ z → Far d zeros z)
    (hsafe : Safe cfg ⟨fd.f, fd.df, (p.1 + 1, p.2 + 1), dom.1, dom.2, false⟩ zeros (max (dom.1.2 - dom.1.1) (dom.2.2 - dom.2.1)) d M limit) :
    let s := fd.calculateRoots re im call none
    s.outcome = .ok () ∧ s.warned = false ∧
    (∀ z ∈ zeros, Requested re im z → ∃ r ∈ held s.finder.container, 1 ≤ r.2 ∧
      Near (10 ^ (-(p.1 + 1)), 10 ^ (-(p.2 + 1))) z r.1) ∧
    ∀ r ∈ held s.finder.container, r ∈ held fd.container ∨
      (1 ≤ r.2 ∧ RequestedWithin (5 * 10 ^ (-(p.1 + 1)), 5 * 10 ^ (-(p.2 + 1))) re im r.1 ∧
        ∃ z ∈ zeros, Near (10 ^ (-(p.1 + 1)), 10 ^ (-(p.2 + 1))) z r.1) := by
  obtain ⟨d1, d2, d3, d4⟩ := C46_domain re im (p.1 + 1, p.2 + 1)
  rw [← hdom] at d1 d2 d3 d4
  have hprec : (fd.ctx re im call).precision = (p.1 + 1, p.2 + 1) := searchPrecision_asked hp
  have hd1 : (fd.ctx re im call).reRan = dom.1 := by
    rw [hdom, ← searchPrecision_asked hp]; rfl
  have hd2 : (fd.ctx re im call).imRan = dom.2 := by
    rw [hdom, ← searchPrecision_asked hp]; rfl
  obtain ⟨w', hr⟩ := strict_returns (ctx := fd.ctx re im call) harg hδ hn (by rw [hd1]; exact d1) (by rw [hd2]; exact d2) (zeros := zeros) (r := r) (g := g)
    (by rw [hd1, hd2]; exact hf) hM hd (by rw [hd1, hd2]; exact hfine) (by rw [hd1, hd2, hprec]; exact hfar) (limit := limit)
    (by
      obtain ⟨s1, s2, s3, s4⟩ := hsafe
      exact ⟨by rw [hd1, hd2, hprec]; exact s1, by rw [hd1, hd2, hprec]; exact s2, s3, by rw [hd1, hd2, hprec]; exact s4⟩)
    (simple_stops _ Real.pi _) simple_open (quiet_simple _ _) (Finishes.simpleAct Real.pi _) (fd.start none) rfl hfresh
  have hr : ((checked fd cfg limit).algorithm ((checked fd cfg limit).ctx re im call) ((checked fd cfg limit).start none)).1 = .ok () :=
    congrArg Prod.fst hr
  obtain ⟨e1, e2⟩ := calculateRoots_outcome (checked fd cfg limit) re im call none
  rw [hr] at e1 e2
  exact C98_finder_partial fd cfg harg hδ hn limit halg hfresh hcont re im call p hp dom hdom zeros r g M d hf hM hd hfine hfar
    (e1.trans (if_neg (by simp))) (e2.trans (by simp))

/-! ### The hypotheses are met: the zero of `z` in a rectangle that has to be divided -/

noncomputable def stdCfg : SumCfg ℝ where
  arg := fun z => Complex.arg ⟨z.re, z.im⟩
  numPts := 10001
  deltaPhi := 1
  maxPrecision := 1 / 1000
  evals := fun n => n + 1
  steps := 10200

noncomputable def stdCtx : RCtx ℝ where
  f := fun z => z
  df := none
  precision := (0, 0)
  reRan := (-1, 1 / 2)
  imRan := (-1, 1 / 2)

/-- five rectangles are looked at -/
theorem std_reached : ∀ re im, Reached stdCtx.precision [0] stdCtx.reRan stdCtx.imRan re im →
    (re = (-1, 1 / 2) ∧ im = (-1, 1 / 2)) ∨ (re = (-1, 1 / 2) ∧ im = (-1, -1 / 4)) ∨ (re = (-1, 1 / 2) ∧ im = (-1 / 4, 1 / 2)) ∨
    (re = (-1, -1 / 4) ∧ im = (-1 / 4, 1 / 2)) ∨ (re = (-1 / 4, 1 / 2) ∧ im = (-1 / 4, 1 / 2)) := by
  intro re im h
  have c1 : ∀ c : Cell ℝ, 1 ≤ Cell.count c [0] → Cell.HasHalfOpen c 0 := by
    intro c hc
    by_contra hno
    unfold Cell.count at hc
    simp [hno] at hc
  induction h with
  | whole => exact .inl ⟨rfl, rfl⟩
  | left _ hs hc hl ih =>
    have hc := c1 _ hc
    unfold Cell.HasHalfOpen at hc
    unfold Cell.Small at hs
    rcases ih with ⟨rfl, rfl⟩ | ⟨rfl, rfl⟩ | ⟨rfl, rfl⟩ | ⟨rfl, rfl⟩ | ⟨rfl, rfl⟩ <;> (revert hs hc hl; norm_num [stdCtx])
  | right _ hs hc hl ih =>
    have hc := c1 _ hc
    unfold Cell.HasHalfOpen at hc
    unfold Cell.Small at hs
    rcases ih with ⟨rfl, rfl⟩ | ⟨rfl, rfl⟩ | ⟨rfl, rfl⟩ | ⟨rfl, rfl⟩ | ⟨rfl, rfl⟩ <;> (revert hs hc hl; norm_num [stdCtx])
  | lower _ hs hc hl ih =>
    have hc := c1 _ hc
    unfold Cell.HasHalfOpen at hc
    unfold Cell.Small at hs
    rcases ih with ⟨rfl, rfl⟩ | ⟨rfl, rfl⟩ | ⟨rfl, rfl⟩ | ⟨rfl, rfl⟩ | ⟨rfl, rfl⟩ <;> (revert hs hc hl; norm_num [stdCtx])
  | upper _ hs hc hl ih =>
    have hc := c1 _ hc
    unfold Cell.HasHalfOpen at hc
    unfold Cell.Small at hs
    rcases ih with ⟨rfl, rfl⟩ | ⟨rfl, rfl⟩ | ⟨rfl, rfl⟩ | ⟨rfl, rfl⟩ | ⟨rfl, rfl⟩ <;> (revert hs hc hl; norm_num [stdCtx])

/-- the argument of `b / a` in terms of the area between `a` and `b` -/
theorem arg_ge_cross {a b : Cx ℝ} {A B C : ℝ} (hA : 0 < A) (hB : 0 < B) (hC : 0 < C) (ha : a.re ^ 2 + a.im ^ 2 ≤ A ^ 2) (hb : b.re ^ 2 + b.im ^ 2 ≤ B ^ 2)
    (hc : C ≤ |a.re * b.im - a.im * b.re|) : C / (A * B) ≤ |Complex.arg ⟨(b / a).re, (b / a).im⟩| := by
  have e1 : (⟨(b / a).re, (b / a).im⟩ : ℂ) = toC b / toC a := toC_div b a
  rw [e1]
  have ha0 : toC a ≠ 0 := by
    intro h
    have h1 : a.re = 0 := congrArg Complex.re h
    have h2 : a.im = 0 := congrArg Complex.im h
    rw [h1, h2] at hc
    norm_num at hc
    linarith
  have hb0 : toC b ≠ 0 := by
    intro h
    have h1 : b.re = 0 := congrArg Complex.re h
    have h2 : b.im = 0 := congrArg Complex.im h
    rw [h1, h2] at hc
    norm_num at hc
    linarith
  have hsin : Real.sin (Complex.arg (toC b / toC a)) = (toC b / toC a).im / ‖toC b / toC a‖ := Complex.sin_arg _
  have h1 : |Real.sin (Complex.arg (toC b / toC a))| ≤ |Complex.arg (toC b / toC a)| := Real.abs_sin_le_abs
  refine le_trans ?_ h1
  rw [hsin, abs_div, abs_norm, norm_div]
  have n1 : 0 < ‖toC a‖ := norm_pos_iff.2 ha0
  have n2 : 0 < ‖toC b‖ := norm_pos_iff.2 hb0
  have m1 : ‖toC a‖ ≤ A := by
    refine abs_le_of_sq_le_sq' ?_ hA.le |>.2
    rw [← Complex.normSq_eq_norm_sq, Complex.normSq_apply]
    simp only [toC]; nlinarith
  have m2 : ‖toC b‖ ≤ B := by
    refine abs_le_of_sq_le_sq' ?_ hB.le |>.2
    rw [← Complex.normSq_eq_norm_sq, Complex.normSq_apply]
    simp only [toC]; nlinarith
  have him : (toC b / toC a).im = (a.re * b.im - a.im * b.re) / ‖toC a‖ ^ 2 := by
    rw [Complex.div_im, ← Complex.normSq_eq_norm_sq]
    simp only [toC]
    ring
  rw [him, abs_div, abs_of_pos (by positivity : 0 < ‖toC a‖ ^ 2)]
  have e2 : |a.re * b.im - a.im * b.re| / ‖toC a‖ ^ 2 / (‖toC b‖ / ‖toC a‖) = |a.re * b.im - a.im * b.re| / (‖toC a‖ * ‖toC b‖) := by
    field_simp
  rw [e2]
  exact div_le_div₀ (abs_nonneg _) hc (by positivity) (mul_le_mul m1 m2 n2.le hA.le)

theorem std_fine : FineEnough stdCfg.numPts (max (stdCtx.reRan.2 - stdCtx.reRan.1) (stdCtx.imRan.2 - stdCtx.imRan.1)) (1 / 4) 0 [(0 : Cx ℝ)].length := by
  have hpi := Real.pi_pos
  unfold FineEnough stepTurn
  simp only [stdCfg, stdCtx, List.length_singleton]
  norm_num
  linarith

theorem std_far : ∀ re im, Reached stdCtx.precision [0] stdCtx.reRan stdCtx.imRan re im → ∀ z, Cell.Boundary ⟨re, im, 0⟩ z → Far (1 / 4) [0] z := by
  intro re im hob z hz c hc
  rw [List.mem_singleton] at hc
  subst hc
  obtain ⟨⟨h1, h2, h3, h4⟩, h5⟩ := hz
  simp only [Cx.zero_re, Cx.zero_im, sub_zero] at h1 h2 h3 h4 ⊢
  by_contra hlt
  push Not at hlt
  have a1 : |z.re| < 1 / 4 := abs_lt_of_sq_lt_sq (by nlinarith [sq_nonneg z.im]) (by norm_num)
  have a2 : |z.im| < 1 / 4 := abs_lt_of_sq_lt_sq (by nlinarith [sq_nonneg z.re]) (by norm_num)
  rw [abs_lt] at a1 a2
  rcases std_reached re im hob with ⟨rfl, rfl⟩ | ⟨rfl, rfl⟩ | ⟨rfl, rfl⟩ | ⟨rfl, rfl⟩ | ⟨rfl, rfl⟩ <;>
    (refine h5 ⟨?_, ?_, ?_, ?_⟩ <;> dsimp only at * <;> linarith)

theorem std_safe : Safe stdCfg stdCtx [0] (max (stdCtx.reRan.2 - stdCtx.reRan.1) (stdCtx.imRan.2 - stdCtx.imRan.1)) (1 / 4) 0 3 := by
  have hpi := Real.pi_le_four
  have hmax : max (stdCtx.reRan.2 - stdCtx.reRan.1) (stdCtx.imRan.2 - stdCtx.imRan.1) = 3 / 2 := by
    norm_num [stdCtx]
  rw [hmax]
  refine ⟨?_, ?_, ⟨[0], ?_, ?_, ?_⟩, 1, 1, ?_, ?_⟩
  · intro re im hob e he
    have hst : 2 * stepTurn stdCfg.numPts (3 / 2) (1 / 4) 0 [(0 : Cx ℝ)].length < (3 / 16) / (3 / 2 * (3 / 2)) := by
      unfold stepTurn
      simp only [stdCfg, List.length_singleton]
      norm_num
      linarith
    refine lt_of_lt_of_le hst ?_
    have := std_reached re im hob
    unfold edges at he
    simp only [List.mem_cons, List.not_mem_nil, or_false] at he
    rcases this with ⟨rfl, rfl⟩ | ⟨rfl, rfl⟩ | ⟨rfl, rfl⟩ | ⟨rfl, rfl⟩ | ⟨rfl, rfl⟩ <;>
      rcases he with rfl | rfl | rfl | rfl <;>
      exact arg_ge_cross (by norm_num) (by norm_num) (by norm_num) (by norm_num [stdCtx]) (by norm_num [stdCtx]) (by norm_num [stdCtx, abs_of_nonneg, abs_of_nonpos])
  · intro re im hob
    rcases std_reached re im hob with ⟨rfl, rfl⟩ | ⟨rfl, rfl⟩ | ⟨rfl, rfl⟩ | ⟨rfl, rfl⟩ | ⟨rfl, rfl⟩ <;> norm_num [stdCfg]
  · simp [stdCtx]
  · simp [stdCfg]
  · norm_num [stdCfg]
  · unfold Cell.Below; norm_num [stdCtx]
  · norm_num

/-- all hypotheses of `C98_total_partial` are met, in a search that divides two rectangles: it returns, and finds the zero once -/
example : ∃ w', simpleArgument (sumLine stdCfg) Real.pi 3 stdCtx idWorld = (.ok (), w') ∧
    (∃ r ∈ newRoots idWorld w', 1 ≤ r.2 ∧ Near ((10 : ℝ) ^ (-(0 : ℤ)) / 2, (10 : ℝ) ^ (-(0 : ℤ)) / 2) 0 r.1) ∧ ((newRoots idWorld w').map Prod.snd).sum = 1 := by
  obtain ⟨w', a, _, b, _, c⟩ := C98_total_partial stdCfg (fun _ => rfl) (by norm_num [stdCfg]) (by norm_num [stdCfg]) stdCtx (by norm_num [stdCtx])
    (by norm_num [stdCtx]) [0] (fun _ => 1) (fun _ => 0) 0 (1 / 4)
    ⟨fun _ _ => one_pos, fun z _ => by ext <;> simp [stdCtx], fun a b _ _ => by simp⟩ le_rfl (by norm_num)
    std_fine std_far 3 std_safe idWorld rfl rfl
  have hin : Cell.HasHalfOpen ⟨stdCtx.reRan, stdCtx.imRan, 0⟩ (0 : Cx ℝ) := by unfold Cell.HasHalfOpen stdCtx; norm_num
  refine ⟨w', a, b 0 (by simp) hin, ?_⟩
  rw [c]
  unfold Cell.count
  simp [hin]

/-- the hypotheses of `C98_newton_total_partial` are met with a solver that returns 0: the zero is found -/
example : ∃ w', simpleArgumentNewton ⟨fun _ _ _ _ => some 0, fun _ _ _ _ => some 0, fun _ _ _ => none⟩ (sumLine stdCfg) Real.pi 3 stdCtx idWorld = (.ok (), w') ∧
    ∃ r ∈ newRoots idWorld w', 1 ≤ r.2 ∧ Near ((10 : ℝ) ^ (-(0 : ℤ)), (10 : ℝ) ^ (-(0 : ℤ))) 0 r.1 := by
  obtain ⟨w', a, _, b⟩ := C98_newton_total_partial ⟨fun _ _ _ _ => some 0, fun _ _ _ _ => some 0, fun _ _ _ => none⟩ stdCfg (fun _ => rfl) (by norm_num [stdCfg]) (by norm_num [stdCfg])
    stdCtx (by norm_num [stdCtx]) (by norm_num [stdCtx]) [0] (fun _ => 1) (fun _ => 0) 0 (1 / 4)
    ⟨fun _ _ => one_pos, fun z _ => by ext <;> simp [stdCtx], fun a b _ _ => by simp⟩ le_rfl (by norm_num)
    std_fine std_far 3 std_safe idWorld rfl rfl
  refine ⟨w', a, b (fun c _ z hz _ => ⟨0, rfl, ?_⟩) 0 (by simp) (by unfold Cell.HasHalfOpen stdCtx; norm_num)⟩
  rw [List.mem_singleton] at hz
  subst hz
  unfold Near
  norm_num [stdCtx]

/-! ### The same for a finder: eleven rectangles -/

noncomputable def widCfg : SumCfg ℝ := { stdCfg with numPts := 100001, steps := 102000 }

/-- a finder for `f(z) = z` with the simple argument algorithm and the summation estimator -/
noncomputable def widFinder : Finder (SumState ℝ) ℝ where
  f := fun z => z
  df := none
  algorithm := simpleArgument (sumLine widCfg) Real.pi 7
  precision := (3, 3)
  verbose := false
  info := false
  container := .rounding (RContainer.init none (3, 3))
  cache := EstCache.init false
  est := SumState.fresh

/-- eleven rectangles are looked at -/
theorem wid_reached : ∀ re im, Reached (0, 0) [0] ((-9 / 8 : ℝ), (17 / 8 : ℝ)) (-49 / 16, 65 / 16) re im →
    (re = (-9 / 8, 17 / 8) ∧ im = (-49 / 16, 65 / 16)) ∨
    (re = (-9 / 8, 17 / 8) ∧ im = (-49 / 16, 1 / 2)) ∨
    (re = (-9 / 8, 17 / 8) ∧ im = (-49 / 16, -41 / 32)) ∨
    (re = (-9 / 8, 17 / 8) ∧ im = (-41 / 32, 1 / 2)) ∨
    (re = (-9 / 8, 1 / 2) ∧ im = (-41 / 32, 1 / 2)) ∨
    (re = (-9 / 8, 1 / 2) ∧ im = (-41 / 32, -25 / 64)) ∨
    (re = (-9 / 8, 1 / 2) ∧ im = (-25 / 64, 1 / 2)) ∨
    (re = (-9 / 8, -5 / 16) ∧ im = (-25 / 64, 1 / 2)) ∨
    (re = (-5 / 16, 1 / 2) ∧ im = (-25 / 64, 1 / 2)) ∨
    (re = (1 / 2, 17 / 8) ∧ im = (-41 / 32, 1 / 2)) ∨
    (re = (-9 / 8, 17 / 8) ∧ im = (1 / 2, 65 / 16)) := by
  intro re im h
  have c1 : ∀ c : Cell ℝ, 1 ≤ Cell.count c [0] → Cell.HasHalfOpen c 0 := by
    intro c hc
    by_contra hno
    unfold Cell.count at hc
    simp [hno] at hc
  induction h with
  | whole => exact .inl ⟨rfl, rfl⟩
  | left _ hs hc hl ih =>
    have hc := c1 _ hc
    unfold Cell.HasHalfOpen at hc
    unfold Cell.Small at hs
    rcases ih with ⟨rfl, rfl⟩ | ⟨rfl, rfl⟩ | ⟨rfl, rfl⟩ | ⟨rfl, rfl⟩ | ⟨rfl, rfl⟩ | ⟨rfl, rfl⟩ | ⟨rfl, rfl⟩ | ⟨rfl, rfl⟩ | ⟨rfl, rfl⟩ | ⟨rfl, rfl⟩ | ⟨rfl, rfl⟩ <;> (revert hs hc hl; norm_num)
  | right _ hs hc hl ih =>
    have hc := c1 _ hc
    unfold Cell.HasHalfOpen at hc
    unfold Cell.Small at hs
    rcases ih with ⟨rfl, rfl⟩ | ⟨rfl, rfl⟩ | ⟨rfl, rfl⟩ | ⟨rfl, rfl⟩ | ⟨rfl, rfl⟩ | ⟨rfl, rfl⟩ | ⟨rfl, rfl⟩ | ⟨rfl, rfl⟩ | ⟨rfl, rfl⟩ | ⟨rfl, rfl⟩ | ⟨rfl, rfl⟩ <;> (revert hs hc hl; norm_num)
  | lower _ hs hc hl ih =>
    have hc := c1 _ hc
    unfold Cell.HasHalfOpen at hc
    unfold Cell.Small at hs
    rcases ih with ⟨rfl, rfl⟩ | ⟨rfl, rfl⟩ | ⟨rfl, rfl⟩ | ⟨rfl, rfl⟩ | ⟨rfl, rfl⟩ | ⟨rfl, rfl⟩ | ⟨rfl, rfl⟩ | ⟨rfl, rfl⟩ | ⟨rfl, rfl⟩ | ⟨rfl, rfl⟩ | ⟨rfl, rfl⟩ <;> (revert hs hc hl; norm_num)
  | upper _ hs hc hl ih =>
    have hc := c1 _ hc
    unfold Cell.HasHalfOpen at hc
    unfold Cell.Small at hs
    rcases ih with ⟨rfl, rfl⟩ | ⟨rfl, rfl⟩ | ⟨rfl, rfl⟩ | ⟨rfl, rfl⟩ | ⟨rfl, rfl⟩ | ⟨rfl, rfl⟩ | ⟨rfl, rfl⟩ | ⟨rfl, rfl⟩ | ⟨rfl, rfl⟩ | ⟨rfl, rfl⟩ | ⟨rfl, rfl⟩ <;> (revert hs hc hl; norm_num)

theorem wid_dom : (((-9 / 8 : ℝ), (17 / 8 : ℝ)), ((-49 / 16 : ℝ), (65 / 16 : ℝ))) = desymmetrizeDomain ((-1 / 8 : ℝ), (1 / 8 : ℝ)) (-1 / 16, 1 / 16) (-1 + 1, -1 + 1) := by
  unfold desymmetrizeDomain eps10
  norm_num

theorem wid_fine : FineEnough widCfg.numPts (max ((17 / 8 : ℝ) - (-9 / 8)) (65 / 16 - (-49 / 16))) (1 / 4) 0 [(0 : Cx ℝ)].length := by
  have hpi := Real.pi_pos
  unfold FineEnough stepTurn
  simp only [widCfg, stdCfg, List.length_singleton]
  norm_num
  linarith

theorem wid_far : ∀ re im, Reached (0, 0) [0] ((-9 / 8 : ℝ), (17 / 8 : ℝ)) (-49 / 16, 65 / 16) re im → ∀ z, Cell.Boundary ⟨re, im, 0⟩ z → Far (1 / 4) [0] z := by
  intro re im hob z hz c hc
  rw [List.mem_singleton] at hc
  subst hc
  obtain ⟨⟨h1, h2, h3, h4⟩, h5⟩ := hz
  simp only [Cx.zero_re, Cx.zero_im, sub_zero] at h1 h2 h3 h4 ⊢
  by_contra hlt
  push Not at hlt
  have a1 : |z.re| < 1 / 4 := abs_lt_of_sq_lt_sq (by nlinarith [sq_nonneg z.im]) (by norm_num)
  have a2 : |z.im| < 1 / 4 := abs_lt_of_sq_lt_sq (by nlinarith [sq_nonneg z.re]) (by norm_num)
  rw [abs_lt] at a1 a2
  rcases wid_reached re im hob with ⟨rfl, rfl⟩ | ⟨rfl, rfl⟩ | ⟨rfl, rfl⟩ | ⟨rfl, rfl⟩ | ⟨rfl, rfl⟩ | ⟨rfl, rfl⟩ | ⟨rfl, rfl⟩ | ⟨rfl, rfl⟩ | ⟨rfl, rfl⟩ | ⟨rfl, rfl⟩ | ⟨rfl, rfl⟩ <;>
    (refine h5 ⟨?_, ?_, ?_, ?_⟩ <;> dsimp only at * <;> linarith)

theorem wid_safe : Safe widCfg ⟨fun z => z, none, (0, 0), (-9 / 8, 17 / 8), (-49 / 16, 65 / 16), false⟩ [0]
    (max ((17 / 8 : ℝ) - (-9 / 8)) (65 / 16 - (-49 / 16))) (1 / 4) 0 7 := by
  have hpi := Real.pi_le_four
  have hmax : max ((17 / 8 : ℝ) - (-9 / 8)) (65 / 16 - (-49 / 16)) = 57 / 8 := by
    norm_num
  rw [hmax]
  refine ⟨?_, ?_, ⟨[0], ?_, ?_, ?_⟩, 2, 3, ?_, ?_⟩
  · intro re im hob e he
    have hst : 2 * stepTurn widCfg.numPts (57 / 8) (1 / 4) 0 [(0 : Cx ℝ)].length < (1 / 4) / (5 * 5) := by
      unfold stepTurn
      simp only [widCfg, stdCfg, List.length_singleton]
      norm_num
      linarith
    refine lt_of_lt_of_le hst ?_
    have := wid_reached re im hob
    unfold edges at he
    simp only [List.mem_cons, List.not_mem_nil, or_false] at he
    rcases this with ⟨rfl, rfl⟩ | ⟨rfl, rfl⟩ | ⟨rfl, rfl⟩ | ⟨rfl, rfl⟩ | ⟨rfl, rfl⟩ | ⟨rfl, rfl⟩ | ⟨rfl, rfl⟩ | ⟨rfl, rfl⟩ | ⟨rfl, rfl⟩ | ⟨rfl, rfl⟩ | ⟨rfl, rfl⟩ <;>
      rcases he with rfl | rfl | rfl | rfl <;>
      exact arg_ge_cross (by norm_num) (by norm_num) (by norm_num) (by norm_num) (by norm_num) (by norm_num [abs_of_nonneg, abs_of_nonpos])
  · intro re im hob
    rcases wid_reached re im hob with ⟨rfl, rfl⟩ | ⟨rfl, rfl⟩ | ⟨rfl, rfl⟩ | ⟨rfl, rfl⟩ | ⟨rfl, rfl⟩ | ⟨rfl, rfl⟩ | ⟨rfl, rfl⟩ | ⟨rfl, rfl⟩ | ⟨rfl, rfl⟩ | ⟨rfl, rfl⟩ | ⟨rfl, rfl⟩ <;> norm_num [widCfg, stdCfg]
  · simp
  · simp [widCfg, stdCfg]
  · norm_num [widCfg, stdCfg]
  · unfold Cell.Below; norm_num
  · norm_num

/-- all hypotheses of `C98_finder_total_partial` are met: `calculateRoots((-1/8, 1/8), (-1/16, 1/16), (-1, -1))` returns without a warning and
the container holds a zero near 0 -/
example : let s := widFinder.calculateRoots (-1 / 8, 1 / 8) (-1 / 16, 1 / 16) (some (-1, -1)) none
    s.outcome = .ok () ∧ s.warned = false ∧ ∃ r ∈ held s.finder.container, 1 ≤ r.2 ∧ Near ((10 : ℝ) ^ (-((-1 : ℤ) + 1)), (10 : ℝ) ^ (-((-1 : ℤ) + 1))) 0 r.1 := by
  have h := C98_finder_total_partial widFinder widCfg (fun _ => rfl) (by norm_num [widCfg, stdCfg]) (by norm_num [widCfg, stdCfg]) 7 rfl rfl rfl
    (-1 / 8, 1 / 8) (-1 / 16, 1 / 16) (some (-1, -1)) (-1, -1) (.inl rfl) _ wid_dom [0] (fun _ => 1) (fun _ => 0) 0 (1 / 4)
    ⟨fun _ _ => one_pos, fun z _ => by ext <;> simp [widFinder], fun a b _ _ => by simp⟩ le_rfl (by norm_num) wid_fine wid_far wid_safe
  exact ⟨h.1, h.2.1, h.2.2.1 0 (by simp) (by unfold Requested; norm_num)⟩

end PyZeal.Props
