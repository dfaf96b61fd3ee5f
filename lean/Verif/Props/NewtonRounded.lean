import Verif.Proof.NewtonRounded
import Verif.Props.ScipyNewton

/-! # Properties C150-C152: scipy's Newton solver with computed operations -/

set_option linter.unusedSectionVars false

namespace PyZeal.Props
open Spec

/-- with exact operations the solver is the one of C133 -/
theorem C150_exact_newton {K : Type} [Field K] [LinearOrder K] [IsStrictOrderedRing K] (abs : Cx K → K) (f df : Cx K → Cx K) (tol : K) (n : ℕ) (p0 : Cx K) :
    scipyNewtonC (SolverOps.exact abs) f df tol n p0 = scipyNewton abs f df tol n p0 := by
  induction n generalizing p0 with
  | zero => rfl
  | succ n ih =>
    unfold scipyNewtonC scipyNewton
    dsimp only
    rw [ih]
    rfl

theorem exact_loop {K : Type} [Field K] [LinearOrder K] [IsStrictOrderedRing K] (abs : Cx K → K) (f : Cx K → Cx K) (tol : K) (n : ℕ) (p0 q0 p1 q1 : Cx K) :
    secantLoopC (SolverOps.exact abs) f tol n p0 q0 p1 q1 = secantLoop abs f tol n p0 q0 p1 q1 := by
  induction n generalizing p0 q0 p1 q1 with
  | zero => rfl
  | succ n ih =>
    unfold secantLoopC secantLoop
    dsimp only
    rw [ih]
    rfl

/-- C150: with exact operations the computed secant method is the exact one -/
theorem C150_exact_secant {K : Type} [Field K] [LinearOrder K] [IsStrictOrderedRing K] (abs : Cx K → K) (f : Cx K → Cx K) (tol : K) (n : ℕ) (x0 x1 : Cx K) :
    scipySecantC (SolverOps.exact abs) f n x0 x1 tol = scipySecant abs f n x0 x1 tol := by
  unfold scipySecantC scipySecant
  rw [exact_loop, exact_loop]
  rfl

/-- 49 steps are enough, with factors 3/7 and 5/12 -/
theorem rounded_fifty {r tol : ℝ} (hr : r ≤ 10 ^ 17 * tol) (htol : 0 < tol) : r ≤ (7 / 3 : ℝ) ^ 49 * (tol / 2) ∧ r ≤ (12 / 5 : ℝ) ^ 49 * (tol / 3) := by
  have h1 : (10 : ℝ) ^ 17 ≤ (7 / 3 : ℝ) ^ 49 * (1 / 2) := by norm_num
  have h2 : (10 : ℝ) ^ 17 ≤ (12 / 5 : ℝ) ^ 49 * (1 / 3) := by norm_num
  have h3 := mul_le_mul_of_nonneg_right h1 htol.le
  have h4 := mul_le_mul_of_nonneg_right h2 htol.le
  constructor <;> linarith

/-- C150, Newton's method. A disc around a zero on which the derivative is steady and on which the computed operations are accurate: from every start point in the disc Newton's
method converges in at most 50 computed steps, to a point closer than `tol` to the zero (the disc may be `10^17` times as large as `tol`). -/
theorem C150_newton (O : SolverOps ℝ) (arr) (f df : Cx ℝ → Cx ℝ) (c : Cx ℝ) (r tol κ : ℝ) (h : Steady f df c r) (hA : SolverAccurate O f df c r tol κ)
    (htol : 0 < tol) (hr : r ≤ 10 ^ 17 * tol) (x0 : Cx ℝ) (h0 : ‖point x0 - point c‖ ≤ r) :
    ∃ z, (roundedSolver O arr).newton f df x0 tol = some z ∧ ‖point z - point c‖ ≤ 9 / 10 * tol := by
  have hO := computesNear_of h htol hA
  have hδ0 : 0 ≤ tol / (40 * κ) := (norm_nonneg _).trans (hO.quot x0 h0)
  have h0' : ‖toC x0 - toC c‖ ≤ r := h0
  have hδ : tol / (40 * κ) ≤ tol / 100 := div_le_div_of_nonneg_left htol.le (by norm_num) (by linarith [hA.large])
  exact scipyNewtonC_converges h hO htol hA.inside hδ 49 x0 h0 (by linarith [(rounded_fifty hr htol).1])

/-- C150, secant method. In such a disc, with two start points whose distance from each other is at least half of `tol` and not much smaller than their distances from the zero (by the factor `κ`):
the secant method converges in at most 50 computed steps, to a point closer than `tol` to the zero. -/
theorem C150_secant (O : SolverOps ℝ) (arr) (f df : Cx ℝ → Cx ℝ) (c : Cx ℝ) (r tol κ : ℝ) (h : Steady f df c r) (hA : SolverAccurate O f df c r tol κ)
    (htol : 0 < tol) (hr : r ≤ 10 ^ 17 * tol) (x0 x1 : Cx ℝ) (h0 : ‖point x0 - point c‖ ≤ r) (h1 : ‖point x1 - point c‖ ≤ r)
    (hk : ‖point x0 - point c‖ + ‖point x1 - point c‖ ≤ κ * ‖point x1 - point x0‖) (hw : tol / 2 ≤ ‖point x1 - point x0‖) :
    ∃ z, (roundedSolver O arr).secant f x0 x1 tol = some z ∧ ‖point z - point c‖ ≤ 24 / 25 * tol := by
  have hO := computesNear_of h htol hA
  have hS := secantNear_of h htol hA
  have hκ := hA.large
  have hδ : 2 * (tol / (40 * κ)) * κ ≤ tol / 20 := by
    have : 2 * (tol / (40 * κ)) * κ = tol / 20 := by
      field_simp
      norm_num
    exact this.le
  have hδ0 : 0 ≤ tol / (40 * κ) := by positivity
  have e0 : ‖toC x0 - toC c‖ ≤ r := h0
  have e1 : ‖toC x1 - toC c‖ ≤ r := h1
  have h2 := (rounded_fifty hr htol).2
  show ∃ z, scipySecantC O f 50 x0 x1 tol = some z ∧ _
  unfold scipySecantC
  split
  · exact secantLoopC_converges h hO hS htol hA.inside hκ hδ 49 x1 x0 h1 h0 (by rw [add_comm, norm_sub_rev (toC x0) (toC x1)]; exact hk) (by rw [norm_sub_rev]; exact hw) (by linarith)
  · exact secantLoopC_converges h hO hS htol hA.inside hκ hδ 49 x0 x1 h0 h1 hk hw (by linarith)

/-! ## The Newton variant -/

/-- rectangles which a search comes to are not much narrower than the tolerance -/
theorem reached_width {p : ℤ × ℤ} {zeros : List (Cx ℝ)} {reRan imRan re im : ℝ × ℝ} (h0 : (10 : ℝ) ^ (-p.1) / 2 ≤ reRan.2 - reRan.1)
    (h : Reached p zeros reRan imRan re im) : (10 : ℝ) ^ (-p.1) / 2 ≤ re.2 - re.1 := by
  have e1 : (0 : ℝ) < 10 ^ (-p.1) := zpow_pos (by norm_num) _
  have e2 : (0 : ℝ) < 10 ^ (-p.2) := zpow_pos (by norm_num) _
  have key : ∀ re im : ℝ × ℝ, ¬ Cell.Small p ⟨re, im, 0⟩ → (im.2 - im.1) / 10 ^ (-p.2) < (re.2 - re.1) / 10 ^ (-p.1) → (10 : ℝ) ^ (-p.1) ≤ re.2 - re.1 := by
    intro re im hs hw
    by_contra hc
    have hc := not_le.1 hc
    refine hs ⟨hc, ?_⟩
    have a : (re.2 - re.1) / 10 ^ (-p.1) < 1 := (div_lt_one e1).2 hc
    exact (div_lt_one e2).1 (hw.trans a)
  induction h with
  | whole => exact h0
  | left _ hs _ hw _ | right _ hs _ hw _ =>
    have := key _ _ hs hw
    dsimp only
    linarith
  | lower _ _ _ _ ih | upper _ _ _ _ ih => exact ih

/-- the calls of the Newton variant on a rectangle which contains the zero -/
theorem rounded_cell_solves (O : SolverOps ℝ) (arr) (f df : Cx ℝ → Cx ℝ) (p : ℤ × ℤ) (h1 : p.1 ≤ 17) (h2 : p.2 ≤ 17)
    (c : Cell ℝ) (s1 : c.re.2 - c.re.1 < 1 / 10) (s2 : c.im.2 - c.im.1 < 1 / 10) (z : Cx ℝ) (hz : Cell.HasHalfOpen c z) (hwide : (10 : ℝ) ^ (-p.1) / 2 ≤ c.re.2 - c.re.1) (κ : ℝ)
    (hκ : (c.re.2 - c.re.1) + (c.im.2 - c.im.1) ≤ κ * (c.re.2 - c.re.1)) (h : Steady f df z ((c.re.2 - c.re.1) + (c.im.2 - c.im.1) + min ((10 : ℝ) ^ (-p.1)) (10 ^ (-p.2))))
    (hA : SolverAccurate O f df z ((c.re.2 - c.re.1) + (c.im.2 - c.im.1) + min ((10 : ℝ) ^ (-p.1)) (10 ^ (-p.2))) (min ((10 : ℝ) ^ (-p.1)) (10 ^ (-p.2))) κ) :
    (∃ z', (roundedSolver O arr).secant f ⟨c.re.1, (Cell.centre c).im⟩ ⟨c.re.2, (Cell.centre c).im⟩ (min ((10 : ℝ) ^ (-p.1)) (10 ^ (-p.2))) = some z' ∧
      Near ((10 : ℝ) ^ (-p.1), (10 : ℝ) ^ (-p.2)) z z') ∧
    ∃ z', (roundedSolver O arr).newton f df (Cell.centre c) (min ((10 : ℝ) ^ (-p.1)) (10 ^ (-p.2))) = some z' ∧ Near ((10 : ℝ) ^ (-p.1), (10 : ℝ) ^ (-p.2)) z z' := by
  obtain ⟨z1, z2, z3, z4⟩ := hz
  have hp : ∀ q : ℤ, q ≤ 17 → (1 : ℝ) ≤ 10 ^ 17 * 10 ^ (-q) := by
    intro q hq
    have e : ((10 : ℝ) ^ 17 : ℝ) = (10 : ℝ) ^ (17 : ℤ) := by norm_cast
    rw [e, ← zpow_add₀ (by norm_num)]
    exact one_le_zpow₀ (by norm_num) (by omega)
  have t1 : 0 < min ((10 : ℝ) ^ (-p.1)) (10 ^ (-p.2)) := lt_min (zpow_pos (by norm_num) _) (zpow_pos (by norm_num) _)
  have t2 : 1 ≤ 10 ^ 17 * min ((10 : ℝ) ^ (-p.1)) (10 ^ (-p.2)) := by
    rcases min_choice ((10 : ℝ) ^ (-p.1)) (10 ^ (-p.2)) with h | h <;> rw [h]
    · exact hp _ h1
    · exact hp _ h2
  have m1 := min_le_left ((10 : ℝ) ^ (-p.1)) (10 ^ (-p.2))
  have m2 := min_le_right ((10 : ℝ) ^ (-p.1)) (10 ^ (-p.2))
  generalize min ((10 : ℝ) ^ (-p.1)) (10 ^ (-p.2)) = tol at *
  have hn : ∀ z', ‖point z' - point z‖ ≤ 24 / 25 * tol → Near ((10 : ℝ) ^ (-p.1), (10 : ℝ) ^ (-p.2)) z z' := fun z' hz' =>
    near_of_dist hz' (by dsimp only; linarith) (by dsimp only; linarith)
  constructor
  · have d0 : ‖point (⟨c.re.1, (Cell.centre c).im⟩ : Cx ℝ) - point z‖ ≤ (z.re - c.re.1) + (c.im.2 - c.im.1) / 2 :=
      dist_of_coords (by dsimp only; rw [abs_le]; constructor <;> linarith) (by unfold Cell.centre; dsimp only; rw [abs_le]; constructor <;> linarith)
    have d1 : ‖point (⟨c.re.2, (Cell.centre c).im⟩ : Cx ℝ) - point z‖ ≤ (c.re.2 - z.re) + (c.im.2 - c.im.1) / 2 :=
      dist_of_coords (by dsimp only; rw [abs_le]; constructor <;> linarith) (by unfold Cell.centre; dsimp only; rw [abs_le]; constructor <;> linarith)
    have d2 : ‖point (⟨c.re.2, (Cell.centre c).im⟩ : Cx ℝ) - point ⟨c.re.1, (Cell.centre c).im⟩‖ = c.re.2 - c.re.1 := by
      have e : point (⟨c.re.2, (Cell.centre c).im⟩ : Cx ℝ) - point ⟨c.re.1, (Cell.centre c).im⟩ = ((c.re.2 - c.re.1 : ℝ) : ℂ) := by
        apply Complex.ext <;> simp [point]
      rw [e, Complex.norm_real, Real.norm_eq_abs, abs_of_nonneg (by linarith)]
    obtain ⟨z', a1, a2⟩ := C150_secant O arr f df z _ _ κ h hA t1 (by linarith) ⟨c.re.1, (Cell.centre c).im⟩ ⟨c.re.2, (Cell.centre c).im⟩ (by linarith) (by linarith)
      (by rw [d2]; linarith) (by rw [d2]; linarith)
    exact ⟨z', a1, hn z' a2⟩
  · obtain ⟨z', a1, a2⟩ := C150_newton O arr f df z _ _ κ h hA t1 (by linarith) (Cell.centre c)
      ((dist_of_coords (a := c.re.2 - c.re.1) (b := c.im.2 - c.im.1) (by unfold Cell.centre; dsimp only; rw [abs_le]; constructor <;> linarith)
        (by unfold Cell.centre; dsimp only; rw [abs_le]; constructor <;> linarith)).trans (by linarith))
    exact ⟨z', a1, hn z' (by linarith)⟩

/-- C151. Search with the Newton variant, numerical quadrature and scipy's solver with computed operations, for an analytic function with its derivative, under the
hypotheses of C130; moreover near the zeros which the search isolates in rectangles with sides below 0.1 the derivative is steady and the solver is accurate; and the search rectangle is not narrower than
half of `10^-p`. The search returns; every zero in the rectangle has a candidate of positive order closer
than `10^-p` in each coordinate; every candidate has positive order and is that close to a zero in the rectangle. -/
theorem C151_search {σ : Type} (O : SolverOps ℝ) (arr) (cfg : QuadCfg ℝ) (hromb : cfg.romb = romberg) (habs : ∀ z, cfg.abs z = √(z.re ^ 2 + z.im ^ 2))
    (hev : ∀ n, 1 ≤ cfg.evals n) (hsteps : 13 ≤ cfg.steps) (ctx : RCtx ℝ) (df : Cx ℝ → Cx ℝ) (hdf : ctx.df = some df)
    (hre : ctx.reRan.1 < ctx.reRan.2) (him : ctx.imRan.1 < ctx.imRan.2) (hp1 : ctx.precision.1 ≤ 17) (hp2 : ctx.precision.2 ≤ 17)
    (hwide : (10 : ℝ) ^ (-ctx.precision.1) / 2 ≤ ctx.reRan.2 - ctx.reRan.1)
    (zeros : List (Cx ℝ)) (G : ℂ → ℂ) (B V : ℝ) (hf : AnalyticWith ctx.f df (Cell.Has ⟨ctx.reRan, ctx.imRan, 0⟩) zeros G B V)
    (hres : Resolved ctx.precision zeros B V ctx.reRan ctx.imRan) (ht : TameComputed O ctx.f df ctx.precision zeros ctx.reRan ctx.imRan)
    (limit m n : ℕ) (hb : Cell.Below ctx.precision m n ⟨ctx.reRan, ctx.imRan, 0⟩) (hl : m + n < limit) (w : World σ ℝ) (hfuse : w.fuse = none) :
    ∃ w', simpleArgumentNewton (roundedSolver O arr) (quadLine cfg) Real.pi limit ctx w = (.ok (), w') ∧ w'.fuse = none ∧
    (∀ z ∈ zeros, Cell.HasHalfOpen ⟨ctx.reRan, ctx.imRan, 0⟩ z → ∃ r ∈ newRoots w w', 1 ≤ r.2 ∧
      Near ((10 : ℝ) ^ (-ctx.precision.1), (10 : ℝ) ^ (-ctx.precision.2)) z r.1) ∧
    ∀ r ∈ newRoots w w', 1 ≤ r.2 ∧ ∃ z ∈ zeros, Cell.HasHalfOpen ⟨ctx.reRan, ctx.imRan, 0⟩ z ∧
      Near ((10 : ℝ) ^ (-ctx.precision.1), (10 : ℝ) ^ (-ctx.precision.2)) z r.1 := by
  have hpi := Real.pi_pos
  have hg := quad_good (σ := σ) cfg hromb habs hev hsteps df ctx hdf hre him hf (fun _ _ h => h) hres
  obtain ⟨w', h1, h2, hacc, hno⟩ := hg.search (newton_stops (roundedSolver O arr) _ Real.pi ctx) newton_open (quiet_newton _ _ _) (Finishes.newtonAct (roundedSolver O arr) Real.pi ctx)
    (good_newton (roundedSolver O arr) hpi ctx) limit m n hb hl w hfuse
  have h1 : simpleArgumentNewton (roundedSolver O arr) (quadLine cfg) Real.pi limit ctx w = (.ok (), w') := h1
  obtain ⟨a1, a2, a3⟩ := newton_tolerance (roundedSolver O arr) (quadLine cfg) limit ctx (quadLine_hits cfg ctx) hre.le him.le zeros w w' h1 (fun c hc => (hacc c hc).2) hno
  have hone : ∀ c ∈ newCells w w', ∀ z ∈ zeros, Cell.HasHalfOpen c z → Cell.HasHalfOpen ⟨ctx.reRan, ctx.imRan, 0⟩ z := by
    intro c hc z _ hz
    obtain ⟨i1, i2, i3, i4, i5, i6⟩ : Cell.In ⟨c.re, c.im, 0⟩ ⟨ctx.reRan, ctx.imRan, 0⟩ := reached_in hre.le him.le (hacc c hc).1
    dsimp only at i1 i2 i3 i4 i5 i6
    obtain ⟨z1, z2, z3, z4⟩ := hz
    refine ⟨?_, ?_, ?_, ?_⟩ <;> dsimp only <;> linarith
  refine ⟨w', h1, h2, a3 fun c hc ho z hz hcz => ?_, fun r hr => ?_⟩
  · obtain ⟨κ, k1, k2, k3⟩ := ht c.re c.im (hacc c hc).1 (a1 c hc ho) ho.2.2.1 ho.2.2.2 z hz hcz
    exact (rounded_cell_solves O arr ctx.f df ctx.precision hp1 hp2 c ho.2.2.1 ho.2.2.2 z hcz (reached_width hwide (hacc c hc).1) κ k1 k2 k3).1
  · obtain ⟨b1, c, hc, ⟨b2, b3, b4⟩ | ⟨b2, b3, b4⟩⟩ := a2 r hr
    · refine ⟨b1, ?_⟩
      obtain ⟨z, hz⟩ := List.exists_mem_of_length_pos (l := zeros.filter fun z => decide (Cell.HasHalfOpen c z)) (by
        rw [b4] at b1
        exact_mod_cast b1)
      obtain ⟨hz, hcz⟩ := List.mem_filter.1 hz
      have hcz : Cell.HasHalfOpen c z := by simpa using hcz
      refine ⟨z, hz, hone c hc z hz hcz, ?_⟩
      rw [b3]
      exact near_symm (near_centre b2 hcz)
    · refine ⟨b1, ?_⟩
      have hcount := a1 c hc b2
      obtain ⟨z, hz⟩ := List.exists_mem_of_length_pos (l := zeros.filter fun z => decide (Cell.HasHalfOpen c z)) (by
        have : (zeros.filter fun z => decide (Cell.HasHalfOpen c z)).length = 1 := hcount
        omega)
      obtain ⟨hz, hcz⟩ := List.mem_filter.1 hz
      have hcz : Cell.HasHalfOpen c z := by simpa using hcz
      obtain ⟨κ, k1, k2, k3⟩ := ht c.re c.im (hacc c hc).1 hcount b2.2.2.1 b2.2.2.2 z hz hcz
      obtain ⟨⟨z1, y1, y2⟩, z2, y3, y4⟩ := rounded_cell_solves O arr ctx.f df ctx.precision hp1 hp2 c b2.2.2.1 b2.2.2.2 z hcz (reached_width hwide (hacc c hc).1) κ k1 k2 k3
      refine ⟨z, hz, hone c hc z hz hcz, ?_⟩
      rcases b4 with h | ⟨df', hd, h⟩
      · rw [y1] at h
        cases h
        exact y2
      · rw [hdf] at hd
        cases hd
        rw [y3] at h
        cases h
        exact y4

theorem rounded_sound {σ : Type} (O : SolverOps ℝ) (arr) (cfg : QuadCfg ℝ) (hromb : cfg.romb = romberg) (habs : ∀ z, cfg.abs z = √(z.re ^ 2 + z.im ^ 2))
    (hev : ∀ n, 1 ≤ cfg.evals n) (hsteps : 13 ≤ cfg.steps) (ctx : RCtx ℝ) (df : Cx ℝ → Cx ℝ) (hdf : ctx.df = some df)
    (hre : ctx.reRan.1 < ctx.reRan.2) (him : ctx.imRan.1 < ctx.imRan.2) (hp1 : ctx.precision.1 ≤ 17) (hp2 : ctx.precision.2 ≤ 17)
    (hwide : (10 : ℝ) ^ (-ctx.precision.1) / 2 ≤ ctx.reRan.2 - ctx.reRan.1)
    (zeros : List (Cx ℝ)) (G : ℂ → ℂ) (B V : ℝ) (hf : AnalyticWith ctx.f df (Cell.Has ⟨ctx.reRan, ctx.imRan, 0⟩) zeros G B V)
    (hres : Resolved ctx.precision zeros B V ctx.reRan ctx.imRan) (ht : TameComputed O ctx.f df ctx.precision zeros ctx.reRan ctx.imRan)
    (limit m n : ℕ) (hb : Cell.Below ctx.precision m n ⟨ctx.reRan, ctx.imRan, 0⟩) (hl : m + n < limit) :
    SoundAt (simpleArgumentNewton (roundedSolver O arr) (quadLine cfg : LineEst σ ℝ) Real.pi limit) ctx (fun _ => False) zeros
      ((10 : ℝ) ^ (-ctx.precision.1), (10 : ℝ) ^ (-ctx.precision.2)) := by
  intro w w' h
  obtain ⟨w1, h1, _, b1, b2⟩ := C151_search (σ := σ) O arr cfg hromb habs hev hsteps ctx df hdf hre him hp1 hp2 hwide zeros G B V hf hres ht limit m n hb hl
    { w with fuse := none } rfl
  have hi : Interruptible (simpleArgumentNewton (roundedSolver O arr) (quadLine cfg : LineEst σ ℝ) Real.pi limit ctx) :=
    .calcRoots (fun o a b => (Interruptible.closed ctx.f).toBasic.quadLine cfg o a b)
      (fun _ hs => .newtonDecide _ (fun o a b => (Interruptible.closed ctx.f).toBasic.quadLine cfg o a b) Real.pi _ hs) limit
  obtain ⟨hadd, i2⟩ := added_same hi h h1
  have hnew : newRoots w w' = newRoots { w with fuse := none } w1 := by unfold newRoots; rw [hadd]
  refine ⟨by rw [hadd]; exact i2, by rw [hnew]; exact b1, fun r hr => .inr (b2 r (by rw [← hnew]; exact hr))⟩

/-- C151 for finders. A `RootFinder` with the Newton variant, scipy's solver, numerical quadrature and a rounding container without filters, in any state,
under the hypotheses of `C151_search` for the rectangle it searches. The call returns without warning; every zero in the requested rectangle has a reported root of positive order closer than
`1.5 * 10^-(p+1)` in each coordinate, and every root that is new in the container has positive order and is that close to a zero at most `4 * 10^-(p+1)` outside the requested rectangle. -/
theorem C151_finder {σ : Type} (fd : Finder σ ℝ) (O : SolverOps ℝ) (arr) (cfg : QuadCfg ℝ) (hromb : cfg.romb = romberg)
    (habs : ∀ z, cfg.abs z = √(z.re ^ 2 + z.im ^ 2)) (hev : ∀ n, 1 ≤ cfg.evals n) (hsteps : 13 ≤ cfg.steps) (limit : ℕ)
    (halg : fd.algorithm = simpleArgumentNewton (roundedSolver O arr) (quadLine cfg) Real.pi limit)
    (hcont : RoundsFreely fd.container) (df : Cx ℝ → Cx ℝ) (hdf : fd.df = some df) (re im : ℝ × ℝ) (call : Option (ℤ × ℤ)) (p : ℤ × ℤ)
    (hp : Asked call fd.precision p) (hp1 : p.1 ≤ 16) (hp2 : p.2 ≤ 16) (dom : (ℝ × ℝ) × (ℝ × ℝ)) (hdom : dom = desymmetrizeDomain re im (p.1 + 1, p.2 + 1))
    (zeros : List (Cx ℝ)) (G : ℂ → ℂ) (B V : ℝ) (hf : AnalyticWith fd.f df (Cell.Has ⟨dom.1, dom.2, 0⟩) zeros G B V)
    (hres : Resolved (p.1 + 1, p.2 + 1) zeros B V dom.1 dom.2) (ht : TameComputed O fd.f df (p.1 + 1, p.2 + 1) zeros dom.1 dom.2)
    (m n : ℕ) (hb : Cell.Below (p.1 + 1, p.2 + 1) m n ⟨dom.1, dom.2, 0⟩) (hl : m + n < limit) :
    let s := fd.calculateRoots re im call none
    s.outcome = .ok () ∧ s.warned = false ∧
    (∀ z ∈ zeros, Requested re im z → ∃ r ∈ held s.finder.container, 1 ≤ r.2 ∧
      Near (3 / 2 * 10 ^ (-(p.1 + 1)), 3 / 2 * 10 ^ (-(p.2 + 1))) z r.1) ∧
    ∀ r ∈ held s.finder.container, r ∈ held fd.container ∨
      (1 ≤ r.2 ∧ ∃ z ∈ zeros, Cell.Has (Enlarged (4 * 10 ^ (-(p.1 + 1)), 4 * 10 ^ (-(p.2 + 1))) re im) z ∧
        Near (3 / 2 * 10 ^ (-(p.1 + 1)), 3 / 2 * 10 ^ (-(p.2 + 1))) z r.1) := by
  intro s
  obtain ⟨d1, d2, d3, d4⟩ := C46_domain re im (p.1 + 1, p.2 + 1)
  rw [← hdom] at d1 d2 d3 d4
  have hd3 : (10 : ℝ) ^ (-(p.1 + 1)) / 2 ≤ dom.1.2 - dom.1.1 := by
    have e : (0 : ℝ) < 10 ^ (-(p.1 + 1)) := zpow_pos (by norm_num) _
    have h := congrArg (fun c : Cell ℝ => c.re.2 - c.re.1) (searched_eq re im (p.1 + 1, p.2 + 1))
    dsimp only [Searched] at h
    rw [hdom, h]
    linarith [min_le_max (a := re.1) (b := re.2)]
  have hprec : (fd.ctx re im call).precision = (p.1 + 1, p.2 + 1) := searchPrecision_asked hp
  have hd1 : (fd.ctx re im call).reRan = dom.1 := by
    rw [hdom, ← searchPrecision_asked hp]; rfl
  have hd2 : (fd.ctx re im call).imRan = dom.2 := by
    rw [hdom, ← searchPrecision_asked hp]; rfl
  have hwide : (10 : ℝ) ^ (-(fd.ctx re im call).precision.1) / 2 ≤ (fd.ctx re im call).reRan.2 - (fd.ctx re im call).reRan.1 := by rw [hprec, hd1]; exact hd3
  obtain ⟨w', a1, _⟩ := C151_search O arr cfg hromb habs hev hsteps (fd.ctx re im call) df hdf (by rw [hd1]; exact d1) (by rw [hd2]; exact d2)
    (by rw [hprec]; dsimp only; omega) (by rw [hprec]; dsimp only; omega) hwide
    zeros G B V (by rw [hd1, hd2]; exact hf) (by rw [hd1, hd2, hprec]; exact hres) (by rw [hd1, hd2, hprec]; exact ht) limit m n (by rw [hd1, hd2, hprec]; exact hb) hl (fd.start none) rfl
  have hrun : (fd.algorithm (fd.ctx re im call) (fd.start none)).1 = .ok () := by rw [halg, a1]
  obtain ⟨e1, e2⟩ := calculateRoots_outcome fd re im call none
  rw [hrun] at e1 e2
  have hok : s.outcome = .ok () := e1.trans (if_neg (by simp))
  have hwarn : s.warned = false := e2.trans (by simp)
  have hs := rounded_sound (σ := σ) O arr cfg hromb habs hev hsteps (fd.ctx re im call) df hdf (by rw [hd1]; exact d1) (by rw [hd2]; exact d2)
    (by rw [hprec]; dsimp only; omega) (by rw [hprec]; dsimp only; omega) hwide
    zeros G B V (by rw [hd1, hd2]; exact hf) (by rw [hd1, hd2, hprec]; exact hres) (by rw [hd1, hd2, hprec]; exact ht) limit m n (by rw [hd1, hd2, hprec]; exact hb) hl
  rw [hprec] at hs
  obtain ⟨b1, b2⟩ := serial_sound fd hcont re im call p hp none (fun _ => False) zeros _ (halg ▸ hs) hok hwarn
  have e10 : ∀ x : ℝ, x + x / 2 = 3 / 2 * x := fun x => by ring
  simp only [e10] at b1 b2
  refine ⟨hok, hwarn, b1, fun r hr => ?_⟩
  rcases b2 r hr with h | ⟨_, z, h, _⟩ | h
  · exact .inl h
  · exact h.elim
  · exact .inr h


/-- C151 for parallel finders: the same with any number of processes and any schedule without interrupt, if the hypotheses hold for the rectangle of each job; the distance
is below `0.6 * 10^-p`. -/
theorem C151_parallel {σ : Type} (fd : Finder σ ℝ) (O : SolverOps ℝ) (arr) (cfg : QuadCfg ℝ) (hromb : cfg.romb = romberg)
    (habs : ∀ z, cfg.abs z = √(z.re ^ 2 + z.im ^ 2)) (hev : ∀ n, 1 ≤ cfg.evals n) (hsteps : 13 ≤ cfg.steps) (limit : ℕ)
    (halg : fd.algorithm = simpleArgumentNewton (roundedSolver O arr) (quadLine cfg) Real.pi limit)
    (hcont : RoundsFreely fd.container) (df : Cx ℝ → Cx ℝ) (hdf : fd.df = some df) (cpus : ℕ) (hcpus : 1 ≤ cpus) (re im : ℝ × ℝ)
    (call : Option (ℤ × ℤ)) (p : ℤ × ℤ) (hp : Asked call fd.precision p) (hp1 : p.1 ≤ 16) (hp2 : p.2 ≤ 16) (sched : Schedule) (hsched : sched.interrupted = false)
    (dom : (ℝ × ℝ) × (ℝ × ℝ)) (hdom : dom = desymmetrizeDomain re im (p.1 + 1, p.2 + 1))
    (zeros : List (Cx ℝ)) (G : ℂ → ℂ) (B V : ℝ) (hf : AnalyticWith fd.f df (Cell.Has ⟨dom.1, dom.2, 0⟩) zeros G B V)
    (hres : ∀ job ∈ createRootJobs fd.f fd.df cpus dom.1 dom.2 (p.1 + 1, p.2 + 1) fd.verbose,
      Resolved (p.1 + 1, p.2 + 1) zeros B V job.reRan job.imRan ∧ TameComputed O fd.f df (p.1 + 1, p.2 + 1) zeros job.reRan job.imRan ∧ (10 : ℝ) ^ (-(p.1 + 1)) / 2 ≤ job.reRan.2 - job.reRan.1)
    (m n : ℕ) (hb : Cell.Below (p.1 + 1, p.2 + 1) m n ⟨dom.1, dom.2, 0⟩) (hl : m + n < limit) :
    let s := fd.calculateRootsParallel cpus re im call sched
    s.outcome = .ok () ∧ s.warned = false ∧
    (∀ z ∈ zeros, Requested re im z → ∃ r ∈ held s.finder.container, 1 ≤ r.2 ∧
      Near (6 / 10 * 10 ^ (-p.1), 6 / 10 * 10 ^ (-p.2)) z r.1) ∧
    ∀ r ∈ held s.finder.container, r ∈ held fd.container ∨
      (1 ≤ r.2 ∧ ∃ z ∈ zeros, Cell.Has (Enlarged (4 * 10 ^ (-(p.1 + 1)), 4 * 10 ^ (-(p.2 + 1))) re im) z ∧
        Near (6 / 10 * 10 ^ (-p.1), 6 / 10 * 10 ^ (-p.2)) z r.1) := by
  intro s
  obtain ⟨d1, d2, _, _⟩ := C46_domain re im (p.1 + 1, p.2 + 1)
  rw [← hdom] at d1 d2
  have hjob := fun job hj => job_facts fd df hdf cpus hcpus dom d1 d2 _ zeros G B V hf m n hb job hj
  have hjf : ∀ job ∈ createRootJobs fd.f fd.df cpus dom.1 dom.2 (p.1 + 1, p.2 + 1) fd.verbose, job.f = fd.f := fun job hj =>
    ((C47_jobs fd.f fd.df cpus hcpus dom.1 dom.2 d1.le d2.le _ _).2.2.2.2.2 job hj).1
  have hout := parallel_returns fd cpus hcpus re im call p hp sched hsched dom hdom fun job hj w hw => by
    obtain ⟨h2, h3, h4, h5, _, h6, h7⟩ := hjob job hj
    obtain ⟨w', a1, a2, _⟩ := C151_search O arr cfg hromb habs hev hsteps job df h2 h4 h5 (by rw [h3]; dsimp only; omega) (by rw [h3]; dsimp only; omega) (by rw [h3]; exact (hres job hj).2.2)
      zeros G B V h7 (h3 ▸ (hres job hj).1) (by rw [h3, hjf job hj]; exact (hres job hj).2.1) limit m n h6 hl w hw
    exact ⟨w', by rw [halg]; exact a1, a2⟩
  have e10 : ∀ q : ℤ, (10 : ℝ) ^ (-(q + 1)) + 10 ^ (-q) / 2 = 6 / 10 * 10 ^ (-q) := by
    intro q
    rw [neg_add, zpow_add₀ (by norm_num)]
    norm_num
    ring
  obtain ⟨b1, b2⟩ := parallel_sound fd hcont cpus hcpus re im call p hp sched hsched (fun _ => False) zeros
    ((10 : ℝ) ^ (-(p.1 + 1)), (10 : ℝ) ^ (-(p.2 + 1))) (by
      rw [← hdom]
      intro job hj
      obtain ⟨h2, h3, h4, h5, _, h6, h7⟩ := hjob job hj
      have := rounded_sound (σ := σ) O arr cfg hromb habs hev hsteps job df h2 h4 h5 (by rw [h3]; dsimp only; omega) (by rw [h3]; dsimp only; omega) (by rw [h3]; exact (hres job hj).2.2)
        zeros G B V h7 (h3 ▸ (hres job hj).1) (by rw [h3, hjf job hj]; exact (hres job hj).2.1) limit m n h6 hl
      rw [h3] at this
      rw [halg]
      exact this) hout.1
  simp only [e10] at b1 b2
  refine ⟨hout.1, hout.2, b1, fun r hr => ?_⟩
  rcases b2 r hr with h | ⟨_, z, h, _⟩ | h
  · exact .inl h
  · exact h.elim
  · exact .inr h

/-! ## The Newton grid -/

theorem exact_arrayLoop {K : Type} [Field K] [LinearOrder K] [IsStrictOrderedRing K] (abs : Cx K → K) (f df : Cx K → Cx K) (tol : K) (n : ℕ) (p : List (Cx K)) (failures nzDer : List Bool) :
    arrayLoopC (SolverOps.exact abs) f df tol n p failures nzDer = arrayLoop abs f df tol n p failures nzDer := by
  induction n generalizing p failures nzDer with
  | zero => rfl
  | succ n ih =>
    unfold arrayLoopC arrayLoop
    dsimp only
    rw [ih]
    rfl

/-- C152: with exact operations the computed array version is the exact one -/
theorem C152_exact {K : Type} [Field K] [LinearOrder K] [IsStrictOrderedRing K] (abs : Cx K → K) (f df : Cx K → Cx K) (tol : K) (n : ℕ) (pts : List (Cx K)) :
    arrayNewtonC (SolverOps.exact abs) f df tol n pts = arrayNewton abs f df tol n pts := by
  unfold arrayNewtonC arrayNewton
  rw [exact_arrayLoop]

/-- C152, array version: all points make the same number of computed Newton steps, each on its own. If one of the start points lies in a disc around a zero on which the derivative is steady and the computed
operations are accurate, the call does not raise, and every start point in such a disc ends closer than `1.48e-8` to the zero of its disc. -/
theorem C152_grid (O : SolverOps ℝ) (arr) (f df : Cx ℝ → Cx ℝ) (pts : List (Cx ℝ)) :
    (∀ out, (roundedSolver O arr).grid f pts (some df) = some out → ∃ k ≤ 50, out = pts.map (newtonStepC O f df)^[k]) ∧
    ∀ (c : Cx ℝ) (r κ : ℝ), Steady f df c r → SolverAccurate O f df c r (148 / 10 ^ 10) κ → r ≤ 10 ^ 9 → ∀ (i : ℕ) (x : Cx ℝ), pts[i]? = some x → ‖point x - point c‖ ≤ r →
      ∃ out y, (roundedSolver O arr).grid f pts (some df) = some out ∧ out[i]? = some y ∧ ‖point y - point c‖ ≤ 9 / 10 * (148 / 10 ^ 10) := by
  constructor
  · intro out h
    obtain ⟨k, hk, hk'⟩ := arrayLoopC_iterates O f df (148 / 10 ^ 10) 50 pts (pts.map fun _ => true) (pts.map fun _ => true)
    refine ⟨k, hk, ?_⟩
    rw [← hk']
    have h : arrayNewtonC O f df (148 / 10 ^ 10) 50 pts = some out := h
    unfold arrayNewtonC at h
    dsimp only at h
    split at h
    · injection h with h; exact h.symm
    · split at h
      · cases h
      · injection h with h; exact h.symm
  · intro c r κ h hA hr i x hi hx
    have htol : (0 : ℝ) < 148 / 10 ^ 10 := by norm_num
    have h49 := (rounded_fifty (r := r) (tol := 148 / 10 ^ 10) (hr.trans (by norm_num)) htol).1
    have hκ := hA.large
    have hδ0 : (0 : ℝ) ≤ 148 / 10 ^ 10 / (40 * κ) := by positivity
    have hx' : ‖toC x - toC c‖ ≤ r := hx
    obtain ⟨out, h1, y, h2, h3⟩ := arrayNewtonC_converges h htol hA 49 pts i x hi hx (by linarith)
    exact ⟨out, y, h1, h2, h3⟩

/-- a zero in the rectangle attracts one of the start points -/
theorem rounded_grid_finds (O : SolverOps ℝ) (arr) (κ : ℝ) (f df : Cx ℝ → Cx ℝ) (cell : Cell ℝ) (n : ℕ) (hn : 2 ≤ n) (pts : List (Cx ℝ))
    (hg : IsGrid cell n pts) (c : Cx ℝ) (hc : Cell.Has cell c) (r : ℝ) (h : Steady f df c r) (hA : SolverAccurate O f df c r (148 / 10 ^ 10) κ) (hr : r ≤ 10 ^ 9)
    (hsp : (cell.re.2 - cell.re.1) / ((n : ℝ) - 1) / 2 + (cell.im.2 - cell.im.1) / ((n : ℝ) - 1) / 2 ≤ r) :
    ∃ out, (roundedSolver O arr).grid f pts (some df) = some out ∧ ∃ y ∈ out, ‖point y - point c‖ ≤ 9 / 10 * (148 / 10 ^ 10) := by
  obtain ⟨c1, c2, c3, c4⟩ := hc
  obtain ⟨i, hi, hi'⟩ := grid_near c1 c2 hn
  obtain ⟨j, hj, hj'⟩ := grid_near c3 c4 hn
  obtain ⟨out, y, h1, h2, h3⟩ := (C152_grid O arr f df pts).2 c r κ h hA hr (i * n + j) _ (hg.2 i j hi hj) ((dist_of_coords hi' hj').trans hsp)
  exact ⟨out, h1, y, List.mem_of_getElem? h2, h3⟩

theorem rounded_grid_near {p : ℤ × ℤ} {y r c : Cx ℝ} (h1 : RoundsTo p y r) (h2 : ‖point y - point c‖ ≤ 9 / 10 * (148 / 10 ^ 10)) :
    Near (14 / 10 ^ 9 + 10 ^ (-p.1) / 2, 14 / 10 ^ 9 + 10 ^ (-p.2) / 2) c r := by
  obtain ⟨n1, n2⟩ := near_of_dist (eps := (14 / 10 ^ 9, 14 / 10 ^ 9)) h2 (by norm_num) (by norm_num)
  obtain ⟨⟨_, _, a1, _⟩, _, _, a2, _⟩ := h1
  rw [abs_lt] at n1 n2
  rw [abs_le] at a1 a2
  dsimp only at n1 n2
  unfold Near
  dsimp only
  rw [abs_lt, abs_lt]
  refine ⟨⟨?_, ?_⟩, ?_, ?_⟩ <;> linarith

/-- C152. A `RootFinder` with the Newton grid algorithm, scipy's solver with computed operations, a derivative, a new rounding container and filters set. An uninterrupted search returns without warning. Every zero in the searched
rectangle with a disc on which the derivative is steady and the solver is accurate, if the disc is at least as large as half the spacing of the grid (sum over both directions), is reported within `1.4e-8` plus rounding, provided the filters let points so close to the zero pass.
And every reported root has order 0 and is the rounding of what at most 50 computed Newton steps, made on its own, turn a point of the searched rectangle into. -/
theorem C152_finder {σ : Type} (fd : Finder σ ℝ) (O : SolverOps ℝ) (arr) (n : ℕ) (hn : 2 ≤ n) (truthy : Bool)
    (hfd : fd.algorithm = newtonGrid (roundedSolver O arr) n truthy) (df : Cx ℝ → Cx ℝ) (hdf : fd.df = some df)
    (hc : RoundsFreely fd.container) (he : IsEmpty fd.container) (calls : List (FilterType × ℤ)) (re im : ℝ × ℝ) (call : Option (ℤ × ℤ)) (p : ℤ × ℤ)
    (hp : Asked call fd.precision p) (cell : Cell ℝ) (hcell : cell = Searched re im (p.1 + 1, p.2 + 1)) :
    ∃ fd', Finder.setRootFilters calls fd = (.ok (), fd') ∧
      let s := fd'.calculateRoots re im call none
      s.outcome = .ok () ∧ s.warned = false ∧
      (∀ c r κ, Steady fd.f df c r → SolverAccurate O fd.f df c r (148 / 10 ^ 10) κ → r ≤ 10 ^ 9 → Cell.Has cell c →
        (cell.re.2 - cell.re.1) / ((n : ℝ) - 1) / 2 + (cell.im.2 - cell.im.1) / ((n : ℝ) - 1) / 2 ≤ r →
        (∀ y, ‖point y - point c‖ ≤ 14 / 10 ^ 9 → Passes calls cell fd.f y) →
        ∃ root ∈ held s.finder.container, root.2 = 0 ∧ Near (14 / 10 ^ 9 + 10 ^ (-(p.1 + 1)) / 2, 14 / 10 ^ 9 + 10 ^ (-(p.2 + 1)) / 2) c root.1) ∧
      ∀ root ∈ held s.finder.container, root.2 = 0 ∧ ∃ x, Cell.Has cell x ∧ ∃ k ≤ 50, RoundsTo (p.1 + 1, p.2 + 1) ((newtonStepC O fd.f df)^[k] x) root.1 ∧
        Passes calls cell fd.f ((newtonStepC O fd.f df)^[k] x) := by
  subst hcell
  obtain ⟨fd', pts, h1, h2, h3⟩ := C117_serial (roundedSolver O arr) n hn truthy fd hfd hc he calls re im call p hp
  refine ⟨fd', h1, ?_⟩
  intro s
  obtain ⟨h4, h5, h6⟩ := h3
  rw [hdf] at h6
  have hle := searched_ordered re im (p.1 + 1, p.2 + 1)
  have hpts : pts = gridPoints _ _ n := IsGrid.unique h2 (isGrid_points _ hle.1 hle.2 hn)
  refine ⟨h4, h5, fun c r κ hs hA hr hin hsp hpass => ?_, fun root hroot => ?_⟩
  · obtain ⟨out, g1, y, g2, g3⟩ := rounded_grid_finds O arr κ fd.f df _ n hn pts h2 c hin r hs hA hr hsp
    obtain ⟨y1, hy1⟩ : ∃ y1, RoundsTo (p.1 + 1, p.2 + 1) y y1 := ⟨_, roundsTo_roundRoot _ (y, 0)⟩
    exact ⟨(y1, 0), (h6 _).2 ⟨rfl, out, g1, y, g2, hy1, hpass y (g3.trans (by norm_num))⟩, rfl, rounded_grid_near hy1 g3⟩
  · obtain ⟨h0, out, g1, y, g2, g3, g4⟩ := (h6 root).1 hroot
    obtain ⟨k, hk, rfl⟩ := (C152_grid O arr fd.f df pts).1 out g1
    obtain ⟨x, hx, rfl⟩ := List.mem_map.1 g2
    refine ⟨h0, x, ?_, k, hk, g3, g4⟩
    rw [hpts] at hx
    have := (C45_grid _ _ hle.1 hle.2 n hn).2.2.1 x hx
    exact this

/-- C152 for parallel finders: the same with any number of processes and any schedule without interrupt, rounded at the requested precision. -/
theorem C152_parallel {σ : Type} (fd : Finder σ ℝ) (O : SolverOps ℝ) (arr) (n : ℕ) (hn : 2 ≤ n) (truthy : Bool)
    (hfd : fd.algorithm = newtonGrid (roundedSolver O arr) n truthy) (df : Cx ℝ → Cx ℝ) (hdf : fd.df = some df)
    (hc : RoundsFreely fd.container) (he : IsEmpty fd.container) (calls : List (FilterType × ℤ)) (cpus : ℕ) (hcpus : 1 ≤ cpus) (re im : ℝ × ℝ) (call : Option (ℤ × ℤ)) (p : ℤ × ℤ)
    (hp : Asked call fd.precision p) (sched : Schedule) (hsched : sched.interrupted = false) (cell : Cell ℝ) (hcell : cell = Searched re im (p.1 + 1, p.2 + 1)) :
    ∃ fd', Finder.setRootFilters calls fd = (.ok (), fd') ∧
      let s := fd'.calculateRootsParallel cpus re im call sched
      s.outcome = .ok () ∧ s.warned = false ∧
      (∀ c r κ, Steady fd.f df c r → SolverAccurate O fd.f df c r (148 / 10 ^ 10) κ → r ≤ 10 ^ 9 → Cell.Has cell c →
        (cell.re.2 - cell.re.1) / ((n : ℝ) - 1) / 2 + (cell.im.2 - cell.im.1) / ((n : ℝ) - 1) / 2 ≤ r →
        (∀ y, ‖point y - point c‖ ≤ 14 / 10 ^ 9 → Passes calls cell fd.f y) →
        ∃ root ∈ held s.finder.container, root.2 = 0 ∧ Near (14 / 10 ^ 9 + 10 ^ (-p.1) / 2, 14 / 10 ^ 9 + 10 ^ (-p.2) / 2) c root.1) ∧
      ∀ root ∈ held s.finder.container, root.2 = 0 ∧ ∃ x, Cell.Has cell x ∧ ∃ k ≤ 50, RoundsTo p ((newtonStepC O fd.f df)^[k] x) root.1 ∧
        Passes calls cell fd.f ((newtonStepC O fd.f df)^[k] x) := by
  subst hcell
  obtain ⟨fd', cells, h1, ⟨_, t2, _, t4⟩, h3⟩ := C117_parallel (roundedSolver O arr) n hn truthy fd hfd hc he calls cpus hcpus re im call p hp sched hsched
  refine ⟨fd', h1, ?_⟩
  intro s
  obtain ⟨h4, h5, h6⟩ := h3
  rw [hdf] at h6
  have hn1 : (0 : ℝ) < (n : ℝ) - 1 := by
    have : (2 : ℝ) ≤ n := by exact_mod_cast hn
    linarith
  refine ⟨h4, h5, fun c r κ hs hA hr hin hsp hpass => ?_, fun root hroot => ?_⟩
  · obtain ⟨l, hl, hlc⟩ := (t2 c).1 hin
    obtain ⟨i1, i2, i3, i4, i5, i6⟩ := t4 l hl
    have w1 : (l.re.2 - l.re.1) / ((n : ℝ) - 1) ≤ _ := div_le_div_of_nonneg_right (sub_le_sub i3 i1) hn1.le
    have w2 : (l.im.2 - l.im.1) / ((n : ℝ) - 1) ≤ _ := div_le_div_of_nonneg_right (sub_le_sub i6 i4) hn1.le
    obtain ⟨out, g1, y, g2, g3⟩ := rounded_grid_finds O arr κ fd.f df l n hn _ (isGrid_points l i2 i5 hn) c hlc r hs hA hr (by linarith)
    obtain ⟨y1, hy1⟩ : ∃ y1, RoundsTo p y y1 := ⟨_, roundsTo_roundRoot _ (y, 0)⟩
    exact ⟨(y1, 0), (h6 _).2 ⟨rfl, l, hl, _, out, isGrid_points l i2 i5 hn, g1, y, g2, hy1, hpass y (g3.trans (by norm_num))⟩, rfl, rounded_grid_near hy1 g3⟩
  · obtain ⟨h0, l, hl, pts, out, g0, g1, y, g2, g3, g4⟩ := (h6 root).1 hroot
    obtain ⟨i1, i2, i3, i4, i5, i6⟩ := t4 l hl
    obtain ⟨k, hk, rfl⟩ := (C152_grid O arr fd.f df pts).1 out g1
    obtain ⟨x, hx, rfl⟩ := List.mem_map.1 g2
    refine ⟨h0, x, ?_, k, hk, g3, g4⟩
    rw [IsGrid.unique g0 (isGrid_points l i2 i5 hn)] at hx
    obtain ⟨x1, x2, x3, x4⟩ := (C45_grid _ _ i2 i5 n hn).2.2.1 x hx
    dsimp only at x1 x2 x3 x4
    refine ⟨?_, ?_, ?_, ?_⟩ <;> linarith

/-! ## Non-vacuity -/

/-- an error of one part in `10^12` -/
noncomputable def grow (z : Cx ℝ) : Cx ℝ := ⟨z.re * (1 + 1 / 10 ^ 12), z.im * (1 + 1 / 10 ^ 12)⟩

/-- operations which all are wrong by one part in `10^12` -/
noncomputable def wobbly : SolverOps ℝ :=
  ⟨fun f z => grow (f z), fun z w => grow (z + w), fun z w => grow (z - w), fun z w => grow (z * w), fun z w => grow (z / w), fun z => absC z * (1 + 1 / 10 ^ 12)⟩

theorem grow_error (z : Cx ℝ) (x : ℂ) (h : point z = x) : ‖point (grow z) - x‖ ≤ 1 / 10 ^ 12 * ‖x‖ := by
  subst h
  have e : point (grow z) - point z = ((1 / 10 ^ 12 : ℝ) : ℂ) * point z := by
    apply Complex.ext
    · show z.re * (1 + 1 / 10 ^ 12) - z.re = _
      rw [Complex.re_ofReal_mul]
      show _ = 1 / 10 ^ 12 * z.re
      ring
    · show z.im * (1 + 1 / 10 ^ 12) - z.im = _
      rw [Complex.im_ofReal_mul]
      show _ = 1 / 10 ^ 12 * z.im
      ring
  rw [e, norm_mul, Complex.norm_real, Real.norm_of_nonneg (by norm_num)]

theorem wobbly_relative : RelativeOps wobbly (1 / 10 ^ 12) := by
  refine ⟨fun z w => grow_error _ _ (toC_add z w), fun z w => grow_error _ _ (toC_sub z w), fun z w => grow_error _ _ (toC_mul z w), fun z w _ => grow_error _ _ (toC_div z w), fun z => ?_⟩
  have h : wobbly.abs z - ‖point z‖ = 1 / 10 ^ 12 * ‖point z‖ := by
    have e : ‖point z‖ = absC z := norm_toC z
    rw [e]
    show absC z * (1 + 1 / 10 ^ 12) - absC z = _
    ring
  rw [h, abs_of_nonneg (mul_nonneg (by norm_num) (norm_nonneg _))]

theorem wobbly_accurate {r κ tol : ℝ} (h0 : 1 / 10 ^ 8 ≤ tol) (h1 : tol ≤ r) (h2 : r ≤ 1 / 40) (h3 : 4 ≤ κ) (h4 : κ ≤ 100) : SolverAccurate wobbly zexp dzexp 0 r tol κ := by
  have h := zexp_steady r h2
  have d0 : ‖point (dzexp 0)‖ = 1 := by
    have : point (dzexp 0) = 1 := by
      show Complex.exp 0 * (0 + 1) = 1
      simp
    rw [this, norm_one]
  have hr : ‖toC 0 - toC 0‖ ≤ r := by rw [sub_self, norm_zero]; linarith
  have hk : 1 / 4000 / 10 ^ 8 ≤ tol / (40 * κ) := by
    rw [le_div_iff₀ (by linarith)]
    linarith
  refine ⟨h3, h1, ⟨fun z hz => ?_, fun z hz => ?_⟩, 1 / 10 ^ 12, by norm_num, wobbly_relative, ?_⟩
  · refine (grow_error _ _ rfl).trans ?_
    have a := h.diff2 hr hz
    rw [h.zero, toC_eq_zero.2 rfl, sub_zero] at a
    have a : ‖point (zexp z)‖ ≤ 7 / 6 * ‖point (dzexp 0)‖ * ‖point z - 0‖ := a
    have hz : ‖point z - 0‖ ≤ r := hz
    rw [d0] at a ⊢
    linarith
  · refine (grow_error _ _ rfl).trans ?_
    have a := h.steady z hz
    have b := norm_add_le (point (dzexp z) - point (dzexp 0)) (point (dzexp 0))
    rw [sub_add_cancel] at b
    rw [d0] at a b ⊢
    linarith
  · have : ‖point (0 : Cx ℝ)‖ = 0 := norm_eq_zero.2 (toC_eq_zero.2 rfl)
    rw [this, zero_add]
    have : κ * (1 / 10 ^ 12 * r) ≤ 100 * (1 / 10 ^ 12 * (1 / 40)) := mul_le_mul h4 (by linarith) (by linarith) (by norm_num)
    linarith

/-- non-vacuity of `C150_newton` -/
example : ∃ z, (roundedSolver wobbly fun _ _ => none).newton zexp dzexp ⟨1 / 50, 0⟩ (1 / 1000) = some z ∧ ‖point z - point 0‖ ≤ 9 / 10 * (1 / 1000) :=
  C150_newton wobbly _ zexp dzexp 0 (1 / 40) (1 / 1000) 4 (zexp_steady _ le_rfl) (wobbly_accurate (by norm_num) (by norm_num) le_rfl le_rfl (by norm_num)) (by norm_num) (by norm_num) _
    ((dist_of_coords (a := 1 / 50) (b := 0) (by show |(1 / 50 : ℝ) - 0| ≤ _; norm_num) (by show |(0 : ℝ) - 0| ≤ _; norm_num)).trans (by norm_num))

/-- non-vacuity of `C150_secant` -/
example : ∃ z, (roundedSolver wobbly fun _ _ => none).secant zexp ⟨-1 / 100, 0⟩ ⟨1 / 50, 0⟩ (1 / 1000) = some z ∧ ‖point z - point 0‖ ≤ 24 / 25 * (1 / 1000) := by
  have d0 : ‖point (⟨-1 / 100, 0⟩ : Cx ℝ) - point 0‖ ≤ 1 / 100 + 0 := dist_of_coords (by show |(-1 / 100 : ℝ) - 0| ≤ _; rw [abs_le]; norm_num) (by show |(0 : ℝ) - 0| ≤ _; norm_num)
  have d1 : ‖point (⟨1 / 50, 0⟩ : Cx ℝ) - point 0‖ ≤ 1 / 50 + 0 := dist_of_coords (by show |(1 / 50 : ℝ) - 0| ≤ _; norm_num) (by show |(0 : ℝ) - 0| ≤ _; norm_num)
  have d2 : ‖point (⟨1 / 50, 0⟩ : Cx ℝ) - point ⟨-1 / 100, 0⟩‖ = 3 / 100 := by
    have e : point (⟨1 / 50, 0⟩ : Cx ℝ) - point ⟨-1 / 100, 0⟩ = ((3 / 100 : ℝ) : ℂ) := by
      apply Complex.ext
      · show (1 / 50 : ℝ) - -1 / 100 = 3 / 100
        norm_num
      · show (0 : ℝ) - 0 = 0
        norm_num
    rw [e, Complex.norm_real, Real.norm_of_nonneg (by norm_num)]
  exact C150_secant wobbly _ zexp dzexp 0 (1 / 40) (1 / 1000) 4 (zexp_steady _ le_rfl) (wobbly_accurate (by norm_num) (by norm_num) le_rfl le_rfl (by norm_num)) (by norm_num) (by norm_num) _ _
    (by linarith) (by linarith) (by rw [d2]; linarith) (by rw [d2]; norm_num)

theorem thirds_computed : TameComputed wobbly zexp dzexp (3, 3) [0] ((-3 / 1000 : ℝ), (6 / 1000 : ℝ)) (-3 / 1000, 6 / 1000) := by
  intro r i h _ _ _ z hz _
  rw [List.mem_singleton] at hz
  subst hz
  have e : min ((10 : ℝ) ^ (-(3 : ℤ))) (10 ^ (-(3 : ℤ))) = 1 / 1000 := by rw [min_self]; norm_num
  dsimp only
  rw [e]
  obtain ⟨h1, h2, h3, h4⟩ := thirds_reached r i h
  have l1 := h1.1
  have l2 := h2.1
  refine ⟨4, ?_, zexp_steady _ ?_, wobbly_accurate (by norm_num) ?_ ?_ le_rfl (by norm_num)⟩ <;> rcases h3 with h3 | h3 <;> linarith

/-- a finder for `z * exp(z)` with the Newton variant and the solver `wobbly` -/
noncomputable def wobblyZexp : Finder Unit ℝ where
  f := zexp
  df := some dzexp
  algorithm := simpleArgumentNewton (roundedSolver wobbly fun _ _ => none) (quadLine rombCfg) Real.pi 9
  precision := (2, 2)
  verbose := false
  info := false
  container := .rounding (RContainer.init none (2, 2))
  cache := EstCache.init false
  est := ()

/-- non-vacuity of `C151_finder` (and `C151_search`): the zero 0 of `z * exp(z)` is reported -/
example : (wobblyZexp.calculateRoots (-2 / 1000, 4 / 1000) (0, 2 / 1000) none none).outcome = .ok () ∧
    ∃ r ∈ held (wobblyZexp.calculateRoots (-2 / 1000, 4 / 1000) (0, 2 / 1000) none none).finder.container, 1 ≤ r.2 ∧
      Near (3 / 2 * (10 : ℝ) ^ (-((2 : ℤ) + 1)), 3 / 2 * (10 : ℝ) ^ (-((2 : ℤ) + 1))) 0 r.1 := by
  obtain ⟨h1, _, h2, _⟩ := C151_finder wobblyZexp wobbly (fun _ _ => none) rombCfg rfl (fun _ => rfl) (fun n => by simp [rombCfg]) le_rfl 9 rfl rfl dzexp rfl
    (-2 / 1000, 4 / 1000) (0, 2 / 1000) none (2, 2) (.inr ⟨rfl, rfl⟩) (by norm_num) (by norm_num) _ thirds_domain.symm [0] (fun z => z) 0 (57 / 8) zexp_analytic_small thirds_resolved thirds_computed 4 4
    (by unfold Cell.Below; norm_num) (by norm_num)
  refine ⟨h1, h2 0 (by simp) ?_⟩
  unfold Requested
  norm_num

/-- non-vacuity of `C151_parallel` (one process) -/
example : (wobblyZexp.calculateRootsParallel 1 (-2 / 1000, 4 / 1000) (0, 2 / 1000) none ⟨[], false, 0⟩).outcome = .ok () := by
  refine (C151_parallel wobblyZexp wobbly (fun _ _ => none) rombCfg rfl (fun _ => rfl) (fun n => by simp [rombCfg]) le_rfl 9 rfl rfl dzexp rfl 1 le_rfl
    (-2 / 1000, 4 / 1000) (0, 2 / 1000) none (2, 2) (.inr ⟨rfl, rfl⟩) (by norm_num) (by norm_num) ⟨[], false, 0⟩ rfl _ thirds_domain.symm [0] (fun z => z) 0 (57 / 8) zexp_analytic_small ?_ 4 4
    (by unfold Cell.Below; norm_num) (by norm_num)).1
  intro job hj
  have : job.reRan = ((-3 / 1000 : ℝ), (6 / 1000 : ℝ)) ∧ job.imRan = ((-3 / 1000 : ℝ), (6 / 1000 : ℝ)) := by
    obtain ⟨i, hi, j, hj', rfl⟩ := mem_jobs.1 hj
    obtain rfl : i = 0 := by omega
    obtain rfl : j = 0 := by omega
    constructor <;> simp only [jobAt, node] <;> norm_num
  rw [this.1, this.2]
  refine ⟨thirds_resolved, thirds_computed, ?_⟩
  norm_num

/-- a finder for `z * exp(z)` with the Newton grid algorithm and the solver `wobbly` -/
noncomputable def wobblyGrid : Finder Unit ℝ where
  f := zexp
  df := some dzexp
  algorithm := newtonGrid (roundedSolver wobbly fun _ _ => none) 3 false
  precision := (2, 2)
  verbose := false
  info := false
  container := .rounding (RContainer.init none (2, 2))
  cache := EstCache.init false
  est := ()

/-- non-vacuity of `C152_finder`: with a grid of nine points the zero 0 is reported, also with a filter -/
example : ∃ fd', Finder.setRootFilters [(.zeroInBounds, 3)] wobblyGrid = (.ok (), fd') ∧
    ∃ r ∈ held (fd'.calculateRoots (-2 / 1000, 4 / 1000) (0, 2 / 1000) none none).finder.container, r.2 = 0 ∧
      Near (14 / 10 ^ 9 + (10 : ℝ) ^ (-((2 : ℤ) + 1)) / 2, 14 / 10 ^ 9 + (10 : ℝ) ^ (-((2 : ℤ) + 1)) / 2) 0 r.1 := by
  obtain ⟨fd', h1, _, _, h2, _⟩ := C152_finder wobblyGrid wobbly (fun _ _ => none) 3 (by norm_num) false rfl dzexp rfl rfl rfl [(.zeroInBounds, 3)]
    (-2 / 1000, 4 / 1000) (0, 2 / 1000) none (2, 2) (.inr ⟨rfl, rfl⟩) _ rfl
  have hcell : Searched ((-2 / 1000 : ℝ), (4 / 1000 : ℝ)) (0, 2 / 1000) (2 + 1, 2 + 1) = ⟨(-3 / 1000, 6 / 1000), (-3 / 1000, 6 / 1000), 0⟩ := by
    rw [← searched_eq, show ((2 + 1, 2 + 1) : ℤ × ℤ) = (3, 3) from rfl, thirds_domain]
  refine ⟨fd', h1, h2 0 (1 / 40) 4 (zexp_steady _ le_rfl) (wobbly_accurate (by norm_num) (by norm_num) le_rfl le_rfl (by norm_num)) (by norm_num) ?_ ?_ ?_⟩
  · rw [hcell]
    unfold Cell.Has
    norm_num
  · rw [hcell]
    norm_num
  · intro y hy
    rw [hcell]
    have a := (Complex.abs_re_le_norm (point y - point 0)).trans hy
    have b := (Complex.abs_im_le_norm (point y - point 0)).trans hy
    have ea : (point y - point 0).re = y.re := by show y.re - 0 = y.re; ring
    have eb : (point y - point 0).im = y.im := by show y.im - 0 = y.im; ring
    rw [ea, abs_le] at a
    rw [eb, abs_le] at b
    refine ⟨fun _ => ?_, fun t ht => ?_⟩
    · unfold Cell.Has
      dsimp only
      norm_num at a b ⊢
      refine ⟨?_, ?_, ?_, ?_⟩ <;> linarith
    · obtain ⟨pre, post, h, _⟩ := ht
      have : (FilterType.functionValueZero, t) ∈ [((.zeroInBounds : FilterType), (3 : ℤ))] := by rw [h]; simp
      simp at this

end PyZeal.Props
