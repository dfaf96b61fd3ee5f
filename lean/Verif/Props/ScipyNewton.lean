import Verif.Proof.ScipyNewton
import Verif.Props.QuadSearch
import Verif.Props.NewtonGrid

/-! # Properties C133-C135: scipy's Newton solver -/

set_option linter.unusedSectionVars false

namespace PyZeal.Props
open Spec

/-! ## The solver -/

/-- 50 iterations are enough -/
theorem fifty {r tol : ℝ} (hr : r ≤ 10 ^ 19 * tol) (htol : 0 < tol) : (2 / 5 : ℝ) ^ 49 * r ≤ 5 / 7 * tol ∧ 7 / 5 * ((2 / 5 : ℝ) ^ 49 * r) < tol := by
  have h1 : (2 / 5 : ℝ) ^ 49 * r ≤ (2 / 5 : ℝ) ^ 49 * (10 ^ 19 * tol) := mul_le_mul_of_nonneg_left hr (by positivity)
  have h2 : (2 / 5 : ℝ) ^ 49 * 10 ^ 19 ≤ 1 / 2 := by norm_num
  have h3 := mul_le_mul_of_nonneg_right h2 htol.le
  constructor <;> linarith

theorem fifty_at {e r tol : ℝ} (he : e ≤ r) (hr : r ≤ 10 ^ 19 * tol) (htol : 0 < tol) : (2 / 5 : ℝ) ^ 49 * e ≤ 5 / 7 * tol ∧ 7 / 5 * ((2 / 5 : ℝ) ^ 49 * e) < tol :=
  fifty (he.trans hr) htol

/-- C133, secant method. Two different start points in a disc around a zero on which the derivative is steady: the secant method of scipy converges, to
a point at distance at most two thirds of `tol` from the zero, in any of its at most 50 iterations (the disc may be `10^19` times as large as `tol`). -/
theorem C133_secant (abs : Cx ℝ → ℝ) (habs : ∀ z, abs z = √(z.re ^ 2 + z.im ^ 2)) (arr) (f df : Cx ℝ → Cx ℝ) (c : Cx ℝ) (r : ℝ) (h : Steady f df c r)
    (tol : ℝ) (htol : 0 < tol) (hr : r ≤ 10 ^ 19 * tol) (x0 x1 : Cx ℝ) (h0 : ‖point x0 - point c‖ ≤ r) (h1 : ‖point x1 - point c‖ ≤ r) (hne : x0 ≠ x1) :
    ∃ z, (scipySolver abs arr).secant f x0 x1 tol = some z ∧ ‖point z - point c‖ ≤ 2 / 3 * tol := by
  have habs' : ∀ z, abs z = ‖toC z‖ := fun z => by rw [habs, norm_toC]
  show ∃ z, scipySecant abs f 50 x0 x1 tol = some z ∧ _
  unfold scipySecant
  split
  · exact secantLoop_converges h abs habs' htol.le 49 x1 x0 h1 h0 (Ne.symm hne) (fifty_at h0 hr htol).1
  · exact secantLoop_converges h abs habs' htol.le 49 x0 x1 h0 h1 hne (fifty_at h1 hr htol).1

/-- C133, Newton's method: the same for one start point. -/
theorem C133_newton (abs : Cx ℝ → ℝ) (habs : ∀ z, abs z = √(z.re ^ 2 + z.im ^ 2)) (arr) (f df : Cx ℝ → Cx ℝ) (c : Cx ℝ) (r : ℝ) (h : Steady f df c r)
    (tol : ℝ) (htol : 0 < tol) (hr : r ≤ 10 ^ 19 * tol) (x0 : Cx ℝ) (h0 : ‖point x0 - point c‖ ≤ r) :
    ∃ z, (scipySolver abs arr).newton f df x0 tol = some z ∧ ‖point z - point c‖ ≤ 2 / 3 * tol :=
  scipyNewton_converges h abs (fun z => by rw [habs, norm_toC]) htol.le 49 x0 h0 (fifty_at h0 hr htol).1

/-- C133, array version: all points make the same number of Newton steps, each on its own. If one of the start points lies in a disc around a zero on which the derivative is steady, the call does not
raise, and every start point in such a disc ends at distance at most two thirds of `1.48e-8` from the zero of its disc. -/
theorem C133_grid (abs : Cx ℝ → ℝ) (habs : ∀ z, abs z = √(z.re ^ 2 + z.im ^ 2)) (arr) (f df : Cx ℝ → Cx ℝ) (pts : List (Cx ℝ)) :
    (∀ out, (scipySolver abs arr).grid f pts (some df) = some out → ∃ k ≤ 50, out = pts.map (newtonStep f df)^[k]) ∧
    ∀ (c : Cx ℝ) (r : ℝ), Steady f df c r → r ≤ 10 ^ 11 → ∀ (i : ℕ) (x : Cx ℝ), pts[i]? = some x → ‖point x - point c‖ ≤ r →
      ∃ out y, (scipySolver abs arr).grid f pts (some df) = some out ∧ out[i]? = some y ∧ ‖point y - point c‖ ≤ 2 / 3 * (148 / 10 ^ 10) := by
  constructor
  · intro out h
    obtain ⟨k, hk, hk'⟩ := arrayLoop_iterates abs f df (148 / 10 ^ 10) 50 pts (pts.map fun _ => true) (pts.map fun _ => true)
    refine ⟨k, hk, ?_⟩
    rw [← hk']
    have h : arrayNewton abs f df (148 / 10 ^ 10) 50 pts = some out := h
    unfold arrayNewton at h
    dsimp only at h
    split at h
    · injection h with h; exact h.symm
    · split at h
      · cases h
      · injection h with h; exact h.symm
  · intro c r h hr i x hi hx
    obtain ⟨out, h1, _, y, h2, h3⟩ := arrayNewton_converges h abs (fun z => by rw [habs, norm_toC]) (tol := 148 / 10 ^ 10) (by norm_num) 49 pts i x hi hx
      (fifty_at hx (hr.trans (by norm_num)) (by norm_num)).2
    exact ⟨out, y, h1, h2, h3⟩

/-- distance and coordinates -/
theorem near_of_dist {z c : Cx ℝ} {e : ℝ} {eps : ℝ × ℝ} (h : ‖point z - point c‖ ≤ e) (h1 : e < eps.1) (h2 : e < eps.2) : Near eps c z := by
  have hre := (Complex.abs_re_le_norm (point z - point c)).trans h
  have him := (Complex.abs_im_le_norm (point z - point c)).trans h
  rw [Complex.sub_re] at hre
  rw [Complex.sub_im] at him
  unfold Near
  rw [abs_sub_comm c.re, abs_sub_comm c.im]
  exact ⟨lt_of_le_of_lt hre h1, lt_of_le_of_lt him h2⟩

theorem dist_of_coords {z c : Cx ℝ} {a b : ℝ} (h1 : |z.re - c.re| ≤ a) (h2 : |z.im - c.im| ≤ b) : ‖point z - point c‖ ≤ a + b := by
  refine (Complex.norm_le_abs_re_add_abs_im _).trans ?_
  rw [Complex.sub_re, Complex.sub_im]
  exact add_le_add h1 h2

/-- the tolerance the Newton variant asks for -/
theorem tol_bound {p : ℤ × ℤ} (h1 : p.1 ≤ 19) (h2 : p.2 ≤ 19) : 0 < min ((10 : ℝ) ^ (-p.1)) (10 ^ (-p.2)) ∧ 1 ≤ 10 ^ 19 * min ((10 : ℝ) ^ (-p.1)) (10 ^ (-p.2)) := by
  have hp : ∀ q : ℤ, q ≤ 19 → (1 : ℝ) ≤ 10 ^ 19 * 10 ^ (-q) := by
    intro q hq
    have e : ((10 : ℝ) ^ 19 : ℝ) = (10 : ℝ) ^ (19 : ℤ) := by norm_cast
    rw [e, ← zpow_add₀ (by norm_num)]
    exact one_le_zpow₀ (by norm_num) (by omega)
  refine ⟨lt_min (zpow_pos (by norm_num) _) (zpow_pos (by norm_num) _), ?_⟩
  rcases min_choice ((10 : ℝ) ^ (-p.1)) (10 ^ (-p.2)) with h | h <;> rw [h]
  · exact hp _ h1
  · exact hp _ h2

/-- the calls of the Newton variant on a rectangle which contains the zero -/
theorem cell_solves (abs : Cx ℝ → ℝ) (habs : ∀ z, abs z = √(z.re ^ 2 + z.im ^ 2)) (arr) (f df : Cx ℝ → Cx ℝ) (p : ℤ × ℤ) (h1 : p.1 ≤ 19) (h2 : p.2 ≤ 19)
    (c : Cell ℝ) (s1 : c.re.2 - c.re.1 < 1 / 10) (s2 : c.im.2 - c.im.1 < 1 / 10) (z : Cx ℝ) (hz : Cell.HasHalfOpen c z)
    (h : Steady f df z ((c.re.2 - c.re.1) + (c.im.2 - c.im.1))) :
    (∃ z', (scipySolver abs arr).secant f ⟨c.re.1, (Cell.centre c).im⟩ ⟨c.re.2, (Cell.centre c).im⟩ (min ((10 : ℝ) ^ (-p.1)) (10 ^ (-p.2))) = some z' ∧
      Near ((10 : ℝ) ^ (-p.1), (10 : ℝ) ^ (-p.2)) z z') ∧
    ∃ z', (scipySolver abs arr).newton f df (Cell.centre c) (min ((10 : ℝ) ^ (-p.1)) (10 ^ (-p.2))) = some z' ∧ Near ((10 : ℝ) ^ (-p.1), (10 : ℝ) ^ (-p.2)) z z' := by
  obtain ⟨z1, z2, z3, z4⟩ := hz
  obtain ⟨t1, t2⟩ := tol_bound h1 h2
  have hn : ∀ z', ‖point z' - point z‖ ≤ 2 / 3 * min ((10 : ℝ) ^ (-p.1)) (10 ^ (-p.2)) → Near ((10 : ℝ) ^ (-p.1), (10 : ℝ) ^ (-p.2)) z z' := fun z' hz' =>
    near_of_dist hz' (lt_of_lt_of_le (b := min ((10 : ℝ) ^ (-p.1)) (10 ^ (-p.2))) (by linarith) (min_le_left _ _))
      (lt_of_lt_of_le (b := min ((10 : ℝ) ^ (-p.1)) (10 ^ (-p.2))) (by linarith) (min_le_right _ _))
  constructor
  · obtain ⟨z', a1, a2⟩ := C133_secant abs habs arr f df z _ h _ t1 (by linarith) ⟨c.re.1, (Cell.centre c).im⟩ ⟨c.re.2, (Cell.centre c).im⟩
      (dist_of_coords (by dsimp only; rw [abs_le]; constructor <;> linarith) (by unfold Cell.centre; dsimp only; rw [abs_le]; constructor <;> linarith))
      (dist_of_coords (by dsimp only; rw [abs_le]; constructor <;> linarith) (by unfold Cell.centre; dsimp only; rw [abs_le]; constructor <;> linarith))
      (fun e => by have := congrArg Cx.re e; dsimp only at this; linarith)
    exact ⟨z', a1, hn z' a2⟩
  · obtain ⟨z', a1, a2⟩ := C133_newton abs habs arr f df z _ h _ t1 (by linarith) (Cell.centre c)
      (dist_of_coords (by unfold Cell.centre; dsimp only; rw [abs_le]; constructor <;> linarith) (by unfold Cell.centre; dsimp only; rw [abs_le]; constructor <;> linarith))
    exact ⟨z', a1, hn z' a2⟩

/-- C133 for rectangles: if the derivative is steady on the disc of radius 1/5 around each zero in the region, then scipy's solver finds the single zeros of small rectangles as C116 asks for. -/
theorem C133_finds (abs : Cx ℝ → ℝ) (habs : ∀ z, abs z = √(z.re ^ 2 + z.im ^ 2)) (arr) (f df : Cx ℝ → Cx ℝ) (p : ℤ × ℤ) (h1 : p.1 ≤ 19) (h2 : p.2 ≤ 19)
    (region : Cell ℝ) (zeros : List (Cx ℝ)) (h : ∀ z ∈ zeros, Cell.Has region z → Steady f df z (1 / 5)) :
    SolverFinds (scipySolver abs arr) f (some df) p region zeros := by
  intro c hin s1 s2 z hz hone
  have hm : z ∈ Cell.inside c zeros := by simp [hone]
  rw [mem_inside] at hm
  have hreg : Cell.Has region z := by
    obtain ⟨i1, i2, i3, i4, i5, i6⟩ := hin
    obtain ⟨z1, z2, z3, z4⟩ := hm.2
    refine ⟨?_, ?_, ?_, ?_⟩ <;> linarith
  obtain ⟨b1, z', b2, b3⟩ := cell_solves abs habs arr f df p h1 h2 c s1 s2 z hm.2 ((h z hz hreg).mono (by linarith))
  refine ⟨b1, fun g y hg hy => ?_⟩
  cases hg
  have b2' : (scipySolver abs arr).newton f df ⟨(c.re.1 + c.re.2) / 2, (c.im.1 + c.im.2) / 2⟩ (min ((10 : ℝ) ^ (-p.1)) (10 ^ (-p.2))) = some z' := b2
  rw [b2'] at hy
  cases hy
  exact b3

/-! ## The Newton variant -/

/-- C134. Search with the Newton variant, numerical quadrature and scipy's solver, for an analytic function with its derivative, under the
hypotheses of C130; moreover the derivative is steady near the zeros which the search isolates in rectangles with sides below 0.1. The search returns; every zero in the rectangle has a candidate of positive order closer
than `10^-p` in each coordinate; every candidate has positive order and is that close to a zero in the rectangle. -/
theorem C134_search {σ : Type} (abs : Cx ℝ → ℝ) (habs' : ∀ z, abs z = √(z.re ^ 2 + z.im ^ 2)) (arr) (cfg : QuadCfg ℝ) (hromb : cfg.romb = romberg) (habs : ∀ z, cfg.abs z = √(z.re ^ 2 + z.im ^ 2))
    (hev : ∀ n, 1 ≤ cfg.evals n) (hsteps : 13 ≤ cfg.steps) (ctx : RCtx ℝ) (df : Cx ℝ → Cx ℝ) (hdf : ctx.df = some df)
    (hre : ctx.reRan.1 < ctx.reRan.2) (him : ctx.imRan.1 < ctx.imRan.2) (hp1 : ctx.precision.1 ≤ 19) (hp2 : ctx.precision.2 ≤ 19)
    (zeros : List (Cx ℝ)) (G : ℂ → ℂ) (B V : ℝ) (hf : AnalyticWith ctx.f df (Cell.Has ⟨ctx.reRan, ctx.imRan, 0⟩) zeros G B V)
    (hres : Resolved ctx.precision zeros B V ctx.reRan ctx.imRan) (ht : Tame ctx.f df ctx.precision zeros ctx.reRan ctx.imRan)
    (limit m n : ℕ) (hb : Cell.Below ctx.precision m n ⟨ctx.reRan, ctx.imRan, 0⟩) (hl : m + n < limit) (w : World σ ℝ) (hfuse : w.fuse = none) :
    ∃ w', simpleArgumentNewton (scipySolver abs arr) (quadLine cfg) Real.pi limit ctx w = (.ok (), w') ∧ w'.fuse = none ∧
    (∀ z ∈ zeros, Cell.HasHalfOpen ⟨ctx.reRan, ctx.imRan, 0⟩ z → ∃ r ∈ newRoots w w', 1 ≤ r.2 ∧
      Near ((10 : ℝ) ^ (-ctx.precision.1), (10 : ℝ) ^ (-ctx.precision.2)) z r.1) ∧
    ∀ r ∈ newRoots w w', 1 ≤ r.2 ∧ ∃ z ∈ zeros, Cell.HasHalfOpen ⟨ctx.reRan, ctx.imRan, 0⟩ z ∧
      Near ((10 : ℝ) ^ (-ctx.precision.1), (10 : ℝ) ^ (-ctx.precision.2)) z r.1 := by
  have hpi := Real.pi_pos
  have hg := quad_good (σ := σ) cfg hromb habs hev hsteps df ctx hdf hre him hf (fun _ _ h => h) hres
  obtain ⟨w', h1, h2, hacc, hno⟩ := hg.search (newton_stops (scipySolver abs arr) _ Real.pi ctx) newton_open (quiet_newton _ _ _) (Finishes.newtonAct (scipySolver abs arr) Real.pi ctx)
    (good_newton (scipySolver abs arr) hpi ctx) limit m n hb hl w hfuse
  have h1 : simpleArgumentNewton (scipySolver abs arr) (quadLine cfg) Real.pi limit ctx w = (.ok (), w') := h1
  obtain ⟨a1, a2, a3⟩ := newton_tolerance (scipySolver abs arr) (quadLine cfg) limit ctx (quadLine_hits cfg ctx) hre.le him.le zeros w w' h1 (fun c hc => (hacc c hc).2) hno
  have hone : ∀ c ∈ newCells w w', ∀ z ∈ zeros, Cell.HasHalfOpen c z → Cell.HasHalfOpen ⟨ctx.reRan, ctx.imRan, 0⟩ z := by
    intro c hc z _ hz
    obtain ⟨i1, i2, i3, i4, i5, i6⟩ : Cell.In ⟨c.re, c.im, 0⟩ ⟨ctx.reRan, ctx.imRan, 0⟩ := reached_in hre.le him.le (hacc c hc).1
    dsimp only at i1 i2 i3 i4 i5 i6
    obtain ⟨z1, z2, z3, z4⟩ := hz
    refine ⟨?_, ?_, ?_, ?_⟩ <;> dsimp only <;> linarith
  refine ⟨w', h1, h2, a3 fun c hc ho z hz hcz => ?_, fun r hr => ?_⟩
  · exact (cell_solves abs habs' arr ctx.f df ctx.precision hp1 hp2 c ho.2.2.1 ho.2.2.2 z hcz (ht c.re c.im (hacc c hc).1 (a1 c hc ho) ho.2.2.1 ho.2.2.2 z hz hcz)).1
  · obtain ⟨b1, c, hc, ⟨b2, b3, b4⟩ | ⟨b2, b3, b4⟩⟩ := a2 r hr
    · refine ⟨b1, ?_⟩
      obtain ⟨z, hz⟩ := List.exists_mem_of_length_pos (l := zeros.filter fun z => decide (Cell.HasHalfOpen c z)) (by
        rw [b4] at b1
        exact_mod_cast b1)
      obtain ⟨hz, hcz⟩ := List.mem_filter.1 hz
      have hcz : Cell.HasHalfOpen c z := by simpa using hcz
      refine ⟨z, hz, hone c hc z hz hcz, ?_⟩
      rw [b3]
      exact near_symm (near_centre b2 hcz)
    · refine ⟨b1, ?_⟩
      have hcount := a1 c hc b2
      obtain ⟨z, hz⟩ := List.exists_mem_of_length_pos (l := zeros.filter fun z => decide (Cell.HasHalfOpen c z)) (by
        have : (zeros.filter fun z => decide (Cell.HasHalfOpen c z)).length = 1 := hcount
        omega)
      obtain ⟨hz, hcz⟩ := List.mem_filter.1 hz
      have hcz : Cell.HasHalfOpen c z := by simpa using hcz
      obtain ⟨⟨z1, y1, y2⟩, z2, y3, y4⟩ := cell_solves abs habs' arr ctx.f df ctx.precision hp1 hp2 c b2.2.2.1 b2.2.2.2 z hcz
        (ht c.re c.im (hacc c hc).1 hcount b2.2.2.1 b2.2.2.2 z hz hcz)
      refine ⟨z, hz, hone c hc z hz hcz, ?_⟩
      rcases b4 with h | ⟨df', hd, h⟩
      · rw [y1] at h
        cases h
        exact y2
      · rw [hdf] at hd
        cases hd
        rw [y3] at h
        cases h
        exact y4

theorem newton_sound {σ : Type} (abs : Cx ℝ → ℝ) (habs' : ∀ z, abs z = √(z.re ^ 2 + z.im ^ 2)) (arr) (cfg : QuadCfg ℝ) (hromb : cfg.romb = romberg) (habs : ∀ z, cfg.abs z = √(z.re ^ 2 + z.im ^ 2))
    (hev : ∀ n, 1 ≤ cfg.evals n) (hsteps : 13 ≤ cfg.steps) (ctx : RCtx ℝ) (df : Cx ℝ → Cx ℝ) (hdf : ctx.df = some df)
    (hre : ctx.reRan.1 < ctx.reRan.2) (him : ctx.imRan.1 < ctx.imRan.2) (hp1 : ctx.precision.1 ≤ 19) (hp2 : ctx.precision.2 ≤ 19)
    (zeros : List (Cx ℝ)) (G : ℂ → ℂ) (B V : ℝ) (hf : AnalyticWith ctx.f df (Cell.Has ⟨ctx.reRan, ctx.imRan, 0⟩) zeros G B V)
    (hres : Resolved ctx.precision zeros B V ctx.reRan ctx.imRan) (ht : Tame ctx.f df ctx.precision zeros ctx.reRan ctx.imRan)
    (limit m n : ℕ) (hb : Cell.Below ctx.precision m n ⟨ctx.reRan, ctx.imRan, 0⟩) (hl : m + n < limit) :
    SoundAt (simpleArgumentNewton (scipySolver abs arr) (quadLine cfg : LineEst σ ℝ) Real.pi limit) ctx (fun _ => False) zeros
      ((10 : ℝ) ^ (-ctx.precision.1), (10 : ℝ) ^ (-ctx.precision.2)) := by
  intro w w' h
  obtain ⟨w1, h1, _, b1, b2⟩ := C134_search (σ := σ) abs habs' arr cfg hromb habs hev hsteps ctx df hdf hre him hp1 hp2 zeros G B V hf hres ht limit m n hb hl
    { w with fuse := none } rfl
  have hi : Interruptible (simpleArgumentNewton (scipySolver abs arr) (quadLine cfg : LineEst σ ℝ) Real.pi limit ctx) :=
    .calcRoots (fun o a b => (Interruptible.closed ctx.f).toBasic.quadLine cfg o a b)
      (fun _ hs => .newtonDecide _ (fun o a b => (Interruptible.closed ctx.f).toBasic.quadLine cfg o a b) Real.pi _ hs) limit
  obtain ⟨hadd, i2⟩ := added_same hi h h1
  have hnew : newRoots w w' = newRoots { w with fuse := none } w1 := by unfold newRoots; rw [hadd]
  refine ⟨by rw [hadd]; exact i2, by rw [hnew]; exact b1, fun r hr => .inr (b2 r (by rw [← hnew]; exact hr))⟩

/-- C134 for finders. A `RootFinder` with the Newton variant, scipy's solver, numerical quadrature and a rounding container without filters, in any state,
under the hypotheses of `C134_search` for the rectangle it searches. The call returns without warning; every zero in the requested rectangle has a reported root of positive order closer than
`1.5 * 10^-(p+1)` in each coordinate, and every root that is new in the container has positive order and is that close to a zero at most `4 * 10^-(p+1)` outside the requested rectangle. -/
theorem C134_finder {σ : Type} (fd : Finder σ ℝ) (abs : Cx ℝ → ℝ) (habs' : ∀ z, abs z = √(z.re ^ 2 + z.im ^ 2)) (arr) (cfg : QuadCfg ℝ) (hromb : cfg.romb = romberg)
    (habs : ∀ z, cfg.abs z = √(z.re ^ 2 + z.im ^ 2)) (hev : ∀ n, 1 ≤ cfg.evals n) (hsteps : 13 ≤ cfg.steps) (limit : ℕ)
    (halg : fd.algorithm = simpleArgumentNewton (scipySolver abs arr) (quadLine cfg) Real.pi limit)
    (hcont : RoundsFreely fd.container) (df : Cx ℝ → Cx ℝ) (hdf : fd.df = some df) (re im : ℝ × ℝ) (call : Option (ℤ × ℤ)) (p : ℤ × ℤ)
    (hp : Asked call fd.precision p) (hp1 : p.1 ≤ 18) (hp2 : p.2 ≤ 18) (dom : (ℝ × ℝ) × (ℝ × ℝ)) (hdom : dom = desymmetrizeDomain re im (p.1 + 1, p.2 + 1))
    (zeros : List (Cx ℝ)) (G : ℂ → ℂ) (B V : ℝ) (hf : AnalyticWith fd.f df (Cell.Has ⟨dom.1, dom.2, 0⟩) zeros G B V)
    (hres : Resolved (p.1 + 1, p.2 + 1) zeros B V dom.1 dom.2) (ht : Tame fd.f df (p.1 + 1, p.2 + 1) zeros dom.1 dom.2)
    (m n : ℕ) (hb : Cell.Below (p.1 + 1, p.2 + 1) m n ⟨dom.1, dom.2, 0⟩) (hl : m + n < limit) :
    let s := fd.calculateRoots re im call none
    s.outcome = .ok () ∧ s.warned = false ∧
    (∀ z ∈ zeros, Requested re im z → ∃ r ∈ held s.finder.container, 1 ≤ r.2 ∧
      Near (3 / 2 * 10 ^ (-(p.1 + 1)), 3 / 2 * 10 ^ (-(p.2 + 1))) z r.1) ∧
    ∀ r ∈ held s.finder.container, r ∈ held fd.container ∨
      (1 ≤ r.2 ∧ ∃ z ∈ zeros, Cell.Has (Enlarged (4 * 10 ^ (-(p.1 + 1)), 4 * 10 ^ (-(p.2 + 1))) re im) z ∧
        Near (3 / 2 * 10 ^ (-(p.1 + 1)), 3 / 2 * 10 ^ (-(p.2 + 1))) z r.1) := by
  intro s
  obtain ⟨d1, d2, d3, d4⟩ := C46_domain re im (p.1 + 1, p.2 + 1)
  rw [← hdom] at d1 d2 d3 d4
  have hprec : (fd.ctx re im call).precision = (p.1 + 1, p.2 + 1) := searchPrecision_asked hp
  have hd1 : (fd.ctx re im call).reRan = dom.1 := by
    rw [hdom, ← searchPrecision_asked hp]; rfl
  have hd2 : (fd.ctx re im call).imRan = dom.2 := by
    rw [hdom, ← searchPrecision_asked hp]; rfl
  obtain ⟨w', a1, _⟩ := C134_search abs habs' arr cfg hromb habs hev hsteps (fd.ctx re im call) df hdf (by rw [hd1]; exact d1) (by rw [hd2]; exact d2)
    (by rw [hprec]; dsimp only; omega) (by rw [hprec]; dsimp only; omega)
    zeros G B V (by rw [hd1, hd2]; exact hf) (by rw [hd1, hd2, hprec]; exact hres) (by rw [hd1, hd2, hprec]; exact ht) limit m n (by rw [hd1, hd2, hprec]; exact hb) hl (fd.start none) rfl
  have hrun : (fd.algorithm (fd.ctx re im call) (fd.start none)).1 = .ok () := by rw [halg, a1]
  obtain ⟨e1, e2⟩ := calculateRoots_outcome fd re im call none
  rw [hrun] at e1 e2
  have hok : s.outcome = .ok () := e1.trans (if_neg (by simp))
  have hwarn : s.warned = false := e2.trans (by simp)
  have hs := newton_sound (σ := σ) abs habs' arr cfg hromb habs hev hsteps (fd.ctx re im call) df hdf (by rw [hd1]; exact d1) (by rw [hd2]; exact d2)
    (by rw [hprec]; dsimp only; omega) (by rw [hprec]; dsimp only; omega)
    zeros G B V (by rw [hd1, hd2]; exact hf) (by rw [hd1, hd2, hprec]; exact hres) (by rw [hd1, hd2, hprec]; exact ht) limit m n (by rw [hd1, hd2, hprec]; exact hb) hl
  rw [hprec] at hs
  obtain ⟨b1, b2⟩ := serial_sound fd hcont re im call p hp none (fun _ => False) zeros _ (halg ▸ hs) hok hwarn
  have e10 : ∀ x : ℝ, x + x / 2 = 3 / 2 * x := fun x => by ring
  simp only [e10] at b1 b2
  refine ⟨hok, hwarn, b1, fun r hr => ?_⟩
  rcases b2 r hr with h | ⟨_, z, h, _⟩ | h
  · exact .inl h
  · exact h.elim
  · exact .inr h

/-- C134 for parallel finders: the same with any number of processes and any schedule without interrupt, if the hypotheses hold for the rectangle of each job; the distance
is below `0.6 * 10^-p`. -/
theorem C134_parallel {σ : Type} (fd : Finder σ ℝ) (abs : Cx ℝ → ℝ) (habs' : ∀ z, abs z = √(z.re ^ 2 + z.im ^ 2)) (arr) (cfg : QuadCfg ℝ) (hromb : cfg.romb = romberg)
    (habs : ∀ z, cfg.abs z = √(z.re ^ 2 + z.im ^ 2)) (hev : ∀ n, 1 ≤ cfg.evals n) (hsteps : 13 ≤ cfg.steps) (limit : ℕ)
    (halg : fd.algorithm = simpleArgumentNewton (scipySolver abs arr) (quadLine cfg) Real.pi limit)
    (hcont : RoundsFreely fd.container) (df : Cx ℝ → Cx ℝ) (hdf : fd.df = some df) (cpus : ℕ) (hcpus : 1 ≤ cpus) (re im : ℝ × ℝ)
    (call : Option (ℤ × ℤ)) (p : ℤ × ℤ) (hp : Asked call fd.precision p) (hp1 : p.1 ≤ 18) (hp2 : p.2 ≤ 18) (sched : Schedule) (hsched : sched.interrupted = false)
    (dom : (ℝ × ℝ) × (ℝ × ℝ)) (hdom : dom = desymmetrizeDomain re im (p.1 + 1, p.2 + 1))
    (zeros : List (Cx ℝ)) (G : ℂ → ℂ) (B V : ℝ) (hf : AnalyticWith fd.f df (Cell.Has ⟨dom.1, dom.2, 0⟩) zeros G B V)
    (hres : ∀ job ∈ createRootJobs fd.f fd.df cpus dom.1 dom.2 (p.1 + 1, p.2 + 1) fd.verbose,
      Resolved (p.1 + 1, p.2 + 1) zeros B V job.reRan job.imRan ∧ Tame fd.f df (p.1 + 1, p.2 + 1) zeros job.reRan job.imRan)
    (m n : ℕ) (hb : Cell.Below (p.1 + 1, p.2 + 1) m n ⟨dom.1, dom.2, 0⟩) (hl : m + n < limit) :
    let s := fd.calculateRootsParallel cpus re im call sched
    s.outcome = .ok () ∧ s.warned = false ∧
    (∀ z ∈ zeros, Requested re im z → ∃ r ∈ held s.finder.container, 1 ≤ r.2 ∧
      Near (6 / 10 * 10 ^ (-p.1), 6 / 10 * 10 ^ (-p.2)) z r.1) ∧
    ∀ r ∈ held s.finder.container, r ∈ held fd.container ∨
      (1 ≤ r.2 ∧ ∃ z ∈ zeros, Cell.Has (Enlarged (4 * 10 ^ (-(p.1 + 1)), 4 * 10 ^ (-(p.2 + 1))) re im) z ∧
        Near (6 / 10 * 10 ^ (-p.1), 6 / 10 * 10 ^ (-p.2)) z r.1) := by
  intro s
  obtain ⟨d1, d2, _, _⟩ := C46_domain re im (p.1 + 1, p.2 + 1)
  rw [← hdom] at d1 d2
  have hjob := fun job hj => job_facts fd df hdf cpus hcpus dom d1 d2 _ zeros G B V hf m n hb job hj
  have hjf : ∀ job ∈ createRootJobs fd.f fd.df cpus dom.1 dom.2 (p.1 + 1, p.2 + 1) fd.verbose, job.f = fd.f := fun job hj =>
    ((C47_jobs fd.f fd.df cpus hcpus dom.1 dom.2 d1.le d2.le _ _).2.2.2.2.2 job hj).1
  have hout := parallel_returns fd cpus hcpus re im call p hp sched hsched dom hdom fun job hj w hw => by
    obtain ⟨h2, h3, h4, h5, _, h6, h7⟩ := hjob job hj
    obtain ⟨w', a1, a2, _⟩ := C134_search abs habs' arr cfg hromb habs hev hsteps job df h2 h4 h5 (by rw [h3]; dsimp only; omega) (by rw [h3]; dsimp only; omega)
      zeros G B V h7 (h3 ▸ (hres job hj).1) (by rw [h3, hjf job hj]; exact (hres job hj).2) limit m n h6 hl w hw
    exact ⟨w', by rw [halg]; exact a1, a2⟩
  have e10 : ∀ q : ℤ, (10 : ℝ) ^ (-(q + 1)) + 10 ^ (-q) / 2 = 6 / 10 * 10 ^ (-q) := by
    intro q
    rw [neg_add, zpow_add₀ (by norm_num)]
    norm_num
    ring
  obtain ⟨b1, b2⟩ := parallel_sound fd hcont cpus hcpus re im call p hp sched hsched (fun _ => False) zeros
    ((10 : ℝ) ^ (-(p.1 + 1)), (10 : ℝ) ^ (-(p.2 + 1))) (by
      rw [← hdom]
      intro job hj
      obtain ⟨h2, h3, h4, h5, _, h6, h7⟩ := hjob job hj
      have := newton_sound (σ := σ) abs habs' arr cfg hromb habs hev hsteps job df h2 h4 h5 (by rw [h3]; dsimp only; omega) (by rw [h3]; dsimp only; omega)
        zeros G B V h7 (h3 ▸ (hres job hj).1) (by rw [h3, hjf job hj]; exact (hres job hj).2) limit m n h6 hl
      rw [h3] at this
      rw [halg]
      exact this) hout.1
  simp only [e10] at b1 b2
  refine ⟨hout.1, hout.2, b1, fun r hr => ?_⟩
  rcases b2 r hr with h | ⟨_, z, h, _⟩ | h
  · exact .inl h
  · exact h.elim
  · exact .inr h

/-! ## The Newton grid -/

/-- a grid point near a given number -/
theorem grid_near {a b x : ℝ} (h1 : a ≤ x) (h2 : x ≤ b) {n : ℕ} (hn : 2 ≤ n) : ∃ i < n, |a + i * ((b - a) / ((n : ℝ) - 1)) - x| ≤ (b - a) / ((n : ℝ) - 1) / 2 := by
  have hn1 : (0 : ℝ) < (n : ℝ) - 1 := by
    have : (2 : ℝ) ≤ n := by exact_mod_cast hn
    linarith
  obtain ⟨d, hd⟩ : ∃ d, d = (b - a) / ((n : ℝ) - 1) := ⟨_, rfl⟩
  rw [← hd]
  have hd' : d * ((n : ℝ) - 1) = b - a := by rw [hd]; field_simp
  have hd0 : 0 ≤ d := by rw [hd]; exact div_nonneg (by linarith) hn1.le
  rcases hd0.eq_or_lt with h0 | h0
  · refine ⟨0, by omega, ?_⟩
    rw [← h0, zero_mul] at hd'
    rw [← h0, mul_zero, abs_le]
    constructor <;> linarith
  · have hx0 : 0 ≤ (x - a) / d + 1 / 2 := by have := div_nonneg (sub_nonneg.2 h1) h0.le; linarith
    have f1 := Nat.floor_le hx0
    have f2 := Nat.lt_floor_add_one ((x - a) / d + 1 / 2)
    have hx1 : (x - a) / d ≤ (n : ℝ) - 1 := by
      rw [div_le_iff₀ h0]
      linarith
    refine ⟨⌊(x - a) / d + 1 / 2⌋₊, ?_, ?_⟩
    · have : (⌊(x - a) / d + 1 / 2⌋₊ : ℝ) < n := by linarith
      exact_mod_cast this
    · have hx : x - a = (x - a) / d * d := by field_simp
      have g1 : (⌊(x - a) / d + 1 / 2⌋₊ : ℝ) * d ≤ ((x - a) / d + 1 / 2) * d := mul_le_mul_of_nonneg_right f1 h0.le
      have g2 : ((x - a) / d + 1 / 2) * d < (⌊(x - a) / d + 1 / 2⌋₊ + 1 : ℝ) * d := mul_lt_mul_of_pos_right f2 h0
      rw [abs_le]
      constructor <;> linarith

/-- a zero in the rectangle attracts one of the start points -/
theorem grid_finds (abs : Cx ℝ → ℝ) (habs : ∀ z, abs z = √(z.re ^ 2 + z.im ^ 2)) (arr) (f df : Cx ℝ → Cx ℝ) (cell : Cell ℝ) (n : ℕ) (hn : 2 ≤ n) (pts : List (Cx ℝ))
    (hg : IsGrid cell n pts) (c : Cx ℝ) (hc : Cell.Has cell c) (r : ℝ) (h : Steady f df c r) (hr : r ≤ 10 ^ 11)
    (hsp : (cell.re.2 - cell.re.1) / ((n : ℝ) - 1) / 2 + (cell.im.2 - cell.im.1) / ((n : ℝ) - 1) / 2 ≤ r) :
    ∃ out, (scipySolver abs arr).grid f pts (some df) = some out ∧ ∃ y ∈ out, ‖point y - point c‖ ≤ 2 / 3 * (148 / 10 ^ 10) := by
  obtain ⟨c1, c2, c3, c4⟩ := hc
  obtain ⟨i, hi, hi'⟩ := grid_near c1 c2 hn
  obtain ⟨j, hj, hj'⟩ := grid_near c3 c4 hn
  obtain ⟨out, y, h1, h2, h3⟩ := (C133_grid abs habs arr f df pts).2 c r h hr (i * n + j) _ (hg.2 i j hi hj) ((dist_of_coords hi' hj').trans hsp)
  exact ⟨out, h1, y, List.mem_of_getElem? h2, h3⟩

theorem rounded_near {p : ℤ × ℤ} {y r c : Cx ℝ} (h1 : RoundsTo p y r) (h2 : ‖point y - point c‖ ≤ 2 / 3 * (148 / 10 ^ 10)) :
    Near (1 / 10 ^ 8 + 10 ^ (-p.1) / 2, 1 / 10 ^ 8 + 10 ^ (-p.2) / 2) c r := by
  obtain ⟨n1, n2⟩ := near_of_dist (eps := (1 / 10 ^ 8, 1 / 10 ^ 8)) h2 (by norm_num) (by norm_num)
  obtain ⟨⟨_, _, a1, _⟩, _, _, a2, _⟩ := h1
  rw [abs_lt] at n1 n2
  rw [abs_le] at a1 a2
  dsimp only at n1 n2
  unfold Near
  dsimp only
  rw [abs_lt, abs_lt]
  refine ⟨⟨?_, ?_⟩, ?_, ?_⟩ <;> linarith

theorem searched_ordered (re im : ℝ × ℝ) (p : ℤ × ℤ) : (Searched re im p).re.1 ≤ (Searched re im p).re.2 ∧ (Searched re im p).im.1 ≤ (Searched re im p).im.2 := by
  have h : ∀ q : ℤ, (0 : ℝ) < 10 ^ (-q) := fun q => zpow_pos (by norm_num) _
  have h1 := h p.1
  have h2 := h p.2
  unfold Searched
  dsimp only
  exact ⟨by linarith [min_le_max (a := re.1) (b := re.2)], by linarith [min_le_max (a := im.1) (b := im.2)]⟩

/-- C135. A `RootFinder` with the Newton grid algorithm, scipy's solver, a derivative, a new rounding container and filters set. An uninterrupted search returns without warning. Every zero in the searched
rectangle with a disc on which the derivative is steady, if the disc is at least as large as half the spacing of the grid (sum over both directions), is reported within `1e-8` plus rounding, provided the filters let points so close to the zero pass.
And every reported root has order 0 and is the rounding of what at most 50 Newton steps, made on its own, turn a point of the searched rectangle into. -/
theorem C135_finder {σ : Type} (fd : Finder σ ℝ) (abs : Cx ℝ → ℝ) (habs : ∀ z, abs z = √(z.re ^ 2 + z.im ^ 2)) (arr) (n : ℕ) (hn : 2 ≤ n) (truthy : Bool)
    (hfd : fd.algorithm = newtonGrid (scipySolver abs arr) n truthy) (df : Cx ℝ → Cx ℝ) (hdf : fd.df = some df)
    (hc : RoundsFreely fd.container) (he : IsEmpty fd.container) (calls : List (FilterType × ℤ)) (re im : ℝ × ℝ) (call : Option (ℤ × ℤ)) (p : ℤ × ℤ)
    (hp : Asked call fd.precision p) (cell : Cell ℝ) (hcell : cell = Searched re im (p.1 + 1, p.2 + 1)) :
    ∃ fd', Finder.setRootFilters calls fd = (.ok (), fd') ∧
      let s := fd'.calculateRoots re im call none
      s.outcome = .ok () ∧ s.warned = false ∧
      (∀ c r, Steady fd.f df c r → r ≤ 10 ^ 11 → Cell.Has cell c →
        (cell.re.2 - cell.re.1) / ((n : ℝ) - 1) / 2 + (cell.im.2 - cell.im.1) / ((n : ℝ) - 1) / 2 ≤ r →
        (∀ y, ‖point y - point c‖ ≤ 1 / 10 ^ 8 → Passes calls cell fd.f y) →
        ∃ root ∈ held s.finder.container, root.2 = 0 ∧ Near (1 / 10 ^ 8 + 10 ^ (-(p.1 + 1)) / 2, 1 / 10 ^ 8 + 10 ^ (-(p.2 + 1)) / 2) c root.1) ∧
      ∀ root ∈ held s.finder.container, root.2 = 0 ∧ ∃ x, Cell.Has cell x ∧ ∃ k ≤ 50, RoundsTo (p.1 + 1, p.2 + 1) ((newtonStep fd.f df)^[k] x) root.1 ∧
        Passes calls cell fd.f ((newtonStep fd.f df)^[k] x) := by
  subst hcell
  obtain ⟨fd', pts, h1, h2, h3⟩ := C117_serial (scipySolver abs arr) n hn truthy fd hfd hc he calls re im call p hp
  refine ⟨fd', h1, ?_⟩
  intro s
  obtain ⟨h4, h5, h6⟩ := h3
  rw [hdf] at h6
  have hle := searched_ordered re im (p.1 + 1, p.2 + 1)
  have hpts : pts = gridPoints _ _ n := IsGrid.unique h2 (isGrid_points _ hle.1 hle.2 hn)
  refine ⟨h4, h5, fun c r hs hr hin hsp hpass => ?_, fun root hroot => ?_⟩
  · obtain ⟨out, g1, y, g2, g3⟩ := grid_finds abs habs arr fd.f df _ n hn pts h2 c hin r hs hr hsp
    obtain ⟨y1, hy1⟩ : ∃ y1, RoundsTo (p.1 + 1, p.2 + 1) y y1 := ⟨_, roundsTo_roundRoot _ (y, 0)⟩
    exact ⟨(y1, 0), (h6 _).2 ⟨rfl, out, g1, y, g2, hy1, hpass y (g3.trans (by norm_num))⟩, rfl, rounded_near hy1 g3⟩
  · obtain ⟨h0, out, g1, y, g2, g3, g4⟩ := (h6 root).1 hroot
    obtain ⟨k, hk, rfl⟩ := (C133_grid abs habs arr fd.f df pts).1 out g1
    obtain ⟨x, hx, rfl⟩ := List.mem_map.1 g2
    refine ⟨h0, x, ?_, k, hk, g3, g4⟩
    rw [hpts] at hx
    have := (C45_grid _ _ hle.1 hle.2 n hn).2.2.1 x hx
    exact this

/-- C135 for parallel finders: the same with any number of processes and any schedule without interrupt, rounded at the requested precision. -/
theorem C135_parallel {σ : Type} (fd : Finder σ ℝ) (abs : Cx ℝ → ℝ) (habs : ∀ z, abs z = √(z.re ^ 2 + z.im ^ 2)) (arr) (n : ℕ) (hn : 2 ≤ n) (truthy : Bool)
    (hfd : fd.algorithm = newtonGrid (scipySolver abs arr) n truthy) (df : Cx ℝ → Cx ℝ) (hdf : fd.df = some df)
    (hc : RoundsFreely fd.container) (he : IsEmpty fd.container) (calls : List (FilterType × ℤ)) (cpus : ℕ) (hcpus : 1 ≤ cpus) (re im : ℝ × ℝ) (call : Option (ℤ × ℤ)) (p : ℤ × ℤ)
    (hp : Asked call fd.precision p) (sched : Schedule) (hsched : sched.interrupted = false) (cell : Cell ℝ) (hcell : cell = Searched re im (p.1 + 1, p.2 + 1)) :
    ∃ fd', Finder.setRootFilters calls fd = (.ok (), fd') ∧
      let s := fd'.calculateRootsParallel cpus re im call sched
      s.outcome = .ok () ∧ s.warned = false ∧
      (∀ c r, Steady fd.f df c r → r ≤ 10 ^ 11 → Cell.Has cell c →
        (cell.re.2 - cell.re.1) / ((n : ℝ) - 1) / 2 + (cell.im.2 - cell.im.1) / ((n : ℝ) - 1) / 2 ≤ r →
        (∀ y, ‖point y - point c‖ ≤ 1 / 10 ^ 8 → Passes calls cell fd.f y) →
        ∃ root ∈ held s.finder.container, root.2 = 0 ∧ Near (1 / 10 ^ 8 + 10 ^ (-p.1) / 2, 1 / 10 ^ 8 + 10 ^ (-p.2) / 2) c root.1) ∧
      ∀ root ∈ held s.finder.container, root.2 = 0 ∧ ∃ x, Cell.Has cell x ∧ ∃ k ≤ 50, RoundsTo p ((newtonStep fd.f df)^[k] x) root.1 ∧
        Passes calls cell fd.f ((newtonStep fd.f df)^[k] x) := by
  subst hcell
  obtain ⟨fd', cells, h1, ⟨_, t2, _, t4⟩, h3⟩ := C117_parallel (scipySolver abs arr) n hn truthy fd hfd hc he calls cpus hcpus re im call p hp sched hsched
  refine ⟨fd', h1, ?_⟩
  intro s
  obtain ⟨h4, h5, h6⟩ := h3
  rw [hdf] at h6
  have hn1 : (0 : ℝ) < (n : ℝ) - 1 := by
    have : (2 : ℝ) ≤ n := by exact_mod_cast hn
    linarith
  refine ⟨h4, h5, fun c r hs hr hin hsp hpass => ?_, fun root hroot => ?_⟩
  · obtain ⟨l, hl, hlc⟩ := (t2 c).1 hin
    obtain ⟨i1, i2, i3, i4, i5, i6⟩ := t4 l hl
    have w1 : (l.re.2 - l.re.1) / ((n : ℝ) - 1) ≤ _ := div_le_div_of_nonneg_right (sub_le_sub i3 i1) hn1.le
    have w2 : (l.im.2 - l.im.1) / ((n : ℝ) - 1) ≤ _ := div_le_div_of_nonneg_right (sub_le_sub i6 i4) hn1.le
    obtain ⟨out, g1, y, g2, g3⟩ := grid_finds abs habs arr fd.f df l n hn _ (isGrid_points l i2 i5 hn) c hlc r hs hr (by linarith)
    obtain ⟨y1, hy1⟩ : ∃ y1, RoundsTo p y y1 := ⟨_, roundsTo_roundRoot _ (y, 0)⟩
    exact ⟨(y1, 0), (h6 _).2 ⟨rfl, l, hl, _, out, isGrid_points l i2 i5 hn, g1, y, g2, hy1, hpass y (g3.trans (by norm_num))⟩, rfl, rounded_near hy1 g3⟩
  · obtain ⟨h0, l, hl, pts, out, g0, g1, y, g2, g3, g4⟩ := (h6 root).1 hroot
    obtain ⟨i1, i2, i3, i4, i5, i6⟩ := t4 l hl
    obtain ⟨k, hk, rfl⟩ := (C133_grid abs habs arr fd.f df pts).1 out g1
    obtain ⟨x, hx, rfl⟩ := List.mem_map.1 g2
    refine ⟨h0, x, ?_, k, hk, g3, g4⟩
    rw [IsGrid.unique g0 (isGrid_points l i2 i5 hn)] at hx
    obtain ⟨x1, x2, x3, x4⟩ := (C45_grid _ _ i2 i5 n hn).2.2.1 x hx
    dsimp only at x1 x2 x3 x4
    refine ⟨?_, ?_, ?_, ?_⟩ <;> linarith

/-! ## A concrete case: `f(z) = z * exp(z)` on a square in which 0 divides the sides as 1 : 2 -/

/-- 0 lies at one or two thirds of the interval, or outside at a distance of a third of its length -/
def Thirds (x : ℝ × ℝ) : Prop := x.1 < x.2 ∧ (3 * x.1 + (x.2 - x.1) = 0 ∨ 3 * x.1 + 2 * (x.2 - x.1) = 0 ∨ 3 * x.1 - (x.2 - x.1) = 0 ∨ 3 * x.1 + 4 * (x.2 - x.1) = 0)

theorem thirds_halves {x : ℝ × ℝ} (h : Thirds x) (h0 : x.1 ≤ 0) (h1 : 0 < x.2) : Thirds (x.1, (x.1 + x.2) / 2) ∧ Thirds ((x.1 + x.2) / 2, x.2) := by
  obtain ⟨l, h | h | h | h⟩ := h
  · refine ⟨⟨?_, .inr (.inl ?_)⟩, ?_, .inr (.inr (.inl ?_))⟩ <;> dsimp only <;> linarith
  · refine ⟨⟨?_, .inr (.inr (.inr ?_))⟩, ?_, .inl ?_⟩ <;> dsimp only <;> linarith
  · linarith
  · linarith

theorem thirds_ends {x : ℝ × ℝ} (h : Thirds x) (t : ℝ) (ht : t = x.1 ∨ t = x.2) : ((x.2 - x.1) / 3) ^ 2 ≤ t ^ 2 := by
  obtain ⟨l, h⟩ := h
  rw [sq_le_sq]
  rw [abs_of_pos (by linarith : 0 < (x.2 - x.1) / 3), le_abs]
  rcases h with h | h | h | h <;> rcases ht with rfl | rfl
  · right; linarith
  · left; linarith
  · right; linarith
  · left; linarith
  · left; linarith
  · left; linarith
  · right; linarith
  · right; linarith

theorem thirds_reached (r i : ℝ × ℝ) (h : Reached (3, 3) [0] ((-3 / 1000 : ℝ), (6 / 1000 : ℝ)) (-3 / 1000, 6 / 1000) r i) :
    Thirds r ∧ Thirds i ∧ (r.2 - r.1 = i.2 - i.1 ∨ r.2 - r.1 = 2 * (i.2 - i.1)) ∧ r.2 - r.1 ≤ 9 / 1000 := by
  have hin : ∀ (r i : ℝ × ℝ), 1 ≤ Cell.count ⟨r, i, 0⟩ [(0 : Cx ℝ)] → (r.1 ≤ 0 ∧ 0 < r.2) ∧ (i.1 ≤ 0 ∧ 0 < i.2) := by
    intro r i hc
    by_cases hh : Cell.HasHalfOpen (⟨r, i, 0⟩ : Cell ℝ) 0
    · obtain ⟨a, b, c, d⟩ := hh
      exact ⟨⟨a, b⟩, c, d⟩
    · unfold Cell.count at hc
      simp [hh] at hc
  have hp : (0 : ℝ) < 10 ^ (-(3 : ℤ)) := zpow_pos (by norm_num) _
  induction h with
  | whole => refine ⟨⟨?_, .inl ?_⟩, ⟨?_, .inl ?_⟩, .inl ?_, ?_⟩ <;> norm_num
  | left _ _ hc hw ih | right _ _ hc hw ih =>
    obtain ⟨a1, a2, a3, a4⟩ := ih
    obtain ⟨c1, c2⟩ := hin _ _ hc
    have hh := thirds_halves a1 c1.1 c1.2
    rw [div_lt_div_iff_of_pos_right hp] at hw
    refine ⟨by first | exact hh.1 | exact hh.2, a2, ?_, ?_⟩
    · rcases a3 with a3 | a3
      · linarith
      · left; dsimp only; linarith
    · have := a1.1
      dsimp only
      linarith
  | lower _ _ hc hw ih | upper _ _ hc hw ih =>
    obtain ⟨a1, a2, a3, a4⟩ := ih
    obtain ⟨c1, c2⟩ := hin _ _ hc
    have hh := thirds_halves a2 c2.1 c2.2
    rw [div_le_div_iff_of_pos_right hp] at hw
    refine ⟨a1, by first | exact hh.1 | exact hh.2, ?_, a4⟩
    rcases a3 with a3 | a3
    · right; dsimp only; linarith
    · have := a2.1
      linarith

theorem thirds_resolved : Resolved (3, 3) [0] 0 (57 / 8) ((-3 / 1000 : ℝ), (6 / 1000 : ℝ)) (-3 / 1000, 6 / 1000) := by
  intro r i h
  obtain ⟨h1, h2, h3, h4⟩ := thirds_reached r i h
  have l1 := h1.1
  have l2 := h2.1
  have hpi := Real.two_le_pi
  have hpi4 := Real.pi_le_four
  refine ⟨(i.2 - i.1) / 3, by linarith, fun z hz c hc => ?_, ?_⟩
  · rw [List.mem_singleton] at hc
    subst hc
    rw [Cx.zero_re, Cx.zero_im, sub_zero, sub_zero]
    obtain ⟨⟨b1, b2, b3, b4⟩, hb⟩ := hz
    dsimp only at b1 b2 b3 b4
    by_cases hre : z.re = r.1 ∨ z.re = r.2
    · have := thirds_ends h1 z.re hre
      have hle : ((i.2 - i.1) / 3) ^ 2 ≤ ((r.2 - r.1) / 3) ^ 2 := pow_le_pow_left₀ (by linarith) (by rcases h3 with h3 | h3 <;> linarith) 2
      nlinarith [sq_nonneg z.im]
    · by_cases him : z.im = i.1 ∨ z.im = i.2
      · have := thirds_ends h2 z.im him
        nlinarith [sq_nonneg z.re]
      · exfalso
        rw [not_or] at hre him
        exact hb ⟨lt_of_le_of_ne b1 (Ne.symm hre.1), lt_of_le_of_ne b2 hre.2, lt_of_le_of_ne b3 (Ne.symm him.1), lt_of_le_of_ne b4 him.2⟩
  · have key : ∀ l d : ℝ, 0 < d → 0 ≤ l → l ≤ 6 * d → quadError [(0 : Cx ℝ)].length 0 (57 / 8) d l < Real.pi / 10 := by
      intro l d hd h0 hl
      have e1 : l ^ 3 ≤ 216 * d ^ 3 := by
        have := pow_le_pow_left₀ h0 hl 3
        calc l ^ 3 ≤ (6 * d) ^ 3 := this
          _ = 216 * d ^ 3 := by ring
      have hd3 : 0 < d ^ 3 := by positivity
      have e2 : l ^ 3 * (2 / d ^ 3) ≤ 432 := by
        rw [mul_div_assoc', div_le_iff₀ hd3]
        linarith
      unfold quadError
      simp only [List.length_singleton, Nat.cast_one, mul_one, zero_add]
      have e3 : l ^ 3 * (2 / d ^ 3) / (3 * 4 ^ 10) ≤ 432 / (3 * 4 ^ 10) := div_le_div_of_nonneg_right e2 (by norm_num)
      norm_num at e3 ⊢
      linarith
    exact ⟨key _ _ (by linarith) (by linarith) (by rcases h3 with h3 | h3 <;> linarith), key _ _ (by linarith) (by linarith) (by linarith)⟩

theorem zexp_steady (r : ℝ) (hr : r ≤ 1 / 40) : Steady zexp dzexp 0 r := by
  have p0 : point 0 = 0 := rfl
  have d0 : point (dzexp 0) = 1 := by
    show Complex.exp 0 * (0 + 1) = 1
    simp
  refine ⟨?_, fun h => ?_, fun z _ => ?_, fun z hz => ?_⟩
  · refine toC_eq_zero.1 ?_
    show Complex.exp 0 * 0 = 0
    simp
  · have := toC_eq_zero.2 h
    rw [← point_eq, d0] at this
    exact one_ne_zero this
  · have h1 := (Complex.hasDerivAt_exp (point z)).mul (hasDerivAt_id (point z))
    have e : point (dzexp z) = Complex.exp (point z) * id (point z) + Complex.exp (point z) * 1 := by
      show Complex.exp (point z) * (point z + 1) = _
      simp only [id]; ring
    rw [e]
    exact h1
  · rw [p0, sub_zero] at hz
    rw [d0, norm_one]
    have e : point (dzexp z) - 1 = (Complex.exp (point z) - 1) + (Complex.exp (point z) - 1) * point z + point z := by
      show Complex.exp (point z) * (point z + 1) - 1 = _
      ring
    have h1 : ‖Complex.exp (point z) - 1‖ ≤ 2 * ‖point z‖ := Complex.norm_exp_sub_one_le (by linarith)
    rw [e]
    have h2 := norm_add_le ((Complex.exp (point z) - 1) + (Complex.exp (point z) - 1) * point z) (point z)
    have h3 := norm_add_le (Complex.exp (point z) - 1) ((Complex.exp (point z) - 1) * point z)
    rw [norm_mul] at h3
    have hn := norm_nonneg (point z)
    have h4 : ‖Complex.exp (point z) - 1‖ * ‖point z‖ ≤ 2 * ‖point z‖ * 1 := mul_le_mul h1 (by linarith) hn (by linarith)
    linarith

theorem thirds_tame : Tame zexp dzexp (3, 3) [0] ((-3 / 1000 : ℝ), (6 / 1000 : ℝ)) (-3 / 1000, 6 / 1000) := by
  intro r i h _ _ _ z hz _
  rw [List.mem_singleton] at hz
  subst hz
  obtain ⟨h1, h2, h3, h4⟩ := thirds_reached r i h
  have l2 := h2.1
  exact zexp_steady _ (by rcases h3 with h3 | h3 <;> linarith)

theorem zexp_analytic_small : AnalyticWith zexp dzexp (Cell.Has ⟨((-3 / 1000 : ℝ), (6 / 1000 : ℝ)), (-3 / 1000, 6 / 1000), 0⟩) [0] (fun z => z) 0 (57 / 8) := by
  have h : ∀ z, Cell.Has (⟨((-3 / 1000 : ℝ), (6 / 1000 : ℝ)), (-3 / 1000, 6 / 1000), 0⟩ : Cell ℝ) z → Cell.Has ⟨((-9 / 8 : ℝ), (17 / 8 : ℝ)), (-49 / 16, 65 / 16), 0⟩ z := by
    rintro z ⟨a, b, c, d⟩
    dsimp only at a b c d
    refine ⟨?_, ?_, ?_, ?_⟩ <;> dsimp only <;> linarith
  exact ⟨fun z hz => zexp_analytic.analytic z (h z hz), fun z hz => zexp_analytic.value z (h z hz), fun z hz => zexp_analytic.deriv z (h z hz),
    fun z hz => zexp_analytic.bound z (h z hz), fun a b ha hb => zexp_analytic.osc a b (h a ha) (h b hb)⟩

/-- the absolute value -/
noncomputable def absC (z : Cx ℝ) : ℝ := √(z.re ^ 2 + z.im ^ 2)

/-- a finder for `z * exp(z)` with the Newton variant and scipy's solver -/
noncomputable def newtonZexp : Finder Unit ℝ where
  f := zexp
  df := some dzexp
  algorithm := simpleArgumentNewton (scipySolver absC fun _ _ => none) (quadLine rombCfg) Real.pi 9
  precision := (2, 2)
  verbose := false
  info := false
  container := .rounding (RContainer.init none (2, 2))
  cache := EstCache.init false
  est := ()

theorem thirds_domain : desymmetrizeDomain ((-2 / 1000 : ℝ), (4 / 1000 : ℝ)) (0, 2 / 1000) (3, 3) = ((-3 / 1000, 6 / 1000), (-3 / 1000, 6 / 1000)) := by
  have e1 : ((desymmetrizeDomain ((-2 / 1000 : ℝ), (4 / 1000 : ℝ)) (0, 2 / 1000) (3, 3)).1.1) = -3 / 1000 ∧ ((desymmetrizeDomain ((-2 / 1000 : ℝ), (4 / 1000 : ℝ)) (0, 2 / 1000) (3, 3)).1.2) = 6 / 1000 ∧
    ((desymmetrizeDomain ((-2 / 1000 : ℝ), (4 / 1000 : ℝ)) (0, 2 / 1000) (3, 3)).2.1) = -3 / 1000 ∧ ((desymmetrizeDomain ((-2 / 1000 : ℝ), (4 / 1000 : ℝ)) (0, 2 / 1000) (3, 3)).2.2) = 6 / 1000 := by
    have hcell := searched_eq ((-2 / 1000 : ℝ), (4 / 1000 : ℝ)) (0, 2 / 1000) (3, 3)
    have a1 := congrArg (fun c : Cell ℝ => c.re.1) hcell
    have a2 := congrArg (fun c : Cell ℝ => c.re.2) hcell
    have a3 := congrArg (fun c : Cell ℝ => c.im.1) hcell
    have a4 := congrArg (fun c : Cell ℝ => c.im.2) hcell
    dsimp only [Searched] at a1 a2 a3 a4
    have t : (10 : ℝ) ^ (-(3 : ℤ)) = 1 / 1000 := by norm_num
    rw [t] at a1 a2 a3 a4
    rw [a1, a2, a3, a4]
    rw [min_eq_left (by norm_num), max_eq_right (by norm_num), min_eq_left (by norm_num), max_eq_right (by norm_num)]
    norm_num
  exact Prod.ext (Prod.ext e1.1 e1.2.1) (Prod.ext e1.2.2.1 e1.2.2.2)

/-- non-vacuity of `C134_finder` (and `C134_search`): the zero 0 of `z * exp(z)` is reported -/
example : (newtonZexp.calculateRoots (-2 / 1000, 4 / 1000) (0, 2 / 1000) none none).outcome = .ok () ∧
    ∃ r ∈ held (newtonZexp.calculateRoots (-2 / 1000, 4 / 1000) (0, 2 / 1000) none none).finder.container, 1 ≤ r.2 ∧
      Near (3 / 2 * (10 : ℝ) ^ (-((2 : ℤ) + 1)), 3 / 2 * (10 : ℝ) ^ (-((2 : ℤ) + 1))) 0 r.1 := by
  obtain ⟨h1, _, h2, _⟩ := C134_finder newtonZexp absC (fun _ => rfl) (fun _ _ => none) rombCfg rfl (fun _ => rfl) (fun n => by simp [rombCfg]) le_rfl 9 rfl rfl dzexp rfl
    (-2 / 1000, 4 / 1000) (0, 2 / 1000) none (2, 2) (.inr ⟨rfl, rfl⟩) (by norm_num) (by norm_num) _ thirds_domain.symm [0] (fun z => z) 0 (57 / 8) zexp_analytic_small thirds_resolved thirds_tame 4 4
    (by unfold Cell.Below; norm_num) (by norm_num)
  refine ⟨h1, h2 0 (by simp) ?_⟩
  unfold Requested
  norm_num

/-- non-vacuity of `C134_parallel` (one process) -/
example : (newtonZexp.calculateRootsParallel 1 (-2 / 1000, 4 / 1000) (0, 2 / 1000) none ⟨[], false, 0⟩).outcome = .ok () := by
  refine (C134_parallel newtonZexp absC (fun _ => rfl) (fun _ _ => none) rombCfg rfl (fun _ => rfl) (fun n => by simp [rombCfg]) le_rfl 9 rfl rfl dzexp rfl 1 le_rfl
    (-2 / 1000, 4 / 1000) (0, 2 / 1000) none (2, 2) (.inr ⟨rfl, rfl⟩) (by norm_num) (by norm_num) ⟨[], false, 0⟩ rfl _ thirds_domain.symm [0] (fun z => z) 0 (57 / 8) zexp_analytic_small ?_ 4 4
    (by unfold Cell.Below; norm_num) (by norm_num)).1
  intro job hj
  have : job.reRan = ((-3 / 1000 : ℝ), (6 / 1000 : ℝ)) ∧ job.imRan = ((-3 / 1000 : ℝ), (6 / 1000 : ℝ)) := by
    obtain ⟨i, hi, j, hj', rfl⟩ := mem_jobs.1 hj
    obtain rfl : i = 0 := by omega
    obtain rfl : j = 0 := by omega
    constructor <;> simp only [jobAt, node] <;> norm_num
  rw [this.1, this.2]
  exact ⟨thirds_resolved, thirds_tame⟩

/-- a finder for `z * exp(z)` with the Newton grid algorithm -/
noncomputable def gridZexp : Finder Unit ℝ where
  f := zexp
  df := some dzexp
  algorithm := newtonGrid (scipySolver absC fun _ _ => none) 3 false
  precision := (2, 2)
  verbose := false
  info := false
  container := .rounding (RContainer.init none (2, 2))
  cache := EstCache.init false
  est := ()

/-- non-vacuity of `C135_finder`: with a grid of nine points the zero 0 is reported, also with a filter -/
example : ∃ fd', Finder.setRootFilters [(.zeroInBounds, 3)] gridZexp = (.ok (), fd') ∧
    ∃ r ∈ held (fd'.calculateRoots (-2 / 1000, 4 / 1000) (0, 2 / 1000) none none).finder.container, r.2 = 0 ∧
      Near (1 / 10 ^ 8 + (10 : ℝ) ^ (-((2 : ℤ) + 1)) / 2, 1 / 10 ^ 8 + (10 : ℝ) ^ (-((2 : ℤ) + 1)) / 2) 0 r.1 := by
  obtain ⟨fd', h1, _, _, h2, _⟩ := C135_finder gridZexp absC (fun _ => rfl) (fun _ _ => none) 3 (by norm_num) false rfl dzexp rfl rfl rfl [(.zeroInBounds, 3)]
    (-2 / 1000, 4 / 1000) (0, 2 / 1000) none (2, 2) (.inr ⟨rfl, rfl⟩) _ rfl
  have hcell : Searched ((-2 / 1000 : ℝ), (4 / 1000 : ℝ)) (0, 2 / 1000) (2 + 1, 2 + 1) = ⟨(-3 / 1000, 6 / 1000), (-3 / 1000, 6 / 1000), 0⟩ := by
    rw [← searched_eq, show ((2 + 1, 2 + 1) : ℤ × ℤ) = (3, 3) from rfl, thirds_domain]
  refine ⟨fd', h1, h2 0 (1 / 40) (zexp_steady _ le_rfl) (by norm_num) ?_ ?_ ?_⟩
  · rw [hcell]
    unfold Cell.Has
    norm_num
  · rw [hcell]
    norm_num
  · intro y hy
    rw [hcell]
    have a := (Complex.abs_re_le_norm (point y - point 0)).trans hy
    have b := (Complex.abs_im_le_norm (point y - point 0)).trans hy
    have ea : (point y - point 0).re = y.re := by show y.re - 0 = y.re; ring
    have eb : (point y - point 0).im = y.im := by show y.im - 0 = y.im; ring
    rw [ea, abs_le] at a
    rw [eb, abs_le] at b
    refine ⟨fun _ => ?_, fun t ht => ?_⟩
    · unfold Cell.Has
      dsimp only
      norm_num at a b ⊢
      refine ⟨?_, ?_, ?_, ?_⟩ <;> linarith
    · obtain ⟨pre, post, h, _⟩ := ht
      have : (FilterType.functionValueZero, t) ∈ [((.zeroInBounds : FilterType), (3 : ℤ))] := by rw [h]; simp
      simp at this

end PyZeal.Props
