import Verif.Proof.QuadSearch
import Verif.Props.SumTotal
import Verif.Props.Report

/-! # Property C130: searches with numerical quadrature -/

set_option linter.unusedSectionVars false

namespace PyZeal.Props
open Spec

/-! ## One line -/

/-- C130, one line. Let `f` be analytic along an axis-parallel line from `a` to `b`, with all zeros at distance at least `d` from it. Then the quadrature estimator
returns, without side effects, a value whose real part is the change of a continuous choice `θ` of the argument of `f` along the line, up to the error bound
`quadError`. -/
theorem C130_line {σ : Type} (cfg : QuadCfg ℝ) (hromb : cfg.romb = romberg) (habs : ∀ z, cfg.abs z = √(z.re ^ 2 + z.im ^ 2))
    (hev : ∀ n, 1 ≤ cfg.evals n) (hsteps : 13 ≤ cfg.steps) (ctx : RCtx ℝ) (df : Cx ℝ → Cx ℝ) (hdf : ctx.df = some df) (S : Cx ℝ → Prop)
    (zeros : List (Cx ℝ)) (G : ℂ → ℂ) (B V d : ℝ) (hf : AnalyticWith ctx.f df S zeros G B V) (hd : 0 < d) (a b : Cx ℝ) (hne : a ≠ b)
    (hax : a.im = b.im ∨ a.re = b.re) (hS : ∀ t, 0 ≤ t → t ≤ 1 → S (along a b t) ∧ Far d zeros (along a b t)) (w : World σ ℝ) :
    ∃ v, quadLine cfg 0 a b ctx w = (.ok v, w) ∧ ∃ θ : ℝ → ℝ, ContinuousOn θ (Set.Icc 0 1) ∧
      (∀ t ∈ Set.Icc (0 : ℝ) 1, point (ctx.f (along a b t)) = (‖point (ctx.f (along a b t))‖ : ℂ) * Complex.exp (θ t * Complex.I)) ∧
      |v.re - (θ 1 - θ 0)| ≤ quadError zeros.length B V d (|b.re - a.re| + |b.im - a.im|) := by
  obtain ⟨v, h1, h2⟩ := quadLine_phase cfg hromb habs hev hsteps df ctx hdf hf hd ⟨hne, hax⟩ hS w
  obtain ⟨θ, t1, t2, t3⟩ := AnalyticWith_argument hf hd hS
  exact ⟨v, h1, θ, t1, t2, by rw [t3]; exact h2⟩

/-! ## The search -/

/-- C130. Search with the simple argument algorithm and numerical quadrature (scipy's Romberg integration), for a function which is analytic on the rectangle, with its derivative given,
from any state without a pending interrupt: if the zeros keep off the sides of the rectangles the search comes to look at, and the recursion limit is
large enough for the precision, then the search returns; the candidates are exactly the final rectangles with zeros in them (centre, number of zeros); every zero in the
rectangle is near a candidate, every candidate is near a zero; the orders sum up to the number of zeros; and the number of rectangles looked at
is bounded. -/
theorem C130_search {σ : Type} (cfg : QuadCfg ℝ) (hromb : cfg.romb = romberg) (habs : ∀ z, cfg.abs z = √(z.re ^ 2 + z.im ^ 2))
    (hev : ∀ n, 1 ≤ cfg.evals n) (hsteps : 13 ≤ cfg.steps) (ctx : RCtx ℝ) (df : Cx ℝ → Cx ℝ) (hdf : ctx.df = some df)
    (hre : ctx.reRan.1 < ctx.reRan.2) (him : ctx.imRan.1 < ctx.imRan.2)
    (zeros : List (Cx ℝ)) (G : ℂ → ℂ) (B V : ℝ) (hf : AnalyticWith ctx.f df (Cell.Has ⟨ctx.reRan, ctx.imRan, 0⟩) zeros G B V)
    (hres : Resolved ctx.precision zeros B V ctx.reRan ctx.imRan)
    (limit m n : ℕ) (hb : Cell.Below ctx.precision m n ⟨ctx.reRan, ctx.imRan, 0⟩) (hl : m + n < limit) (w : World σ ℝ) (hfuse : w.fuse = none) :
    ∃ w', simpleArgument (quadLine cfg) Real.pi limit ctx w = (.ok (), w') ∧ w'.fuse = none ∧
    newRoots w w' = ((newCells w w').filter fun c => decide (Cell.Stop Real.pi ctx.precision c ∧ 1 ≤ Cell.count c zeros)).map
      (fun c => (Cell.centre c, (Cell.count c zeros : ℤ))) ∧
    (∀ z ∈ zeros, Cell.HasHalfOpen ⟨ctx.reRan, ctx.imRan, 0⟩ z → ∃ r ∈ newRoots w w', 1 ≤ r.2 ∧
      Near (10 ^ (-ctx.precision.1) / 2, 10 ^ (-ctx.precision.2) / 2) z r.1) ∧
    (∀ r ∈ newRoots w w', 1 ≤ r.2 ∧ ∃ z ∈ zeros, Cell.HasHalfOpen ⟨ctx.reRan, ctx.imRan, 0⟩ z ∧
      Near (10 ^ (-ctx.precision.1) / 2, 10 ^ (-ctx.precision.2) / 2) z r.1) ∧
    ((newRoots w w').map Prod.snd).sum = Cell.count ⟨ctx.reRan, ctx.imRan, 0⟩ zeros ∧
    (newCells w w').length ≤ 1 + 2 * Cell.count ⟨ctx.reRan, ctx.imRan, 0⟩ zeros * (m + n) := by
  have hpi := Real.pi_pos
  have hg := quad_good (σ := σ) cfg hromb habs hev hsteps df ctx hdf hre him hf (fun _ _ h => h) hres
  obtain ⟨w', h1, h2, hacc', hno⟩ := hg.search (simple_stops _ Real.pi ctx) simple_open (quiet_simple _ _) (Finishes.simpleAct Real.pi ctx) (good_simple hpi ctx)
    limit m n hb hl w hfuse
  have h1 : simpleArgument (quadLine cfg) Real.pi limit ctx w = (.ok (), w') := h1
  have hacc := fun c hc => (hacc' c hc).2
  obtain ⟨a1, a2, a3, a4, a5⟩ := C37_tolerance (quadLine cfg) Real.pi hpi limit ctx (quadLine_hits cfg ctx) w w' h1 zeros hacc
  have hfil : (newRoots w w').filter (fun r => decide (r.2 ≠ 0)) = newRoots w w' :=
    List.filter_eq_self.2 fun r hr => by simpa using hno r hr
  rw [hfil] at a1
  refine ⟨w', h1, h2, a1, a2, fun r hr => ?_, a4, a5 m n hb⟩
  have hr' := hr
  rw [a1] at hr'
  obtain ⟨c, hc, rfl⟩ := List.mem_map.1 hr'
  obtain ⟨hc, hcs⟩ := List.mem_filter.1 hc
  simp only [decide_eq_true_eq] at hcs
  refine ⟨Int.ofNat_le.2 hcs.2, ?_⟩
  obtain ⟨z, hz⟩ := List.exists_mem_of_length_pos (l := zeros.filter fun z => decide (Cell.HasHalfOpen c z)) hcs.2
  obtain ⟨hz, hcz⟩ := List.mem_filter.1 hz
  have hcz : Cell.HasHalfOpen c z := by simpa using hcz
  have hsm : Cell.Small ctx.precision c := by
    rcases hcs.1 with h | h
    · exact absurd ((approx_cell hpi (hacc c hc)).1.2 hcs.2) h
    · exact h
  obtain ⟨phi, t, A, t1, t2, _⟩ := simple_run hpi (quadLine_hits cfg ctx) h1
  have hcells : newCells w w' = ⟨ctx.reRan, ctx.imRan, phi⟩ :: t.log ctx.precision ⟨ctx.reRan, ctx.imRan, phi⟩ := by
    unfold newCells; rw [t2]; simp
  have hleaf : c ∈ t.leaves ctx.precision ⟨ctx.reRan, ctx.imRan, phi⟩ := by
    rw [← t.leaves_eq_filter (Cell.Stop Real.pi ctx.precision) _ _ t1, ← hcells]
    exact List.mem_filter.2 ⟨hc, by simpa using hcs.1⟩
  refine ⟨z, hz, Tree.halfOpen_rect ctx.precision t ⟨ctx.reRan, ctx.imRan, phi⟩ c z hleaf hcz, ?_⟩
  · obtain ⟨s1, s2⟩ := hsm
    obtain ⟨z1, z2, z3, z4⟩ := hcz
    unfold Near Cell.centre
    dsimp only
    rw [abs_lt, abs_lt]
    refine ⟨⟨?_, ?_⟩, ?_, ?_⟩ <;> linarith

/-- C130 for the Newton variant: the search returns; every candidate has positive order and belongs to one of the rectangles the search comes to look at: it is the centre of
a small one with zeros (the order is their number), or a result of the solver on one with exactly one zero. If the secant method converges on such rectangles with exactly one zero and sides below 0.1,
every zero is near a candidate. -/
theorem C130_newton {σ : Type} (nt : NewtonSolver ℝ) (cfg : QuadCfg ℝ) (hromb : cfg.romb = romberg) (habs : ∀ z, cfg.abs z = √(z.re ^ 2 + z.im ^ 2))
    (hev : ∀ n, 1 ≤ cfg.evals n) (hsteps : 13 ≤ cfg.steps) (ctx : RCtx ℝ) (df : Cx ℝ → Cx ℝ) (hdf : ctx.df = some df)
    (hre : ctx.reRan.1 < ctx.reRan.2) (him : ctx.imRan.1 < ctx.imRan.2)
    (zeros : List (Cx ℝ)) (G : ℂ → ℂ) (B V : ℝ) (hf : AnalyticWith ctx.f df (Cell.Has ⟨ctx.reRan, ctx.imRan, 0⟩) zeros G B V)
    (hres : Resolved ctx.precision zeros B V ctx.reRan ctx.imRan)
    (limit m n : ℕ) (hb : Cell.Below ctx.precision m n ⟨ctx.reRan, ctx.imRan, 0⟩) (hl : m + n < limit) (w : World σ ℝ) (hfuse : w.fuse = none) :
    ∃ w', simpleArgumentNewton nt (quadLine cfg) Real.pi limit ctx w = (.ok (), w') ∧ w'.fuse = none ∧
    (∀ r ∈ newRoots w w', 1 ≤ r.2 ∧ ∃ c, Reached ctx.precision zeros ctx.reRan ctx.imRan c.re c.im ∧
      ((Cell.Small ctx.precision c ∧ r.1 = Cell.centre c ∧ r.2 = (Cell.count c zeros : ℤ)) ∨
      (Cell.count c zeros = 1 ∧ r.2 = 1 ∧ SolverResult nt ctx c r.1))) ∧
    ((∀ c, Reached ctx.precision zeros ctx.reRan ctx.imRan c.re c.im → Cell.count c zeros = 1 → c.re.2 - c.re.1 < 1 / 10 → c.im.2 - c.im.1 < 1 / 10 →
        ∀ z ∈ zeros, Cell.HasHalfOpen c z → ∃ z',
        nt.secant ctx.f ⟨c.re.1, (Cell.centre c).im⟩ ⟨c.re.2, (Cell.centre c).im⟩
          (min ((10 : ℝ) ^ (-ctx.precision.1)) (10 ^ (-ctx.precision.2))) = some z' ∧
        Near ((10 : ℝ) ^ (-ctx.precision.1), (10 : ℝ) ^ (-ctx.precision.2)) z z') →
      ∀ z ∈ zeros, Cell.HasHalfOpen ⟨ctx.reRan, ctx.imRan, 0⟩ z → ∃ r ∈ newRoots w w', 1 ≤ r.2 ∧
        Near ((10 : ℝ) ^ (-ctx.precision.1), (10 : ℝ) ^ (-ctx.precision.2)) z r.1) := by
  have hpi := Real.pi_pos
  have hg := quad_good (σ := σ) cfg hromb habs hev hsteps df ctx hdf hre him hf (fun _ _ h => h) hres
  obtain ⟨w', h1, h2, hacc, hno⟩ := hg.search (newton_stops nt _ Real.pi ctx) newton_open (quiet_newton _ _ _) (Finishes.newtonAct nt Real.pi ctx)
    (good_newton nt hpi ctx) limit m n hb hl w hfuse
  have h1 : simpleArgumentNewton nt (quadLine cfg) Real.pi limit ctx w = (.ok (), w') := h1
  obtain ⟨a1, a2, a3⟩ := newton_tolerance nt (quadLine cfg) limit ctx (quadLine_hits cfg ctx) hre.le him.le zeros w w' h1 (fun c hc => (hacc c hc).2) hno
  refine ⟨w', h1, h2, fun r hr => ?_, fun h => a3 fun c hc hone => ?_⟩
  · obtain ⟨b1, c, hc, b2⟩ := a2 r hr
    refine ⟨b1, c, (hacc c hc).1, b2.imp_right ?_⟩
    rintro ⟨b3, b4, b5⟩
    exact ⟨a1 c hc b3, b4, b5⟩
  · exact h c (hacc c hc).1 (a1 c hc hone) hone.2.2.1 hone.2.2.2

/-! ## Finders -/

/-- a computation which completes although an interrupt was pending adds the same as without -/
theorem added_same {σ : Type} {m : Py (World σ ℝ) Unit} (hi : Interruptible m) {w w' w1 : World σ ℝ} (h : m w = (.ok (), w'))
    (h1 : m { w with fuse := none } = (.ok (), w1)) : w'.added = w1.added ∧ w.added <+: w1.added := by
  obtain ⟨_, i2, i3⟩ := hi { w with fuse := none } rfl
  have hadd : w'.added = w1.added := by
    rcases hw : w.fuse with _ | k
    · have e : ({ w with fuse := none } : World σ ℝ) = w := by rw [← hw]
      rw [e, h] at h1
      injection h1 with _ h1
      rw [h1]
    · have e : ({ ({ w with fuse := none } : World σ ℝ) with fuse := some k } : World σ ℝ) = w := by
        show { w with fuse := some k } = w
        rw [← hw]
      rcases i3 k with ⟨j, h2⟩ | ⟨h2, _⟩
      · rw [e, h, h1] at h2
        injection h2 with _ h2
        rw [h2]
      · rw [e, h] at h2
        simp at h2
  rw [h1] at i2
  exact ⟨hadd, i2⟩

/-- a search which completes although an interrupt was pending does the same as without -/
theorem quad_sound {σ : Type} (cfg : QuadCfg ℝ) (hromb : cfg.romb = romberg) (habs : ∀ z, cfg.abs z = √(z.re ^ 2 + z.im ^ 2))
    (hev : ∀ n, 1 ≤ cfg.evals n) (hsteps : 13 ≤ cfg.steps) (ctx : RCtx ℝ) (df : Cx ℝ → Cx ℝ) (hdf : ctx.df = some df)
    (hre : ctx.reRan.1 < ctx.reRan.2) (him : ctx.imRan.1 < ctx.imRan.2)
    (zeros : List (Cx ℝ)) (G : ℂ → ℂ) (B V : ℝ) (hf : AnalyticWith ctx.f df (Cell.Has ⟨ctx.reRan, ctx.imRan, 0⟩) zeros G B V)
    (hres : Resolved ctx.precision zeros B V ctx.reRan ctx.imRan)
    (limit m n : ℕ) (hb : Cell.Below ctx.precision m n ⟨ctx.reRan, ctx.imRan, 0⟩) (hl : m + n < limit) :
    SoundAt (simpleArgument (quadLine cfg : LineEst σ ℝ) Real.pi limit) ctx (fun _ => False) zeros (10 ^ (-ctx.precision.1) / 2, 10 ^ (-ctx.precision.2) / 2) := by
  intro w w' h
  obtain ⟨w1, h1, _, _, b1, b2, _⟩ := C130_search (σ := σ) cfg hromb habs hev hsteps ctx df hdf hre him zeros G B V hf hres limit m n hb hl { w with fuse := none } rfl
  have hi : Interruptible (simpleArgument (quadLine cfg : LineEst σ ℝ) Real.pi limit ctx) :=
    .calcRoots (fun o a b => (Interruptible.closed ctx.f).toBasic.quadLine cfg o a b)
      (fun _ hs => .simpleDecide (fun o a b => (Interruptible.closed ctx.f).toBasic.quadLine cfg o a b) Real.pi hs) limit
  obtain ⟨hadd, i2⟩ := added_same hi h h1
  have hnew : newRoots w w' = newRoots { w with fuse := none } w1 := by unfold newRoots; rw [hadd]
  refine ⟨by rw [hadd]; exact i2, by rw [hnew]; exact b1, fun r hr => .inr (b2 r (by rw [← hnew]; exact hr))⟩

/-- C130 for finders. A `RootFinder` with the simple argument algorithm, numerical quadrature and a rounding container without filters,
for an analytic function with its derivative, under the hypotheses of `C130_search` for the rectangle it searches; in any state (for instance
after other searches). The call returns without warning; every zero in the requested rectangle has a reported root of positive order closer
than `10^-(p+1)` in each coordinate, and every root that is new in the container has positive order, lies in the requested rectangle enlarged by `5 * 10^-(p+1)`, and
is closer than `10^-(p+1)` to a zero. -/
theorem C130_finder {σ : Type} (fd : Finder σ ℝ) (cfg : QuadCfg ℝ) (hromb : cfg.romb = romberg) (habs : ∀ z, cfg.abs z = √(z.re ^ 2 + z.im ^ 2))
    (hev : ∀ n, 1 ≤ cfg.evals n) (hsteps : 13 ≤ cfg.steps) (limit : ℕ) (halg : fd.algorithm = simpleArgument (quadLine cfg) Real.pi limit)
    (hcont : RoundsFreely fd.container) (df : Cx ℝ → Cx ℝ) (hdf : fd.df = some df) (re im : ℝ × ℝ) (call : Option (ℤ × ℤ)) (p : ℤ × ℤ)
    (hp : Asked call fd.precision p) (dom : (ℝ × ℝ) × (ℝ × ℝ)) (hdom : dom = desymmetrizeDomain re im (p.1 + 1, p.2 + 1))
    (zeros : List (Cx ℝ)) (G : ℂ → ℂ) (B V : ℝ) (hf : AnalyticWith fd.f df (Cell.Has ⟨dom.1, dom.2, 0⟩) zeros G B V)
    (hres : Resolved (p.1 + 1, p.2 + 1) zeros B V dom.1 dom.2)
    (m n : ℕ) (hb : Cell.Below (p.1 + 1, p.2 + 1) m n ⟨dom.1, dom.2, 0⟩) (hl : m + n < limit) :
    let s := fd.calculateRoots re im call none
    s.outcome = .ok () ∧ s.warned = false ∧
    (∀ z ∈ zeros, Requested re im z → ∃ r ∈ held s.finder.container, 1 ≤ r.2 ∧
      Near (10 ^ (-(p.1 + 1)), 10 ^ (-(p.2 + 1))) z r.1) ∧
    ∀ r ∈ held s.finder.container, r ∈ held fd.container ∨
      (1 ≤ r.2 ∧ RequestedWithin (5 * 10 ^ (-(p.1 + 1)), 5 * 10 ^ (-(p.2 + 1))) re im r.1 ∧
        ∃ z ∈ zeros, Near (10 ^ (-(p.1 + 1)), 10 ^ (-(p.2 + 1))) z r.1) := by
  intro s
  obtain ⟨d1, d2, d3, d4⟩ := C46_domain re im (p.1 + 1, p.2 + 1)
  rw [← hdom] at d1 d2 d3 d4
  have hprec : (fd.ctx re im call).precision = (p.1 + 1, p.2 + 1) := searchPrecision_asked hp
  have hd1 : (fd.ctx re im call).reRan = dom.1 := by
    rw [hdom, ← searchPrecision_asked hp]; rfl
  have hd2 : (fd.ctx re im call).imRan = dom.2 := by
    rw [hdom, ← searchPrecision_asked hp]; rfl
  obtain ⟨w', a1, _, a0, a2, a3, _⟩ := C130_search cfg hromb habs hev hsteps (fd.ctx re im call) df hdf (by rw [hd1]; exact d1) (by rw [hd2]; exact d2)
    zeros G B V (by rw [hd1, hd2]; exact hf) (by rw [hd1, hd2, hprec]; exact hres) limit m n (by rw [hd1, hd2, hprec]; exact hb) hl (fd.start none) rfl
  have hadd : (fd.algorithm (fd.ctx re im call) (fd.start none)).2.added = newRoots (fd.start none) w' := by
    rw [halg, a1]; rfl
  have hrun : (fd.algorithm (fd.ctx re im call) (fd.start none)).1 = .ok () := by rw [halg, a1]
  obtain ⟨e1, e2⟩ := calculateRoots_outcome fd re im call none
  rw [hrun] at e1 e2
  have hhas := C36_candidates_justified (quadLine cfg) Real.pi Real.pi_pos limit (fd.ctx re im call) (quadLine_hits cfg _)
    (by rw [hd1]; exact d1.le) (by rw [hd2]; exact d2.le) (fd.start none)
  rw [a1] at hhas
  dsimp only at hhas
  refine ⟨e1.trans (if_neg (by simp)), e2.trans (by simp), ?_⟩
  obtain ⟨b1, b2⟩ := serial_report fd hcont re im call p hp none zeros (by rw [hadd]; exact a2)
    (by
      rw [hadd]
      intro r hr _
      obtain ⟨_, z, z1, _, z2⟩ := a3 r hr
      exact ⟨z, z1, z2⟩) (by
      rw [hadd]
      intro q hq
      rcases hhas q hq with h | ⟨c, _, h1, _, _, h2, _, h3⟩
      · exact .inl h
      · obtain ⟨a1, a2, a3, a4, a5, a6⟩ := h1
        refine .inr ⟨h3, ?_⟩
        rw [h2]
        unfold Cell.Has Cell.centre
        dsimp only at a1 a2 a3 a4 a5 a6 ⊢
        refine ⟨?_, ?_, ?_, ?_⟩ <;> linarith)
  refine ⟨b1, fun x hx => (b2 x hx).imp id ?_⟩
  rintro ⟨⟨q, hq, hqx⟩, h | h⟩
  · rw [hadd] at hq
    have := (a3 q hq).1
    omega
  · exact h

/-- jobs which all return -/
theorem runJobs_returns {σ : Type} {alg : RCtx ℝ → Py (World σ ℝ) Unit} {jobs : List (RCtx ℝ)}
    (h : ∀ job ∈ jobs, ∀ w : World σ ℝ, w.fuse = none → ∃ w', alg job w = (.ok (), w') ∧ w'.fuse = none) (w : World σ ℝ) (hw : w.fuse = none) :
    (runJobs alg jobs w).1 = .ok () := by
  induction jobs generalizing w with
  | nil => rfl
  | cons job jobs ih =>
    obtain ⟨w1, h1, h2⟩ := h job (by simp) w hw
    unfold runJobs
    rw [Py.bind_run, h1]
    exact ih (fun j hj => h j (by simp [hj])) w1 h2

/-- the jobs of a parallel search -/
theorem job_facts {σ : Type} (fd : Finder σ ℝ) (df : Cx ℝ → Cx ℝ) (hdf : fd.df = some df) (cpus : ℕ) (hcpus : 1 ≤ cpus) (dom : (ℝ × ℝ) × (ℝ × ℝ))
    (d1 : dom.1.1 < dom.1.2) (d2 : dom.2.1 < dom.2.2) (q : ℤ × ℤ) (zeros : List (Cx ℝ)) (G : ℂ → ℂ) (B V : ℝ) (hf : AnalyticWith fd.f df (Cell.Has ⟨dom.1, dom.2, 0⟩) zeros G B V)
    (m n : ℕ) (hb : Cell.Below q m n ⟨dom.1, dom.2, 0⟩) (job : RCtx ℝ) (hj : job ∈ createRootJobs fd.f fd.df cpus dom.1 dom.2 q fd.verbose) :
    job.df = some df ∧ job.precision = q ∧ job.reRan.1 < job.reRan.2 ∧ job.imRan.1 < job.imRan.2 ∧
    (∀ z, Cell.Has (⟨job.reRan, job.imRan, 0⟩ : Cell ℝ) z → Cell.Has ⟨dom.1, dom.2, 0⟩ z) ∧
    Cell.Below job.precision m n ⟨job.reRan, job.imRan, 0⟩ ∧ AnalyticWith job.f df (Cell.Has ⟨job.reRan, job.imRan, 0⟩) zeros G B V := by
  obtain ⟨h1, h2, h3, _⟩ := (C47_jobs fd.f fd.df cpus hcpus dom.1 dom.2 d1.le d2.le _ _).2.2.2.2.2 job hj
  have hnode : ∀ (r : ℝ × ℝ) (i : ℕ), r.1 < r.2 → node r cpus i < node r cpus (i + 1) := by
    intro r i hr
    have hc : (0 : ℝ) < cpus := by exact_mod_cast hcpus
    have h := mul_pos (div_pos one_pos hc) (sub_pos.2 hr)
    unfold node
    push_cast
    rw [add_div, add_mul]
    linarith
  obtain ⟨i, _, j, _, hij⟩ := mem_jobs.1 hj
  obtain ⟨i1, i2, i3, i4, i5, i6⟩ : Cell.In ⟨job.reRan, job.imRan, 0⟩ ⟨dom.1, dom.2, 0⟩ := jobs_in hcpus d1.le d2.le hj
  dsimp only at i1 i2 i3 i4 i5 i6
  have hsub : ∀ z, Cell.Has (⟨job.reRan, job.imRan, 0⟩ : Cell ℝ) z → Cell.Has ⟨dom.1, dom.2, 0⟩ z := fun z hz =>
    ⟨i1.trans hz.1, hz.2.1.trans i3, i4.trans hz.2.2.1, hz.2.2.2.trans i6⟩
  refine ⟨h2.trans hdf, h3, by rw [hij]; exact hnode dom.1 i d1, by rw [hij]; exact hnode dom.2 j d2, hsub, ?_, ?_⟩
  · rw [h3]
    exact ⟨lt_of_le_of_lt (by dsimp only; linarith) hb.1, lt_of_le_of_lt (by dsimp only; linarith) hb.2⟩
  · rw [h1]
    exact ⟨fun z hz => hf.analytic z (hsub z hz), fun z hz => hf.value z (hsub z hz), fun z hz => hf.deriv z (hsub z hz), fun z hz => hf.bound z (hsub z hz),
      fun a b ha hb => hf.osc a b (hsub a ha) (hsub b hb)⟩

/-- a parallel search whose jobs all return -/
theorem parallel_returns {σ : Type} (fd : Finder σ ℝ) (cpus : ℕ) (hcpus : 1 ≤ cpus) (re im : ℝ × ℝ)
    (call : Option (ℤ × ℤ)) (p : ℤ × ℤ) (hp : Asked call fd.precision p) (sched : Schedule) (hsched : sched.interrupted = false)
    (dom : (ℝ × ℝ) × (ℝ × ℝ)) (hdom : dom = desymmetrizeDomain re im (p.1 + 1, p.2 + 1))
    (hret : ∀ job ∈ createRootJobs fd.f fd.df cpus dom.1 dom.2 (p.1 + 1, p.2 + 1) fd.verbose, ∀ w : World σ ℝ, w.fuse = none →
      ∃ w', fd.algorithm job w = (.ok (), w') ∧ w'.fuse = none) :
    (fd.calculateRootsParallel cpus re im call sched).outcome = .ok () ∧ (fd.calculateRootsParallel cpus re im call sched).warned = false := by
  have hpiece : ∀ piece ∈ chunks cpus (createRootJobs fd.f fd.df cpus dom.1 dom.2 (p.1 + 1, p.2 + 1) fd.verbose).length
      (createRootJobs fd.f fd.df cpus dom.1 dom.2 (p.1 + 1, p.2 + 1) fd.verbose), (runPiece fd piece).1 = .ok () := by
    intro piece hpc
    refine runJobs_returns (fun job hj w hw => ?_) _ rfl
    have hj : job ∈ createRootJobs fd.f fd.df cpus dom.1 dom.2 (p.1 + 1, p.2 + 1) fd.verbose := by
      rw [← chunks_flatten hcpus _ (createRootJobs fd.f fd.df cpus dom.1 dom.2 (p.1 + 1, p.2 + 1) fd.verbose) le_rfl]
      exact List.mem_flatten.2 ⟨piece, hpc, hj⟩
    exact hret job hj w hw
  simp only [Finder.calculateRootsParallel, hsched, Bool.false_eq_true, if_false, searchPrecision_asked hp, ← hdom]
  have hff : firstFailure sched (((chunks cpus (createRootJobs fd.f fd.df cpus dom.1 dom.2 (p.1 + 1, p.2 + 1) fd.verbose).length
    (createRootJobs fd.f fd.df cpus dom.1 dom.2 (p.1 + 1, p.2 + 1) fd.verbose)).map (runPiece fd)).map Prod.fst) = .ok () := by
    unfold firstFailure
    have : (((chunks cpus (createRootJobs fd.f fd.df cpus dom.1 dom.2 (p.1 + 1, p.2 + 1) fd.verbose).length
      (createRootJobs fd.f fd.df cpus dom.1 dom.2 (p.1 + 1, p.2 + 1) fd.verbose)).map (runPiece fd)).map Prod.fst).filterMap errorOf = [] := by
      rw [List.filterMap_eq_nil_iff]
      intro x hx
      obtain ⟨y, hy, rfl⟩ := List.mem_map.1 hx
      obtain ⟨piece, hpc, rfl⟩ := List.mem_map.1 hy
      rw [hpiece piece hpc]
      rfl
    rw [this]
  rw [hff]
  exact ⟨rfl, rfl⟩

/-- C130 for parallel finders: the same for a `ParallelRootFinder` with any number of processes and any schedule without interrupt, if the hypotheses hold for the rectangle of each job.
The call returns; every zero in the requested rectangle has a reported root of positive order closer than `0.55 * 10^-p` in each coordinate, and every root
that is new in the container has positive order and is that close to a zero at most `4 * 10^-(p+1)` outside the requested rectangle. -/
theorem C130_parallel {σ : Type} (fd : Finder σ ℝ) (cfg : QuadCfg ℝ) (hromb : cfg.romb = romberg) (habs : ∀ z, cfg.abs z = √(z.re ^ 2 + z.im ^ 2))
    (hev : ∀ n, 1 ≤ cfg.evals n) (hsteps : 13 ≤ cfg.steps) (limit : ℕ) (halg : fd.algorithm = simpleArgument (quadLine cfg) Real.pi limit)
    (hcont : RoundsFreely fd.container) (df : Cx ℝ → Cx ℝ) (hdf : fd.df = some df) (cpus : ℕ) (hcpus : 1 ≤ cpus) (re im : ℝ × ℝ)
    (call : Option (ℤ × ℤ)) (p : ℤ × ℤ) (hp : Asked call fd.precision p) (sched : Schedule) (hsched : sched.interrupted = false)
    (dom : (ℝ × ℝ) × (ℝ × ℝ)) (hdom : dom = desymmetrizeDomain re im (p.1 + 1, p.2 + 1))
    (zeros : List (Cx ℝ)) (G : ℂ → ℂ) (B V : ℝ) (hf : AnalyticWith fd.f df (Cell.Has ⟨dom.1, dom.2, 0⟩) zeros G B V)
    (hres : ∀ job ∈ createRootJobs fd.f fd.df cpus dom.1 dom.2 (p.1 + 1, p.2 + 1) fd.verbose, Resolved (p.1 + 1, p.2 + 1) zeros B V job.reRan job.imRan)
    (m n : ℕ) (hb : Cell.Below (p.1 + 1, p.2 + 1) m n ⟨dom.1, dom.2, 0⟩) (hl : m + n < limit) :
    let s := fd.calculateRootsParallel cpus re im call sched
    s.outcome = .ok () ∧ s.warned = false ∧
    (∀ z ∈ zeros, Requested re im z → ∃ r ∈ held s.finder.container, 1 ≤ r.2 ∧
      Near (55 / 100 * 10 ^ (-p.1), 55 / 100 * 10 ^ (-p.2)) z r.1) ∧
    ∀ r ∈ held s.finder.container, r ∈ held fd.container ∨
      (1 ≤ r.2 ∧ ∃ z ∈ zeros, Cell.Has (Enlarged (4 * 10 ^ (-(p.1 + 1)), 4 * 10 ^ (-(p.2 + 1))) re im) z ∧
        Near (55 / 100 * 10 ^ (-p.1), 55 / 100 * 10 ^ (-p.2)) z r.1) := by
  intro s
  obtain ⟨d1, d2, _, _⟩ := C46_domain re im (p.1 + 1, p.2 + 1)
  rw [← hdom] at d1 d2
  have hjob := fun job hj => job_facts fd df hdf cpus hcpus dom d1 d2 _ zeros G B V hf m n hb job hj
  have hout := parallel_returns fd cpus hcpus re im call p hp sched hsched dom hdom fun job hj w hw => by
    obtain ⟨h2, h3, h4, h5, _, h6, h7⟩ := hjob job hj
    obtain ⟨w', a1, a2, _⟩ := C130_search cfg hromb habs hev hsteps job df h2 h4 h5 zeros G B V h7 (h3 ▸ hres job hj) limit m n h6 hl w hw
    exact ⟨w', by rw [halg]; exact a1, a2⟩
  have e10 : ∀ q : ℤ, (10 : ℝ) ^ (-(q + 1)) / 2 + 10 ^ (-q) / 2 = 55 / 100 * 10 ^ (-q) := by
    intro q
    rw [neg_add, zpow_add₀ (by norm_num)]
    norm_num
    ring
  obtain ⟨b1, b2⟩ := parallel_sound fd hcont cpus hcpus re im call p hp sched hsched (fun _ => False) zeros
    ((10 : ℝ) ^ (-(p.1 + 1)) / 2, (10 : ℝ) ^ (-(p.2 + 1)) / 2) (by
      rw [← hdom]
      intro job hj
      obtain ⟨h2, h3, h4, h5, _, h6, h7⟩ := hjob job hj
      have := quad_sound (σ := σ) cfg hromb habs hev hsteps job df h2 h4 h5 zeros G B V h7 (h3 ▸ hres job hj) limit m n h6 hl
      rw [h3] at this
      rw [halg]
      exact this) hout.1
  simp only [e10] at b1 b2
  refine ⟨hout.1, hout.2, b1, fun r hr => ?_⟩
  rcases b2 r hr with h | ⟨_, z, h, _⟩ | h
  · exact .inl h
  · exact h.elim
  · exact .inr h

/-! ## A concrete case: `f(z) = z * exp(z)` -/

/-- the quadrature estimator with scipy's Romberg integration -/
noncomputable def rombCfg : QuadCfg ℝ where
  romb := romberg
  abs := fun z => √(z.re ^ 2 + z.im ^ 2)
  evals := fun n => n + 1
  steps := 13

noncomputable def zexp (z : Cx ℝ) : Cx ℝ := ⟨(Complex.exp (point z) * point z).re, (Complex.exp (point z) * point z).im⟩

noncomputable def dzexp (z : Cx ℝ) : Cx ℝ := ⟨(Complex.exp (point z) * (point z + 1)).re, (Complex.exp (point z) * (point z + 1)).im⟩

noncomputable def zexpCtx : RCtx ℝ := ⟨zexp, some dzexp, (0, 0), (-9 / 8, 17 / 8), (-49 / 16, 65 / 16), false⟩

noncomputable def zexpFinder : Finder Unit ℝ where
  f := zexp
  df := some dzexp
  algorithm := simpleArgument (quadLine rombCfg) Real.pi 7
  precision := (3, 3)
  verbose := false
  info := false
  container := .rounding (RContainer.init none (3, 3))
  cache := EstCache.init false
  est := ()

theorem zexp_analytic : AnalyticWith zexp dzexp (Cell.Has ⟨((-9 / 8 : ℝ), (17 / 8 : ℝ)), (-49 / 16, 65 / 16), 0⟩) [0] (fun z => z) 0 (57 / 8) := by
  have p0 : point 0 = 0 := rfl
  refine ⟨fun z _ => analyticAt_id, fun z _ => ?_, fun z _ => ?_, fun z _ => ?_, fun a b ha hb => ?_⟩
  · simp only [List.map_cons, List.map_nil, List.prod_cons, List.prod_nil, mul_one, p0, sub_zero]
    rfl
  · have h1 := (Complex.hasDerivAt_exp (point z)).mul (hasDerivAt_id (point z))
    have e : point (dzexp z) = Complex.exp (point z) * id (point z) + Complex.exp (point z) * 1 := by
      show Complex.exp (point z) * (point z + 1) = _
      simp only [id]; ring
    rw [e]
    refine h1.congr_of_eventuallyEq (Filter.Eventually.of_forall fun u => ?_)
    simp [p0]
  · have : iteratedDeriv 3 (fun z : ℂ => z) (point z) = 0 := by
      have : (fun z : ℂ => z) = id := rfl
      rw [this]
      simp [iteratedDeriv_succ, iteratedDeriv_zero]
    rw [this]; simp
  · obtain ⟨_, _, a3, a4⟩ := ha
    obtain ⟨_, _, b3, b4⟩ := hb
    dsimp only at a3 a4 b3 b4
    show |b.im - a.im| ≤ _
    rw [abs_le]
    constructor <;> linarith

theorem zexp_resolved : Resolved (0, 0) [0] 0 (57 / 8) ((-9 / 8 : ℝ), (17 / 8 : ℝ)) (-49 / 16, 65 / 16) := by
  intro r i h
  have hpi := Real.two_le_pi
  have hpi4 := Real.pi_le_four
  refine ⟨1 / 4, by norm_num, wid_far r i h, ?_⟩
  have key : ∀ l : ℝ, 0 ≤ l → l ≤ 57 / 8 → quadError [(0 : Cx ℝ)].length 0 (57 / 8) (1 / 4) l < Real.pi / 10 := by
    intro l h0 h1
    have h3 : l ^ 3 ≤ (57 / 8) ^ 3 := pow_le_pow_left₀ h0 h1 3
    unfold quadError
    simp only [List.length_singleton]
    norm_num at h3 ⊢
    linarith
  rcases wid_reached r i h with ⟨rfl, rfl⟩ | ⟨rfl, rfl⟩ | ⟨rfl, rfl⟩ | ⟨rfl, rfl⟩ | ⟨rfl, rfl⟩ | ⟨rfl, rfl⟩ | ⟨rfl, rfl⟩ | ⟨rfl, rfl⟩ | ⟨rfl, rfl⟩ | ⟨rfl, rfl⟩ | ⟨rfl, rfl⟩ <;>
    exact ⟨key _ (by norm_num) (by norm_num), key _ (by norm_num) (by norm_num)⟩

theorem zexp_below : Cell.Below (0, 0) 2 3 (⟨(-9 / 8, 17 / 8), (-49 / 16, 65 / 16), 0⟩ : Cell ℝ) := by
  unfold Cell.Below; norm_num

/-- non-vacuity of `C130_search`: the zero 0 of `z * exp(z)` is found, with order one in total -/
example (w : World Unit ℝ) (hw : w.fuse = none) : ∃ w', simpleArgument (quadLine rombCfg) Real.pi 7 zexpCtx w = (.ok (), w') ∧
    (∃ r ∈ newRoots w w', 1 ≤ r.2 ∧ Near (10 ^ (-(0 : ℤ)) / 2, 10 ^ (-(0 : ℤ)) / 2) (0 : Cx ℝ) r.1) ∧ ((newRoots w w').map Prod.snd).sum = 1 := by
  have hin : Cell.HasHalfOpen (⟨(-9 / 8, 17 / 8), (-49 / 16, 65 / 16), 0⟩ : Cell ℝ) 0 := by unfold Cell.HasHalfOpen; norm_num
  obtain ⟨w', h1, _, _, h2, _, h3, _⟩ := C130_search rombCfg rfl (fun _ => rfl) (fun n => by simp [rombCfg]) le_rfl zexpCtx dzexp rfl (by norm_num [zexpCtx]) (by norm_num [zexpCtx])
    [0] (fun z => z) 0 (57 / 8) zexp_analytic zexp_resolved 7 2 3 zexp_below (by norm_num) w hw
  refine ⟨w', h1, h2 0 (by simp) hin, ?_⟩
  rw [h3]
  have : Cell.count (⟨(-9 / 8, 17 / 8), (-49 / 16, 65 / 16), 0⟩ : Cell ℝ) [0] = 1 := by unfold Cell.count; simp [hin]
  show ((Cell.count (⟨(-9 / 8, 17 / 8), (-49 / 16, 65 / 16), 0⟩ : Cell ℝ) [0] : ℕ) : ℤ) = 1
  rw [this]; rfl

/-- non-vacuity of `C130_line`: the lower side -/
example (w : World Unit ℝ) : ∃ v, quadLine rombCfg 0 ⟨-9 / 8, -49 / 16⟩ ⟨17 / 8, -49 / 16⟩ zexpCtx w = (.ok v, w) := by
  obtain ⟨v, h, _⟩ := C130_line rombCfg rfl (fun _ => rfl) (fun n => by simp [rombCfg]) le_rfl zexpCtx dzexp rfl _ [0] (fun z => z) 0 (57 / 8) 1 zexp_analytic one_pos
    ⟨-9 / 8, -49 / 16⟩ ⟨17 / 8, -49 / 16⟩ (fun h => by have := congrArg Cx.re h; norm_num at this) (.inl rfl) (fun t h0 h1 => by
      constructor
      · unfold Cell.Has along
        simp only
        norm_num
        constructor <;> nlinarith
      · intro c hc
        rw [List.mem_singleton] at hc
        subst hc
        unfold along
        simp only [Cx.zero_re, Cx.zero_im]
        norm_num
        nlinarith [sq_nonneg (-(9 / 8) + t * (13 / 4))]) w
  exact ⟨v, h⟩

/-- non-vacuity of `C130_newton`, for a solver which finds 0 -/
example (w : World Unit ℝ) (hw : w.fuse = none) : ∃ w',
    simpleArgumentNewton ⟨fun _ _ _ _ => some 0, fun _ _ _ _ => none, fun _ _ _ => none⟩ (quadLine rombCfg) Real.pi 7 zexpCtx w = (.ok (), w') ∧
    ∃ r ∈ newRoots w w', 1 ≤ r.2 ∧ Near ((10 : ℝ) ^ (-(0 : ℤ)), (10 : ℝ) ^ (-(0 : ℤ))) (0 : Cx ℝ) r.1 := by
  obtain ⟨w', h1, _, _, h2⟩ := C130_newton ⟨fun _ _ _ _ => some 0, fun _ _ _ _ => none, fun _ _ _ => none⟩ rombCfg rfl (fun _ => rfl) (fun n => by simp [rombCfg]) le_rfl zexpCtx dzexp rfl
    (by norm_num [zexpCtx]) (by norm_num [zexpCtx]) [0] (fun z => z) 0 (57 / 8) zexp_analytic zexp_resolved 7 2 3 zexp_below (by norm_num) w hw
  refine ⟨w', h1, h2 (fun c _ _ _ _ z hz _ => ⟨0, rfl, ?_⟩) 0 (by simp) (by unfold Cell.HasHalfOpen; norm_num [zexpCtx])⟩
  rw [List.mem_singleton] at hz
  subst hz
  unfold Near
  norm_num [zexpCtx]

/-- non-vacuity of `C130_finder`: `calculateRoots((-1/8, 1/8), (-1/16, 1/16), (-1, -1))` -/
example : let s := zexpFinder.calculateRoots (-1 / 8, 1 / 8) (-1 / 16, 1 / 16) (some (-1, -1)) none
    s.outcome = .ok () ∧ s.warned = false ∧ ∃ r ∈ held s.finder.container, 1 ≤ r.2 ∧ Near ((10 : ℝ) ^ (-((-1 : ℤ) + 1)), (10 : ℝ) ^ (-((-1 : ℤ) + 1))) 0 r.1 := by
  have h := C130_finder zexpFinder rombCfg rfl (fun _ => rfl) (fun n => by simp [rombCfg]) le_rfl 7 rfl rfl dzexp rfl
    (-1 / 8, 1 / 8) (-1 / 16, 1 / 16) (some (-1, -1)) (-1, -1) (.inl rfl) _ wid_dom [0] (fun z => z) 0 (57 / 8) zexp_analytic zexp_resolved 2 3 zexp_below (by norm_num)
  exact ⟨h.1, h.2.1, h.2.2.1 0 (by simp) (by unfold Requested; norm_num)⟩

/-- non-vacuity of `C130_parallel` -/
example : let s := zexpFinder.calculateRootsParallel 1 (-1 / 8, 1 / 8) (-1 / 16, 1 / 16) (some (-1, -1)) ⟨[0], false, 0⟩
    s.outcome = .ok () ∧ ∃ r ∈ held s.finder.container, 1 ≤ r.2 ∧ Near ((55 / 100 : ℝ) * 10 ^ (-(-1 : ℤ)), (55 / 100 : ℝ) * 10 ^ (-(-1 : ℤ))) 0 r.1 := by
  have h := C130_parallel zexpFinder rombCfg rfl (fun _ => rfl) (fun n => by simp [rombCfg]) le_rfl 7 rfl rfl dzexp rfl 1 le_rfl
    (-1 / 8, 1 / 8) (-1 / 16, 1 / 16) (some (-1, -1)) (-1, -1) (.inl rfl) ⟨[0], false, 0⟩ rfl _ wid_dom [0] (fun z => z) 0 (57 / 8) zexp_analytic
    (fun job hj => by
      obtain ⟨i, hi, j, hj, rfl⟩ := mem_jobs.1 hj
      obtain rfl : i = 0 := by omega
      obtain rfl : j = 0 := by omega
      have e1 : (jobAt zexpFinder.f zexpFinder.df 1 ((-9 / 8 : ℝ), (17 / 8 : ℝ)) (-49 / 16, 65 / 16) (-1 + 1, -1 + 1) zexpFinder.verbose 0 0).reRan = (-9 / 8, 17 / 8) := by
        unfold jobAt node; norm_num
      have e2 : (jobAt zexpFinder.f zexpFinder.df 1 ((-9 / 8 : ℝ), (17 / 8 : ℝ)) (-49 / 16, 65 / 16) (-1 + 1, -1 + 1) zexpFinder.verbose 0 0).imRan = (-49 / 16, 65 / 16) := by
        unfold jobAt node; norm_num
      rw [e1, e2]
      exact zexp_resolved) 2 3 zexp_below (by norm_num)
  exact ⟨h.1, h.2.2.1 0 (by simp) (by unfold Requested; norm_num)⟩

end PyZeal.Props
