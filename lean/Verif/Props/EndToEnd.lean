import Verif.Props.ScipySecant
import Verif.Props.QuadMoment
import Verif.Props.Build
import Verif.Props.SumTotal
import Verif.Spec.EndToEnd

/-! # Property C136: from the settings and the constructor to the roots -/

set_option linter.unusedSectionVars false

namespace PyZeal.Props
open Spec Settings

theorem now_unique {ops : List SOp} {d d' : Defaults} (h : SettingsNow ops d) (h' : SettingsNow ops d') : d = d' := by
  have h1 := h.container.symm.trans h'.container
  have h2 := h.algorithm.symm.trans h'.algorithm
  have h3 := h.estimator.symm.trans h'.estimator
  have h4 := h.precision.symm.trans h'.precision
  have h5 := h.verbose.symm.trans h'.verbose
  obtain ⟨c, a, e, ⟨p1, p2⟩, v⟩ := d
  obtain ⟨c', a', e', ⟨p1', p2'⟩, v'⟩ := d'
  simp only [PyVal.container.injEq, PyVal.algorithm.injEq, PyVal.estimator.injEq, PyVal.tuple.injEq, PyVal.bool.injEq, PyVal.int.injEq, List.cons.injEq] at h1 h2 h3 h4 h5
  obtain ⟨h4, h6, _⟩ := h4
  subst h1 h2 h3 h4 h5 h6
  rfl

/-- the finder the constructor returns -/
theorem constructed (X : Externals ℝ) (dx : ℝ) (hX : Libraries X dx) (ops : List SOp) (hops : ProperOps (fun _ => False) ops) (a : FinderArgs) (alg : AlgorithmTypes) (est : EstimatorTypes) (q : ℤ × ℤ) (d : Defaults)
    (hc : Chosen ops a alg est q d) (f : Cx ℝ → Cx ℝ) (df : Option (Cx ℝ → Cx ℝ)) :
    ∃ fd, newFinder fileEnv X f df a (SWorld.run newInstallation ops).2.fs = (.ok fd, (SWorld.run newInstallation ops).2.fs) ∧ fd.f = f ∧ fd.df = df ∧
      fd.algorithm = searchNamed X est a.numSamplePoints alg ∧ fd.precision = q ∧ fd.est = SumState.fresh ∧ RoundsFreely fd.container ∧ IsEmpty fd.container ∧ held fd.container = [] := by
  obtain ⟨d', hd, h⟩ := C102_persisted (K := ℝ) ops hops
  obtain rfl := now_unique hc.now hd
  obtain ⟨fd, e, hn⟩ := h hc.concrete.1 hc.concrete.2.1 hc.concrete.2.2 X hX.limit f df a
  have hp : fd.precision = q := by
    have := hn.precision
    rw [hc.precision] at this
    exact (Option.some.inj this).symm
  have hcont : fd.container = .rounding ⟨q, [], []⟩ := by
    rw [hn.container, hp, hc.container]
    rfl
  refine ⟨fd, e, hn.f, hn.df, ?_, hp, hn.est, ?_, ?_, ?_⟩
  · rw [hn.algorithm, hc.estimator, hc.algorithm]
    rfl
  · rw [hcont]; rfl
  · rw [hcont]; rfl
  · rw [hcont]; rfl

/-- C136, simple argument algorithm. After any proper use of the settings on a new installation, `RootFinder(f, df, ...)` with (by argument or setting) the simple argument
algorithm, the quadrature estimator and the rounding container constructs a finder, without touching the settings, and its first `calculateRoots` returns and reports the zeros as in C130. -/
theorem C136_simple (X : Externals ℝ) (dx : ℝ) (hX : Libraries X dx) (ops : List SOp) (hops : ProperOps (fun _ => False) ops) (a : FinderArgs) (q : ℤ × ℤ) (d : Defaults)
    (hc : Chosen ops a .SIMPLE_ARGUMENT .QUADRATURE_ESTIMATOR q d) (f df : Cx ℝ → Cx ℝ) (re im : ℝ × ℝ) (call : Option (ℤ × ℤ)) (p : ℤ × ℤ) (hp : Asked call q p)
    (dom : (ℝ × ℝ) × (ℝ × ℝ)) (hdom : dom = desymmetrizeDomain re im (p.1 + 1, p.2 + 1))
    (zeros : List (Cx ℝ)) (G : ℂ → ℂ) (B V : ℝ) (hf : AnalyticWith f df (Cell.Has ⟨dom.1, dom.2, 0⟩) zeros G B V)
    (hres : Resolved (p.1 + 1, p.2 + 1) zeros B V dom.1 dom.2)
    (m n : ℕ) (hb : Cell.Below (p.1 + 1, p.2 + 1) m n ⟨dom.1, dom.2, 0⟩) (hl : m + n < X.limit) :
    ∃ fd, newFinder fileEnv X f (some df) a (SWorld.run newInstallation ops).2.fs = (.ok fd, (SWorld.run newInstallation ops).2.fs) ∧
    let s := fd.calculateRoots re im call none
    s.outcome = .ok () ∧ s.warned = false ∧
    (∀ z ∈ zeros, Requested re im z → ∃ r ∈ held s.finder.container, 1 ≤ r.2 ∧
      Near (10 ^ (-(p.1 + 1)), 10 ^ (-(p.2 + 1))) z r.1) ∧
    ∀ r ∈ held s.finder.container, 1 ≤ r.2 ∧ RequestedWithin (5 * 10 ^ (-(p.1 + 1)), 5 * 10 ^ (-(p.2 + 1))) re im r.1 ∧
        ∃ z ∈ zeros, Near (10 ^ (-(p.1 + 1)), 10 ^ (-(p.2 + 1))) z r.1 := by
  obtain ⟨fd, e, e1, e2, e3, e4, e8, e5, _, e7⟩ := constructed X dx hX ops hops a _ _ q d hc f (some df)
  refine ⟨fd, e, ?_⟩
  intro s
  obtain ⟨h1, h2, h3, h4⟩ := C130_finder fd X.quad hX.romb hX.abs hX.evals hX.steps X.limit (by rw [e3, ← hX.pi]; rfl) e5 df e2 re im call p (e4 ▸ hp) dom hdom zeros G B V
    (by rw [e1]; exact hf) hres m n hb hl
  refine ⟨h1, h2, h3, fun r hr => (h4 r hr).resolve_left fun h => ?_⟩
  rw [e7] at h
  simp at h

/-- C136, simple argument algorithm, `ParallelRootFinder` -/
theorem C136_simple_parallel (X : Externals ℝ) (dx : ℝ) (hX : Libraries X dx) (ops : List SOp) (hops : ProperOps (fun _ => False) ops) (a : FinderArgs) (q : ℤ × ℤ) (d : Defaults)
    (hc : Chosen ops a .SIMPLE_ARGUMENT .QUADRATURE_ESTIMATOR q d) (f df : Cx ℝ → Cx ℝ) (cpus : ℕ) (hcpus : 1 ≤ cpus) (re im : ℝ × ℝ) (call : Option (ℤ × ℤ)) (p : ℤ × ℤ) (hp : Asked call q p)
    (sched : Schedule) (hsched : sched.interrupted = false) (dom : (ℝ × ℝ) × (ℝ × ℝ)) (hdom : dom = desymmetrizeDomain re im (p.1 + 1, p.2 + 1))
    (zeros : List (Cx ℝ)) (G : ℂ → ℂ) (B V : ℝ) (hf : AnalyticWith f df (Cell.Has ⟨dom.1, dom.2, 0⟩) zeros G B V)
    (hres : ∀ job ∈ createRootJobs f (some df) cpus dom.1 dom.2 (p.1 + 1, p.2 + 1) false, Resolved (p.1 + 1, p.2 + 1) zeros B V job.reRan job.imRan)
    (m n : ℕ) (hb : Cell.Below (p.1 + 1, p.2 + 1) m n ⟨dom.1, dom.2, 0⟩) (hl : m + n < X.limit) :
    ∃ fd, newParallelFinder fileEnv X cpus f (some df) a (SWorld.run newInstallation ops).2.fs = (.ok fd, (SWorld.run newInstallation ops).2.fs) ∧
    let s := fd.calculateRootsParallel cpus re im call sched
    s.outcome = .ok () ∧ s.warned = false ∧
    (∀ z ∈ zeros, Requested re im z → ∃ r ∈ held s.finder.container, 1 ≤ r.2 ∧
      Near (55 / 100 * 10 ^ (-p.1), 55 / 100 * 10 ^ (-p.2)) z r.1) ∧
    ∀ r ∈ held s.finder.container, 1 ≤ r.2 ∧ ∃ z ∈ zeros, Cell.Has (Enlarged (4 * 10 ^ (-(p.1 + 1)), 4 * 10 ^ (-(p.2 + 1))) re im) z ∧
        Near (55 / 100 * 10 ^ (-p.1), 55 / 100 * 10 ^ (-p.2)) z r.1 := by
  obtain ⟨fd, e, e1, e2, e3, e4, e8, e5, _, e7⟩ := constructed X dx hX ops hops { a with numSamplePoints := parallelSamplePoints cpus a.numSamplePoints } _ _ q d
    ⟨hc.now, hc.concrete, hc.container, hc.algorithm, hc.estimator, hc.precision⟩ f (some df)
  refine ⟨fd, e, ?_⟩
  intro s
  obtain ⟨h1, h2, h3, h4⟩ := C130_parallel fd X.quad hX.romb hX.abs hX.evals hX.steps X.limit (by rw [e3, ← hX.pi]; rfl) e5 df e2 cpus hcpus re im call p (e4 ▸ hp) sched hsched dom hdom zeros G B V
    (by rw [e1]; exact hf) (fun job hj => by
      obtain ⟨i, hi, j, hj', rfl⟩ := mem_jobs.1 hj
      exact hres (jobAt f (some df) cpus dom.1 dom.2 (p.1 + 1, p.2 + 1) false i j) (mem_jobs.2 ⟨i, hi, j, hj', rfl⟩)) m n hb hl
  refine ⟨h1, h2, h3, fun r hr => (h4 r hr).resolve_left fun h => ?_⟩
  rw [e7] at h
  simp at h

/-- C136, Newton variant with scipy's solver; the zeros are reported as in C134. -/
theorem C136_newton (X : Externals ℝ) (dx : ℝ) (hX : Libraries X dx) (ops : List SOp) (hops : ProperOps (fun _ => False) ops) (a : FinderArgs) (q : ℤ × ℤ) (d : Defaults)
    (hc : Chosen ops a .SIMPLE_ARGUMENT_NEWTON .QUADRATURE_ESTIMATOR q d) (f df : Cx ℝ → Cx ℝ) (re im : ℝ × ℝ) (call : Option (ℤ × ℤ)) (p : ℤ × ℤ) (hp : Asked call q p) (hp1 : p.1 ≤ 18) (hp2 : p.2 ≤ 18)
    (dom : (ℝ × ℝ) × (ℝ × ℝ)) (hdom : dom = desymmetrizeDomain re im (p.1 + 1, p.2 + 1))
    (zeros : List (Cx ℝ)) (G : ℂ → ℂ) (B V : ℝ) (hf : AnalyticWith f df (Cell.Has ⟨dom.1, dom.2, 0⟩) zeros G B V)
    (hres : Resolved (p.1 + 1, p.2 + 1) zeros B V dom.1 dom.2) (ht : Tame f df (p.1 + 1, p.2 + 1) zeros dom.1 dom.2)
    (m n : ℕ) (hb : Cell.Below (p.1 + 1, p.2 + 1) m n ⟨dom.1, dom.2, 0⟩) (hl : m + n < X.limit) :
    ∃ fd, newFinder fileEnv X f (some df) a (SWorld.run newInstallation ops).2.fs = (.ok fd, (SWorld.run newInstallation ops).2.fs) ∧
    let s := fd.calculateRoots re im call none
    s.outcome = .ok () ∧ s.warned = false ∧
    (∀ z ∈ zeros, Requested re im z → ∃ r ∈ held s.finder.container, 1 ≤ r.2 ∧
      Near (3 / 2 * 10 ^ (-(p.1 + 1)), 3 / 2 * 10 ^ (-(p.2 + 1))) z r.1) ∧
    ∀ r ∈ held s.finder.container, 1 ≤ r.2 ∧ ∃ z ∈ zeros, Cell.Has (Enlarged (4 * 10 ^ (-(p.1 + 1)), 4 * 10 ^ (-(p.2 + 1))) re im) z ∧
        Near (3 / 2 * 10 ^ (-(p.1 + 1)), 3 / 2 * 10 ^ (-(p.2 + 1))) z r.1 := by
  obtain ⟨fd, e, e1, e2, e3, e4, e8, e5, _, e7⟩ := constructed X dx hX ops hops a _ _ q d hc f (some df)
  refine ⟨fd, e, ?_⟩
  intro s
  obtain ⟨arr, harr⟩ : ∃ arr, X.newton = scipySolver X.quad.abs arr := ⟨_, hX.newton⟩
  obtain ⟨h1, h2, h3, h4⟩ := C134_finder fd X.quad.abs hX.abs arr X.quad hX.romb hX.abs hX.evals hX.steps X.limit (by rw [e3, ← hX.pi, ← harr]; rfl) e5 df e2 re im call p (e4 ▸ hp) hp1 hp2
    dom hdom zeros G B V (by rw [e1]; exact hf) hres (by rw [e1]; exact ht) m n hb hl
  refine ⟨h1, h2, h3, fun r hr => (h4 r hr).resolve_left fun h => ?_⟩
  rw [e7] at h
  simp at h

/-- C136, Newton variant, `ParallelRootFinder` -/
theorem C136_newton_parallel (X : Externals ℝ) (dx : ℝ) (hX : Libraries X dx) (ops : List SOp) (hops : ProperOps (fun _ => False) ops) (a : FinderArgs) (q : ℤ × ℤ) (d : Defaults)
    (hc : Chosen ops a .SIMPLE_ARGUMENT_NEWTON .QUADRATURE_ESTIMATOR q d) (f df : Cx ℝ → Cx ℝ) (cpus : ℕ) (hcpus : 1 ≤ cpus) (re im : ℝ × ℝ) (call : Option (ℤ × ℤ)) (p : ℤ × ℤ) (hp : Asked call q p)
    (hp1 : p.1 ≤ 18) (hp2 : p.2 ≤ 18) (sched : Schedule) (hsched : sched.interrupted = false) (dom : (ℝ × ℝ) × (ℝ × ℝ)) (hdom : dom = desymmetrizeDomain re im (p.1 + 1, p.2 + 1))
    (zeros : List (Cx ℝ)) (G : ℂ → ℂ) (B V : ℝ) (hf : AnalyticWith f df (Cell.Has ⟨dom.1, dom.2, 0⟩) zeros G B V)
    (hres : ∀ job ∈ createRootJobs f (some df) cpus dom.1 dom.2 (p.1 + 1, p.2 + 1) false,
      Resolved (p.1 + 1, p.2 + 1) zeros B V job.reRan job.imRan ∧ Tame f df (p.1 + 1, p.2 + 1) zeros job.reRan job.imRan)
    (m n : ℕ) (hb : Cell.Below (p.1 + 1, p.2 + 1) m n ⟨dom.1, dom.2, 0⟩) (hl : m + n < X.limit) :
    ∃ fd, newParallelFinder fileEnv X cpus f (some df) a (SWorld.run newInstallation ops).2.fs = (.ok fd, (SWorld.run newInstallation ops).2.fs) ∧
    let s := fd.calculateRootsParallel cpus re im call sched
    s.outcome = .ok () ∧ s.warned = false ∧
    (∀ z ∈ zeros, Requested re im z → ∃ r ∈ held s.finder.container, 1 ≤ r.2 ∧
      Near (6 / 10 * 10 ^ (-p.1), 6 / 10 * 10 ^ (-p.2)) z r.1) ∧
    ∀ r ∈ held s.finder.container, 1 ≤ r.2 ∧ ∃ z ∈ zeros, Cell.Has (Enlarged (4 * 10 ^ (-(p.1 + 1)), 4 * 10 ^ (-(p.2 + 1))) re im) z ∧
        Near (6 / 10 * 10 ^ (-p.1), 6 / 10 * 10 ^ (-p.2)) z r.1 := by
  obtain ⟨fd, e, e1, e2, e3, e4, e8, e5, _, e7⟩ := constructed X dx hX ops hops { a with numSamplePoints := parallelSamplePoints cpus a.numSamplePoints } _ _ q d
    ⟨hc.now, hc.concrete, hc.container, hc.algorithm, hc.estimator, hc.precision⟩ f (some df)
  refine ⟨fd, e, ?_⟩
  intro s
  obtain ⟨arr, harr⟩ : ∃ arr, X.newton = scipySolver X.quad.abs arr := ⟨_, hX.newton⟩
  obtain ⟨h1, h2, h3, h4⟩ := C134_parallel fd X.quad.abs hX.abs arr X.quad hX.romb hX.abs hX.evals hX.steps X.limit (by rw [e3, ← hX.pi, ← harr]; rfl) e5 df e2 cpus hcpus re im call p (e4 ▸ hp) hp1 hp2
    sched hsched dom hdom zeros G B V (by rw [e1]; exact hf) (fun job hj => by
      obtain ⟨i, hi, j, hj', rfl⟩ := mem_jobs.1 hj
      rw [e1]
      exact hres (jobAt f (some df) cpus dom.1 dom.2 (p.1 + 1, p.2 + 1) false i j) (mem_jobs.2 ⟨i, hi, j, hj', rfl⟩)) m n hb hl
  refine ⟨h1, h2, h3, fun r hr => (h4 r hr).resolve_left fun h => ?_⟩
  rw [e7] at h
  simp at h

/-- C136, associated polynomials with a polynomial solver of accuracy `ρ`; the zeros are reported as in C132. -/
theorem C136_polynomial (X : Externals ℝ) (dx : ℝ) (hX : Libraries X dx) (ops : List SOp) (hops : ProperOps (fun _ => False) ops) (a : FinderArgs) (q : ℤ × ℤ) (d : Defaults)
    (hc : Chosen ops a .ASSOCIATED_POLYNOMIAL .QUADRATURE_ESTIMATOR q d) (f df : Cx ℝ → Cx ℝ) (re im : ℝ × ℝ) (call : Option (ℤ × ℤ)) (p : ℤ × ℤ) (hp : Asked call q p)
    (dom : (ℝ × ℝ) × (ℝ × ℝ)) (hdom : dom = desymmetrizeDomain re im (p.1 + 1, p.2 + 1))
    (zeros : List (Cx ℝ)) (G : ℂ → ℂ) (B V R η δ ρ : ℝ) (hf : AnalyticWith f df (Cell.Has ⟨dom.1, dom.2, 0⟩) zeros G B V)
    (hB : BoundedBy (Cell.Has ⟨dom.1, dom.2, 0⟩) G B R) (hres : PolyResolved (p.1 + 1, p.2 + 1) zeros B V R η dom.1 dom.2)
    (hR : 0 < R) (h0 : 0 ≤ η) (h1 : η ≤ 1 / 200) (hδ : 0 < δ) (hsm : ∀ n, 1 ≤ n → n ≤ 3 → n ≤ zeros.length → 44 * η * R ^ n < δ ^ n)
    (hρ : 0 ≤ ρ) (hsolve : SolvesWithin X.polyRoots (R + δ) ρ)
    (m n : ℕ) (hb : Cell.Below (p.1 + 1, p.2 + 1) m n ⟨dom.1, dom.2, 0⟩) (hl : m + n < X.limit) :
    ∃ fd, newFinder fileEnv X f (some df) a (SWorld.run newInstallation ops).2.fs = (.ok fd, (SWorld.run newInstallation ops).2.fs) ∧
    let s := fd.calculateRoots re im call none
    s.outcome = .ok () ∧ s.warned = false ∧
    (∀ z ∈ zeros, Requested re im z → ∃ r ∈ held s.finder.container, 1 ≤ r.2 ∧
      Near (3 / 2 * 10 ^ (-(p.1 + 1)) + (δ + ρ), 3 / 2 * 10 ^ (-(p.2 + 1)) + (δ + ρ)) z r.1) ∧
    ∀ r ∈ held s.finder.container, 1 ≤ r.2 ∧ ∃ z ∈ zeros, Cell.Has (Enlarged (4 * 10 ^ (-(p.1 + 1)), 4 * 10 ^ (-(p.2 + 1))) re im) z ∧
        Near (3 / 2 * 10 ^ (-(p.1 + 1)) + (δ + ρ), 3 / 2 * 10 ^ (-(p.2 + 1)) + (δ + ρ)) z r.1 := by
  obtain ⟨fd, e, e1, e2, e3, e4, e8, e5, _, e7⟩ := constructed X dx hX ops hops a _ _ q d hc f (some df)
  refine ⟨fd, e, ?_⟩
  intro s
  obtain ⟨h1, h2, h3, h4⟩ := C132_finder fd X.polyRoots X.quad hX.romb hX.abs hX.evals hX.steps X.limit (by rw [e3, ← hX.pi]; rfl) e5 df e2 re im call p (e4 ▸ hp)
    dom hdom zeros G B V R η δ ρ (by rw [e1]; exact hf) hB hres hR h0 h1 hδ hsm hρ hsolve m n hb hl
  refine ⟨h1, h2, h3, fun r hr => (h4 r hr).resolve_left fun h => ?_⟩
  rw [e7] at h
  simp at h

/-- C136, Newton grid: the number of grid points per direction is 50 unless a positive number is given; zeros near grid points are reported as in C135. -/
theorem C136_grid (X : Externals ℝ) (dx : ℝ) (hX : Libraries X dx) (ops : List SOp) (hops : ProperOps (fun _ => False) ops) (a : FinderArgs) (q : ℤ × ℤ) (d : Defaults)
    (est : EstimatorTypes) (hc : Chosen ops a .NEWTON_GRID est q d) (n : ℕ) (hn : n = if a.numSamplePoints.getD 0 = 0 then 50 else a.numSamplePoints.getD 0) (hn2 : 2 ≤ n)
    (f df : Cx ℝ → Cx ℝ) (calls : List (FilterType × ℤ)) (re im : ℝ × ℝ) (call : Option (ℤ × ℤ)) (p : ℤ × ℤ) (hp : Asked call q p) (cell : Cell ℝ) (hcell : cell = Searched re im (p.1 + 1, p.2 + 1)) :
    ∃ fd fd', newFinder fileEnv X f (some df) a (SWorld.run newInstallation ops).2.fs = (.ok fd, (SWorld.run newInstallation ops).2.fs) ∧
    Finder.setRootFilters calls fd = (.ok (), fd') ∧
    let s := fd'.calculateRoots re im call none
    s.outcome = .ok () ∧ s.warned = false ∧
    (∀ c r, Steady f df c r → r ≤ 10 ^ 11 → Cell.Has cell c →
        (cell.re.2 - cell.re.1) / ((n : ℝ) - 1) / 2 + (cell.im.2 - cell.im.1) / ((n : ℝ) - 1) / 2 ≤ r →
        (∀ y, ‖point y - point c‖ ≤ 1 / 10 ^ 8 → Passes calls cell f y) →
        ∃ root ∈ held s.finder.container, root.2 = 0 ∧ Near (1 / 10 ^ 8 + 10 ^ (-(p.1 + 1)) / 2, 1 / 10 ^ 8 + 10 ^ (-(p.2 + 1)) / 2) c root.1) ∧
    ∀ root ∈ held s.finder.container, root.2 = 0 ∧ ∃ x, Cell.Has cell x ∧ ∃ k ≤ 50, RoundsTo (p.1 + 1, p.2 + 1) ((newtonStep f df)^[k] x) root.1 ∧
        Passes calls cell f ((newtonStep f df)^[k] x) := by
  obtain ⟨fd, e, e1, e2, e3, e4, _, e5, e6, _⟩ := constructed X dx hX ops hops a _ _ q d hc f (some df)
  obtain ⟨arr, harr⟩ : ∃ arr, X.newton = scipySolver X.quad.abs arr := ⟨_, hX.newton⟩
  obtain ⟨fd', h1, h2⟩ := C135_finder fd X.quad.abs hX.abs arr n hn2 X.taskTruthy (by rw [e3, ← harr, hn]; rfl) df e2 e5 e6 calls re im call p (e4 ▸ hp) cell hcell
  rw [e1] at h2
  exact ⟨fd, fd', e, h1, h2⟩

/-- C136, associated polynomials, `ParallelRootFinder` -/
theorem C136_polynomial_parallel (X : Externals ℝ) (dx : ℝ) (hX : Libraries X dx) (ops : List SOp) (hops : ProperOps (fun _ => False) ops) (a : FinderArgs) (q : ℤ × ℤ) (d : Defaults)
    (hc : Chosen ops a .ASSOCIATED_POLYNOMIAL .QUADRATURE_ESTIMATOR q d) (f df : Cx ℝ → Cx ℝ) (cpus : ℕ) (hcpus : 1 ≤ cpus) (re im : ℝ × ℝ) (call : Option (ℤ × ℤ)) (p : ℤ × ℤ) (hp : Asked call q p)
    (sched : Schedule) (hsched : sched.interrupted = false) (dom : (ℝ × ℝ) × (ℝ × ℝ)) (hdom : dom = desymmetrizeDomain re im (p.1 + 1, p.2 + 1))
    (zeros : List (Cx ℝ)) (G : ℂ → ℂ) (B V R η δ ρ : ℝ) (hf : AnalyticWith f df (Cell.Has ⟨dom.1, dom.2, 0⟩) zeros G B V)
    (hB : BoundedBy (Cell.Has ⟨dom.1, dom.2, 0⟩) G B R)
    (hres : ∀ job ∈ createRootJobs f (some df) cpus dom.1 dom.2 (p.1 + 1, p.2 + 1) false, PolyResolved (p.1 + 1, p.2 + 1) zeros B V R η job.reRan job.imRan)
    (hR : 0 < R) (h0 : 0 ≤ η) (h1 : η ≤ 1 / 200) (hδ : 0 < δ) (hsm : ∀ n, 1 ≤ n → n ≤ 3 → n ≤ zeros.length → 44 * η * R ^ n < δ ^ n)
    (hρ : 0 ≤ ρ) (hsolve : SolvesWithin X.polyRoots (R + δ) ρ)
    (m n : ℕ) (hb : Cell.Below (p.1 + 1, p.2 + 1) m n ⟨dom.1, dom.2, 0⟩) (hl : m + n < X.limit) :
    ∃ fd, newParallelFinder fileEnv X cpus f (some df) a (SWorld.run newInstallation ops).2.fs = (.ok fd, (SWorld.run newInstallation ops).2.fs) ∧
    let s := fd.calculateRootsParallel cpus re im call sched
    s.outcome = .ok () ∧ s.warned = false ∧
    (∀ z ∈ zeros, Requested re im z → ∃ r ∈ held s.finder.container, 1 ≤ r.2 ∧
      Near (6 / 10 * 10 ^ (-p.1) + (δ + ρ), 6 / 10 * 10 ^ (-p.2) + (δ + ρ)) z r.1) ∧
    ∀ r ∈ held s.finder.container, 1 ≤ r.2 ∧ ∃ z ∈ zeros, Cell.Has (Enlarged (4 * 10 ^ (-(p.1 + 1)), 4 * 10 ^ (-(p.2 + 1))) re im) z ∧
        Near (6 / 10 * 10 ^ (-p.1) + (δ + ρ), 6 / 10 * 10 ^ (-p.2) + (δ + ρ)) z r.1 := by
  obtain ⟨fd, e, e1, e2, e3, e4, e8, e5, _, e7⟩ := constructed X dx hX ops hops { a with numSamplePoints := parallelSamplePoints cpus a.numSamplePoints } _ _ q d
    ⟨hc.now, hc.concrete, hc.container, hc.algorithm, hc.estimator, hc.precision⟩ f (some df)
  refine ⟨fd, e, ?_⟩
  intro s
  obtain ⟨h1, h2, h3, h4⟩ := C132_parallel fd X.polyRoots X.quad hX.romb hX.abs hX.evals hX.steps X.limit (by rw [e3, ← hX.pi]; rfl) e5 df e2 cpus hcpus re im call p (e4 ▸ hp) sched hsched
    dom hdom zeros G B V R η δ ρ (by rw [e1]; exact hf) hB (fun job hj => by
      obtain ⟨i, hi, j, hj', rfl⟩ := mem_jobs.1 hj
      exact hres (jobAt f (some df) cpus dom.1 dom.2 (p.1 + 1, p.2 + 1) false i j) (mem_jobs.2 ⟨i, hi, j, hj', rfl⟩)) hR h0 h1 hδ hsm hρ hsolve m n hb hl
  refine ⟨h1, h2, h3, fun r hr => (h4 r hr).resolve_left fun h => ?_⟩
  rw [e7] at h
  simp at h

/-- C136, Newton grid without derivative: zeros near grid points are reported as in C137. -/
theorem C136_grid_plain (X : Externals ℝ) (dx : ℝ) (hX : Libraries X dx) (ops : List SOp) (hops : ProperOps (fun _ => False) ops) (a : FinderArgs) (q : ℤ × ℤ) (d : Defaults)
    (est : EstimatorTypes) (hc : Chosen ops a .NEWTON_GRID est q d) (n : ℕ) (hn : n = if a.numSamplePoints.getD 0 = 0 then 50 else a.numSamplePoints.getD 0) (hn2 : 2 ≤ n)
    (f : Cx ℝ → Cx ℝ) (calls : List (FilterType × ℤ)) (re im : ℝ × ℝ) (call : Option (ℤ × ℤ)) (p : ℤ × ℤ) (hp : Asked call q p) (cell : Cell ℝ) (hcell : cell = Searched re im (p.1 + 1, p.2 + 1))
    (W : ℝ) (hW : ∀ z, Cell.Has cell z → ‖point z‖ ≤ W) :
    ∃ fd fd', newFinder fileEnv X f none a (SWorld.run newInstallation ops).2.fs = (.ok fd, (SWorld.run newInstallation ops).2.fs) ∧
    Finder.setRootFilters calls fd = (.ok (), fd') ∧
    let s := fd'.calculateRoots re im call none
    s.outcome = .ok () ∧ s.warned = false ∧
    (∀ df c r, Steady f df c r → r ≤ 10 ^ 11 → Cell.Has cell c →
        (cell.re.2 - cell.re.1) / ((n : ℝ) - 1) / 2 + (cell.im.2 - cell.im.1) / ((n : ℝ) - 1) / 2 + dx * (1 + W) ≤ r →
        (∀ y, ‖point y - point c‖ ≤ 1 / 10 ^ 8 → Passes calls cell f y) →
        ∃ root ∈ held s.finder.container, root.2 = 0 ∧ Near (1 / 10 ^ 8 + 10 ^ (-(p.1 + 1)) / 2, 1 / 10 ^ 8 + 10 ^ (-(p.2 + 1)) / 2) c root.1) ∧
    ∀ root ∈ held s.finder.container, root.2 = 0 ∧ ∃ x x' a b y, Cell.Has cell x ∧ Beside dx x x' ∧ (∃ k ≤ 50, SecantAfter f x x' k a b) ∧ (y = a ∨ y = b) ∧
        RoundsTo (p.1 + 1, p.2 + 1) y root.1 ∧ Passes calls cell f y := by
  obtain ⟨fd, e, e1, e2, e3, e4, _, e5, e6, _⟩ := constructed X dx hX ops hops a _ _ q d hc f none
  obtain ⟨fd', h1, h2⟩ := C137_finder fd X.quad.abs hX.abs dx hX.step n hn2 X.taskTruthy (by rw [e3, ← hX.newton, hn]; rfl) e2 e5 e6 calls re im call p (e4 ▸ hp) cell hcell W hW
  rw [e1] at h2
  exact ⟨fd, fd', e, h1, h2⟩

/-- C136, Newton grid, `ParallelRootFinder`: every process has `n / cpus + 1` grid points per direction if a positive number `n` is given, otherwise 50. -/
theorem C136_grid_parallel (X : Externals ℝ) (dx : ℝ) (hX : Libraries X dx) (ops : List SOp) (hops : ProperOps (fun _ => False) ops) (a : FinderArgs) (q : ℤ × ℤ) (d : Defaults)
    (est : EstimatorTypes) (hc : Chosen ops a .NEWTON_GRID est q d) (cpus : ℕ) (hcpus : 1 ≤ cpus) (n : ℕ)
    (hn : n = if a.numSamplePoints.getD 0 = 0 then 50 else a.numSamplePoints.getD 0 / cpus + 1) (hn2 : 2 ≤ n)
    (f df : Cx ℝ → Cx ℝ) (calls : List (FilterType × ℤ)) (re im : ℝ × ℝ) (call : Option (ℤ × ℤ)) (p : ℤ × ℤ) (hp : Asked call q p)
    (sched : Schedule) (hsched : sched.interrupted = false) (cell : Cell ℝ) (hcell : cell = Searched re im (p.1 + 1, p.2 + 1)) :
    ∃ fd fd', newParallelFinder fileEnv X cpus f (some df) a (SWorld.run newInstallation ops).2.fs = (.ok fd, (SWorld.run newInstallation ops).2.fs) ∧
    Finder.setRootFilters calls fd = (.ok (), fd') ∧
    let s := fd'.calculateRootsParallel cpus re im call sched
    s.outcome = .ok () ∧ s.warned = false ∧
    (∀ c r, Steady f df c r → r ≤ 10 ^ 11 → Cell.Has cell c →
        (cell.re.2 - cell.re.1) / ((n : ℝ) - 1) / 2 + (cell.im.2 - cell.im.1) / ((n : ℝ) - 1) / 2 ≤ r →
        (∀ y, ‖point y - point c‖ ≤ 1 / 10 ^ 8 → Passes calls cell f y) →
        ∃ root ∈ held s.finder.container, root.2 = 0 ∧ Near (1 / 10 ^ 8 + 10 ^ (-p.1) / 2, 1 / 10 ^ 8 + 10 ^ (-p.2) / 2) c root.1) ∧
    ∀ root ∈ held s.finder.container, root.2 = 0 ∧ ∃ x, Cell.Has cell x ∧ ∃ k ≤ 50, RoundsTo p ((newtonStep f df)^[k] x) root.1 ∧
        Passes calls cell f ((newtonStep f df)^[k] x) := by
  obtain ⟨fd, e, e1, e2, e3, e4, _, e5, e6, _⟩ := constructed X dx hX ops hops { a with numSamplePoints := parallelSamplePoints cpus a.numSamplePoints } _ _ q d
    ⟨hc.now, hc.concrete, hc.container, hc.algorithm, hc.estimator, hc.precision⟩ f (some df)
  obtain ⟨arr, harr⟩ : ∃ arr, X.newton = scipySolver X.quad.abs arr := ⟨_, hX.newton⟩
  have hpts : (if (parallelSamplePoints cpus a.numSamplePoints).getD 0 = 0 then 50 else (parallelSamplePoints cpus a.numSamplePoints).getD 0) = n := by
    rw [hn]
    rcases a.numSamplePoints with _ | _ | k
    · rfl
    · rfl
    · simp [parallelSamplePoints]
  obtain ⟨fd', h1, h2⟩ := C135_parallel fd X.quad.abs hX.abs arr n hn2 X.taskTruthy (by rw [e3, ← harr, ← hpts]; rfl) df e2 e5 e6 calls cpus hcpus re im call p (e4 ▸ hp) sched hsched cell hcell
  rw [e1] at h2
  exact ⟨fd, fd', e, h1, h2⟩

/-- The parameters of the summation estimator the package constructs: 6500 points per line, phase steps below 0.01, points not closer than 10^-10. -/
noncomputable def shippedSum (X : Externals ℝ) : SumCfg ℝ where
  arg := X.arg
  numPts := 6500
  deltaPhi := 1 / 100
  maxPrecision := 1 / 10 ^ 10
  evals := X.evals
  steps := X.steps

/-- C136, simple argument algorithm with the summation estimator, i.e. what a new installation uses when nothing is specified: no derivative is needed, and
the zeros are reported as in C98. -/
theorem C136_summation (X : Externals ℝ) (dx : ℝ) (hX : Libraries X dx) (ops : List SOp) (hops : ProperOps (fun _ => False) ops) (a : FinderArgs) (q : ℤ × ℤ) (d : Defaults)
    (hc : Chosen ops a .SIMPLE_ARGUMENT .SUMMATION_ESTIMATOR q d) (f : Cx ℝ → Cx ℝ) (df : Option (Cx ℝ → Cx ℝ)) (re im : ℝ × ℝ) (call : Option (ℤ × ℤ)) (p : ℤ × ℤ) (hp : Asked call q p)
    (dom : (ℝ × ℝ) × (ℝ × ℝ)) (hdom : dom = desymmetrizeDomain re im (p.1 + 1, p.2 + 1))
    (zeros : List (Cx ℝ)) (r g : Cx ℝ → ℝ) (M dist : ℝ) (hf : Factored f (Cell.Has ⟨dom.1, dom.2, 0⟩) zeros r g M)
    (hM : 0 ≤ M) (hd : 0 < dist) (hfine : FineEnough 6500 (max (dom.1.2 - dom.1.1) (dom.2.2 - dom.2.1)) dist M zeros.length)
    (hfar : ∀ re im, Reached (p.1 + 1, p.2 + 1) zeros dom.1 dom.2 re im → ∀ z, Cell.Boundary ⟨re, im, 0⟩ z → Far dist zeros z)
    (hsafe : Safe (shippedSum X) ⟨f, df, (p.1 + 1, p.2 + 1), dom.1, dom.2, false⟩ zeros (max (dom.1.2 - dom.1.1) (dom.2.2 - dom.2.1)) dist M X.limit) :
    ∃ fd, newFinder fileEnv X f df a (SWorld.run newInstallation ops).2.fs = (.ok fd, (SWorld.run newInstallation ops).2.fs) ∧
    let s := fd.calculateRoots re im call none
    s.outcome = .ok () ∧ s.warned = false ∧
    (∀ z ∈ zeros, Requested re im z → ∃ r ∈ held s.finder.container, 1 ≤ r.2 ∧
      Near (10 ^ (-(p.1 + 1)), 10 ^ (-(p.2 + 1))) z r.1) ∧
    ∀ r ∈ held s.finder.container, 1 ≤ r.2 ∧ RequestedWithin (5 * 10 ^ (-(p.1 + 1)), 5 * 10 ^ (-(p.2 + 1))) re im r.1 ∧
        ∃ z ∈ zeros, Near (10 ^ (-(p.1 + 1)), 10 ^ (-(p.2 + 1))) z r.1 := by
  obtain ⟨fd, e, e1, e2, e3, e4, e8, e5, _, e7⟩ := constructed X dx hX ops hops a _ _ q d hc f df
  refine ⟨fd, e, ?_⟩
  intro s
  obtain ⟨h1, h2, h3, h4⟩ := C98_finder_total_partial fd (shippedSum X) hX.arg (by norm_num [shippedSum]) (by norm_num [shippedSum]) X.limit (by rw [e3, ← hX.pi]; rfl) e8 e5 re im call p (e4 ▸ hp)
    dom hdom zeros r g M dist (by rw [e1]; exact hf) hM hd hfine hfar (by rw [e1, e2]; exact hsafe)
  refine ⟨h1, h2, h3, fun r hr => (h4 r hr).resolve_left fun h => ?_⟩
  rw [e7] at h
  simp at h

/-! ## Examples -/

/-- libraries as assumed -/
noncomputable def someLibraries : Externals ℝ where
  pi := Real.pi
  arg := fun z => Complex.arg (point z)
  evals := fun n => n + 1
  steps := 7000
  quad := rombCfg
  newton := scipyAll absC (7 / 10 ^ 6)
  polyRoots := fun _ => []
  limit := 1000
  info := false
  debug := false
  taskTruthy := false

theorem someLibraries_ok : Libraries someLibraries (7 / 10 ^ 6) := ⟨rfl, fun _ => rfl, rfl, fun _ => rfl, fun n => by simp [someLibraries, rombCfg], le_rfl, rfl, by norm_num, by norm_num [someLibraries]⟩

/-- the settings of a new installation -/
def shippedDefaults : Defaults := ⟨.ROUNDING_CONTAINER, .SIMPLE_ARGUMENT, .SUMMATION_ESTIMATOR, (5, 5), true⟩

theorem shipped_now : SettingsNow [] shippedDefaults := ⟨rfl, rfl, rfl, rfl, rfl⟩

/-- the arguments name the Newton variant, the quadrature estimator and the precision; the container comes from the settings -/
def someArgs : FinderArgs := { algorithm := .SIMPLE_ARGUMENT_NEWTON, estimator := .QUADRATURE_ESTIMATOR, precision := some (2, 2) }

/-- non-vacuity of `C136_newton`: `RootFinder(f, df, algorithmType=SIMPLE_ARGUMENT_NEWTON, estimatorType=QUADRATURE_ESTIMATOR, precision=(2, 2))` for `z * exp(z)` on a new installation -/
example : ∃ fd, newFinder fileEnv someLibraries zexp (some dzexp) someArgs newInstallation.fs = (.ok fd, newInstallation.fs) ∧
    ∃ r ∈ held (fd.calculateRoots (-2 / 1000, 4 / 1000) (0, 2 / 1000) none none).finder.container, 1 ≤ r.2 ∧
      Near (3 / 2 * (10 : ℝ) ^ (-((2 : ℤ) + 1)), 3 / 2 * (10 : ℝ) ^ (-((2 : ℤ) + 1))) 0 r.1 := by
  obtain ⟨fd, h0, _, _, h2, _⟩ := C136_newton someLibraries _ someLibraries_ok [] trivial someArgs (2, 2) shippedDefaults
    ⟨shipped_now, ⟨by decide, by decide, by decide⟩, rfl, rfl, rfl, rfl⟩ zexp dzexp
    (-2 / 1000, 4 / 1000) (0, 2 / 1000) none (2, 2) (.inr ⟨rfl, rfl⟩) (by norm_num) (by norm_num) _ thirds_domain.symm [0] (fun z => z) 0 (57 / 8) zexp_analytic_small thirds_resolved thirds_tame 4 4
    (by unfold Cell.Below; norm_num) (by norm_num [someLibraries])
  refine ⟨fd, h0, h2 0 (by simp) ?_⟩
  unfold Requested
  norm_num

/-- non-vacuity of `C136_simple`: the algorithm comes from the settings, the precision from the call -/
example : ∃ fd, newFinder fileEnv someLibraries zexp (some dzexp) { estimator := .QUADRATURE_ESTIMATOR } newInstallation.fs = (.ok fd, newInstallation.fs) ∧
    ∃ r ∈ held (fd.calculateRoots (-2 / 1000, 4 / 1000) (0, 2 / 1000) (some (2, 2)) none).finder.container, 1 ≤ r.2 ∧
      Near ((10 : ℝ) ^ (-((2 : ℤ) + 1)), (10 : ℝ) ^ (-((2 : ℤ) + 1))) 0 r.1 := by
  obtain ⟨fd, h0, _, _, h2, _⟩ := C136_simple someLibraries _ someLibraries_ok [] trivial { estimator := .QUADRATURE_ESTIMATOR } (5, 5) shippedDefaults
    ⟨shipped_now, ⟨by decide, by decide, by decide⟩, rfl, rfl, rfl, rfl⟩ zexp dzexp
    (-2 / 1000, 4 / 1000) (0, 2 / 1000) (some (2, 2)) (2, 2) (.inl rfl) _ thirds_domain.symm [0] (fun z => z) 0 (57 / 8) zexp_analytic_small thirds_resolved 4 4
    (by unfold Cell.Below; norm_num) (by norm_num [someLibraries])
  refine ⟨fd, h0, h2 0 (by simp) ?_⟩
  unfold Requested
  norm_num

theorem wid_fine_shipped : FineEnough 6500 (max ((17 / 8 : ℝ) - (-9 / 8)) (65 / 16 - (-49 / 16))) (1 / 4) 0 [(0 : Cx ℝ)].length := by
  have hpi := Real.pi_pos
  unfold FineEnough stepTurn
  simp only [List.length_singleton]
  norm_num
  linarith

theorem wid_safe_shipped : Safe (shippedSum someLibraries) ⟨fun z => z, none, (0, 0), (-9 / 8, 17 / 8), (-49 / 16, 65 / 16), false⟩ [0]
    (max ((17 / 8 : ℝ) - (-9 / 8)) (65 / 16 - (-49 / 16))) (1 / 4) 0 1000 := by
  have hpi := Real.pi_le_four
  have hmax : max ((17 / 8 : ℝ) - (-9 / 8)) (65 / 16 - (-49 / 16)) = 57 / 8 := by
    norm_num
  rw [hmax]
  refine ⟨?_, ?_, ⟨[0], ?_, ?_, ?_⟩, 2, 3, ?_, ?_⟩
  · intro re im hob e he
    have hst : 2 * stepTurn (shippedSum someLibraries).numPts (57 / 8) (1 / 4) 0 [(0 : Cx ℝ)].length < 1 / (5 * 5) := by
      unfold stepTurn
      simp only [shippedSum, List.length_singleton]
      norm_num
      linarith
    refine lt_of_lt_of_le hst ?_
    have := wid_reached re im hob
    unfold edges at he
    simp only [List.mem_cons, List.not_mem_nil, or_false] at he
    rcases this with ⟨rfl, rfl⟩ | ⟨rfl, rfl⟩ | ⟨rfl, rfl⟩ | ⟨rfl, rfl⟩ | ⟨rfl, rfl⟩ | ⟨rfl, rfl⟩ | ⟨rfl, rfl⟩ | ⟨rfl, rfl⟩ | ⟨rfl, rfl⟩ | ⟨rfl, rfl⟩ | ⟨rfl, rfl⟩ <;>
      rcases he with rfl | rfl | rfl | rfl <;> (
      first
      | (refine arg_ge_cross ?_ ?_ ?_ ?_ ?_ ?_ <;> norm_num [abs_of_nonneg, abs_of_nonpos]; done)
      | (refine le_trans ?_ (arg_ge_cross (A := 5 / 2) (B := 5 / 2) (C := 1 / 4) ?_ ?_ ?_ ?_ ?_ ?_) <;> norm_num [abs_of_nonneg, abs_of_nonpos]; done))
  · intro re im hob
    rcases wid_reached re im hob with ⟨rfl, rfl⟩ | ⟨rfl, rfl⟩ | ⟨rfl, rfl⟩ | ⟨rfl, rfl⟩ | ⟨rfl, rfl⟩ | ⟨rfl, rfl⟩ | ⟨rfl, rfl⟩ | ⟨rfl, rfl⟩ | ⟨rfl, rfl⟩ | ⟨rfl, rfl⟩ | ⟨rfl, rfl⟩ <;>
      norm_num [shippedSum]
  · simp
  · simp [shippedSum, someLibraries]
  · norm_num [shippedSum, someLibraries]
  · unfold Cell.Below; norm_num
  · norm_num

/-- non-vacuity of `C136_summation`: `RootFinder(lambda z: z).calculateRoots((-1/8, 1/8), (-1/16, 1/16), (-1, -1))` on a new installation, with nothing else specified -/
example : ∃ fd, newFinder fileEnv someLibraries (fun z => z) none {} newInstallation.fs = (.ok fd, newInstallation.fs) ∧
    ∃ r ∈ held (fd.calculateRoots (-1 / 8, 1 / 8) (-1 / 16, 1 / 16) (some (-1, -1)) none).finder.container, 1 ≤ r.2 ∧
      Near ((10 : ℝ) ^ (-((-1 : ℤ) + 1)), (10 : ℝ) ^ (-((-1 : ℤ) + 1))) 0 r.1 := by
  obtain ⟨fd, h0, _, _, h2, _⟩ := C136_summation someLibraries _ someLibraries_ok [] trivial {} (5, 5) shippedDefaults
    ⟨shipped_now, ⟨by decide, by decide, by decide⟩, rfl, rfl, rfl, rfl⟩ (fun z => z) none
    (-1 / 8, 1 / 8) (-1 / 16, 1 / 16) (some (-1, -1)) (-1, -1) (.inl rfl) _ wid_dom [0] (fun _ => 1) (fun _ => 0) 0 (1 / 4)
    ⟨fun _ _ => one_pos, fun z _ => by ext <;> simp, fun a b _ _ => by simp⟩ le_rfl (by norm_num) wid_fine_shipped wid_far wid_safe_shipped
  refine ⟨fd, h0, h2 0 (by simp) ?_⟩
  unfold Requested
  norm_num

end PyZeal.Props
