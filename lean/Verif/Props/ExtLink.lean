import Verif.Proof.ExtLink
import Verif.Props.Ext
import Mathlib.Analysis.Real.Sqrt

/-!
# C145: nothing undefined appears out of finite data

If the function (and its derivative) is finite at finite points and the library operations are exact for finite numbers, then
the search of a finite rectangle with floating point numbers, infinities and NaN included, is the exact search: the
same outcome, and the same finite roots handed to the container in the same order.
-/

set_option linter.unusedSectionVars false

namespace PyZeal.Props
open Spec Ext ExtLink
variable {K : Type} [Field K] [LinearOrder K] [IsStrictOrderedRing K] [FloorRing K]

/-- the context in which the container of a serial search filters the roots -/
def serialFilter (f : Cx K → Cx K) (re im : K × K) (p : ℤ × ℤ) : FilterCtx K :=
  { f := f, reRan := (desymmetrizeDomain re im p).1, imRan := (desymmetrizeDomain re im p).2, precision := p }

/-- the context in which the container of a parallel search filters the roots -/
def parallelFilter (f : Cx K → Cx K) (re im : K × K) (p : ℤ × ℤ) : FilterCtx K :=
  { f := f, reRan := (desymmetrizeDomain re im (p.1 + 1, p.2 + 1)).1,
    imRan := (desymmetrizeDomain re im (p.1 + 1, p.2 + 1)).2, precision := p }

section
variable {cfg : SumCfg K} {xcfg : XSumCfg K} {nt : NewtonSolver K} {xnt : XSolver K} {pi : K} {limit : ℕ}
  {fd : Finder (SumState K) K} {xf : XCx K → XCx K} {xdf : Option (XCx K → XCx K)}

theorem sum_fresh : SumRel (SumState.fresh : SumState K) ⟨[], []⟩ := ⟨fun _ => .inl ⟨rfl, rfl⟩, fun _ => .inl ⟨rfl, rfl⟩⟩

/-- C145, summation estimator, simple algorithm, serial finder -/
theorem C145_sum (hs : FiniteSum cfg xcfg) (halg : fd.algorithm = simpleArgument (sumLine cfg) pi limit)
    (hnew : fd.est = SumState.fresh) (hf : FiniteValues fd.f xf) (re im : K × K) (precision : Option (ℤ × ℤ)) :
    SameSearch (xCalculateRoots (xSumLine xcfg) pi .simple limit xf xdf ⟨[], []⟩ (finRan re) (finRan im)
        (precision.getD fd.precision))
      (fd.calculateRoots re im precision none) fd.container fd.info
      (serialFilter fd.f re im (searchPrecision precision fd.precision)) :=
  serial_same (pi := pi) (variant := .simple) fd xf xdf ⟨[], []⟩ halg hf (by rw [hnew]; exact sum_fresh)
    (fun _ _ _ _ _ hc => ⟨sim_sumLine hs hc, fun _ _ hd => sim_simple (sim_sumLine hs hc) hc pi hd⟩) re im precision

/-- C145, summation estimator, Newton variant, serial finder -/
theorem C145_sum_newton (hs : FiniteSum cfg xcfg) (hn : FiniteSolver nt xnt)
    (halg : fd.algorithm = simpleArgumentNewton nt (sumLine cfg) pi limit)
    (hnew : fd.est = SumState.fresh) (hf : FiniteValues fd.f xf) (hdf : FiniteDeriv fd.df xdf) (re im : K × K)
    (precision : Option (ℤ × ℤ)) :
    SameSearch (xCalculateRoots (xSumLine xcfg) pi (.newton (xNewtonFew xnt)) limit xf xdf ⟨[], []⟩ (finRan re) (finRan im)
        (precision.getD fd.precision))
      (fd.calculateRoots re im precision none) fd.container fd.info
      (serialFilter fd.f re im (searchPrecision precision fd.precision)) :=
  serial_same (pi := pi) (variant := .newton (xNewtonFew xnt)) fd xf xdf ⟨[], []⟩ halg hf (by rw [hnew]; exact sum_fresh)
    (fun _ _ _ h2 h3 hc => ⟨sim_sumLine hs hc, fun _ _ hd =>
      sim_newton (sim_sumLine hs hc) hn hc (by rw [h2, h3]; exact hdf) pi hd⟩) re im precision

/-- C145, summation estimator, simple algorithm, parallel finder -/
theorem C145_parallel_sum (hs : FiniteSum cfg xcfg) (halg : fd.algorithm = simpleArgument (sumLine cfg) pi limit)
    (hnew : fd.est = SumState.fresh) (hf : FiniteValues fd.f xf) (cpus : ℕ) (re im : K × K)
    (precision : Option (ℤ × ℤ)) (sched : Schedule) :
    SameSearch (xCalculateRootsParallel (xSumLine xcfg) pi .simple limit xf xdf ⟨[], []⟩ cpus (finRan re) (finRan im)
        (precision.getD fd.precision) sched)
      (fd.calculateRootsParallel cpus re im precision sched) fd.container fd.info
      (parallelFilter fd.f re im (precision.getD fd.precision)) := by
  have h := parallel_same (pi := pi) (variant := .simple) fd xf xdf ⟨[], []⟩ halg hf (by rw [hnew]; exact sum_fresh)
    (fun _ _ _ _ _ hc => ⟨sim_sumLine hs hc, fun _ _ hd => sim_simple (sim_sumLine hs hc) hc pi hd⟩) cpus re im precision sched
  unfold parallelFilter
  exact h

/-- C145, summation estimator, Newton variant, parallel finder -/
theorem C145_parallel_sum_newton (hs : FiniteSum cfg xcfg) (hn : FiniteSolver nt xnt)
    (halg : fd.algorithm = simpleArgumentNewton nt (sumLine cfg) pi limit)
    (hnew : fd.est = SumState.fresh) (hf : FiniteValues fd.f xf) (hdf : FiniteDeriv fd.df xdf) (cpus : ℕ) (re im : K × K)
    (precision : Option (ℤ × ℤ)) (sched : Schedule) :
    SameSearch (xCalculateRootsParallel (xSumLine xcfg) pi (.newton (xNewtonFew xnt)) limit xf xdf ⟨[], []⟩ cpus (finRan re)
        (finRan im) (precision.getD fd.precision) sched)
      (fd.calculateRootsParallel cpus re im precision sched) fd.container fd.info
      (parallelFilter fd.f re im (precision.getD fd.precision)) := by
  have h := parallel_same (pi := pi) (variant := .newton (xNewtonFew xnt)) fd xf xdf ⟨[], []⟩ halg hf (by rw [hnew]; exact sum_fresh)
    (fun _ _ _ h2 h3 hc => ⟨sim_sumLine hs hc, fun _ _ hd =>
      sim_newton (sim_sumLine hs hc) hn hc (by rw [h2, h3]; exact hdf) pi hd⟩) cpus re im precision sched
  unfold parallelFilter
  exact h

end

section
variable {σ τ : Type} {cfg : QuadCfg K} {xcfg : XQuadCfg K} {nt : NewtonSolver K} {xnt : XSolver K} {pi : K} {limit : ℕ}
  {fd : Finder σ K} {xf : XCx K → XCx K} {xdf : Option (XCx K → XCx K)}

/-- the quadrature estimators do the same on every line -/
theorem quad_lines (hq : FiniteQuad cfg xcfg) (hdf : FiniteDeriv fd.df xdf) {ctx : RCtx K} {xctx : XCtx K} (h2 : ctx.df = fd.df)
    (h3 : xctx.df = xdf) (hc : ExtLink.Ctx ctx xctx) :
    EstSim (fun (_ : σ) (_ : τ) => True) (quadLine cfg) (xQuadLine xcfg) ctx xctx := by
  rcases hdf with ⟨h4, h5⟩ | ⟨d, xd, h4, h5, h6⟩
  · exact sim_quadNone (h2.trans h4) (h3.trans h5)
  · exact sim_quadLine hq h6 hc (h2.trans h4) (h3.trans h5)

/-- C145, quadrature estimator, simple algorithm, serial finder -/
theorem C145_quad (hq : FiniteQuad cfg xcfg) (halg : fd.algorithm = simpleArgument (quadLine cfg) pi limit)
    (hf : FiniteValues fd.f xf) (hdf : FiniteDeriv fd.df xdf) (state : τ) (re im : K × K) (precision : Option (ℤ × ℤ)) :
    SameSearch (xCalculateRoots (xQuadLine xcfg) pi .simple limit xf xdf state (finRan re) (finRan im)
        (precision.getD fd.precision))
      (fd.calculateRoots re im precision none) fd.container fd.info
      (serialFilter fd.f re im (searchPrecision precision fd.precision)) :=
  serial_same (pi := pi) (variant := .simple) (R := fun _ _ => True) fd xf xdf state halg hf trivial
    (fun _ _ _ h2 h3 hc => ⟨quad_lines hq hdf h2 h3 hc, fun _ _ hd => sim_simple (quad_lines hq hdf h2 h3 hc) hc pi hd⟩)
    re im precision

/-- C145, quadrature estimator, Newton variant, serial finder -/
theorem C145_quad_newton (hq : FiniteQuad cfg xcfg) (hn : FiniteSolver nt xnt)
    (halg : fd.algorithm = simpleArgumentNewton nt (quadLine cfg) pi limit)
    (hf : FiniteValues fd.f xf) (hdf : FiniteDeriv fd.df xdf) (state : τ) (re im : K × K) (precision : Option (ℤ × ℤ)) :
    SameSearch (xCalculateRoots (xQuadLine xcfg) pi (.newton (xNewtonFew xnt)) limit xf xdf state (finRan re) (finRan im)
        (precision.getD fd.precision))
      (fd.calculateRoots re im precision none) fd.container fd.info
      (serialFilter fd.f re im (searchPrecision precision fd.precision)) :=
  serial_same (pi := pi) (variant := .newton (xNewtonFew xnt)) (R := fun _ _ => True) fd xf xdf state halg hf trivial
    (fun _ _ _ h2 h3 hc => ⟨quad_lines hq hdf h2 h3 hc, fun _ _ hd =>
      sim_newton (quad_lines hq hdf h2 h3 hc) hn hc (by rw [h2, h3]; exact hdf) pi hd⟩) re im precision

/-- C145, quadrature estimator, simple algorithm, parallel finder -/
theorem C145_parallel_quad (hq : FiniteQuad cfg xcfg) (halg : fd.algorithm = simpleArgument (quadLine cfg) pi limit)
    (hf : FiniteValues fd.f xf) (hdf : FiniteDeriv fd.df xdf) (state : τ) (cpus : ℕ) (re im : K × K)
    (precision : Option (ℤ × ℤ)) (sched : Schedule) :
    SameSearch (xCalculateRootsParallel (xQuadLine xcfg) pi .simple limit xf xdf state cpus (finRan re) (finRan im)
        (precision.getD fd.precision) sched)
      (fd.calculateRootsParallel cpus re im precision sched) fd.container fd.info
      (parallelFilter fd.f re im (precision.getD fd.precision)) :=
  parallel_same (pi := pi) (variant := .simple) (R := fun _ _ => True) fd xf xdf state halg hf trivial
    (fun _ _ _ h2 h3 hc => ⟨quad_lines hq hdf h2 h3 hc, fun _ _ hd => sim_simple (quad_lines hq hdf h2 h3 hc) hc pi hd⟩)
    cpus re im precision sched

/-- C145, quadrature estimator, Newton variant, parallel finder -/
theorem C145_parallel_quad_newton (hq : FiniteQuad cfg xcfg) (hn : FiniteSolver nt xnt)
    (halg : fd.algorithm = simpleArgumentNewton nt (quadLine cfg) pi limit)
    (hf : FiniteValues fd.f xf) (hdf : FiniteDeriv fd.df xdf) (state : τ) (cpus : ℕ) (re im : K × K)
    (precision : Option (ℤ × ℤ)) (sched : Schedule) :
    SameSearch (xCalculateRootsParallel (xQuadLine xcfg) pi (.newton (xNewtonFew xnt)) limit xf xdf state cpus (finRan re)
        (finRan im) (precision.getD fd.precision) sched)
      (fd.calculateRootsParallel cpus re im precision sched) fd.container fd.info
      (parallelFilter fd.f re im (precision.getD fd.precision)) :=
  parallel_same (pi := pi) (variant := .newton (xNewtonFew xnt)) (R := fun _ _ => True) fd xf xdf state halg hf trivial
    (fun _ _ _ h2 h3 hc => ⟨quad_lines hq hdf h2 h3 hc, fun _ _ hd =>
      sim_newton (quad_lines hq hdf h2 h3 hc) hn hc (by rw [h2, h3]; exact hdf) pi hd⟩) cpus re im precision sched

end

/-! ## The hypotheses can be met -/

/-- a finite number, 0 for the others -/
def part : XNum K → K
  | .fin x => x
  | _ => 0

/-- the finite part of a complex number -/
def parts (z : XCx K) : Cx K := ⟨part z.re, part z.im⟩

/-- every function is the finite part of a function with floating point numbers which is undefined (NaN) elsewhere -/
def extend (f : Cx K → Cx K) (z : XCx K) : XCx K :=
  if z.re.finite && z.im.finite then finC (f (parts z)) else ⟨.nan, .nan⟩

theorem extend_finite (f : Cx K → Cx K) : FiniteValues f (extend f) := fun _ => rfl

theorem extend_outside (f : Cx K → Cx K) : UndefinedOutside (extend f) := by
  intro z hz
  unfold extend
  by_cases h : (z.re.finite && z.im.finite) = true
  · exfalso
    apply hz
    obtain ⟨a, b⟩ := z
    cases a <;> cases b <;> first | exact ⟨_, _, rfl⟩ | simp [XNum.finite] at h
  · rw [if_neg h]; rfl

/-- for every configuration of the summation estimator over the reals there is one with floating point numbers to which the
theorems apply -/
example (cfg : SumCfg ℝ) : ∃ xcfg : XSumCfg ℝ, FiniteSum cfg xcfg :=
  ⟨{ numPts := cfg.numPts, deltaPhi := cfg.deltaPhi, maxPrecision := cfg.maxPrecision
     phase := fun a b => if a = finC 0 then .nan else .fin (cfg.arg (parts b / parts a))
     dist := fun a b => .fin (Real.sqrt (parts a - parts b).normSq)
     evals := cfg.evals, steps := cfg.steps },
    { numPts := rfl, deltaPhi := rfl, maxPrecision := rfl, evals := rfl, steps := rfl
      phase := fun _ _ ha => if_neg fun h => ha (finC_inj h)
      dist := fun _ _ => ⟨_, rfl, Real.sqrt_nonneg _, Real.sq_sqrt (Cx.normSq_nonneg _)⟩ }⟩

/-- the same for the quadrature estimator -/
example (cfg : QuadCfg K) : ∃ xcfg : XQuadCfg K, FiniteQuad cfg xcfg :=
  ⟨{ quot := fun d v => if v = finC 0 then ⟨.nan, .nan⟩ else finC (parts d / parts v)
     romb := fun ys dx => .fin (cfg.romb (ys.map part) (part dx))
     dist := fun a b => .fin (cfg.abs (parts b - parts a))
     evals := cfg.evals, steps := cfg.steps },
    { evals := rfl, steps := rfl
      quot := fun _ _ hv => if_neg fun h => hv (finC_inj h)
      romb := fun ys dx => by
        show XNum.fin (cfg.romb ((ys.map XNum.fin).map part) dx) = _
        rw [List.map_map]
        congr 2
        exact List.map_id ys
      dist := fun _ _ => rfl }⟩

/-- and for solvers -/
example (nt : NewtonSolver K) : ∃ xnt : XSolver K, FiniteSolver nt xnt :=
  ⟨{ secant := fun f a b tol => (nt.secant (fun z => parts (f (finC z))) (parts a) (parts b) tol).map finC
     newton := fun f df a tol => (nt.newton (fun z => parts (f (finC z))) (fun z => parts (df (finC z))) (parts a) tol).map finC },
    { secant := fun f xf hf a b tol => by
        have : (fun z => parts (xf (finC z))) = f := funext fun z => by rw [hf]; rfl
        show (nt.secant (fun z => parts (xf (finC z))) a b tol).map finC = _
        rw [this]
      newton := fun f xf df xdf hf hdf a tol => by
        have h1 : (fun z => parts (xf (finC z))) = f := funext fun z => by rw [hf]; rfl
        have h2 : (fun z => parts (xdf (finC z))) = df := funext fun z => by rw [hdf]; rfl
        show (nt.newton (fun z => parts (xf (finC z))) (fun z => parts (xdf (finC z))) a tol).map finC = _
        rw [h1, h2] }⟩

end PyZeal.Props
