import Verif.Model.FloatContainer

/-! # The parallel finder in floating-point arithmetic

`parallel_finder.py` with the rounding errors of `np.linspace`, `desymmetrizeDomain` and of the container. Scheduling is the
one of `Model/Finder.lean`. -/

namespace PyZeal
variable {K : Type} {σ : Type} [Field K] [LinearOrder K] [IsStrictOrderedRing K] [FloorRing K]

/-- `np.linspace(a, b, n)` for floats `a`, `b`, as computed: `step = (b - a) / (n - 1)`, the points are
`arange(n) * step + a`, the last one is replaced by `b` (the first one, `0 * step + a`, is `a`) -/
def linspaceRF (A : FloatOps K) (a b : K) : ℕ → List K
  | 0 => []
  | 1 => [a]
  | n + 2 =>
    let step := A.fl (A.fl (b - a) / ((n + 1 : ℕ) : K))
    a :: ((List.range n).map fun k => A.fl (A.fl (((k + 1 : ℕ) : K) * step) + a)) ++ [b]

/-- `ParallelRootFinder.createRootJobs` (parallel_finder.py 171-218) as computed -/
def createRootJobsF (A : FloatOps K) (f : Cx K → Cx K) (df : Option (Cx K → Cx K)) (numProcesses : ℕ) (reRan imRan : K × K)
    (precision : ℤ × ℤ) (progress : Bool) : List (RCtx K) :=
  let realPts := linspaceRF A reRan.1 reRan.2 (numProcesses + 1)
  let imagPts := linspaceRF A imRan.1 imRan.2 (numProcesses + 1)
  (List.range (realPts.length - 1)).flatMap fun (i : ℕ) =>
    (List.range (imagPts.length - 1)).map fun (j : ℕ) =>
      { f := f, df := df, precision := precision,
        reRan := (realPts.getD i 0, realPts.getD (i + 1) 0),
        imRan := (imagPts.getD j 0, imagPts.getD (j + 1) 0), progress := progress }

/-- `ParallelRootFinder.calculateRoots` (parallel_finder.py 92-169) as computed, see `Finder.calculateRootsParallel` (whose
comment applies); `kind` tells the class of the numbers which reach the container. -/
def Finder.calculateRootsParallelF (A : FloatOps K) (kind : Root K → NumKind) (fd : Finder σ K) (cpus : ℕ)
    (reRan imRan : K × K) (precision : Option (ℤ × ℤ)) (sched : Schedule) : Search σ K :=
  let precision := searchPrecision precision fd.precision
  let domain := desymmetrizeDomainF A reRan imRan precision
  let jobs := createRootJobsF A fd.f fd.df cpus domain.1 domain.2 precision fd.verbose
  let results := (chunks cpus jobs.length jobs).map (runPiece fd)
  let d := deliver (results.map Prod.snd) sched.turns
  let queue := if sched.interrupted then d.1 else d.1 ++ d.2.flatten
  let outcome := if sched.interrupted then .ok () else firstFailure sched (results.map Prod.fst)
  let precision := (precision.1 - 1, precision.2 - 1)
  let total := A.fl (A.fl (domain.1.2 - domain.1.1) * A.fl (domain.2.2 - domain.2.1))
  let bar := if fd.verbose then some ⟨total, [], false⟩ else none
  match outcome with
  | .ok _ =>
    let filterContext : FilterCtx K := { f := fd.f, reRan := domain.1, imRan := domain.2, precision := precision }
    ⟨.ok (), { fd with container := fd.container.addRootsF A.fl kind fd.info filterContext queue }, sched.interrupted, bar⟩
  | .error e => ⟨.error e, fd, false, bar⟩

end PyZeal
