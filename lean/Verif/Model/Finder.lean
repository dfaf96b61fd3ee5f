import Verif.Model.Algorithms

/-!
# Root finders

Models `pyzeal/rootfinders/rootfinder.py` and `pyzeal/rootfinders/parallel_finder.py`.
The objects the constructor obtains from the service locator (algorithm, container, settings) are parameters;
Model/Locator.lean and Model/Factories.lean model where they come from.
-/

namespace PyZeal
variable {K σ : Type}

/-- State of a progress bar shown by a search: the total of its task, the updates it received, and whether it is still
being displayed (`progress.start()` without `progress.stop()`). -/
structure Bar (K : Type) where
  total : K
  advances : List K
  running : Bool

/-- A `RootFinder` object (rootfinder.py 40-96). `cache` and `est` are the mutable state of its algorithm object,
`info` tells whether the log level lets messages of level INFO pass. -/
structure Finder (σ K : Type) where
  f : Cx K → Cx K
  df : Option (Cx K → Cx K)
  algorithm : RCtx K → Py (World σ K) Unit
  precision : ℤ × ℤ
  verbose : Bool
  info : Bool
  container : AnyContainer K
  cache : EstCache K
  est : σ

/-- What is read from the settings service (rootfinder.py 86, 92-94). -/
structure FinderSettings where
  precision : ℤ × ℤ
  verbose : Bool

section
variable [Field K] [LinearOrder K] [IsStrictOrderedRing K] [FloorRing K]

/-- `RootFinder.__init__` (rootfinder.py 50-96). `algorithm`, `cache`, `est` are the resolved algorithm object;
`newContainer precision` is the resolved container. `precision or ...`: a pair is always truthy;
`verbose if verbose is not None else ...`. -/
def Finder.init (f : Cx K → Cx K) (df : Option (Cx K → Cx K)) (algorithm : RCtx K → Py (World σ K) Unit)
    (cache : EstCache K) (est : σ) (newContainer : Option (ℤ × ℤ) → AnyContainer K) (info : Bool)
    (precision : Option (ℤ × ℤ)) (verbose : Option Bool) (settings : FinderSettings) : Finder σ K where
  f := f
  df := df
  algorithm := algorithm
  precision := precision.getD settings.precision
  verbose := verbose.getD settings.verbose
  info := info
  container := newContainer precision
  cache := cache
  est := est

/-- `ParallelRootFinder.__init__` (parallel_finder.py 61-66): the number of sample points handed on. -/
def parallelSamplePoints (cpus : ℕ) (numSamplePoints : Option ℕ) : Option ℕ :=
  match numSamplePoints with
  | none => none
  | some 0 => none
  | some n => some (n / cpus + 1)

/-- `self.container.addRoot(root, context)` for either class of containers (rounding_container.py 50-87,
plain_container.py 47-59) -/
def AnyContainer.addRoot (info : Bool) (root : Root K) (ctx : FilterCtx K) : AnyContainer K → AnyContainer K
  | .rounding c => .rounding (c.addRoot info root ctx)
  | .plain c => .plain (c.addRoot root ctx)

/-- a sequence of `addRoot` calls -/
def AnyContainer.addRoots (info : Bool) (ctx : FilterCtx K) (c : AnyContainer K) (roots : List (Root K)) :
    AnyContainer K :=
  roots.foldl (fun c r => c.addRoot info r ctx) c

/-- `self.container.getRoots()` for either class of containers (rounding_container.py 114-123, plain_container.py 70-77), for a given
iteration order `it` of a rounding container's set -/
def AnyContainer.getRoots (it : RContainer K → List (Root K)) : AnyContainer K → List (Cx K) × AnyContainer K
  | .rounding c => (c.getRoots (it c), .rounding c)
  | .plain c => (c.getRoots.1, .plain c.getRoots.2)

/-- `self.container.getRootOrders()` (rounding_container.py 125-135, plain_container.py 79-87) -/
def AnyContainer.getRootOrders (it : RContainer K → List (Root K)) : AnyContainer K → List ℤ × AnyContainer K
  | .rounding c => (c.getRootOrders (it c), .rounding c)
  | .plain c => (c.getRootOrders.1, .plain c.getRootOrders.2)

/-- `RootFinder.roots` (rootfinder.py 172-180), inherited by `ParallelRootFinder` -/
def Finder.roots (it : RContainer K → List (Root K)) (fd : Finder σ K) : List (Cx K) × Finder σ K :=
  let r := fd.container.getRoots it
  (r.1, { fd with container := r.2 })

/-- `RootFinder.orders` (rootfinder.py 182-190), inherited by `ParallelRootFinder` -/
def Finder.orders (it : RContainer K → List (Root K)) (fd : Finder σ K) : List ℤ × Finder σ K :=
  let r := fd.container.getRootOrders it
  (r.1, { fd with container := r.2 })

/-- `RootFinderInterface.setRootFilter` (finder_interface.py 82-94), inherited by both finders. -/
def Finder.setRootFilter (t : FilterType) (threshold : ℤ := 3) : Py (Finder σ K) Unit := fun fd =>
  let r := registerPreDefinedFilter t threshold fd.container
  (r.1, { fd with container := r.2 })

/-- `RootFinder.desymmetrizeDomain` (rootfinder.py 210-241) -/
def desymmetrizeDomain (reRan imRan : K × K) (precision : ℤ × ℤ) : (K × K) × (K × K) :=
  let x1 := min reRan.1 reRan.2
  let x2 := max reRan.1 reRan.2
  let y1 := min imRan.1 imRan.2
  let y2 := max imRan.1 imRan.2
  ((x1 - 1 * eps10 K precision.1, x2 + 2 * eps10 K precision.1),
   (y1 - 3 * eps10 K precision.2, y2 + 4 * eps10 K precision.2))

/-- Result of a call of `calculateRoots`: what the call returns or raises, the finder afterwards, whether the warning
about missing roots was logged (rootfinder.py 161-163, parallel_finder.py 151-153), the progress bar. -/
structure Search (σ K : Type) where
  outcome : Except Err Unit
  finder : Finder σ K
  warned : Bool
  bar : Option (Bar K)

/-- the precision a search works with (rootfinder.py 128-131, parallel_finder.py 107-110) -/
def searchPrecision (call : Option (ℤ × ℤ)) (stored : ℤ × ℤ) : ℤ × ℤ :=
  let precision := call.getD stored
  (precision.1 + 1, precision.2 + 1)

/-- `RootFinder.calculateRoots` (rootfinder.py 112-170). `interrupt = some n`: ctrl+C arrives during
`self.algorithm.calcRoots(context)` after `n` more effects of the algorithm. The container receives the
`addRoot` calls of the algorithm in order (`World.added`). The progress bar is stopped after success and after an
interrupt (168-169), not when another exception propagates. -/
def Finder.calculateRoots (fd : Finder σ K) (reRan imRan : K × K) (precision : Option (ℤ × ℤ))
    (interrupt : Option ℕ) : Search σ K :=
  let precision := searchPrecision precision fd.precision
  let domain := desymmetrizeDomain reRan imRan precision
  let context : RCtx K :=
    { f := fd.f, df := fd.df, precision := precision, reRan := domain.1, imRan := domain.2, progress := fd.verbose }
  let r := fd.algorithm context
    { cache := fd.cache, est := fd.est, added := [], advances := [], fuse := interrupt, log := [] }
  let fd' := { fd with
    container := fd.container.addRoots fd.info context.toFilter r.2.added
    cache := r.2.cache
    est := r.2.est }
  let total := (domain.1.2 - domain.1.1) * (domain.2.2 - domain.2.1)
  let bar := fun running => if fd.verbose then some ⟨total, r.2.advances, running⟩ else none
  match r.1 with
  | .ok _ => ⟨.ok (), fd', false, bar false⟩
  | .error .keyboardInterrupt => ⟨.ok (), fd', true, bar false⟩
  | .error e => ⟨.error e, fd', false, bar true⟩

/-! ## Parallel finder -/

/-- `ParallelRootFinder.createRootJobs` (parallel_finder.py 171-218) -/
def createRootJobs (f : Cx K → Cx K) (df : Option (Cx K → Cx K)) (numProcesses : ℕ) (reRan imRan : K × K)
    (precision : ℤ × ℤ) (progress : Bool) : List (RCtx K) :=
  let realPts := linspaceR reRan.1 reRan.2 (numProcesses + 1)
  let imagPts := linspaceR imRan.1 imRan.2 (numProcesses + 1)
  (List.range (realPts.length - 1)).flatMap fun (i : ℕ) =>
    (List.range (imagPts.length - 1)).map fun (j : ℕ) =>
      { f := f, df := df, precision := precision,
        reRan := (realPts.getD i 0, realPts.getD (i + 1) 0),
        imRan := (imagPts.getD j 0, imagPts.getD (j + 1) 0), progress := progress }

/-- `multiprocessing.pool.Pool._get_tasks`: the jobs are cut into pieces of length `chunksize` (parallel_finder.py 143);
the first argument bounds the number of pieces. -/
def chunks {α : Type} (chunksize : ℕ) : ℕ → List α → List (List α)
  | 0, _ => []
  | _ + 1, [] => []
  | n + 1, a :: l => (a :: l).take chunksize :: chunks chunksize n ((a :: l).drop chunksize)

/-- The jobs of one piece are run one after the other by `rootWorker` (parallel_finder.py 220-229) in one child process,
on one copy of the finder; an exception ends the piece. -/
def runJobs (algorithm : RCtx K → Py (World σ K) Unit) : List (RCtx K) → Py (World σ K) Unit
  | [] => pure ()
  | ctx :: rest => do
    algorithm ctx
    runJobs algorithm rest

/-- What a child process does with a piece: its outcome and the roots it puts into the shared queue, in order (the
contexts' container is a plain container around the queue). It starts from a copy of the algorithm object
(the bound method is pickled) and ignores ctrl+C (parallel_finder.py 231-234). -/
def runPiece (fd : Finder σ K) (jobs : List (RCtx K)) : Except Err Unit × List (Root K) :=
  let r := runJobs fd.algorithm jobs
    { cache := fd.cache, est := fd.est, added := [], advances := [], fuse := none, log := [] }
  (r.1, r.2.added)

/-- Scheduling of a parallel search: `turns` lists which piece puts its next root into the queue; `interrupted`
tells whether ctrl+C arrives while the main process waits for `pool.starmap`, after these turns (the children are
then terminated); `failure` tells which of several exceptions reaches the main process first. -/
structure Schedule where
  turns : List ℕ
  interrupted : Bool
  failure : ℕ

/-- the queue filled according to a list of turns, and what was not put yet -/
def deliver {α : Type} : List (List α) → List ℕ → List α × List (List α)
  | out, [] => ([], out)
  | out, i :: turns =>
    match out[i]? with
    | some (x :: xs) =>
      let r := deliver (out.set i xs) turns
      (x :: r.1, r.2)
    | _ => deliver out turns

/-- the exception with which a piece ended, if any -/
def errorOf : Except Err Unit → Option Err
  | .ok _ => none
  | .error e => some e

/-- the exception raised by `pool.starmap` if any piece failed: the first one to arrive (parallel_finder.py 143) -/
def firstFailure (sched : Schedule) (results : List (Except Err Unit)) : Except Err Unit :=
    match results.filterMap errorOf with
    | [] => .ok ()
    | e :: es => .error ((e :: es).getD sched.failure e)

/-- `ParallelRootFinder.calculateRoots` (parallel_finder.py 92-169). `cpus` is `cpu_count() or 1`. Without interrupt all
pieces run to their end (turns not listed in the schedule happen in the order of the pieces). After success or interrupt
the queue is transferred to the container with the requested precision (161-168); another exception propagates
before that. The progress bar lives in the manager process, which ends with the `with` block (116); its updates
are not modelled. -/
def Finder.calculateRootsParallel (fd : Finder σ K) (cpus : ℕ) (reRan imRan : K × K) (precision : Option (ℤ × ℤ))
    (sched : Schedule) : Search σ K :=
  let precision := searchPrecision precision fd.precision
  let domain := desymmetrizeDomain reRan imRan precision
  let jobs := createRootJobs fd.f fd.df cpus domain.1 domain.2 precision fd.verbose
  let results := (chunks cpus jobs.length jobs).map (runPiece fd)
  let d := deliver (results.map Prod.snd) sched.turns
  let queue := if sched.interrupted then d.1 else d.1 ++ d.2.flatten
  let outcome := if sched.interrupted then .ok () else firstFailure sched (results.map Prod.fst)
  let precision := (precision.1 - 1, precision.2 - 1)
  let total := (domain.1.2 - domain.1.1) * (domain.2.2 - domain.2.1)
  let bar := if fd.verbose then some ⟨total, [], false⟩ else none
  match outcome with
  | .ok _ =>
    let filterContext : FilterCtx K := { f := fd.f, reRan := domain.1, imRan := domain.2, precision := precision }
    ⟨.ok (), { fd with container := fd.container.addRoots fd.info filterContext queue }, sched.interrupted, bar⟩
  | .error e => ⟨.error e, fd, false, bar⟩

end
end PyZeal
