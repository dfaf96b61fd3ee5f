import Verif.Model.Finder

/-! # Model of the progress bar

`pyzeal/utils/finder_progress.py` and the calls of it in `rootfinder.py` and `parallel_finder.py`. The class inherits from
`rich.progress.Progress` (external): its methods are modelled as documented there; drawing is not modelled. -/

namespace PyZeal
variable {K σ : Type}

/-- The texts a row can have: "getting roots..." (finder_progress.py 43) and "search finished!" (rootfinder.py 159,
parallel_finder.py 147) -/
inductive BarText
  | working | finished
deriving DecidableEq

/-- a row (`rich.progress.Task`) -/
structure BarTask (K : Type) where
  total : K
  completed : K
  text : BarText
  visible : Bool
  /-- `stop_task`: the clock of the row has been stopped -/
  stopped : Bool
deriving DecidableEq

/-- `FinderProgressBar` (finder_progress.py 15-32): rows by `TaskID`, the next `TaskID` (counted from 0 by `rich`), whether the bar is being
displayed -/
structure ProgressBar (K : Type) where
  tasks : Dict ℕ (BarTask K)
  nextId : ℕ
  live : Bool
deriving DecidableEq

namespace ProgressBar

/-- `FinderProgressBar()` (finder_progress.py 21-32) -/
def new : ProgressBar K := ⟨[], 0, false⟩

/-- `addTask(total)` (finder_progress.py 34-45) and `Progress.add_task`: returns the new `TaskID` -/
def addTask [Zero K] (total : K) (b : ProgressBar K) : ℕ × ProgressBar K :=
  (b.nextId, { b with tasks := b.tasks.set b.nextId ⟨total, 0, .working, true, false⟩, nextId := b.nextId + 1 })

/-- `Progress.start()` -/
def start (b : ProgressBar K) : ProgressBar K := { b with live := true }

/-- `Progress.stop()` -/
def stop (b : ProgressBar K) : ProgressBar K := { b with live := false }

/-- changes to one row -/
def onTask (id : ℕ) (g : BarTask K → BarTask K) (b : ProgressBar K) : ProgressBar K :=
  match b.tasks.get? id with
  | some t => { b with tasks := b.tasks.set id (g t) }
  | none => b

/-- `Progress.update(task, advance=a)` -/
def advance [Add K] (id : ℕ) (a : K) : ProgressBar K → ProgressBar K := onTask id fun t => { t with completed := t.completed + a }

/-- `Progress.update(task, description=text)` -/
def describe (id : ℕ) (text : BarText) : ProgressBar K → ProgressBar K := onTask id fun t => { t with text := text }

/-- `Progress.update(task, visible=False)` -/
def hide (id : ℕ) : ProgressBar K → ProgressBar K := onTask id fun t => { t with visible := false }

/-- `Progress.stop_task(task)` -/
def stopTask (id : ℕ) : ProgressBar K → ProgressBar K := onTask id fun t => { t with stopped := true }

end ProgressBar

/-- `if progress and task:` (rootfinder.py 164, parallel_finder.py 154, newton_grid.py 77): the truth value of an integer -/
def taskTruthy (task : ℕ) : Bool := decide (task ≠ 0)

/-- The reaction to an interrupt (rootfinder.py 164-167, parallel_finder.py 154-157) -/
def interruptBar (task : ℕ) (b : ProgressBar K) : ProgressBar K :=
  if taskTruthy task then (b.stopTask task).hide task else b

section
variable [Field K] [LinearOrder K] [IsStrictOrderedRing K] [FloorRing K]

/-- The bar before the search starts, with the `TaskID` (rootfinder.py 136-141, parallel_finder.py 117-122) -/
def openBar (total : K) : ℕ × ProgressBar K :=
  ((ProgressBar.new.addTask total).1, (ProgressBar.new.addTask total).2.start)

/-- The bar after the first `n` of the updates `advances` of a search (rootfinder.py 136-157, parallel_finder.py 117-144) -/
def barAfter (total : K) (advances : List K) (n : ℕ) : ProgressBar K :=
  (advances.take n).foldl (fun b a => b.advance (openBar total).1 a) (openBar total).2

/-- The bar when `RootFinder.calculateRoots` ends (rootfinder.py 136-169): `advances` are the updates by the algorithm, `outcome` what
`calcRoots` does. -/
def serialBar (total : K) (advances : List K) (outcome : Except Err Unit) : ProgressBar K :=
  let task := (openBar total).1
  let bar := advances.foldl (fun b a => b.advance task a) (openBar total).2
  match outcome with
  | .ok _ => (bar.describe task .finished).stop
  | .error .keyboardInterrupt => (interruptBar task bar).stop
  | .error _ => bar

/-- The run of the algorithm in a call of `RootFinder.calculateRoots` (rootfinder.py 144-157; as in `Finder.calculateRoots`) -/
def Finder.algorithmRun (fd : Finder σ K) (reRan imRan : K × K) (precision : Option (ℤ × ℤ)) (interrupt : Option ℕ) :
    Except Err Unit × World σ K :=
  let precision := searchPrecision precision fd.precision
  let domain := desymmetrizeDomain reRan imRan precision
  fd.algorithm { f := fd.f, df := fd.df, precision := precision, reRan := domain.1, imRan := domain.2, progress := fd.verbose }
    { cache := fd.cache, est := fd.est, added := [], advances := [], fuse := interrupt, log := [] }

/-- The total of the bar's row (rootfinder.py 140, parallel_finder.py 120) -/
def Finder.barTotal (fd : Finder σ K) (reRan imRan : K × K) (precision : Option (ℤ × ℤ)) : K :=
  let domain := desymmetrizeDomain reRan imRan (searchPrecision precision fd.precision)
  (domain.1.2 - domain.1.1) * (domain.2.2 - domain.2.1)

/-- The bar at the end of `RootFinder.calculateRoots` (rootfinder.py 136-169), if there is one -/
def Finder.shownBar (fd : Finder σ K) (reRan imRan : K × K) (precision : Option (ℤ × ℤ)) (interrupt : Option ℕ) :
    Option (ProgressBar K) :=
  if fd.verbose then
    some (serialBar (fd.barTotal reRan imRan precision) (fd.algorithmRun reRan imRan precision interrupt).2.advances
      (fd.algorithmRun reRan imRan precision interrupt).1)
  else none

/-- The updates a child process makes for its piece of the jobs (parallel_finder.py 220-229; as in `runPiece`) -/
def pieceAdvances (fd : Finder σ K) (jobs : List (RCtx K)) : List K :=
  (runJobs fd.algorithm jobs { cache := fd.cache, est := fd.est, added := [], advances := [], fuse := none, log := [] }).2.advances

/-- The updates that arrive at the shared bar in a parallel search: `turns` lists which child process makes its next update, as for the
roots in `Finder.calculateRootsParallel`; after an interrupt no more updates arrive. -/
def Finder.parallelAdvances (fd : Finder σ K) (cpus : ℕ) (reRan imRan : K × K) (precision : Option (ℤ × ℤ)) (turns : List ℕ)
    (interrupted : Bool) : List K :=
  let precision := searchPrecision precision fd.precision
  let domain := desymmetrizeDomain reRan imRan precision
  let jobs := createRootJobs fd.f fd.df cpus domain.1 domain.2 precision fd.verbose
  let d := deliver ((chunks cpus jobs.length jobs).map (pieceAdvances fd)) turns
  if interrupted then d.1 else d.1 ++ d.2.flatten

/-- The shared bar when `ParallelRootFinder.calculateRoots` ends (parallel_finder.py 114-159). `outcome` is what `pool.starmap` does; another
exception than an interrupt leaves the `with` block, which ends the process displaying the bar. -/
def parallelBar (total : K) (advances : List K) (outcome : Except Err Unit) : ProgressBar K :=
  let task := (openBar total).1
  let bar := advances.foldl (fun b a => b.advance task a) (openBar total).2
  match outcome with
  | .ok _ => (bar.describe task .finished).stop
  | .error .keyboardInterrupt => (interruptBar task bar).stop
  | .error _ => bar.stop

/-- What `pool.starmap` does (parallel_finder.py 140-144, 150; as in `Finder.calculateRootsParallel`) -/
def Finder.starmapOutcome (fd : Finder σ K) (cpus : ℕ) (reRan imRan : K × K) (precision : Option (ℤ × ℤ)) (sched : Schedule) : Except Err Unit :=
  let precision := searchPrecision precision fd.precision
  let domain := desymmetrizeDomain reRan imRan precision
  let jobs := createRootJobs fd.f fd.df cpus domain.1 domain.2 precision fd.verbose
  if sched.interrupted then .error .keyboardInterrupt
  else firstFailure sched (((chunks cpus jobs.length jobs).map (runPiece fd)).map Prod.fst)

/-- The bar at the end of `ParallelRootFinder.calculateRoots`, if there is one; `turns` is the order of the updates. -/
def Finder.shownBarParallel (fd : Finder σ K) (cpus : ℕ) (reRan imRan : K × K) (precision : Option (ℤ × ℤ)) (sched : Schedule)
    (turns : List ℕ) : Option (ProgressBar K) :=
  if fd.verbose then
    some (parallelBar (fd.barTotal reRan imRan precision) (fd.parallelAdvances cpus reRan imRan precision turns sched.interrupted)
      (fd.starmapOutcome cpus reRan imRan precision sched))
  else none

end
end PyZeal
