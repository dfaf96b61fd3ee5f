import Verif.Model.Factories
import Verif.Model.Settings
import Verif.Model.Finder
import Verif.Model.Summation
import Verif.Model.Quadrature

/-!
# Assembling root finders

The constructors of `RootFinder` and `ParallelRootFinder` as a whole: the objects made by the factories (Model/Factories.lean) become the
algorithm and the container of a finder (Model/Finder.lean); the settings come from the settings files (Model/Settings.lean).
-/

namespace PyZeal
variable {σ K : Type}

/-- What finders use from outside the package: `pi` (numpy), the argument of a complex number (`np.arctan2`), the bounds for loops without bound
(see `SumCfg`, `QuadCfg`), `scipy.optimize.newton`, the polynomial root finder, the recursion limit of the interpreter; whether log
messages of the levels INFO and DEBUG are emitted; whether `context.task` is a truthy number (see `newtonGrid`). -/
structure Externals (K : Type) where
  pi : K
  arg : Cx K → K
  evals : ℕ → ℕ
  steps : ℕ
  quad : QuadCfg K
  newton : NewtonSolver K
  polyRoots : List (Cx K) → List (Cx K)
  limit : ℕ
  info : Bool
  debug : Bool
  taskTruthy : Bool

section
variable [Field K] [LinearOrder K] [IsStrictOrderedRing K] [FloorRing K]

/-- `calcMomentAlongLine` of an estimator object (sum_estimator.py 45-75, quad_estimator.py 32-38). The number of points is a natural number
here: `np.linspace` rejects negative ones. -/
def EstimatorObj.line (X : Externals K) : EstimatorObj K → LineEst (SumState K) K
  | .summation numPts deltaPhi maxPrecision => sumLine ⟨numPts.toNat, deltaPhi, maxPrecision, X.arg, X.evals, X.steps⟩
  | .quadrature => quadLine X.quad

/-- `calcRoots` of an algorithm object (newton_grid.py 34-84, simple_holo.py 42-110, simple_holo_newton.py, polynomial_holo.py) -/
def AlgorithmObj.run (X : Externals K) : AlgorithmObj K → RCtx K → Py (World (SumState K) K) Unit
  | .newtonGrid n => PyZeal.newtonGrid X.newton n.toNat X.taskTruthy
  | .simpleArgument e => PyZeal.simpleArgument (e.line X) X.pi X.limit
  | .simpleArgumentNewton e => PyZeal.simpleArgumentNewton X.newton (e.line X) X.pi X.limit
  | .associatedPolynomial e => PyZeal.associatedPolynomial X.polyRoots (e.line X) X.pi X.limit

/-- a new container object (rounding_container.py 36-48, plain_container.py 37-45); queues are not shared here, see Model/SharedQueue.lean -/
def ContainerObj.make : ContainerObj → AnyContainer K
  | .rounding p => .rounding (RContainer.init (some p) p)
  | .plain _ => .plain ⟨[], []⟩

/-- the finder object made of the parts, with a new cache (simple_holo.py 63) and a new estimator (sum_estimator.py 69-71); rootfinder.py 72-95 -/
def FinderParts.finder (X : Externals K) (f : Cx K → Cx K) (df : Option (Cx K → Cx K)) (p : Factory.FinderParts K) : Finder (SumState K) K where
  f := f
  df := df
  algorithm := p.algorithm.run X
  precision := p.precision
  verbose := p.verbose
  info := X.info
  container := p.container.make
  cache := EstCache.init X.debug
  est := SumState.fresh

/-- Arguments of the constructors of both finders after `f` and `df` (rootfinder.py 53-62, parallel_finder.py 42-51), with their default values. -/
structure FinderArgs where
  container : ContainerTypes := .DEFAULT
  algorithm : AlgorithmTypes := .DEFAULT
  estimator : EstimatorTypes := .DEFAULT
  precision : Option (ℤ × ℤ) := none
  numSamplePoints : Option ℕ := none
  verbose : Option Bool := none

/-- `RootFinder(f, df, ...)`; rootfinder.py 50-96. `DEFAULT_DELTA_PHI` and `DEFAULT_MAX_PRECISION` from constants.py 21-22. -/
def newFinder (E : FactoryEnv σ) (X : Externals K) (f : Cx K → Cx K) (df : Option (Cx K → Cx K)) (a : FinderArgs) :
    Py σ (Finder (SumState K) K) := do
  let p ← Factory.finderInit E ⟨1 / 100, 1 / 10 ^ 10⟩ X.limit a.container a.algorithm a.estimator a.precision (a.numSamplePoints.map Int.ofNat) a.verbose
  pure (FinderParts.finder X f df p)

/-- `ParallelRootFinder(f, df, ...)` on a machine with `cpus` processors; parallel_finder.py 38-76 -/
def newParallelFinder (E : FactoryEnv σ) (X : Externals K) (cpus : ℕ) (f : Cx K → Cx K) (df : Option (Cx K → Cx K)) (a : FinderArgs) :
    Py σ (Finder (SumState K) K) :=
  newFinder E X f df { a with numSamplePoints := parallelSamplePoints cpus a.numSamplePoints }

end

/-! ## Settings from the files -/

namespace Settings

/-- `SettingsServicesTypes`; settings_types.py -/
inductive ServiceType | DEFAULT | JSON_SETTINGS
deriving DecidableEq

/-- `SettingsServiceFactory.getConcreteSettings`; settings_factory.py 17-31 -/
def getConcreteSettings : ServiceType → Py SettingsFS Service
  | .JSON_SETTINGS => fun fs => (load fs, fs)
  | .DEFAULT => fun fs => (load fs, fs)

/-- the attributes the factories and finders read (json_core_settings.py 85-120, json_settings_service.py 91-150); a precision that is not a
pair of integers is an error here (in Python it would surface when the precision is used) -/
def defaultsOf (svc : Service) : Except Err Defaults :=
  match svc .container, svc .algorithm, svc .estimator, svc .precision, svc .verbose with
  | .container c, .algorithm a, .estimator e, .tuple [.int p, .int q], .bool v => .ok ⟨c, a, e, (p, q), v⟩
  | _, _, _, _, _ => .error .typeError

/-- `ServiceLocator.tryResolve(SettingsService)` with the registration of initialization_handler.py 58-61 -/
def resolveSettings : Py SettingsFS Defaults := fun fs =>
  match getConcreteSettings .DEFAULT fs with
  | (.ok svc, fs') => (defaultsOf svc, fs')
  | (.error e, fs') => (.error e, fs')

/-- the surroundings of the factories when the settings come from the files; loggers can be set up (log_manager.py; not part of the settings files) -/
def fileEnv : FactoryEnv SettingsFS := { settings := resolveSettings, logger := pure () }

end Settings
end PyZeal
