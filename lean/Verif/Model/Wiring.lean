import Verif.Model.Init
import Verif.Model.Build

/-!
# Constructing a root finder through the service locator

The constructors of `RootFinder` and `ParallelRootFinder` with everything they ask the locator for: algorithm, container, settings, and,
inside the algorithm, the estimator (Model/Factories.lean models the factories with the locator left out). The four services may be the ones
of the package or provided by a plugin or by the user: factories and objects not belonging to the package are arbitrary.
-/

namespace PyZeal.Wiring

/-- the three classes based on the argument principle (simple_holo.py, simple_holo_newton.py, polynomial_holo.py) -/
inductive ArgKind | simple | newton | polynomial
deriving DecidableEq, Repr

/-- The Python objects that pass through the locator when a finder is constructed. -/
inductive Obj (α : Type)
  | none
  | containerType (t : ContainerTypes)
  | algoType (t : AlgorithmTypes)
  | estimatorType (t : EstimatorTypes)
  | settingsType (t : Settings.ServiceType)
  | int (n : Int)
  | pair (p : Int × Int)
  | num (x : α)
  /-- a new `EstimatorCache` -/
  | cache
  | queue (n : Nat)
  /-- a settings service with its attributes -/
  | settings (d : Defaults)
  /-- `NewtonGridAlgorithm`; newton_grid.py 25-42 -/
  | newtonGrid (numSamplePoints : Int)
  /-- `SimpleArgumentAlgorithm` or a subclass, with its estimator; simple_holo.py 40-71 -/
  | argument (kind : ArgKind) (estimator : Obj α)
  | container (c : ContainerObj)
  | estimator (e : EstimatorObj α)
  /-- an object of a class from outside the package, with the service types it is an instance of -/
  | foreign (id : Nat) (isA : List Svc)
deriving DecidableEq

/-- The factories that can be registered: those of the package, and others. -/
inductive Fac
  | settings | algorithm | container | estimator | controller | testHandler
  | foreign (n : Nat)
deriving DecidableEq

/-- `isinstance(obj, serviceType)` for the service types of the package -/
def isInst {α : Type} : Obj α → Svc → Bool
  | .settings _, t => t == .settings
  | .newtonGrid _, t => t == .algorithm
  | .argument _ _, t => t == .algorithm
  | .container _, t => t == .container
  | .estimator _, t => t == .estimator
  | .foreign _ ts, t => ts.contains t
  | _, _ => false

/-- the classes whose attribute `_logger` is set up on first use
(`algorithm_factory.py` 30, `container_factory.py`, `estimator_factory.py` 26) -/
inductive LoggerOwner | algorithm | container | estimator
deriving DecidableEq

/-- Program state besides the locator: which factory classes have their logger, and everything else. -/
structure Rest (W : Type) where
  loggers : List LoggerOwner
  world : W

abbrev State (α W : Type) := LState Svc (Obj α) Fac (Rest W)

/-- What is outside of the package: reading the settings files, setting up a logger with the log level of a settings service, factories and
settings services from elsewhere. -/
structure Env (α W : Type) where
  /-- `JSONSettingsService()` (see Model/Settings.lean) -/
  loadSettings : Py W Defaults
  /-- `LogManager.initLogger(name, settings.logLevel)` -/
  initLogger : Obj α → Py W Unit
  /-- `DEFAULT_DELTA_PHI`, `DEFAULT_MAX_PRECISION`; constants.py 21-22 -/
  constants : Factory.Constants α
  /-- `signature(factory).parameters` of factories from outside -/
  foreignSig : Nat → List (Param Svc (Obj α))
  /-- calling a factory from outside -/
  foreignCall : Nat → List (String × Obj α) → Py (State α W) (Obj α)
  /-- the attributes of a settings service from outside -/
  attributes : Nat → Except Err Defaults

section
variable {α W : Type} (E : Env α W)

/-- a computation that does not touch the locator -/
def outside {β : Type} (m : Py W β) : Py (State α W) β := fun s =>
  ((m s.world.world).1, ⟨s.loc, ⟨s.world.loggers, (m s.world.world).2⟩⟩)

/-- `inspect.signature` of the factories: settings_factory.py 18-20, algorithm_factory.py 33-38, container_factory.py 71-76,
estimator_factory.py 29-36 (the annotations `EstimatorTypes` and `EstimatorCache` are no service types of the package). The classes
`CLIController` and `InstallTestingHandler` are constructed without arguments. -/
def sig : Fac → List (Param Svc (Obj α))
  | .settings => [⟨"settingsType", some (.settingsType .DEFAULT), some (.other 0)⟩]
  | .algorithm => [⟨"algoType", some (.algoType .DEFAULT), some (.other 1)⟩, ⟨"estimatorType", some (.estimatorType .DEFAULT), some (.other 2)⟩,
      ⟨"numSamplePoints", some .none, some (.other 3)⟩]
  | .container => [⟨"containerType", some (.containerType .DEFAULT), some (.other 4)⟩, ⟨"precision", some (.pair (3, 3)), some (.other 5)⟩,
      ⟨"queue", some .none, some (.other 6)⟩]
  | .estimator => [⟨"estimatorType", Option.none, some (.other 2)⟩, ⟨"cache", Option.none, some (.other 7)⟩,
      ⟨"numPts", some .none, some (.other 3)⟩, ⟨"deltaPhi", some .none, some (.other 8)⟩, ⟨"maxPrecision", some .none, some (.other 8)⟩]
  | .controller => []
  | .testHandler => []
  | .foreign n => E.foreignSig n

/-- the value of a keyword argument -/
def arg (args : List (String × Obj α)) (name : String) : Obj α :=
  match args.find? (fun a => a.1 == name) with
  | some a => a.2
  | none => .none

/-- `algoType == AlgorithmTypes.…`: any other object is none of the explicit types; algorithm_factory.py 54-71 -/
def asAlgorithm : Obj α → AlgorithmTypes
  | .algoType t => t
  | _ => .DEFAULT

/-- container_factory.py 92-97 -/
def asContainer : Obj α → ContainerTypes
  | .containerType t => t
  | _ => .DEFAULT

/-- estimator_factory.py 54, 69 -/
def asEstimator : Obj α → EstimatorTypes
  | .estimatorType t => t
  | _ => .DEFAULT

/-- an optional number; other objects than numbers and `None` are not modelled here -/
def asInt : Obj α → Option Int
  | .int n => some n
  | _ => none

/-- an optional floating point number -/
def asNum : Obj α → Option α
  | .num x => some x
  | _ => none

/-- an optional precision -/
def asPair : Obj α → Option (Int × Int)
  | .pair p => some p
  | _ => none

/-- an optional queue -/
def asQueue : Obj α → Option Nat
  | .queue n => some n
  | _ => none

/-- optional values as objects -/
def ofInt : Option Int → Obj α
  | some n => .int n
  | none => .none

def ofPair : Option (Int × Int) → Obj α
  | some p => .pair p
  | none => .none

/-- the attributes of the settings service returned by the locator -/
def attributesOf : Obj α → Except Err Defaults
  | .settings d => .ok d
  | .foreign n _ => E.attributes n
  | _ => .error .typeError

/-- reading attributes of an object -/
def readAttributes (o : Obj α) : Py (State α W) Defaults := fun s => (attributesOf E o, s)

/-- `ServiceLocator.tryResolve(...)`, the calls of factories being `call` -/
abbrev resolver (α W : Type) := Svc → Dict String (Obj α) → Py (State α W) (Obj α)

/-- `ServiceLocator.tryResolve(SettingsService)` followed by reading attributes -/
def settingsOf (resolve : resolver α W) : Py (State α W) Defaults := do
  let o ← resolve .settings []
  readAttributes E o

/-- the first use of the logger of a new object; loggable.py 33-38 -/
def objectLogger (resolve : resolver α W) : Py (State α W) Unit := do
  let o ← resolve .settings []
  outside (E.initLogger o)

/-- note that a class has its logger now -/
def markLogger (c : LoggerOwner) : Py (State α W) Unit :=
  Py.modify fun s => ⟨s.loc, ⟨c :: s.world.loggers, s.world.world⟩⟩

/-- the logger of a factory class; algorithm_factory.py 49-53, container_factory.py 87-91, estimator_factory.py 49-53 -/
def classLogger (resolve : resolver α W) (c : LoggerOwner) : Py (State α W) Unit := do
  let s ← Py.get
  if c ∈ s.world.loggers then pure ()
  else do
    objectLogger E resolve
    markLogger c

/-- `SimpleArgumentAlgorithm.__init__`, inherited by the two subclasses; simple_holo.py 63-74. Creating the `EstimatorCache` logs a message
(estimator_cache.py 28). -/
def argumentInit (resolve : resolver α W) (kind : ArgKind) (estimatorType : Obj α) : Py (State α W) (Obj α) := do
  objectLogger E resolve
  let e ← resolve .estimator [("estimatorType", estimatorType), ("numPts", .int 6500), ("deltaPhi", .num E.constants.deltaPhi),
    ("maxPrecision", .num E.constants.maxPrecision), ("cache", .cache)]
  objectLogger E resolve
  pure (.argument kind e)

/-- `NewtonGridAlgorithm.__init__`; newton_grid.py 34-42 -/
def gridInit (resolve : resolver α W) (n : Int) : Py (State α W) (Obj α) := do
  objectLogger E resolve
  pure (.newtonGrid n)

/-- `AlgorithmFactory.getConcreteAlgorithm`; algorithm_factory.py 33-86; `again` is the recursive call -/
def algorithmCall (resolve : resolver α W) (again : List (String × Obj α) → Py (State α W) (Obj α)) (args : List (String × Obj α)) :
    Py (State α W) (Obj α) := do
  classLogger E resolve .algorithm
  match asAlgorithm (arg args "algoType") with
  | .NEWTON_GRID => gridInit E resolve (Factory.gridPoints (asInt (arg args "numSamplePoints")))
  | .SIMPLE_ARGUMENT => argumentInit E resolve .simple (arg args "estimatorType")
  | .SIMPLE_ARGUMENT_NEWTON => argumentInit E resolve .newton (arg args "estimatorType")
  | .ASSOCIATED_POLYNOMIAL => argumentInit E resolve .polynomial (arg args "estimatorType")
  | .DEFAULT => do
    let d ← settingsOf E resolve
    again [("algoType", .algoType d.algorithm), ("numSamplePoints", arg args "numSamplePoints"), ("estimatorType", arg args "estimatorType")]

/-- `precision or ServiceLocator.tryResolve(SettingsService).precision` (a pair is truthy); rounding_container.py 43-45, rootfinder.py 85-87 -/
def precisionOr (resolve : resolver α W) : Option (Int × Int) → Py (State α W) (Int × Int)
  | some p => pure p
  | none => do
    let d ← settingsOf E resolve
    pure d.precision

/-- `RoundingContainer.__init__`; rounding_container.py 36-48 -/
def roundingInit (resolve : resolver α W) (precision : Option (Int × Int)) : Py (State α W) (Obj α) := do
  let p ← precisionOr E resolve precision
  objectLogger E resolve
  pure (.container (.rounding p))

/-- `PlainContainer.__init__`; plain_container.py 37-45 -/
def plainInit (resolve : resolver α W) (queue : Option Nat) : Py (State α W) (Obj α) := do
  objectLogger E resolve
  pure (.container (.plain queue))

/-- `ContainerFactory.getConcreteContainer`; container_factory.py 71-111 -/
def containerCall (resolve : resolver α W) (again : List (String × Obj α) → Py (State α W) (Obj α)) (args : List (String × Obj α)) :
    Py (State α W) (Obj α) := do
  classLogger E resolve .container
  match asContainer (arg args "containerType") with
  | .ROUNDING_CONTAINER => roundingInit E resolve (asPair (arg args "precision"))
  | .PLAIN_CONTAINER => plainInit E resolve (asQueue (arg args "queue"))
  | .DEFAULT => do
    let d ← settingsOf E resolve
    again [("containerType", .containerType d.container), ("precision", arg args "precision"), ("queue", arg args "queue")]

/-- `SummationEstimator.__init__`; sum_estimator.py 47-73 -/
def summationInit (resolve : resolver α W) (numPts : Int) (deltaPhi maxPrecision : α) : Py (State α W) (Obj α) := do
  objectLogger E resolve
  pure (.estimator (.summation numPts deltaPhi maxPrecision))

/-- `EstimatorFactory.getConcreteEstimator`; estimator_factory.py 29-85 -/
def estimatorCall (resolve : resolver α W) (again : List (String × Obj α) → Py (State α W) (Obj α)) (args : List (String × Obj α)) :
    Py (State α W) (Obj α) := do
  classLogger E resolve .estimator
  match asEstimator (arg args "estimatorType") with
  | .SUMMATION_ESTIMATOR =>
    match asInt (arg args "numPts"), asNum (arg args "deltaPhi"), asNum (arg args "maxPrecision") with
    | some a, some b, some c => summationInit E resolve a b c
    | _, _, _ => Py.throw .valueError
  | .QUADRATURE_ESTIMATOR => pure (.estimator .quadrature)
  | .DEFAULT => do
    let d ← settingsOf E resolve
    again [("estimatorType", .estimatorType d.estimator), ("numPts", arg args "numPts"), ("deltaPhi", arg args "deltaPhi"),
      ("maxPrecision", arg args "maxPrecision"), ("cache", arg args "cache")]

/-- `SettingsServiceFactory.getConcreteSettings`; settings_factory.py 18-31: a JSON settings service in any case -/
def settingsCall : Py (State α W) (Obj α) := do
  let d ← outside E.loadSettings
  pure (.settings d)

/-- Python as the locator sees it, given what calling a factory does -/
def lenv (call : Fac → List (String × Obj α) → Py (State α W) (Obj α)) : LEnv Svc (Obj α) Fac (Rest W) where
  isInst := isInst
  none := .none
  sig := sig E
  call := call

/-- Calling a factory. The first argument bounds the nesting of calls. The classes of the command line are not constructed here. -/
def call : Nat → Fac → List (String × Obj α) → Py (State α W) (Obj α)
  | 0, _, _ => Py.throw .recursionError
  | n + 1, f, args => match f with
    | .settings => settingsCall E
    | .algorithm => algorithmCall E (Locator.tryResolve (lenv E (call n)) (n + 1)) (call n .algorithm) args
    | .container => containerCall E (Locator.tryResolve (lenv E (call n)) (n + 1)) (call n .container) args
    | .estimator => estimatorCall E (Locator.tryResolve (lenv E (call n)) (n + 1)) (call n .estimator) args
    | .controller => pure (.foreign 0 [.controller])
    | .testHandler => pure (.foreign 1 [.testHandler])
    | .foreign k => E.foreignCall k args

/-- the locator at nesting depth `n` -/
def env (n : Nat) : LEnv Svc (Obj α) Fac (Rest W) := lenv E (call E n)

/-- `ServiceLocator.tryResolve(serviceType, **kwargs)` -/
def resolve (n : Nat) : resolver α W := Locator.tryResolve (env E n) (n + 1)

/-- What a finder is made of; rootfinder.py 74-95. -/
structure Parts (α : Type) where
  algorithm : Obj α
  container : Obj α
  precision : Int × Int
  verbose : Bool
deriving DecidableEq

/-- `verbose if verbose is not None else tryResolve(SettingsService, settingsType=…).verbose`; rootfinder.py 89-95 -/
def verboseOr (resolve : resolver α W) : Option Bool → Py (State α W) Bool
  | some b => pure b
  | none => do
    let o ← resolve .settings [("settingsType", .settingsType .DEFAULT)]
    let d ← readAttributes E o
    pure d.verbose

/-- `RootFinder.__init__`; rootfinder.py 50-96 -/
def finderInit (n : Nat) (containerType : ContainerTypes) (algorithmType : AlgorithmTypes) (estimatorType : EstimatorTypes)
    (precision : Option (Int × Int)) (numSamplePoints : Option Int) (verbose : Option Bool) : Py (State α W) (Parts α) := do
  let a ← resolve E n .algorithm [("algoType", .algoType algorithmType), ("estimatorType", .estimatorType estimatorType),
    ("numSamplePoints", ofInt numSamplePoints)]
  let c ← resolve E n .container [("containerType", .containerType containerType), ("precision", ofPair precision)]
  let p ← precisionOr E (resolve E n) precision
  let v ← verboseOr E (resolve E n) verbose
  objectLogger E (resolve E n)
  pure ⟨a, c, p, v⟩

end
end PyZeal.Wiring
