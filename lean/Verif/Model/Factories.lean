import Verif.Core.Py
import Verif.Core.Num
import Verif.Model.Types

/-!
# Model of the static factories

`pyzeal/utils/factories/*.py` and the constructors they call.  The settings service is resolved anew
on every use (`ServiceLocator.tryResolve(SettingsService)`); it is an operation of the environment,
which may depend on the state and may raise.  Log messages are not modelled, the set-up of the
factory's logger on first use is.
-/

namespace PyZeal

/-- What the factories and finders read from a settings service; `settings/settings_service.py`. -/
structure Defaults where
  container : ContainerTypes
  algorithm : AlgorithmTypes
  estimator : EstimatorTypes
  precision : Int × Int
  verbose : Bool
deriving DecidableEq, Repr

/-- An argument estimator made by `EstimatorFactory`; estimators/sum_estimator.py,
quad_estimator.py.  `α` are floating point numbers. -/
inductive EstimatorObj (α : Type)
  | summation (numPts : Int) (deltaPhi maxPrecision : α)
  | quadrature
deriving DecidableEq, Repr

/-- An algorithm object made by `AlgorithmFactory`; the argument principle algorithms own an
estimator (`simple_holo.py` 63-71). -/
inductive AlgorithmObj (α : Type)
  | newtonGrid (numSamplePoints : Int)
  | simpleArgument (est : EstimatorObj α)
  | simpleArgumentNewton (est : EstimatorObj α)
  | associatedPolynomial (est : EstimatorObj α)
deriving DecidableEq, Repr

/-- A container object made by `ContainerFactory`: a rounding container with its precision, or a plain
container, based on a given queue (identified by a number) or on a queue of its own. -/
inductive ContainerObj
  | rounding (precision : Int × Int)
  | plain (queue : Option Nat)
deriving DecidableEq, Repr

/-- The surroundings of the factories. -/
structure FactoryEnv (σ : Type) where
  /-- `ServiceLocator.tryResolve(SettingsService)` -/
  settings : Py σ Defaults
  /-- the set-up of the class attribute `_logger` if it is `None`
  (`algorithm_factory.py` 49-53, `container_factory.py` 86-90, `estimator_factory.py` 48-52) -/
  logger : Py σ Unit

namespace Factory
variable {σ α : Type} (E : FactoryEnv σ)

/-- `EstimatorFactory.getConcreteEstimator`; `estimator_factory.py` 28-85.  The first argument is the
number of frames left before `RecursionError`. -/
def getConcreteEstimator : Nat → EstimatorTypes → (numPts : Option Int) → (deltaPhi maxPrecision : Option α) →
    Py σ (EstimatorObj α)
  | 0, _, _, _, _ => Py.throw .recursionError
  | n + 1, ty, numPts, deltaPhi, maxPrecision => do
    E.logger
    match ty with
    | .SUMMATION_ESTIMATOR =>
      match numPts, deltaPhi, maxPrecision with
      | some a, some b, some c => pure (.summation a b c)
      | _, _, _ => Py.throw .valueError
    | .QUADRATURE_ESTIMATOR => pure .quadrature
    | .DEFAULT => do
      let settings ← E.settings
      getConcreteEstimator n settings.estimator numPts deltaPhi maxPrecision

/-- The constants of `algorithms/constants.py` 20-22: `DEFAULT_DELTA_PHI`, `DEFAULT_MAX_PRECISION`
(`DEFAULT_NUM_PTS` is 6500). -/
structure Constants (α : Type) where
  deltaPhi : α
  maxPrecision : α

/-- `SimpleArgumentAlgorithm.__init__` (`simple_holo.py` 42-74, inherited by the two variants): the
estimator is resolved through the locator, which calls the registered
`EstimatorFactory.getConcreteEstimator`. -/
def simpleInit (K : Constants α) (n : Nat) (estimatorType : EstimatorTypes) : Py σ (EstimatorObj α) :=
  getConcreteEstimator E n estimatorType (some 6500) (some K.deltaPhi) (some K.maxPrecision)

/-- `NewtonGridAlgorithm(numSamplePoints=...)` or `NewtonGridAlgorithm()`;
`algorithm_factory.py` 58-60, `newton_grid.py` 34: `None` and `0` are falsy -/
def gridPoints : Option Int → Int
  | none => 50
  | some 0 => 50
  | some n => n

/-- `AlgorithmFactory.getConcreteAlgorithm`; `algorithm_factory.py` 33-86 -/
def getConcreteAlgorithm (K : Constants α) : Nat → AlgorithmTypes → EstimatorTypes → (numSamplePoints : Option Int) →
    Py σ (AlgorithmObj α)
  | 0, _, _, _ => Py.throw .recursionError
  | n + 1, ty, est, numSamplePoints => do
    E.logger
    match ty with
    | .NEWTON_GRID => pure (.newtonGrid (gridPoints numSamplePoints))
    | .SIMPLE_ARGUMENT => do
      let e ← simpleInit E K n est
      pure (.simpleArgument e)
    | .SIMPLE_ARGUMENT_NEWTON => do
      let e ← simpleInit E K n est
      pure (.simpleArgumentNewton e)
    | .ASSOCIATED_POLYNOMIAL => do
      let e ← simpleInit E K n est
      pure (.associatedPolynomial e)
    | .DEFAULT => do
      let settings ← E.settings
      getConcreteAlgorithm K n settings.algorithm est numSamplePoints

/-- `RoundingContainer.__init__`; `rounding_container.py` 36-48: without precision the one from the
settings is used -/
def roundingInit : Option (Int × Int) → Py σ ContainerObj
  | some p => pure (.rounding p)
  | none => do
    let settings ← E.settings
    pure (.rounding settings.precision)

/-- `ContainerFactory.getConcreteContainer`; `container_factory.py` 69-111.  The default `(3, 3)` of
`precision` applies only if the argument is not given; callers pass it (possibly as `None`). -/
def getConcreteContainer : Nat → ContainerTypes → (precision : Option (Int × Int)) → (queue : Option Nat) →
    Py σ ContainerObj
  | 0, _, _, _ => Py.throw .recursionError
  | n + 1, ty, precision, queue => do
    E.logger
    match ty with
    | .ROUNDING_CONTAINER => roundingInit E precision
    | .PLAIN_CONTAINER => pure (.plain queue)
    | .DEFAULT => do
      let settings ← E.settings
      getConcreteContainer n settings.container precision queue

/-- What a finder is made of; `rootfinder.py` 74-95. -/
structure FinderParts (α : Type) where
  algorithm : AlgorithmObj α
  container : ContainerObj
  precision : Int × Int
  verbose : Bool
deriving DecidableEq, Repr

/-- `precision or tryResolve(SettingsService).precision`; `rootfinder.py` 85-87 (a pair is truthy) -/
def precisionOr : Option (Int × Int) → Py σ (Int × Int)
  | some p => pure p
  | none => do
    let settings ← E.settings
    pure settings.precision

/-- `verbose if verbose is not None else tryResolve(SettingsService, …).verbose`;
`rootfinder.py` 89-95 -/
def verboseOr : Option Bool → Py σ Bool
  | some b => pure b
  | none => do
    let settings ← E.settings
    pure settings.verbose

/-- `RootFinder.__init__`; `rootfinder.py` 74-95, with the default services registered. -/
def finderInit (K : Constants α) (n : Nat) (containerType : ContainerTypes) (algorithmType : AlgorithmTypes)
    (estimatorType : EstimatorTypes) (precision : Option (Int × Int)) (numSamplePoints : Option Int)
    (verbose : Option Bool) : Py σ (FinderParts α) := do
  let a ← getConcreteAlgorithm E K n algorithmType estimatorType numSamplePoints
  let c ← getConcreteContainer E n containerType precision none
  let p ← precisionOr E precision
  let v ← verboseOr E verbose
  pure ⟨a, c, p, v⟩

end Factory
end PyZeal
