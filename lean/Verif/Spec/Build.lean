import Verif.Model.Build
import Verif.Spec.Settings

/-! # Specification vocabulary: what a new finder is -/

namespace PyZeal.Spec
variable {K : Type} [Field K] [LinearOrder K] [IsStrictOrderedRing K] [FloorRing K]

/-- the estimator a type names, with the parameters the package uses: 6500 points per line, phase steps below 0.01, points not closer than 10^-10 -/
def estimatorNamed (X : Externals K) : EstimatorTypes → LineEst (SumState K) K
  | .QUADRATURE_ESTIMATOR => quadLine X.quad
  | _ => sumLine { numPts := 6500, deltaPhi := 1 / 100, maxPrecision := 1 / 10 ^ 10, arg := X.arg, evals := X.evals, steps := X.steps }

/-- the search a type of algorithm names; the Newton grid has 50 points per direction unless a positive number is given -/
def searchNamed (X : Externals K) (e : EstimatorTypes) (points : Option ℕ) : AlgorithmTypes → RCtx K → Py (World (SumState K) K) Unit
  | .NEWTON_GRID => newtonGrid X.newton (if points.getD 0 = 0 then 50 else points.getD 0) X.taskTruthy
  | .SIMPLE_ARGUMENT_NEWTON => simpleArgumentNewton X.newton (estimatorNamed X e) X.pi X.limit
  | .ASSOCIATED_POLYNOMIAL => associatedPolynomial X.polyRoots (estimatorNamed X e) X.pi X.limit
  | _ => simpleArgument (estimatorNamed X e) X.pi X.limit

/-- the empty container a type names -/
def emptyNamed (p : ℤ × ℤ) : ContainerTypes → AnyContainer K
  | .PLAIN_CONTAINER => .plain { queue := [], roots := [] }
  | _ => .rounding { precision := p, rootSet := [], filters := [] }

/-- An argument left open is taken from the settings `d`. -/
def FinderArgs.filled (a : FinderArgs) (d : Defaults) : FinderArgs where
  container := if a.container = .DEFAULT then d.container else a.container
  algorithm := if a.algorithm = .DEFAULT then d.algorithm else a.algorithm
  estimator := if a.estimator = .DEFAULT then d.estimator else a.estimator
  precision := some (a.precision.getD d.precision)
  numSamplePoints := a.numSamplePoints
  verbose := some (a.verbose.getD d.verbose)

/-- `fd` is a new finder for `f` as described by the arguments, all of them given -/
structure IsNew (X : Externals K) (f : Cx K → Cx K) (df : Option (Cx K → Cx K)) (a : FinderArgs) (fd : Finder (SumState K) K) : Prop where
  f : fd.f = f
  df : fd.df = df
  algorithm : fd.algorithm = searchNamed X a.estimator a.numSamplePoints a.algorithm
  precision : a.precision = some fd.precision
  verbose : a.verbose = some fd.verbose
  container : fd.container = emptyNamed fd.precision a.container
  cache : fd.cache = EstCache.init X.debug
  est : fd.est = SumState.fresh
  info : fd.info = X.info

/-- a new installation: the shipped settings file, no file with changed settings, no services yet -/
def newInstallation : SWorld := ⟨⟨Settings.shippedFile, .absent, true⟩, fun _ => none⟩

/-- `d` are the values assigned last, the shipped values where nothing was assigned. -/
structure SettingsNow (ops : List SOp) (d : Defaults) : Prop where
  container : (lastAssigned .container ops).getD (.container .ROUNDING_CONTAINER) = .container d.container
  algorithm : (lastAssigned .algorithm ops).getD (.algorithm .SIMPLE_ARGUMENT) = .algorithm d.algorithm
  estimator : (lastAssigned .estimator ops).getD (.estimator .SUMMATION_ESTIMATOR) = .estimator d.estimator
  precision : (lastAssigned .precision ops).getD (.tuple [.int 5, .int 5]) = .tuple [.int d.precision.1, .int d.precision.2]
  verbose : (lastAssigned .verbose ops).getD (.bool true) = .bool d.verbose

end PyZeal.Spec
