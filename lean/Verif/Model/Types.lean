/-!
# The enumerations of `pyzeal/pyzeal_types`
-/

namespace PyZeal

/-- `AlgorithmTypes`; `pyzeal_types/algorithm_types.py` 12-18 -/
inductive AlgorithmTypes
  | NEWTON_GRID | SIMPLE_ARGUMENT | SIMPLE_ARGUMENT_NEWTON | ASSOCIATED_POLYNOMIAL | DEFAULT
deriving DecidableEq, Repr

/-- `ContainerTypes`; `pyzeal_types/container_types.py` 12-16 -/
inductive ContainerTypes
  | ROUNDING_CONTAINER | PLAIN_CONTAINER | DEFAULT
deriving DecidableEq, Repr

/-- `EstimatorTypes`; `pyzeal_types/estimator_types.py` 12-16 -/
inductive EstimatorTypes
  | SUMMATION_ESTIMATOR | QUADRATURE_ESTIMATOR | DEFAULT
deriving DecidableEq, Repr

/-- `LogLevel`; `pyzeal_logging/log_levels.py` 12-23 -/
inductive LogLevel
  | NOTSET | DEBUG | INFO | WARNING | ERROR | CRITICAL
deriving DecidableEq, Repr

/-- the string values; `algorithm_types.py` 14-18 -/
def AlgorithmTypes.value : AlgorithmTypes → String
  | .NEWTON_GRID => "NewtonGrid"
  | .SIMPLE_ARGUMENT => "SimpleArgument"
  | .SIMPLE_ARGUMENT_NEWTON => "SimpleArgumentNewton"
  | .ASSOCIATED_POLYNOMIAL => "AssociatedPolynomial"
  | .DEFAULT => "DefaultAlgorithm"

/-- the string values; `container_types.py` 14-16 -/
def ContainerTypes.value : ContainerTypes → String
  | .ROUNDING_CONTAINER => "RoundingContainer"
  | .PLAIN_CONTAINER => "PlainContainer"
  | .DEFAULT => "DefaultContainer"

/-- the string values; `estimator_types.py` 14-16 -/
def EstimatorTypes.value : EstimatorTypes → String
  | .SUMMATION_ESTIMATOR => "SummationEstimator"
  | .QUADRATURE_ESTIMATOR => "QuadratureEstimator"
  | .DEFAULT => "DefaultEstimator"

/-- `member.name`; `algorithm_types.py` 14-18 -/
def AlgorithmTypes.name : AlgorithmTypes → String
  | .NEWTON_GRID => "NEWTON_GRID"
  | .SIMPLE_ARGUMENT => "SIMPLE_ARGUMENT"
  | .SIMPLE_ARGUMENT_NEWTON => "SIMPLE_ARGUMENT_NEWTON"
  | .ASSOCIATED_POLYNOMIAL => "ASSOCIATED_POLYNOMIAL"
  | .DEFAULT => "DEFAULT"

/-- `member.name`; `container_types.py` 14-16 -/
def ContainerTypes.name : ContainerTypes → String
  | .ROUNDING_CONTAINER => "ROUNDING_CONTAINER"
  | .PLAIN_CONTAINER => "PLAIN_CONTAINER"
  | .DEFAULT => "DEFAULT"

/-- `member.name`; `estimator_types.py` 14-16 -/
def EstimatorTypes.name : EstimatorTypes → String
  | .SUMMATION_ESTIMATOR => "SUMMATION_ESTIMATOR"
  | .QUADRATURE_ESTIMATOR => "QUADRATURE_ESTIMATOR"
  | .DEFAULT => "DEFAULT"

/-- `member.name`; `log_levels.py` 18-23 -/
def LogLevel.name : LogLevel → String
  | .NOTSET => "NOTSET"
  | .DEBUG => "DEBUG"
  | .INFO => "INFO"
  | .WARNING => "WARNING"
  | .ERROR => "ERROR"
  | .CRITICAL => "CRITICAL"

/-- iteration order of `AlgorithmTypes` -/
def AlgorithmTypes.all : List AlgorithmTypes :=
  [.NEWTON_GRID, .SIMPLE_ARGUMENT, .SIMPLE_ARGUMENT_NEWTON, .ASSOCIATED_POLYNOMIAL, .DEFAULT]
/-- iteration order of `ContainerTypes` -/
def ContainerTypes.all : List ContainerTypes := [.ROUNDING_CONTAINER, .PLAIN_CONTAINER, .DEFAULT]
/-- iteration order of `EstimatorTypes` -/
def EstimatorTypes.all : List EstimatorTypes := [.SUMMATION_ESTIMATOR, .QUADRATURE_ESTIMATOR, .DEFAULT]
/-- iteration order of `LogLevel` -/
def LogLevel.all : List LogLevel := [.NOTSET, .DEBUG, .INFO, .WARNING, .ERROR, .CRITICAL]

end PyZeal
