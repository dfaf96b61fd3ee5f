import Verif.Model.Locator

/-!
# Model of `PyZEALInitializationHandler`

`pyzeal/utils/initialization_handler.py` and `pyzeal/pyzeal_types/init_modes.py`.  Log messages
are not modelled; creating the logger (which may fail) is.
-/

namespace PyZeal

/-- A value of the flag enumeration `InitModes`: the set of its members; `init_modes.py` 13-17. -/
structure InitMode where
  cli : Bool
  script : Bool
  gui : Bool
deriving DecidableEq, Repr

namespace InitMode
/-- `InitModes.CLI` -/
def CLI : InitMode := ⟨true, false, false⟩
/-- `InitModes.SCRIPT` -/
def SCRIPT : InitMode := ⟨false, true, false⟩
/-- `InitModes.GUI` -/
def GUI : InitMode := ⟨false, false, true⟩
/-- `a | b` -/
def union (a b : InitMode) : InitMode := ⟨a.cli || b.cli, a.script || b.script, a.gui || b.gui⟩
/-- `m in x`, `Flag.__contains__`: `m.value & x.value == m.value` -/
def inside (m x : InitMode) : Bool :=
  (!m.cli || x.cli) && (!m.script || x.script) && (!m.gui || x.gui)
end InitMode

/-- The service types used by the initialisation; `initialization_handler.py` 11-29. -/
inductive Svc
  | settings | algorithm | container | estimator | parser | controller | testHandler
  | other (n : Nat)
deriving DecidableEq, Repr

/-- Locator environment, the factories registered by the handler and the operations it calls. -/
structure InitEnv (V F W : Type) where
  env : LEnv Svc V F W
  /-- recursion limit -/
  limit : Nat
  /-- `SettingsServiceFactory.getConcreteSettings` -/
  fSettings : F
  /-- `AlgorithmFactory.getConcreteAlgorithm` -/
  fAlgorithm : F
  /-- `ContainerFactory.getConcreteContainer` -/
  fContainer : F
  /-- `EstimatorFactory.getConcreteEstimator` -/
  fEstimator : F
  /-- `CLIController` -/
  fController : F
  /-- `InstallTestingHandler` -/
  fTestHandler : F
  /-- `PyZEALParser()` -/
  mkParser : Py (LState Svc V F W) V
  /-- `LogManager.initLogger(name, settings.logLevel)` -/
  initLogger : V → Py (LState Svc V F W) Unit
  /-- `PluginLoader.loadPlugins()` -/
  loadPlugins : Py (LState Svc V F W) Unit

/-- Program state with `PyZEALInitializationHandler.initialized`; `initialization_handler.py` 39 -/
structure IState (V F W : Type) where
  st : LState Svc V F W
  initialized : Bool

namespace Init
variable {V F W : Type}

/-- a computation that does not touch the handler's own attribute -/
def lift {α : Type} (m : Py (LState Svc V F W) α) : Py (IState V F W) α := fun s =>
  ((m s.st).1, ⟨(m s.st).2, s.initialized⟩)

/-- the settings service; `initialization_handler.py` 58-61 -/
def registerSettings (I : InitEnv V F W) (m : InitMode) : Py (LState Svc V F W) Unit :=
  if m.inside (.union .CLI .SCRIPT) then Locator.registerAsTransient .settings I.fSettings
  else pure ()

/-- the logger; `initialization_handler.py` 62-65 -/
def setupLogger (I : InitEnv V F W) : Py (LState Svc V F W) Unit := do
  let settings ← Locator.tryResolve I.env I.limit .settings []
  I.initLogger settings

/-- services for scripts; `initialization_handler.py` 67-85 -/
def registerScript (I : InitEnv V F W) (m : InitMode) : Py (LState Svc V F W) Unit :=
  if m.inside .SCRIPT then do
    Locator.registerAsTransient .algorithm I.fAlgorithm
    Locator.registerAsTransient .container I.fContainer
    Locator.registerAsTransient .estimator I.fEstimator
  else pure ()

/-- services for the command line; `initialization_handler.py` 86-96 -/
def registerCli (I : InitEnv V F W) (m : InitMode) : Py (LState Svc V F W) Unit :=
  if m.inside .CLI then do
    let p ← I.mkParser
    Locator.registerAsSingleton I.env .parser p
    Locator.registerAsTransient .controller I.fController
    Locator.registerAsTransient .testHandler I.fTestHandler
  else pure ()

/-- plugins; `initialization_handler.py` 99-101 -/
def plugins (I : InitEnv V F W) (m : InitMode) : Py (LState Svc V F W) Unit :=
  if m.inside .CLI then pure () else I.loadPlugins

/-- everything done on a first call; `initialization_handler.py` 57-101 -/
def body (I : InitEnv V F W) (m : InitMode) : Py (LState Svc V F W) Unit := do
  registerSettings I m
  setupLogger I
  registerScript I m
  registerCli I m
  plugins I m

/-- `PyZEALInitializationHandler.initPyZEALServices`; `initialization_handler.py` 42-105 -/
def initServices (I : InitEnv V F W) (m : InitMode) : Py (IState V F W) Unit := do
  let s ← Py.get
  if s.initialized then pure ()
  else do
    lift (body I m)
    Py.modify fun s => { s with initialized := true }

end Init
end PyZeal
