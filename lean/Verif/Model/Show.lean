import Verif.Model.Logging

/-!
# Descriptions of finders and searches, the test runner, the log level of the factories

`RootFinder.__str__`, `ParallelRootFinder.__str__`, `RootContext.functionDataToString`,
`InstallTestingHandler.testModule` and the `setLevel` of the factories.
-/

namespace PyZeal
namespace Show
open Logging (LogWorld)

/-! ## Descriptions -/

/-- a function object, as far as descriptions are concerned: its `__name__`, if it has that attribute -/
structure Named where
  name : Option (List Char)
deriving DecidableEq

/-- `getattr(f, '__name__', '<unnamed>')`; `rootfinder.py` 104, `root_context.py` 54 -/
def nameOr (f : Named) : List Char := f.name.getD "<unnamed>".toList

/-- `RootFinder.__str__`; `rootfinder.py` 98-110 -/
def serialStr (f : Named) (df : Option Named) : List Char :=
  match df with
  | some d => ("RootFinder(f=".toList ++ nameOr f ++ ", ".toList) ++ ("df=".toList ++ nameOr d ++ ")".toList)
  | none => ("RootFinder(f=".toList ++ nameOr f ++ ", ".toList) ++ "df=None)".toList

/-- `ParallelRootFinder.__str__`; `parallel_finder.py` 78-90 -/
def parallelStr (f : Named) (df : Option Named) : List Char :=
  match df with
  | some d => "ParallelRootFinder(f=".toList ++ (nameOr f ++ ", ".toList) ++ ("df=".toList ++ nameOr d ++ ")".toList)
  | none => "ParallelRootFinder(f=".toList ++ (nameOr f ++ ", ".toList) ++ "df=None)".toList

/-- `str(finder)` for the two classes of finders -/
def finderStr (parallel : Bool) (f : Named) (df : Option Named) : List Char :=
  if parallel then parallelStr f df else serialStr f df

/-- `RootContext.functionDataToString`; `root_context.py` 47-57.  `shown` is `str` of a bound. -/
def functionDataToString {α : Type} (shown : α → List Char) (f : Named) (reRan imRan : α × α) : List Char :=
  (nameOr f ++ " on rectangle ".toList) ++
    ("[".toList ++ shown reRan.1 ++ ", ".toList ++ shown reRan.2 ++ "] ".toList) ++
    ("x [".toList ++ shown imRan.1 ++ ", ".toList ++ shown imRan.2 ++ "]".toList)

/-! ## The test runner -/

/-- a physical (absolute, without links) directory or file: the names on the way from `/` -/
abbrev Path := List String

/-- what the test runner touches: the working directory of the process, and the runs of `pytest` so far, each
with the working directory and the argument it was started with -/
structure Proc where
  cwd : Path
  runs : List (Path × List Char)

/-- `os.path.join(a, b)` for a non-empty `a` that does not end with `/` -/
def joinPath (a b : List Char) : List Char :=
  match b with
  | '/' :: _ => b
  | _ => a ++ '/' :: b

/-- `os.chdir(dirname(realpath(__file__)))`; simplified: the directory of the source file exists -/
def chdirTo (d : Path) : Py Proc Unit := Py.modify (fun p => { p with cwd := d })

/-- `os.chdir("..")` from a physical directory -/
def chdirUp : Py Proc Unit := Py.modify (fun p => { p with cwd := p.cwd.dropLast })

/-- `pytest.main([path])`; simplified: the exit status is an arbitrary function of the working directory and the
argument, and the tests do not change the working directory -/
def pytestMain (status : Path → List Char → Nat) (arg : List Char) : Py Proc Nat := fun p =>
  (.ok (status p.cwd arg), { p with runs := p.runs ++ [(p.cwd, arg)] })

/-- `InstallTestingHandler.testModule`; `install_test_handler.py` 24-31.  `file` is the physical path of
`install_test_handler.py`. -/
def testModule (status : Path → List Char → Nat) (file : Path) (module : List Char) : Py Proc Nat := do
  chdirTo file.dropLast
  chdirUp
  pytestMain status (joinPath "tests".toList module)

/-- the directory that `LogManager.LOG_DIR = "./logs/"` denotes; `log_manager.py` 27 -/
def logDir (p : Proc) : Path := p.cwd ++ ["logs"]

/-! ## The factories' loggers -/

/-- `AlgorithmFactory.setLevel`, `ContainerFactory.setLevel`; `algorithm_factory.py` 88-96,
`container_factory.py` 142-150.  The factories' classes are the objects `o`, their attribute `_logger` is set on
the first request (`algorithm_factory.py` 49-53, `container_factory.py` 87-91, `Logging.getLogger`). -/
def factorySetLevel (nameOf : Nat → String) (o : Nat) (l : LogLevel) : Py LogWorld Unit := do
  let w ← Py.get
  if w.hasLogger o then Logging.onLogs (Logging.setLogLevel [nameOf o] l) else pure ()

/-- histories in which the factories' log levels are set, too -/
inductive FactoryLogOp
  | other (op : Logging.LogOp)
  | factoryLevel (o : Nat) (l : LogLevel)

/-- perform it -/
def FactoryLogOp.perform (E : LogEnv) (nameOf : Nat → String) : FactoryLogOp → Py LogWorld Unit
  | .other op => op.perform E nameOf
  | .factoryLevel o l => factorySetLevel nameOf o l

/-- a history (exceptions are caught by the caller) -/
def runFactoryLog (E : LogEnv) (nameOf : Nat → String) : List FactoryLogOp → LogWorld → LogWorld
  | [], w => w
  | o :: os, w => runFactoryLog E nameOf os (o.perform E nameOf w).2

end Show
end PyZeal
