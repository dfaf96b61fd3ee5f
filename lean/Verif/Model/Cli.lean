import Verif.Model.Settings
import Verif.Model.Plugins

/-!
# Model of the command line interface

`pyzeal/cli/cli_parser.py`, `cli_controller.py`, `parse_results.py`, `__main__.py`.  The input is
the `Namespace` that the standard library's `argparse` returns (what it can be is stated in `Spec/Cli.lean`; the parser itself
is modelled in `Model/Argparse.lean`, and C118 shows that its results are of this form).
-/

namespace PyZeal
open Settings

/-- The string methods used. -/
structure PyText where
  upper : String → String
  lower : String → String

/-- Everything the commands can change: the settings service with its files, the rest of the file system, the
output, and the test modules run. -/
structure CState where
  sett : SState
  fsys : FSys
  out : List String
  tested : List String

/-- The attributes of the `Namespace` returned by `parse_args`: each may be missing (`none`), those for options
with an argument may be `None` (`some none`).  `install` and `uninstall` are paths. -/
structure Namespace where
  print : Option Bool
  container : Option (Option String)
  algorithm : Option (Option String)
  estimator : Option (Option String)
  logLevel : Option (Option String)
  verbose : Option (Option String)
  precision : Option (Option (List Int))
  list : Option Bool
  modules : Option Bool
  install : Option (Option PathS)
  uninstall : Option (Option PathS)
  test : Option Bool

/-- `SettingsParseResults`; `parse_results.py` 12-24.  An option may be `None` although declared as `str`. -/
structure SettingsArgs where
  doPrint : Bool
  container : Option String
  algorithm : Option String
  estimator : Option String
  logLevel : Option String
  verbose : Option String
  precision : Option (List Int)

/-- `PluginParseResults`; `parse_results.py` 27-36 -/
structure PluginArgs where
  listPlugins : Bool
  listModules : Bool
  install : Option PathS
  uninstall : Option PathS

/-- What the controller needs from outside. -/
structure CliEnv where
  text : PyText
  /-- the current directory -/
  cwd : List String
  /-- `PLUGIN_INSTALL_DIR` -/
  pluginDir : List String
  /-- `listdir(PLUGIN_INSTALL_DIR)` -/
  listing : FSys → Except Err (List PyStr)
  /-- `PluginLoader.loadPlugins()`, the plugins as they are printed (see `Model/Plugins.lean`) -/
  loadPlugins : Py CState (List String)

namespace Cli

/-! ## Parser results -/

/-- `getattr(args, name, "")` -/
def attrStr : Option (Option String) → Option String
  | none => some ""
  | some v => v

/-- `PyZEALParser.parseArgs` after `parse_args`, the settings; `cli_parser.py` 190-200 -/
def settingsArgs (ns : Namespace) : SettingsArgs where
  doPrint := ns.print.getD false
  container := attrStr ns.container
  algorithm := attrStr ns.algorithm
  estimator := attrStr ns.estimator
  logLevel := attrStr ns.logLevel
  verbose := attrStr ns.verbose
  precision := match ns.precision.getD none with
    | some [] => none
    | p => p

/-- the plugin options; `cli_parser.py` 201-206 (the empty string is the path `[""]`) -/
def pluginArgs (ns : Namespace) : PluginArgs where
  listPlugins := ns.list.getD false
  listModules := ns.modules.getD false
  install := match ns.install with
    | none => some [""]
    | some v => v
  uninstall := match ns.uninstall with
    | none => some [""]
    | some v => v

/-- `doTest`; `cli_parser.py` 207-209 -/
def testArgs (ns : Namespace) : Bool := ns.test.getD false

/-! ## Output -/

/-- `print` -/
def print (line : String) : Py CState Unit := Py.modify (fun s => { s with out := s.out ++ [line] })

/-- `str` of the values of settings.  Simplification: strings inside tuples are quoted without escaping, other
objects are shown as `<object>`. -/
def reprVal : PyVal → String
  | .none => "None"
  | .bool true => "True"
  | .bool false => "False"
  | .int n => toString n
  | .str s => "'" ++ s ++ "'"
  | _ => "<object>"

/-- `str` of a pair -/
def strVal : PyVal → String
  | .tuple [x, y] => "(" ++ reprVal x ++ ", " ++ reprVal y ++ ")"
  | v => reprVal v

/-- `.value` of an enumeration member (`.name` of a log level); any other object has no such attribute
(`AttributeError`, tag 1) -/
def label : PyVal → Except Err String
  | .container c => .ok c.value
  | .algorithm a => .ok a.value
  | .estimator e => .ok e.value
  | .level l => .ok l.name
  | _ => .error (.other 1)

/-- `print(service)`; `json_settings_service.py` 82-87, `json_core_settings.py` 77-81 -/
def settingsLines (s : Service) : Except Err String := do
  let c ← label (s .container)
  let a ← label (s .algorithm)
  let e ← label (s .estimator)
  let l ← label (s .level)
  pure ("Currently active settings configuration:\n" ++ "-> default container:   " ++ c ++ "\n" ++
    "-> default algorithm:   " ++ a ++ "\n" ++ "-> default estimator:   " ++ e ++ "\n" ++
    "-> default log level:   " ++ l ++ "\n" ++ "-> default verbosity:   " ++ strVal (s .verbose) ++ "\n" ++
    "-> default precision:   " ++ strVal (s .precision))

/-! ## Changing settings -/

/-- assignment to a property of the settings service -/
def setSetting (k : Setting) (v : PyVal) : Py CState Unit := fun s =>
  let r := assign k v s.sett
  (r.1, { s with sett := r.2 })

/-- the search loop; `cli_controller.py` 125-128, 155-158, 185-188, 212-215 -/
def findName {τ : Type} (all : List τ) (name : τ → String) (s : String) : Option τ :=
  all.find? (fun m => name m = s)

/-- the common part: assign and report, unless the value is the old one; `cli_controller.py` 131-138, 161-168,
191-198, 218-225, 238-245, 260-267.  `new` and `shown` make the text of the message from the old value; they are
evaluated after the assignment. -/
def changeTo (k : Setting) (v : PyVal) (same : PyVal → Bool) (title : String) (shown new : PyVal → Except Err String) :
    Py CState Unit := fun s =>
  let old := s.sett.svc k
  if same old then (.ok (), s)
  else match setSetting k v s with
    | (.error e, s') => (.error e, s')
    | (.ok _, s') => match shown old, new old with
      | .ok o, .ok n => print (title ++ o ++ " --> " ++ n) s'
      | .error e, _ => (.error e, s')
      | _, .error e => (.error e, s')

/-- `changeContainerSetting`; `cli_controller.py` 111-138: the message names the old value twice -/
def changeContainer (U : PyText) (s : String) : Py CState Unit :=
  match findName ContainerTypes.all ContainerTypes.name (U.upper s) with
  | none => Py.throw (.systemExit 2)
  | some c => changeTo .container (.container c) (fun | .container o => c = o | _ => false)
      "changed default container:   " label label

/-- `changeAlgorithmSetting`; `cli_controller.py` 141-168 -/
def changeAlgorithm (U : PyText) (s : String) : Py CState Unit :=
  match findName AlgorithmTypes.all AlgorithmTypes.name (U.upper s) with
  | none => Py.throw (.systemExit 2)
  | some a => changeTo .algorithm (.algorithm a) (fun | .algorithm o => a = o | _ => false)
      "changed default algorithm:   " label (fun _ => label (.algorithm a))

/-- `changeEstimatorSetting`; `cli_controller.py` 171-198 -/
def changeEstimator (U : PyText) (s : String) : Py CState Unit :=
  match findName EstimatorTypes.all EstimatorTypes.name (U.upper s) with
  | none => Py.throw (.systemExit 2)
  | some e => changeTo .estimator (.estimator e) (fun | .estimator o => e = o | _ => false)
      "changed default estimator:   " label (fun _ => label (.estimator e))

/-- `changeLogLevelSetting`; `cli_controller.py` 201-225 -/
def changeLogLevel (U : PyText) (s : String) : Py CState Unit :=
  match findName LogLevel.all LogLevel.name (U.upper s) with
  | none => Py.throw (.systemExit 2)
  | some l => changeTo .level (.level l) (fun | .level o => l = o | _ => false)
      "changed default log level:   " label (fun _ => label (.level l))

/-- `bool == value` -/
def sameBool (b : Bool) : PyVal → Bool
  | .bool o => b = o
  | .int n => (if b then 1 else 0) = n
  | _ => false

/-- `changeVerbositySetting`; `cli_controller.py` 228-245 -/
def changeVerbosity (U : PyText) (s : String) : Py CState Unit :=
  changeTo .verbose (.bool (U.lower s = "true")) (sameBool (U.lower s = "true"))
    "changed default verbosity:   " (fun o => .ok (strVal o)) (fun _ => .ok (strVal (.bool (U.lower s = "true"))))

/-- `int == value` -/
def sameInt (n : Int) : PyVal → Bool
  | .int m => n = m
  | .bool b => n = if b then 1 else 0
  | _ => false

/-- tuple comparison -/
def sameTuple : List Int → PyVal → Bool
  | l, .tuple vs => l.length == vs.length && (l.zip vs).all (fun x => sameInt x.1 x.2)
  | _, _ => false

/-- `changePrecisionSetting`; `cli_controller.py` 248-267 -/
def changePrecision (p : List Int) : Py CState Unit :=
  changeTo .precision (.tuple (p.map .int)) (sameTuple p)
    "changed default precision:   " (fun o => .ok (strVal o)) (fun _ => .ok (strVal (.tuple (p.map .int))))

/-- `if value:` for an optional string -/
def given : Option String → (String → Py CState Unit) → Py CState Unit
  | none, _ => pure ()
  | some s, act => if s = "" then pure () else act s

/-- `if args.precision:` -/
def givenPrecision : Option (List Int) → Py CState Unit
  | none => pure ()
  | some [] => pure ()
  | some p => changePrecision p

/-- `handleChangeSubcommand`; `cli_controller.py` 50-67 -/
def handleChange (U : PyText) (a : SettingsArgs) : Py CState Unit := do
  given a.container (fun s => changeContainer U (s ++ "_container"))
  given a.algorithm (changeAlgorithm U)
  given a.estimator (fun s => changeEstimator U (s ++ "_estimator"))
  given a.logLevel (changeLogLevel U)
  given a.verbose (changeVerbosity U)
  givenPrecision a.precision

/-- `handleViewSubcommand`; `cli_controller.py` 45-47 -/
def handleView (a : SettingsArgs) : Py CState Unit := do
  let s ← Py.get
  if a.doPrint then do
    let t ← Plugins.lift (settingsLines s.sett.svc)
    print t
  else pure ()

/-! ## Plugins -/

/-- `os.path.abspath`: empty components and `.` vanish, `..` removes the component before it -/
def normStep (acc : List String) (c : String) : List String :=
  if c = "" ∨ c = "." then acc else if c = ".." then acc.dropLast else acc ++ [c]

/-- `os.path.abspath`; `cli_controller.py` 85 -/
def abspath (cwd : List String) (p : PathS) : PathS :=
  "" :: (Install.join (Install.dirPath cwd) p).foldl normStep []

/-- a path as it was given -/
def pathStr (p : PathS) : String := "/".intercalate p

/-- an operation on the file system -/
def onFiles (m : Py FSys Bool) : Py CState Bool := fun s =>
  let r := m s.fsys
  (r.1, { s with fsys := r.2 })

/-- printing a list of lines -/
def printAll : List String → Py CState Unit
  | [] => pure ()
  | l :: ls => do
    print l
    printAll ls

/-- the outcome of an (un-)installation; `cli_controller.py` 85-89, 93-97 -/
def report (msg : String) (ok : Bool) : Py CState Unit :=
  if ok then print msg
  else do
    print "[error] the requested plugin does not exist - abort!"
    Py.throw (.systemExit 2)

/-- `if args.install:`; `cli_controller.py` 83-89 -/
def doInstall (E : CliEnv) : Option PathS → Py CState Unit
  | none => pure ()
  | some p => if p = [""] then pure () else do
    print ("installing plugin " ++ pathStr p ++ "...")
    let ok ← onFiles (Install.installPlugin E.pluginDir E.cwd (abspath E.cwd p))
    report "[success] plugin was installed!" ok

/-- `if args.uninstall:`; `cli_controller.py` 91-97 -/
def doUninstall (E : CliEnv) : Option PathS → Py CState Unit
  | none => pure ()
  | some p => if p = [""] then pure () else do
    print ("uninstalling plugin " ++ pathStr p ++ "...")
    let ok ← onFiles (Install.uninstallPlugin E.pluginDir E.cwd p)
    report "[success] plugin was uninstalled!" ok

/-- `if args.listPlugins:`; `cli_controller.py` 71-75 -/
def listPlugins (E : CliEnv) (b : Bool) : Py CState Unit :=
  if b then do
    print "currently installed Plugins:"
    print "----------------------------"
    let ps ← E.loadPlugins
    printAll ps
  else pure ()

/-- the directory listing -/
def getListing (E : CliEnv) : Py CState (List PyStr) := do
  let s ← Py.get
  Plugins.lift (E.listing s.fsys)

/-- `if args.listModules:`; `cli_controller.py` 77-81 -/
def listModules (E : CliEnv) (b : Bool) : Py CState Unit :=
  if b then do
    print "installation directory contents:"
    print "--------------------------------"
    let es ← getListing E
    printAll ((Plugins.discoverModules es).map String.ofList)
  else pure ()

/-- `handlePluginSubcommand`; `cli_controller.py` 70-97 -/
def handlePlugin (E : CliEnv) (a : PluginArgs) : Py CState Unit := do
  listPlugins E a.listPlugins
  listModules E a.listModules
  doInstall E a.install
  doUninstall E a.uninstall

/-! ## Tests and main -/

/-- `self.testingHandler.testModule(module)`, whose exit status is ignored; `cli_controller.py` 106 -/
def testModule (m : String) : Py CState Unit := Py.modify (fun s => { s with tested := s.tested ++ [m] })

/-- the loop over the modules; `cli_controller.py` 104-106 -/
def testAll : List String → Py CState Unit
  | [] => pure ()
  | m :: ms => do
    testModule m
    testAll ms

/-- `handleTestingOption`; `cli_controller.py` 100-108 -/
def handleTesting (doTest : Bool) : Py CState Bool :=
  if doTest then do
    testAll ["cli", "algorithms", "containers", "estimators"]
    pure true
  else pure false

/-- `if cond: print(line)`; `__main__.py` 37-38, 47-48 -/
def printIf (cond : Bool) (line : String) : Py CState Unit := if cond then print line else pure ()

/-- `PyZEALEntry.mainPyZEAL` after initialisation and parsing; `__main__.py` 34-48.  `argc` is `len(argv)`. -/
def main (E : CliEnv) (argc : Nat) (ns : Namespace) : Py CState Unit := do
  printIf (argc < 2) "this is the CLI of the PyZEAL package. use '-h' for help."
  handleView (settingsArgs ns)
  handleChange E.text (settingsArgs ns)
  handlePlugin E (pluginArgs ns)
  let sel ← handleTesting (testArgs ns)
  printIf (argc == 2 && !sel) "use '-h' with your subcommand for help."

end Cli
end PyZeal
