import Verif.Model.Cli
import Verif.Spec.Settings
import Verif.Spec.Plugins

/-!
# Specification of the command line interface

What the options mean, which option combinations the parser accepts, and the messages.
-/

namespace PyZeal.Spec
open Settings Cli

/-- the meaning of the arguments the parser accepts (`cli_parser.py` 109-139) -/
inductive Choice : Setting → String → PyVal → Prop
  | rounding : Choice .container "rounding" (.container .ROUNDING_CONTAINER)
  | newton_grid : Choice .algorithm "newton_grid" (.algorithm .NEWTON_GRID)
  | simple_argument : Choice .algorithm "simple_argument" (.algorithm .SIMPLE_ARGUMENT)
  | simple_argument_newton : Choice .algorithm "simple_argument_newton" (.algorithm .SIMPLE_ARGUMENT_NEWTON)
  | associated_polynomial : Choice .algorithm "associated_polynomial" (.algorithm .ASSOCIATED_POLYNOMIAL)
  | summation : Choice .estimator "summation" (.estimator .SUMMATION_ESTIMATOR)
  | quadrature : Choice .estimator "quadrature" (.estimator .QUADRATURE_ESTIMATOR)
  | debug : Choice .level "debug" (.level .DEBUG)
  | info : Choice .level "info" (.level .INFO)
  | warning : Choice .level "warning" (.level .WARNING)
  | error : Choice .level "error" (.level .ERROR)
  | critical : Choice .level "critical" (.level .CRITICAL)
  | true : Choice .verbose "true" (.bool true)
  | True : Choice .verbose "True" (.bool true)
  | false : Choice .verbose "false" (.bool false)
  | False : Choice .verbose "False" (.bool false)

/-- an option of `change` that was not given, or given with an argument the parser accepts -/
def OptionOk (k : Setting) (o : Option (Option String)) : Prop :=
  o = some none ∨ ∃ s v, o = some (some s) ∧ Choice k s v

/-- The results of `argparse` for PyZEAL's parser (`cli_parser.py` 43-172): the attributes of the subcommand are
there, those of the others are not; the arguments of options with choices are among the choices. -/
inductive Accepted : Namespace → Prop
  | none (t : Bool) :
    Accepted ⟨.none, .none, .none, .none, .none, .none, .none, .none, .none, .none, .none, some t⟩
  | view (p t : Bool) :
    Accepted ⟨some p, .none, .none, .none, .none, .none, .none, .none, .none, .none, .none, some t⟩
  | change (c a e l v : Option (Option String)) (p : Option (List Int)) (t : Bool)
      (hc : OptionOk .container c) (ha : OptionOk .algorithm a) (he : OptionOk .estimator e)
      (hl : OptionOk .level l) (hv : OptionOk .verbose v) (hp : p = .none ∨ ∃ m n, p = some [m, n]) :
    Accepted ⟨.none, c, a, e, l, v, some p, .none, .none, .none, .none, some t⟩
  | plugin (ls ms : Bool) (i u : Option PathS) (t : Bool) :
    Accepted ⟨.none, .none, .none, .none, .none, .none, .none, some ls, some ms, some i, some u, some t⟩

/-- the command line asks for setting `k` to become `v` -/
def CliRequest (ns : Namespace) : Setting → PyVal → Prop
  | .container, v => ∃ s, ns.container = some (some s) ∧ Choice .container s v
  | .algorithm, v => ∃ s, ns.algorithm = some (some s) ∧ Choice .algorithm s v
  | .estimator, v => ∃ s, ns.estimator = some (some s) ∧ Choice .estimator s v
  | .level, v => ∃ s, ns.logLevel = some (some s) ∧ Choice .level s v
  | .verbose, v => ∃ s, ns.verbose = some (some s) ∧ Choice .verbose s v
  | .precision, v => ∃ m n, ns.precision = some (some [m, n]) ∧ v = .tuple [.int m, .int n]

/-- The string methods of Python on ASCII strings. -/
structure AsciiCase (U : PyText) : Prop where
  upper : ∀ s : String, (∀ c ∈ s.toList, c.toNat < 128) → U.upper s = String.ofList (s.toList.map Char.toUpper)
  lower : ∀ s : String, (∀ c ∈ s.toList, c.toNat < 128) → U.lower s = String.ofList (s.toList.map Char.toLower)

/-- two strings are equal up to the case of their letters -/
def SameName (s t : String) : Prop := s.toList.map Char.toUpper = t.toList.map Char.toUpper

/-- The settings service agrees with its files, and all values are proper. -/
structure InSync (s : SState) : Prop where
  default : Usable s.fs.default
  custom : Usable s.fs.custom
  writable : s.fs.writable = true
  load : Settings.load s.fs = .ok s.svc
  valid : ∀ k, Valid k (s.svc k)

/-- what a setting is called in messages -/
def title : Setting → String
  | .container => "container"
  | .algorithm => "algorithm"
  | .estimator => "estimator"
  | .level => "log level"
  | .verbose => "verbosity"
  | .precision => "precision"

/-- how a value is shown -/
def shownAs : PyVal → String
  | .container c => c.value
  | .algorithm a => a.value
  | .estimator e => e.value
  | .level l => l.name
  | .bool b => if b then "True" else "False"
  | .tuple [.int m, .int n] => "(" ++ toString m ++ ", " ++ toString n ++ ")"
  | _ => ""

/-- the message that says truthfully what was changed -/
def message (k : Setting) (old new : PyVal) : String :=
  "changed default " ++ title k ++ ":   " ++ shownAs old ++ " --> " ++ shownAs new

open Classical in
/-- the message for one setting, if it is to be changed -/
noncomputable def messageFor (msg : Setting → PyVal → PyVal → String) (old : Service) (k : Setting) : Option PyVal → List String
  | none => []
  | some v => if old k = v then [] else [msg k (old k) v]

/-- the settings in the order in which they are treated -/
def settingOrder : List Setting := [.container, .algorithm, .estimator, .level, .verbose, .precision]

/-- the messages for all changed settings -/
noncomputable def messages (msg : Setting → PyVal → PyVal → String) (old : Service) (want : Setting → Option PyVal) : List String :=
  settingOrder.flatMap (fun k => messageFor msg old k (want k))

/-! ## Plugins -/

/-- what `--install` asks for: nothing, or the installation of a file, whose path is relative to the current directory -/
def installing (E : CliEnv) : Option PathS → FSys → Except Err Bool × FSys
  | some p, fs => Install.installPlugin E.pluginDir E.cwd (abspath E.cwd p) fs
  | none, fs => (.ok true, fs)

/-- what `--uninstall` asks for: nothing, or the removal of a plugin -/
def uninstalling (E : CliEnv) : Option PathS → FSys → Except Err Bool × FSys
  | some p, fs => Install.uninstallPlugin E.pluginDir E.cwd p fs
  | none, fs => (.ok true, fs)

/-! ## Arguments that did not come from the parser -/

/-- the value a string stands for, as the change functions read it -/
def Names (U : PyText) : Setting → String → PyVal → Prop
  | .container, s, v => ∃ c : ContainerTypes, U.upper (s ++ "_container") = c.name ∧ v = .container c
  | .algorithm, s, v => ∃ a : AlgorithmTypes, U.upper s = a.name ∧ v = .algorithm a
  | .estimator, s, v => ∃ e : EstimatorTypes, U.upper (s ++ "_estimator") = e.name ∧ v = .estimator e
  | .level, s, v => ∃ l : LogLevel, U.upper s = l.name ∧ v = .level l
  | .verbose, s, v => v = .bool (U.lower s = "true")
  | .precision, _, _ => False

/-- the argument for a setting -/
def optionOf (a : SettingsArgs) : Setting → Option String
  | .container => a.container
  | .algorithm => a.algorithm
  | .estimator => a.estimator
  | .level => a.logLevel
  | .verbose => a.verbose
  | .precision => none

/-- the arguments ask for setting `k` to become `v` -/
def Asks (U : PyText) (a : SettingsArgs) (k : Setting) (v : PyVal) : Prop :=
  (∃ s, optionOf a k = some s ∧ s ≠ "" ∧ Names U k s v) ∨
    (k = .precision ∧ ∃ m n, a.precision = some [m, n] ∧ v = .tuple [.int m, .int n])

/-- the argument for setting `k` is given but means nothing -/
def Bad (U : PyText) (a : SettingsArgs) (k : Setting) : Prop :=
  ∃ s, k ≠ .precision ∧ optionOf a k = some s ∧ s ≠ "" ∧ ¬ ∃ v, Names U k s v

/-! ## Views -/

/-- what `view -p` shows -/
def viewText (s : Service) : String :=
  "Currently active settings configuration:\n" ++
    "-> default container:   " ++ shownAs (s .container) ++ "\n" ++
    "-> default algorithm:   " ++ shownAs (s .algorithm) ++ "\n" ++
    "-> default estimator:   " ++ shownAs (s .estimator) ++ "\n" ++
    "-> default log level:   " ++ shownAs (s .level) ++ "\n" ++
    "-> default verbosity:   " ++ shownAs (s .verbose) ++ "\n" ++
    "-> default precision:   " ++ shownAs (s .precision)

end PyZeal.Spec
