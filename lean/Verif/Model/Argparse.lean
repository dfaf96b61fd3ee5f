import Verif.Core.Dict
import Verif.Model.Cli

/-!
# Model of the command line parser

`pyzeal/cli/cli_parser.py` 43-172 configures an `argparse.ArgumentParser`; `parseArgs` runs it on `sys.argv`.
What the parser does with a command line is decided by the standard library: `argparse.py` of CPython 3.11 (line
numbers below, marked `argparse`, refer to 3.11.10) is modelled for the features that PyZEAL uses: options with no, one or two
arguments, with choices or of type `int`, abbreviations, clusters of short options, `--`, and one level of
subcommands.

Simplifications: messages on `stderr` are dropped; the texts of `--help` and `--version` are parameters; features
that PyZEAL does not configure (groups, required options, defaults that are strings, files with arguments, …) are
left out.
-/

namespace PyZeal
namespace Args

/-- What ends the program while the command line is parsed: `--help` of a parser (identified by `prog`),
`--version`, or an error; `argparse` 1107-1152, 2624-2641 -/
inductive Stop
  | help (prog : PyStr)
  | version
  | error
  deriving DecidableEq

/-- Attribute values of the `Namespace`. -/
inductive Value
  | none
  | bool (b : Bool)
  | str (s : PyStr)
  | ints (l : List Int)
  deriving DecidableEq

/-- The kinds of options PyZEAL uses: `action="store_true"`, one argument with or without `choices`, `nargs=n`
with `type=int`, `--help`, `--version`. -/
inductive Kind
  | flag
  | one (choices : Option (List PyStr))
  | ints (n : Nat)
  | help (prog : PyStr)
  | version

/-- An option: its spellings, the attribute it sets, and what it does. -/
structure Act where
  names : List PyStr
  dest : PyStr
  kind : Kind

/-- The number of arguments of an option. -/
def Kind.nargs : Kind → Nat
  | .flag => 0
  | .one _ => 1
  | .ints n => n
  | .help _ => 0
  | .version => 0

/-- The default of the attribute, if any; `argparse` 927-951, 985-999, 1107-1136 -/
def Kind.default : Kind → Option Value
  | .flag => some (.bool false)
  | .one _ => some .none
  | .ints _ => some .none
  | .help _ => none
  | .version => none

/-- What the parser needs from Python: the function `int` on strings (`none`: a `ValueError`), the characters
matched by `\d`, and the texts that `--help` and `--version` print. -/
structure Reader where
  int : PyStr → Option Int
  digit : Char → Bool
  helpText : PyStr → String
  versionText : String

/-! ## Configuration -/

/-- `lstrip("-")` -/
def lstrip : PyStr → PyStr
  | [] => []
  | c :: s => if c = '-' then lstrip s else c :: s

/-- an option string that starts with two dashes -/
def isLong : PyStr → Bool
  | '-' :: '-' :: _ => true
  | _ => false

/-- the attribute that belongs to option strings: the first long one, or else the first, without leading dashes and
with underscores for the others; `argparse` 1583-1594 -/
def destOf (names : List PyStr) : PyStr :=
  (lstrip ((names.find? isLong).getD (names.headD []))).map (fun c => if c = '-' then '_' else c)

/-- `add_argument` -/
def addArgument (names : List String) (kind : Kind) : Act :=
  ⟨names.map String.toList, destOf (names.map String.toList), kind⟩

/-- every parser starts with `-h`, `--help` -/
def helpAct (prog : String) : Act := addArgument ["-h", "--help"] (.help prog.toList)

/-- choices -/
def choices (l : List String) : Kind := .one (some (l.map String.toList))

/-- the options of the main parser; `cli_parser.py` 49-56, 69-85 -/
def mainActs : List Act :=
  [helpAct "pyzeal", addArgument ["--version"] .version, addArgument ["-t", "--test"] .flag]

/-- the subcommand `view`; `cli_parser.py` 95-98 -/
def viewActs : List Act := [helpAct "pyzeal view", addArgument ["-p", "--print"] .flag]

/-- the subcommand `change`; `cli_parser.py` 108-145 -/
def changeActs : List Act :=
  [helpAct "pyzeal change",
    addArgument ["--container"] (choices ["rounding"]),
    addArgument ["--algorithm"]
      (choices ["newton_grid", "simple_argument", "simple_argument_newton", "associated_polynomial"]),
    addArgument ["--estimator"] (choices ["summation", "quadrature"]),
    addArgument ["--log-level"] (choices ["debug", "info", "warning", "error", "critical"]),
    addArgument ["--verbose"] (choices ["true", "True", "false", "False"]),
    addArgument ["--precision"] (.ints 2)]

/-- the subcommand `plugin`; `cli_parser.py` 155-172 -/
def pluginActs : List Act :=
  [helpAct "pyzeal plugin", addArgument ["-l", "--list"] .flag, addArgument ["-m", "--modules"] .flag,
    addArgument ["--install"] (.one none), addArgument ["--uninstall"] (.one none)]

/-- the subcommands; `cli_parser.py` 59-67 -/
def subcommands : Dict PyStr (List Act) :=
  [("view".toList, viewActs), ("change".toList, changeActs), ("plugin".toList, pluginActs)]

/-! ## Classification of the argument strings -/

/-- `_option_string_actions`, in order -/
def optionMap (acts : List Act) : List (PyStr × Act) := acts.flatMap (fun a => a.names.map (fun n => (n, a)))

/-- `_option_string_actions[s]` -/
def findOption (acts : List Act) (s : PyStr) : Option Act :=
  ((optionMap acts).find? (fun e => e.1 = s)).map Prod.snd

/-- The reading of an argument string as an option: the option (`none` if there is no such option), its spelling,
whether it was followed by `=`, and the argument in the same string. -/
structure Opt where
  act : Option Act
  name : PyStr
  eq : Bool
  arg : Option PyStr

/-- `s.partition("=")`: what is before, and what is after, if there is a `=` -/
def partition : PyStr → PyStr × Option PyStr
  | [] => ([], none)
  | c :: s => if c = '=' then ([], some s) else (c :: (partition s).1, (partition s).2)

/-- `_get_option_tuples`; `argparse` 2300-2340.  The string has at least two characters and starts with a dash. -/
def optionTuples (acts : List Act) (s : PyStr) : List Opt :=
  if isLong s then
    (optionMap acts).filterMap (fun e =>
      if (partition s).1.isPrefixOf e.1 then some ⟨some e.2, e.1, (partition s).2.isSome, (partition s).2⟩ else none)
  else
    (optionMap acts).filterMap (fun e =>
      if e.1 = s.take 2 then some ⟨some e.2, e.1, false, some (s.drop 2)⟩
      else if s.isPrefixOf e.1 then some ⟨some e.2, e.1, false, none⟩ else none)

/-- without a final newline -/
def chomp (s : PyStr) : PyStr := if s.getLast? = some '\n' then s.dropLast else s

/-- a non-empty string of digits -/
def digits (R : Reader) (s : PyStr) : Bool := !s.isEmpty && s.all R.digit

/-- `^-\d+$|^-\d*\.\d+$` (`$` also matches before a final newline); `argparse` 1386 -/
def negativeNumber (R : Reader) : PyStr → Bool
  | '-' :: s => digits R (chomp s) ||
      (((chomp s).dropWhile R.digit).head? == some '.' && digits R (((chomp s).dropWhile R.digit).drop 1))
  | _ => false

/-- how a string counts: as an argument (`A`), as an option (`O`), or as `--` (`-`) -/
inductive Mark
  | arg
  | dashes
  | opt (o : Opt)

/-- `_parse_optional`; `argparse` 2243-2298 (no option of PyZEAL looks like a negative number) -/
def parseOptional (R : Reader) (acts : List Act) (s : PyStr) : Except Stop Mark :=
  if s.head? ≠ some '-' then .ok .arg
  else match findOption acts s with
    | some a => .ok (.opt ⟨some a, s, false, none⟩)
    | none =>
      if s.length = 1 then .ok .arg
      else match (partition s).2, findOption acts (partition s).1 with
        | some x, some a => .ok (.opt ⟨some a, (partition s).1, true, some x⟩)
        | _, _ => match optionTuples acts s with
          | [o] => .ok (.opt o)
          | _ :: _ :: _ => .error .error
          | [] =>
            if negativeNumber R s then .ok .arg
            else if ' ' ∈ s then .ok .arg
            else .ok (.opt ⟨none, s, false, none⟩)

/-- the classification loop; `argparse` 1935-1957: after `--`, everything is an argument -/
def classify (R : Reader) (acts : List Act) : List PyStr → Except Stop (List (PyStr × Mark))
  | [] => .ok []
  | s :: ss =>
    if s = ['-', '-'] then .ok ((s, .dashes) :: ss.map (fun x => (x, .arg)))
    else match parseOptional R acts s with
      | .error e => .error e
      | .ok m => match classify R acts ss with
        | .error e => .error e
        | .ok l => .ok ((s, m) :: l)

/-! ## Options -/

/-- is it an argument? -/
def Mark.isArg : Mark → Bool
  | .arg => true
  | _ => false

/-- is it an option? -/
def Mark.isOpt : Mark → Bool
  | .opt _ => true
  | _ => false

/-- `_match_argument` for an option with `n` arguments: it takes the next `n` strings, which must be arguments;
`argparse` 2205-2225, 2377-2388 -/
def takeArgs (n : Nat) (rest : List (PyStr × Mark)) : Except Stop (List PyStr) :=
  if (rest.take n).length = n ∧ (rest.take n).all (fun t => t.2.isArg) then .ok ((rest.take n).map Prod.fst)
  else .error .error

/-- What `consume_optional` finds in one option string: actions with their arguments, the part that was not
recognised, and how many of the following strings are used. -/
structure Found where
  actions : List (Act × List PyStr)
  extra : List PyStr
  used : Nat

/-- one more action before the others -/
def Found.push (a : Act) (f : Found) : Found := { f with actions := (a, []) :: f.actions }

/-- an option without an argument in the same string; `argparse` 2065-2072 -/
def following (a : Act) (rest : List (PyStr × Mark)) : Except Stop Found :=
  match takeArgs a.kind.nargs rest with
  | .error e => .error e
  | .ok args => .ok ⟨[(a, args)], [], a.kind.nargs⟩

/-- the loop of `consume_optional` for an option with an argument in the same string; `argparse` 2009-2063.  The
option takes the argument if it needs one.  A short option without arguments is followed by other short options.
`short` says that the option string has one dash, `eq` that the argument came after `=`. -/
def explicit (acts : List Act) (rest : List (PyStr × Mark)) (a : Act) (short eq : Bool) :
    PyStr → Except Stop Found
  | [] => if a.kind.nargs = 1 then .ok ⟨[(a, [[]])], [], 0⟩ else .error .error
  | c :: s =>
    if a.kind.nargs = 1 then .ok ⟨[(a, [c :: s])], [], 0⟩
    else if a.kind.nargs = 0 ∧ short then
      if eq ∨ c = '-' then .error .error
      else match findOption acts ['-', c] with
        | none => .ok ⟨[(a, [])], ['-' :: c :: s], 0⟩
        | some b => match s with
          | [] => (following b rest).map (Found.push a)
          | d :: s' =>
            if d = '=' then (explicit acts rest b true true s').map (Found.push a)
            else (explicit acts rest b true false (d :: s')).map (Found.push a)
    else .error .error

/-- `consume_optional` up to the actions; `argparse` 1992-2077 -/
def consumeOptional (acts : List Act) (s : PyStr) (o : Opt) (rest : List (PyStr × Mark)) : Except Stop Found :=
  match o.act with
  | none => .ok ⟨[], [s], 0⟩
  | some a => match o.arg with
    | none => following a rest
    | some x => explicit acts rest a (!isLong o.name) o.eq x

/-- `[int(v) for v in args]` -/
def readInts (R : Reader) : List PyStr → Except Stop (List Int)
  | [] => .ok []
  | s :: ss => match R.int s with
    | none => .error .error
    | some n => match readInts R ss with
      | .error e => .error e
      | .ok l => .ok (n :: l)

/-- `take_action` with `_get_values`; `argparse` 1966-1985, 2475-2563, 927-1152 -/
def takeAction (R : Reader) (a : Act) (args : List PyStr) (ns : Dict PyStr Value) : Except Stop (Dict PyStr Value) :=
  match a.kind with
  | .flag => .ok (ns.set a.dest (.bool true))
  | .one none => .ok (ns.set a.dest (.str (args.headD [])))
  | .one (some cs) => if args.headD [] ∈ cs then .ok (ns.set a.dest (.str (args.headD []))) else .error .error
  | .ints _ => match readInts R args with
    | .error e => .error e
    | .ok l => .ok (ns.set a.dest (.ints l))
  | .help prog => .error (.help prog)
  | .version => .error .version

/-- the actions of one option string; `argparse` 2076-2077 -/
def takeActions (R : Reader) : List (Act × List PyStr) → Dict PyStr Value → Except Stop (Dict PyStr Value)
  | [], ns => .ok ns
  | (a, args) :: l, ns => match takeAction R a args ns with
    | .error e => .error e
    | .ok ns' => takeActions R l ns'

/-! ## The main loop -/

/-- The namespace and the strings that were not recognised: by this parser, and by a parser of a subcommand. -/
structure PState where
  ns : Dict PyStr Value
  extras : List PyStr
  unrec : List PyStr

/-- The positional arguments still expected: none, or the subcommand, which takes all strings that remain. -/
abbrev Positional := Option (List PyStr → PState → Except Stop PState)

/-- the pattern `-*A[-AO]*` of a subcommand; `argparse` 2370-2372 -/
def subcommandMatches : List (PyStr × Mark) → Bool
  | [] => false
  | (_, .arg) :: _ => true
  | (_, .dashes) :: ts => subcommandMatches ts
  | (_, .opt _) :: _ => false

/-- `consume_positionals`: the state, or nothing if no positional matches; `argparse` 2085-2103, 2227-2241 -/
def consumePositionals (pos : Positional) (ts : List (PyStr × Mark)) (st : PState) : Option (Except Stop PState) :=
  match pos with
  | none => none
  | some f => if subcommandMatches ts then some (f (ts.map Prod.fst) st) else none

/-- the part of the loop that treats an option; `argparse` 2135 -/
def optionStep (R : Reader) (acts : List Act) (s : PyStr) (o : Opt) (rest : List (PyStr × Mark)) (st : PState) :
    Except Stop (List (PyStr × Mark) × PState) :=
  match consumeOptional acts s o rest with
  | .error e => .error e
  | .ok f => match takeActions R f.actions st.ns with
    | .error e => .error e
    | .ok ns => .ok (rest.drop f.used, { st with ns := ns, extras := st.extras ++ f.extra })

/-- the loop; `argparse` 2105-2141.  `ts` are the strings from `start_index` on.  When the subcommand is matched it
takes all of them.  Arguments that nobody takes are extra.  Every round uses at least one string, so the fuel
`ts.length` is enough. -/
def loop (R : Reader) (acts : List Act) (pos : Positional) : Nat → List (PyStr × Mark) → PState → Except Stop PState
  | 0, ts, st => .ok { st with extras := st.extras ++ ts.map Prod.fst }
  | _ + 1, [], st => .ok st
  | fuel + 1, (s, .opt o) :: rest, st => match optionStep R acts s o rest st with
    | .error e => .error e
    | .ok (ts', st') => loop R acts pos fuel ts' st'
  | fuel + 1, (s, m) :: rest, st => match consumePositionals pos ((s, m) :: rest) st with
    | some r => r
    | none => loop R acts pos fuel rest { st with extras := st.extras ++ [s] }

/-- the defaults of the options; `argparse` 1892-1897 -/
def defaults (acts : List Act) (ns : Dict PyStr Value) : Dict PyStr Value :=
  acts.foldl (fun ns a => match a.kind.default with
    | none => ns
    | some v => if (ns.get? a.dest).isSome then ns else ns.set a.dest v) ns

/-- `parse_known_args`: the namespace and what was not recognised; `argparse` 1880-1916 -/
def parseKnown (R : Reader) (acts : List Act) (pos : Positional) (argv : List PyStr) :
    Except Stop (Dict PyStr Value × List PyStr) :=
  match classify R acts argv with
  | .error e => .error e
  | .ok ts => match loop R acts pos ts.length ts ⟨defaults acts [], [], []⟩ with
    | .error e => .error e
    | .ok st => .ok (st.ns, st.extras ++ st.unrec)

/-- `for key, value in vars(subnamespace).items(): setattr(namespace, key, value)`; `argparse` 1214-1215 -/
def update (ns : Dict PyStr Value) (sub : Dict PyStr Value) : Dict PyStr Value :=
  sub.foldl (fun ns e => ns.set e.1 e.2) ns

/-- `_SubParsersAction`: the first string must be the name of a subcommand, the others are parsed by its parser;
`argparse` 2511-2513, 1189-1219 -/
def runSubcommand (R : Reader) (subs : Dict PyStr (List Act)) (args : List PyStr) (st : PState) : Except Stop PState :=
  match args with
  | [] => .error .error
  | name :: rest => match subs.get? name with
    | none => .error .error
    | some acts => match parseKnown R acts none rest with
      | .error e => .error e
      | .ok (ns, ex) => .ok { st with ns := update st.ns ns, unrec := st.unrec ++ ex }

/-- `parse_args` of the configured parser: strings that were not recognised are an error; `argparse` 1873-1878 -/
def parse (R : Reader) (argv : List PyStr) : Except Stop (Dict PyStr Value) :=
  match parseKnown R mainActs (some (runSubcommand R subcommands)) argv with
  | .error e => .error e
  | .ok (ns, []) => .ok ns
  | .ok (_, _ :: _) => .error .error

/-! ## The result for the program -/

/-- the components of a path -/
def splitPath : PyStr → List PyStr
  | [] => [[]]
  | c :: s => if c = '/' then [] :: splitPath s else match splitPath s with
    | [] => [[c]]
    | x :: xs => (c :: x) :: xs

/-- `getattr` of a flag -/
def asBool : Value → Bool
  | .bool b => b
  | _ => false

/-- `getattr` of a string option -/
def asStr : Value → Option String
  | .str s => some (String.ofList s)
  | _ => none

/-- `getattr` of a path -/
def asPath : Value → Option PathS
  | .str s => some ((splitPath s).map String.ofList)
  | _ => none

/-- `getattr` of integers -/
def asInts : Value → Option (List Int)
  | .ints l => some l
  | _ => none

/-- the attributes read by `parseArgs`; `cli_parser.py` 190-209 -/
def namespaceOf (ns : Dict PyStr Value) : Namespace where
  print := (ns.get? "print".toList).map asBool
  container := (ns.get? "container".toList).map asStr
  algorithm := (ns.get? "algorithm".toList).map asStr
  estimator := (ns.get? "estimator".toList).map asStr
  logLevel := (ns.get? "log_level".toList).map asStr
  verbose := (ns.get? "verbose".toList).map asStr
  precision := (ns.get? "precision".toList).map asInts
  list := (ns.get? "list".toList).map asBool
  modules := (ns.get? "modules".toList).map asBool
  install := (ns.get? "install".toList).map asPath
  uninstall := (ns.get? "uninstall".toList).map asPath
  test := (ns.get? "test".toList).map asBool

/-- the end of the program because of the command line -/
def stop (R : Reader) : Stop → Py CState Unit
  | .help prog => do
    Cli.print (R.helpText prog)
    Py.throw (.systemExit 0)
  | .version => do
    Cli.print R.versionText
    Py.throw (.systemExit 0)
  | .error => Py.throw (.systemExit 2)

/-- `PyZEALEntry.mainPyZEAL` after initialisation; `__main__.py` 33-48, `cli_parser.py` 187.  `argv` is `sys.argv[1:]`. -/
def mainPyZEAL (E : CliEnv) (R : Reader) (argv : List PyStr) : Py CState Unit :=
  match parse R argv with
  | .error e => stop R e
  | .ok ns => Cli.main E (argv.length + 1) (namespaceOf ns)

end Args
end PyZeal
