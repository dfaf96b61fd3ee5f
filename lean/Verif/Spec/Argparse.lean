import Verif.Model.Argparse
import Verif.Spec.Cli

/-!
# Specification of the command line

The command lines that PyZEAL understands, and what they mean, as a grammar.
-/

namespace PyZeal.Spec
open Args

/-- a long option may be shortened to its dashes and at least one letter -/
def Abbrev (full : String) (s : PyStr) : Prop := s <+: full.toList ∧ 3 ≤ s.length

/-- What a word on the command line asks for. -/
inductive Effect
  | test
  | print
  | setting (k : Setting) (arg : String)
  | precision (m n : Int)
  | list
  | modules
  | install (path : PyStr)
  | uninstall (path : PyStr)

/-- the options of `change` that have choices -/
def optionName : Setting → String
  | .container => "--container"
  | .algorithm => "--algorithm"
  | .estimator => "--estimator"
  | .level => "--log-level"
  | .verbose => "--verbose"
  | .precision => "--precision"

/-- the option strings of `change` and of `plugin` -/
def changeNames : List String :=
  ["-h", "--help", "--container", "--algorithm", "--estimator", "--log-level", "--verbose", "--precision"]
def pluginNames : List String :=
  ["-h", "--help", "-l", "--list", "-m", "--modules", "--install", "--uninstall"]

/-- a negative number: digits after the sign, perhaps with a point before the last of them, perhaps a newline at the end -/
def NegNumber (R : Reader) (s : PyStr) : Prop :=
  ∃ d, (s = '-' :: d ∨ s = '-' :: (d ++ ['\n'])) ∧
    ((d ≠ [] ∧ ∀ c ∈ d, R.digit c = true) ∨
      ∃ a b, d = a ++ '.' :: b ∧ (∀ c ∈ a, R.digit c = true) ∧ b ≠ [] ∧ ∀ c ∈ b, R.digit c = true)

/-- `s` starts as if it were one of the options: with a short option, or, up to a `=`, like (the beginning of) a long one -/
def LooksLike (names : List String) (s : PyStr) : Prop :=
  ∃ n ∈ names, (∃ c x, n.toList = ['-', c] ∧ s = '-' :: c :: x) ∨
    (∃ p, (s = '-' :: '-' :: p ∨ ∃ x, s = '-' :: '-' :: p ++ '=' :: x) ∧ '=' ∉ p ∧ ('-' :: '-' :: p) <+: n.toList)

/-- A string that can follow an option as its argument: it does not start with a dash, or is just a dash, or is a
negative number or contains a space and cannot be taken for an option. -/
def Operand (R : Reader) (names : List String) (s : PyStr) : Prop :=
  s.head? ≠ some '-' ∨ s = ['-'] ∨ (s ≠ ['-', '-'] ∧ ¬ LooksLike names s ∧ (NegNumber R s ∨ ' ' ∈ s))

/-- `\d` matches neither a point nor a newline -/
structure DigitsOk (R : Reader) : Prop where
  point : R.digit '.' = false
  newline : R.digit '\n' = false

/-- options before the subcommand: `-t`, `--test` -/
inductive TestItem : List PyStr → List Effect → Prop
  | short (n : Nat) : TestItem ['-' :: List.replicate (n + 1) 't'] (List.replicate (n + 1) .test)
  | long (s : PyStr) (h : Abbrev "--test" s) : TestItem [s] [.test]

/-- options of `view`: `-p`, `--print` -/
inductive ViewItem : List PyStr → List Effect → Prop
  | short (n : Nat) : ViewItem ['-' :: List.replicate (n + 1) 'p'] (List.replicate (n + 1) .print)
  | long (s : PyStr) (h : Abbrev "--print" s) : ViewItem [s] [.print]

/-- options of `change` -/
inductive ChangeItem (R : Reader) : List PyStr → List Effect → Prop
  | apart (k : Setting) (s : PyStr) (arg : String) (v : PyVal) (h : Abbrev (optionName k) s) (ha : Choice k arg v) :
    ChangeItem R [s, arg.toList] [.setting k arg]
  | joined (k : Setting) (s : PyStr) (arg : String) (v : PyVal) (h : Abbrev (optionName k) s) (ha : Choice k arg v) :
    ChangeItem R [s ++ '=' :: arg.toList] [.setting k arg]
  | precision (s a b : PyStr) (m n : Int) (h : Abbrev (optionName .precision) s)
      (hm : R.int a = some m) (ha : Operand R changeNames a) (hn : R.int b = some n) (hb : Operand R changeNames b) :
    ChangeItem R [s, a, b] [.precision m n]

/-- `-l` and `-m` -/
def pluginFlag (c : Char) : Effect := if c = 'l' then .list else .modules

/-- options of `plugin` -/
inductive PluginItem (R : Reader) : List PyStr → List Effect → Prop
  | short (cs : List Char) (h : ∀ c ∈ cs, c = 'l' ∨ c = 'm') (hne : cs ≠ []) :
    PluginItem R ['-' :: cs] (cs.map pluginFlag)
  | list (s : PyStr) (h : Abbrev "--list" s) : PluginItem R [s] [.list]
  | modules (s : PyStr) (h : Abbrev "--modules" s) : PluginItem R [s] [.modules]
  | install (s p : PyStr) (h : Abbrev "--install" s) (hp : Operand R pluginNames p) : PluginItem R [s, p] [.install p]
  | installJoined (s p : PyStr) (h : Abbrev "--install" s) : PluginItem R [s ++ '=' :: p] [.install p]
  | uninstall (s p : PyStr) (h : Abbrev "--uninstall" s) (hp : Operand R pluginNames p) : PluginItem R [s, p] [.uninstall p]
  | uninstallJoined (s p : PyStr) (h : Abbrev "--uninstall" s) : PluginItem R [s ++ '=' :: p] [.uninstall p]

/-- items one after the other -/
inductive Items (I : List PyStr → List Effect → Prop) : List PyStr → List Effect → Prop
  | nil : Items I [] []
  | cons {w es ws fs} (h : I w es) (hs : Items I ws fs) : Items I (w ++ ws) (es ++ fs)

/-- The command lines PyZEAL understands (without the name of the program), and what they ask for.  The subcommand, if
any, and the list of its effects. -/
inductive Line (R : Reader) : List PyStr → Option String → List Effect → Prop
  | bare {ws es} (h : Items TestItem ws es) : Line R ws none es
  | view {ws es vs fs} (h : Items TestItem ws es) (hv : Items ViewItem vs fs) :
    Line R (ws ++ "view".toList :: vs) (some "view") (es ++ fs)
  | change {ws es vs fs} (h : Items TestItem ws es) (hv : Items (ChangeItem R) vs fs) :
    Line R (ws ++ "change".toList :: vs) (some "change") (es ++ fs)
  | plugin {ws es vs fs} (h : Items TestItem ws es) (hv : Items (PluginItem R) vs fs) :
    Line R (ws ++ "plugin".toList :: vs) (some "plugin") (es ++ fs)

/-- the attributes before any option is seen -/
def startNamespace (sub : Option String) : Namespace :=
  if sub = some "view" then
    ⟨some false, none, none, none, none, none, none, none, none, none, none, some false⟩
  else if sub = some "change" then
    ⟨none, some none, some none, some none, some none, some none, some none, none, none, none, none, some false⟩
  else if sub = some "plugin" then
    ⟨none, none, none, none, none, none, none, some false, some false, some none, some none, some false⟩
  else ⟨none, none, none, none, none, none, none, none, none, none, none, some false⟩

/-- the path that a string denotes: its components -/
def PathOf (s : PyStr) (p : PathS) : Prop :=
  "/".toList.intercalate (p.map String.toList) = s ∧ p ≠ [] ∧ ∀ c ∈ p, '/' ∉ c.toList

/-- what an effect does to the attributes -/
def Effect.apply (ns : Namespace) : Effect → Namespace
  | .test => { ns with test := some true }
  | .print => { ns with print := some true }
  | .setting .container w => { ns with container := some (some w) }
  | .setting .algorithm w => { ns with algorithm := some (some w) }
  | .setting .estimator w => { ns with estimator := some (some w) }
  | .setting .level w => { ns with logLevel := some (some w) }
  | .setting .verbose w => { ns with verbose := some (some w) }
  | .setting .precision _ => ns
  | .precision m n => { ns with precision := some (some [m, n]) }
  | .list => { ns with list := some true }
  | .modules => { ns with modules := some true }
  | .install p => { ns with install := some (some ((splitPath p).map String.ofList)) }
  | .uninstall p => { ns with uninstall := some (some ((splitPath p).map String.ofList)) }

/-- what a command line means: its effects, one after the other -/
def meaning (sub : Option String) (es : List Effect) : Namespace := es.foldl Effect.apply (startNamespace sub)

/-- a word that asks for help or for the version -/
def AsksHelp (s : PyStr) : Prop :=
  Abbrev "--help" s ∨ Abbrev "--version" s ∨ ∃ x, s = '-' :: x ∧ x.head? ≠ some '-' ∧ 'h' ∈ x

/-- a word that is nothing but a request for help -/
def HelpWord (s : PyStr) : Prop := s = "-h".toList ∨ Abbrev "--help" s

/-- no string that would be taken for all long options at once -/
def Unambiguous (rest : List PyStr) : Prop := ∀ r ∈ rest, ¬ ['-', '-', '='] <+: r

/-- the path given with `--install`, with `--uninstall` -/
def Effect.installs : Effect → Option PyStr
  | .install s => some s
  | _ => none
def Effect.removes : Effect → Option PyStr
  | .uninstall s => some s
  | _ => none

/-- `p` is the path of the last of the strings, if there is one -/
def LastPath (l : List PyStr) (p : Option PathS) : Prop :=
  (l = [] ∧ p = none) ∨ ∃ pre s q, l = pre ++ [s] ∧ p = some q ∧ PathOf s q

/-- the setting that an effect gives a value -/
def Effect.Sets : Effect → Setting → PyVal → Prop
  | .setting k w, k', v => k = k' ∧ Choice k w v
  | .precision m n, k', v => k' = .precision ∧ v = .tuple [.int m, .int n]
  | _, _, _ => False

/-- `v` is the last value that setting `k` is given -/
def LastSets (es : List Effect) (k : Setting) (v : PyVal) : Prop :=
  ∃ pre e post, es = pre ++ e :: post ∧ e.Sets k v ∧ ∀ e' ∈ post, ¬ ∃ v', e'.Sets k v'

end PyZeal.Spec
