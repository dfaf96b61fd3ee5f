import Verif.Model.Plugins

/-!
# Specification of plugin discovery, loading and installation
-/

namespace PyZeal.Spec
open Plugins Install

/-- `s` is the name of a Python file with stem `stem`: the extension is `.py` in any case, and the stem does
not consist of dots only (`..py` has no extension). -/
def PyFileName (s stem : PyStr) : Prop :=
  ∃ p y, s = stem ++ ['.', p, y] ∧ (p = 'p' ∨ p = 'P') ∧ (y = 'y' ∨ y = 'Y') ∧ ∃ c ∈ stem, c ≠ '.'

/-- the name begins with two underscores -/
def Dunder (s : PyStr) : Prop := ∃ rest, s = '_' :: '_' :: rest

/-- `s` is the name of a plugin candidate with stem `stem` -/
def Candidate (s stem : PyStr) : Prop := ¬ Dunder s ∧ PyFileName s stem

/-- the name of a module in the package plugins are imported from -/
def inPackage (stem : PyStr) : PyStr := "pyzeal_plugins.custom_plugins.".toList ++ stem

/-- the name of a module in the package plugins are installed to
(`plugin_loader.py` 24: `custom_plugins` beside `plugin_loader.py`) -/
def installedAs (stem : PyStr) : PyStr := "pyzeal.plugins.custom_plugins.".toList ++ stem

/-- the modules imported for a directory with these entries, in order -/
inductive Imports : List PyStr → List PyStr → Prop
  | nil : Imports [] []
  | skip {c cs ns} (h : ∀ stem, ¬ Candidate c stem) (r : Imports cs ns) : Imports (c :: cs) ns
  | take {c cs ns stem} (h : Candidate c stem) (r : Imports cs ns) : Imports (c :: cs) (inPackage stem :: ns)

section
variable {T V F W C : Type}

/-- `k` is the first plugin class among the public attributes of a module -/
def FirstPlugin (attrs : List (PyStr × Attr C)) (k : C) : Prop :=
  ∃ pre n post, attrs = pre ++ (n, .plugin k) :: post ∧ ¬ Dunder n ∧
    ∀ m j, (m, Attr.plugin j) ∈ pre → Dunder m

/-- no public attribute is a plugin class -/
def NoPlugin (attrs : List (PyStr × Attr C)) : Prop := ∀ m j, (m, Attr.plugin j) ∈ attrs → Dunder m

/-- the plugin classes found in a directory with these entries, in order -/
inductive Finds (mods : PyStr → List (PyStr × Attr C)) : List PyStr → List C → Prop
  | nil : Finds mods [] []
  | skip {c cs ks} (h : ∀ stem, ¬ Candidate c stem) (r : Finds mods cs ks) : Finds mods (c :: cs) ks
  | without {c cs ks stem} (h : Candidate c stem) (hn : NoPlugin (mods (inPackage stem)))
      (r : Finds mods cs ks) : Finds mods (c :: cs) ks
  | take {c cs ks stem k} (h : Candidate c stem) (hk : FirstPlugin (mods (inPackage stem)) k)
      (r : Finds mods cs ks) : Finds mods (c :: cs) (k :: ks)

/-- a computation that returns `a` and does not touch the locator -/
def Quiet {α : Type} (m : Py (LState T V F W) α) (a : α) : Prop := ∀ s, ∃ w, m s = (.ok a, ⟨s.loc, w⟩)

/-- the plugin class `c`, with instance `v`, provides the factory `f` for the service type `t` -/
def Provides (E : PlugEnv T V F W C) (c : C) (v : V) (t : T) (f : F) : Prop :=
  Quiet (E.getInstance c) v ∧ Quiet (E.pluginType v) t ∧ Quiet (E.factory c) f

/-- `f` is the factory for `t` of the last plugin that provides one -/
def LastProvided (E : PlugEnv T V F W C) (cs : List C) (t : T) (f : F) : Prop :=
  ∃ pre c post v, cs = pre ++ c :: post ∧ Provides E c v t f ∧ ∀ c' ∈ post, ∀ v' f', ¬ Provides E c' v' t f'

/-- importing the modules in `mods` succeeds and does not touch the locator -/
def ImportsFrom (E : PlugEnv T V F W C) (mods : PyStr → List (PyStr × Attr C)) : Prop :=
  ∀ n, Quiet (E.importModule n) (mods n)

/-- comparing the attributes with `PyZEALPlugin` does not raise -/
def Comparable (mods : PyStr → List (PyStr × Attr C)) : Prop := ∀ n m, (m, Attr.ambiguous) ∉ mods n

end

/-- a plain file name: not empty, no directories, no null character -/
def PlainName (n : String) : Prop := n ≠ "" ∧ n ≠ "." ∧ n ≠ ".." ∧ Char.ofNat 0 ∉ n.toList

/-- the path of every entry is made of directories, as in every real file system -/
def Sane (fs : FSys) : Prop := ∀ q q', fs.node (q ++ q') ≠ none → q' ≠ [] → fs.node q = some .dir

end PyZeal.Spec
