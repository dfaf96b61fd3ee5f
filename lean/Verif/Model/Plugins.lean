import Verif.Model.Locator

/-!
# Model of plugin discovery, loading and installation

`pyzeal/plugins/plugin_loader.py`, `pyzeal_plugin.py`, `installation_helper.py`.  Log messages are not
modelled.
-/

namespace PyZeal

/-- A Python string: its characters. -/
abbrev PyStr := List Char

/-- What `loadPlugin` can find out about an attribute of a module (`plugin_loader.py` 108-112). -/
inductive Attr (C : Type)
  /-- `attribute == PyZEALPlugin` -/
  | base
  /-- an instance of `ABCMeta` that is a subclass of `PyZEALPlugin` -/
  | plugin (c : C)
  /-- anything else that compares unequal to `PyZEALPlugin` -/
  | other
  /-- an object for which the truth value of the comparison raises, such as a numpy array -/
  | ambiguous

/-- The part of Python the plugin loader relies on. `C` are the plugin classes. -/
structure PlugEnv (T V F W C : Type) where
  /-- importing a module by its absolute name: `dir(module)` with the attributes -/
  importModule : PyStr → Py (LState T V F W) (List (PyStr × Attr C))
  /-- `plugin.getInstance()` -/
  getInstance : C → Py (LState T V F W) V
  /-- `pluginInstance.pluginType` -/
  pluginType : V → Py (LState T V F W) T
  /-- `plugin.initialize()` -/
  factory : C → Py (LState T V F W) F

namespace Plugins

/-! ## File names -/

/-- `regex.match(c)` for `__.*`; `plugin_loader.py` 143-144, 156-157 -/
def dunder (s : PyStr) : Bool := s.take 2 == ['_', '_']

/-- `os.path.splitext` for a name without `/`: the extension begins at the last dot, unless there are only
dots before it. -/
def splitext (s : PyStr) : PyStr × PyStr :=
  let rest := s.reverse.dropWhile (· != '.')
  match rest with
  | [] => (s, [])
  | _ :: stem => if stem.all (· == '.') then (s, []) else
      (stem.reverse, '.' :: (s.reverse.takeWhile (· != '.')).reverse)

/-- `str.lower`, for ASCII letters (no other character has `p` or `y` as its lower case) -/
def lower (s : PyStr) : PyStr := s.map Char.toLower

/-- `PluginLoader.isPyFile`; `plugin_loader.py` 128-132 -/
def isPyFile (s : PyStr) : PyStr :=
  if s = "__init__.py".toList then [] else
    if lower (splitext s).2 = ".py".toList then '.' :: (splitext s).1 else []

/-- `PluginLoader.discoverModules` given the directory listing; `plugin_loader.py` 143-145 -/
def discoverModules (entries : List PyStr) : List PyStr := entries.filter (fun c => !dunder c)

/-- `package="pyzeal_plugins.custom_plugins"`; `plugin_loader.py` 86 -/
def pluginPackage : List PyStr := ["pyzeal_plugins".toList, "custom_plugins".toList]

/-- a dotted name -/
def dotted : List PyStr → PyStr
  | [] => []
  | [a] => a
  | a :: b :: l => a ++ '.' :: dotted (b :: l)

/-- The absolute name `importlib.import_module(name, package)` imports for a relative name: the number of
leading dots says how far to go up (`importlib/__init__.py`, `_bootstrap._resolve_name`).
`ImportError` is tag 2. -/
def resolveName (pkg : List PyStr) (name : PyStr) : Except Err PyStr :=
  let level := (name.takeWhile (· == '.')).length
  if pkg.length < level then .error (.other 2)
  else .ok (dotted (pkg.take (pkg.length - (level - 1)) ++ [name.dropWhile (· == '.')]))

/-! ## Loading -/

variable {T V F W C : Type} [DecidableEq T]

/-- `PluginLoader.discoverAttributes`; `plugin_loader.py` 156-158 -/
def discoverAttributes (attrs : List (PyStr × Attr C)) : List (PyStr × Attr C) :=
  attrs.filter (fun a => !dunder a.1)

/-- the loop of `PluginLoader.loadPlugin`; `plugin_loader.py` 107-118 -/
def firstPlugin : List (PyStr × Attr C) → Except Err (Option C)
  | [] => .ok none
  | (_, .base) :: l => firstPlugin l
  | (_, .plugin c) :: _ => .ok (some c)
  | (_, .other) :: l => firstPlugin l
  | (_, .ambiguous) :: _ => .error .valueError

/-- an `Except` as a computation -/
def lift {σ α : Type} : Except Err α → Py σ α
  | .ok a => pure a
  | .error e => Py.throw e

/-- `PluginLoader.loadPlugin`; `plugin_loader.py` 93-118 -/
def loadPlugin (attrs : List (PyStr × Attr C)) : Py (LState T V F W) (Option C) :=
  lift (firstPlugin (discoverAttributes attrs))

/-- `import_module(candidate, package=…)`; `plugin_loader.py` 85-87 -/
def importCandidate (E : PlugEnv T V F W C) (c : PyStr) : Py (LState T V F W) (List (PyStr × Attr C)) := do
  let n ← lift (resolveName pluginPackage c)
  E.importModule n

/-- the loop of `locateAndLoadPlugins`; `plugin_loader.py` 81-91 -/
def locateLoop (E : PlugEnv T V F W C) : List PyStr → Py (LState T V F W) (List C)
  | [] => pure []
  | c :: cs =>
    if isPyFile c = [] then locateLoop E cs
    else do
      let m ← importCandidate E (isPyFile c)
      let p ← loadPlugin m
      let ps ← locateLoop E cs
      pure (p.toList ++ ps)

/-- `PluginLoader.locateAndLoadPlugins`; `plugin_loader.py` 68-91.  `entries` is what `listdir(path)`
returns or raises. -/
def locateAndLoadPlugins (E : PlugEnv T V F W C) (entries : Except Err (List PyStr)) :
    Py (LState T V F W) (List C) := do
  let es ← lift entries
  locateLoop E (discoverModules es)

/-- the registration of one plugin; `plugin_loader.py` 61-65 -/
def registerPlugin (E : PlugEnv T V F W C) (c : C) : Py (LState T V F W) V := do
  let v ← E.getInstance c
  let t ← E.pluginType v
  let f ← E.factory c
  Locator.registerAsTransient t f
  pure v

/-- the loop of `loadPlugins`; `plugin_loader.py` 60-66 -/
def registerLoop (E : PlugEnv T V F W C) : List C → Py (LState T V F W) (List V)
  | [] => pure []
  | c :: cs => do
    let v ← registerPlugin E c
    let vs ← registerLoop E cs
    pure (v :: vs)

/-- `PluginLoader.loadPlugins`; `plugin_loader.py` 48-66 -/
def loadPlugins (E : PlugEnv T V F W C) (entries : Except Err (List PyStr)) : Py (LState T V F W) (List V) := do
  let cs ← locateAndLoadPlugins E entries
  registerLoop E cs

/-! ## The loader singleton -/

/-- `PluginLoader._instance` (`plugin_loader.py` 32) and the number of loaders created so far -/
structure LoaderState where
  inst : Option Nat
  created : Nat

/-- `PluginLoader.getInstance`; `plugin_loader.py` 42-46.  The result identifies the object returned. -/
def getLoader : Py LoaderState Nat := do
  let s ← Py.get
  match s.inst with
  | some i => pure i
  | none => do
    Py.modify (fun s => { s with created := s.created + 1 })
    pure s.created

/-! ## Printing a plugin -/

/-- `f"{s: <30}"`: left aligned, padded with blanks -/
def ljust (w : Nat) (s : PyStr) : PyStr := s ++ List.replicate (w - s.length) ' '

/-- `str(n)` -/
def intStr (n : Int) : PyStr := (toString n).toList

/-- `PyZEALPlugin.__str__`; `pyzeal_plugin.py` 36-44 -/
def pluginStr (name : PyStr) (version : Int × Int × Int) : PyStr :=
  ljust 30 (name.take (min name.length 30)) ++ " ".toList ++
    (" @ v".toList ++ intStr version.1 ++ ".".toList ++ intStr version.2.1 ++ ".".toList ++ intStr version.2.2)

end Plugins

/-! ## Installation -/

/-- A path as a string is split at its slashes: `"/a/b"` is `["", "a", "b"]`, `"a/b"` is `["a", "b"]`, `""` is
`[""]`.  The components do not contain slashes and there is at least one. -/
abbrev PathS := List String

/-- An entry of the file system. -/
inductive Node
  | file (content : Nat)
  | dir
deriving DecidableEq

/-- The file system: what is at an absolute position (a list of names from the root), and where new files can
be created or removed.  Simplification: no symbolic links, all files are readable. -/
structure FSys where
  node : List String → Option Node
  writable : List String → Bool

namespace Install

/-- `os.path.join` -/
def join (a b : PathS) : PathS :=
  match b with
  | "" :: _ :: _ => b
  | _ => if a.getLast? = some "" then a.dropLast ++ b else a ++ b

/-- how the kernel finds the position of a relative path -/
def walk (fs : FSys) : List String → PathS → Option (List String)
  | cur, [] => some cur
  | cur, c :: cs =>
    if fs.node cur = some .dir then
      if c = "" ∨ c = "." then walk fs cur cs
      else if c = ".." then walk fs cur.dropLast cs
      else walk fs (cur ++ [c]) cs
    else none

/-- the position of a path, for a process in directory `cwd` -/
def locate (fs : FSys) (cwd : List String) (p : PathS) : Option (List String) :=
  match p with
  | "" :: c :: cs => walk fs [] (c :: cs)
  | [""] => none
  | [] => none
  | _ => walk fs cwd p

/-- the entry a path leads to -/
def lookup (fs : FSys) (cwd : List String) (p : PathS) : Option (List String × Node) :=
  match locate fs cwd p with
  | none => none
  | some q => (fs.node q).map (fun n => (q, n))

/-- whether a path contains a null character -/
def hasNul (p : PathS) : Bool := p.any (fun c => c.toList.contains (Char.ofNat 0))

/-- change one entry -/
def setNode (fs : FSys) (q : List String) (n : Option Node) : FSys :=
  { fs with node := fun q' => if q' = q then n else fs.node q' }

/-- `PLUGIN_INSTALL_DIR` as a path string; `plugin_loader.py` 24 -/
def dirPath (pluginDir : List String) : PathS := "" :: pluginDir

/-- The destination of `shutil.copy(src, dst)` (`shutil.py`, `copy`). -/
def copyTarget (fs : FSys) (pluginDir : List String) (src : PathS) : List String :=
  if fs.node pluginDir = some .dir then pluginDir ++ [src.getLastD ""] else pluginDir

/-- `shutil.copy(fullPath, PLUGIN_INSTALL_DIR)` for an existing `src`; `installation_helper.py` 30.
Raises for a directory, for a file copied onto itself, and if the target is a directory or cannot be
written. -/
def copy (pluginDir : List String) (src : PathS) (q : List String) (n : Node) : Py FSys Unit := fun fs =>
  match n with
  | .dir => (.error .osError, fs)
  | .file c =>
    let dst := copyTarget fs pluginDir src
    if q = dst then (.error .osError, fs)
    else match fs.node dst with
      | some .dir => (.error .osError, fs)
      | _ => if fs.writable dst.dropLast then (.ok (), setNode fs dst (some (.file c))) else (.error .osError, fs)

/-- `InstallationHelper.installPlugin`; `installation_helper.py` 20-31 (`exists` is false for a path with a
null character) -/
def installPlugin (pluginDir cwd : List String) (src : PathS) : Py FSys Bool := do
  let fs ← Py.get
  if hasNul src then pure false
  else match lookup fs cwd src with
    | none => pure false
    | some (q, n) => do
      copy pluginDir src q n
      pure true

/-- `os.remove`; a null character raises `ValueError`, everything else `OSError` -/
def remove (cwd : List String) (p : PathS) : Py FSys Unit := fun fs =>
  if hasNul p then (.error .valueError, fs)
  else match lookup fs cwd p with
    | some (q, .file _) => if fs.writable q.dropLast then (.ok (), setNode fs q none) else (.error .osError, fs)
    | _ => (.error .osError, fs)

/-- `InstallationHelper.uninstallPlugin`; `installation_helper.py` 34-45 -/
def uninstallPlugin (pluginDir cwd : List String) (filename : PathS) : Py FSys Bool := fun fs =>
  match remove cwd (join (dirPath pluginDir) filename) fs with
  | (.ok _, fs') => (.ok true, fs')
  | (.error .osError, fs') => (.ok false, fs')
  | (.error e, fs') => (.error e, fs')

/-- `InstallationHelper.returnDataPath`; `installation_helper.py` 48-59 -/
def returnDataPath (filename fullPath : PathS) : PathS := join fullPath filename

end Install
end PyZeal
