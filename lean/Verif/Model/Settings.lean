import Verif.Core.Py
import Verif.Core.Dict
import Verif.Model.Types

/-!
# Model of the settings services

`pyzeal/settings/json_helper.py`, `json_core_settings.py`, `json_settings_service.py`,
`ram_settings_service.py`, `default_settings.json`.

Files are modelled after parsing: a file is absent, not valid JSON, or holds a JSON value; `json.dump`
followed by `json.load` is the identity on JSON values (tuples being written as arrays).  Objects have no
duplicate keys (`json.load` keeps the last one).  Only the two files the services use are modelled.
-/

namespace PyZeal

/-- JSON values; a float is opaque up to being zero. -/
inductive Json
  | null
  | bool (b : Bool)
  | int (n : Int)
  | float (zero : Bool) (id : Nat)
  | str (s : String)
  | arr (l : List Json)
  | obj (d : List (String × Json))

/-- The content of a file; `broken` is anything that is not valid JSON, such as an empty file. -/
inductive FileC
  | absent
  | broken
  | json (v : Json)

/-- The part of the file system used by the settings: `default_settings.json`, `custom_settings.json`
(`json_settings_service.py` 22-24), and whether the latter can be opened for writing. -/
structure SettingsFS where
  default : FileC
  custom : FileC
  writable : Bool

/-- Python values that may be assigned to a setting. -/
inductive PyVal
  | none
  | bool (b : Bool)
  | int (n : Int)
  | str (s : String)
  | container (c : ContainerTypes)
  | algorithm (a : AlgorithmTypes)
  | estimator (e : EstimatorTypes)
  | level (l : LogLevel)
  | tuple (l : List PyVal)
  | other (id : Nat)

/-- The six settings: `defaultContainer`, `defaultAlgorithm`, `defaultEstimator`, `logLevel`, `verbose`,
`precision`; `json_helper.py` 18-27. -/
inductive Setting
  | container | algorithm | estimator | level | verbose | precision
deriving DecidableEq, Repr

/-- the key used in the files; `json_helper.py` 46-50 -/
def Setting.key : Setting → String
  | .container => "defaultContainer"
  | .algorithm => "defaultAlgorithm"
  | .estimator => "defaultEstimator"
  | .level => "logLevel"
  | .verbose => "verbose"
  | .precision => "precision"

/-- the instance attributes of a settings service (`json_settings_service.py` 34,
`json_core_settings.py` 34, `ram_settings_service.py` 41-46) -/
abbrev Service := Setting → PyVal

namespace Settings

/-! ## Reading -/

/-- `isinstance(v, int)` (a `bool` is an `int`) -/
def isInt : PyVal → Bool
  | .int _ => true
  | .bool _ => true
  | _ => false

/-- how a Python `int` is written to JSON -/
def intJson : PyVal → Json
  | .int n => .int n
  | .bool b => .bool b
  | _ => .null

/-- what `json.load` makes of an element of an array -/
def ofJson : Json → PyVal
  | .null => .none
  | .bool b => .bool b
  | .int n => .int n
  | .str s => .str s
  | _ => .other 0

/-- `load(file).items()`; `json_helper.py` 99, 164.  An absent file is skipped (103-104, 170-171), a
broken one raises, a JSON value that is not an object has no `items` (`AttributeError`, tag 1). -/
def readItems : FileC → Except Err (Dict String Json)
  | .absent => .ok []
  | .broken => .error .jsonDecodeError
  | .json (.obj d) => .ok d
  | .json _ => .error (.other 1)

/-- one iteration of the loop; `json_helper.py` 99-102, 164-169 -/
def mergeStep (known : List String) (cur : Dict String Json) (kv : String × Json) : Dict String Json :=
  if kv.1 ∈ known then cur.set kv.1 kv.2 else cur

/-- `loadCoreSettingsFromFile` / `loadSettingsFromFile`; `json_helper.py` 88-104, 153-171 -/
def merge (known : List String) (cur : Dict String Json) (items : Dict String Json) : Dict String Json :=
  items.foldl (mergeStep known) cur

/-- the keys in `JSONHelper._coreSettings`; `json_helper.py` 46-49 -/
def coreKeys : List String := ["defaultAlgorithm", "defaultContainer", "defaultEstimator"]
/-- `JSONHelper._settings`; `json_helper.py` 50 -/
def otherKeys : List String := ["logLevel", "verbose", "precision"]

/-- default file first, then custom file; `json_core_settings.py` 41-45, `json_settings_service.py` 42-46 -/
def loadBoth (known : List String) (fs : SettingsFS) : Except Err (Dict String Json) :=
  match readItems fs.default with
  | .error e => .error e
  | .ok d => match readItems fs.custom with
    | .error e => .error e
    | .ok c => .ok (merge known (merge known [] d) c)

/-- `currentSettings[key]` -/
def lookup (cur : Dict String Json) (k : Setting) : Except Err Json :=
  match cur.get? k.key with
  | some j => .ok j
  | none => .error .keyError

/-- the search loops; `json_core_settings.py` 48-63, `json_settings_service.py` 49-51: the member whose
value (name, for log levels) is the given string -/
def findMember {τ : Type} (all : List τ) (label : τ → String) : Json → Option τ
  | .str s => all.find? (fun m => label m = s)
  | _ => none

/-- `hasattr`-check of a slot; `json_core_settings.py` 66-68, `json_settings_service.py` 71-73 -/
def need {τ : Type} (slot : String) : Option τ → Except Err τ
  | some v => .ok v
  | none => .error (.invalidSetting slot)

/-- Python truth value of a loaded JSON value -/
def truth : Json → Bool
  | .null => false
  | .bool b => b
  | .int n => n != 0
  | .float zero _ => !zero
  | .str s => s != ""
  | .arr l => !l.isEmpty
  | .obj d => !d.isEmpty

/-- `_verbose`; `json_settings_service.py` 54-56 -/
def readVerbose : Option Json → Option Bool
  | none => none
  | some .null => none
  | some j => some (truth j)

/-- `_precision`; `json_settings_service.py` 59-68: an array with fewer than two elements raises
`IndexError` (which is not a `ValueError`) -/
def readPrecision : Option Json → Except Err (Option (PyVal × PyVal))
  | some (.arr (x :: y :: _)) => .ok (some (ofJson x, ofJson y))
  | some (.arr _) => .error .indexError
  | _ => .ok none

/-- `JSONCoreSettingsService.__init__`; `json_core_settings.py` 36-68 -/
def loadCore (fs : SettingsFS) : Except Err (ContainerTypes × AlgorithmTypes × EstimatorTypes) := do
  let cur ← loadBoth coreKeys fs
  let cj ← lookup cur .container
  let aj ← lookup cur .algorithm
  let ej ← lookup cur .estimator
  let c ← need "container" (findMember ContainerTypes.all ContainerTypes.value cj)
  let a ← need "algorithm" (findMember AlgorithmTypes.all AlgorithmTypes.value aj)
  let e ← need "estimator" (findMember EstimatorTypes.all EstimatorTypes.value ej)
  pure (c, a, e)

/-- the attributes of a new service -/
def mkService (c : ContainerTypes) (a : AlgorithmTypes) (e : EstimatorTypes) (l : LogLevel) (v : Bool)
    (p : PyVal × PyVal) : Service
  | .container => .container c
  | .algorithm => .algorithm a
  | .estimator => .estimator e
  | .level => .level l
  | .verbose => .bool v
  | .precision => .tuple [p.1, p.2]

/-- `JSONSettingsService.__init__`; `json_settings_service.py` 36-73 -/
def load (fs : SettingsFS) : Except Err Service := do
  let core ← loadCore fs
  let cur ← loadBoth otherKeys fs
  let lj ← lookup cur .level
  let p? ← readPrecision (cur.get? Setting.precision.key)
  let l ← need "level" (findMember LogLevel.all LogLevel.name lj)
  let v ← need "verbose" (readVerbose (cur.get? Setting.verbose.key))
  let p ← need "precision" p?
  pure (mkService core.1 core.2.1 core.2.2 l v p)

/-! ## Writing -/

/-- reading the old file in `createOrUpdate…`; `json_helper.py` 68-75, 119-128 -/
def readForUpdate : FileC → Except Err Json
  | .absent => .ok (.obj [])
  | .broken => .error (.invalidSetting "filename")
  | .json v => .ok v

/-- `isinstance` checks and conversion of the value; `json_helper.py` 77-82, 130-147 -/
def encode : Setting → PyVal → Except Err Json
  | .container, .container c => .ok (.str c.value)
  | .algorithm, .algorithm a => .ok (.str a.value)
  | .estimator, .estimator e => .ok (.str e.value)
  | .container, _ => .error (.invalidSetting "defaultContainer")
  | .algorithm, _ => .error (.invalidSetting "defaultAlgorithm")
  | .estimator, _ => .error (.invalidSetting "defaultEstimator")
  | .level, .level l => .ok (.str l.name)
  | .level, _ => .error (.invalidSetting "default algorithm")
  | .verbose, .bool b => .ok (.bool b)
  | .verbose, _ => .error (.invalidSetting "default verbosity")
  | .precision, .tuple [] => .error .indexError
  | .precision, .tuple [x] => if isInt x then .error .indexError else .error (.invalidSetting "default precision")
  | .precision, .tuple (x :: y :: _) =>
    if isInt x && isInt y then .ok (.arr [intJson x, intJson y]) else .error (.invalidSetting "default precision")
  | .precision, _ => .error (.invalidSetting "default precision")

/-- `currentSettings[setting] = …` on whatever was loaded -/
def setItem (k : String) (j : Json) : Json → Except Err Json
  | .obj d => .ok (.obj (Dict.set d k j))
  | _ => .error .typeError

/-- `createOrUpdateCoreSetting` / `createOrUpdateSetting` up to opening the file for writing: the new
content; `json_helper.py` 68-82, 119-147 -/
def prepare (fs : SettingsFS) (k : Setting) (v : PyVal) : Except Err Json := do
  let old ← readForUpdate fs.custom
  let j ← encode k v
  let new ← setItem k.key j old
  if fs.writable then pure new else .error .osError

/-- `open(filename, "w")` truncates the file: it is empty, hence not valid JSON; `json_helper.py` 84, 149 -/
def truncate (fs : SettingsFS) : SettingsFS := { fs with custom := .broken }

/-- `dump(currentSettings, custom)` and closing; `json_helper.py` 85, 150.  (While the text is being
written the file holds a proper prefix of a JSON object, which is not valid JSON either.) -/
def fill (j : Json) (fs : SettingsFS) : SettingsFS := { fs with custom := .json j }

/-- the successive changes of the file system while saving -/
def commitSteps (j : Json) : List (SettingsFS → SettingsFS) := [truncate, fill j]

/-- `JSONHelper.createOrUpdateCoreSetting` (`json_helper.py` 53-85) for the first three settings,
`JSONHelper.createOrUpdateSetting` (107-150) for the others -/
def createOrUpdate (k : Setting) (v : PyVal) : Py SettingsFS Unit := fun fs =>
  match prepare fs k v with
  | .error e => (.error e, fs)
  | .ok j => (.ok (), (commitSteps j).foldl (fun s g => g s) fs)

/-- the setting with this key among `_coreSettings`; `json_helper.py` 46-49 -/
def coreSetting (key : String) : Option Setting :=
  [Setting.container, .algorithm, .estimator].find? (fun k => k.key = key)

/-- the setting with this key among the others; `json_helper.py` 130-146 -/
def otherSetting (key : String) : Option Setting :=
  [Setting.level, .verbose, .precision].find? (fun k => k.key = key)

/-- an unknown key: the file is read, then the key rejected; `json_helper.py` 68-82, 119-147 -/
def rejectKey (key : String) : Py SettingsFS Unit := fun fs =>
  match readForUpdate fs.custom with
  | .error e => (.error e, fs)
  | .ok _ => (.error (.invalidSetting ("key=" ++ key)), fs)

/-- `JSONHelper.createOrUpdateCoreSetting` with an arbitrary string as key; `json_helper.py` 53-85 -/
def createOrUpdateCoreKey (key : String) (v : PyVal) : Py SettingsFS Unit :=
  match coreSetting key with
  | some k => createOrUpdate k v
  | none => rejectKey key

/-- `JSONHelper.createOrUpdateSetting` with an arbitrary string as key; `json_helper.py` 107-150 -/
def createOrUpdateKey (key : String) (v : PyVal) : Py SettingsFS Unit :=
  match otherSetting key with
  | some k => createOrUpdate k v
  | none => rejectKey key

/-! ## Services -/

/-- a service and the file system -/
structure SState where
  fs : SettingsFS
  svc : Service

/-- assignment to an instance attribute -/
def put (s : Service) (k : Setting) (v : PyVal) : Service := fun k' => if k' = k then v else s k'

/-- the property setters; `json_settings_service.py` 95-150, `json_core_settings.py` 89-120: first the
attribute, then the file -/
def assign (k : Setting) (v : PyVal) : Py SState Unit := fun s =>
  let r := createOrUpdate k v s.fs
  (r.1, ⟨r.2, put s.svc k v⟩)

/-- the setters of `RAMSettingsService`; `ram_settings_service.py` 54-106 -/
def ramAssign (k : Setting) (v : PyVal) : Py Service Unit := fun s => (.ok (), put s k v)

/-- `default_settings.json` -/
def shippedFile : FileC := .json (.obj
  [("defaultContainer", .str "RoundingContainer"), ("defaultAlgorithm", .str "SimpleArgument"),
    ("defaultEstimator", .str "SummationEstimator"), ("logLevel", .str "WARNING"),
    ("verbose", .bool true), ("precision", .arr [.int 5, .int 5])])

end Settings
end PyZeal
