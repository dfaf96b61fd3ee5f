import Verif.Core.Py
import Verif.Model.Types

/-!
# Model of `pyzeal/pyzeal_logging`

`log_manager.py`, `loggable.py`, `log_levels.py`, the `setLevel` of `rootfinders/rootfinder.py`, and of the
standard library's `logging` what they use: loggers by name with a level and handlers, ordered by their dotted
names, all of which propagate to their ancestors.
-/

namespace PyZeal

/-- the numbers behind the levels (`logging.DEBUG` etc.); `log_levels.py` 18-23 -/
def LogLevel.value : LogLevel → Nat
  | .NOTSET => 0
  | .DEBUG => 10
  | .INFO => 20
  | .WARNING => 30
  | .ERROR => 40
  | .CRITICAL => 50

/-- the name of a logger, split at its dots; the root logger is `[]` -/
abbrev LogName := List String

/-- handlers: those created by PyZEAL, with the name of their file, and those of the user -/
inductive Handler
  | pyzeal (file : String)
  | user (id : Nat)
deriving DecidableEq

/-- a logger -/
structure LoggerS where
  level : Nat
  handlers : List Handler

/-- the state of the logging system: all loggers (those not asked for yet have level 0 and no handlers), and
whether the directory for log files exists -/
structure LogState where
  logger : LogName → LoggerS
  dirExists : Bool

/-- the surroundings: whether directory and files can be created -/
structure LogEnv where
  mkdirOk : Bool
  openOk : Bool
  /-- `LogManager.buildFileName()` (the date being fixed for a session) -/
  fileName : String

/-- `LogManager.DATE`; `log_manager.py` 26 -/
structure DateTime where
  year : Nat
  month : Nat
  day : Nat
  hour : Nat
  minute : Nat
  second : Nat

namespace Logging

/-- the logging system of a new process: the root logger has level `WARNING` -/
def fresh : LogState := ⟨fun n => if n = [] then ⟨30, []⟩ else ⟨0, []⟩, false⟩

/-- change one logger -/
def update (n : LogName) (f : LoggerS → LoggerS) (s : LogState) : LogState :=
  { s with logger := fun n' => if n' = n then f (s.logger n') else s.logger n' }

/-- the logger and its ancestors, up to the root -/
def chain (n : LogName) : List LogName := ((List.range (n.length + 1)).map n.take).reverse

/-- `logger.hasHandlers()` -/
def hasHandlers (s : LogState) (n : LogName) : Bool := (chain n).any (fun a => !(s.logger a).handlers.isEmpty)

/-- `logger.getEffectiveLevel()` -/
def effectiveLevel (s : LogState) (n : LogName) : Nat :=
  ((chain n).map (fun a => (s.logger a).level)).find? (· ≠ 0) |>.getD 0

/-- `logger.isEnabledFor(level)` -/
def isEnabledFor (s : LogState) (n : LogName) (level : Nat) : Bool := effectiveLevel s n ≤ level

/-- `logger.log(level, …)`: the handlers that get the record (`Logger.callHandlers`) -/
def emit (s : LogState) (n : LogName) (level : Nat) : List Handler :=
  if isEnabledFor s n level then (chain n).flatMap (fun a => (s.logger a).handlers) else []

/-- the log directory; `log_manager.py` 47-48 -/
def ensureDir (E : LogEnv) : Py LogState Unit := fun s =>
  if s.dirExists then (.ok (), s)
  else if E.mkdirOk then (.ok (), { s with dirExists := true })
  else (.error .osError, s)

/-- `logger.setLevel(level)` -/
def setLogLevel (n : LogName) (l : LogLevel) : Py LogState Unit :=
  Py.modify (update n (fun g => { g with level := l.value }))

/-- the file handler; `log_manager.py` 53-58 -/
def ensureHandler (E : LogEnv) (n : LogName) : Py LogState Unit := fun s =>
  if hasHandlers s n then (.ok (), s)
  else if E.openOk then (.ok (), update n (fun g => { g with handlers := g.handlers ++ [.pyzeal E.fileName] }) s)
  else (.error .osError, s)

/-- `LogManager.initLogger`; `log_manager.py` 36-60 -/
def initLogger (E : LogEnv) (n : LogName) (l : LogLevel) : Py LogState Unit := do
  ensureDir E
  setLogLevel n l
  ensureHandler E n

/-! ## Objects with a logger -/

/-- The program: the logging system, which objects have got their attribute `_logger`, and the log level of the
settings service. -/
structure LogWorld where
  logs : LogState
  hasLogger : Nat → Bool
  settings : LogLevel

/-- an operation of the logging system -/
def onLogs (m : Py LogState Unit) : Py LogWorld Unit := fun w =>
  let r := m w.logs
  (r.1, { w with logs := r.2 })

/-- assignment to `self._logger` -/
def markLogger (o : Nat) : Py LogWorld Unit :=
  Py.modify (fun w => { w with hasLogger := fun o' => if o' = o then true else w.hasLogger o' })

/-- the property `Loggable.logger`; `loggable.py` 25-38.  `nameOf o` is the last part of the name of the module
of the object's class. -/
def getLogger (E : LogEnv) (nameOf : Nat → String) (o : Nat) : Py LogWorld Unit := do
  let w ← Py.get
  if w.hasLogger o then pure ()
  else do
    onLogs (initLogger E [nameOf o] w.settings)
    markLogger o

/-- `Loggable.setLevel`; `loggable.py` 40-46 -/
def setLevel (E : LogEnv) (nameOf : Nat → String) (o : Nat) (l : LogLevel) : Py LogWorld Unit := do
  getLogger E nameOf o
  onLogs (setLogLevel [nameOf o] l)

/-- `RootFinder.setLevel`; `rootfinder.py` 192-201.  The arguments are the finder, its container and its
algorithm. -/
def finderSetLevel (E : LogEnv) (nameOf : Nat → String) (finder container algorithm : Nat) (l : LogLevel) :
    Py LogWorld Unit := do
  setLevel E nameOf finder l
  setLevel E nameOf container l
  setLevel E nameOf algorithm l

/-- what programs do -/
inductive LogOp
  /-- `LogManager.initLogger` -/
  | init (n : LogName) (l : LogLevel)
  /-- first or later use of an object's logger -/
  | use (o : Nat)
  | setLevel (o : Nat) (l : LogLevel)
  /-- the default log level is changed -/
  | settings (l : LogLevel)
  /-- the user adds a handler of his own -/
  | addHandler (n : LogName) (id : Nat)
  /-- the user removes all handlers of a logger -/
  | clear (n : LogName)

/-- perform it -/
def LogOp.perform (E : LogEnv) (nameOf : Nat → String) : LogOp → Py LogWorld Unit
  | .init n l => onLogs (initLogger E n l)
  | .use o => getLogger E nameOf o
  | .setLevel o l => Logging.setLevel E nameOf o l
  | .settings l => Py.modify (fun w => { w with settings := l })
  | .addHandler n id => onLogs (Py.modify (update n (fun g => { g with handlers := g.handlers ++ [.user id] })))
  | .clear n => onLogs (Py.modify (update n (fun g => { g with handlers := [] })))

/-- a history (exceptions are caught by the caller) -/
def runLog (E : LogEnv) (nameOf : Nat → String) : List LogOp → LogWorld → LogWorld
  | [], w => w
  | o :: os, w => runLog E nameOf os (o.perform E nameOf w).2

/-! ## File names -/

/-- `str(n)` -/
def natStr (n : Nat) : List Char := Nat.toDigits 10 n

/-- `s.zfill(2)` for a string of digits -/
def zfill2 (s : List Char) : List Char := List.replicate (2 - s.length) '0' ++ s

/-- `LogManager.buildFileName`; `log_manager.py` 62-76 -/
def buildFileName (d : DateTime) : List Char :=
  "pyzeal_".toList ++ (zfill2 (natStr d.day) ++ zfill2 (natStr d.month) ++ (natStr d.year ++ zfill2 (natStr d.hour)) ++
    (zfill2 (natStr d.minute) ++ zfill2 (natStr d.second))) ++ ".log".toList

end Logging
end PyZeal
