import Verif.Model.Logging

/-!
# Specification of logging
-/

namespace PyZeal.Spec
open Logging

/-- the world at the start of a session -/
def LogWorld.start (l : LogLevel) : LogWorld := ⟨Logging.fresh, fun _ => false, l⟩

/-- the operation is about this logger -/
def Concerns (nameOf : Nat → String) (n : LogName) : LogOp → Prop
  | .init n' _ => n' = n
  | .use o => [nameOf o] = n
  | .setLevel o _ => [nameOf o] = n
  | _ => False

/-- the operation is about this object -/
def ConcernsObject (o : Nat) : LogOp → Prop
  | .use o' => o' = o
  | .setLevel o' _ => o' = o
  | _ => False

/-- the operation is explicit about the level of this logger -/
def GivesLevel (nameOf : Nat → String) (n : LogName) (l : LogLevel) : LogOp → Prop
  | .init n' l' => n' = n ∧ l' = l
  | .setLevel o l' => [nameOf o] = n ∧ l' = l
  | _ => False

/-- the operation changes the default level to this -/
def IsSettings : LogOp → Prop
  | .settings _ => True
  | _ => False

/-- handlers attached by PyZEAL -/
def ByPyZeal : Handler → Bool
  | .pyzeal _ => true
  | .user _ => false

/-- only PyZEAL's own loggers, which have no dots in their names, and no handlers of the user -/
def OwnUse : LogOp → Prop
  | .init n _ => ∃ s, n = [s]
  | .use _ => True
  | .setLevel _ _ => True
  | .settings _ => True
  | .addHandler _ _ => False
  | .clear _ => False

/-- a date of the calendar (years as in Python) -/
structure DateOk (d : DateTime) : Prop where
  year : 1 ≤ d.year ∧ d.year ≤ 9999
  month : 1 ≤ d.month ∧ d.month ≤ 12
  day : 1 ≤ d.day ∧ d.day ≤ 31
  hour : d.hour ≤ 23
  minute : d.minute ≤ 59
  second : d.second ≤ 59

end PyZeal.Spec
