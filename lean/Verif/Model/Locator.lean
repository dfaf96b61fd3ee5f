import Verif.Core.Py
import Verif.Core.Dict

/-!
# Model of `ServiceLocator`

`pyzeal/utils/service_locator.py`.  The three class attributes are the state.  Types,
objects and factories are opaque: what the code asks of them (`isinstance`,
`inspect.signature`, calling a factory) is collected in `Env`.  A factory may read and
change the locator itself as well as the rest of the program state `W`.
-/

namespace PyZeal

/-- The class attributes of `ServiceLocator`; `service_locator.py` 26-30. -/
structure Locator (T V F : Type) where
  transient : Dict T F
  singleton : Dict T V
  sealed : Bool

/-- Program state: the locator and everything else. -/
structure LState (T V F W : Type) where
  loc : Locator T V F
  world : W

/-- A parameter of a factory as seen by `inspect.signature` (`service_locator.py` 101-115):
its name, its default value (`none` is `Parameter.empty`) and its annotation, `none` being an
annotation which `isinstance` does not accept as second argument (for example a string, which
is what `from __future__ import annotations` produces).  A missing annotation is the class
`inspect._empty`, an ordinary element of `T`. -/
structure Param (T V : Type) where
  name : String
  default : Option V
  annotation : Option T

/-- The part of Python the locator relies on.  Simplification: `inspect.signature` succeeds on
every factory, and `isinstance` has no side effects. -/
structure LEnv (T V F W : Type) where
  /-- `isinstance(v, t)` -/
  isInst : V → T → Bool
  /-- the object `None` -/
  none : V
  /-- `signature(factory).parameters` -/
  sig : F → List (Param T V)
  /-- `factory(**arguments)` -/
  call : F → List (String × V) → Py (LState T V F W) V

namespace Locator
variable {T V F W : Type} [DecidableEq T]

/-- change the locator part of the state -/
def update (g : Locator T V F → Locator T V F) (s : LState T V F W) : LState T V F W :=
  ⟨g s.loc, s.world⟩

/-- the locator as it is when the module is imported; `service_locator.py` 26-30 -/
def empty : Locator T V F := ⟨[], [], false⟩

/-- `ServiceLocator.registerAsSingleton`; `service_locator.py` 48-55.  The return value (the class
itself, for chaining) is dropped. -/
def registerAsSingleton (E : LEnv T V F W) (t : T) (v : V) : Py (LState T V F W) Unit := do
  let s ← Py.get
  if s.loc.sealed then Py.throw .valueError
  else if E.isInst v t then
    Py.modify (update fun l => { l with singleton := l.singleton.set t v })
  else Py.throw .invalidService

/-- `ServiceLocator.registerAsTransient`; `service_locator.py` 72-77.  `factory` is a callable
(registering `None` is not modelled). -/
def registerAsTransient (t : T) (f : F) : Py (LState T V F W) Unit := do
  let s ← Py.get
  if s.loc.sealed then Py.throw .valueError
  else Py.modify (update fun l => { l with transient := l.transient.set t f })

/-- the value given to one parameter; `service_locator.py` 107-115.  `resolve` is the recursive
call `ServiceLocator.tryResolve(annotation)`. -/
def supply (resolve : T → Py (LState T V F W) V) (kw : Dict String V) (p : Param T V) :
    Py (LState T V F W) V :=
  match kw.get? p.name with
  | some v => pure v
  | none => match p.default with
    | some v => pure v
    | none => match p.annotation with
      | none => Py.throw .typeError
      | some t => resolve t

/-- the loop over the parameters; `service_locator.py` 106-115 -/
def collect (resolve : T → Py (LState T V F W) V) (kw : Dict String V) :
    List (Param T V) → Py (LState T V F W) (List (String × V))
  | [] => pure []
  | p :: ps => do
    let v ← supply resolve kw p
    let rest ← collect resolve kw ps
    pure ((p.name, v) :: rest)

/-- the final type check; `service_locator.py` 117-121 -/
def checked (E : LEnv T V F W) (t : T) (v : V) : Py (LState T V F W) V :=
  if E.isInst v t then pure v else Py.throw .invalidService

/-- what `tryResolve` finds in the dictionary of singletons (`None` if nothing);
`service_locator.py` 93 -/
def found (E : LEnv T V F W) (l : Locator T V F) (t : T) : V :=
  (l.singleton.get? t).getD E.none

/-- `ServiceLocator.tryResolve`; `service_locator.py` 92-121.  The first argument is the number of
frames left before the interpreter raises `RecursionError`. -/
def tryResolve (E : LEnv T V F W) : Nat → T → Dict String V → Py (LState T V F W) V
  | 0, _, _ => Py.throw .recursionError
  | n + 1, t, kw => do
    let s ← Py.get
    if E.isInst (found E s.loc t) t then pure (found E s.loc t)
    else match s.loc.transient.get? t with
      | none => Py.throw .invalidService
      | some f => do
        let args ← collect (fun t' => tryResolve E n t' []) kw (E.sig f)
        let v ← E.call f args
        checked E t v

/-- `ServiceLocator.seal`; `service_locator.py` 132-134 -/
def sealLocator : Py (LState T V F W) Unit := do
  let s ← Py.get
  if s.loc.sealed then Py.throw .valueError
  else Py.modify (update fun l => { l with sealed := true })

/-- `ServiceLocator.isSealed`; `service_locator.py` 143 -/
def isSealed : Py (LState T V F W) Bool := do
  let s ← Py.get
  pure s.loc.sealed

/-- `ServiceLocator.clearConfigurations`; `service_locator.py` 151-153 -/
def clearConfigurations : Py (LState T V F W) Unit :=
  Py.modify (update fun _ => empty)

end Locator
end PyZeal
