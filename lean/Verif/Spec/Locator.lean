import Verif.Model.Locator

/-!
# Specification of the service locator

Histories of calls with their outcomes, and what "the argument supplied to a parameter"
means, without the locator's own dictionaries or loops.
-/

namespace PyZeal.Spec
variable {T V F W : Type} [DecidableEq T]

/-- The calls of the public interface. -/
inductive LOp (T V F : Type)
  | singleton (t : T) (v : V)
  | transient (t : T) (f : F)
  | resolve (t : T) (kw : Dict String V)
  | sealing
  | isSealed
  | clear

/-- a call fails (raises) or returns: an object if it was a resolution -/
abbrev Outcome (V : Type) := Except Err (Option V)

/-- forget what was returned -/
def answer {α : Type} (f : α → Option V) : Except Err α → Outcome V
  | .ok a => .ok (f a)
  | .error e => .error e

/-- One call: its outcome and the state after it.  `n` is the recursion limit. -/
def step (E : LEnv T V F W) (n : Nat) (s : LState T V F W) :
    LOp T V F → Outcome V × LState T V F W
  | .singleton t v => let r := Locator.registerAsSingleton E t v s; (answer (fun _ => none) r.1, r.2)
  | .transient t f => let r := Locator.registerAsTransient t f s; (answer (fun _ => none) r.1, r.2)
  | .resolve t kw => let r := Locator.tryResolve E n t kw s; (answer some r.1, r.2)
  | .sealing => let r := Locator.sealLocator s; (answer (fun _ => none) r.1, r.2)
  | .isSealed => let r := Locator.isSealed s; (answer (fun _ => none) r.1, r.2)
  | .clear => let r := Locator.clearConfigurations s; (answer (fun _ => none) r.1, r.2)

/-- A history: calls made one after the other by a program that catches all exceptions, each with
its outcome. -/
def events (E : LEnv T V F W) (n : Nat) : LState T V F W → List (LOp T V F) → List (LOp T V F × Outcome V)
  | _, [] => []
  | s, op :: ops => (op, (step E n s op).1) :: events E n (step E n s op).2 ops

/-- the state after a history -/
def final (E : LEnv T V F W) (n : Nat) : LState T V F W → List (LOp T V F) → LState T V F W
  | s, [] => s
  | s, op :: ops => final E n (step E n s op).2 ops

/-- the call returned -/
def Outcome.isOk : Outcome V → Bool
  | .ok _ => true
  | .error _ => false

/-- Factories that do not themselves register, seal or clear. -/
def FactoriesKeep (E : LEnv T V F W) : Prop :=
  ∀ f args s, (E.call f args s).2.loc = s.loc

/-- Factories that do not change a *sealed* locator (for example because they never call
`clearConfigurations`). -/
def FactoriesRespectSeal (E : LEnv T V F W) : Prop :=
  ∀ f args s, s.loc.sealed = true → (E.call f args s).2.loc = s.loc

/-- `e` is a successful singleton registration for `t` -/
def singletonFor (t : T) (e : LOp T V F × Outcome V) : Prop :=
  ∃ v, e.1 = .singleton t v ∧ e.2.isOk = true

/-- `e` is a successful transient registration for `t` -/
def transientFor (t : T) (e : LOp T V F × Outcome V) : Prop :=
  ∃ f, e.1 = .transient t f ∧ e.2.isOk = true

/-- no `clearConfigurations` among these calls -/
def NoClear (log : List (LOp T V F × Outcome V)) : Prop := ∀ e ∈ log, e.1 ≠ .clear

/-- what happened since the last `clearConfigurations`, or since the start -/
def SinceClear (log recent : List (LOp T V F × Outcome V)) : Prop :=
  NoClear recent ∧ (log = recent ∨ ∃ old o, log = old ++ (.clear, o) :: recent)

/-- `v` is registered as singleton for `t`: by the last successful such registration since the last
clear. -/
def InForceSingleton (log : List (LOp T V F × Outcome V)) (t : T) (v : V) : Prop :=
  ∃ recent pre post o, SinceClear log recent ∧ recent = pre ++ (.singleton t v, o) :: post ∧
    o.isOk = true ∧ ∀ e ∈ post, ¬ singletonFor t e

/-- `f` is registered as factory for `t` -/
def InForceTransient (log : List (LOp T V F × Outcome V)) (t : T) (f : F) : Prop :=
  ∃ recent pre post o, SinceClear log recent ∧ recent = pre ++ (.transient t f, o) :: post ∧
    o.isOk = true ∧ ∀ e ∈ post, ¬ transientFor t e

/-- nothing is registered as singleton for `t` -/
def NoSingleton (log : List (LOp T V F × Outcome V)) (t : T) : Prop :=
  ∃ recent, SinceClear log recent ∧ ∀ e ∈ recent, ¬ singletonFor t e

/-- no factory is registered for `t` -/
def NoTransient (log : List (LOp T V F × Outcome V)) (t : T) : Prop :=
  ∃ recent, SinceClear log recent ∧ ∀ e ∈ recent, ¬ transientFor t e

/-- `v` is the argument a factory parameter `p` receives, and `s'` the state afterwards: the keyword
argument of that name; else the default; else the service resolved for the annotation. -/
inductive Supplied (E : LEnv T V F W) (kw : Dict String V) (resolves : LState T V F W → T → V → LState T V F W → Prop) :
    LState T V F W → Param T V → V → LState T V F W → Prop
  | kwarg {s p v} (h : (p.name, v) ∈ kw) : Supplied E kw resolves s p v s
  | default {s p v} (hk : ∀ v', (p.name, v') ∉ kw) (h : p.default = some v) : Supplied E kw resolves s p v s
  | service {s p v t s'} (hk : ∀ v', (p.name, v') ∉ kw) (hd : p.default = none)
      (ha : p.annotation = some t) (h : resolves s t v s') : Supplied E kw resolves s p v s'

/-- `args` are the arguments of all parameters, in order -/
inductive SuppliedAll (E : LEnv T V F W) (kw : Dict String V)
    (resolves : LState T V F W → T → V → LState T V F W → Prop) :
    LState T V F W → List (Param T V) → List (String × V) → LState T V F W → Prop
  | nil {s} : SuppliedAll E kw resolves s [] [] s
  | cons {s p v s1 ps args s2} (h : Supplied E kw resolves s p v s1)
      (hs : SuppliedAll E kw resolves s1 ps args s2) :
      SuppliedAll E kw resolves s (p :: ps) ((p.name, v) :: args) s2

/-- In the state `s`, resolving `t` requires resolving `t'`: `t` has no singleton, and its factory
has a parameter without default annotated with `t'`. -/
def Requires (E : LEnv T V F W) (l : Locator T V F) (t t' : T) : Prop :=
  (∀ v, l.singleton.get? t = some v → E.isInst v t = false) ∧
  ∃ f p, l.transient.get? t = some f ∧ p ∈ E.sig f ∧ p.default = none ∧ p.annotation = some t'

end PyZeal.Spec
