import Verif.Model.Wiring
import Verif.Spec.Locator

/-!
# Specification: what a finder is made of

What it means that the locator delivers an object for a service, and what the services of the package deliver.
-/

namespace PyZeal.Spec
open Wiring
variable {α W : Type}

/-- The object `o` is what the locator delivers for the service `t` with the keyword arguments `kw` in state `s`, nested calls of factories
being bounded by `n`: the instance registered as singleton, or else what the registered factory returned when it was called; each parameter of
the factory received the keyword argument of that name, else its default, else the service its annotation names. -/
inductive Delivered (E : Env α W) (n : Nat) (s : State α W) (t : Svc) (kw : Dict String (Obj α)) (o : Obj α) (s' : State α W) : Prop
  | singleton (h : s.loc.singleton.get? t = some o) (hs : s' = s)
  | factory (f : Fac) (args : List (String × Obj α)) (s1 : State α W)
      (hf : s.loc.transient.get? t = some f)
      (hargs : SuppliedAll (env E n) kw (fun s t v s' => Locator.tryResolve (env E n) n t [] s = (.ok v, s')) s (sig E f) args s1)
      (hcall : call E n f args s1 = (.ok o, s'))

/-- `isinstance(obj, serviceType)`: the classes of the package are derived from one service type each; what an object from elsewhere is an
instance of is part of it; numbers, enum members and the like are instances of none. -/
inductive IsA : Obj α → Svc → Prop
  | settings (d) : IsA (.settings d) .settings
  | newtonGrid (n) : IsA (.newtonGrid n) .algorithm
  | argument (k e) : IsA (.argument k e) .algorithm
  | container (c) : IsA (.container c) .container
  | estimator (e) : IsA (.estimator e) .estimator
  | foreign (n) {ts : List Svc} {t : Svc} (h : t ∈ ts) : IsA (.foreign n ts) t

/-- The object is a settings service with these attributes: one of the package, or one from elsewhere. -/
inductive HasAttributes (E : Env α W) : Obj α → Defaults → Prop
  | settings (d) : HasAttributes E (.settings d) d
  | foreign (n ts) {d : Defaults} (h : E.attributes n = .ok d) : HasAttributes E (.foreign n ts) d

/-- factories from outside the package do not register services -/
def ForeignKeep (E : Env α W) : Prop := ∀ k args s, (E.foreignCall k args s).2.loc = s.loc

/-- The settings service in force, in every state satisfying `P`, has the attributes `d`, loggers can be set up, and this leads to states
satisfying `P` again. -/
structure SettingsSay (E : Env α W) (P : State α W → Prop) (d : Defaults) : Prop where
  settings : ∀ n kw s, P s → ∃ o s', resolve E (n + 1) .settings kw s = (.ok o, s') ∧ P s' ∧ HasAttributes E o d ∧
    ∃ s'', outside (E.initLogger o) s' = (.ok (), s'') ∧ P s''
  marks : ∀ c s, P s → P (markLogger c s).2

/-- The service `t` is provided by the factory `f` in all states satisfying `P`. -/
def ProvidedBy (P : State α W → Prop) (t : Svc) (f : Fac) : Prop :=
  ∀ s, P s → s.loc.singleton.get? t = none ∧ s.loc.transient.get? t = some f

/-- the estimators of the package (`DEFAULT` does not occur) -/
def stockEstimator (c : Factory.Constants α) : EstimatorTypes → Obj α
  | .SUMMATION_ESTIMATOR => .estimator (.summation 6500 c.deltaPhi c.maxPrecision)
  | .QUADRATURE_ESTIMATOR => .estimator .quadrature
  | .DEFAULT => .none

/-- the algorithms of the package with the given estimator; 50 grid points if no number (or 0) is given -/
def stockAlgorithm (e : Obj α) (k : Option Int) : AlgorithmTypes → Obj α
  | .NEWTON_GRID => .newtonGrid (if k.getD 0 = 0 then 50 else k.getD 0)
  | .SIMPLE_ARGUMENT => .argument .simple e
  | .SIMPLE_ARGUMENT_NEWTON => .argument .newton e
  | .ASSOCIATED_POLYNOMIAL => .argument .polynomial e
  | .DEFAULT => .none

/-- the containers of the package -/
def stockContainer (p : Int × Int) : ContainerTypes → Obj α
  | .ROUNDING_CONTAINER => .container (.rounding p)
  | .PLAIN_CONTAINER => .container (.plain none)
  | .DEFAULT => .none

end PyZeal.Spec
