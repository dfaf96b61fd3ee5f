import Verif.Spec.Rounding
import Verif.Model.Container
import Verif.Model.SharedQueue
import Mathlib.Data.Set.Basic

/-! # Specification of the containers

Only the call alphabet (`ROp`, `POp`) and the plain data types are shared with the model. -/

namespace PyZeal.Spec
variable {K : Type} [Field K] [LinearOrder K]

/-- Abstract rounding container: a mathematical set of (root, order) pairs, the precision it
was filled with, and the filter in force for each key. -/
structure SetState (K : Type) where
  contents : Set (Root K)
  precision : ℤ × ℤ
  filters : String → Option (Filter K)

/-- What each call is supposed to do to the abstract container, and what it returns. -/
inductive SetStep : SetState K → ROp K → SetState K → Option Bool → Prop
  | addRejected (s : SetState K) (r : Root K) (ctx : FilterCtx K) (info : Bool)
      (key : String) (p : Filter K) (hk : s.filters key = some p) (hp : p r ctx = false) :
      SetStep s (.add r ctx info) s none
  | addAccepted (s : SetState K) (r : Root K) (ctx : FilterCtx K) (info : Bool) (w : Cx K)
      (hall : ∀ key p, s.filters key = some p → p r ctx = true)
      (hw : RoundsTo ctx.precision r.1 w) :
      SetStep s (.add r ctx info)
        { contents := {x | x = (w, r.2) ∨ (ctx.precision = s.precision ∧ x ∈ s.contents)}
          precision := ctx.precision
          filters := s.filters } none
  | removeHeld (s : SetState K) (r : Root K) (w : Cx K) (hw : RoundsTo s.precision r.1 w)
      (hin : (w, r.2) ∈ s.contents) :
      SetStep s (.remove r)
        { s with contents := {x | x ∈ s.contents ∧ x ≠ (w, r.2)} } (some true)
  | removeAbsent (s : SetState K) (r : Root K) (w : Cx K) (hw : RoundsTo s.precision r.1 w)
      (hin : (w, r.2) ∉ s.contents) :
      SetStep s (.remove r) s (some false)
  | clear (s : SetState K) : SetStep s .clear { s with contents := ∅ } none
  | register (s : SetState K) (key : String) (p : Filter K) :
      SetStep s (.register key p)
        { s with filters := fun k => if k = key then some p else s.filters k } none
  | unregister (s : SetState K) (key : String) :
      SetStep s (.unregister key)
        { s with filters := fun k => if k = key then none else s.filters k } none

/-- A whole history on the abstract container with the list of return values. -/
inductive SetRun : SetState K → List (ROp K) → SetState K → List (Option Bool) → Prop
  | nil (s : SetState K) : SetRun s [] s []
  | cons {s s' s'' : SetState K} {op : ROp K} {ops : List (ROp K)} {o : Option Bool}
      {os : List (Option Bool)} :
      SetStep s op s' o → SetRun s' ops s'' os → SetRun s (op :: ops) s'' (o :: os)

/-- The new abstract container. -/
def SetState.new (p : ℤ × ℤ) : SetState K :=
  { contents := ∅, precision := p, filters := fun _ => none }

/-- the call (un)registers a filter under `key` -/
def Touches (key : String) : ROp K → Prop
  | .register k _ => k = key
  | .unregister k => k = key
  | _ => False

/-- After the calls `ops`, the filter `p` registered under `key` is in force: it was registered at
some point and `key` was not touched since. -/
def InForce (ops : List (ROp K)) (key : String) (p : Filter K) : Prop :=
  ∃ pre post, ops = pre ++ ROp.register key p :: post ∧ ∀ op ∈ post, ¬ Touches key op

/-- two calls which differ at most in the log level in force -/
inductive SameCall : ROp K → ROp K → Prop
  | add (r : Root K) (ctx : FilterCtx K) (i j : Bool) : SameCall (.add r ctx i) (.add r ctx j)
  | same (op : ROp K) : SameCall op op

/-- The roots added by a history of calls on a plain container, in order. -/
def added : List (POp K) → List (Root K)
  | [] => []
  | .add r _ :: ops => r :: added ops
  | _ :: ops => added ops

/-- the entries put by a schedule, in order -/
def putsOf {n : ℕ} : List (SharedOp K n) → List (ℕ × Root K)
  | [] => []
  | .put p r :: ops => (p, r) :: putsOf ops
  | _ :: ops => putsOf ops

end PyZeal.Spec
