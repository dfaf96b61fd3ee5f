import Verif.Model.Estimator

/-! # Specification of the estimator cache -/

namespace PyZeal
variable {K : Type}

/-- Calls on an estimator cache. -/
inductive COp (K : Type)
  | store (order : ℤ) (a b v : Cx K)
  | retrieve (order : ℤ) (a b : Cx K)
  | remove (order : ℤ) (a b : Cx K)
  | reset
  | setDebug (b : Bool)

section
variable [Field K] [DecidableEq K]

/-- what a `retrieve` would return (lookup without counting) -/
def EstCache.look (c : EstCache K) (o : ℤ) (a b : Cx K) : Option (Cx K) :=
  match c.data.get? o with
  | none => none
  | some oc => oc.get? (a, b)

/-- `look` is the return value of `retrieve` -/
theorem EstCache.retrieve_fst (c : EstCache K) (o : ℤ) (a b : Cx K) :
    (c.retrieve o a b).1 = c.look o a b := rfl

/-- One call on an estimator cache with its return value (`none` for calls returning nothing). -/
def EstCache.step (c : EstCache K) : COp K → EstCache K × Option (Option (Cx K))
  | .store o a b v => (c.store o a b v, none)
  | .retrieve o a b => ((c.retrieve o a b).2, some (c.retrieve o a b).1)
  | .remove o a b => (c.remove o a b, none)
  | .reset => (c.reset, none)
  | .setDebug b => ({ c with debug := b }, none)

/-- A history of calls. -/
def EstCache.run (c : EstCache K) : List (COp K) → EstCache K × List (Option (Option (Cx K)))
  | [] => (c, [])
  | op :: ops =>
    let (c1, o) := c.step op
    let (c2, os) := c1.run ops
    (c2, o :: os)
end

namespace Spec

/-- the call overwrites or deletes the entry of this key -/
def Kills (o : ℤ) (a b : Cx K) : COp K → Prop
  | .store o' a' b' _ => o' = o ∧ a' = a ∧ b' = b
  | .remove o' a' b' => o' = o ∧ a' = a ∧ b' = b
  | .reset => True
  | _ => False

/-- `v` is the value stored last under the key, and neither removed nor reset since. -/
def LastStored (ops : List (COp K)) (o : ℤ) (a b v : Cx K) : Prop :=
  ∃ pre post, ops = pre ++ .store o a b v :: post ∧ ∀ op ∈ post, ¬ Kills o a b op

/-- the call is neither `reset` nor a change of the log level -/
def Plain : COp K → Prop
  | .reset => False
  | .setDebug _ => False
  | _ => True

/-- number of `retrieve` calls in a history -/
def retrieves : List (COp K) → ℕ
  | [] => 0
  | .retrieve _ _ _ :: ops => retrieves ops + 1
  | _ :: ops => retrieves ops

end Spec

/-! Histories of calls on an estimator: moments, removals and resets of the shared cache. -/

/-- Calls that reach the shared cache of an estimator. -/
inductive EOp (K : Type)
  | moment (order : ℤ) (reRan imRan : K × K) (ctx : RCtx K)
  | remove (order : ℤ) (a b : Cx K)
  | reset

/-- Effect of a history (exceptions of single calls are caught by the caller). -/
def runEOps {σ : Type} [Field K] [DecidableEq K] (est : LineEst σ K) (w : World σ K) :
    List (EOp K) → World σ K
  | [] => w
  | .moment o re im ctx :: ops => runEOps est (calcMoment est o re im ctx w).2 ops
  | .remove o a b :: ops => runEOps est { w with cache := w.cache.remove o a b } ops
  | .reset :: ops => runEOps est { w with cache := w.cache.reset } ops

end PyZeal
