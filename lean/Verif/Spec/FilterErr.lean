import Verif.Model.FilterErr

/-! # Specification vocabulary for filters which may raise -/

namespace PyZeal.Spec
variable {K τ : Type}

/-- `Consults root ctx fs t out t'`: asking the filters `fs` about `root`, one after the other from the user's state `t`, ends in
the user's state `t'` with the verdict `out`: all agree; or all before one agree and this one disagrees or raises, and the
later ones are not asked. -/
inductive Consults (root : Root K) (ctx : FilterCtx K) : Dict String (FilterE τ K) → τ → Except Err Bool → τ → Prop
  | agreed (t) : Consults root ctx [] t (.ok true) t
  | refuses (key p fs t t') (h : p root ctx t = (.ok false, t')) : Consults root ctx ((key, p) :: fs) t (.ok false) t'
  | raises (key p fs t t' e) (h : p root ctx t = (.error e, t')) : Consults root ctx ((key, p) :: fs) t (.error e) t'
  | next (key p fs t t1 out t') (h : p root ctx t = (.ok true, t1)) (hn : Consults root ctx fs t1 out t') :
      Consults root ctx ((key, p) :: fs) t out t'

/-- a total, pure filter, as one which might raise -/
def liftFilter (p : Filter K) : FilterE τ K := fun r ctx t => (.ok (p r ctx), t)

/-- a container with total, pure filters, as one whose filters might raise -/
def liftContainer (c : RContainer K) : EContainer τ K :=
  ⟨c.precision, c.rootSet, c.filters.map fun e => (e.1, liftFilter e.2)⟩

end PyZeal.Spec
