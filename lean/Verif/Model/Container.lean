import Verif.Core.Num
import Verif.Core.Dict
import Verif.Core.Py

/-! # Model of the root containers

`pyzeal/utils/containers/rounding_container.py`, `plain_container.py`,
`pyzeal/utils/factories/container_factory.py`, `pyzeal/utils/filter_context.py`. -/

namespace PyZeal
variable {K : Type}

/-- `tRoot` (pyzeal_types/root_types.py 22-24): a complex number and its order. -/
abbrev Root (K : Type) := Cx K × ℤ

/-- `FilterContext` (utils/filter_context.py 16-27). -/
structure FilterCtx (K : Type) where
  f : Cx K → Cx K
  reRan : K × K
  imRan : K × K
  precision : ℤ × ℤ
  threshold : ℤ := 3

/-- `tRootFilter` (utils/filter_context.py 30-31). Simplification: predicates are
total and pure (a user filter that raises is not modelled). -/
abbrev Filter (K : Type) := Root K → FilterCtx K → Bool

/-- The mutable state of a `RoundingContainer` (rounding_container.py 34-47).
`rootSet` lists the elements of the Python set; see `RContainer.getRoots`
for its iteration order. -/
structure RContainer (K : Type) where
  precision : ℤ × ℤ
  rootSet : List (Root K)
  filters : Dict String (Filter K)

/-- `RoundingContainer.__init__` (rounding_container.py 36-48) with an optional
precision and the precision found in the settings; a pair is always truthy. -/
def RContainer.init (precision : Option (ℤ × ℤ)) (settingsPrecision : ℤ × ℤ) : RContainer K :=
  { precision := precision.getD settingsPrecision, rootSet := [], filters := [] }

section
variable [Field K] [LinearOrder K] [IsStrictOrderedRing K] [FloorRing K]

/-- `RoundingContainer.roundRoot` (rounding_container.py 141-151). -/
def roundRoot (root : Root K) (precision : ℤ × ℤ) : Root K :=
  (⟨pyRound root.1.re precision.1, pyRound root.1.im precision.2⟩, root.2)

/-- `set.add` on the list of elements of a Python set. -/
def setAdd [DecidableEq (Root K)] (s : List (Root K)) (r : Root K) : List (Root K) :=
  if r ∈ s then s else s ++ [r]

/-- `RoundingContainer.clear` (rounding_container.py 137-139). -/
def RContainer.clear (c : RContainer K) : RContainer K := { c with rootSet := [] }

/-- The filter loop of `addRoot` (rounding_container.py 59-66): true iff it does not
return early. -/
def RContainer.accepts (c : RContainer K) (root : Root K) (ctx : FilterCtx K) : Bool :=
  c.filters.all fun e => e.2 root ctx

/-- `RoundingContainer.addRoot` (rounding_container.py 50-87). `info` is
`self.logger.isEnabledFor(INFO)`. -/
def RContainer.addRoot (info : Bool) (c : RContainer K) (root : Root K) (ctx : FilterCtx K) :
    RContainer K :=
  if c.accepts root ctx then
    let c := if ctx.precision ≠ c.precision then
        { c.clear with precision := ctx.precision } else c
    let rounded := roundRoot root c.precision
    if info = true ∧ rounded ∈ c.rootSet then c
    else { c with rootSet := setAdd c.rootSet rounded }
  else c

/-- `RoundingContainer.removeRoot` (rounding_container.py 89-112): `set.remove` of the
rounded root, `KeyError` turned into `False`. -/
def RContainer.removeRoot (c : RContainer K) (root : Root K) : Bool × RContainer K :=
  let rounded := roundRoot root c.precision
  if rounded ∈ c.rootSet then (true, { c with rootSet := c.rootSet.erase rounded })
  else (false, c)

/-- `RoundingContainer.registerFilter` (rounding_container.py 153-160). -/
def RContainer.registerFilter (c : RContainer K) (p : Filter K) (key : String) : RContainer K :=
  { c with filters := c.filters.set key p }

/-- `RoundingContainer.unregisterFilter` (rounding_container.py 162-172); the
`KeyError` of an unknown key is swallowed. -/
def RContainer.unregisterFilter (c : RContainer K) (key : String) : RContainer K :=
  { c with filters := c.filters.erase key }

/-- `RoundingContainer.getRoots` (rounding_container.py 114-123) for a given iteration
order `it` of the set (a permutation of `rootSet`; CPython iterates an unmodified set
always in the same order, but which order is unspecified). -/
def RContainer.getRoots (_c : RContainer K) (it : List (Root K)) : List (Cx K) :=
  it.map Prod.fst

/-- `RoundingContainer.getRootOrders` (rounding_container.py 125-135). -/
def RContainer.getRootOrders (_c : RContainer K) (it : List (Root K)) : List ℤ :=
  it.map Prod.snd

/-- The mutating calls on a `RoundingContainer`. Each `add` carries the log level in force. -/
inductive ROp (K : Type)
  | add (root : Root K) (ctx : FilterCtx K) (info : Bool)
  | remove (root : Root K)
  | clear
  | register (key : String) (p : Filter K)
  | unregister (key : String)

/-- One call; the second component is the return value of `removeRoot` (`none` for calls
returning `None`). -/
def RContainer.step (c : RContainer K) : ROp K → RContainer K × Option Bool
  | .add r ctx info => (c.addRoot info r ctx, none)
  | .remove r => ((c.removeRoot r).2, some (c.removeRoot r).1)
  | .clear => (c.clear, none)
  | .register k p => (c.registerFilter p k, none)
  | .unregister k => (c.unregisterFilter k, none)

/-- A history of calls with all return values. -/
def RContainer.run (c : RContainer K) : List (ROp K) → RContainer K × List (Option Bool)
  | [] => (c, [])
  | op :: ops =>
    let (c1, o) := c.step op
    let (c2, os) := c1.run ops
    (c2, o :: os)

/-! ## Predefined filters (container_factory.py) -/

/-- `_func_value_zero` (container_factory.py 36-54). `|w| < e` with `e > 0` is expressed as
`|w|² < e²` (no square roots in `K`). -/
def funcValueZero (threshold : ℤ) : Filter K := fun root ctx =>
  decide ((ctx.f root.1).normSq < (eps10 K threshold) ^ 2)

/-- `_zero_in_bounds` (container_factory.py 56-68). -/
def zeroInBounds : Filter K := fun root ctx =>
  decide ((ctx.reRan.1 ≤ root.1.re ∧ root.1.re ≤ ctx.reRan.2) ∧
    (ctx.imRan.1 ≤ root.1.im ∧ root.1.im ≤ ctx.imRan.2))

/-- `FilterTypes` (pyzeal_types/filter_types.py 14-17). -/
inductive FilterType
  | functionValueZero | zeroInBounds
deriving DecidableEq, Repr

end

/-- A container object of either concrete class (plain containers with their queue
and their internal list). -/
structure PContainer (K : Type) where
  queue : List (Root K)
  roots : List (Root K)

namespace PContainer

/-- `PlainContainer.addRoot` (plain_container.py 47-59): the context is ignored. -/
def addRoot (c : PContainer K) (root : Root K) (_ctx : FilterCtx K) : PContainer K :=
  { c with queue := c.queue ++ [root] }

/-- `PlainContainer._transferRootBuffer` (plain_container.py 89-94): `get` removes the
oldest element; loop until empty. -/
def transfer (c : PContainer K) : PContainer K :=
  go c.queue c.roots
where
  /-- the `while not self.rootBuffer.empty()` loop -/
  go : List (Root K) → List (Root K) → PContainer K
    | [], rs => { queue := [], roots := rs }
    | q :: qs, rs => go qs (rs ++ [q])

/-- `PlainContainer.getRoots` (plain_container.py 70-77). -/
def getRoots (c : PContainer K) : List (Cx K) × PContainer K :=
  let c := c.transfer
  (c.roots.map Prod.fst, c)

/-- `PlainContainer.getRootOrders` (plain_container.py 79-87). -/
def getRootOrders (c : PContainer K) : List ℤ × PContainer K :=
  let c := c.transfer
  (c.roots.map Prod.snd, c)

/-- `PlainContainer.removeRoot` (plain_container.py 61-68). -/
def removeRoot (c : PContainer K) (_root : Root K) : Bool × PContainer K := (false, c)

/-- `PlainContainer.clear` (plain_container.py 96-98). -/
def clear : Py (PContainer K) Unit := Py.throw .notImplementedError
/-- `PlainContainer.registerFilter` (plain_container.py 100-107). -/
def registerFilter (_p : Filter K) (_key : String) : Py (PContainer K) Unit :=
  Py.throw .notImplementedError
/-- `PlainContainer.unregisterFilter` (plain_container.py 109-115). -/
def unregisterFilter (_key : String) : Py (PContainer K) Unit :=
  Py.throw .notImplementedError

end PContainer

/-- Calls on a `PlainContainer`. -/
inductive POp (K : Type)
  | add (root : Root K) (ctx : FilterCtx K)
  | getRoots | getRootOrders
  | remove (root : Root K)
  | clear
  | register (key : String) (p : Filter K)
  | unregister (key : String)

/-- Observable result of a call on a `PlainContainer`. -/
inductive POut (K : Type)
  | none
  | roots (l : List (Cx K))
  | orders (l : List ℤ)
  | bool (b : Bool)
  | raised (e : Err)

/-- turn a `Py` result into an observable output -/
def POut.ofPy (r : Except Err Unit × PContainer K) : POut K × PContainer K :=
  match r with
  | (.ok _, c) => (.none, c)
  | (.error e, c) => (.raised e, c)

/-- One call on a `PlainContainer`. -/
def PContainer.step (c : PContainer K) : POp K → POut K × PContainer K
  | .add r ctx => (.none, c.addRoot r ctx)
  | .getRoots => (.roots c.getRoots.1, c.getRoots.2)
  | .getRootOrders => (.orders c.getRootOrders.1, c.getRootOrders.2)
  | .remove r => (.bool (c.removeRoot r).1, (c.removeRoot r).2)
  | .clear => POut.ofPy (PContainer.clear c)
  | .register k p => POut.ofPy (PContainer.registerFilter p k c)
  | .unregister k => POut.ofPy (PContainer.unregisterFilter k c)

/-- A history of calls on a `PlainContainer`. -/
def PContainer.run (c : PContainer K) : List (POp K) → List (POut K) × PContainer K
  | [] => ([], c)
  | op :: ops =>
    let (o, c1) := c.step op
    let (os, c2) := c1.run ops
    (o :: os, c2)

section
variable [Field K] [LinearOrder K] [IsStrictOrderedRing K] [FloorRing K]

/-- An object satisfying the `RootContainer` protocol (root_container.py 24-86): one of the
two shipped classes. -/
inductive AnyContainer (K : Type)
  | rounding (c : RContainer K)
  | plain (c : PContainer K)

/-- `FilterTypes.value` (pyzeal_types/filter_types.py 14-17): the key under which a predefined filter is
registered. -/
def FilterType.value : FilterType → String
  | .functionValueZero => "[function-value-zero]"
  | .zeroInBounds => "[zero-in-bounds]"

/-- `ContainerFactory.registerPreDefinedFilter` (container_factory.py 113-140). -/
def registerPreDefinedFilter (t : FilterType) (threshold : ℤ := 3) :
    Py (AnyContainer K) Unit := fun c =>
  let predicate : Filter K := match t with
    | .functionValueZero => funcValueZero threshold
    | .zeroInBounds => zeroInBounds
  match c with
  | .rounding r => (.ok (), .rounding (r.registerFilter predicate t.value))
  | .plain p => match PContainer.registerFilter predicate t.value p with
    | (.ok _, p) => (.ok (), .plain p)
    | (.error e, p) => (.error e, .plain p)

/-- `ContainerFactory.registerDefaultFilters` (container_factory.py 152-166). -/
def registerDefaultFilters : Py (AnyContainer K) Unit := fun c =>
  match c with
  | .rounding _ =>
    (do
      registerPreDefinedFilter .functionValueZero
      registerPreDefinedFilter .zeroInBounds : Py (AnyContainer K) Unit) c
  | .plain _ => (.ok (), c)

end
end PyZeal
