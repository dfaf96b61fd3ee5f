import Verif.Model.Container

/-! # Rounding containers whose filters may raise

`pyzeal/utils/containers/rounding_container.py` with user filters as they are in Python: they may raise, and they may
change the state of the user's program (`τ`). `Model/Container.lean` has total, pure filters. -/

namespace PyZeal
variable {K τ : Type}

/-- `tRootFilter` (utils/filter_context.py 30-31): user code, which may change the user's state and raise -/
abbrev FilterE (τ K : Type) := Root K → FilterCtx K → Py τ Bool

/-- The mutable state of a `RoundingContainer` (rounding_container.py 34-47), see `RContainer`. -/
structure EContainer (τ K : Type) where
  precision : ℤ × ℤ
  rootSet : List (Root K)
  filters : Dict String (FilterE τ K)

/-- The filter loop of `addRoot` (rounding_container.py 59-66): `False` is returned early; an exception leaves the loop. -/
def filterLoop (root : Root K) (ctx : FilterCtx K) : Dict String (FilterE τ K) → Py τ Bool
  | [] => fun t => (.ok true, t)
  | e :: es => fun t =>
    match e.2 root ctx t with
    | (.ok true, t') => filterLoop root ctx es t'
    | (.ok false, t') => (.ok false, t')
    | (.error err, t') => (.error err, t')

section
variable [Field K] [LinearOrder K] [IsStrictOrderedRing K] [FloorRing K]

/-- `addRoot` after the filter loop (rounding_container.py 67-87) -/
def EContainer.store (info : Bool) (c : EContainer τ K) (root : Root K) (ctx : FilterCtx K) : EContainer τ K :=
  let c := if ctx.precision ≠ c.precision then { c with rootSet := [], precision := ctx.precision } else c
  let rounded := roundRoot root c.precision
  if info = true ∧ rounded ∈ c.rootSet then c
  else { c with rootSet := setAdd c.rootSet rounded }

/-- `RoundingContainer.addRoot` (rounding_container.py 50-87); the state is the user's and the container's. -/
def EContainer.addRoot (info : Bool) (root : Root K) (ctx : FilterCtx K) : Py (τ × EContainer τ K) Unit := fun s =>
  match filterLoop root ctx s.2.filters s.1 with
  | (.ok true, t) => (.ok (), (t, s.2.store info root ctx))
  | (.ok false, t) => (.ok (), (t, s.2))
  | (.error e, t) => (.error e, (t, s.2))

/-- `RoundingContainer.removeRoot` (rounding_container.py 89-112) -/
def EContainer.removeRoot (c : EContainer τ K) (root : Root K) : Bool × EContainer τ K :=
  let rounded := roundRoot root c.precision
  if rounded ∈ c.rootSet then (true, { c with rootSet := c.rootSet.erase rounded }) else (false, c)

/-- The mutating calls, see `ROp`. -/
inductive ErrOp (τ K : Type)
  | add (root : Root K) (ctx : FilterCtx K) (info : Bool)
  | remove (root : Root K)
  | clear
  | register (key : String) (p : FilterE τ K)
  | unregister (key : String)

/-- one call whose exception, if any, is caught by the caller -/
def EContainer.step (s : τ × EContainer τ K) : ErrOp τ K → Except Err Unit × (τ × EContainer τ K)
  | .add r ctx info => EContainer.addRoot info r ctx s
  | .remove r => (.ok (), (s.1, (s.2.removeRoot r).2))
  | .clear => (.ok (), (s.1, { s.2 with rootSet := [] }))
  | .register key p => (.ok (), (s.1, { s.2 with filters := s.2.filters.set key p }))
  | .unregister key => (.ok (), (s.1, { s.2 with filters := s.2.filters.erase key }))

/-- a history of calls -/
def EContainer.run (s : τ × EContainer τ K) (ops : List (ErrOp τ K)) : τ × EContainer τ K :=
  ops.foldl (fun s op => (EContainer.step s op).2) s

/-- The transfer loop of `ParallelRootFinder.calculateRoots` (parallel_finder.py 161-168): roots are taken from the queue and
added; an exception ends the loop (and the call). The queue which is left is dropped with the call. -/
def EContainer.transfer (info : Bool) (ctx : FilterCtx K) : List (Root K) → Py (τ × EContainer τ K) Unit
  | [] => fun s => (.ok (), s)
  | q :: queue => fun s =>
    match EContainer.addRoot info q ctx s with
    | (.ok _, s') => EContainer.transfer info ctx queue s'
    | (.error e, s') => (.error e, s')

end
end PyZeal
