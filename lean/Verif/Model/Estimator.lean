import Verif.Model.Container

/-! # Model of the estimator cache, the search context and the abstract argument estimator

`pyzeal/algorithms/estimators/estimator_cache.py`, `argument_estimator.py`,
`pyzeal/utils/root_context.py`. -/

namespace PyZeal
variable {K : Type}

/-! ## Estimator cache -/

/-- `EstimatorCache` (estimator_cache.py 21-31): nested dictionaries `order ↦ (line ↦ value)` and the
two counters. `debug` is `self.logger.isEnabledFor(DEBUG)`. -/
structure EstCache (K : Type) where
  data : Dict ℤ (Dict (Cx K × Cx K) (Cx K))
  hits : ℕ
  misses : ℕ
  debug : Bool

/-- `EstimatorCache.__init__` (estimator_cache.py 23-31). -/
def EstCache.init (debug : Bool) : EstCache K := { data := [], hits := 0, misses := 0, debug }

section
variable [DecidableEq K]

/-- `EstimatorCache.store` (estimator_cache.py 33-58). -/
def EstCache.store (c : EstCache K) (order : ℤ) (a b : Cx K) (v : Cx K) : EstCache K :=
  match c.data.get? order with
  | none => { c with data := c.data.set order [((a, b), v)] }
  | some oc => { c with data := c.data.set order (oc.set (a, b) v) }

/-- `EstimatorCache.retrieve` (estimator_cache.py 60-89): the value (or `None`) and the
updated counters; a value equal to zero is falsy. -/
def EstCache.retrieve [Field K] (c : EstCache K) (order : ℤ) (a b : Cx K) :
    Option (Cx K) × EstCache K :=
  let value := match c.data.get? order with
    | none => none
    | some oc => oc.get? (a, b)
  let truthy := match value with
    | none => false
    | some v => decide (v ≠ 0)
  let c := if c.debug then
      { c with hits := c.hits + (if truthy then 1 else 0)
               misses := c.misses + (if truthy then 0 else 1) }
    else c
  (value, c)

/-- `EstimatorCache.remove` (estimator_cache.py 91-111). -/
def EstCache.remove (c : EstCache K) (order : ℤ) (a b : Cx K) : EstCache K :=
  match c.data.get? order with
  | none => c
  | some oc => { c with data := c.data.set order (oc.erase (a, b)) }

/-- `EstimatorCache.dirty` (estimator_cache.py 113-119). -/
def EstCache.dirty (c : EstCache K) : Bool := decide (0 < c.data.length)

/-- `EstimatorCache.reset` (estimator_cache.py 121-128). -/
def EstCache.reset (c : EstCache K) : EstCache K := { c with data := [], hits := 0, misses := 0 }

end

/-! ## Search context -/

/-- `RootContext` (root_context.py 21-35) without the container, which is represented by the sequence
of `addRoot` calls it receives (`World.added`). `progress` tells whether both
`progress` and `task` are given. -/
structure RCtx (K : Type) where
  f : Cx K → Cx K
  df : Option (Cx K → Cx K)
  precision : ℤ × ℤ
  reRan : K × K
  imRan : K × K
  progress : Bool := false

/-- `RootContext.toFilterContext` (root_context.py 37-45). -/
def RCtx.toFilter (c : RCtx K) : FilterCtx K :=
  { f := c.f, reRan := c.reRan, imRan := c.imRan, precision := c.precision }

/-- A rectangle together with the phase (order 0 moment) the estimator reported for it. -/
structure Cell (K : Type) where
  re : K × K
  im : K × K
  phi : K
deriving DecidableEq

/-- The mutable state of a running search. `est` is the internal state of the estimator, `added` the
`addRoot` calls received by the container so far, `advances` the progress updates. `fuse` models
KeyboardInterrupt: `some n` means that the interrupt arrives when `n` more effects
(additions, progress updates, line evaluations) have happened. `log` records the order 0 phases
reported to the algorithm (the code writes them to the debug log). -/
structure World (σ K : Type) where
  cache : EstCache K
  est : σ
  added : List (Root K)
  advances : List K
  fuse : Option ℕ
  log : List (Cell K)

namespace World
variable {σ : Type}

/-- a point at which a pending KeyboardInterrupt is raised -/
def tick : Py (World σ K) Unit := fun w =>
  match w.fuse with
  | none => (.ok (), w)
  | some 0 => (.error .keyboardInterrupt, w)
  | some (n + 1) => (.ok (), { w with fuse := some n })

/-- `context.container.addRoot(root, context.toFilterContext())`. The container's answer never
influences the algorithms (`addRoot` returns `None` and does not raise), so only the
call is recorded; `Model/Finder.lean` replays the calls on the container. -/
def addRoot (r : Root K) : Py (World σ K) Unit := do
  tick
  Py.modify fun w => { w with added := w.added ++ [r] }

/-- `context.progress.update(context.task, advance=a)` under the guard
`context.progress is not None and context.task is not None`. -/
def advance (ctx : RCtx K) (a : K) : Py (World σ K) Unit :=
  if ctx.progress then do
    tick
    Py.modify fun w => { w with advances := w.advances ++ [a] }
  else pure ()

/-- add several roots one after the other (a Python `for` loop over `addRoot`) -/
def addRoots : List (Root K) → Py (World σ K) Unit
  | [] => pure ()
  | r :: rs => do addRoot r; addRoots rs

end World

/-! ## The abstract argument estimator -/

/-- `ArgumentEstimator.calcMomentAlongLine` (argument_estimator.py 81-99), implemented by the concrete
estimators. -/
abbrev LineEst (σ K : Type) := ℤ → Cx K → Cx K → RCtx K → Py (World σ K) (Cx K)

/-- `np.linspace(a, b, n)` (numpy; exact arithmetic). -/
def linspace [Field K] (a b : Cx K) (n : ℕ) : List (Cx K) :=
  (List.range n).map fun (i : ℕ) => a + Cx.smul ((i : K) / ((n : K) - 1)) (b - a)

section
variable [Field K] [DecidableEq K] {σ : Type}

/-- the four oriented edges of a rectangle (argument_estimator.py 60-65) -/
def edges (reRan imRan : K × K) : List (Cx K × Cx K) :=
  [ (⟨reRan.1, imRan.1⟩, ⟨reRan.2, imRan.1⟩)
  , (⟨reRan.2, imRan.1⟩, ⟨reRan.2, imRan.2⟩)
  , (⟨reRan.2, imRan.2⟩, ⟨reRan.1, imRan.2⟩)
  , (⟨reRan.1, imRan.2⟩, ⟨reRan.1, imRan.1⟩) ]

/-- `self.cache.retrieve(order, zStart, zEnd)` (argument_estimator.py 67) -/
def World.retrieve (order : ℤ) (a b : Cx K) : Py (World σ K) (Option (Cx K)) := fun w =>
  (.ok (w.cache.retrieve order a b).1, { w with cache := (w.cache.retrieve order a b).2 })

/-- one round of the loop in `calcMoment` (argument_estimator.py 67-76): the phase of one edge -/
def edgeMoment (est : LineEst σ K) (order : ℤ) (ctx : RCtx K) (e : Cx K × Cx K) :
    Py (World σ K) (Cx K) := do
  let entry ← World.retrieve order e.1 e.2
  match entry with
  | some v =>
    if v ≠ 0 then pure v
    else compute
  | none => compute
where
  /-- argument_estimator.py 70-76 -/
  compute : Py (World σ K) (Cx K) := do
    World.tick
    let d ← est order e.1 e.2 ctx
    Py.modify fun w => { w with cache := (w.cache.store order e.1 e.2 d).store order e.2 e.1 (-d) }
    pure d

/-- the loop in `calcMoment` (argument_estimator.py 66-76) -/
def sumEdges (est : LineEst σ K) (order : ℤ) (ctx : RCtx K) :
    List (Cx K × Cx K) → Cx K → Py (World σ K) (Cx K)
  | [], phi => pure phi
  | e :: es, phi => do
    let d ← edgeMoment est order ctx e
    sumEdges est order ctx es (phi + d)

/-- `ArgumentEstimator.calcMoment` (argument_estimator.py 27-79). -/
def calcMoment (est : LineEst σ K) (order : ℤ) (reRan imRan : K × K) (ctx : RCtx K) :
    Py (World σ K) (Cx K) :=
  sumEdges est order ctx (edges reRan imRan) 0

/-- The `while` loop of `genFuncArr` (argument_estimator.py 118-139): `n` bounds the number of
function evaluations; the real loop is unbounded. -/
def genFuncLoop (f : Cx K → Cx K) (shift : Cx K) :
    ℕ → List (Cx K) → Py (World σ K) (List (Cx K) × List (Cx K))
  | 0, _ => Py.throw .outOfFuel
  | n + 1, zArr =>
    let zeros := zArr.filter fun z => decide (f z = 0)
    if zeros.isEmpty then pure (zArr, zArr.map f)
    else do
      World.addRoots (zeros.map fun z => (z, 0))
      genFuncLoop f shift n (zArr.map (· + shift))

/-- the offset by which `genFuncArr` moves a line (argument_estimator.py 116, 134-137) -/
def lineShift (zStart zEnd : Cx K) (precision : ℤ × ℤ) : Cx K :=
  if zStart.im = zEnd.im then ⟨0, 2 * eps10 K precision.2⟩ else ⟨2 * eps10 K precision.1, 0⟩

/-- `ArgumentEstimator.genFuncArr` (argument_estimator.py 110-141). `fuel size` bounds the loop. -/
def genFuncArr (fuel : ℕ → ℕ) (zStart zEnd : Cx K) (ctx : RCtx K) (size : ℕ) :
    Py (World σ K) (List (Cx K) × List (Cx K)) :=
  genFuncLoop ctx.f (lineShift zStart zEnd ctx.precision) (fuel size) (linspace zStart zEnd size)

end
end PyZeal
