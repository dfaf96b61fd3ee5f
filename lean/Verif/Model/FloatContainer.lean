import Verif.Model.Float
import Verif.Model.Finder

/-! # Rounding containers and the serial finder in floating-point arithmetic

`rounding_container.py`, `rootfinder.py` with the rounding errors of `round`, which depend on whether the numbers are
Python floats or numpy scalars, and of `desymmetrizeDomain`. With `fl = id` these are the exact models
(`addRootF_exact`). -/

namespace PyZeal
variable {K : Type} {σ : Type}

/-- the class of a complex number handed to a container: Python's `complex` or numpy's `complex128` (what `getRoots`
returns contains numpy numbers, what `getRootFromRectangle` hands over are Python numbers if the search ranges are) -/
inductive NumKind
  | python | numpy
deriving DecidableEq, Repr

section
variable [Field K] [LinearOrder K] [FloorRing K]

/-- `round(x, p)` of a Python float (CPython `float.__round__`): the exact value is written with `p` decimals, ties to
even, and the decimal read back is the nearest float -/
def pyRoundF (fl : K → K) (x : K) (p : ℤ) : K := fl (pyRound x p)

/-- `round(x, p)` of a numpy `float64` (`numpy.round`): `rint(x * 10**p) / 10**p`, for negative `p`
`rint(x / 10**-p) * 10**-p` -/
def npRoundF (fl : K → K) (x : K) (p : ℤ) : K :=
  if 0 ≤ p then fl ((roundHalfEven (fl (x * fl ((10 : K) ^ p))) : K) / fl ((10 : K) ^ p))
  else fl ((roundHalfEven (fl (x / fl ((10 : K) ^ (-p)))) : K) * fl ((10 : K) ^ (-p)))

/-- `round(x, p)` as computed for either class of numbers -/
def roundF (fl : K → K) : NumKind → K → ℤ → K
  | .python => pyRoundF fl
  | .numpy => npRoundF fl

/-- `RoundingContainer.roundRoot` (rounding_container.py 141-151) as computed -/
def roundRootF (fl : K → K) (k : NumKind) (root : Root K) (precision : ℤ × ℤ) : Root K :=
  (⟨roundF fl k root.1.re precision.1, roundF fl k root.1.im precision.2⟩, root.2)

variable [IsStrictOrderedRing K]

/-- `RoundingContainer.addRoot` (rounding_container.py 50-87) as computed -/
def RContainer.addRootF (fl : K → K) (info : Bool) (c : RContainer K) (k : NumKind) (root : Root K)
    (ctx : FilterCtx K) : RContainer K :=
  if c.accepts root ctx then
    let c := if ctx.precision ≠ c.precision then
        { c.clear with precision := ctx.precision } else c
    let rounded := roundRootF fl k root c.precision
    if info = true ∧ rounded ∈ c.rootSet then c
    else { c with rootSet := setAdd c.rootSet rounded }
  else c

/-- `RoundingContainer.removeRoot` (rounding_container.py 89-112) as computed -/
def RContainer.removeRootF (fl : K → K) (c : RContainer K) (k : NumKind) (root : Root K) : Bool × RContainer K :=
  let rounded := roundRootF fl k root c.precision
  if rounded ∈ c.rootSet then (true, { c with rootSet := c.rootSet.erase rounded })
  else (false, c)

/-- The mutating calls on a `RoundingContainer`, see `ROp`; each root comes with its class. -/
inductive ROpF (K : Type)
  | add (k : NumKind) (root : Root K) (ctx : FilterCtx K) (info : Bool)
  | remove (k : NumKind) (root : Root K)
  | clear
  | register (key : String) (p : Filter K)
  | unregister (key : String)

/-- the container after one call -/
def RContainer.stepF (fl : K → K) (c : RContainer K) : ROpF K → RContainer K
  | .add k r ctx info => c.addRootF fl info k r ctx
  | .remove k r => (c.removeRootF fl k r).2
  | .clear => c.clear
  | .register key p => c.registerFilter p key
  | .unregister key => c.unregisterFilter key

/-- the container after a history of calls -/
def RContainer.runF (fl : K → K) (c : RContainer K) (ops : List (ROpF K)) : RContainer K :=
  ops.foldl (RContainer.stepF fl) c

/-- `RootFinder.desymmetrizeDomain` (rootfinder.py 210-241) as computed; `1 * 10 ** (-p)` is exact -/
def desymmetrizeDomainF (A : FloatOps K) (reRan imRan : K × K) (precision : ℤ × ℤ) : (K × K) × (K × K) :=
  let x1 := min reRan.1 reRan.2
  let x2 := max reRan.1 reRan.2
  let y1 := min imRan.1 imRan.2
  let y2 := max imRan.1 imRan.2
  ((A.fl (x1 - A.fl (1 * A.pow10 precision.1)), A.fl (x2 + A.fl (2 * A.pow10 precision.1))),
   (A.fl (y1 - A.fl (3 * A.pow10 precision.2)), A.fl (y2 + A.fl (4 * A.pow10 precision.2))))

/-- `self.container.addRoot(root, context)` as computed -/
def AnyContainer.addRootF (fl : K → K) (info : Bool) (k : NumKind) (root : Root K) (ctx : FilterCtx K) :
    AnyContainer K → AnyContainer K
  | .rounding c => .rounding (c.addRootF fl info k root ctx)
  | .plain c => .plain (c.addRoot root ctx)

/-- a sequence of `addRoot` calls; `kind` tells the class of each root -/
def AnyContainer.addRootsF (fl : K → K) (kind : Root K → NumKind) (info : Bool) (ctx : FilterCtx K)
    (c : AnyContainer K) (roots : List (Root K)) : AnyContainer K :=
  roots.foldl (fun c r => c.addRootF fl info (kind r) r ctx) c

/-- `RootFinder.calculateRoots` (rootfinder.py 112-170) as computed, see `Finder.calculateRoots` (whose comment applies);
`algorithm` is the algorithm in floating-point arithmetic. -/
def Finder.calculateRootsF (A : FloatOps K) (kind : Root K → NumKind) (fd : Finder σ K) (reRan imRan : K × K)
    (precision : Option (ℤ × ℤ)) (interrupt : Option ℕ) : Search σ K :=
  let precision := searchPrecision precision fd.precision
  let domain := desymmetrizeDomainF A reRan imRan precision
  let context : RCtx K :=
    { f := fd.f, df := fd.df, precision := precision, reRan := domain.1, imRan := domain.2, progress := fd.verbose }
  let r := fd.algorithm context
    { cache := fd.cache, est := fd.est, added := [], advances := [], fuse := interrupt, log := [] }
  let fd' := { fd with
    container := fd.container.addRootsF A.fl kind fd.info context.toFilter r.2.added
    cache := r.2.cache
    est := r.2.est }
  let total := A.fl (A.fl (domain.1.2 - domain.1.1) * A.fl (domain.2.2 - domain.2.1))
  let bar := fun running => if fd.verbose then some ⟨total, r.2.advances, running⟩ else none
  match r.1 with
  | .ok _ => ⟨.ok (), fd', false, bar false⟩
  | .error .keyboardInterrupt => ⟨.ok (), fd', true, bar false⟩
  | .error e => ⟨.error e, fd', false, bar true⟩

end
end PyZeal
