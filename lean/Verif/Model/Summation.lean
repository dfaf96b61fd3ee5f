import Verif.Model.Estimator

/-! # Model of the phase summation estimator

`pyzeal/algorithms/estimators/sum_estimator.py`. -/

namespace PyZeal
variable {K : Type}

/-- The literals `"start"` / `"end"` in the keys of the internal caches (sum_estimator.py 20-26). -/
inductive Side | start | stop
deriving DecidableEq

/-- support points and phase increments (the pairs returned by `genPhiArr`, sum_estimator.py 24) -/
abbrev PhiLine (K : Type) := List (Cx K) × List K

/-- `tCache` (sum_estimator.py 20-26) -/
abbrev LineCache (K : Type) := Dict (K × ℤ) (Dict (K × Side) (PhiLine K))

/-- the internal caches of a `SummationEstimator` (sum_estimator.py 70-71) -/
structure SumState (K : Type) where
  horizontal : LineCache K
  vertical : LineCache K

/-- a new estimator has empty internal caches (sum_estimator.py 69-71) -/
def SumState.fresh : SumState K := { horizontal := [], vertical := [] }

/-- Settings of a `SummationEstimator` (sum_estimator.py 65-67). `arg z` is
`np.arctan2(z.imag, z.real)`; `evals size` bounds the loop of `genFuncArr`,
`steps` the loop of `genPhiArr` (both unbounded in Python). -/
structure SumCfg (K : Type) where
  numPts : ℕ
  deltaPhi : K
  maxPrecision : K
  arg : Cx K → K
  evals : ℕ → ℕ
  steps : ℕ

/-- `Z_REFINE` (estimators/constants.py 19) -/
def zRefine : ℕ := 100
/-- `MAX_Z_LENGTH` (estimators/constants.py 21) -/
def maxZLength : ℕ := 100

/-- `np.where(p)[0]`: the increasing list of indices where the test holds, counted from `i`. -/
def whereFrom {α : Type} (p : α → Bool) : ℕ → List α → List ℕ
  | _, [] => []
  | i, a :: l => if p a then i :: whereFrom p (i + 1) l else whereFrom p (i + 1) l

section
variable [Field K] [LinearOrder K] [FloorRing K]

/-- `np.arctan2` of the quotients `funcArr[1:] / funcArr[:-1]` (sum_estimator.py 273-275, 306-307) -/
def phases (arg : Cx K → K) (fs : List (Cx K)) : List K :=
  List.zipWith (fun a b => arg (b / a)) fs fs.tail

/-- The `while` loop of `genPhiArr` (sum_estimator.py 279-319); `idx` is the loop counter,
the first argument bounds the number of iterations. `abs(z) < m` of a complex
number is expressed by squares. `int(x)` is the floor since `x ≥ 0` for `deltaPhi > 0`. -/
def refineLoop (cfg : SumCfg K) (ctx : RCtx K) :
    ℕ → ℕ → List (Cx K) → List K → Py (World (SumState K) K) (PhiLine K)
  | 0, _, _, _ => Py.throw .outOfFuel
  | n + 1, idx, zArr, phiArr =>
    match whereFrom (fun p => decide (cfg.deltaPhi ≤ |p|)) 0 phiArr with
    | [] => pure (zArr, phiArr)
    | k :: _ =>
      let zk := zArr.getD k 0
      let zk1 := zArr.getD (k + 1) 0
      if 0 < cfg.maxPrecision ∧ (zk - zk1).normSq < cfg.maxPrecision ^ 2 then
        pure (zArr, phiArr)
      else if maxZLength * cfg.numPts < zArr.length then pure (zArr, phiArr)
      else do
        let factor := ⌊((idx + 1 : ℕ) : K) * (zRefine : K) * |phiArr.getD k 0| / cfg.deltaPhi⌋.toNat
        let r ← genFuncArr cfg.evals zk zk1 ctx factor
        refineLoop cfg ctx n (idx + 1)
          (zArr.take (k + 1) ++ (r.1.drop 1).dropLast ++ zArr.drop (k + 1))
          (phiArr.take k ++ phases cfg.arg r.2 ++ phiArr.drop (k + 1))

/-- `genPhiArr` (sum_estimator.py 245-319) -/
def genPhiArr (cfg : SumCfg K) (order : ℤ) (zStart zEnd : Cx K) (ctx : RCtx K) :
    Py (World (SumState K) K) (PhiLine K) :=
  if order ≠ 0 then Py.throw .notImplementedError
  else do
    let r ← genFuncArr cfg.evals zStart zEnd ctx cfg.numPts
    refineLoop cfg ctx cfg.steps 0 r.1 (phases cfg.arg r.2)

/-- `storeCache` (sum_estimator.py 321-344) together with the creation of the inner dictionary
on a miss (177-178, 240-241). -/
def storeCache (c : LineCache K) (z : K) (order : ℤ) (lo hi : K) (v : PhiLine K) : LineCache K :=
  let inner := (c.get? (z, order)).getD []
  c.set (z, order) ((inner.set (lo, .start) v).set (hi, .stop) v)

/-- The lookups in the internal caches (sum_estimator.py 135-140, 154-158 and 199-204, 218-222):
first the start, then the end of the line. -/
def cachedLine (c : LineCache K) (z : K) (order : ℤ) (lo hi : K) : Option (Side × PhiLine K) :=
  match c.get? (z, order) with
  | none => none
  | some inner =>
    match inner.get? (lo, .start) with
    | some v => some (.start, v)
    | none => (inner.get? (hi, .stop)).map fun v => (.stop, v)

/-- start of the line cached: cut after the last support point not beyond `hi`; `none` if fewer than
three support points remain (sum_estimator.py 141-151, 205-215) -/
def cutEnd (proj : Cx K → K) (v : PhiLine K) (hi : K) : Option (PhiLine K) :=
  let indices := whereFrom (fun z => decide (proj z ≤ hi)) 0 v.1
  if indices.length < 3 then none
  else
    let m := indices.getLastD 0
    some (v.1.take (m + 1), v.2.take (m + 1))

/-- end of a horizontal line cached (sum_estimator.py 160-170) -/
def cutStartH (v : PhiLine K) (lo : K) : Option (PhiLine K) :=
  let indices := whereFrom (fun z => decide (lo ≤ z.re)) 0 v.1
  if indices.length < 3 then none
  else
    let m := indices.headD 0
    some (v.1.drop m, v.2.drop m)

/-- end of a vertical line cached (sum_estimator.py 223-233): the test counts the support points
*below* the end; `error` is the IndexError of `[0][0]` on an empty array. -/
def cutStartV (v : PhiLine K) (lo hi : K) : Except Err (Option (PhiLine K)) :=
  if (whereFrom (fun z => decide (z.im ≤ hi)) 0 v.1).length < 3 then .ok none
  else
    match whereFrom (fun z => decide (lo ≤ z.im)) 0 v.1 with
    | [] => .error .indexError
    | m :: _ => .ok (some (v.1.drop m, v.2.drop m))

/-- the slice of a cached horizontal line that is reused, `none` if it has to be sampled
(sum_estimator.py 135-176) -/
def reuseH (c : LineCache K) (order : ℤ) (lo hi y : K) : Option (PhiLine K) :=
  match cachedLine c y order lo hi with
  | none => none
  | some (.start, v) => cutEnd Cx.re v hi
  | some (.stop, v) => cutStartH v lo

/-- the slice of a cached vertical line that is reused (sum_estimator.py 199-239) -/
def reuseV (c : LineCache K) (order : ℤ) (lo hi x : K) : Except Err (Option (PhiLine K)) :=
  match cachedLine c x order lo hi with
  | none => .ok none
  | some (.start, v) => .ok (cutEnd Cx.im v hi)
  | some (.stop, v) => cutStartV v lo hi

/-- use the slice or sample the line -/
def sliceOrSample (cfg : SumCfg K) (order : ℤ) (zStart zEnd : Cx K) (ctx : RCtx K) :
    Option (PhiLine K) → Py (World (SumState K) K) (PhiLine K)
  | some v => pure v
  | none => genPhiArr cfg order zStart zEnd ctx

/-- `sign = 1 if x1 < x2 else -1` (sum_estimator.py 133, 197) -/
def lineSign (a b : K) : K := if a < b then 1 else -1

/-- `retrieveCachedHorizontal` (sum_estimator.py 117-180). -/
def retrieveCachedHorizontal (cfg : SumCfg K) (order : ℤ) (x1 x2 y : K) (ctx : RCtx K) :
    Py (World (SumState K) K) (Cx K) := do
  let w ← Py.get
  let lo := min x1 x2
  let hi := max x1 x2
  let v ← sliceOrSample cfg order ⟨lo, y⟩ ⟨hi, y⟩ ctx (reuseH w.est.horizontal order lo hi y)
  Py.modify fun w =>
    { w with est := { w.est with horizontal := storeCache w.est.horizontal y order lo hi v } }
  pure (Cx.ofK (lineSign x1 x2 * v.2.sum))

/-- an optional slice or a raised error, as a computation -/
def liftReuse : Except Err (Option (PhiLine K)) → Py (World (SumState K) K) (Option (PhiLine K))
  | .ok v => pure v
  | .error e => Py.throw e

/-- `retrieveCachedVertical` (sum_estimator.py 182-243). -/
def retrieveCachedVertical (cfg : SumCfg K) (order : ℤ) (y1 y2 x : K) (ctx : RCtx K) :
    Py (World (SumState K) K) (Cx K) := do
  let w ← Py.get
  let lo := min y1 y2
  let hi := max y1 y2
  let r ← liftReuse (reuseV w.est.vertical order lo hi x)
  let v ← sliceOrSample cfg order ⟨x, lo⟩ ⟨x, hi⟩ ctx r
  Py.modify fun w =>
    { w with est := { w.est with vertical := storeCache w.est.vertical x order lo hi v } }
  pure (Cx.ofK (lineSign y1 y2 * v.2.sum))

/-- `SummationEstimator.calcMomentAlongLine` (sum_estimator.py 80-115). -/
def sumLine (cfg : SumCfg K) : LineEst (SumState K) K := fun order zStart zEnd ctx =>
  if zStart.im = zEnd.im then
    retrieveCachedHorizontal cfg order zStart.re zEnd.re zStart.im ctx
  else if zStart.re = zEnd.re then
    retrieveCachedVertical cfg order zStart.im zEnd.im zStart.re ctx
  else Py.throw .valueError

end
end PyZeal
