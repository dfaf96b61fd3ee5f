import Verif.Core.Py

/-!
# Model of `pyzeal/utils/lambda_wrapper.py`

The module has two global variables.  `wrapLambda` and `wrapDerivative` return the module level functions
`wrappedFunc` and `wrappedDerivative`, which are modelled as names (`Wrapped`): calling one looks at the global
variable at that time.
-/

namespace PyZeal

/-- the two functions of the module; `lambda_wrapper.py` 19-30 -/
inductive Wrapped
  | func | derivative
deriving DecidableEq

/-- `mode`; `lambda_wrapper.py` 41, 67 -/
inductive WrapMode
  | save | unsave
deriving DecidableEq

/-- a Python function of one argument -/
abbrev PyFun (V : Type) := V → Except Err V

/-- the global variables `_func`, `_derivative`; `lambda_wrapper.py` 15-16 -/
structure LamState (V : Type) where
  func : Option (PyFun V)
  derivative : Option (PyFun V)

namespace Lambda
variable {V : Type}

/-- the module after import; `lambda_wrapper.py` 15-16 -/
def fresh : LamState V := ⟨none, none⟩

/-- `wrapLambda`; `lambda_wrapper.py` 39-62 -/
def wrapLambda (f : PyFun V) (mode : WrapMode) : Py (LamState V) Wrapped := fun s =>
  if s.func.isSome ∧ mode = .save then (.error .valueError, s)
  else (.ok .func, { s with func := some f })

/-- `wrapDerivative`; `lambda_wrapper.py` 65-88 -/
def wrapDerivative (f : PyFun V) (mode : WrapMode) : Py (LamState V) Wrapped := fun s =>
  if s.derivative.isSome ∧ mode = .save then (.error .valueError, s)
  else (.ok .derivative, { s with derivative := some f })

/-- `wrappedFunc(z)`, `wrappedDerivative(z)`; `lambda_wrapper.py` 19-30 -/
def call (w : Wrapped) (z : V) : Py (LamState V) V := fun s =>
  match (match w with | .func => s.func | .derivative => s.derivative) with
  | some f => (f z, s)
  | none => (.error .valueError, s)

/-- How a worker process of `multiprocessing` comes by its copy of the module: `fork` copies the memory,
`spawn` (the default on Windows and macOS) and `forkserver` import the module anew.  The function passed to
the worker is pickled by its qualified name. -/
inductive StartMethod
  | fork | spawn

/-- the module in a new worker process -/
def inWorker : StartMethod → LamState V → LamState V
  | .fork, s => s
  | .spawn, _ => fresh

/-- one call of a wrapping function -/
inductive WrapOp (V : Type)
  | lambda (f : PyFun V) (mode : WrapMode)
  | derivative (f : PyFun V) (mode : WrapMode)

/-- perform it -/
def WrapOp.perform : WrapOp V → Py (LamState V) Wrapped
  | .lambda f m => wrapLambda f m
  | .derivative f m => wrapDerivative f m

/-- a history of calls: the results and the state (exceptions are caught by the caller) -/
def runOps : List (WrapOp V) → LamState V → List (Except Err Wrapped) × LamState V
  | [], s => ([], s)
  | o :: os, s =>
    let r := o.perform s
    let rest := runOps os r.2
    (r.1 :: rest.1, rest.2)

end Lambda
end PyZeal
