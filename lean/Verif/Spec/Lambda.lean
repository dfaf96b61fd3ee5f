import Verif.Model.Lambda

/-!
# Specification of the lambda wrapper
-/

namespace PyZeal.Spec
open Lambda
variable {V : Type}

/-- the call is about functions -/
def WrapOp.isLambda : WrapOp V → Bool
  | .lambda _ _ => true
  | .derivative _ _ => false

/-- the function wrapped, its mode -/
def WrapOp.fn : WrapOp V → PyFun V
  | .lambda f _ => f
  | .derivative f _ => f
/-- its mode -/
def WrapOp.mode : WrapOp V → WrapMode
  | .lambda _ m => m
  | .derivative _ m => m

end PyZeal.Spec
