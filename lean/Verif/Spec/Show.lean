import Verif.Model.Show
import Verif.Spec.Logging

/-!
# Specification of descriptions, of the test runner and of the factories' log levels
-/

namespace PyZeal.Spec
open Show

/-- how a function is shown: by its name, or as unnamed -/
inductive ShownAs : Named → List Char → Prop
  | named (n) : ShownAs ⟨some n⟩ n
  | unnamed : ShownAs ⟨none⟩ "<unnamed>".toList

/-- how an optional derivative is shown -/
inductive ShownDf : Option Named → List Char → Prop
  | missing : ShownDf none "None".toList
  | given {d s} : ShownAs d s → ShownDf (some d) s

/-- the operation is a request to the object's (or factory's) logger -/
def Requests (o : Nat) : FactoryLogOp → Prop
  | .other (.use o') => o' = o
  | .other (.setLevel o' _) => o' = o
  | _ => False

/-- the operation may change the level of the factory's logger: everything that is about a logger of this name,
except for further requests to the same factory -/
def MayChangeLevel (nameOf : Nat → String) (o : Nat) : FactoryLogOp → Prop
  | .other (.use o') => o' ≠ o ∧ nameOf o' = nameOf o
  | .other op => Concerns nameOf [nameOf o] op
  | .factoryLevel o' _ => nameOf o' = nameOf o

end PyZeal.Spec
