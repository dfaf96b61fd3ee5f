import Verif.Model.Sessions
import Verif.Spec.Argparse
import Verif.Spec.Cli
import Verif.Spec.Build

/-! # Specification: what a history of processes says about the settings -/

namespace PyZeal.Spec
open Settings

/-- the process gives the setting `k` a value, lastly `v`: by options of `pyzeal change`, or by an assignment in a script -/
def Process.Gives (R : Args.Reader) : Process → Setting → PyVal → Prop
  | .pyzeal _ argv, k, v => ∃ es, Line R argv (some "change") es ∧ LastSets es k v
  | .script ops, k, v => lastAssigned k ops = some v

/-- `v` is what the last process that gave `k` a value gave it -/
def LastGiven (R : Args.Reader) (ps : List Process) (k : Setting) (v : PyVal) : Prop :=
  ∃ pre p post, ps = pre ++ p :: post ∧ Process.Gives R p k v ∧ ∀ p' ∈ post, ¬ ∃ v', Process.Gives R p' k v'

/-- the shipped settings; default_settings.json -/
def shippedValue : Setting → PyVal
  | .container => .container .ROUNDING_CONTAINER
  | .algorithm => .algorithm .SIMPLE_ARGUMENT
  | .estimator => .estimator .SUMMATION_ESTIMATOR
  | .level => .level .WARNING
  | .verbose => .bool true
  | .precision => .tuple [.int 5, .int 5]

/-- after the history `ps` on a new installation the setting `k` should be `v` -/
def ShouldBe (R : Args.Reader) (ps : List Process) (k : Setting) (v : PyVal) : Prop :=
  LastGiven R ps k v ∨ (v = shippedValue k ∧ ¬ ∃ v', LastGiven R ps k v')

/-- the values that constructors read -/
structure SettingsShouldBe (R : Args.Reader) (ps : List Process) (d : Defaults) : Prop where
  container : ShouldBe R ps .container (.container d.container)
  algorithm : ShouldBe R ps .algorithm (.algorithm d.algorithm)
  estimator : ShouldBe R ps .estimator (.estimator d.estimator)
  precision : ShouldBe R ps .precision (.tuple [.int d.precision.1, .int d.precision.2])
  verbose : ShouldBe R ps .verbose (.bool d.verbose)

end PyZeal.Spec
