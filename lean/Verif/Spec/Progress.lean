import Verif.Model.Progress
import Verif.Spec.Finder

/-! # Specification vocabulary: what a progress bar shows -/

namespace PyZeal.Spec
variable {K : Type}

/-- the amounts a bar shows one after the other if it receives these updates: `0, a₁, a₁ + a₂, …` -/
def barReadings [Add K] [Zero K] (advances : List K) : List K :=
  (List.range (advances.length + 1)).map fun n => (advances.take n).sum

/-- the bar never goes back -/
def NeverBack [Add K] [Zero K] [LE K] (advances : List K) : Prop := (barReadings advances).Pairwise (· ≤ ·)

/-- the bar never shows more than its total -/
def NeverOver [Add K] [Zero K] [LE K] (total : K) (advances : List K) : Prop := ∀ x ∈ barReadings advances, x ≤ total

/-- a bar with a single row -/
def OneRow (b : ProgressBar K) (t : BarTask K) : Prop := ∃ id, b.tasks = [(id, t)]

end PyZeal.Spec
