import Verif.Spec.Turn

/-! # Specification vocabulary: which lines a search evaluates -/

namespace PyZeal.Spec
variable {K σ : Type}

/-- the record of one evaluation of an estimator: the line, from start to end, and the value, `none` if an exception was raised -/
structure Note (K : Type) where
  line : Cx K × Cx K
  value : Option (Cx K)
deriving DecidableEq

/-- the world without the notes -/
def forget {τ : Type} : World (σ × τ) K → World σ K
  | ⟨cache, est, added, advances, fuse, log⟩ => ⟨cache, est.1, added, advances, fuse, log⟩

/-- the world with the given notes -/
def withNotes {τ : Type} (notes : τ) : World σ K → World (σ × τ) K
  | ⟨cache, est, added, advances, fuse, log⟩ => ⟨cache, (est, notes), added, advances, fuse, log⟩

/-- The estimator `est`, which notes down the lines it is asked to evaluate, and the values. -/
def noting (est : LineEst σ K) : LineEst (σ × List (Note K)) K := fun o a b ctx w =>
  match est o a b ctx (forget w) with
  | (r, w') => (r, withNotes (w.est.2 ++ [⟨(a, b), r.toOption⟩]) w')

/-- the evaluations noted in a run, in the order they were made -/
def newNotes (w w' : World (σ × List (Note K)) K) : List (Note K) := w'.est.2.drop w.est.2.length

/-- the estimator does not touch the cache of the algorithm -/
def LeavesCache (est : LineEst σ K) (ctx : RCtx K) : Prop := ∀ o a b w, (est o a b ctx w).2.cache = w.cache

/-- the two evaluations were made of different lines: the lines do not have the same end points in the same or opposite order -/
def Note.Differ (n n' : Note K) : Prop := n.line ≠ n'.line ∧ n.line ≠ n'.line.swap

end PyZeal.Spec
