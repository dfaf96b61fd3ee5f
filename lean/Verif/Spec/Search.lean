import Verif.Model.Estimator

/-! # Specification vocabulary for the argument based search -/

namespace PyZeal.Spec
variable {K : Type}

/-- the computation touches neither progress bar nor log; the only candidates it hands to the container are exact zeros
of `f`, with the placeholder order 0; it does not cause interrupts -/
def OnlyHits (f : Cx K → Cx K) [Zero (Cx K)] {σ α : Type} (m : Py (World σ K) α) : Prop :=
  ∀ w, (m w).2.advances = w.advances ∧ (m w).2.log = w.log ∧ (w.fuse = none → (m w).2.fuse = none) ∧
    ∃ zs, (m w).2.added = w.added ++ zs ∧ ∀ r ∈ zs, r.2 = 0 ∧ f r.1 = 0

/-- What is asked of an estimator in the theorems about searches: along lines it does nothing to the search but hand
boundary zeros to the container (proved for the estimators of the code: `sumLine_hits`, `quadLine_hits`). -/
def BoundaryHits [Zero (Cx K)] {σ : Type} (est : LineEst σ K) (ctx : RCtx K) : Prop :=
  ∀ order a b, OnlyHits ctx.f (est order a b ctx)

/-- The estimator has no hidden state: what it does and returns for a line depends neither on its internal state nor
on the algorithm's cache, and it changes neither. -/
def NoHiddenState {σ : Type} (est : LineEst σ K) (ctx : RCtx K) : Prop :=
  ∀ order a b (w : World σ K) (c : EstCache K) (s : σ), est order a b ctx { w with cache := c, est := s } =
    ((est order a b ctx w).1, { (est order a b ctx w).2 with cache := c, est := s })

/-- what a run of a search added to the container -/
def newRoots {σ : Type} (w w' : World σ K) : List (Root K) := w'.added.drop w.added.length

/-- the rectangles evaluated by a run of a search, with the phases reported by the estimator -/
def newCells {σ : Type} (w w' : World σ K) : List (Cell K) := w'.log.drop w.log.length

/-- the progress reported by a run of a search -/
def newProgress {σ : Type} (w w' : World σ K) : List K := w'.advances.drop w.advances.length

section
variable [LinearOrder K]

/-- `z` lies in the closed rectangle -/
def Cell.Has (c : Cell K) (z : Cx K) : Prop :=
  c.re.1 ≤ z.re ∧ z.re ≤ c.re.2 ∧ c.im.1 ≤ z.im ∧ z.im ≤ c.im.2

instance (c : Cell K) (z : Cx K) : Decidable (Cell.Has c z) := by unfold Cell.Has; infer_instance

/-- `z` lies in the open rectangle -/
def Cell.Interior (c : Cell K) (z : Cx K) : Prop :=
  c.re.1 < z.re ∧ z.re < c.re.2 ∧ c.im.1 < z.im ∧ z.im < c.im.2

/-- `z` lies in the rectangle, left and lower side included -/
def Cell.HasHalfOpen (c : Cell K) (z : Cx K) : Prop :=
  c.re.1 ≤ z.re ∧ z.re < c.re.2 ∧ c.im.1 ≤ z.im ∧ z.im < c.im.2

instance (c : Cell K) (z : Cx K) : Decidable (Cell.HasHalfOpen c z) := by
  unfold Cell.HasHalfOpen; infer_instance

/-- the number of the given zeros (listed with multiplicity) in the half-open rectangle -/
def Cell.count (c : Cell K) (zeros : List (Cx K)) : ℕ := (zeros.filter fun z => decide (Cell.HasHalfOpen c z)).length

end

section
variable [Field K]

/-- area of a rectangle -/
def Cell.area (c : Cell K) : K := (c.re.2 - c.re.1) * (c.im.2 - c.im.1)

/-- midpoint of a rectangle -/
def Cell.centre (c : Cell K) : Cx K := ⟨(c.re.1 + c.re.2) / 2, (c.im.1 + c.im.2) / 2⟩

variable [LinearOrder K]

/-- `l` is a non-empty rectangle inside `c` -/
def Cell.In (l c : Cell K) : Prop :=
  c.re.1 ≤ l.re.1 ∧ l.re.1 ≤ l.re.2 ∧ l.re.2 ≤ c.re.2 ∧ c.im.1 ≤ l.im.1 ∧ l.im.1 ≤ l.im.2 ∧ l.im.2 ≤ c.im.2

/-- width and height are below `2^m`, `2^n` times the wanted accuracy -/
def Cell.Below (p : ℤ × ℤ) (m n : ℕ) (c : Cell K) : Prop :=
  c.re.2 - c.re.1 < 2 ^ m * (10 : K) ^ (-p.1) ∧ c.im.2 - c.im.1 < 2 ^ n * (10 : K) ^ (-p.2)

/-- the rectangle is smaller than `10^-p` in both directions -/
def Cell.Small (p : ℤ × ℤ) (c : Cell K) : Prop :=
  c.re.2 - c.re.1 < (10 : K) ^ (-p.1) ∧ c.im.2 - c.im.1 < (10 : K) ^ (-p.2)

instance (p : ℤ × ℤ) (c : Cell K) : Decidable (Cell.Small p c) := by unfold Cell.Small; infer_instance

/-- the estimator reported (by the code's criterion) at least one turn: 0.8 turns or more -/
def Cell.Turns (pi : K) (c : Cell K) : Prop := 8 / 10 * (2 * pi) ≤ c.phi

instance (pi : K) (c : Cell K) : Decidable (Cell.Turns pi c) := by unfold Cell.Turns; infer_instance

/-- the rectangles at which the refinement stops: nothing inside, or small enough -/
def Cell.Stop (pi : K) (p : ℤ × ℤ) (c : Cell K) : Prop := ¬ Cell.Turns pi c ∨ Cell.Small p c

instance (pi : K) (p : ℤ × ℤ) (c : Cell K) : Decidable (Cell.Stop pi p c) := by
  unfold Cell.Stop; infer_instance

/-- between 0.8 and 1.3 turns on a rectangle with sides below 0.1: here the Newton variant calls the solver -/
def Cell.OneTurn (pi : K) (c : Cell K) : Prop :=
  8 / 10 * (2 * pi) < c.phi ∧ c.phi < 13 / 10 * (2 * pi) ∧ c.re.2 - c.re.1 < 1 / 10 ∧ c.im.2 - c.im.1 < 1 / 10

instance (pi : K) (c : Cell K) : Decidable (Cell.OneTurn pi c) := by unfold Cell.OneTurn; infer_instance

/-- between 0.8 and 3.4 turns: here the associated polynomial is used -/
def Cell.FewTurns (pi : K) (c : Cell K) : Prop :=
  8 / 10 * (2 * pi) < c.phi ∧ c.phi < 34 / 10 * (2 * pi)

instance (pi : K) (c : Cell K) : Decidable (Cell.FewTurns pi c) := by unfold Cell.FewTurns; infer_instance

/-- the zeros in the half-open rectangle -/
def Cell.inside (c : Cell K) (zeros : List (Cx K)) : List (Cx K) :=
  zeros.filter fun z => decide (Cell.HasHalfOpen c z)

/-- A conforming estimator for a function with the given zeros (listed with multiplicity) on the search rectangle:
along each line it returns a fixed value `L order a b`, which changes sign with the orientation, and does
not touch the algorithm's cache; and around each rectangle inside the search rectangle the values sum up to `2*pi`
times the sum of the powers of the zeros inside (order 0: their number). -/
structure Conforming {σ : Type} (est : LineEst σ K) (ctx : RCtx K) (pi : K) (zeros : List (Cx K))
    (L : ℤ → Cx K → Cx K → Cx K) : Prop where
  reverse : ∀ o a b, L o b a = -L o a b
  value : ∀ o a b w, (est o a b ctx w).2.cache = w.cache ∧ ∀ v, (est o a b ctx w).1 = .ok v → v = L o a b
  around : ∀ (k : ℕ) (c : Cell K), Cell.In c ⟨ctx.reRan, ctx.imRan, 0⟩ →
    L k ⟨c.re.1, c.im.1⟩ ⟨c.re.2, c.im.1⟩ + L k ⟨c.re.2, c.im.1⟩ ⟨c.re.2, c.im.2⟩ +
      L k ⟨c.re.2, c.im.2⟩ ⟨c.re.1, c.im.2⟩ + L k ⟨c.re.1, c.im.2⟩ ⟨c.re.1, c.im.1⟩ =
    Cx.ofK (2 * pi) * ((Cell.inside c zeros).map fun z => z ^ k).sum

/-- within the tolerance of each other -/
def Near (eps : K × K) (a b : Cx K) : Prop := |a.re - b.re| < eps.1 ∧ |a.im - b.im| < eps.2

instance (eps : K × K) (a b : Cx K) : Decidable (Near eps a b) := by unfold Near; infer_instance

end
end PyZeal.Spec
