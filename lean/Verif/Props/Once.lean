import Verif.Proof.Noted
import Verif.Proof.Completes
import Verif.Props.Variants

/-! # Property C101: no line is evaluated twice; C34: searches complete -/

set_option linter.unusedSectionVars false

namespace PyZeal.Props
open Spec

section
variable {K σ : Type} [Field K] [LinearOrder K] [IsStrictOrderedRing K] [FloorRing K]

/-- C34, completion: if the estimator returns a value for every line, nobody interrupts and the recursion limit is above the bound, then
the search of the simple argument algorithm and of its Newton variant return, whatever the estimator says and whatever the
solver does. -/
theorem C34_completes (nt : NewtonSolver K) (est : LineEst σ K) (pi : K) (ctx : RCtx K)
    (hest : ∀ o a b w, w.fuse = none → ∃ v w', est o a b ctx w = (.ok v, w') ∧ w'.fuse = none) (m n : ℕ)
    (h : Cell.Below ctx.precision m n ⟨ctx.reRan, ctx.imRan, 0⟩) (limit : ℕ) (h1 : m + n < limit)
    (w : World σ K) (hw : w.fuse = none) :
    (simpleArgument est pi limit ctx w).1 = .ok () ∧ (simpleArgumentNewton nt est pi limit ctx w).1 = .ok () := by
  have he : ∀ o a b, Finishes (est o a b ctx) := by
    intro o a b w hw
    obtain ⟨v, w', h, h'⟩ := hest o a b w hw
    rw [h]
    exact ⟨h', v, rfl⟩
  constructor
  · obtain ⟨_, _, h⟩ := (Finishes.calcRoots he (simple_stops est pi ctx) (fun c hc hs => hc (.inr hs)) (Finishes.simpleAct pi ctx) limit m n h h1 w hw)
    exact h
  · obtain ⟨_, _, h⟩ := (Finishes.calcRoots he (newton_stops nt est pi ctx) (fun c hc hs => hc (.inl (.inr hs))) (Finishes.newtonAct nt pi ctx) limit m n h h1 w hw)
    exact h

end

section
variable {σ : Type}

/-- C101. Let a search of the simple argument algorithm, with an estimator that notes the lines it is asked to evaluate (this changes
nothing else), complete. No line whose value was not 0 was evaluated again later, neither in the same nor in the opposite direction;
every line evaluated is an edge of an evaluated rectangle; and every edge of every evaluated rectangle was evaluated, in one direction or the other. -/
theorem C101_simple (est : LineEst σ ℝ) (pi : ℝ) (limit : ℕ) (ctx : RCtx ℝ) (hest : BoundaryHits est ctx) (hc : LeavesCache est ctx)
    (hre : ctx.reRan.1 < ctx.reRan.2) (him : ctx.imRan.1 < ctx.imRan.2) (w w' : World (σ × List (Note ℝ)) ℝ)
    (hr : simpleArgument (noting est) pi limit ctx w = (.ok (), w')) :
    simpleArgument est pi limit ctx (forget w) = (.ok (), forget w') ∧
    (newNotes w w').Pairwise (fun n n' => n.value ≠ some 0 → n.Differ n') ∧
    (∀ n ∈ newNotes w w', ∃ c ∈ newCells w w', n.line ∈ edges c.re c.im) ∧
    ∀ c ∈ newCells w w', ∀ e ∈ edges c.re c.im, ∃ n ∈ newNotes w w', n.line = e ∨ n.line = e.swap := by
  refine ⟨?_, once_search hc (fun o a b w => (hest o a b w).2.1) hre him (simple_stops _ pi ctx) (quiet_simple pi ctx)
    limit w w' hr⟩
  have := NoteSim.calcRoots (simple_stops (noting est) pi ctx) (simple_stops est pi ctx) (NoteSim.simpleAct pi ctx) limit w
  unfold simpleArgument at hr ⊢
  rw [this, hr]

/-- C101 for the Newton variant -/
theorem C101_newton (nt : NewtonSolver ℝ) (est : LineEst σ ℝ) (pi : ℝ) (limit : ℕ) (ctx : RCtx ℝ) (hest : BoundaryHits est ctx) (hc : LeavesCache est ctx)
    (hre : ctx.reRan.1 < ctx.reRan.2) (him : ctx.imRan.1 < ctx.imRan.2) (w w' : World (σ × List (Note ℝ)) ℝ)
    (hr : simpleArgumentNewton nt (noting est) pi limit ctx w = (.ok (), w')) :
    simpleArgumentNewton nt est pi limit ctx (forget w) = (.ok (), forget w') ∧
    (newNotes w w').Pairwise (fun n n' => n.value ≠ some 0 → n.Differ n') ∧
    (∀ n ∈ newNotes w w', ∃ c ∈ newCells w w', n.line ∈ edges c.re c.im) ∧
    ∀ c ∈ newCells w w', ∀ e ∈ edges c.re c.im, ∃ n ∈ newNotes w w', n.line = e ∨ n.line = e.swap := by
  refine ⟨?_, once_search hc (fun o a b w => (hest o a b w).2.1) hre him (newton_stops nt _ pi ctx)
    (quiet_newton nt pi ctx) limit w w' hr⟩
  have := NoteSim.calcRoots (newton_stops nt (noting est) pi ctx) (newton_stops nt est pi ctx) (NoteSim.newtonAct nt pi ctx) limit w
  unfold simpleArgumentNewton at hr ⊢
  rw [this, hr]

/-- C101: both estimators of the code meet the hypotheses -/
theorem C101_estimators (cfg : SumCfg ℝ) (cfg' : QuadCfg ℝ) (ctx : RCtx ℝ) :
    (BoundaryHits (sumLine cfg) ctx ∧ LeavesCache (sumLine cfg) ctx) ∧
    BoundaryHits (quadLine cfg' : LineEst σ ℝ) ctx ∧ LeavesCache (quadLine cfg' : LineEst σ ℝ) ctx :=
  ⟨⟨sumLine_hits cfg ctx, sumLine_leaves cfg ctx⟩, quadLine_hits cfg' ctx, quadLine_leaves cfg' ctx⟩

/-- an estimator with the value 1 for every line -/
noncomputable def oneEst : LineEst Unit ℝ := fun _ _ _ _ w => (.ok 1, w)

/-- a square with side 3, to be refined to sides below 1 -/
noncomputable def squareCtx : RCtx ℝ where
  f := fun _ => 1
  df := none
  precision := (0, 0)
  reRan := (0, 3)
  imRan := (0, 3)

/-- non-vacuity: the search with `oneEst` completes and evaluates the edges of the square -/
example (w : World (Unit × List (Note ℝ)) ℝ) (hw : w.fuse = none) : ∃ w', simpleArgument (noting oneEst) 1 5 squareCtx w = (.ok (), w') ∧
    ((newNotes w w').Pairwise fun n n' => n.value ≠ some 0 → n.Differ n') ∧
    ∀ c ∈ newCells w w', ∀ e ∈ edges c.re c.im, ∃ n ∈ newNotes w w', n.line = e ∨ n.line = e.swap := by
  have hok := (C34_completes ⟨fun _ _ _ _ => none, fun _ _ _ _ => none, fun _ _ _ => none⟩ (noting oneEst) 1 squareCtx
    (fun o a b w hw => ⟨1, _, rfl, hw⟩) 2 2 (by unfold Cell.Below squareCtx; norm_num) 5 (by norm_num) w hw).1
  refine ⟨_, Prod.ext hok rfl, ?_⟩
  obtain ⟨_, h1, _, h2⟩ := C101_simple oneEst 1 5 squareCtx (fun o a b w => ⟨rfl, rfl, id, [], by simp [oneEst], by simp⟩) (fun o a b w => rfl)
    (by norm_num [squareCtx]) (by norm_num [squareCtx]) w _ (Prod.ext hok rfl)
  exact ⟨h1, h2⟩

/-- an estimator with value 0 on vertical lines and on the horizontal line at height 1/2 -/
def stepEst : LineEst Unit ℚ := fun _ a b _ w =>
  (.ok (if a.im = b.im then (if a.im = 1/2 then 0 else if a.im = 0 then ⟨b.re - a.re, 0⟩ else ⟨a.re - b.re, 0⟩) else 0), w)

/-- a square with side 1 -/
def squareCtxQ : RCtx ℚ where
  f := fun _ => 1
  df := none
  precision := (-1, 0)
  reRan := (0, 1)
  imRan := (0, 1)

/-- before the search -/
def noteWorld : World (Unit × List (Note ℚ)) ℚ := ⟨EstCache.init false, ((), []), [], [], none, []⟩

/-- the search -/
def stepRun : Except Err Unit × World (Unit × List (Note ℚ)) ℚ := simpleArgument (noting stepEst) 1 5 squareCtxQ noteWorld

/-- C101, the exception is needed: lines with the value 0 are evaluated again, here the line which halves the rectangle -/
theorem C101_zero_again : simpleArgument (noting stepEst) 1 5 squareCtxQ noteWorld = (.ok (), stepRun.2) ∧
    ∃ (i j : ℕ) (n n' : Note ℚ), i < j ∧ (newNotes noteWorld stepRun.2)[i]? = some n ∧ (newNotes noteWorld stepRun.2)[j]? = some n' ∧
      n.line = n'.line.swap ∧ n.value = some 0 := by
  have h : stepRun.1 = .ok () := by decide +kernel
  refine ⟨Prod.ext h rfl, 5, 7, ⟨(⟨1, 1/2⟩, ⟨0, 1/2⟩), some 0⟩, ⟨(⟨0, 1/2⟩, ⟨1, 1/2⟩), some 0⟩, by decide, ?_, ?_, rfl, rfl⟩
  · decide +kernel
  · decide +kernel

end
end PyZeal.Props
