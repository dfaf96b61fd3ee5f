import Verif.Proof.PolySum
import Verif.Props.Search
import Verif.Props.Summation
import Mathlib.Algebra.Polynomial.Roots

/-! # Properties C41-C45: Newton, associated polynomial and Newton grid algorithms -/

set_option linter.unusedSectionVars false

namespace PyZeal.Props
open Spec
variable {K : Type} [Field K] [LinearOrder K] [IsStrictOrderedRing K] [FloorRing K] {σ : Type}

/-! ## C41 -/

/-- the solver is called with the midpoints of the left and right side of the rectangle and the finer of the two
accuracies, and returned `z`; or, if there is a derivative, with the centre of the rectangle -/
def SolverResult (nt : NewtonSolver K) (ctx : RCtx K) (c : Cell K) (z : Cx K) : Prop :=
  let tol := min ((10 : K) ^ (-ctx.precision.1)) (10 ^ (-ctx.precision.2))
  nt.secant ctx.f ⟨c.re.1, (Cell.centre c).im⟩ ⟨c.re.2, (Cell.centre c).im⟩ tol = some z ∨
  ∃ df, ctx.df = some df ∧ nt.newton ctx.f df (Cell.centre c) tol = some z

theorem newtonResults_mem {nt : NewtonSolver K} {ctx : RCtx K} {c : Cell K} {r : Root K}
    (h : r ∈ newtonResults nt ctx c) : r.2 = 1 ∧ SolverResult nt ctx c r.1 := by
  have e1 : (1 / 2 * (c.im.1 + c.im.2) : K) = (Cell.centre c).im := by unfold Cell.centre; dsimp only; ring
  have e2 : (⟨(c.re.1 + c.re.2) * (1 / 2), (c.im.1 + c.im.2) * (1 / 2)⟩ : Cx K) = Cell.centre c := by
    unfold Cell.centre; ext <;> dsimp only <;> ring
  unfold newtonResults at h
  rw [e1, e2] at h
  dsimp only at h
  unfold SolverResult
  rcases hs : nt.secant ctx.f ⟨c.re.1, (Cell.centre c).im⟩ ⟨c.re.2, (Cell.centre c).im⟩
    (min (eps10 K ctx.precision.1) (eps10 K ctx.precision.2)) with _ | z <;> rw [hs] at h
  · simp at h
  · rcases List.mem_cons.1 h with rfl | h
    · exact ⟨rfl, Or.inl hs⟩
    · rcases hdf : ctx.df with _ | df <;> rw [hdf] at h
      · simp at h
      · rcases hn : nt.newton ctx.f df (Cell.centre c)
          (min (eps10 K ctx.precision.1) (eps10 K ctx.precision.2)) with _ | z' <;> simp only [hn] at h
        · simp at h
        · simp only [List.mem_singleton] at h
          subst h
          exact ⟨rfl, Or.inr ⟨df, rfl, hn⟩⟩

theorem newtonResults_length (nt : NewtonSolver K) (ctx : RCtx K) (c : Cell K) :
    (newtonResults nt ctx c).length ≤ 2 := by
  unfold newtonResults
  dsimp only
  split
  · simp
  · simp only [List.length_cons]
    split
    · simp
    · split <;> simp

/-- C41. Whatever the outcome of a search with the Newton variant (completed, exception, interrupt): every root handed
to the container is a boundary zero of order 0, or a small rectangle's centre as in the simple variant (C36), or has
order 1 and was returned by the solver started in an evaluated rectangle inside the search rectangle with sides
below 0.1 and between 0.8 and 1.3 turns. -/
theorem C41_origin (nt : NewtonSolver K) (est : LineEst σ K) (pi : K) (hpi : 0 < pi) (limit : ℕ) (ctx : RCtx K)
    (hest : BoundaryHits est ctx) (hre : ctx.reRan.1 ≤ ctx.reRan.2) (him : ctx.imRan.1 ≤ ctx.imRan.2)
    (w : World σ K) (r : Root K) (hr : r ∈ newRoots w (simpleArgumentNewton nt est pi limit ctx w).2) :
    (r.2 = 0 ∧ ctx.f r.1 = 0) ∨
    ∃ c ∈ newCells w (simpleArgumentNewton nt est pi limit ctx w).2, Cell.In c ⟨ctx.reRan, ctx.imRan, 0⟩ ∧
      ((Cell.Small ctx.precision c ∧ Cell.Turns pi c ∧ r.1 = Cell.centre c ∧
          r.2 = roundHalfEven (c.phi / (2 * pi)) ∧ 1 ≤ r.2) ∨
       (Cell.OneTurn pi c ∧ r.2 = 1 ∧ SolverResult nt ctx c r.1)) := by
  obtain ⟨L, A, h1, h2, h3, h4⟩ := calcRoots_justified hest (newton_stops nt est pi ctx)
    (newton_actJust nt pi hpi ctx) limit hre him w
  have hcells : newCells w (simpleArgumentNewton nt est pi limit ctx w).2 = L := by
    unfold newCells simpleArgumentNewton; rw [h1]; simp
  have hroots : newRoots w (simpleArgumentNewton nt est pi limit ctx w).2 = A := by
    unfold newRoots simpleArgumentNewton; rw [h2]; simp
  rw [hroots] at hr
  rcases h4 r hr with h | ⟨c, hc, hs, h⟩
  · exact Or.inl h
  · refine Or.inr ⟨c, hcells ▸ hc, h3 c hc, ?_⟩
    rcases h with ⟨hst, ht, rfl⟩ | ⟨_, hone, hmem⟩
    · refine Or.inl ⟨?_, ht, rfl, rfl, one_le_order hpi ht⟩
      rcases hst with h | h
      · exact absurd ht h
      · exact h
    · exact Or.inr ⟨hone, newtonResults_mem hmem⟩

/-- C41. In a completed search at most two roots of non-zero order are produced per evaluated rectangle at which the
refinement stopped with at least 0.8 turns. -/
theorem C41_bound (nt : NewtonSolver K) (est : LineEst σ K) (pi : K) (limit : ℕ) (ctx : RCtx K)
    (hest : BoundaryHits est ctx) (w w' : World σ K) (h : simpleArgumentNewton nt est pi limit ctx w = (.ok (), w')) :
    ((newRoots w w').filter fun r => decide (r.2 ≠ 0)).length ≤
      2 * ((newCells w w').filter fun c => decide (Cell.Turns pi c ∧
        (Cell.Small ctx.precision c ∨ Cell.OneTurn pi c))).length := by
  obtain ⟨phi, t, h1, h2, _, A, h4, h5⟩ :=
    calcRoots_tree hest (newton_stops nt est pi ctx) (newton_leafEffect nt pi ctx) limit w w' h
  have hcells : newCells w w' = ⟨ctx.reRan, ctx.imRan, phi⟩ :: t.log ctx.precision ⟨ctx.reRan, ctx.imRan, phi⟩ := by
    unfold newCells; rw [h2]; simp
  have hroots : newRoots w w' = A := by unfold newRoots; rw [h4]; simp
  have h6 := h5.length_le (fun r => decide (r.2 ≠ 0)) (fun c => if Cell.Turns pi c then 2 else 0)
    (by intro r hr; simpa using hr) (by
      intro c hc S hS
      rw [hS]
      by_cases hst : Cell.Stop pi ctx.precision c
      · rw [if_pos hst]
        by_cases ht : Cell.Turns pi c
        · rw [if_pos ht, if_pos ht]
          exact le_trans (List.length_filter_le _ _) (by simp)
        · rw [if_neg ht, if_neg ht]; simp
      · have ht : Cell.Turns pi c := by
          by_contra hn; exact hst (Or.inl hn)
        rw [if_neg hst, if_pos ht]
        exact le_trans (List.length_filter_le _ _) (newtonResults_length nt ctx c))
  have h7 : ((t.leaves ctx.precision ⟨ctx.reRan, ctx.imRan, phi⟩).map fun c => if Cell.Turns pi c then 2 else 0).sum =
      2 * ((t.leaves ctx.precision ⟨ctx.reRan, ctx.imRan, phi⟩).filter fun c => decide (Cell.Turns pi c)).length := by
    generalize t.leaves ctx.precision ⟨ctx.reRan, ctx.imRan, phi⟩ = l
    induction l with
    | nil => rfl
    | cons c l ih =>
      by_cases ht : Cell.Turns pi c
      · simp only [List.map_cons, List.sum_cons, ht, if_true, List.filter_cons, decide_true, List.length_cons, ih]; ring
      · simp [ht, ih]
  rw [hroots, hcells]
  refine le_trans h6 ?_
  rw [h7, ← t.leaves_eq_filter (NewtonStop pi ctx.precision) _ _ h1, List.filter_filter]
  refine Nat.mul_le_mul_left 2 (le_of_eq ?_)
  congr 1
  apply List.filter_congr
  intro c _
  rw [Bool.eq_iff_iff]
  rw [Bool.and_eq_true, decide_eq_true_iff, decide_eq_true_iff, decide_eq_true_iff]
  unfold NewtonStop Cell.Stop
  clear h h1 h2 h4 h5 h6 h7 hcells hroots hest
  tauto

/-- C41. Let a search complete. If at least 0.8 turns were reported for every evaluated rectangle containing the point
`z`, and on every evaluated rectangle containing `z` on which the solver is used it converges to a point closer
than `10^-p` to `z`, then a root of order at least 1 closer than `10^-p` to `z` was handed to the
container. -/
theorem C41_completeness (nt : NewtonSolver K) (est : LineEst σ K) (pi : K) (hpi : 0 < pi) (limit : ℕ) (ctx : RCtx K)
    (hest : BoundaryHits est ctx) (w w' : World σ K) (h : simpleArgumentNewton nt est pi limit ctx w = (.ok (), w'))
    (z : Cx K) (hz : Cell.Has ⟨ctx.reRan, ctx.imRan, 0⟩ z)
    (hturns : ∀ c ∈ newCells w w', Cell.Has c z → Cell.Turns pi c)
    (hconv : ∀ c ∈ newCells w w', Cell.Has c z → Cell.OneTurn pi c → ∃ z',
      nt.secant ctx.f ⟨c.re.1, (Cell.centre c).im⟩ ⟨c.re.2, (Cell.centre c).im⟩
        (min ((10 : K) ^ (-ctx.precision.1)) (10 ^ (-ctx.precision.2))) = some z' ∧
      Near ((10 : K) ^ (-ctx.precision.1), (10 : K) ^ (-ctx.precision.2)) z' z) :
    ∃ r ∈ newRoots w w', 1 ≤ r.2 ∧ Near ((10 : K) ^ (-ctx.precision.1), (10 : K) ^ (-ctx.precision.2)) r.1 z := by
  obtain ⟨phi, t, h1, h2, _, A, h4, h5⟩ :=
    calcRoots_tree hest (newton_stops nt est pi ctx) (newton_leafEffect nt pi ctx) limit w w' h
  have hcells : newCells w w' = ⟨ctx.reRan, ctx.imRan, phi⟩ :: t.log ctx.precision ⟨ctx.reRan, ctx.imRan, phi⟩ := by
    unfold newCells; rw [h2]; simp
  have hroots : newRoots w w' = A := by unfold newRoots; rw [h4]; simp
  have hz' : Cell.Has ⟨ctx.reRan, ctx.imRan, phi⟩ z := hz
  obtain ⟨l, hl, hlz⟩ := (t.cover ctx.precision _ z).1 hz'
  have hlog : l ∈ newCells w w' := hcells ▸ t.leaves_subset_log _ _ l hl
  have ht : Cell.Turns pi l := hturns l hlog hlz
  obtain ⟨S, hS, hSA⟩ := h5.leaf_mem hl
  rw [hroots]
  by_cases hst : Cell.Stop pi ctx.precision l
  · rw [if_pos hst, if_pos ht] at hS
    have hs : Cell.Small ctx.precision l := by
      rcases hst with h | h
      · exact absurd ht h
      · exact h
    refine ⟨candidate pi l, hSA _ (by simp [hS]), one_le_order hpi ht, ?_⟩
    obtain ⟨s1, s2⟩ := hs
    obtain ⟨z1, z2, z3, z4⟩ := hlz
    have p1 : (0 : K) < 10 ^ (-ctx.precision.1) := by positivity
    have p2 : (0 : K) < 10 ^ (-ctx.precision.2) := by positivity
    unfold Near candidate Cell.centre
    dsimp only
    rw [abs_lt, abs_lt]
    refine ⟨⟨?_, ?_⟩, ?_, ?_⟩ <;> linarith
  · have hone : Cell.OneTurn pi l := by
      rcases t.leaves_stop _ _ _ h1 l hl with h | h
      · exact absurd h hst
      · exact h
    obtain ⟨z', hz1, hz2⟩ := hconv l hlog hlz hone
    rw [if_neg hst] at hS
    have e1 : (1 / 2 * (l.im.1 + l.im.2) : K) = (Cell.centre l).im := by unfold Cell.centre; dsimp only; ring
    refine ⟨(z', 1), hSA _ ?_, le_refl _, hz2⟩
    rw [hS]
    unfold newtonResults
    rw [e1]
    have hz3 : nt.secant ctx.f ⟨l.re.1, (Cell.centre l).im⟩ ⟨l.re.2, (Cell.centre l).im⟩
      (min (eps10 K ctx.precision.1) (eps10 K ctx.precision.2)) = some z' := hz1
    dsimp only
    rw [hz3]
    simp

theorem never_newtonAct (nt : NewtonSolver K) (pi : K) (ctx : RCtx K) (c : Cell K) :
    Never .runtimeError (newtonAct nt pi ctx c : Py (World σ K) Unit) := by
  unfold newtonAct
  split
  · unfold simpleAct
    split
    · exact never_advance (by simp) _ _
    · exact Never.bind (never_addRoot (by simp) _) fun _ => never_advance (by simp) _ _
  · intro w
    unfold Py.tryFinally
    have hn := never_advance (σ := σ) (e := .runtimeError) (by simp) ctx (Cell.area c)
      (Py.exceptRuntimeError (newtonBlock nt c.re c.im ctx) w).2
    rcases ha : World.advance ctx (Cell.area c) (Py.exceptRuntimeError (newtonBlock nt c.re c.im ctx) w).2
      with ⟨e | _, w2⟩ <;> rw [ha] at hn
    · exact hn
    · dsimp only
      unfold Py.exceptRuntimeError
      rcases newtonBlock nt c.re c.im ctx w with ⟨e | _, w1⟩
      · cases e <;> simp
      · simp

/-- C41. No `RuntimeError` of the solver escapes: if the estimator raises none, the search raises none. -/
theorem C41_no_runtime_error (nt : NewtonSolver K) (est : LineEst σ K) (pi : K) (limit : ℕ) (ctx : RCtx K)
    (hest : ∀ order a b w, (est order a b ctx w).1 ≠ .error .runtimeError) (w : World σ K) :
    (simpleArgumentNewton nt est pi limit ctx w).1 ≠ .error .runtimeError := by
  have hcl := Never.closed (σ := σ) ctx.f .runtimeError (by simp [Err.ofEstimator]) (by simp)
  have hphase : ∀ re im, Never .runtimeError (phaseOf est re im ctx) := by
    intro re im
    unfold phaseOf
    exact Never.bind (hcl.calcMoment hest 0 re im) fun m => Never.bind (fun w => by simp) fun _ => Never.pure _
  have hdisp : ∀ (limit : ℕ) (c : Cell K), Never .runtimeError ((dispatch (newtonDecide nt est pi) limit).at ctx c) := by
    intro limit
    induction limit with
    | zero => intro c w; simp [dispatch, Decide.at]
    | succ l ih =>
      intro c
      have hd1 : (dispatch (newtonDecide nt est pi) (l + 1)).at ctx c =
        (newtonDecide nt est pi (dispatch (newtonDecide nt est pi) l)).at ctx c := rfl
      rw [hd1]
      by_cases hs : NewtonStop pi ctx.precision c
      · rw [(newton_stops nt est pi ctx _ c).1 hs]; exact never_newtonAct nt pi ctx c
      · rw [(newton_stops nt est pi ctx _ c).2 hs]
        unfold splitStep
        refine Never.bind (hphase _ _) fun phi1 => Never.bind (ih _) fun _ => ?_
        refine Never.bind (fun w => by simp [cacheRemove]) fun _ => Never.bind (hphase _ _) fun phi2 => ?_
        exact Never.bind (ih _) fun _ w => by simp [cacheRemove]
  unfold simpleArgumentNewton calcRoots
  refine Never.bind (fun w => by simp [resetCache]) (fun _ => ?_) w
  exact Never.bind (hphase _ _) fun phi => hdisp limit ⟨ctx.reRan, ctx.imRan, phi⟩

/-! Examples: a rectangle with three zeros, two of them close together; a solver that works and one that fails. -/

def nZeros : List (Cx ℚ) := [⟨1 / 100, 1 / 100⟩, ⟨2 / 25, 1 / 100⟩, ⟨2 / 25, 1 / 100⟩]
def nCtx : RCtx ℚ := { f := exF, df := none, precision := (1, 1), reRan := (0, 3 / 20), imRan := (0, 1 / 20) }
/-- finds the zero left of the midpoint -/
def goodSolver : NewtonSolver ℚ := ⟨fun _ _ _ _ => some ⟨1 / 100, 1 / 100⟩, fun _ _ _ _ => none, fun _ _ _ => none⟩
/-- never converges -/
def badSolver : NewtonSolver ℚ := ⟨fun _ _ _ _ => none, fun _ _ _ _ => none, fun _ _ _ => none⟩
def nCtx' : RCtx ℚ := { nCtx with precision := (2, 2) }
def nRun (nt : NewtonSolver ℚ) : Except Err Unit × World Unit ℚ :=
  simpleArgumentNewton nt (crossEst exPi nZeros) exPi 20 nCtx' exWorld

/-- non-vacuity: a completed search using the solver for one of the zeros, refining down to the accuracy for the
double zero; the hypotheses of `C41_completeness` hold for the zero found by the solver -/
example : (nRun goodSolver).1 = .ok () ∧
    (newRoots exWorld (nRun goodSolver).2).map Prod.snd = [1, 2] ∧
    (∀ c ∈ newCells exWorld (nRun goodSolver).2, Cell.Has c ⟨1 / 100, 1 / 100⟩ → Cell.Turns exPi c) ∧
    ∃ c ∈ newCells exWorld (nRun goodSolver).2, Cell.OneTurn exPi c := by decide +kernel

/-- C41, silent loss: with a solver that fails the same search completes without exception and without the zero -/
example : (nRun badSolver).1 = .ok () ∧ (newRoots exWorld (nRun badSolver).2).map Prod.snd = [2] := by
  decide +kernel

/-! ## C42 -/

/-- C42. Given the power sums of `n` complex numbers, the coefficients computed are those of the monic polynomial with
exactly these numbers as roots (with multiplicity), lowest degree first. -/
theorem C42_coefficients (zs : List (Cx K)) :
    let c := coefficientsFromMoments ((List.range zs.length).map fun (k : ℕ) => (zs.map fun z => z ^ (k + 1)).sum)
    c.length = zs.length + 1 ∧
    ∀ i, i ≤ zs.length → c[i]? = some (((zs.map fun z => Polynomial.X - Polynomial.C z).prod :
      Polynomial (Cx K)).coeff i) := by
  intro c
  have hc : c = _ := coefficientsFromMoments_eq zs
  rw [hc]
  refine ⟨by simp, fun i hi => ?_⟩
  rw [List.getElem?_map, List.getElem?_range (by omega)]
  rfl

/-- C42, evaluated: the polynomial with the computed coefficients is the product of the `x - z`. -/
theorem C42_evaluation (zs : List (Cx K)) (x : Cx K) :
    let c := coefficientsFromMoments ((List.range zs.length).map fun (k : ℕ) => (zs.map fun z => z ^ (k + 1)).sum)
    ((List.range (zs.length + 1)).map fun (i : ℕ) => c.getD i 0 * x ^ i).sum = (zs.map fun z => x - z).prod := by
  intro c
  have hc := (C42_coefficients zs).2
  have hd : ((zs.map fun z => Polynomial.X - Polynomial.C z).prod : Polynomial (Cx K)).natDegree < zs.length + 1 := by
    have := Polynomial.natDegree_multiset_prod_X_sub_C_eq_card (zs : Multiset (Cx K))
    simp only [Multiset.map_coe, Multiset.prod_coe, Multiset.coe_card] at this
    omega
  have h1 : (zs.map fun z => x - z).prod =
      ((zs.map fun z => Polynomial.X - Polynomial.C z).prod : Polynomial (Cx K)).eval x := by
    rw [Polynomial.eval_list_prod, List.map_map]
    congr 1
    apply List.map_congr_left
    intro z _
    simp
  rw [h1, Polynomial.eval_eq_sum_range' hd]
  rw [← List.sum_toFinset _ List.nodup_range]
  apply Finset.sum_congr (by ext; simp)
  intro i hi
  have hi' : i ≤ zs.length := by
    rw [Finset.mem_range] at hi; omega
  rw [List.getD_eq_getElem?_getD, hc i hi', Option.getD_some]

/-- non-vacuity: the polynomial with roots 1, 1 and i is `x^3 - (2 + i) x^2 + (1 + 2i) x - i` -/
example : coefficientsFromMoments ((List.range 3).map fun (k : ℕ) =>
      (([⟨1, 0⟩, ⟨1, 0⟩, ⟨0, 1⟩] : List (Cx ℚ)).map fun z => z ^ (k + 1)).sum) =
    [⟨0, -1⟩, ⟨1, 2⟩, ⟨-2, -1⟩, ⟨1, 0⟩] := by decide +kernel

/-! ## C43 -/

/-- C43. Without derivative the search never completes: nothing of order other than 0 is handed to the container, and
once the first rectangle is evaluated the search raises `ValueError`. -/
theorem C43_no_derivative (polyRoots : List (Cx K) → List (Cx K)) (est : LineEst σ K) (pi : K) (limit : ℕ)
    (ctx : RCtx K) (hest : BoundaryHits est ctx) (hdf : ctx.df = none) (w : World σ K) :
    let run := associatedPolynomial polyRoots est pi (limit + 1) ctx w
    run.1 ≠ .ok () ∧ (newCells w run.2 ≠ [] → run.1 = .error .valueError) ∧
    ∀ r ∈ newRoots w run.2, r.2 = 0 ∧ ctx.f r.1 = 0 := by
  intro run
  have hrun : run = calcRoots est (polynomialDecide polyRoots est pi) (limit + 1) ctx w := rfl
  unfold calcRoots resetCache at hrun
  rw [Py.bind_run, Py.modify_run] at hrun
  dsimp only at hrun
  generalize hw0 : (if w.cache.dirty = true then { w with cache := w.cache.reset } else w) = w0 at hrun
  have g1 : w0.log = w.log := by rw [← hw0]; split <;> rfl
  have g3 : w0.added = w.added := by rw [← hw0]; split <;> rfl
  have hd : ∀ phi w1, dispatch (polynomialDecide polyRoots est pi) (limit + 1) ctx.reRan ctx.imRan phi ctx w1 =
      (.error .valueError, w1) := by
    intro phi w1
    change polynomialDecide polyRoots est pi _ ctx.reRan ctx.imRan phi ctx w1 = _
    unfold polynomialDecide
    rw [hdf]
    rfl
  rw [Py.bind_run] at hrun
  have hp := phaseOf_any hest ctx.reRan ctx.imRan w0
  rcases hph : phaseOf est ctx.reRan ctx.imRan ctx w0 with ⟨e | phi, w1⟩ <;> rw [hph] at hrun hp <;> dsimp only at hrun hp
  · obtain ⟨⟨zs, h1, h2⟩, h3⟩ := hp
    have hn : newRoots w run.2 = zs := by unfold newRoots; rw [hrun]; dsimp only; rw [h1, g3]; simp
    have hc : newCells w run.2 = [] := by unfold newCells; rw [hrun]; dsimp only; rw [h3, g1]; simp
    rw [hn, hc, hrun]
    exact ⟨by simp, by simp, h2⟩
  · rw [hd] at hrun
    obtain ⟨⟨zs, h1, h2⟩, h3⟩ := hp
    have hn : newRoots w run.2 = zs := by unfold newRoots; rw [hrun]; dsimp only; rw [h1, g3]; simp
    rw [hn]
    rw [hrun]
    exact ⟨by simp, by simp, h2⟩

/-- C43. With the summation estimator (fresh, or used for order 0 only): as soon as an evaluated rectangle shows
between 0.8 and 3.4 turns and is not yet below the accuracy, the search does not complete, this
is the last evaluated rectangle, and the outcome is `NotImplementedError` unless the search was interrupted or
ran into the recursion limit. -/
theorem C43_summation (polyRoots : List (Cx K) → List (Cx K)) (cfg : SumCfg K) (pi : K) (hpi : 0 < pi) (ctx : RCtx K)
    (hdf : ctx.df.isSome) (limit : ℕ) (w : World (SumState K) K) (hw : w.est = SumState.fresh) (c : Cell K) :
    let run := associatedPolynomial polyRoots (sumLine cfg) pi limit ctx w
    c ∈ newCells w run.2 → Cell.FewTurns pi c → ¬ Cell.Small ctx.precision c →
    (run.1 = .error .notImplementedError ∨ run.1 = .error .keyboardInterrupt ∨ run.1 = .error .recursionError) ∧
    (newCells w run.2).getLast? = some c := by
  intro run hc hf hs
  have hrun : run = calcRoots (sumLine cfg) (polynomialDecide polyRoots (sumLine cfg) pi) limit ctx w := rfl
  unfold calcRoots resetCache at hrun
  rw [Py.bind_run, Py.modify_run] at hrun
  dsimp only at hrun
  generalize hw0 : (if w.cache.dirty = true then { w with cache := w.cache.reset } else w) = w0 at hrun
  have g1 : w0.log = w.log := by rw [← hw0]; split <;> rfl
  have g2 : w0.est = w.est := by rw [← hw0]; split <;> rfl
  have g3 : w0.cache.data = [] := by
    rw [← hw0]
    split
    · rfl
    · rename_i h
      unfold EstCache.dirty at h
      simpa using h
  have hn0 : NoHigher w0 := by
    refine ⟨by rw [g2, hw]; exact OnlyOrderZero.fresh,
      CacheWF.of_data (c := EstCache.init false) (CacheWF.init _) g3, fun o a b _ => ?_⟩
    unfold EstCache.look
    rw [g3]
    rfl
  rw [Py.bind_run] at hrun
  have hn1 := NoHigher.phase cfg ctx ctx.reRan ctx.imRan hn0
  have hp := phaseOf_any (est := sumLine cfg) (ctx := ctx) (sumLine_hits cfg ctx) ctx.reRan ctx.imRan w0
  rcases hph : phaseOf (sumLine cfg) ctx.reRan ctx.imRan ctx w0 with ⟨e | phi, w1⟩ <;>
    rw [hph] at hrun hp hn1 <;> dsimp only at hrun hp hn1
  · have hc' : newCells w run.2 = [] := by unfold newCells; rw [hrun]; dsimp only; rw [hp.2, g1]; simp
    rw [hc'] at hc
    simp at hc
  · obtain ⟨_, L, h1, h2⟩ := dispatch_stuck polyRoots cfg pi hpi ctx hdf limit ⟨ctx.reRan, ctx.imRan, phi⟩ w1 hn1
    have hrun' : run = (dispatch (polynomialDecide polyRoots (sumLine cfg) pi) limit).at ctx
      ⟨ctx.reRan, ctx.imRan, phi⟩ w1 := hrun
    rw [← hrun'] at h1 h2
    have hc' : newCells w run.2 = ⟨ctx.reRan, ctx.imRan, phi⟩ :: L := by
      unfold newCells; rw [h1, hp.2, g1]; simp
    rw [hc'] at hc ⊢
    exact h2 c hc ⟨hf, hs⟩

theorem Tree.halfOpen_rect (p : ℤ × ℤ) (t : Tree K) (c l : Cell K) (z : Cx K) (hl : l ∈ t.leaves p c)
    (h : Cell.HasHalfOpen l z) : Cell.HasHalfOpen c z := by
  have h1 := t.count_leaves p c [z]
  have h2 : Cell.count l [z] = 1 := by simp [Cell.count, h]
  have h3 : Cell.count l [z] ≤ ((t.leaves p c).map fun l => Cell.count l [z]).sum :=
    List.single_le_sum (by simp) _ (List.mem_map.2 ⟨l, hl, rfl⟩)
  by_contra hn
  have h4 : Cell.count c [z] = 0 := by simp [Cell.count, hn]
  omega

theorem mem_inside {c : Cell K} {zeros : List (Cx K)} {z : Cx K} :
    z ∈ Cell.inside c zeros ↔ z ∈ zeros ∧ Cell.HasHalfOpen c z := by
  unfold Cell.inside; simp

theorem near_centre {p : ℤ × ℤ} {c : Cell K} {z : Cx K} (hs : Cell.Small p c) (hz : Cell.HasHalfOpen c z) :
    Near ((10 : K) ^ (-p.1), (10 : K) ^ (-p.2)) (Cell.centre c) z := by
  obtain ⟨s1, s2⟩ := hs
  obtain ⟨z1, z2, z3, z4⟩ := hz
  have p1 : (0 : K) < 10 ^ (-p.1) := by positivity
  have p2 : (0 : K) < 10 ^ (-p.2) := by positivity
  unfold Near Cell.centre
  dsimp only
  rw [abs_lt, abs_lt]
  refine ⟨⟨?_, ?_⟩, ?_, ?_⟩ <;> linarith

theorem near_symm {eps : K × K} {a b : Cx K} (h : Near eps a b) : Near eps b a := by
  unfold Near at *
  rw [abs_sub_comm b.re, abs_sub_comm b.im]; exact h

/-- exact phases: orders and thresholds -/
theorem exact_turns {pi : K} (hpi : 0 < pi) {c : Cell K} {zeros : List (Cx K)}
    (h : c.phi = 2 * pi * (Cell.count c zeros : K)) :
    (Cell.Turns pi c ↔ Cell.count c zeros ≠ 0) ∧ roundHalfEven (c.phi / (2 * pi)) = (Cell.count c zeros : ℤ) := by
  constructor
  · unfold Cell.Turns
    rw [h]
    constructor
    · intro h1 h0
      rw [h0] at h1
      simp at h1
      linarith
    · intro h0
      have : (1 : K) ≤ (Cell.count c zeros : K) := by exact_mod_cast Nat.one_le_iff_ne_zero.2 h0
      nlinarith
  · have e : c.phi / (2 * pi) = ((Cell.count c zeros : ℤ) : K) := by rw [h]; field_simp; simp
    rw [e]
    obtain ⟨g1, g2⟩ := roundHalfEven_spec (((Cell.count c zeros : ℤ)) : K)
    exact nearest_int_unique g1 g2 (by simp) (fun h => by simp at h)

/-- C43. Let the estimator be conforming and the polynomial roots be exact, and let a search complete. Then the orders
of the roots handed to the container sum up to the number of zeros in the search rectangle; every zero in it has
an added root of positive order closer than `10^-p` in both coordinates; every added root of non-zero order has
positive order and is that close to a zero; and every added root of order zero is an exact zero of the function. -/
theorem C43_exact (polyRoots : List (Cx K) → List (Cx K)) (hroots : ∀ zs, (polyRoots (coefficientsOf zs)).Perm zs)
    (est : LineEst σ K) (pi : K) (hpi : 0 < pi) (limit : ℕ) (ctx : RCtx K)
    (hre : ctx.reRan.1 ≤ ctx.reRan.2) (him : ctx.imRan.1 ≤ ctx.imRan.2) (hest : BoundaryHits est ctx)
    (zeros : List (Cx K)) (L : ℤ → Cx K → Cx K → Cx K) (hconf : Conforming est ctx pi zeros L)
    (w w' : World σ K) (h : associatedPolynomial polyRoots est pi limit ctx w = (.ok (), w')) :
    let eps := ((10 : K) ^ (-ctx.precision.1), (10 : K) ^ (-ctx.precision.2))
    let rect : Cell K := ⟨ctx.reRan, ctx.imRan, 0⟩
    ((newRoots w w').map Prod.snd).sum = Cell.count rect zeros ∧
    (∀ z ∈ zeros, Cell.HasHalfOpen rect z → ∃ r ∈ newRoots w w', 1 ≤ r.2 ∧ Near eps r.1 z) ∧
    (∀ r ∈ newRoots w w', r.2 ≠ 0 → 1 ≤ r.2 ∧ ∃ z ∈ zeros, Cell.HasHalfOpen rect z ∧ Near eps r.1 z) ∧
    (∀ r ∈ newRoots w w', r.2 = 0 → ctx.f r.1 = 0) ∧ w'.added = w.added ++ newRoots w w' := by
  intro eps rect
  have hdf : ctx.df.isSome := by
    rcases limit with _ | limit
    · unfold associatedPolynomial calcRoots resetCache at h
      rw [Py.bind_run, Py.modify_run] at h
      dsimp only at h
      rw [Py.bind_run] at h
      generalize hw0 : (if w.cache.dirty = true then { w with cache := w.cache.reset } else w) = w0 at h
      rcases hp : phaseOf est ctx.reRan ctx.imRan ctx w0 with ⟨_ | phi, w1⟩ <;> rw [hp] at h
      · simp at h
      · simp [dispatch] at h
    · rcases hd : ctx.df with _ | df
      · exact absurd (congrArg Prod.fst h) (C43_no_derivative polyRoots est pi limit ctx hest hd w).1
      · rfl
  obtain ⟨phi, t, h1, h2, h3, _, A, h4, h5⟩ := calcRoots_tree_inv
    (Good := fun c => c.phi = 2 * pi * (Cell.count c zeros : K))
    (I := CacheOf L) (adv := fun c => if ctx.progress then
        [if Cell.Stop pi ctx.precision c then leafAdvance pi c else Cell.area c] else [])
    (Leaf := fun c A => if Cell.Stop pi ctx.precision c then A = (if Cell.Turns pi c then [candidate pi c] else [])
        else ∃ zs, A = zs ++ clusterLoop (eps10 K ctx.precision.1, eps10 K ctx.precision.2)
            (polyRoots (coefficientsOf (Cell.inside c zeros))) [] ∧ ∀ r ∈ zs, r.2 = 0 ∧ ctx.f r.1 = 0)
    hest (poly_stops polyRoots est pi ctx hdf)
    (fun re im w w' phi hI hin hp => phaseOf_exact hconf re im w w' phi hI hin hp)
    (fun w a b hI => hI.remove w a b) CacheOf.reset
    (fun c w w' hI hg hin _ ha => polyAct_exact hpi hconf hest c w w' hI hg hin ha) hre him limit w w' h
  have hroots' : newRoots w w' = A := by unfold newRoots; rw [h4]; simp
  have hgood : ∀ l ∈ t.leaves ctx.precision ⟨ctx.reRan, ctx.imRan, phi⟩, l.phi = 2 * pi * (Cell.count l zeros : K) :=
    fun l hl => h3 l (t.leaves_subset_log _ _ l hl)
  have cl : ∀ l : Cell K, _ := fun l => clusterLoop_spec (eps := (eps10 K ctx.precision.1, eps10 K ctx.precision.2))
    (eps10_pos _) (eps10_pos _) (polyRoots (coefficientsOf (Cell.inside l zeros))) [] (by simp) (by simp)
  rw [hroots']
  refine ⟨?_, ?_, ?_, ?_, h4⟩
  · rw [h5.sum Prod.snd (fun c => (Cell.count c zeros : ℤ)) (fun r hr => hr) ?_]
    · have hc := t.count_leaves ctx.precision ⟨ctx.reRan, ctx.imRan, phi⟩ zeros
      have hc' : Cell.count rect zeros = Cell.count ⟨ctx.reRan, ctx.imRan, phi⟩ zeros := rfl
      rw [hc', ← hc]
      push_cast
      rw [List.map_map]
      rfl
    · intro c hc S hS
      obtain ⟨e1, e2⟩ := exact_turns hpi (hgood c hc)
      by_cases hs : Cell.Stop pi ctx.precision c
      · rw [if_pos hs] at hS
        rw [hS]
        by_cases ht : Cell.Turns pi c
        · rw [if_pos ht]
          simp only [List.map_cons, List.map_nil, List.sum_cons, List.sum_nil, add_zero, candidate]
          exact e2
        · rw [if_neg ht]
          have : Cell.count c zeros = 0 := by
            by_contra hne; exact ht (e1.2 hne)
          rw [this]; rfl
      · rw [if_neg hs] at hS
        obtain ⟨zs, rfl, hz⟩ := hS
        rw [List.map_append, List.sum_append]
        have z0 : (zs.map Prod.snd).sum = 0 := by
          apply List.sum_eq_zero
          intro x hx
          obtain ⟨r, hr, rfl⟩ := List.mem_map.1 hx
          exact (hz r hr).1
        rw [z0, (cl c).2.1, (hroots (Cell.inside c zeros)).length_eq]
        simp [Cell.count, Cell.inside]
  · intro z hz hzr
    obtain ⟨l, hl, hlz⟩ := t.halfOpen_leaf ctx.precision ⟨ctx.reRan, ctx.imRan, phi⟩ z hzr
    obtain ⟨e1, e2⟩ := exact_turns hpi (hgood l hl)
    obtain ⟨S, hS, hSA⟩ := h5.leaf_mem hl
    have hmem : z ∈ Cell.inside l zeros := mem_inside.2 ⟨hz, hlz⟩
    have ht : Cell.Turns pi l := by
      apply e1.2
      have : 0 < (Cell.inside l zeros).length := List.length_pos_of_mem hmem
      have e : Cell.count l zeros = (Cell.inside l zeros).length := rfl
      omega
    by_cases hs : Cell.Stop pi ctx.precision l
    · rw [if_pos hs, if_pos ht] at hS
      have hsm : Cell.Small ctx.precision l := by
        rcases hs with h | h
        · exact absurd ht h
        · exact h
      exact ⟨candidate pi l, hSA _ (by simp [hS]), one_le_order hpi ht, near_centre hsm hlz⟩
    · rw [if_neg hs] at hS
      obtain ⟨zs, rfl, _⟩ := hS
      obtain ⟨r, hr, hn⟩ := (cl l).2.2.2.2 z ((hroots _).mem_iff.2 hmem)
      exact ⟨r, hSA _ (List.mem_append.2 (Or.inr hr)), (cl l).1 r hr, near_symm hn⟩
  · intro r hr hr0
    rcases h5.root_mem hr with h | ⟨l, hl, S, hS, hrS⟩
    · exact absurd h.1 hr0
    obtain ⟨e1, e2⟩ := exact_turns hpi (hgood l hl)
    by_cases hs : Cell.Stop pi ctx.precision l
    · rw [if_pos hs] at hS
      by_cases ht : Cell.Turns pi l
      · rw [if_pos ht] at hS
        rw [hS, List.mem_singleton] at hrS
        subst hrS
        have hsm : Cell.Small ctx.precision l := by
          rcases hs with h | h
          · exact absurd ht h
          · exact h
        have hne := e1.1 ht
        have e : Cell.count l zeros = (Cell.inside l zeros).length := rfl
        rw [e] at hne
        obtain ⟨z, hz⟩ := List.exists_mem_of_length_pos (Nat.pos_of_ne_zero hne)
        obtain ⟨hz1, hz2⟩ := mem_inside.1 hz
        exact ⟨one_le_order hpi ht, z, hz1, Tree.halfOpen_rect _ t ⟨ctx.reRan, ctx.imRan, phi⟩ l z hl hz2,
          near_centre hsm hz2⟩
      · rw [if_neg ht] at hS
        rw [hS] at hrS
        simp at hrS
    · rw [if_neg hs] at hS
      obtain ⟨zs, rfl, hz⟩ := hS
      rcases List.mem_append.1 hrS with h | h
      · exact absurd (hz r h).1 hr0
      · obtain ⟨new, n1, n2⟩ := (cl l).2.2.1
        have hm : r.1 ∈ polyRoots (coefficientsOf (Cell.inside l zeros)) := by
          apply n2.subset
          have : r.1 ∈ (clusterLoop (eps10 K ctx.precision.1, eps10 K ctx.precision.2)
            (polyRoots (coefficientsOf (Cell.inside l zeros))) []).map Prod.fst := List.mem_map.2 ⟨r, h, rfl⟩
          rw [n1] at this
          simpa using this
        obtain ⟨hz1, hz2⟩ := mem_inside.1 ((hroots _).mem_iff.1 hm)
        exact ⟨(cl l).1 r h, r.1, hz1, Tree.halfOpen_rect _ t ⟨ctx.reRan, ctx.imRan, phi⟩ l r.1 hl hz2,
          Spec.Near.refl (eps10_pos _) (eps10_pos _) _⟩
  · intro r hr hr0
    rcases h5.root_mem hr with h | ⟨l, hl, S, hS, hrS⟩
    · exact h.2
    by_cases hs : Cell.Stop pi ctx.precision l
    · rw [if_pos hs] at hS
      by_cases ht : Cell.Turns pi l
      · rw [if_pos ht] at hS
        rw [hS, List.mem_singleton] at hrS
        subst hrS
        have := one_le_order hpi ht
        unfold candidate at hr0
        dsimp only at hr0
        omega
      · rw [if_neg ht] at hS
        rw [hS] at hrS
        simp at hrS
    · rw [if_neg hs] at hS
      obtain ⟨zs, rfl, hz⟩ := hS
      rcases List.mem_append.1 hrS with h | h
      · exact (hz r h).2
      · have := (cl l).1 r h
        omega

/-- the coefficients determine the roots -/
theorem coefficientsOf_inj {zs zs' : List (Cx K)} (h : coefficientsOf zs = coefficientsOf zs') : zs.Perm zs' := by
  have hlen : zs.length = zs'.length := by
    have := congrArg List.length h
    simpa [coefficientsOf] using this
  have hd : ∀ zs : List (Cx K), ((zs.map fun z => Polynomial.X - Polynomial.C z).prod : Polynomial (Cx K)).natDegree =
      zs.length := by
    intro zs
    have := Polynomial.natDegree_multiset_prod_X_sub_C_eq_card (zs : Multiset (Cx K))
    simpa only [Multiset.map_coe, Multiset.prod_coe, Multiset.coe_card] using this
  have hp : ((zs.map fun z => Polynomial.X - Polynomial.C z).prod : Polynomial (Cx K)) =
      (zs'.map fun z => Polynomial.X - Polynomial.C z).prod := by
    ext1 i
    by_cases hi : i ≤ zs.length
    · have := congrArg (fun l : List (Cx K) => l[i]?) h
      dsimp only [coefficientsOf] at this
      rw [List.getElem?_map, List.getElem?_map, List.getElem?_range (by omega), List.getElem?_range (by omega)] at this
      simpa using this
    · rw [Polynomial.coeff_eq_zero_of_natDegree_lt (by rw [hd]; omega),
        Polynomial.coeff_eq_zero_of_natDegree_lt (by rw [hd]; omega)]
  have hr := congrArg Polynomial.roots hp
  have hrr : ∀ zs : List (Cx K), ((zs.map fun z => Polynomial.X - Polynomial.C z).prod : Polynomial (Cx K)).roots = zs := by
    intro zs
    have := Polynomial.roots_multiset_prod_X_sub_C (zs : Multiset (Cx K))
    simpa only [Multiset.map_coe, Multiset.prod_coe] using this
  rw [hrr, hrr] at hr
  exact Multiset.coe_eq_coe.1 hr

/-- non-vacuity: exact polynomial roots exist -/
theorem exact_polyRoots_exist :
    ∃ polyRoots : List (Cx K) → List (Cx K), ∀ zs, (polyRoots (coefficientsOf zs)).Perm zs := by
  classical
  refine ⟨fun cs => if h : ∃ zs, coefficientsOf zs = cs then h.choose else [], fun zs => ?_⟩
  have h : ∃ zs', coefficientsOf zs' = coefficientsOf zs := ⟨zs, rfl⟩
  dsimp only
  rw [dif_pos h]
  exact coefficientsOf_inj h.choose_spec

/-! Examples: four zeros, three of them close together right of the imaginary axis. The search refines once, then solves a
linear and a cubic polynomial. -/

def pZeros : List (Cx ℚ) := [⟨1 / 2, 1 / 2⟩, ⟨1 / 2, 1 / 2⟩, ⟨3 / 4, 1 / 2⟩, ⟨-1 / 2, 1 / 4⟩]
def pCtx : RCtx ℚ :=
  { f := exF, df := some exF, precision := (1, 1), reRan := (-1, 1), imRan := (-1, 1) }
/-- coefficients of `x + 1/2 - i/4` -/
def pLinear : List (Cx ℚ) := coefficientsFromMoments ((List.range 1).map fun (k : ℕ) =>
  (([⟨-1 / 2, 1 / 4⟩] : List (Cx ℚ)).map fun z => z ^ (k + 1)).sum)
/-- coefficients of the cubic polynomial -/
def pCubic : List (Cx ℚ) := coefficientsFromMoments ((List.range 3).map fun (k : ℕ) =>
  (([⟨1 / 2, 1 / 2⟩, ⟨1 / 2, 1 / 2⟩, ⟨3 / 4, 1 / 2⟩] : List (Cx ℚ)).map fun z => z ^ (k + 1)).sum)
/-- exact roots of polynomials -/
noncomputable def pRoots (cs : List (Cx ℚ)) : List (Cx ℚ) :=
  if cs = pLinear then [⟨-1 / 2, 1 / 4⟩]
  else if cs = pCubic then [⟨3 / 4, 1 / 2⟩, ⟨1 / 2, 1 / 2⟩, ⟨1 / 2, 1 / 2⟩]
  else (exact_polyRoots_exist (K := ℚ)).choose cs

theorem pRoots_exact (zs : List (Cx ℚ)) : (pRoots (coefficientsOf zs)).Perm zs := by
  unfold pRoots
  split_ifs with h1 h2
  · have h : coefficientsOf zs = coefficientsOf [⟨-1 / 2, 1 / 4⟩] := by
      rw [h1]; exact coefficientsFromMoments_eq (K := ℚ) [⟨-1 / 2, 1 / 4⟩]
    exact (coefficientsOf_inj h).symm
  · have h : coefficientsOf zs = coefficientsOf [⟨1 / 2, 1 / 2⟩, ⟨1 / 2, 1 / 2⟩, ⟨3 / 4, 1 / 2⟩] := by
      rw [h2]; exact coefficientsFromMoments_eq (K := ℚ) [⟨1 / 2, 1 / 2⟩, ⟨1 / 2, 1 / 2⟩, ⟨3 / 4, 1 / 2⟩]
    refine List.Perm.trans ?_ (coefficientsOf_inj h).symm
    decide +kernel
  · exact (exact_polyRoots_exist (K := ℚ)).choose_spec zs

noncomputable def pRun : Except Err Unit × World Unit ℚ :=
  associatedPolynomial pRoots (crossEst exPi pZeros) exPi 20 pCtx exWorld

/-- non-vacuity of `C43_exact`: the search completes -/
theorem pRun_ok : pRun.1 = .ok () := by decide +kernel
example : newRoots exWorld pRun.2 = [(⟨-1 / 2, 1 / 4⟩, 1), (⟨3 / 4, 1 / 2⟩, 1), (⟨1 / 2, 1 / 2⟩, 2)] := by
  decide +kernel
example : ((newRoots exWorld pRun.2).map Prod.snd).sum = (4 : ℕ) :=
  (C43_exact pRoots pRoots_exact (crossEst exPi pZeros) exPi (by unfold exPi; norm_num) 20 pCtx (by decide +kernel)
    (by decide +kernel) (crossEst_hits _ _ _) pZeros _ (crossEst_conforming _ _ _) exWorld pRun.2
    (Prod.ext pRun_ok rfl)).1.trans (by decide +kernel)

/-- non-vacuity of `C43_no_derivative` -/
example : (associatedPolynomial pRoots (crossEst exPi pZeros) exPi 20 { pCtx with df := none } exWorld).1 =
    .error .valueError := by decide +kernel

/-- winds once around the origin, in quarter turns -/
def quadrants : Cx ℚ → Cx ℚ := fun z =>
  if 0 ≤ z.re then (if 0 ≤ z.im then 1 else ⟨0, -1⟩) else (if 0 ≤ z.im then ⟨0, 1⟩ else -1)
def qCtx : RCtx ℚ :=
  { f := quadrants, df := some quadrants, precision := (1, 1), reRan := (-3, 3), imRan := (-3, 3) }
/-- non-vacuity of `C43_summation`: one turn around a large square (`pi = 2`: a quarter turn is 1) -/
example : (associatedPolynomial pRoots (sumLine (exCfg 8 10)) 2 20 qCtx freshWorld).1 = .error .notImplementedError ∧
    (newCells freshWorld (associatedPolynomial pRoots (sumLine (exCfg 8 10)) 2 20 qCtx freshWorld).2).map
      (fun c => (c.phi, decide (Cell.FewTurns 2 c), decide (Cell.Small (1, 1) c))) = [(4, true, false)] := by
  decide +kernel

/-! ## C44 -/

/-- C44. `getRootsWithOrders` (after the external root solver returned `roots`): parallel arrays; every order is positive;
the orders sum up to the number of raw roots; the representatives are raw roots (in their order), no two of them within
tolerance of each other; every raw root is within tolerance of a representative. -/
theorem C44_clustering (roots : List (Cx K)) (p : ℤ × ℤ) :
    let eps := ((10 : K) ^ (-p.1), (10 : K) ^ (-p.2))
    let r := getRootsWithOrders roots p
    r.1.length = r.2.length ∧ (∀ n ∈ r.2, 1 ≤ n) ∧ r.2.sum = roots.length ∧ r.1.Sublist roots ∧
    (r.1.Pairwise fun a b => ¬ Near eps a b) ∧ ∀ z ∈ roots, ∃ u ∈ r.1, Near eps z u := by
  intro eps r
  obtain ⟨h1, h2, ⟨new, h3, h4⟩, h5, h6⟩ := clusterLoop_spec (eps := (eps10 K p.1, eps10 K p.2))
    (eps10_pos _) (eps10_pos _) roots [] (by simp) (by simp)
  refine ⟨by simp [r, getRootsWithOrders], ?_, ?_, ?_, ?_, ?_⟩
  · intro n hn
    obtain ⟨x, hx, rfl⟩ := List.mem_map.1 hn
    exact h1 x hx
  · simpa [r, getRootsWithOrders] using h2
  · have : r.1 = new := by simpa [r, getRootsWithOrders] using h3
    rw [this]; exact h4
  · exact h5.imp fun h hn => h (near_symm hn)
  · intro z hz
    obtain ⟨x, hx, hn⟩ := h6 z hz
    exact ⟨x.1, List.mem_map.2 ⟨x, hx, rfl⟩, hn⟩

/-- C44, closer: the clustering is greedy. A raw root is counted for the first representative within tolerance of it:
processing `roots` and then one more root either adds 1 to the order of the first representative within tolerance, or
appends the root with order 1. -/
theorem C44_greedy (roots : List (Cx K)) (z : Cx K) (p : ℤ × ℤ) :
    let eps := ((10 : K) ^ (-p.1), (10 : K) ^ (-p.2))
    let old := getRootsWithOrders roots p
    let new := getRootsWithOrders (roots ++ [z]) p
    match old.1.findIdx? fun u => decide (Near eps z u) with
    | some i => new = (old.1, old.2.modify i (· + 1))
    | none => new = (old.1 ++ [z], old.2 ++ [1]) := by
  intro eps old new
  have key : ∀ (rs : List (Cx K)) (acc : List (Cx K × ℤ)), clusterLoop (eps10 K p.1, eps10 K p.2) (rs ++ [z]) acc =
      clusterLoop (eps10 K p.1, eps10 K p.2) [z] (clusterLoop (eps10 K p.1, eps10 K p.2) rs acc) := by
    intro rs
    induction rs with
    | nil => intro acc; rfl
    | cons r rs ih =>
      intro acc
      simp only [List.cons_append, clusterLoop]
      rcases bump (eps10 K p.1, eps10 K p.2) r acc with _ | acc' <;> exact ih _
  have hb : ∀ acc : List (Cx K × ℤ), bump (eps10 K p.1, eps10 K p.2) z acc =
      ((acc.map Prod.fst).findIdx? fun u => decide (Near eps z u)).map fun i => acc.modify i fun x => (x.1, x.2 + 1) := by
    intro acc
    induction acc with
    | nil => rfl
    | cons a acc ih =>
      obtain ⟨u, n⟩ := a
      simp only [bump, List.map_cons, List.findIdx?_cons]
      by_cases hc : |z.re - u.re| < eps10 K p.1 ∧ |z.im - u.im| < eps10 K p.2
      · have : Near eps z u := hc
        rw [if_pos hc]; simp [this]
      · have : ¬ Near eps z u := hc
        rw [if_neg hc, ih]
        simp only [this, decide_false]
        rcases (acc.map Prod.fst).findIdx? fun u => decide (Near eps z u) with _ | i <;> simp
  have ho : old = ((clusterLoop (eps10 K p.1, eps10 K p.2) roots []).map Prod.fst,
    (clusterLoop (eps10 K p.1, eps10 K p.2) roots []).map Prod.snd) := rfl
  have hn : new = ((clusterLoop (eps10 K p.1, eps10 K p.2) (roots ++ [z]) []).map Prod.fst,
    (clusterLoop (eps10 K p.1, eps10 K p.2) (roots ++ [z]) []).map Prod.snd) := rfl
  rw [key] at hn
  generalize clusterLoop (eps10 K p.1, eps10 K p.2) roots [] = acc at ho hn
  simp only [clusterLoop, hb] at hn
  rw [ho]
  dsimp only
  rcases hf : (acc.map Prod.fst).findIdx? fun u => decide (Near eps z u) with _ | i <;> rw [hf] at hn
  · simpa using hn
  · simp only [Option.map_some] at hn
    rw [hn]
    ext1
    · dsimp only
      apply List.ext_getElem?
      intro j
      by_cases hj : i = j
      · subst hj; simp [List.getElem?_modify]
        rcases acc[i]? with _ | x <;> rfl
      · simp [List.getElem?_modify, hj]
    · dsimp only
      apply List.ext_getElem?
      intro j
      by_cases hj : i = j
      · subst hj; simp [List.getElem?_modify]
        rcases acc[i]? with _ | x <;> rfl
      · simp [List.getElem?_modify, hj]

/-- non-vacuity: a chain of three raw roots, each close to the next -/
example : getRootsWithOrders ([⟨0, 0⟩, ⟨6 / 100, 0⟩, ⟨12 / 100, 0⟩, ⟨1, 0⟩] : List (Cx ℚ)) (1, 1) =
    ([⟨0, 0⟩, ⟨12 / 100, 0⟩, ⟨1, 0⟩], [2, 1, 1]) := by decide +kernel

/-! ## C45 -/

/-- C45. For `n ≥ 2` the start points are `n * n` points: the product of `n` equally spaced abscissae and `n` equally spaced
ordinates from side to side; all lie in the closed rectangle and its corners are among them. -/
theorem C45_grid (re im : K × K) (hre : re.1 ≤ re.2) (him : im.1 ≤ im.2) (n : ℕ) (hn : 2 ≤ n) :
    (gridPoints re im n).length = n * n ∧
    (∀ i j, i < n → j < n → (gridPoints re im n)[i * n + j]? =
      some ⟨re.1 + i * ((re.2 - re.1) / (n - 1)), im.1 + j * ((im.2 - im.1) / (n - 1))⟩) ∧
    (∀ z ∈ gridPoints re im n, Cell.Has ⟨re, im, 0⟩ z) ∧
    ∀ z : Cx K, (z.re = re.1 ∨ z.re = re.2) → (z.im = im.1 ∨ z.im = im.2) → z ∈ gridPoints re im n := by
  have hn1 : (0 : K) < (n : K) - 1 := by
    have : (2 : K) ≤ (n : K) := by exact_mod_cast hn
    linarith
  have hmem : ∀ a b x : K, x ∈ linspaceR a b n ↔ ∃ i, i < n ∧ a + (i : K) / ((n : K) - 1) * (b - a) = x := by
    intro a b x; unfold linspaceR; simp
  have hlen : ∀ a b : K, (linspaceR a b n).length = n := by intro a b; unfold linspaceR; simp
  have hends : ∀ a b : K, a ∈ linspaceR a b n ∧ b ∈ linspaceR a b n := by
    intro a b
    refine ⟨(hmem a b a).2 ⟨0, by omega, by simp⟩, (hmem a b b).2 ⟨n - 1, by omega, ?_⟩⟩
    have : ((n - 1 : ℕ) : K) = (n : K) - 1 := by rw [Nat.cast_sub (by omega)]; simp
    rw [this, div_self hn1.ne']; ring
  have hbet : ∀ a b : K, a ≤ b → ∀ x ∈ linspaceR a b n, a ≤ x ∧ x ≤ b := by
    intro a b hab x hx
    obtain ⟨i, hi, rfl⟩ := (hmem a b x).1 hx
    have h1 : (0 : K) ≤ (i : K) / ((n : K) - 1) := by positivity
    have h2 : (i : K) / ((n : K) - 1) ≤ 1 := by
      rw [div_le_one hn1]
      have : ((i + 1 : ℕ) : K) ≤ (n : K) := by exact_mod_cast hi
      push_cast at this; linarith
    constructor <;> nlinarith
  refine ⟨?_, ?_, ?_, ?_⟩
  · unfold gridPoints
    rw [List.length_flatMap]
    simp only [List.length_map, hlen, List.map_const', List.sum_replicate, smul_eq_mul]
  · intro i j hi hj
    have aux : ∀ (xs ys : List K) (m i j : ℕ), ys.length = m → j < m →
        (xs.flatMap fun x => ys.map fun y => (⟨x, y⟩ : Cx K))[i * m + j]? =
        (xs[i]?).bind fun x => (ys[j]?).map fun y => ⟨x, y⟩ := by
      intro xs ys m i j hm hj
      induction xs generalizing i with
      | nil => simp
      | cons x xs ih =>
        rw [List.flatMap_cons]
        rcases i with _ | i
        · rw [List.getElem?_append_left (by simp; omega)]
          simp
        · rw [List.getElem?_append_right (by simp [hm]; nlinarith)]
          have : (i + 1) * m + j - (ys.map fun y => (⟨x, y⟩ : Cx K)).length = i * m + j := by
            rw [List.length_map, hm, Nat.add_mul]; omega
          rw [this, ih]
          simp
    unfold gridPoints
    rw [aux _ _ n i j (hlen _ _) hj]
    unfold linspaceR
    simp only [List.getElem?_map, List.getElem?_range hi, List.getElem?_range hj, Option.map_some, Option.bind_some,
      Option.some.injEq]
    ext <;> dsimp only <;> ring
  · intro z hz
    unfold gridPoints at hz
    obtain ⟨x, hx, hz⟩ := List.mem_flatMap.1 hz
    obtain ⟨y, hy, rfl⟩ := List.mem_map.1 hz
    have h1 := hbet _ _ hre x hx
    have h2 := hbet _ _ him y hy
    exact ⟨h1.1, h1.2, h2.1, h2.2⟩
  · intro z h1 h2
    unfold gridPoints
    refine List.mem_flatMap.2 ⟨z.re, ?_, List.mem_map.2 ⟨z.im, ?_, rfl⟩⟩
    · rcases h1 with h | h <;> rw [h]
      · exact (hends _ _).1
      · exact (hends _ _).2
    · rcases h2 with h | h <;> rw [h]
      · exact (hends _ _).1
      · exact (hends _ _).2

/-- C45. The solver is called once, with the function, the grid and the derivative. If it returns iterates, an uninterrupted
search completes and hands exactly these to the container, in order, all with order 0; if it raises `RuntimeError`, the
search completes without doing anything. -/
theorem C45_results (nt : NewtonSolver K) (n : ℕ) (truthy : Bool) (ctx : RCtx K) (w : World σ K) (hw : w.fuse = none) :
    (newtonGrid nt n truthy ctx w).1 = .ok () ∧
    newRoots w (newtonGrid nt n truthy ctx w).2 =
      (match nt.grid ctx.f (gridPoints ctx.reRan ctx.imRan n) ctx.df with
        | some roots => roots.map fun z => (z, 0)
        | none => []) ∧
    (nt.grid ctx.f (gridPoints ctx.reRan ctx.imRan n) ctx.df = none → (newtonGrid nt n truthy ctx w).2 = w) := by
  unfold newtonGrid
  rcases hg : nt.grid ctx.f (gridPoints ctx.reRan ctx.imRan n) ctx.df with _ | roots
  · exact ⟨rfl, by simp [newRoots], fun _ => rfl⟩
  · dsimp only
    have hadd : ∀ (rs : List (Root K)) (w : World σ K), w.fuse = none →
        World.addRoots rs w = (.ok (), { w with added := w.added ++ rs }) := by
      intro rs
      induction rs with
      | nil => intro w _; simp [World.addRoots]
      | cons r rs ih =>
        intro w hw
        unfold World.addRoots
        rw [Py.bind_run]
        have h1 : World.addRoot r w = (.ok (), { w with added := w.added ++ [r] }) := by
          unfold World.addRoot
          have ht : World.tick w = (.ok (), w) := by unfold World.tick; rw [hw]
          rw [Py.bind_run, ht]
          rfl
        rw [h1]
        dsimp only
        have h2 := ih { w with added := w.added ++ [r] } hw
        simpa using h2
    rw [Py.bind_run, hadd _ w hw]
    dsimp only
    cases truthy
    · refine ⟨rfl, by simp [newRoots], by simp⟩
    · simp only [if_true]
      have h2 : ∀ (a : K) (w : World σ K), w.fuse = none → (World.advance ctx a w).1 = .ok () ∧
          (World.advance ctx a w).2.added = w.added := by
        intro a w hw
        unfold World.advance
        split
        · rw [Py.bind_run]; unfold World.tick; rw [hw]; exact ⟨rfl, rfl⟩
        · exact ⟨rfl, rfl⟩
      obtain ⟨a1, a2⟩ := h2 ((ctx.reRan.2 - ctx.reRan.1) * (ctx.imRan.2 - ctx.imRan.1))
        { w with added := w.added ++ roots.map fun z => (z, 0) } hw
      exact ⟨a1, by unfold newRoots; rw [a2]; simp, by simp⟩

/-- C45, interrupted or not: whatever is handed to the container is an iterate with order 0 -/
theorem C45_only_iterates (nt : NewtonSolver K) (n : ℕ) (truthy : Bool) (ctx : RCtx K) (w : World σ K) :
    ∃ k, newRoots w (newtonGrid nt n truthy ctx w).2 = (((nt.grid ctx.f (gridPoints ctx.reRan ctx.imRan n) ctx.df).getD
      []).take k).map fun z => (z, 0) := by
  unfold newtonGrid
  rcases hg : nt.grid ctx.f (gridPoints ctx.reRan ctx.imRan n) ctx.df with _ | roots
  · exact ⟨0, by simp [newRoots]⟩
  · dsimp only
    have hadd : ∀ (zs : List (Cx K)) (w : World σ K), ∃ k,
        (World.addRoots (zs.map fun z => (z, 0)) w).2.added = w.added ++ (zs.take k).map fun z => (z, 0) := by
      intro zs
      induction zs with
      | nil => intro w; exact ⟨0, by simp [World.addRoots]⟩
      | cons z zs ih =>
        intro w
        simp only [List.map_cons]
        unfold World.addRoots
        rw [Py.bind_run]
        rcases hr : World.addRoot (z, 0) w with ⟨e | _, w1⟩
        · have h1 := addRoot_any (z, 0) w
          have h2 : w1.added = w.added ∨ w1.added = w.added ++ [(z, 0)] := by rw [hr] at h1; exact h1.2.2
          rcases h2 with h | h
          · exact ⟨0, by simp [h]⟩
          · exact ⟨1, by simp [h]⟩
        · obtain ⟨k, hk⟩ := ih w1
          exact ⟨k + 1, by dsimp only; rw [hk, (addRoot_ok hr).1]; simp⟩
    obtain ⟨k, hk⟩ := hadd roots w
    refine ⟨k, ?_⟩
    unfold newRoots
    rw [Py.bind_run]
    rcases hr : World.addRoots (roots.map fun z => (z, 0)) w with ⟨e | _, w1⟩ <;> rw [hr] at hk <;> dsimp only at hk ⊢
    · rw [hk]; simp
    · split
      · rw [(advance_any _ _ _).2, hk]; simp
      · change List.drop w.added.length w1.added = _
        rw [hk]; simp

def gridSolver : NewtonSolver ℚ := ⟨fun _ _ _ _ => none, fun _ _ _ _ => none, fun _ pts _ => some pts⟩
/-- non-vacuity: a 3x3 grid -/
example : newRoots exWorld (newtonGrid gridSolver 3 false exSearch exWorld).2 =
    (gridPoints exSearch.reRan exSearch.imRan 3).map (fun z => (z, 0)) ∧
    (gridPoints exSearch.reRan exSearch.imRan 3).length = 9 := by decide +kernel

end PyZeal.Props
