import Verif.Proof.Noted
import Verif.Props.SumSearch
import Verif.Props.Variants

/-! # Property C98 for the Newton variant -/

set_option linter.unusedSectionVars false

namespace PyZeal.Props
open Spec

theorem good_newton {σ : Type} (nt : NewtonSolver ℝ) {pi : ℝ} (hpi : 0 < pi) (ctx : RCtx ℝ) : AddsGood (σ := σ) (fun r => r.2 ≠ 0) (newtonAct nt pi ctx) := by
  intro c w w' h
  obtain ⟨_, _, A, h1, h2⟩ := newton_leafEffect nt pi ctx c w w' h
  refine ⟨A, h1, fun r hr => ?_⟩
  rw [h2] at hr
  split at hr
  · split at hr
    · rename_i ht
      rw [List.mem_singleton] at hr
      subst hr
      have := one_le_order hpi ht
      unfold candidate
      dsimp only
      omega
    · simp at hr
  · rw [(newtonResults_mem hr).1]; decide

theorem newton_open {p : ℤ × ℤ} (c : Cell ℝ) (h : ¬ NewtonStop Real.pi p c) : Cell.Turns Real.pi c ∧ ¬ Cell.Small p c := by
  unfold NewtonStop Cell.Stop at h
  tauto

/-- what the Newton variant contributes, if all phases are correct up to 0.2 turns and no zero was found on a line -/
theorem newton_tolerance {σ : Type} (nt : NewtonSolver ℝ) (est : LineEst σ ℝ) (limit : ℕ) (ctx : RCtx ℝ) (hhits : BoundaryHits est ctx)
    (hre : ctx.reRan.1 ≤ ctx.reRan.2) (him : ctx.imRan.1 ≤ ctx.imRan.2) (zeros : List (Cx ℝ)) (w w' : World σ ℝ)
    (hplain : simpleArgumentNewton nt est Real.pi limit ctx w = (.ok (), w'))
    (hacc : ∀ c ∈ newCells w w', |c.phi - 2 * Real.pi * (Cell.count c zeros : ℝ)| < 2 / 10 * (2 * Real.pi)) (hno : ∀ r ∈ newRoots w w', r.2 ≠ 0) :
    (∀ c ∈ newCells w w', Cell.OneTurn Real.pi c → Cell.count c zeros = 1) ∧
    (∀ r ∈ newRoots w w', 1 ≤ r.2 ∧ ∃ c ∈ newCells w w',
      (Cell.Small ctx.precision c ∧ r.1 = Cell.centre c ∧ r.2 = (Cell.count c zeros : ℤ)) ∨
      (Cell.OneTurn Real.pi c ∧ r.2 = 1 ∧ SolverResult nt ctx c r.1)) ∧
    ((∀ c ∈ newCells w w', Cell.OneTurn Real.pi c → ∀ z ∈ zeros, Cell.HasHalfOpen c z → ∃ z',
        nt.secant ctx.f ⟨c.re.1, (Cell.centre c).im⟩ ⟨c.re.2, (Cell.centre c).im⟩
          (min ((10 : ℝ) ^ (-ctx.precision.1)) (10 ^ (-ctx.precision.2))) = some z' ∧
        Near ((10 : ℝ) ^ (-ctx.precision.1), (10 : ℝ) ^ (-ctx.precision.2)) z z') →
      ∀ z ∈ zeros, Cell.HasHalfOpen ⟨ctx.reRan, ctx.imRan, 0⟩ z → ∃ r ∈ newRoots w w', 1 ≤ r.2 ∧
        Near ((10 : ℝ) ^ (-ctx.precision.1), (10 : ℝ) ^ (-ctx.precision.2)) z r.1) := by
  have hpi := Real.pi_pos
  have hpos : ∀ r ∈ newRoots w w', 1 ≤ r.2 ∧ ∃ c ∈ newCells w w',
      (Cell.Small ctx.precision c ∧ r.1 = Cell.centre c ∧ r.2 = (Cell.count c zeros : ℤ)) ∨
      (Cell.OneTurn Real.pi c ∧ r.2 = 1 ∧ SolverResult nt ctx c r.1) := by
    intro r hr
    have ho := C41_origin nt est Real.pi hpi limit ctx hhits hre him w r (by rw [hplain]; exact hr)
    rw [hplain] at ho
    rcases ho with ⟨h, _⟩ | ⟨c, hc, _, ⟨h1, h2, h3, h4, h5⟩ | ⟨h1, h2, h3⟩⟩
    · exact absurd h (hno r hr)
    · exact ⟨h5, c, hc, .inl ⟨h1, h3, by rw [h4, (approx_cell hpi (hacc c hc)).2]⟩⟩
    · exact ⟨by rw [h2], c, hc, .inr ⟨h1, h2, h3⟩⟩
  refine ⟨?_, hpos, ?_⟩
  · intro c hc h1
    have h := hacc c hc
    rw [abs_lt] at h
    obtain ⟨a1, a2, _⟩ := h1
    have b1 : (1 : ℝ) ≤ Cell.count c zeros := by
      by_contra hlt
      have : Cell.count c zeros < 1 := by exact_mod_cast not_le.1 hlt
      have h0 : Cell.count c zeros = 0 := by omega
      rw [h0] at h
      simp at h
      linarith [h.2]
    have b2 : (Cell.count c zeros : ℝ) < 2 := by
      nlinarith [h.1]
    have : 1 ≤ Cell.count c zeros := by exact_mod_cast b1
    have : Cell.count c zeros < 2 := by exact_mod_cast b2
    omega
  · intro hconv z hz hzr
    obtain ⟨phi, t, h1, h2, _, A, h4, h5⟩ :=
      calcRoots_tree hhits (newton_stops nt est Real.pi ctx) (newton_leafEffect nt Real.pi ctx) limit w w' hplain
    have hcells : newCells w w' = ⟨ctx.reRan, ctx.imRan, phi⟩ :: t.log ctx.precision ⟨ctx.reRan, ctx.imRan, phi⟩ := by
      unfold newCells; rw [h2]; simp
    have hroots : newRoots w w' = A := by unfold newRoots; rw [h4]; simp
    obtain ⟨l, hl, hlz⟩ := t.halfOpen_leaf ctx.precision ⟨ctx.reRan, ctx.imRan, phi⟩ z hzr
    have hlog : l ∈ newCells w w' := hcells ▸ t.leaves_subset_log _ _ l hl
    have hcount : 1 ≤ Cell.count l zeros := by
      unfold Cell.count
      exact List.length_pos_of_mem (List.mem_filter.2 ⟨hz, by simpa using hlz⟩)
    have ht : Cell.Turns Real.pi l := (approx_cell hpi (hacc l hlog)).1.2 hcount
    obtain ⟨S, hS, hSA⟩ := h5.leaf_mem hl
    rw [hroots]
    by_cases hst : Cell.Stop Real.pi ctx.precision l
    · rw [if_pos hst, if_pos ht] at hS
      have hs : Cell.Small ctx.precision l := by
        rcases hst with h | h
        · exact absurd ht h
        · exact h
      refine ⟨candidate Real.pi l, hSA _ (by simp [hS]), one_le_order hpi ht, ?_⟩
      obtain ⟨s1, s2⟩ := hs
      obtain ⟨z1, z2, z3, z4⟩ := hlz
      have p1 : (0 : ℝ) < 10 ^ (-ctx.precision.1) := by positivity
      have p2 : (0 : ℝ) < 10 ^ (-ctx.precision.2) := by positivity
      unfold Near candidate Cell.centre
      dsimp only
      rw [abs_lt, abs_lt]
      refine ⟨⟨?_, ?_⟩, ?_, ?_⟩ <;> linarith
    · have hone : Cell.OneTurn Real.pi l := by
        rcases t.leaves_stop _ _ _ h1 l hl with h | h
        · exact absurd h hst
        · exact h
      obtain ⟨z', hz1, hz2⟩ := hconv l hlog hone z hz hlz
      rw [if_neg hst] at hS
      have e1 : (1 / 2 * (l.im.1 + l.im.2) : ℝ) = (Cell.centre l).im := by unfold Cell.centre; dsimp only; ring
      refine ⟨(z', 1), hSA _ ?_, le_refl _, hz2⟩
      rw [hS]
      unfold newtonResults
      rw [e1]
      have hz3 : nt.secant ctx.f ⟨l.re.1, (Cell.centre l).im⟩ ⟨l.re.2, (Cell.centre l).im⟩
        (min (eps10 ℝ ctx.precision.1) (eps10 ℝ ctx.precision.2)) = some z' := hz1
      dsimp only
      rw [hz3]
      simp

/-- C98 for the Newton variant, under the hypotheses of `C98_search_partial`. The search returns; every phase it computes is correct up to 0.2
turns; the solver is used on rectangles with exactly one zero only; every candidate has positive order and is the centre of a small rectangle
with zeros (the order is their number), or a result of the solver. If the solver converges to the zero on each rectangle it is used on, then every
zero is near a candidate. -/
theorem C98_newton_partial (nt : NewtonSolver ℝ) (cfg : SumCfg ℝ) (harg : ∀ z, cfg.arg z = Complex.arg ⟨z.re, z.im⟩) (hδ : 0 < cfg.deltaPhi) (hn : 2 ≤ cfg.numPts)
    (ctx : RCtx ℝ) (hre : ctx.reRan.1 < ctx.reRan.2) (him : ctx.imRan.1 < ctx.imRan.2)
    (zeros : List (Cx ℝ)) (r g : Cx ℝ → ℝ) (M d : ℝ) (hf : Factored ctx.f (Cell.Has ⟨ctx.reRan, ctx.imRan, 0⟩) zeros r g M)
    (hM : 0 ≤ M) (hd : 0 < d)
    (hfine : FineEnough cfg.numPts (max (ctx.reRan.2 - ctx.reRan.1) (ctx.imRan.2 - ctx.imRan.1)) d M zeros.length)
    (hfar : ∀ re im, Reached ctx.precision zeros ctx.reRan ctx.imRan re im → ∀ z, Cell.Boundary ⟨re, im, 0⟩ z → Far d zeros z)
    (limit : ℕ) (w w' : World (SumState ℝ) ℝ) (hfuse : w.fuse = none) (hest : w.est = SumState.fresh)
    (hr : simpleArgumentNewton nt (strictLine (sumLine cfg)) Real.pi limit ctx w = (.ok (), w')) :
    simpleArgumentNewton nt (sumLine cfg) Real.pi limit ctx w = (.ok (), w') ∧
    (∀ c ∈ newCells w w', |c.phi - 2 * Real.pi * (Cell.count c zeros : ℝ)| < 2 / 10 * (2 * Real.pi)) ∧
    (∀ c ∈ newCells w w', Cell.OneTurn Real.pi c → Cell.count c zeros = 1) ∧
    (∀ r ∈ newRoots w w', 1 ≤ r.2 ∧ ∃ c ∈ newCells w w',
      (Cell.Small ctx.precision c ∧ r.1 = Cell.centre c ∧ r.2 = (Cell.count c zeros : ℤ)) ∨
      (Cell.OneTurn Real.pi c ∧ r.2 = 1 ∧ SolverResult nt ctx c r.1)) ∧
    ((∀ c ∈ newCells w w', Cell.OneTurn Real.pi c → ∀ z ∈ zeros, Cell.HasHalfOpen c z → ∃ z',
        nt.secant ctx.f ⟨c.re.1, (Cell.centre c).im⟩ ⟨c.re.2, (Cell.centre c).im⟩
          (min ((10 : ℝ) ^ (-ctx.precision.1)) (10 ^ (-ctx.precision.2))) = some z' ∧
        Near ((10 : ℝ) ^ (-ctx.precision.1), (10 : ℝ) ^ (-ctx.precision.2)) z z') →
      ∀ z ∈ zeros, Cell.HasHalfOpen ⟨ctx.reRan, ctx.imRan, 0⟩ z → ∃ r ∈ newRoots w w', 1 ≤ r.2 ∧
        Near ((10 : ℝ) ^ (-ctx.precision.1), (10 : ℝ) ^ (-ctx.precision.2)) z r.1) := by
  have hpi := Real.pi_pos
  have D := sumData harg hδ hn hre him hf hM hd hfine hfar
  have f2 := hfine.2
  unfold stepTurn at f2
  obtain ⟨acc, hno⟩ := sum_search_cells D (newton_stops nt _ Real.pi ctx) newton_open (quiet_newton _ _ _) (good_newton nt hpi ctx) limit w w' hfuse hest hr
  have hplain : simpleArgumentNewton nt (sumLine cfg) Real.pi limit ctx w = (.ok (), w') :=
    (RefEst.strict (sumLine cfg) ctx).calcRoots (newton_stops nt _ Real.pi ctx) (newton_stops nt _ Real.pi ctx) limit w () w' hr
  have hacc : ∀ c ∈ newCells w w', |c.phi - 2 * Real.pi * (Cell.count c zeros : ℝ)| < 2 / 10 * (2 * Real.pi) := by
    intro c hc
    have := (acc c hc).2
    linarith
  exact ⟨hplain, hacc, newton_tolerance nt (sumLine cfg) limit ctx (sumLine_hits cfg ctx) hre.le him.le zeros w w' hplain hacc hno⟩

/-- on a rectangle that is small from the start both variants do the same -/
theorem newton_small {σ : Type} (nt : NewtonSolver ℝ) (est : LineEst σ ℝ) (pi : ℝ) (limit : ℕ) (ctx : RCtx ℝ)
    (h : Cell.Small ctx.precision ⟨ctx.reRan, ctx.imRan, 0⟩) :
    simpleArgumentNewton nt est pi (limit + 1) ctx = simpleArgument est pi (limit + 1) ctx := by
  unfold simpleArgumentNewton simpleArgument calcRoots
  congr 1
  funext _
  congr 1
  funext phi
  have hs : Cell.Stop pi ctx.precision ⟨ctx.reRan, ctx.imRan, phi⟩ := .inr h
  have h1 := (newton_stops nt est pi ctx (dispatch (newtonDecide nt est pi) limit) ⟨ctx.reRan, ctx.imRan, phi⟩).1 (.inl hs)
  have h2 := (simple_stops est pi ctx (dispatch (simpleDecide est pi) limit) ⟨ctx.reRan, ctx.imRan, phi⟩).1 hs
  unfold newtonAct at h1
  rw [if_pos hs, ← h2] at h1
  exact h1

/-- the hypotheses of `C98_newton_partial` are met: the zero at the origin is found -/
example (nt : NewtonSolver ℝ) : ∃ w', simpleArgumentNewton nt (sumLine idCfg) Real.pi 1 idCtx idWorld = (.ok (), w') ∧ ∃ r ∈ newRoots idWorld w', 1 ≤ r.2 := by
  obtain ⟨w', hr⟩ := id_run
  have hsm : Cell.Small idCtx.precision ⟨idCtx.reRan, idCtx.imRan, 0⟩ := by unfold Cell.Small idCtx; norm_num
  obtain ⟨h1, _, _, _, h5⟩ := C98_newton_partial nt idCfg (fun _ => rfl) (by norm_num [idCfg]) (by norm_num [idCfg]) idCtx (by norm_num [idCtx])
    (by norm_num [idCtx]) [0] (fun _ => 1) (fun _ => 0) 0 (1 / 4)
    ⟨fun _ _ => one_pos, fun z _ => by ext <;> simp [idCtx], fun a b _ _ => by simp⟩ le_rfl (by norm_num)
    id_fine id_far 1 idWorld w' rfl rfl (by rw [newton_small _ _ _ _ _ hsm]; exact hr)
  obtain ⟨phi, t, ht, hl, _⟩ :=
    calcRoots_tree (sumLine_hits idCfg idCtx) (newton_stops nt (sumLine idCfg) Real.pi idCtx) (newton_leafEffect nt Real.pi idCtx) 1 idWorld w' h1
  obtain ⟨r, hr, h6, _⟩ := h5 (by
      intro c hc hone
      exfalso
      have hroot : c.re = idCtx.reRan := by
        unfold newCells at hc
        rw [hl] at hc
        cases t with
        | leaf => simp [Tree.log, idWorld] at hc; rw [hc]
        | node _ _ _ _ => exact absurd (Or.inl (Or.inr hsm)) ht.1
      obtain ⟨_, _, h, _⟩ := hone
      rw [hroot] at h
      norm_num [idCtx] at h)
    0 (by simp) (by unfold Cell.HasHalfOpen idCtx; norm_num)
  exact ⟨w', h1, r, hr, h6⟩

end PyZeal.Props
