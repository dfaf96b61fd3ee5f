import Verif.Proof.NewtonFloat
import Verif.Proof.FloatParallel

/-! # The Newton variant in floating-point arithmetic never takes back a root -/

set_option linter.unusedSectionVars false

namespace PyZeal
open Spec
variable {K : Type} {σ : Type} [Field K] [LinearOrder K] [IsStrictOrderedRing K] [FloorRing K] {A : FloatOps K}

theorem newtonBlockF_grows (nt : NewtonSolver K) (re im : K × K) (ctx : RCtx K) : GrowsF (newtonBlockF A nt re im ctx : Py (World σ K) Unit) := by
  have ho : ∀ o : Option (Cx K), GrowsF (orRuntimeError o : Py (World σ K) (Cx K)) := fun o => by
    cases o <;> exact GrowsF.same fun _ => rfl
  unfold newtonBlockF
  refine GrowsF.bind (ho _) fun _ => GrowsF.bind (GrowsF.addRoot _) fun _ => ?_
  split
  · exact GrowsF.pure _
  · exact GrowsF.bind (ho _) fun _ => GrowsF.addRoot _

theorem newtonTry_grows (nt : NewtonSolver K) (re im : K × K) (ctx : RCtx K) (a : K) :
    GrowsF (Py.tryFinally (Py.exceptRuntimeError (newtonBlockF A nt re im ctx)) (World.advance ctx a) : Py (World σ K) Unit) := by
  have h1 : GrowsF (Py.exceptRuntimeError (newtonBlockF A nt re im ctx) : Py (World σ K) Unit) := by
    intro w
    obtain ⟨B, hB⟩ := newtonBlockF_grows (A := A) nt re im ctx w
    refine ⟨B, ?_⟩
    unfold Py.exceptRuntimeError
    rcases h : (newtonBlockF A nt re im ctx : Py (World σ K) Unit) w with ⟨e | v, w1⟩ <;> rw [h] at hB
    · cases e <;> exact hB
    · exact hB
  intro w
  obtain ⟨B, hB⟩ := h1 w
  unfold Py.tryFinally
  rcases h : (Py.exceptRuntimeError (newtonBlockF A nt re im ctx) : Py (World σ K) Unit) w with ⟨e | v, w1⟩ <;> rw [h] at hB
  all_goals
    obtain ⟨C, hC⟩ := GrowsF.advance ctx a w1
    refine ⟨B ++ C, ?_⟩
    dsimp only at hB ⊢
    rcases h2 : (World.advance ctx a : Py (World σ K) Unit) w1 with ⟨e2 | v2, w2⟩ <;> rw [h2] at hC <;> dsimp only at hC ⊢ <;> rw [hC, hB, List.append_assoc]

theorem newtonF_dispatch_grows (nt : NewtonSolver K) {est : LineEst σ K} {pi : K} {ctx : RCtx K} (hest : ∀ order a b, GrowsF (est order a b ctx)) (limit : ℕ) (c : Cell K) :
    GrowsF ((dispatch (newtonDecideF A nt est pi) limit).at ctx c) := by
  induction limit generalizing c with
  | zero => exact GrowsF.same fun w => rfl
  | succ l ih =>
    have hd : (dispatch (newtonDecideF A nt est pi) (l + 1)).at ctx c = (newtonDecideF A nt est pi (dispatch (newtonDecideF A nt est pi) l)).at ctx c := rfl
    rw [hd]
    by_cases hs : newtonStopF A pi ctx.precision c
    · rw [(newtonF_stops A nt est pi ctx _ _).1 hs]
      unfold newtonActF
      split
      · unfold actF
        split
        · exact GrowsF.advance _ _
        · exact GrowsF.bind (GrowsF.addRoot _) fun _ => GrowsF.advance _ _
      · exact newtonTry_grows nt _ _ _ _
    · rw [(newtonF_stops A nt est pi ctx _ _).2 hs]
      unfold splitStepF
      exact GrowsF.bind (phaseOfF_grows hest _ _) fun _ => GrowsF.bind (ih _) fun _ =>
        GrowsF.bind (GrowsF.modify fun _ => rfl) fun _ => GrowsF.bind (phaseOfF_grows hest _ _) fun _ =>
        GrowsF.bind (ih _) fun _ => GrowsF.modify fun _ => rfl

theorem newtonF_grows (nt : NewtonSolver K) {est : LineEst σ K} {pi : K} {ctx : RCtx K} (hest : BoundaryHits est ctx) (limit : ℕ) :
    GrowsF (simpleArgumentNewtonF A nt est pi limit ctx) := by
  have he : ∀ order a b, GrowsF (est order a b ctx) := fun order a b w => by
    obtain ⟨_, _, _, zs, h, _⟩ := hest order a b w
    exact ⟨zs, h⟩
  unfold simpleArgumentNewtonF resetCache
  refine GrowsF.bind (GrowsF.modify fun w => by split <;> rfl) fun _ => ?_
  exact GrowsF.bind (phaseOfF_grows he _ _) fun phi => newtonF_dispatch_grows nt he limit ⟨ctx.reRan, ctx.imRan, phi⟩

end PyZeal
