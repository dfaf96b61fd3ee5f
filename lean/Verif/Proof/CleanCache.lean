import Verif.Proof.Simple

/-! # The initial content of the estimator cache does not matter -/

set_option linter.unusedSectionVars false

namespace PyZeal
open Spec
variable {K : Type} {σ α β : Type}

section
variable [Field K] [DecidableEq K]

/-- same cache content, same effects so far -/
def SameRun (w1 w2 : World σ K) : Prop :=
  w1.cache.data = w2.cache.data ∧ w1.added = w2.added ∧ w1.advances = w2.advances ∧ w1.fuse = w2.fuse ∧
    w1.log = w2.log

/-- the computation does not see counters, debug level or the estimator's state -/
def Sim (m : Py (World σ K) α) : Prop :=
  ∀ w1 w2, SameRun w1 w2 → (m w1).1 = (m w2).1 ∧ SameRun (m w1).2 (m w2).2

theorem Sim.pure (a : α) : Sim (pure a : Py (World σ K) α) := fun _ _ h => ⟨rfl, h⟩
theorem Sim.throw (e : Err) : Sim (Py.throw e : Py (World σ K) α) := fun _ _ h => ⟨rfl, h⟩

theorem Sim.bind {m : Py (World σ K) α} {k : α → Py (World σ K) β} (hm : Sim m) (hk : ∀ a, Sim (k a)) :
    Sim (m >>= k) := by
  intro w1 w2 h
  rw [Py.bind_run, Py.bind_run]
  obtain ⟨h1, h2⟩ := hm w1 w2 h
  rcases e1 : m w1 with ⟨_ | a, w1'⟩ <;> rcases e2 : m w2 with ⟨_ | b, w2'⟩ <;> rw [e1, e2] at h1 h2 <;>
    dsimp only at h1 h2 ⊢
  · exact ⟨by rw [Except.error.inj h1], h2⟩
  · cases h1
  · cases h1
  · cases h1; exact hk a _ _ h2

theorem Sim.of_cacheFree {m : Py (World σ K) α} (h : CacheFree m) : Sim m := by
  intro w1 w2 hw
  obtain ⟨h1, h2, h3, h4, h5⟩ := hw
  have e2 : w2 = { w1 with cache := w2.cache, est := w2.est } := by
    rcases w1; rcases w2; simp_all
  have r1 := h w1 w1.cache w1.est
  have r2 := h w1 w2.cache w2.est
  rw [← e2] at r2
  have e1 : ({ w1 with cache := w1.cache, est := w1.est } : World σ K) = w1 := rfl
  rw [e1] at r1
  rw [r2]
  refine ⟨rfl, ?_, rfl, rfl, rfl, rfl⟩
  have : (m w1).2.cache = w1.cache := by
    have := congrArg (fun r => r.2.cache) r1
    exact this
  dsimp only
  rw [this, h1]

theorem Sim.modify {g : World σ K → World σ K} (h : ∀ w1 w2, SameRun w1 w2 → SameRun (g w1) (g w2)) :
    Sim (Py.modify g) := fun w1 w2 hw => ⟨rfl, h w1 w2 hw⟩

theorem store_same {c1 c2 : EstCache K} (h : c1.data = c2.data) (o : ℤ) (a b v : Cx K) :
    (c1.store o a b v).data = (c2.store o a b v).data := by
  unfold EstCache.store
  rw [h]
  split <;> rfl

theorem remove_same {c1 c2 : EstCache K} (h : c1.data = c2.data) (o : ℤ) (a b : Cx K) :
    (c1.remove o a b).data = (c2.remove o a b).data := by
  unfold EstCache.remove
  rw [h]
  split
  · exact h
  · rfl

theorem retrieve_same {c1 c2 : EstCache K} (h : c1.data = c2.data) (o : ℤ) (a b : Cx K) :
    (c1.retrieve o a b).1 = (c2.retrieve o a b).1 := by
  unfold EstCache.retrieve
  rw [h]

theorem Sim.calcMoment {est : LineEst σ K} {ctx : RCtx K} (hest : ∀ o a b, Sim (est o a b ctx)) (order : ℤ)
    (re im : K × K) : Sim (calcMoment est order re im ctx) := by
  have ht : Sim (World.tick : Py (World σ K) Unit) := Sim.of_cacheFree CacheFree.tick
  have hc : ∀ e, Sim (edgeMoment.compute est order ctx e) := by
    intro e
    unfold edgeMoment.compute
    refine Sim.bind ht fun _ => Sim.bind (hest _ _ _) fun d => Sim.bind (Sim.modify ?_) fun _ => Sim.pure _
    rintro w1 w2 ⟨h1, h2, h3, h4, h5⟩
    exact ⟨store_same (store_same h1 _ _ _ _) _ _ _ _, h2, h3, h4, h5⟩
  have he : ∀ e, Sim (edgeMoment est order ctx e) := by
    intro e
    unfold edgeMoment
    refine Sim.bind ?_ fun v => ?_
    · rintro w1 w2 ⟨h1, h2, h3, h4, h5⟩
      unfold World.retrieve
      refine ⟨by dsimp only; rw [retrieve_same h1], ?_, h2, h3, h4, h5⟩
      dsimp only
      rw [EstCache.retrieve_data, EstCache.retrieve_data, h1]
    · rcases v with _ | v
      · exact hc e
      · dsimp only
        split
        · exact Sim.pure _
        · exact hc e
  have hs : ∀ es phi, Sim (sumEdges est order ctx es phi) := by
    intro es
    induction es with
    | nil => intro phi; exact Sim.pure _
    | cons e es ih =>
      intro phi
      simp only [sumEdges]
      exact Sim.bind (he e) fun d => ih _
  exact hs _ _

end

section
variable [Field K] [LinearOrder K] [IsStrictOrderedRing K] [FloorRing K]

theorem Sim.addRoot (r : Root K) : Sim (World.addRoot r : Py (World σ K) Unit) :=
  Sim.of_cacheFree (CacheFree.addRoot r)

theorem Sim.advance (ctx : RCtx K) (a : K) : Sim (World.advance ctx a : Py (World σ K) Unit) := by
  unfold World.advance
  split
  · refine Sim.bind (Sim.of_cacheFree CacheFree.tick) fun _ => Sim.modify ?_
    rintro w1 w2 ⟨h1, h2, h3, h4, h5⟩
    exact ⟨h1, h2, by dsimp only; rw [h3], h4, h5⟩
  · exact Sim.pure _

theorem Sim.phaseOf {est : LineEst σ K} {ctx : RCtx K} (hest : ∀ o a b, Sim (est o a b ctx))
    (re im : K × K) : Sim (phaseOf est re im ctx) := by
  unfold PyZeal.phaseOf
  refine Sim.bind (Sim.calcMoment hest _ _ _) fun m => Sim.bind (Sim.modify ?_) fun _ => Sim.pure _
  rintro w1 w2 ⟨h1, h2, h3, h4, h5⟩
  exact ⟨h1, h2, h3, h4, by dsimp only; rw [h5]⟩

theorem Sim.cacheRemove (a b : Cx K) : Sim (cacheRemove a b : Py (World σ K) Unit) := by
  refine Sim.modify ?_
  rintro w1 w2 ⟨h1, h2, h3, h4, h5⟩
  exact ⟨remove_same h1 _ _ _, h2, h3, h4, h5⟩

theorem Sim.dispatch {est : LineEst σ K} {ctx : RCtx K} {body : Decide σ K → Decide σ K}
    {stop : Cell K → Prop} {act : Cell K → Py (World σ K) Unit} (hstop : Stops est ctx body stop act)
    (hest : ∀ o a b, Sim (est o a b ctx)) (hact : ∀ c, Sim (act c)) (limit : ℕ) (c : Cell K) :
    Sim ((dispatch body limit).at ctx c) := by
  induction limit generalizing c with
  | zero => exact Sim.throw _
  | succ l ih =>
    have hd1 : (PyZeal.dispatch body (l + 1)).at ctx c = (body (PyZeal.dispatch body l)).at ctx c := rfl
    rw [hd1]
    by_cases hs : stop c
    · rw [(hstop _ c).1 hs]; exact hact c
    · rw [(hstop _ c).2 hs]
      unfold splitStep
      exact Sim.bind (Sim.phaseOf hest _ _) fun _ => Sim.bind (ih _) fun _ =>
        Sim.bind (Sim.cacheRemove _ _) fun _ => Sim.bind (Sim.phaseOf hest _ _) fun _ =>
        Sim.bind (ih _) fun _ => Sim.cacheRemove _ _

/-- `calcRoots` does not depend on what the cache contained before -/
theorem calcRoots_clean {est : LineEst σ K} {ctx : RCtx K} {body : Decide σ K → Decide σ K}
    {stop : Cell K → Prop} {act : Cell K → Py (World σ K) Unit} (hstop : Stops est ctx body stop act)
    (hest : ∀ o a b, Sim (est o a b ctx)) (hact : ∀ c, Sim (act c)) (limit : ℕ) (w1 w2 : World σ K)
    (h : w1.added = w2.added ∧ w1.advances = w2.advances ∧ w1.fuse = w2.fuse ∧ w1.log = w2.log) :
    (calcRoots est body limit ctx w1).1 = (calcRoots est body limit ctx w2).1 ∧
      SameRun (calcRoots est body limit ctx w1).2 (calcRoots est body limit ctx w2).2 := by
  obtain ⟨h1, h2, h3, h4⟩ := h
  have key : ∀ w : World σ K, calcRoots est body limit ctx w =
      (phaseOf est ctx.reRan ctx.imRan ctx >>= fun phi => dispatch body limit ctx.reRan ctx.imRan phi ctx)
        (if w.cache.dirty then { w with cache := w.cache.reset } else w) := fun w => rfl
  rw [key, key]
  refine Sim.bind (Sim.phaseOf hest _ _)
    (fun phi => Sim.dispatch hstop hest hact limit ⟨ctx.reRan, ctx.imRan, phi⟩) _ _ ?_
  have hd : ∀ w : World σ K, (if w.cache.dirty then { w with cache := w.cache.reset } else w).cache.data = [] := by
    intro w
    by_cases hd : w.cache.dirty = true
    · rw [if_pos hd]; rfl
    · rw [if_neg hd]
      unfold EstCache.dirty at hd
      simpa using hd
  refine ⟨by rw [hd, hd], ?_, ?_, ?_, ?_⟩
  · split <;> split <;> exact h1
  · split <;> split <;> exact h2
  · split <;> split <;> exact h3
  · split <;> split <;> exact h4

theorem simpleAct_sim (pi : K) (ctx : RCtx K) (c : Cell K) : Sim (simpleAct pi ctx c : Py (World σ K) Unit) := by
  unfold simpleAct
  split
  · exact Sim.advance _ _
  · exact Sim.bind (Sim.addRoot _) fun _ => Sim.advance _ _

theorem CacheFree.basic (f : Cx K → Cx K) : Basic f (fun {α} (m : Py (World σ K) α) => CacheFree m) where
  pure := CacheFree.pure
  throw := fun e _ => CacheFree.throw e
  bind := CacheFree.bind
  tick := CacheFree.tick
  hit := fun r _ _ => CacheFree.addRoot r

end
end PyZeal
