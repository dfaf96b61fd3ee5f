import Verif.Spec.Search
import Verif.Proof.Quadrature

/-! # What estimators do to a search -/

set_option linter.unusedSectionVars false

namespace PyZeal
open Spec
variable {K : Type} {σ α β : Type}

section
variable [Zero (Cx K)] {f : Cx K → Cx K}

theorem OnlyHits.pure (a : α) : OnlyHits f (pure a : Py (World σ K) α) :=
  fun w => ⟨rfl, rfl, id, [], by simp, by simp⟩

theorem OnlyHits.throw (e : Err) : OnlyHits f (Py.throw e : Py (World σ K) α) :=
  fun w => ⟨rfl, rfl, id, [], by simp, by simp⟩

theorem OnlyHits.get : OnlyHits f (Py.get : Py (World σ K) (World σ K)) :=
  fun w => ⟨rfl, rfl, id, [], by simp, by simp⟩

theorem OnlyHits.modify {g : World σ K → World σ K} (h1 : ∀ w, (g w).advances = w.advances)
    (h2 : ∀ w, (g w).log = w.log) (h3 : ∀ w, (g w).fuse = w.fuse) (h4 : ∀ w, (g w).added = w.added) :
    OnlyHits f (Py.modify g) :=
  fun w => ⟨h1 w, h2 w, fun h => by rw [Py.modify_run, h3, h], [], by simp [h4], by simp⟩

theorem OnlyHits.bind {m : Py (World σ K) α} {k : α → Py (World σ K) β} (hm : OnlyHits f m)
    (hk : ∀ a, OnlyHits f (k a)) : OnlyHits f (m >>= k) := by
  intro w
  rw [Py.bind_run]
  have h := hm w
  rcases hmw : m w with ⟨_ | a, w1⟩ <;> rw [hmw] at h <;> obtain ⟨h1, h2, h3, zs, h4, h5⟩ := h
  · exact ⟨h1, h2, h3, zs, h4, h5⟩
  · obtain ⟨g1, g2, g3, zs', g4, g5⟩ := hk a w1
    refine ⟨g1.trans h1, g2.trans h2, fun h => g3 (h3 h), zs ++ zs', ?_, ?_⟩
    · dsimp only at h4 ⊢; rw [g4, h4, List.append_assoc]
    · intro r hr
      rcases List.mem_append.1 hr with hr | hr
      · exact h5 r hr
      · exact g5 r hr

theorem OnlyHits.tick : OnlyHits f (World.tick : Py (World σ K) Unit) := by
  intro w
  unfold World.tick
  rcases hf : w.fuse with _ | _ | n <;> simp [hf]

theorem OnlyHits.addRoot {r : Root K} (h : r.2 = 0 ∧ f r.1 = 0) :
    OnlyHits f (World.addRoot r : Py (World σ K) Unit) := by
  refine OnlyHits.bind OnlyHits.tick fun _ w => ?_
  exact ⟨rfl, rfl, id, [r], rfl, by simpa using h⟩

theorem OnlyHits.addRoots {rs : List (Root K)} (h : ∀ r ∈ rs, r.2 = 0 ∧ f r.1 = 0) :
    OnlyHits f (World.addRoots rs : Py (World σ K) Unit) := by
  induction rs with
  | nil => exact OnlyHits.pure ()
  | cons r rs ih =>
    exact OnlyHits.bind (OnlyHits.addRoot (h r (by simp))) fun _ => ih fun r hr => h r (by simp [hr])

end

section
variable [Field K] [DecidableEq K]

theorem OnlyHits.genFuncArr (fuel : ℕ → ℕ) (a b : Cx K) (ctx : RCtx K) (n : ℕ) :
    OnlyHits ctx.f (genFuncArr fuel a b ctx n : Py (World σ K) _) := by
  unfold PyZeal.genFuncArr
  generalize fuel n = k
  generalize linspace a b n = base
  induction k generalizing base with
  | zero => exact OnlyHits.throw _
  | succ n ih =>
    simp only [PyZeal.genFuncLoop]
    split
    · exact OnlyHits.pure _
    · refine OnlyHits.bind (OnlyHits.addRoots ?_) fun _ => ih _
      intro r hr
      obtain ⟨z, hz, rfl⟩ := List.mem_map.1 hr
      have := (List.mem_filter.1 hz).2
      exact ⟨rfl, by simpa using this⟩

theorem edgeMoment_hits {est : LineEst σ K} {ctx : RCtx K} (hest : BoundaryHits est ctx) (order : ℤ)
    (e : Cx K × Cx K) : OnlyHits ctx.f (edgeMoment est order ctx e) := by
  have hc : ∀ e, OnlyHits ctx.f (edgeMoment.compute est order ctx e) := by
    intro e
    unfold edgeMoment.compute
    refine OnlyHits.bind OnlyHits.tick fun _ => OnlyHits.bind (hest _ _ _) fun d => ?_
    exact OnlyHits.bind (OnlyHits.modify (fun _ => rfl) (fun _ => rfl) (fun _ => rfl) fun _ => rfl)
      fun _ => OnlyHits.pure _
  unfold edgeMoment
  refine OnlyHits.bind ?_ fun v => ?_
  · intro w
    exact ⟨rfl, rfl, id, [], by simp [World.retrieve], by simp⟩
  · rcases v with _ | v
    · exact hc e
    · dsimp only
      split
      · exact OnlyHits.pure _
      · exact hc e

theorem calcMoment_hits {est : LineEst σ K} {ctx : RCtx K} (hest : BoundaryHits est ctx) (order : ℤ)
    (re im : K × K) : OnlyHits ctx.f (calcMoment est order re im ctx) := by
  have hs : ∀ es phi, OnlyHits ctx.f (sumEdges est order ctx es phi) := by
    intro es
    induction es with
    | nil => intro phi; exact OnlyHits.pure _
    | cons e es ih =>
      intro phi
      simp only [sumEdges]
      exact OnlyHits.bind (edgeMoment_hits hest order e) fun d => ih _
  exact hs _ _

end

section
variable [Field K] [LinearOrder K] [IsStrictOrderedRing K]

/-- the quadrature estimator only hands boundary zeros to the container -/
theorem quadLine_hits (cfg : QuadCfg K) (ctx : RCtx K) : BoundaryHits (quadLine cfg : LineEst σ K) ctx := by
  intro order a b
  have hromb : ∀ fs dx, OnlyHits ctx.f (quadRomb cfg fs dx : Py (World σ K) _) := by
    intro fs dx
    have : ∀ y, OnlyHits ctx.f (rombPy cfg.romb y dx : Py (World σ K) _) := by
      intro y
      unfold rombPy
      split
      · exact OnlyHits.pure _
      · exact OnlyHits.throw _
    exact OnlyHits.bind (this _) fun _ => OnlyHits.bind (this _) fun _ => OnlyHits.pure _
  have hsample : ∀ df a b n, OnlyHits ctx.f (quadSample cfg df order a b ctx n : Py (World σ K) _) :=
    fun df a b n => OnlyHits.bind (OnlyHits.genFuncArr _ _ _ _ _) fun _ => OnlyHits.pure _
  have hmerge : ∀ o n, OnlyHits ctx.f (mergeArrays o n : Py (World σ K) _) := by
    intro o n
    have : ∀ (o n : List (Cx K)), OnlyHits ctx.f (mergeArray o n : Py (World σ K) _) := by
      intro o n
      unfold mergeArray
      split
      · split
        · exact OnlyHits.pure _
        · exact OnlyHits.throw _
      · exact OnlyHits.throw _
    exact OnlyHits.bind (this _ _) fun _ => OnlyHits.bind (this _ _) fun _ => OnlyHits.pure _
  have hrefine : ∀ df v, OnlyHits ctx.f (quadRefine cfg df order ctx v : Py (World σ K) _) := by
    intro df v
    unfold quadRefine
    split
    · exact OnlyHits.bind (hsample _ _ _ _) fun _ => OnlyHits.bind (hmerge _ _) fun _ => OnlyHits.pure _
    · exact OnlyHits.bind (hsample _ _ _ _) fun _ => OnlyHits.pure _
  have hloop : ∀ df d n v, OnlyHits ctx.f (quadLoop cfg df order ctx d n v : Py (World σ K) _) := by
    intro df d n
    induction n with
    | zero => intro v; exact OnlyHits.throw _
    | succ n ih =>
      intro v
      simp only [quadLoop]
      split
      · refine OnlyHits.bind (hrefine _ _) fun _ => OnlyHits.bind (hromb _ _) fun _ => ?_
        split
        · exact OnlyHits.pure _
        · exact ih _
      · exact OnlyHits.pure _
  unfold quadLine
  rcases hdf : ctx.df with _ | df
  · exact OnlyHits.throw _
  · exact OnlyHits.bind (hsample _ _ _ _) fun _ => OnlyHits.bind (hromb _ _) fun _ =>
      OnlyHits.bind (hloop _ _ _ _) fun _ => OnlyHits.pure _

variable [FloorRing K]

/-- the summation estimator only hands boundary zeros to the container -/
theorem sumLine_hits (cfg : SumCfg K) (ctx : RCtx K) : BoundaryHits (sumLine cfg) ctx := by
  intro order a b
  have hrefine : ∀ n idx z p, OnlyHits ctx.f (refineLoop cfg ctx n idx z p) := by
    intro n
    induction n with
    | zero => intro idx z p; exact OnlyHits.throw _
    | succ n ih =>
      intro idx z p
      simp only [refineLoop]
      split
      · exact OnlyHits.pure _
      · split
        · exact OnlyHits.pure _
        · split
          · exact OnlyHits.pure _
          · exact OnlyHits.bind (OnlyHits.genFuncArr _ _ _ _ _) fun _ => ih _ _ _
  have hphi : ∀ a b, OnlyHits ctx.f (genPhiArr cfg order a b ctx) := by
    intro a b
    unfold genPhiArr
    split
    · exact OnlyHits.throw _
    · exact OnlyHits.bind (OnlyHits.genFuncArr _ _ _ _ _) fun _ => hrefine _ _ _ _
  have hslice : ∀ a b v, OnlyHits ctx.f (sliceOrSample cfg order a b ctx v) := by
    intro a b v
    rcases v with _ | v
    · exact hphi _ _
    · exact OnlyHits.pure _
  unfold sumLine
  split
  · unfold retrieveCachedHorizontal
    refine OnlyHits.bind OnlyHits.get fun w => OnlyHits.bind (hslice _ _ _) fun v => ?_
    exact OnlyHits.bind (OnlyHits.modify (fun _ => rfl) (fun _ => rfl) (fun _ => rfl) fun _ => rfl)
      fun _ => OnlyHits.pure _
  · split
    · unfold retrieveCachedVertical
      refine OnlyHits.bind OnlyHits.get fun w => OnlyHits.bind ?_ fun r =>
        OnlyHits.bind (hslice _ _ _) fun v => ?_
      · rcases reuseV w.est.vertical order (min a.im b.im) (max a.im b.im) a.re with e | v
        · exact OnlyHits.throw _
        · exact OnlyHits.pure _
      · exact OnlyHits.bind (OnlyHits.modify (fun _ => rfl) (fun _ => rfl) (fun _ => rfl) fun _ => rfl)
          fun _ => OnlyHits.pure _
    · exact OnlyHits.throw _

end
end PyZeal
