import Verif.Proof.Frames

/-! # Properties of computations closed under the operations estimators use

One traversal of the estimator code for all properties which hold of the basic operations and are kept by sequencing. -/

set_option linter.unusedSectionVars false

namespace PyZeal
open Spec
variable {K : Type} {σ α β : Type}

/-- the exceptions estimators raise themselves -/
def Err.ofEstimator (e : Err) : Prop :=
  e = .valueError ∨ e = .notImplementedError ∨ e = .indexError ∨ e = .outOfFuel

/-- a property of computations which holds of the basic operations and is kept by sequencing -/
structure Basic (f : Cx K → Cx K) [Zero (Cx K)] (P : ∀ {α : Type}, Py (World σ K) α → Prop) : Prop where
  pure : ∀ {α : Type} (a : α), P (pure a : Py (World σ K) α)
  throw : ∀ {α : Type} (e : Err), e.ofEstimator → P (Py.throw e : Py (World σ K) α)
  bind : ∀ {α β : Type} {m : Py (World σ K) α} {k : α → Py (World σ K) β}, P m → (∀ a, P (k a)) → P (m >>= k)
  tick : P (World.tick : Py (World σ K) Unit)
  hit : ∀ r : Root K, r.2 = 0 → f r.1 = 0 → P (World.addRoot r : Py (World σ K) Unit)

/-- the same for operations that use the cache and the state of the estimator -/
structure Closed (f : Cx K → Cx K) [Zero (Cx K)] (P : ∀ {α : Type}, Py (World σ K) α → Prop) : Prop
    extends Basic f @P where
  setCache : ∀ g : EstCache K → EstCache K, P (Py.modify fun w => { w with cache := g w.cache })
  setEst : ∀ g : σ → σ, P (Py.modify fun w => { w with est := g w.est })
  readEst : ∀ {α : Type} {k : σ → Py (World σ K) α}, (∀ e, P (k e)) → P (fun w => k w.est w)
  readCache : ∀ {α : Type} (g : EstCache K → α) (h : EstCache K → EstCache K),
    P (fun w => (.ok (g w.cache), { w with cache := h w.cache }))

section
variable [Field K] [DecidableEq K] {P : ∀ {α : Type}, Py (World σ K) α → Prop} {f : Cx K → Cx K}

theorem Basic.addRoots (hP : Basic f @P) {rs : List (Root K)} (h : ∀ r ∈ rs, r.2 = 0 ∧ f r.1 = 0) :
    P (World.addRoots rs : Py (World σ K) Unit) := by
  induction rs with
  | nil => exact hP.pure ()
  | cons r rs ih =>
    have hr := h r (by simp)
    exact hP.bind (hP.hit r hr.1 hr.2) fun _ => ih fun r hr => h r (by simp [hr])

theorem Basic.genFuncArr {ctx : RCtx K} (hP : Basic ctx.f @P) (fuel : ℕ → ℕ) (a b : Cx K) (n : ℕ) :
    P (genFuncArr fuel a b ctx n : Py (World σ K) _) := by
  unfold PyZeal.genFuncArr
  generalize fuel n = k
  generalize linspace a b n = base
  induction k generalizing base with
  | zero => exact hP.throw _ (by simp [Err.ofEstimator])
  | succ n ih =>
    simp only [PyZeal.genFuncLoop]
    split
    · exact hP.pure _
    · refine hP.bind (hP.addRoots ?_) fun _ => ih _
      intro r hr
      obtain ⟨z, hz, rfl⟩ := List.mem_map.1 hr
      have := (List.mem_filter.1 hz).2
      exact ⟨rfl, by simpa using this⟩

theorem Closed.edgeMoment {ctx : RCtx K} (hP : Closed ctx.f @P) {est : LineEst σ K}
    (hest : ∀ order a b, P (est order a b ctx)) (order : ℤ) (e : Cx K × Cx K) :
    P (edgeMoment est order ctx e) := by
  have hc : ∀ e, P (edgeMoment.compute est order ctx e) := by
    intro e
    unfold edgeMoment.compute
    refine hP.bind hP.tick fun _ => hP.bind (hest _ _ _) fun d => ?_
    exact hP.bind (hP.setCache fun c => (c.store order e.1 e.2 d).store order e.2 e.1 (-d)) fun _ => hP.pure _
  unfold PyZeal.edgeMoment
  refine hP.bind ?_ fun v => ?_
  · exact hP.readCache (fun c => (c.retrieve order e.1 e.2).1) fun c => (c.retrieve order e.1 e.2).2
  · rcases v with _ | v
    · exact hc e
    · dsimp only
      split
      · exact hP.pure _
      · exact hc e

theorem Closed.calcMoment {ctx : RCtx K} (hP : Closed ctx.f @P) {est : LineEst σ K}
    (hest : ∀ order a b, P (est order a b ctx)) (order : ℤ)
    (re im : K × K) : P (calcMoment est order re im ctx) := by
  have hs : ∀ es phi, P (sumEdges est order ctx es phi) := by
    intro es
    induction es with
    | nil => intro phi; exact hP.pure _
    | cons e es ih =>
      intro phi
      simp only [sumEdges]
      exact hP.bind (hP.edgeMoment hest order e) fun d => ih _
  exact hs _ _

end

section
variable [Field K] [LinearOrder K] [IsStrictOrderedRing K] {P : ∀ {α : Type}, Py (World σ K) α → Prop}

theorem Basic.quadLine {ctx : RCtx K} (hP : Basic ctx.f @P) (cfg : QuadCfg K) (order : ℤ) (a b : Cx K) :
    P (quadLine cfg order a b ctx) := by
  have hromb : ∀ fs dx, P (quadRomb cfg fs dx : Py (World σ K) _) := by
    intro fs dx
    have : ∀ y, P (rombPy cfg.romb y dx : Py (World σ K) _) := by
      intro y
      unfold rombPy
      split
      · exact hP.pure _
      · exact hP.throw _ (by simp [Err.ofEstimator])
    exact hP.bind (this _) fun _ => hP.bind (this _) fun _ => hP.pure _
  have hsample : ∀ df a b n, P (quadSample cfg df order a b ctx n : Py (World σ K) _) :=
    fun df a b n => hP.bind (hP.genFuncArr _ _ _ _) fun _ => hP.pure _
  have hmerge : ∀ o n, P (mergeArrays o n : Py (World σ K) _) := by
    intro o n
    have : ∀ (o n : List (Cx K)), P (mergeArray o n : Py (World σ K) _) := by
      intro o n
      unfold mergeArray
      split
      · split
        · exact hP.pure _
        · exact hP.throw _ (by simp [Err.ofEstimator])
      · exact hP.throw _ (by simp [Err.ofEstimator])
    exact hP.bind (this _ _) fun _ => hP.bind (this _ _) fun _ => hP.pure _
  have hrefine : ∀ df v, P (quadRefine cfg df order ctx v : Py (World σ K) _) := by
    intro df v
    unfold quadRefine
    split
    · exact hP.bind (hsample _ _ _ _) fun _ => hP.bind (hmerge _ _) fun _ => hP.pure _
    · exact hP.bind (hsample _ _ _ _) fun _ => hP.pure _
  have hloop : ∀ df d n v, P (quadLoop cfg df order ctx d n v : Py (World σ K) _) := by
    intro df d n
    induction n with
    | zero => intro v; exact hP.throw _ (by simp [Err.ofEstimator])
    | succ n ih =>
      intro v
      simp only [quadLoop]
      split
      · refine hP.bind (hrefine _ _) fun _ => hP.bind (hromb _ _) fun _ => ?_
        split
        · exact hP.pure _
        · exact ih _
      · exact hP.pure _
  unfold PyZeal.quadLine
  rcases hdf : ctx.df with _ | df
  · exact hP.throw _ (by simp [Err.ofEstimator])
  · exact hP.bind (hsample _ _ _ _) fun _ => hP.bind (hromb _ _) fun _ =>
      hP.bind (hloop _ _ _ _) fun _ => hP.pure _

end

section
variable [Field K] [LinearOrder K] [IsStrictOrderedRing K] [FloorRing K]
  {P : ∀ {α : Type}, Py (World (SumState K) K) α → Prop}

theorem reuseV_error {c : LineCache K} {order : ℤ} {lo hi x : K} {e : Err}
    (h : reuseV c order lo hi x = .error e) : e = .indexError := by
  unfold reuseV at h
  split at h
  · simp at h
  · simp at h
  · unfold cutStartV at h
    split at h
    · simp at h
    · split at h
      · simpa using h.symm
      · simp at h

theorem Closed.sumLine {ctx : RCtx K} (hP : Closed ctx.f @P) (cfg : SumCfg K) (order : ℤ) (a b : Cx K) :
    P (sumLine cfg order a b ctx) := by
  have hrefine : ∀ n idx z p, P (refineLoop cfg ctx n idx z p) := by
    intro n
    induction n with
    | zero => intro idx z p; exact hP.throw _ (by simp [Err.ofEstimator])
    | succ n ih =>
      intro idx z p
      simp only [refineLoop]
      split
      · exact hP.pure _
      · split
        · exact hP.pure _
        · split
          · exact hP.pure _
          · exact hP.bind (hP.toBasic.genFuncArr _ _ _ _) fun _ => ih _ _ _
  have hphi : ∀ a b, P (genPhiArr cfg order a b ctx) := by
    intro a b
    unfold genPhiArr
    split
    · exact hP.throw _ (by simp [Err.ofEstimator])
    · exact hP.bind (hP.toBasic.genFuncArr _ _ _ _) fun _ => hrefine _ _ _ _
  have hslice : ∀ a b v, P (sliceOrSample cfg order a b ctx v) := by
    intro a b v
    rcases v with _ | v
    · exact hphi _ _
    · exact hP.pure _
  unfold PyZeal.sumLine
  split
  · refine hP.readEst (k := fun e => do
      let v ← sliceOrSample cfg order ⟨min a.re b.re, a.im⟩ ⟨max a.re b.re, a.im⟩ ctx
        (reuseH e.horizontal order (min a.re b.re) (max a.re b.re) a.im)
      Py.modify fun w => { w with est :=
        { w.est with horizontal := storeCache w.est.horizontal a.im order (min a.re b.re) (max a.re b.re) v } }
      Pure.pure (Cx.ofK (lineSign a.re b.re * v.2.sum))) fun e => ?_
    exact hP.bind (hslice _ _ _) fun v =>
      hP.bind (hP.setEst fun e => { e with horizontal := storeCache e.horizontal a.im order _ _ v })
      fun _ => hP.pure _
  · split
    · refine hP.readEst (k := fun e => do
        let r ← liftReuse (reuseV e.vertical order (min a.im b.im) (max a.im b.im) a.re)
        let v ← sliceOrSample cfg order ⟨a.re, min a.im b.im⟩ ⟨a.re, max a.im b.im⟩ ctx r
        Py.modify fun w => { w with est :=
          { w.est with vertical := storeCache w.est.vertical a.re order (min a.im b.im) (max a.im b.im) v } }
        Pure.pure (Cx.ofK (lineSign a.im b.im * v.2.sum))) fun e => ?_
      refine hP.bind ?_ fun r => hP.bind (hslice _ _ _) fun v =>
        hP.bind (hP.setEst fun e => { e with vertical := storeCache e.vertical a.re order _ _ v })
        fun _ => hP.pure _
      rcases hr : reuseV e.vertical order (min a.im b.im) (max a.im b.im) a.re with e' | v
      · rw [reuseV_error hr]
        exact hP.throw _ (by simp [Err.ofEstimator])
      · exact hP.pure _
    · exact hP.throw _ (by simp [Err.ofEstimator])

end

/-! ## Exceptions an estimator does not raise -/

/-- the computation never raises `e` -/
def Never (e : Err) (m : Py (World σ K) α) : Prop := ∀ w, (m w).1 ≠ .error e

theorem Never.pure {e : Err} (a : α) : Never e (pure a : Py (World σ K) α) := by
  intro w; simp

theorem Never.bind {e : Err} {m : Py (World σ K) α} {k : α → Py (World σ K) β} (hm : Never e m)
    (hk : ∀ a, Never e (k a)) : Never e (m >>= k) := by
  intro w
  rw [Py.bind_run]
  have h := hm w
  rcases hmw : m w with ⟨_ | a, w1⟩ <;> rw [hmw] at h
  · simpa using h
  · exact hk a w1

theorem Never.closed [Field K] (f : Cx K → Cx K) (e : Err) (h1 : ¬ e.ofEstimator) (h2 : e ≠ .keyboardInterrupt) :
    Closed f (fun {α} (m : Py (World σ K) α) => Never e m) where
  pure := fun a => Never.pure a
  throw := by
    intro α e' h' w h
    simp only [Py.throw_run, Except.error.injEq] at h
    exact h1 (h ▸ h')
  bind := fun hm hk => Never.bind hm hk
  tick := by
    intro w
    unfold World.tick
    rcases hf : w.fuse with _ | _ | n <;> simp [hf, Ne.symm h2]
  hit := by
    intro r _ _
    refine Never.bind ?_ fun _ w => by simp
    intro w
    unfold World.tick
    rcases hf : w.fuse with _ | _ | n <;> simp [hf, Ne.symm h2]
  setCache := by intro g w; simp
  setEst := by intro g w; simp
  readEst := fun hk w => hk w.est w
  readCache := by intro α g h w; simp

end PyZeal
