import Verif.Spec.Raise
import Verif.Proof.Interrupt

/-! # A computation which raises does a prefix of the work -/

set_option linter.unusedSectionVars false

namespace PyZeal
open Spec
variable {K : Type} {σ α β : Type} {E : Err → Prop}

/-- `m'` does the same as `m`, or it raises one of `E`, having handed over a prefix of the roots `m` hands over. -/
def Fails (E : Err → Prop) (m' m : Py (World σ K) α) : Prop :=
  ∀ w : World σ K, w.fuse = none → (m w).2.fuse = none ∧ w.added <+: (m w).2.added ∧
    (m' w = m w ∨ ∃ e, E e ∧ (m' w).1 = .error e ∧ (m' w).2.fuse = none ∧ (m' w).2.added <+: (m w).2.added)

theorem Fails.of_interruptible {m : Py (World σ K) α} (h : Interruptible m) : Fails E m m :=
  fun w hw => ⟨(h w hw).1, (h w hw).2.1, .inl rfl⟩

theorem Fails.pure (a : α) : Fails E (pure a : Py (World σ K) α) (pure a) := .of_interruptible (.pure a)

theorem Fails.throw (e : Err) : Fails E (Py.throw e : Py (World σ K) α) (Py.throw e) := .of_interruptible (.throw e)

theorem Fails.bind {m' m : Py (World σ K) α} {k' k : α → Py (World σ K) β} (hm : Fails E m' m)
    (hk : ∀ a, Fails E (k' a) (k a)) : Fails E (m' >>= k') (m >>= k) := by
  intro w hw
  obtain ⟨h1, h2, h3⟩ := hm w hw
  rw [Py.bind_run, Py.bind_run]
  rcases hmw : m w with ⟨e | a, w1⟩
  · rw [hmw] at h1 h2 h3
    refine ⟨h1, h2, ?_⟩
    rcases h3 with h | ⟨e', he, h, hf, hp⟩
    · rw [h]; exact .inl rfl
    · right
      rcases hp' : m' w with ⟨e2 | a', w2⟩
      · rw [hp'] at h hf hp; exact ⟨e', he, by simpa using h, hf, hp⟩
      · rw [hp'] at h; simp at h
  · rw [hmw] at h1 h2 h3
    obtain ⟨g1, g2, g3⟩ := hk a w1 h1
    refine ⟨g1, h2.trans g2, ?_⟩
    rcases h3 with h | ⟨e', he, h, hf, hp⟩
    · rw [h]; exact g3
    · right
      rcases hp' : m' w with ⟨e2 | a', w2⟩
      · rw [hp'] at h hf hp; exact ⟨e', he, by simpa using h, hf, hp.trans g2⟩
      · rw [hp'] at h; simp at h

/-- an exception before the computation starts -/
theorem Fails.raiseIf {m' m : Py (World σ K) α} {o : Option Err} (ho : ∀ e, o = some e → E e) (hm : Fails E m' m) :
    Fails E (raiseIf o >>= fun _ => m') m := by
  rcases o with _ | e
  · exact hm
  · intro w hw
    obtain ⟨h1, h2, _⟩ := hm w hw
    exact ⟨h1, h2, .inr ⟨e, ho e rfl, rfl, hw, h2⟩⟩

/-- an exception after part of the computation -/
theorem Fails.raiseAfter {m' m : Py (World σ K) α} {o : α → Option Err} {k' k : α → Py (World σ K) β} (hm : Fails E m' m)
    (ho : ∀ a e, o a = some e → E e) (hk : ∀ a, Fails E (k' a) (k a)) :
    Fails E (m' >>= fun a => PyZeal.raiseIf (o a) >>= fun _ => k' a) (m >>= k) :=
  .bind hm fun a => .raiseIf (ho a) (hk a)

theorem Fails.readEst {k' k : σ → Py (World σ K) α} (h : ∀ e, Fails E (k' e) (k e)) :
    Fails E (fun w : World σ K => k' w.est w) (fun w : World σ K => k w.est w) := fun w hw => h w.est w hw

variable {R : Raises K}

theorem Fails.addRoot (hR : Within E R) (r : Root K) :
    Fails E (addRootR R r : Py (World σ K) Unit) (World.addRoot r) :=
  .raiseIf (hR.add r) (.of_interruptible (.addRoot r))

theorem Fails.addRoots (hR : Within E R) (rs : List (Root K)) :
    Fails E (addRootsR R rs : Py (World σ K) Unit) (World.addRoots rs) := by
  induction rs with
  | nil => exact .pure _
  | cons r rs ih => exact .bind (.addRoot hR r) fun _ => ih

section
variable [Field K] [DecidableEq K]

theorem Fails.genFuncArr (hR : Within E R) (fuel : ℕ → ℕ) (a b : Cx K) (ctx : RCtx K) (n : ℕ) :
    Fails E (genFuncArrR R fuel a b ctx n : Py (World σ K) _) (genFuncArr fuel a b ctx n) := by
  unfold PyZeal.genFuncArr PyZeal.genFuncArrR
  generalize fuel n = k
  generalize linspace a b n = base
  induction k generalizing base with
  | zero => exact .throw _
  | succ n ih =>
    simp only [PyZeal.genFuncLoop, PyZeal.genFuncLoopR]
    refine .raiseIf (hR.f _) ?_
    split
    · exact .pure _
    · exact .bind (.addRoots hR _) fun _ => ih _

theorem Fails.edgeMoment {est' est : LineEst σ K} {ctx : RCtx K} (hest : ∀ o a b, Fails E (est' o a b ctx) (est o a b ctx))
    (o : ℤ) (e : Cx K × Cx K) : Fails E (edgeMoment est' o ctx e) (edgeMoment est o ctx e) := by
  have hc : Fails E (edgeMoment.compute est' o ctx e) (edgeMoment.compute est o ctx e) := by
    unfold edgeMoment.compute
    refine .bind (.of_interruptible .tick) fun _ => .bind (hest _ _ _) fun d => .bind (.of_interruptible ?_) fun _ => .pure _
    exact .modify (fun _ _ => rfl) fun w => List.prefix_refl _
  unfold PyZeal.edgeMoment
  refine .bind (.of_interruptible ?_) fun v => ?_
  · exact (Interruptible.closed ctx.f).readCache (fun c => (c.retrieve o e.1 e.2).1) fun c => (c.retrieve o e.1 e.2).2
  · rcases v with _ | v
    · exact hc
    · dsimp only
      split
      · exact .pure _
      · exact hc

theorem Fails.calcMoment {est' est : LineEst σ K} {ctx : RCtx K} (hest : ∀ o a b, Fails E (est' o a b ctx) (est o a b ctx))
    (o : ℤ) (re im : K × K) : Fails E (calcMoment est' o re im ctx) (calcMoment est o re im ctx) := by
  unfold PyZeal.calcMoment
  generalize edges re im = es
  generalize (0 : Cx K) = phi
  induction es generalizing phi with
  | nil => exact .pure _
  | cons e es ih => exact .bind (.edgeMoment hest o e) fun _ => ih _

end

section
variable [Field K] [LinearOrder K] [IsStrictOrderedRing K] [FloorRing K]

theorem Fails.sumLine (hR : Within E R) (cfg : SumCfg K) (ctx : RCtx K) (o : ℤ) (a b : Cx K) :
    Fails E (sumLineR R cfg o a b ctx) (sumLine cfg o a b ctx) := by
  have hrefine : ∀ n idx z p, Fails E (refineLoopR R cfg ctx n idx z p) (refineLoop cfg ctx n idx z p) := by
    intro n
    induction n with
    | zero => intro idx z p; exact .throw _
    | succ n ih =>
      intro idx z p
      simp only [refineLoop, refineLoopR]
      rcases whereFrom (fun q => decide (cfg.deltaPhi ≤ |q|)) 0 p with _ | ⟨k, ks⟩
      · exact .pure _
      · dsimp only
        split
        · exact .pure _
        · split
          · exact .pure _
          · exact .bind (.genFuncArr hR _ _ _ _ _) fun _ => ih _ _ _
  have hphi : ∀ a b, Fails E (genPhiArrR R cfg o a b ctx) (genPhiArr cfg o a b ctx) := by
    intro a b
    unfold genPhiArr genPhiArrR
    split
    · exact .throw _
    · exact .bind (.genFuncArr hR _ _ _ _ _) fun _ => hrefine _ _ _ _
  have hslice : ∀ a b v, Fails E (sliceOrSampleR R cfg o a b ctx v) (sliceOrSample cfg o a b ctx v) := by
    intro a b v
    rcases v with _ | v
    · exact hphi _ _
    · exact .pure _
  unfold PyZeal.sumLine PyZeal.sumLineR
  split
  · refine .readEst
      (k' := fun e => do
        let v ← sliceOrSampleR R cfg o ⟨min a.re b.re, a.im⟩ ⟨max a.re b.re, a.im⟩ ctx
          (reuseH e.horizontal o (min a.re b.re) (max a.re b.re) a.im)
        Py.modify fun w => { w with est :=
          { w.est with horizontal := storeCache w.est.horizontal a.im o (min a.re b.re) (max a.re b.re) v } }
        Pure.pure (Cx.ofK (lineSign a.re b.re * v.2.sum)))
      (k := fun e => do
        let v ← sliceOrSample cfg o ⟨min a.re b.re, a.im⟩ ⟨max a.re b.re, a.im⟩ ctx
          (reuseH e.horizontal o (min a.re b.re) (max a.re b.re) a.im)
        Py.modify fun w => { w with est :=
          { w.est with horizontal := storeCache w.est.horizontal a.im o (min a.re b.re) (max a.re b.re) v } }
        Pure.pure (Cx.ofK (lineSign a.re b.re * v.2.sum))) fun e => ?_
    exact .bind (hslice _ _ _) fun v =>
      .bind (.of_interruptible (.modify (fun _ _ => rfl) fun w => List.prefix_refl _)) fun _ => .pure _
  · split
    · refine .readEst
        (k' := fun e => do
          let r ← liftReuse (reuseV e.vertical o (min a.im b.im) (max a.im b.im) a.re)
          let v ← sliceOrSampleR R cfg o ⟨a.re, min a.im b.im⟩ ⟨a.re, max a.im b.im⟩ ctx r
          Py.modify fun w => { w with est :=
            { w.est with vertical := storeCache w.est.vertical a.re o (min a.im b.im) (max a.im b.im) v } }
          Pure.pure (Cx.ofK (lineSign a.im b.im * v.2.sum)))
        (k := fun e => do
          let r ← liftReuse (reuseV e.vertical o (min a.im b.im) (max a.im b.im) a.re)
          let v ← sliceOrSample cfg o ⟨a.re, min a.im b.im⟩ ⟨a.re, max a.im b.im⟩ ctx r
          Py.modify fun w => { w with est :=
            { w.est with vertical := storeCache w.est.vertical a.re o (min a.im b.im) (max a.im b.im) v } }
          Pure.pure (Cx.ofK (lineSign a.im b.im * v.2.sum))) fun e => ?_
      refine .bind ?_ fun r => .bind (hslice _ _ _) fun v =>
        .bind (.of_interruptible (.modify (fun _ _ => rfl) fun w => List.prefix_refl _)) fun _ => .pure _
      rcases reuseV e.vertical o (min a.im b.im) (max a.im b.im) a.re with e' | v
      · exact .throw _
      · exact .pure _
    · exact .throw _

theorem Fails.quadLine (hR : Within E R) (cfg : QuadCfg K) (ctx : RCtx K) (o : ℤ) (a b : Cx K) :
    Fails E (quadLineR R cfg o a b ctx : Py (World σ K) _) (quadLine cfg o a b ctx) := by
  have hromb : ∀ fs dx, Fails E (quadRomb cfg fs dx : Py (World σ K) _) (quadRomb cfg fs dx) := by
    intro fs dx
    have : ∀ y, Fails E (rombPy cfg.romb y dx : Py (World σ K) _) (rombPy cfg.romb y dx) := by
      intro y
      unfold rombPy
      split
      · exact .pure _
      · exact .throw _
    exact .bind (this _) fun _ => .bind (this _) fun _ => .pure _
  have hsample : ∀ df a b n, Fails E (quadSampleR R cfg df o a b ctx n : Py (World σ K) _) (quadSample cfg df o a b ctx n) :=
    fun df a b n => .bind (.genFuncArr hR _ _ _ _ _) fun _ => .raiseIf (hR.df _) (.pure _)
  have hmerge : ∀ o n, Fails E (mergeArrays o n : Py (World σ K) _) (mergeArrays o n) := by
    intro o n
    have : ∀ (o n : List (Cx K)), Fails E (mergeArray o n : Py (World σ K) _) (mergeArray o n) := by
      intro o n
      unfold mergeArray
      split
      · split
        · exact .pure _
        · exact .throw _
      · exact .throw _
    exact .bind (this _ _) fun _ => .bind (this _ _) fun _ => .pure _
  have hrefine : ∀ df v, Fails E (quadRefineR R cfg df o ctx v : Py (World σ K) _) (quadRefine cfg df o ctx v) := by
    intro df v
    unfold quadRefine quadRefineR
    split
    · exact .bind (hsample _ _ _ _) fun _ => .bind (hmerge _ _) fun _ => .pure _
    · exact .bind (hsample _ _ _ _) fun _ => .pure _
  have hloop : ∀ df d n v, Fails E (quadLoopR R cfg df o ctx d n v : Py (World σ K) _) (quadLoop cfg df o ctx d n v) := by
    intro df d n
    induction n with
    | zero => intro v; exact .throw _
    | succ n ih =>
      intro v
      simp only [quadLoop, quadLoopR]
      split
      · refine .bind (hrefine _ _) fun _ => .bind (hromb _ _) fun _ => ?_
        split
        · exact .pure _
        · exact ih _
      · exact .pure _
  unfold PyZeal.quadLine PyZeal.quadLineR
  rcases hdf : ctx.df with _ | df
  · exact .throw _
  · exact .bind (hsample _ _ _ _) fun _ => .bind (hromb _ _) fun _ => .bind (hloop _ _ _ _) fun _ => .pure _

theorem Spec.RaisingEstimator.fails (hR : Within E R) {est' est : LineEst (SumState K) K} (h : RaisingEstimator R est' est)
    (ctx : RCtx K) (o : ℤ) (a b : Cx K) : Fails E (est' o a b ctx) (est o a b ctx) := by
  cases h with
  | summation cfg => exact .sumLine hR cfg ctx o a b
  | quadrature cfg => exact .quadLine hR cfg ctx o a b

/-! ## Algorithms -/

variable {est' est : LineEst σ K} {ctx : RCtx K}

theorem Fails.phaseOf (hest : ∀ o a b, Fails E (est' o a b ctx) (est o a b ctx)) (re im : K × K) :
    Fails E (phaseOf est' re im ctx) (phaseOf est re im ctx) := by
  unfold PyZeal.phaseOf
  exact .bind (.calcMoment hest 0 re im) fun m =>
    .bind (.of_interruptible (.modify (fun _ _ => rfl) fun w => List.prefix_refl _)) fun _ => .pure _

theorem Fails.simpleDecide (hR : Within E R) (hest : ∀ o a b, Fails E (est' o a b ctx) (est o a b ctx))
    (pi : K) {self' self : Decide σ K} (hself : ∀ re im phi, Fails E (self' re im phi ctx) (self re im phi ctx))
    (re im : K × K) (phi : K) :
    Fails E (simpleDecideR R est' pi self' re im phi ctx) (simpleDecide est pi self re im phi ctx) := by
  unfold PyZeal.simpleDecide PyZeal.simpleDecideR
  dsimp only
  split
  · exact .of_interruptible (.advance _ _)
  · split
    · exact .bind (.addRoot hR _) fun _ => .of_interruptible (.advance _ _)
    · split
      · exact .bind (.phaseOf hest _ _) fun _ => .bind (hself _ _ _) fun _ => .bind (.of_interruptible (.cacheRemove _ _))
          fun _ => .bind (.phaseOf hest _ _) fun _ => .bind (hself _ _ _) fun _ => .of_interruptible (.cacheRemove _ _)
      · exact .bind (.phaseOf hest _ _) fun _ => .bind (hself _ _ _) fun _ => .bind (.of_interruptible (.cacheRemove _ _))
          fun _ => .bind (.phaseOf hest _ _) fun _ => .bind (hself _ _ _) fun _ => .of_interruptible (.cacheRemove _ _)

theorem Fails.calcRoots (hest : ∀ o a b, Fails E (est' o a b ctx) (est o a b ctx)) {body' body : Decide σ K → Decide σ K}
    (hbody : ∀ self' self : Decide σ K, (∀ re im phi, Fails E (self' re im phi ctx) (self re im phi ctx)) →
      ∀ re im phi, Fails E (body' self' re im phi ctx) (body self re im phi ctx)) (limit : ℕ) :
    Fails E (calcRoots est' body' limit ctx) (calcRoots est body limit ctx) := by
  have hd : ∀ re im phi, Fails E (dispatch body' limit re im phi ctx) (dispatch body limit re im phi ctx) := by
    induction limit with
    | zero => intro re im phi; exact .throw _
    | succ n ih => intro re im phi; exact hbody _ _ ih re im phi
  unfold PyZeal.calcRoots
  refine .bind (.of_interruptible (.modify (fun w o => ?_) fun w => ?_)) fun _ => .bind (.phaseOf hest _ _) fun _ => hd _ _ _
  · dsimp only; split <;> rfl
  · split <;> exact List.prefix_refl _

theorem exceptRuntimeError_run (m : Py (World σ K) Unit) (w : World σ K) :
    Py.exceptRuntimeError m w = (if (m w).1 = .error .runtimeError then .ok () else (m w).1, (m w).2) := by
  unfold Py.exceptRuntimeError
  split
  · rename_i h; rw [h]; simp
  · rename_i h
    rw [if_neg]
    intro he
    exact h (m w).2 (Prod.ext he rfl)

theorem Fails.exceptRuntimeError (hE : ¬ E .runtimeError) {m' m : Py (World σ K) Unit} (hm : Fails E m' m) :
    Fails E (Py.exceptRuntimeError m') (Py.exceptRuntimeError m) := by
  intro w hw
  obtain ⟨h1, h2, h3⟩ := hm w hw
  rw [exceptRuntimeError_run, exceptRuntimeError_run]
  refine ⟨h1, h2, ?_⟩
  rcases h3 with h | ⟨e, he, h, hf, hp⟩
  · rw [h]; exact .inl rfl
  · refine .inr ⟨e, he, ?_, hf, hp⟩
    dsimp only
    rw [h, if_neg]
    intro hh
    cases hh
    exact hE he

theorem advance_calm (ctx : RCtx K) (a : K) (w : World σ K) (hw : w.fuse = none) :
    (World.advance ctx a w).1 = .ok () ∧ (World.advance ctx a w).2.added = w.added ∧
    (World.advance ctx a w).2.fuse = none := by
  unfold World.advance
  split
  · rw [Py.bind_run]
    unfold World.tick
    rw [hw]
    exact ⟨rfl, rfl, hw⟩
  · exact ⟨rfl, rfl, hw⟩

theorem tryFinally_calm (m : Py (World σ K) Unit) (ctx : RCtx K) (a : K) (w : World σ K) (hw : (m w).2.fuse = none) :
    Py.tryFinally m (World.advance ctx a) w = ((m w).1, (World.advance ctx a (m w).2).2) := by
  unfold Py.tryFinally
  have := (advance_calm ctx a (m w).2 hw).1
  rcases h : World.advance ctx a (m w).2 with ⟨_ | _, _⟩
  · rw [h] at this; simp at this
  · rfl

theorem Fails.tryFinally {m' m : Py (World σ K) Unit} (hm : Fails E m' m) (ctx : RCtx K) (a : K) :
    Fails E (Py.tryFinally m' (World.advance ctx a)) (Py.tryFinally m (World.advance ctx a)) := by
  intro w hw
  obtain ⟨h1, h2, h3⟩ := hm w hw
  rw [tryFinally_calm m ctx a w h1]
  obtain ⟨_, g2, g3⟩ := advance_calm ctx a (m w).2 h1
  refine ⟨g3, by dsimp only; rwa [g2], ?_⟩
  rcases h3 with h | ⟨e, he, h, hf, hp⟩
  · left
    rw [tryFinally_calm m' ctx a w (by rw [h]; exact h1), h]
  · obtain ⟨_, k2, k3⟩ := advance_calm ctx a (m' w).2 hf
    rw [tryFinally_calm m' ctx a w hf]
    exact .inr ⟨e, he, h, k3, by dsimp only; rw [k2, g2]; exact hp⟩

/-- a call of the external solver followed by the rest -/
theorem Fails.call {call : Except Err α} {total : Option α} (h : SameUnlessRaised E call total)
    {k' k : α → Py (World σ K) β} (hk : ∀ a, Fails E (k' a) (k a)) :
    Fails E (liftCall call >>= k') (orRuntimeError total >>= k) := by
  rcases h with ⟨a, rfl, rfl⟩ | ⟨rfl, rfl⟩ | ⟨e, he, rfl⟩
  · exact hk a
  · exact .throw _
  · intro w hw
    rcases total with _ | a
    · exact ⟨hw, List.prefix_refl _, .inr ⟨e, he, rfl, hw, List.prefix_refl _⟩⟩
    · obtain ⟨h1, h2, _⟩ := hk a w hw
      exact ⟨h1, h2, .inr ⟨e, he, rfl, hw, h2⟩⟩

theorem Fails.newtonBlock (hR : Within E R) {nt' : NewtonSolverR K} {nt : NewtonSolver K} (hnt : SolvesLike E nt' nt)
    (re im : K × K) (ctx : RCtx K) :
    Fails E (newtonBlockR R nt' re im ctx : Py (World σ K) Unit) (newtonBlock nt re im ctx) := by
  unfold PyZeal.newtonBlock PyZeal.newtonBlockR
  refine .call (hnt.secant _ _ _ _) fun _ => .bind (.addRoot hR _) fun _ => ?_
  rcases ctx.df with _ | df
  · exact .pure _
  · exact .call (hnt.newton _ _ _ _) fun _ => .addRoot hR _

theorem Fails.newtonDecide (hR : Within E R) {nt' : NewtonSolverR K} {nt : NewtonSolver K} (hnt : SolvesLike E nt' nt)
    (hE : ¬ E .runtimeError) (hest : ∀ o a b, Fails E (est' o a b ctx) (est o a b ctx)) (pi : K) (self' self : Decide σ K)
    (hself : ∀ re im phi, Fails E (self' re im phi ctx) (self re im phi ctx)) (re im : K × K) (phi : K) :
    Fails E (newtonDecideR R nt' est' pi self' re im phi ctx) (newtonDecide nt est pi self re im phi ctx) := by
  unfold PyZeal.newtonDecide PyZeal.newtonDecideR
  dsimp only
  split
  · exact .bind (.addRoot hR _) fun _ => .of_interruptible (.advance _ _)
  · split
    · exact .tryFinally (.exceptRuntimeError hE (.newtonBlock hR hnt _ _ _)) _ _
    · exact .simpleDecide hR hest pi hself _ _ _

theorem Fails.moments (hest : ∀ o a b, Fails E (est' o a b ctx) (est o a b ctx))
    (pi : K) (re im : K × K) (os : List ℤ) : Fails E (moments est' pi re im ctx os) (moments est pi re im ctx os) := by
  induction os with
  | nil => exact .pure _
  | cons o os ih => exact .bind (.calcMoment hest o re im) fun _ => .bind ih fun _ => .pure _

theorem Fails.polynomialDecide (hR : Within E R) (pr : List (Cx K) → List (Cx K))
    (hest : ∀ o a b, Fails E (est' o a b ctx) (est o a b ctx)) (pi : K) (self' self : Decide σ K)
    (hself : ∀ re im phi, Fails E (self' re im phi ctx) (self re im phi ctx)) (re im : K × K) (phi : K) :
    Fails E (polynomialDecideR R pr est' pi self' re im phi ctx) (polynomialDecide pr est pi self re im phi ctx) := by
  unfold PyZeal.polynomialDecide PyZeal.polynomialDecideR
  rcases hdf : ctx.df with _ | df
  · exact .throw _
  · dsimp only
    split
    · exact .bind (.addRoot hR _) fun _ => .of_interruptible (.advance _ _)
    · split
      · exact .bind (.moments hest _ _ _ _) fun _ => .bind (.addRoots hR _) fun _ => .of_interruptible (.advance _ _)
      · exact .simpleDecide hR hest pi hself _ _ _

theorem Fails.newtonGrid (hR : Within E R) {nt' : NewtonSolverR K} {nt : NewtonSolver K} (hnt : SolvesLike E nt' nt)
    (hE : ¬ E .runtimeError) (n : ℕ) (t : Bool) (ctx : RCtx K) :
    Fails E (newtonGridR R nt' n t ctx : Py (World σ K) Unit) (newtonGrid nt n t ctx) := by
  unfold PyZeal.newtonGrid PyZeal.newtonGridR
  have ht : Fails E (if t = true then World.advance ctx ((ctx.reRan.2 - ctx.reRan.1) * (ctx.imRan.2 - ctx.imRan.1))
      else Pure.pure () : Py (World σ K) Unit)
      (if t = true then World.advance ctx ((ctx.reRan.2 - ctx.reRan.1) * (ctx.imRan.2 - ctx.imRan.1)) else Pure.pure ()) := by
    split
    · exact .of_interruptible (.advance _ _)
    · exact .pure _
  rcases hnt.grid ctx.f (gridPoints ctx.reRan ctx.imRan n) ctx.df with ⟨a, h, h'⟩ | ⟨h, h'⟩ | ⟨e, he, h⟩
  · rw [h, h']
    exact .bind (.addRoots hR _) fun _ => ht
  · rw [h, h']
    exact .pure _
  · rw [h]
    have hne : e ≠ .runtimeError := by rintro rfl; exact hE he
    have hbase : Interruptible (PyZeal.newtonGrid nt n t ctx : Py (World σ K) Unit) := Interruptible.newtonGrid nt n t ctx
    intro w hw
    obtain ⟨h1, h2, _⟩ := hbase w hw
    refine ⟨h1, h2, .inr ⟨e, he, ?_⟩⟩
    rcases e <;> first | exact absurd rfl hne | exact ⟨rfl, hw, h2⟩

theorem Spec.RaisingAlgorithm.fails (hR : Within E R) {alg' alg : RCtx K → Py (World (SumState K) K) Unit}
    (h : RaisingAlgorithm R E alg' alg) (ctx : RCtx K) : Fails E (alg' ctx) (alg ctx) := by
  cases h with
  | simple est' est pi limit h =>
    exact .calcRoots (h.fails hR ctx) (fun _ _ hs => .simpleDecide hR (h.fails hR ctx) pi hs) limit
  | newton nt' nt est' est pi limit h hnt hE =>
    exact .calcRoots (h.fails hR ctx) (fun _ _ hs => .newtonDecide hR hnt hE (h.fails hR ctx) pi _ _ hs) limit
  | polynomial pr est' est pi limit h =>
    exact .calcRoots (h.fails hR ctx) (fun _ _ hs => .polynomialDecide hR pr (h.fails hR ctx) pi _ _ hs) limit
  | grid nt' nt n t hnt hE => exact .newtonGrid hR hnt hE n t ctx

theorem Fails.runJobs {alg' alg : RCtx K → Py (World σ K) Unit} (h : ∀ ctx, Fails E (alg' ctx) (alg ctx))
    (jobs : List (RCtx K)) : Fails E (runJobs alg' jobs) (runJobs alg jobs) := by
  induction jobs with
  | nil => exact .pure _
  | cons c cs ih => exact .bind (h c) fun _ => ih

end
end PyZeal
