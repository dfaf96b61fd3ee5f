import Verif.Proof.Once
import Verif.Proof.PolySum

/-! # Estimators which note what they are asked, and searches with them -/

set_option linter.unusedSectionVars false

namespace PyZeal
open Spec
variable {K σ : Type}

/-! ## Actions which leave caches, estimator and log alone -/

/-- a computation which leaves caches, estimator and log alone and causes no interrupts -/
def Calm {α : Type} (m : Py (World σ K) α) : Prop :=
  ∀ w, (m w).2.cache = w.cache ∧ (m w).2.est = w.est ∧ (w.fuse = none → (m w).2.fuse = none) ∧ (m w).2.log = w.log

theorem Calm.pure {α : Type} (a : α) : Calm (pure a : Py (World σ K) α) := fun w => ⟨rfl, rfl, id, rfl⟩

theorem Calm.bind {α β : Type} {m : Py (World σ K) α} {k : α → Py (World σ K) β} (hm : Calm m) (hk : ∀ a, Calm (k a)) : Calm (m >>= k) := by
  intro w
  rw [Py.bind_run]
  obtain ⟨a1, a2, a3, a4⟩ := hm w
  rcases h : m w with ⟨_ | a, w1⟩ <;> rw [h] at a1 a2 a3 a4
  · exact ⟨a1, a2, a3, a4⟩
  · obtain ⟨b1, b2, b3, b4⟩ := hk a w1
    exact ⟨b1.trans a1, b2.trans a2, fun hf => b3 (a3 hf), b4.trans a4⟩

theorem Calm.tick : Calm (World.tick : Py (World σ K) Unit) := by
  intro w
  unfold World.tick
  rcases hf : w.fuse with _ | _ | n <;> simp_all

theorem Calm.addRoot (r : Root K) : Calm (World.addRoot r : Py (World σ K) Unit) :=
  Calm.bind Calm.tick fun _ w => ⟨rfl, rfl, id, rfl⟩

theorem Calm.advance (ctx : RCtx K) (a : K) : Calm (World.advance ctx a : Py (World σ K) Unit) := by
  unfold World.advance
  split
  · exact Calm.bind Calm.tick fun _ w => ⟨rfl, rfl, id, rfl⟩
  · exact Calm.pure _

theorem Calm.orRuntimeError {α : Type} (x : Option α) : Calm (orRuntimeError x : Py (World σ K) α) := by
  intro w; cases x <;> exact ⟨rfl, rfl, id, rfl⟩

theorem Calm.except {m : Py (World σ K) Unit} (h : Calm m) : Calm (Py.exceptRuntimeError m) := by
  intro w
  have hx : (Py.exceptRuntimeError m w).2 = (m w).2 := by
    unfold Py.exceptRuntimeError
    rcases m w with ⟨e | _, w1⟩
    · cases e <;> rfl
    · rfl
  rw [hx]; exact h w

theorem Calm.tryFinally {m fin : Py (World σ K) Unit} (h : Calm m) (hfin : Calm fin) : Calm (Py.tryFinally m fin) := by
  intro w
  obtain ⟨a1, a2, a3, a4⟩ := h w
  obtain ⟨b1, b2, b3, b4⟩ := hfin (m w).2
  have hx : (Py.tryFinally m fin w).2 = (fin (m w).2).2 := by
    unfold Py.tryFinally
    rcases fin (m w).2 with ⟨_ | _, w2⟩ <;> rfl
  rw [hx]
  exact ⟨b1.trans a1, b2.trans a2, fun hf => b3 (a3 hf), b4.trans a4⟩

section
variable [Field K] [LinearOrder K] [IsStrictOrderedRing K] [FloorRing K]

theorem Calm.newtonBlock (nt : NewtonSolver K) (re im : K × K) (ctx : RCtx K) : Calm (newtonBlock nt re im ctx : Py (World σ K) Unit) := by
  unfold PyZeal.newtonBlock
  refine Calm.bind (Calm.orRuntimeError _) fun z => Calm.bind (Calm.addRoot _) fun _ => ?_
  rcases ctx.df with _ | df
  · exact Calm.pure _
  · exact Calm.bind (Calm.orRuntimeError _) fun z => Calm.addRoot _

theorem Calm.simpleAct (pi : K) (ctx : RCtx K) (c : Cell K) : Calm (simpleAct pi ctx c : Py (World σ K) Unit) := by
  unfold PyZeal.simpleAct
  split
  · exact Calm.advance _ _
  · exact Calm.bind (Calm.addRoot _) fun _ => Calm.advance _ _

theorem Calm.newtonAct (nt : NewtonSolver K) (pi : K) (ctx : RCtx K) (c : Cell K) : Calm (newtonAct nt pi ctx c : Py (World σ K) Unit) := by
  unfold PyZeal.newtonAct
  split
  · exact Calm.simpleAct _ _ _
  · exact Calm.tryFinally (Calm.except (Calm.newtonBlock _ _ _ _)) (Calm.advance _ _)

end

theorem Calm.quiet {act : Cell ℝ → Py (World σ ℝ) Unit} (h : ∀ c, Calm (act c)) : Quiet act := by
  intro c w w' hr
  have := h c w
  rw [hr] at this
  exact this

theorem quiet_newton (nt : NewtonSolver ℝ) (pi : ℝ) (ctx : RCtx ℝ) : Quiet (σ := σ) (newtonAct nt pi ctx) := Calm.quiet (Calm.newtonAct nt pi ctx)

/-! ## Noting does not change the search -/

/-- `m₁` does what `m₂` does, apart from the notes -/
def NoteSim {τ α : Type} (m₁ : Py (World (σ × τ) K) α) (m₂ : Py (World σ K) α) : Prop :=
  ∀ w, m₂ (forget w) = ((m₁ w).1, forget (m₁ w).2)

theorem NoteSim.pure {τ α : Type} (a : α) : NoteSim (pure a : Py (World (σ × τ) K) α) (pure a) := fun _ => rfl

theorem NoteSim.bind {τ α β : Type} {m₁ : Py (World (σ × τ) K) α} {m₂ : Py (World σ K) α} {k₁ : α → Py (World (σ × τ) K) β}
    {k₂ : α → Py (World σ K) β} (hm : NoteSim m₁ m₂) (hk : ∀ a, NoteSim (k₁ a) (k₂ a)) : NoteSim (m₁ >>= k₁) (m₂ >>= k₂) := by
  intro w
  rw [Py.bind_run, Py.bind_run, hm w]
  rcases m₁ w with ⟨_ | a, w1⟩
  · rfl
  · exact hk a w1

theorem NoteSim.tick {τ : Type} : NoteSim (World.tick : Py (World (σ × τ) K) Unit) World.tick := by
  intro w
  unfold World.tick
  rcases w with ⟨c, e, ad, av, fu, lo⟩
  rcases fu with _ | _ | n <;> rfl

theorem NoteSim.addRoot {τ : Type} (r : Root K) : NoteSim (World.addRoot r : Py (World (σ × τ) K) Unit) (World.addRoot r) :=
  NoteSim.bind NoteSim.tick fun _ _ => rfl

theorem NoteSim.advance {τ : Type} (ctx : RCtx K) (a : K) : NoteSim (World.advance ctx a : Py (World (σ × τ) K) Unit) (World.advance ctx a) := by
  unfold World.advance
  split
  · exact NoteSim.bind NoteSim.tick fun _ _ => rfl
  · exact NoteSim.pure _

theorem NoteSim.orRuntimeError {τ α : Type} (x : Option α) : NoteSim (orRuntimeError x : Py (World (σ × τ) K) α) (orRuntimeError x) := by
  intro w; cases x <;> rfl

theorem NoteSim.except {τ : Type} {m₁ : Py (World (σ × τ) K) Unit} {m₂ : Py (World σ K) Unit} (h : NoteSim m₁ m₂) :
    NoteSim (Py.exceptRuntimeError m₁) (Py.exceptRuntimeError m₂) := by
  intro w
  unfold Py.exceptRuntimeError
  rw [h w]
  rcases m₁ w with ⟨e | _, w1⟩
  · cases e <;> rfl
  · rfl

theorem NoteSim.tryFinally {τ : Type} {m₁ fin₁ : Py (World (σ × τ) K) Unit} {m₂ fin₂ : Py (World σ K) Unit} (h : NoteSim m₁ m₂) (hfin : NoteSim fin₁ fin₂) :
    NoteSim (Py.tryFinally m₁ fin₁) (Py.tryFinally m₂ fin₂) := by
  intro w
  unfold Py.tryFinally
  rw [h w]
  dsimp only
  rw [hfin (m₁ w).2]
  rcases fin₁ (m₁ w).2 with ⟨_ | _, w2⟩ <;> rfl

theorem NoteSim.noting (est : LineEst σ K) (o : ℤ) (a b : Cx K) (ctx : RCtx K) : NoteSim (noting est o a b ctx) (est o a b ctx) := fun _ => rfl

section
variable [Field K] [LinearOrder K] [IsStrictOrderedRing K] [FloorRing K]

theorem NoteSim.simpleAct {τ : Type} (pi : K) (ctx : RCtx K) (c : Cell K) : NoteSim (simpleAct pi ctx c : Py (World (σ × τ) K) Unit) (simpleAct pi ctx c) := by
  unfold PyZeal.simpleAct
  split
  · exact NoteSim.advance _ _
  · exact NoteSim.bind (NoteSim.addRoot _) fun _ => NoteSim.advance _ _

theorem NoteSim.newtonAct {τ : Type} (nt : NewtonSolver K) (pi : K) (ctx : RCtx K) (c : Cell K) :
    NoteSim (newtonAct nt pi ctx c : Py (World (σ × τ) K) Unit) (newtonAct nt pi ctx c) := by
  unfold PyZeal.newtonAct
  split
  · exact NoteSim.simpleAct _ _ _
  · refine NoteSim.tryFinally (NoteSim.except ?_) (NoteSim.advance _ _)
    unfold newtonBlock
    refine NoteSim.bind (NoteSim.orRuntimeError _) fun z => NoteSim.bind (NoteSim.addRoot _) fun _ => ?_
    rcases ctx.df with _ | df
    · exact NoteSim.pure _
    · exact NoteSim.bind (NoteSim.orRuntimeError _) fun z => NoteSim.addRoot _

theorem NoteSim.edge (est : LineEst σ K) (o : ℤ) (ctx : RCtx K) (e : Cx K × Cx K) :
    NoteSim (edgeMoment (Spec.noting est) o ctx e) (edgeMoment est o ctx e) := by
  have hc : NoteSim (edgeMoment.compute (Spec.noting est) o ctx e) (edgeMoment.compute est o ctx e) := by
    unfold edgeMoment.compute
    exact NoteSim.bind NoteSim.tick fun _ => NoteSim.bind (NoteSim.noting est o e.1 e.2 ctx) fun _ _ => rfl
  unfold edgeMoment
  refine NoteSim.bind (fun w => rfl) fun entry => ?_
  cases entry with
  | none => exact hc
  | some v =>
    dsimp only
    by_cases hv : v ≠ 0
    · rw [if_pos hv, if_pos hv]; exact NoteSim.pure _
    · rw [if_neg hv, if_neg hv]; exact hc

theorem NoteSim.phase (est : LineEst σ K) (re im : K × K) (ctx : RCtx K) :
    NoteSim (phaseOf (Spec.noting est) re im ctx) (phaseOf est re im ctx) := by
  have hs : ∀ es phi, NoteSim (sumEdges (Spec.noting est) 0 ctx es phi) (sumEdges est 0 ctx es phi) := by
    intro es
    induction es with
    | nil => intro phi; exact NoteSim.pure _
    | cons e es ih => intro phi; exact NoteSim.bind (NoteSim.edge est 0 ctx e) fun d => ih _
  exact NoteSim.bind (hs _ _) fun _ => NoteSim.bind (fun _ => rfl) fun _ => NoteSim.pure _

theorem NoteSim.dispatch {est : LineEst σ K} {ctx : RCtx K} {b₁ : Decide (σ × List (Note K)) K → Decide (σ × List (Note K)) K} {b₂ : Decide σ K → Decide σ K}
    {stop : Cell K → Prop} {a₁ : Cell K → Py (World (σ × List (Note K)) K) Unit} {a₂ : Cell K → Py (World σ K) Unit}
    (h1 : Stops (Spec.noting est) ctx b₁ stop a₁) (h2 : Stops est ctx b₂ stop a₂) (ha : ∀ c, NoteSim (a₁ c) (a₂ c)) (limit : ℕ) (c : Cell K) :
    NoteSim ((PyZeal.dispatch b₁ limit).at ctx c) ((PyZeal.dispatch b₂ limit).at ctx c) := by
  induction limit generalizing c with
  | zero => intro w; rfl
  | succ limit ih =>
    change NoteSim ((b₁ (PyZeal.dispatch b₁ limit)).at ctx c) ((b₂ (PyZeal.dispatch b₂ limit)).at ctx c)
    by_cases hs : stop c
    · rw [(h1 _ c).1 hs, (h2 _ c).1 hs]; exact ha c
    · rw [(h1 _ c).2 hs, (h2 _ c).2 hs]
      unfold splitStep
      exact NoteSim.bind (NoteSim.phase _ _ _ _) fun _ => NoteSim.bind (ih _) fun _ => NoteSim.bind (fun _ => rfl) fun _ => NoteSim.bind (NoteSim.phase _ _ _ _) fun _ =>
        NoteSim.bind (ih _) fun _ => fun _ => rfl

theorem NoteSim.calcRoots {est : LineEst σ K} {ctx : RCtx K} {b₁ : Decide (σ × List (Note K)) K → Decide (σ × List (Note K)) K} {b₂ : Decide σ K → Decide σ K}
    {stop : Cell K → Prop} {a₁ : Cell K → Py (World (σ × List (Note K)) K) Unit} {a₂ : Cell K → Py (World σ K) Unit}
    (h1 : Stops (Spec.noting est) ctx b₁ stop a₁) (h2 : Stops est ctx b₂ stop a₂) (ha : ∀ c, NoteSim (a₁ c) (a₂ c)) (limit : ℕ) :
    NoteSim (PyZeal.calcRoots (Spec.noting est) b₁ limit ctx) (PyZeal.calcRoots est b₂ limit ctx) := by
  refine NoteSim.bind ?_ fun _ => NoteSim.bind (NoteSim.phase _ _ _ _) fun phi => NoteSim.dispatch h1 h2 ha limit ⟨ctx.reRan, ctx.imRan, phi⟩
  intro w
  unfold resetCache
  rw [Py.modify_run, Py.modify_run]
  change (Except.ok (), if w.cache.dirty = true then _ else _) = (Except.ok (), forget (if w.cache.dirty = true then _ else _))
  split <;> rfl

end

/-! ## The estimators of the code leave the cache alone -/

section
variable [Field K] [LinearOrder K] [IsStrictOrderedRing K] [FloorRing K]

theorem sumLine_leaves (cfg : SumCfg K) (ctx : RCtx K) : LeavesCache (sumLine cfg) ctx := fun o a b w => sumLine_cache cfg o a b ctx w

theorem Calm.throw {α : Type} (e : Err) : Calm (Py.throw e : Py (World σ K) α) := fun w => ⟨rfl, rfl, id, rfl⟩

theorem Calm.addRoots (rs : List (Root K)) : Calm (World.addRoots rs : Py (World σ K) Unit) := by
  induction rs with
  | nil => exact Calm.pure _
  | cons r rs ih => exact Calm.bind (Calm.addRoot r) fun _ => ih

theorem Calm.genFuncArr (fuel : ℕ → ℕ) (a b : Cx K) (ctx : RCtx K) (n : ℕ) : Calm (genFuncArr fuel a b ctx n : Py (World σ K) _) := by
  unfold PyZeal.genFuncArr
  generalize fuel n = k
  generalize linspace a b n = base
  induction k generalizing base with
  | zero => exact Calm.throw _
  | succ n ih =>
    simp only [PyZeal.genFuncLoop]
    split
    · exact Calm.pure _
    · exact Calm.bind (Calm.addRoots _) fun _ => ih _

theorem quadLine_calm (cfg : QuadCfg K) (order : ℤ) (a b : Cx K) (ctx : RCtx K) : Calm (quadLine cfg order a b ctx : Py (World σ K) (Cx K)) := by
  have hromb : ∀ fs dx, Calm (quadRomb cfg fs dx : Py (World σ K) _) := by
    intro fs dx
    have : ∀ y, Calm (rombPy cfg.romb y dx : Py (World σ K) _) := by
      intro y
      unfold rombPy
      split
      · exact Calm.pure _
      · exact Calm.throw _
    exact Calm.bind (this _) fun _ => Calm.bind (this _) fun _ => Calm.pure _
  have hsample : ∀ df a b n, Calm (quadSample cfg df order a b ctx n : Py (World σ K) _) :=
    fun df a b n => Calm.bind (Calm.genFuncArr _ _ _ _ _) fun _ => Calm.pure _
  have hmerge : ∀ o n, Calm (mergeArrays o n : Py (World σ K) _) := by
    intro o n
    have : ∀ (o n : List (Cx K)), Calm (mergeArray o n : Py (World σ K) _) := by
      intro o n
      unfold mergeArray
      split
      · split
        · exact Calm.pure _
        · exact Calm.throw _
      · exact Calm.throw _
    exact Calm.bind (this _ _) fun _ => Calm.bind (this _ _) fun _ => Calm.pure _
  have hrefine : ∀ df v, Calm (quadRefine cfg df order ctx v : Py (World σ K) _) := by
    intro df v
    unfold quadRefine
    split
    · exact Calm.bind (hsample _ _ _ _) fun _ => Calm.bind (hmerge _ _) fun _ => Calm.pure _
    · exact Calm.bind (hsample _ _ _ _) fun _ => Calm.pure _
  have hloop : ∀ df d n v, Calm (quadLoop cfg df order ctx d n v : Py (World σ K) _) := by
    intro df d n
    induction n with
    | zero => intro v; exact Calm.throw _
    | succ n ih =>
      intro v
      simp only [quadLoop]
      split
      · refine Calm.bind (hrefine _ _) fun _ => Calm.bind (hromb _ _) fun _ => ?_
        split
        · exact Calm.pure _
        · exact ih _
      · exact Calm.pure _
  unfold quadLine
  rcases hdf : ctx.df with _ | df
  · exact Calm.throw _
  · exact Calm.bind (hsample _ _ _ _) fun _ => Calm.bind (hromb _ _) fun _ =>
      Calm.bind (hloop _ _ _ _) fun _ => Calm.pure _

theorem quadLine_leaves (cfg : QuadCfg K) (ctx : RCtx K) : LeavesCache (quadLine cfg : LineEst σ K) ctx :=
  fun o a b w => (quadLine_calm cfg o a b ctx w).1

end
end PyZeal
