import Verif.Spec.Finder
import Verif.Proof.Closure
import Verif.Model.Quadrature
import Verif.Model.Summation

/-! # Interrupted computations do a prefix of the work -/

set_option linter.unusedSectionVars false

namespace PyZeal
open Spec
variable {K : Type} {σ α β : Type}

/-- Interrupting a computation after some effects has no effect (it came too late), or the computation ends with
`KeyboardInterrupt` and handed over a prefix of the roots. -/
def Interruptible (m : Py (World σ K) α) : Prop :=
  ∀ w : World σ K, w.fuse = none → (m w).2.fuse = none ∧ w.added <+: (m w).2.added ∧
    ∀ n, (∃ k, m { w with fuse := some n } = ((m w).1, { (m w).2 with fuse := some k })) ∨
      ((m { w with fuse := some n }).1 = .error .keyboardInterrupt ∧
        (m { w with fuse := some n }).2.added <+: (m w).2.added)

theorem Interruptible.pure (a : α) : Interruptible (pure a : Py (World σ K) α) :=
  fun _ hw => ⟨hw, List.prefix_refl _, fun n => .inl ⟨n, rfl⟩⟩

theorem Interruptible.throw (e : Err) : Interruptible (Py.throw e : Py (World σ K) α) :=
  fun _ hw => ⟨hw, List.prefix_refl _, fun n => .inl ⟨n, rfl⟩⟩

theorem Interruptible.bind {m : Py (World σ K) α} {k : α → Py (World σ K) β} (hm : Interruptible m)
    (hk : ∀ a, Interruptible (k a)) : Interruptible (m >>= k) := by
  intro w hw
  obtain ⟨h1, h2, h3⟩ := hm w hw
  rw [Py.bind_run]
  rcases hmw : m w with ⟨e | a, w1⟩
  · rw [hmw] at h1 h2 h3
    refine ⟨h1, h2, fun n => ?_⟩
    rw [Py.bind_run]
    rcases h3 n with ⟨j, h⟩ | ⟨h, h'⟩
    · exact .inl ⟨j, by rw [h]⟩
    · right
      rcases hp : m { w with fuse := some n } with ⟨e' | a', w2⟩
      · rw [hp] at h h'; exact ⟨by simpa using h, h'⟩
      · rw [hp] at h; simp at h
  · rw [hmw] at h1 h2 h3
    obtain ⟨g1, g2, g3⟩ := hk a w1 h1
    refine ⟨g1, h2.trans g2, fun n => ?_⟩
    rw [Py.bind_run]
    rcases h3 n with ⟨j, h⟩ | ⟨h, h'⟩
    · rw [h]
      exact g3 j
    · right
      rcases hp : m { w with fuse := some n } with ⟨e' | a', w2⟩
      · rw [hp] at h h'; exact ⟨by simpa using h, h'.trans g2⟩
      · rw [hp] at h; simp at h

theorem Interruptible.tick : Interruptible (World.tick : Py (World σ K) Unit) := by
  intro w hw
  have ht : World.tick w = (.ok (), w) := by unfold World.tick; rw [hw]
  rw [ht]
  refine ⟨hw, List.prefix_refl _, fun n => ?_⟩
  rcases n with _ | n
  · exact .inr ⟨rfl, List.prefix_refl _⟩
  · exact .inl ⟨n, rfl⟩

theorem Interruptible.modify {g : World σ K → World σ K}
    (h1 : ∀ (w : World σ K) (o : Option ℕ), g { w with fuse := o } = { g w with fuse := o }) (h2 : ∀ w, w.added <+: (g w).added) :
    Interruptible (Py.modify g) := by
  intro w hw
  have hg : (g w).fuse = none := by
    have := h1 w none
    have e : ({ w with fuse := none } : World σ K) = w := by cases w; cases hw; rfl
    rw [e] at this
    rw [this]
  exact ⟨hg, h2 w, fun n => .inl ⟨n, by rw [Py.modify_run, Py.modify_run, h1]⟩⟩

theorem Interruptible.addRoot (r : Root K) : Interruptible (World.addRoot r : Py (World σ K) Unit) :=
  Interruptible.bind .tick fun _ => .modify (fun _ _ => rfl) fun w => List.prefix_append _ _

theorem Interruptible.addRoots (rs : List (Root K)) : Interruptible (World.addRoots rs : Py (World σ K) Unit) := by
  induction rs with
  | nil => exact .pure ()
  | cons r rs ih => exact .bind (.addRoot r) fun _ => ih

theorem Interruptible.advance (ctx : RCtx K) (a : K) : Interruptible (World.advance ctx a : Py (World σ K) Unit) := by
  unfold World.advance
  split
  · exact .bind .tick fun _ => .modify (fun _ _ => rfl) fun w => List.prefix_refl _
  · exact .pure ()

theorem Interruptible.closed [Field K] (f : Cx K → Cx K) :
    Closed f (fun {α} (m : Py (World σ K) α) => Interruptible m) where
  pure := fun a => .pure a
  throw := fun e _ => .throw e
  bind := fun hm hk => .bind hm hk
  tick := .tick
  hit := fun r _ _ => .addRoot r
  setCache := fun g => .modify (fun _ _ => rfl) fun w => List.prefix_refl _
  setEst := fun g => .modify (fun _ _ => rfl) fun w => List.prefix_refl _
  readEst := fun hk w hw => hk w.est w hw
  readCache := fun g h w hw => ⟨hw, List.prefix_refl _, fun n => .inl ⟨n, rfl⟩⟩

section
variable [Field K] [LinearOrder K] [FloorRing K]

theorem Interruptible.phaseOf {est : LineEst σ K} {ctx : RCtx K} (hest : ∀ o a b, Interruptible (est o a b ctx))
    (re im : K × K) : Interruptible (phaseOf est re im ctx) := by
  unfold PyZeal.phaseOf
  exact .bind ((Interruptible.closed ctx.f).calcMoment hest 0 re im) fun m =>
    .bind (.modify (fun _ _ => rfl) fun w => List.prefix_refl _) fun _ => .pure _

theorem Interruptible.cacheRemove (a b : Cx K) : Interruptible (cacheRemove a b : Py (World σ K) Unit) :=
  .modify (fun _ _ => rfl) fun w => List.prefix_refl _

theorem Interruptible.simpleDecide {est : LineEst σ K} {ctx : RCtx K} (hest : ∀ o a b, Interruptible (est o a b ctx))
    (pi : K) {self : Decide σ K} (hself : ∀ re im phi, Interruptible (self re im phi ctx)) (re im : K × K) (phi : K) :
    Interruptible (simpleDecide est pi self re im phi ctx) := by
  unfold PyZeal.simpleDecide
  dsimp only
  split
  · exact .advance _ _
  · split
    · exact .bind (.addRoot _) fun _ => .advance _ _
    · split
      · exact .bind (.phaseOf hest _ _) fun _ => .bind (hself _ _ _) fun _ => .bind (.cacheRemove _ _) fun _ =>
          .bind (.phaseOf hest _ _) fun _ => .bind (hself _ _ _) fun _ => .cacheRemove _ _
      · exact .bind (.phaseOf hest _ _) fun _ => .bind (hself _ _ _) fun _ => .bind (.cacheRemove _ _) fun _ =>
          .bind (.phaseOf hest _ _) fun _ => .bind (hself _ _ _) fun _ => .cacheRemove _ _

theorem Interruptible.dispatch {ctx : RCtx K} {body : Decide σ K → Decide σ K}
    (hbody : ∀ self : Decide σ K, (∀ re im phi, Interruptible (self re im phi ctx)) →
      ∀ re im phi, Interruptible (body self re im phi ctx)) (limit : ℕ) (re im : K × K) (phi : K) :
    Interruptible (dispatch body limit re im phi ctx) := by
  induction limit generalizing re im phi with
  | zero => exact .throw _
  | succ n ih => exact hbody _ ih re im phi

theorem Interruptible.calcRoots {est : LineEst σ K} {ctx : RCtx K} (hest : ∀ o a b, Interruptible (est o a b ctx))
    {body : Decide σ K → Decide σ K}
    (hbody : ∀ self : Decide σ K, (∀ re im phi, Interruptible (self re im phi ctx)) →
      ∀ re im phi, Interruptible (body self re im phi ctx)) (limit : ℕ) :
    Interruptible (calcRoots est body limit ctx) := by
  unfold PyZeal.calcRoots
  refine .bind (.modify (fun w o => ?_) fun w => ?_) fun _ => .bind (.phaseOf hest _ _) fun _ => .dispatch hbody _ _ _ _
  · dsimp only; split <;> rfl
  · split <;> exact List.prefix_refl _

theorem Interruptible.exceptRuntimeError {m : Py (World σ K) Unit} (hm : Interruptible m) :
    Interruptible (Py.exceptRuntimeError m) := by
  have key : ∀ w, (Py.exceptRuntimeError m w).2 = (m w).2 ∧
      (Py.exceptRuntimeError m w).1 = if (m w).1 = .error .runtimeError then .ok () else (m w).1 := by
    intro w
    unfold Py.exceptRuntimeError
    split
    · rename_i h; rw [h]; simp
    · rename_i h
      refine ⟨rfl, ?_⟩
      rw [if_neg]
      intro he
      exact h (m w).2 (Prod.ext he rfl)
  intro w hw
  obtain ⟨h1, h2, h3⟩ := hm w hw
  rw [(key w).1]
  refine ⟨h1, h2, fun n => ?_⟩
  rcases h3 n with ⟨j, h⟩ | ⟨h, h'⟩
  · left
    refine ⟨j, Prod.ext ?_ ?_⟩
    · rw [(key _).2, h, (key w).2]
    · rw [(key _).1, h]
  · right
    rw [(key _).2, (key _).1, h]
    exact ⟨by simp, h'⟩

theorem Interruptible.tryFinally {m : Py (World σ K) Unit} (hm : Interruptible m) (ctx : RCtx K) (a : K) :
    Interruptible (Py.tryFinally m (World.advance ctx a)) := by
  have key : ∀ w : World σ K, (Py.tryFinally m (World.advance ctx a) w).2 = (World.advance ctx a (m w).2).2 ∧
      (Py.tryFinally m (World.advance ctx a) w).1 =
        match (World.advance ctx a (m w).2).1 with | .ok _ => (m w).1 | .error e => .error e := by
    intro w
    unfold Py.tryFinally
    rcases World.advance ctx a (m w).2 with ⟨_ | _, _⟩ <;> exact ⟨rfl, rfl⟩
  have hadv : ∀ w : World σ K, (World.advance ctx a w).2.added = w.added ∧
      (∀ e, (World.advance ctx a w).1 = .error e → e = .keyboardInterrupt) := by
    intro w
    unfold World.advance
    split
    · rw [Py.bind_run]
      unfold World.tick
      rcases w.fuse with _ | _ | n <;> simp +contextual
    · simp
  intro w hw
  obtain ⟨h1, h2, h3⟩ := hm w hw
  obtain ⟨g1, g2, g3⟩ := Interruptible.advance ctx a (m w).2 h1
  rw [(key w).1]
  refine ⟨g1, h2.trans g2, fun n => ?_⟩
  rcases h3 n with ⟨j, h⟩ | ⟨h, h'⟩
  · rcases g3 j with ⟨i, g⟩ | ⟨g, g'⟩
    · left
      refine ⟨i, Prod.ext ?_ ?_⟩
      · rw [(key _).2, h, (key w).2]
        dsimp only
        rw [g]
      · rw [(key _).1, h]
        dsimp only
        rw [g]
    · right
      rw [(key _).2, (key _).1, h]
      dsimp only
      rw [g]
      exact ⟨rfl, g'⟩
  · right
    rw [(key _).2, (key _).1]
    refine ⟨?_, ?_⟩
    · rcases hc : (World.advance ctx a (m { w with fuse := some n }).2).1 with e | _
      · rw [(hadv _).2 e hc]
      · exact h
    · rw [(hadv _).1, (hadv _).1]; exact h'

theorem Interruptible.newtonBlock (nt : NewtonSolver K) (re im : K × K) (ctx : RCtx K) :
    Interruptible (newtonBlock nt re im ctx : Py (World σ K) Unit) := by
  have ho : ∀ {α : Type} (o : Option α), Interruptible (orRuntimeError o : Py (World σ K) α) := by
    intro α o; cases o
    · exact .throw _
    · exact .pure _
  unfold PyZeal.newtonBlock
  refine .bind (ho _) fun _ => .bind (.addRoot _) fun _ => ?_
  rcases ctx.df with _ | df
  · exact .pure _
  · exact .bind (ho _) fun _ => .addRoot _

theorem Interruptible.newtonDecide (nt : NewtonSolver K) {est : LineEst σ K} {ctx : RCtx K}
    (hest : ∀ o a b, Interruptible (est o a b ctx)) (pi : K) (self : Decide σ K)
    (hself : ∀ re im phi, Interruptible (self re im phi ctx)) (re im : K × K) (phi : K) :
    Interruptible (newtonDecide nt est pi self re im phi ctx) := by
  unfold PyZeal.newtonDecide
  dsimp only
  split
  · exact .bind (.addRoot _) fun _ => .advance _ _
  · split
    · exact .tryFinally (.exceptRuntimeError (.newtonBlock _ _ _ _)) _ _
    · exact .simpleDecide hest pi hself _ _ _

theorem Interruptible.moments {est : LineEst σ K} {ctx : RCtx K} (hest : ∀ o a b, Interruptible (est o a b ctx))
    (pi : K) (re im : K × K) (os : List ℤ) : Interruptible (moments est pi re im ctx os) := by
  induction os with
  | nil => exact .pure _
  | cons o os ih =>
    exact .bind ((Interruptible.closed ctx.f).calcMoment hest o re im) fun _ => .bind ih fun _ => .pure _

theorem Interruptible.polynomialDecide (pr : List (Cx K) → List (Cx K)) {est : LineEst σ K} {ctx : RCtx K}
    (hest : ∀ o a b, Interruptible (est o a b ctx)) (pi : K) (self : Decide σ K)
    (hself : ∀ re im phi, Interruptible (self re im phi ctx)) (re im : K × K) (phi : K) :
    Interruptible (polynomialDecide pr est pi self re im phi ctx) := by
  unfold PyZeal.polynomialDecide
  rcases hdf : ctx.df with _ | df
  · exact .throw _
  · dsimp only
    split
    · exact .bind (.addRoot _) fun _ => .advance _ _
    · split
      · exact .bind (.moments hest _ _ _ _) fun _ => .bind (.addRoots _) fun _ => .advance _ _
      · exact .simpleDecide hest pi hself _ _ _

theorem Interruptible.newtonGrid (nt : NewtonSolver K) (n : ℕ) (t : Bool) (ctx : RCtx K) :
    Interruptible (newtonGrid nt n t ctx : Py (World σ K) Unit) := by
  unfold PyZeal.newtonGrid
  split
  · exact .pure _
  · refine .bind (.addRoots _) fun _ => ?_
    split
    · exact .advance _ _
    · exact .pure _

end

section
variable [Field K] [LinearOrder K] [IsStrictOrderedRing K] [FloorRing K]

theorem Spec.ShippedEstimator.interruptible {est : LineEst (SumState K) K} (h : ShippedEstimator est) (ctx : RCtx K)
    (o : ℤ) (a b : Cx K) : Interruptible (est o a b ctx) := by
  cases h with
  | summation cfg => exact (Interruptible.closed ctx.f).sumLine cfg o a b
  | quadrature cfg => exact (Interruptible.closed ctx.f).toBasic.quadLine cfg o a b

theorem Spec.ShippedAlgorithm.interruptible {alg : RCtx K → Py (World (SumState K) K) Unit} (h : ShippedAlgorithm alg)
    (ctx : RCtx K) : Interruptible (alg ctx) := by
  cases h with
  | simple est pi limit h =>
    exact .calcRoots (h.interruptible ctx) (fun _ hs => .simpleDecide (h.interruptible ctx) pi hs) limit
  | newton nt est pi limit h =>
    exact .calcRoots (h.interruptible ctx) (fun self hs => .newtonDecide nt (h.interruptible ctx) pi self hs) limit
  | polynomial pr est pi limit h =>
    exact .calcRoots (h.interruptible ctx) (fun self hs => .polynomialDecide pr (h.interruptible ctx) pi self hs) limit
  | grid nt n t => exact .newtonGrid nt n t ctx

end
end PyZeal
