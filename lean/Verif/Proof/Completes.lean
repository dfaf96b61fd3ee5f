import Verif.Proof.Variants

/-! # Searches which complete -/

set_option linter.unusedSectionVars false

namespace PyZeal
open Spec
variable {K σ : Type}

/-- without interrupts the computation returns, and causes no interrupts -/
def Finishes {α : Type} (m : Py (World σ K) α) : Prop :=
  ∀ w, w.fuse = none → (m w).2.fuse = none ∧ ∃ a, (m w).1 = .ok a

theorem Finishes.pure {α : Type} (a : α) : Finishes (pure a : Py (World σ K) α) := fun _ h => ⟨h, a, rfl⟩

theorem Finishes.bind {α β : Type} {m : Py (World σ K) α} {k : α → Py (World σ K) β} (hm : Finishes m) (hk : ∀ a, Finishes (k a)) :
    Finishes (m >>= k) := by
  intro w hw
  rw [Py.bind_run]
  obtain ⟨a1, a2⟩ := hm w hw
  rcases h : m w with ⟨e | a, w1⟩ <;> rw [h] at a1 a2
  · obtain ⟨a, ha⟩ := a2; simp at ha
  · exact hk a w1 a1

theorem Finishes.tick : Finishes (World.tick : Py (World σ K) Unit) := by
  intro w hw
  have h : World.tick w = (.ok (), w) := by unfold World.tick; rw [hw]
  rw [h]
  exact ⟨hw, (), rfl⟩

theorem Finishes.modify {g : World σ K → World σ K} (hg : ∀ w, (g w).fuse = w.fuse) : Finishes (Py.modify g) :=
  fun w hw => ⟨(hg w).trans hw, (), rfl⟩

theorem Finishes.addRoot (r : Root K) : Finishes (World.addRoot r : Py (World σ K) Unit) :=
  Finishes.bind Finishes.tick fun _ => Finishes.modify fun _ => rfl

theorem Finishes.advance (ctx : RCtx K) (a : K) : Finishes (World.advance ctx a : Py (World σ K) Unit) := by
  unfold World.advance
  split
  · exact Finishes.bind Finishes.tick fun _ => Finishes.modify fun _ => rfl
  · exact Finishes.pure _

section
variable [Field K] [LinearOrder K] [IsStrictOrderedRing K] [FloorRing K]

theorem Finishes.simpleAct (pi : K) (ctx : RCtx K) (c : Cell K) : Finishes (simpleAct pi ctx c : Py (World σ K) Unit) := by
  unfold PyZeal.simpleAct
  split
  · exact Finishes.advance _ _
  · exact Finishes.bind (Finishes.addRoot _) fun _ => Finishes.advance _ _

theorem newtonBlock_none (nt : NewtonSolver K) (re im : K × K) (ctx : RCtx K) (w : World σ K) (hw : w.fuse = none) :
    ∃ w', w'.fuse = none ∧ (newtonBlock nt re im ctx w = (.ok (), w') ∨ newtonBlock nt re im ctx w = (.error .runtimeError, w')) := by
  unfold newtonBlock
  rw [Py.bind_run]
  generalize nt.secant ctx.f ⟨re.1, 1 / 2 * (im.1 + im.2)⟩ ⟨re.2, 1 / 2 * (im.1 + im.2)⟩
        (min (eps10 K ctx.precision.1) (eps10 K ctx.precision.2)) = s
  rcases s with _ | z
  · exact ⟨w, hw, .inr rfl⟩
  · simp only [orRuntimeError, Py.pure_run]
    rw [Py.bind_run, World.addRoot_none hw]
    dsimp only
    rcases ctx.df with _ | df
    · exact ⟨{ w with added := w.added ++ [(z, 1)] }, hw, .inl rfl⟩
    · dsimp only
      rw [Py.bind_run]
      generalize nt.newton ctx.f df ⟨(re.1 + re.2) * (1 / 2), (im.1 + im.2) * (1 / 2)⟩ (min (eps10 K ctx.precision.1) (eps10 K ctx.precision.2)) = s
      rcases s with _ | z'
      · exact ⟨{ w with added := w.added ++ [(z, 1)] }, hw, .inr rfl⟩
      · refine ⟨_, ?_, .inl (World.addRoot_none (w := { w with added := w.added ++ [(z, 1)] }) hw _)⟩
        exact hw

theorem Finishes.newtonAct (nt : NewtonSolver K) (pi : K) (ctx : RCtx K) (c : Cell K) : Finishes (newtonAct nt pi ctx c : Py (World σ K) Unit) := by
  unfold PyZeal.newtonAct
  split
  · exact Finishes.simpleAct _ _ _
  · have hb : ∀ w : World σ K, w.fuse = none → (Py.exceptRuntimeError (newtonBlock nt c.re c.im ctx) w).2.fuse = none ∧
        (Py.exceptRuntimeError (newtonBlock nt c.re c.im ctx) w).1 = .ok () := by
      intro w hw
      obtain ⟨w', hw', h | h⟩ := newtonBlock_none nt c.re c.im ctx w hw <;> unfold Py.exceptRuntimeError <;> rw [h] <;> exact ⟨hw', rfl⟩
    intro w hw
    obtain ⟨a1, a2⟩ := hb w hw
    obtain ⟨b1, b2⟩ := Finishes.advance ctx (Cell.area c) _ a1
    unfold Py.tryFinally
    rcases h : World.advance ctx (Cell.area c) (Py.exceptRuntimeError (newtonBlock nt c.re c.im ctx) w).2 with ⟨e | _, w2⟩ <;> rw [h] at b1 b2
    · obtain ⟨a, ha⟩ := b2; simp at ha
    · exact ⟨b1, (), a2⟩

theorem Finishes.phase {est : LineEst σ K} {ctx : RCtx K} (h : ∀ o a b, Finishes (est o a b ctx)) (re im : K × K) : Finishes (phaseOf est re im ctx) := by
  have hc : ∀ o e, Finishes (edgeMoment.compute est o ctx e) := by
    intro o e
    unfold edgeMoment.compute
    exact Finishes.bind Finishes.tick fun _ => Finishes.bind (h o e.1 e.2) fun _ => Finishes.bind (Finishes.modify fun _ => rfl) fun _ => Finishes.pure _
  have he : ∀ o e, Finishes (edgeMoment est o ctx e) := by
    intro o e
    unfold edgeMoment
    refine Finishes.bind (fun w hw => ⟨hw, _, rfl⟩) fun entry => ?_
    cases entry with
    | none => exact hc o e
    | some v =>
      dsimp only
      split
      · exact Finishes.pure _
      · exact hc o e
  have hs : ∀ es phi, Finishes (sumEdges est 0 ctx es phi) := by
    intro es
    induction es with
    | nil => intro phi; exact Finishes.pure _
    | cons e es ih => intro phi; exact Finishes.bind (he 0 e) fun d => ih _
  exact Finishes.bind (hs _ _) fun _ => Finishes.bind (Finishes.modify fun _ => rfl) fun _ => Finishes.pure _

theorem Finishes.dispatch {est : LineEst σ K} {ctx : RCtx K} (h : ∀ o a b, Finishes (est o a b ctx)) {body : Decide σ K → Decide σ K}
    {stop : Cell K → Prop} {act : Cell K → Py (World σ K) Unit} (h1 : Stops est ctx body stop act) (hsmall : ∀ c, ¬ stop c → ¬ Cell.Small ctx.precision c)
    (ha : ∀ c, Finishes (act c)) (limit m n : ℕ) (c : Cell K) (hb : Cell.Below ctx.precision m n c) (hl : m + n < limit) :
    Finishes ((PyZeal.dispatch body limit).at ctx c) := by
  induction limit generalizing c m n with
  | zero => omega
  | succ limit ih =>
    change Finishes ((body (PyZeal.dispatch body limit)).at ctx c)
    by_cases hs : stop c
    · rw [(h1 _ c).1 hs]; exact ha c
    · rw [(h1 _ c).2 hs]
      obtain ⟨m', n', hmn, hb⟩ := below_halves (hsmall c hs) hb
      unfold splitStep
      exact Finishes.bind (Finishes.phase h _ _) fun phi1 => Finishes.bind (ih m' n' _ (hb phi1).1 (by omega)) fun _ =>
        Finishes.bind (Finishes.modify fun _ => rfl) fun _ =>
        Finishes.bind (Finishes.phase h _ _) fun phi2 => Finishes.bind (ih m' n' _ (hb phi2).2 (by omega)) fun _ => Finishes.modify fun _ => rfl

theorem Finishes.calcRoots {est : LineEst σ K} {ctx : RCtx K} (h : ∀ o a b, Finishes (est o a b ctx)) {body : Decide σ K → Decide σ K}
    {stop : Cell K → Prop} {act : Cell K → Py (World σ K) Unit} (h1 : Stops est ctx body stop act) (hsmall : ∀ c, ¬ stop c → ¬ Cell.Small ctx.precision c)
    (ha : ∀ c, Finishes (act c)) (limit m n : ℕ) (hb : Cell.Below ctx.precision m n ⟨ctx.reRan, ctx.imRan, 0⟩) (hl : m + n < limit) :
    Finishes (PyZeal.calcRoots est body limit ctx) :=
  Finishes.bind (Finishes.modify fun w => by split <;> rfl) fun _ => Finishes.bind (Finishes.phase h _ _) fun phi =>
    Finishes.dispatch h h1 hsmall ha limit m n ⟨ctx.reRan, ctx.imRan, phi⟩ hb hl

end
end PyZeal
