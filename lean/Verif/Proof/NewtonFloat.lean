import Verif.Proof.Float
import Verif.Proof.Variants
import Verif.Spec.NewtonFloat

/-! # The Newton variant in floating-point arithmetic -/

set_option linter.unusedSectionVars false

namespace PyZeal
open Spec
variable {K : Type} {σ : Type} [Field K] [LinearOrder K] [IsStrictOrderedRing K] [FloorRing K]

instance (A : FloatOps K) (pi : K) (c : Cell K) : Decidable (Cell.OneTurnF A pi c) := by unfold Cell.OneTurnF; infer_instance

/-- a variant of the search which either stops at a rectangle or bisects it as `simpleDecideF` does -/
def StopsF (A : FloatOps K) (est : LineEst σ K) (ctx : RCtx K) (body : Decide σ K → Decide σ K) (stop : Cell K → Prop) (act : Cell K → Py (World σ K) Unit) : Prop :=
  ∀ self c, (stop c → (body self).at ctx c = act c) ∧
    (¬ stop c → (body self).at ctx c = splitStepF A est self ctx c (dropF1 A ctx.precision c) (dropF2 A ctx.precision c))

/-- what a completed stop does -/
def ActsF (act : Cell K → Py (World σ K) Unit) (stop : Cell K → Prop) (Out : Cell K → List (Root K) → Prop) : Prop :=
  ∀ c w w', stop c → act c w = (.ok (), w') → w'.log = w.log ∧ ∃ R, w'.added = w.added ++ R ∧ Out c R

/-- completed runs of such a variant -/
theorem dispatchG_run {A : FloatOps K} {u : K} (hA : Rounds A.fl u) {est : LineEst σ K} {ctx : RCtx K} (hest : BoundaryHits est ctx)
    {body : Decide σ K → Decide σ K} {stop : Cell K → Prop} {act : Cell K → Py (World σ K) Unit} {Out : Cell K → List (Root K) → Prop}
    (hs : StopsF A est ctx body stop act) (ha : ActsF act stop Out) (limit : ℕ)
    (c : Cell K) (hc : OkCell A c) (w w' : World σ K) (h : (dispatch body limit).at ctx c w = (.ok (), w')) :
    ∃ L R, w'.log = w.log ++ L ∧ w'.added = w.added ++ R ∧ (∀ l ∈ L, Cell.In l c ∧ OkCell A l) ∧
      (∀ r ∈ R, (r.2 = 0 ∧ ctx.f r.1 = 0) ∨ ∃ l ∈ c :: L, stop l ∧ ∃ S, Out l S ∧ r ∈ S) ∧
      ∀ M, Splits A ctx.precision M → M c → ∃ l ∈ c :: L, M l ∧ stop l ∧ ∃ S, Out l S ∧ ∀ r ∈ S, r ∈ R := by
  induction limit generalizing c w w' with
  | zero => simp [dispatch, Decide.at] at h
  | succ limit ih =>
    have hd : (dispatch body (limit + 1)).at ctx c = (body (dispatch body limit)).at ctx c := rfl
    rw [hd] at h
    by_cases hst : stop c
    · rw [(hs _ c).1 hst] at h
      obtain ⟨h1, R, h2, h3⟩ := ha c w w' hst h
      refine ⟨[], R, by simp [h1], h2, by simp, fun r hr => .inr ⟨c, by simp, hst, R, h3, hr⟩, fun M _ hz => ⟨c, by simp, hz, hst, R, h3, fun r hr => hr⟩⟩
    · rw [(hs _ c).2 hst] at h
      unfold splitStepF at h
      rw [Py.bind_run] at h
      rcases hp1 : phaseOfF A est (halfF1 A ctx.precision c 0).re (halfF1 A ctx.precision c 0).im ctx w
        with ⟨_ | phi1, w1⟩ <;> rw [hp1] at h
      · simp at h
      dsimp only at h
      rw [Py.bind_run] at h
      rcases hr1 : (dispatch body limit).at ctx (halfF1 A ctx.precision c phi1) w1
        with ⟨_ | _, w2⟩ <;> rw [hr1] at h
      · simp at h
      dsimp only at h
      rw [Py.bind_run] at h
      simp only [cacheRemove, Py.modify_run] at h
      rw [Py.bind_run] at h
      generalize dropF1 A ctx.precision c = e1 at h
      rcases hp2 : phaseOfF A est (halfF2 A ctx.precision c 0).re (halfF2 A ctx.precision c 0).im ctx
        { w2 with cache := w2.cache.remove 0 e1.1 e1.2 }
        with ⟨_ | phi2, w3⟩ <;> rw [hp2] at h
      · simp at h
      dsimp only at h
      rw [Py.bind_run] at h
      rcases hr2 : (dispatch body limit).at ctx (halfF2 A ctx.precision c phi2) w3
        with ⟨_ | _, w4⟩ <;> rw [hr2] at h
      · simp at h
      simp only [Py.modify_run, Prod.mk.injEq, true_and] at h
      subst h
      have e1 : (⟨(halfF1 A ctx.precision c 0).re, (halfF1 A ctx.precision c 0).im, phi1⟩ : Cell K) =
          halfF1 A ctx.precision c phi1 := by unfold halfF1; split <;> rfl
      have e2 : (⟨(halfF2 A ctx.precision c 0).re, (halfF2 A ctx.precision c 0).im, phi2⟩ : Cell K) =
          halfF2 A ctx.precision c phi2 := by unfold halfF2; split <;> rfl
      obtain ⟨⟨k1, k2⟩, ⟨i1, i2⟩, _⟩ := halfF_ok hA (p := ctx.precision) hc phi1 phi2
      obtain ⟨a1, a3, z1, a4, a5⟩ := phaseOfF_ok hest hp1
      obtain ⟨L1, R1, b1, b2, b3, b4, b5⟩ := ih _ k1 _ _ hr1
      obtain ⟨c1, c3, z2, c4, c5⟩ := phaseOfF_ok hest hp2
      obtain ⟨L2, R2, d1, d2, d3, d4, d5⟩ := ih _ k2 _ _ hr2
      dsimp only at c1 c4
      rw [e1] at a1
      rw [e2] at c1
      have hcov : ∀ M, Splits A ctx.precision M → M c → M (halfF1 A ctx.precision c phi1) ∨
          M (halfF2 A ctx.precision c phi2) := fun M hM => hM c phi1 phi2 hc
      generalize halfF1 A ctx.precision c phi1 = h1 at *
      generalize halfF2 A ctx.precision c phi2 = h2 at *
      refine ⟨h1 :: L1 ++ h2 :: L2, z1 ++ R1 ++ (z2 ++ R2), ?_, ?_, ?_, ?_, ?_⟩
      · dsimp only
        rw [d1, c1, b1, a1]; simp
      · dsimp only
        rw [d2, c4, b2, a4]; simp
      · intro l hl
        simp only [List.cons_append, List.mem_cons, List.mem_append] at hl
        rcases hl with rfl | hl | rfl | hl
        · exact ⟨i1, k1⟩
        · exact ⟨(b3 l hl).1.trans i1, (b3 l hl).2⟩
        · exact ⟨i2, k2⟩
        · exact ⟨(d3 l hl).1.trans i2, (d3 l hl).2⟩
      · intro r hr
        simp only [List.mem_append] at hr
        rcases hr with (hr | hr) | hr | hr
        · exact Or.inl (a5 r hr)
        · rcases b4 r hr with h | ⟨l, hl, h⟩
          · exact Or.inl h
          · refine Or.inr ⟨l, ?_, h⟩
            simp only [List.cons_append, List.mem_cons, List.mem_append] at hl ⊢
            tauto
        · exact Or.inl (c5 r hr)
        · rcases d4 r hr with h | ⟨l, hl, h⟩
          · exact Or.inl h
          · refine Or.inr ⟨l, ?_, h⟩
            simp only [List.cons_append, List.mem_cons, List.mem_append] at hl ⊢
            tauto
      · intro M hM hz
        rcases hcov M hM hz with hz | hz
        · obtain ⟨l, hl, g1, g2, S, g3, g4⟩ := b5 M hM hz
          exact ⟨l, by simp only [List.cons_append, List.mem_cons, List.mem_append] at hl ⊢; tauto, g1, g2, S, g3,
            fun r hr => by simp [g4 r hr]⟩
        · obtain ⟨l, hl, g1, g2, S, g3, g4⟩ := d5 M hM hz
          exact ⟨l, by simp only [List.cons_append, List.mem_cons, List.mem_append] at hl ⊢; tauto, g1, g2, S, g3,
            fun r hr => by simp [g4 r hr]⟩

theorem advance_keeps {ctx : RCtx K} {a : K} {w w' : World σ K} (h : World.advance ctx a w = (.ok (), w')) : w'.log = w.log ∧ w'.added = w.added := by
  obtain ⟨_, a2, a3⟩ := advance_ok h
  exact ⟨a3, a2⟩

/-! ## One step -/

/-- what the solver produces for a rectangle -/
def newtonResultsF (A : FloatOps K) (nt : NewtonSolver K) (ctx : RCtx K) (c : Cell K) : List (Root K) :=
  match nt.secant ctx.f ⟨c.re.1, (Cell.centreF A c).im⟩ ⟨c.re.2, (Cell.centreF A c).im⟩ (tolF A ctx.precision) with
  | none => []
  | some z => (z, 1) :: match ctx.df with
    | none => []
    | some df =>
      match nt.newton ctx.f df (Cell.centreF A c) (tolF A ctx.precision) with
      | none => []
      | some z' => [(z', 1)]

theorem newtonBlockF_any (A : FloatOps K) (nt : NewtonSolver K) (ctx : RCtx K) (c : Cell K) (w : World σ K) :
    let r := newtonBlockF A nt c.re c.im ctx w
    r.2.log = w.log ∧ r.2.cache = w.cache ∧ (w.fuse = none → r.2.fuse = none) ∧ (r.1 = .ok () ∨ r.1 = .error .runtimeError → r.2.added = w.added ++ newtonResultsF A nt ctx c) ∧
    (r.1 = .ok () ∨ r.1 = .error .runtimeError ∨ (r.1 = .error .keyboardInterrupt ∧ w.fuse ≠ none)) := by
  have add : ∀ (r : Root K) (w : World σ K), (World.addRoot r w).2.log = w.log ∧ (World.addRoot r w).2.cache = w.cache ∧ (w.fuse = none → (World.addRoot r w).2.fuse = none) ∧
      (((World.addRoot r w).1 = .ok () ∧ (World.addRoot r w).2.added = w.added ++ [r]) ∨
       ((World.addRoot r w).1 = .error .keyboardInterrupt ∧ w.fuse ≠ none)) := by
    intro r w
    unfold World.addRoot
    rw [Py.bind_run]
    unfold World.tick
    rcases hf : w.fuse with _ | _ | n <;> simp [hf]
  dsimp only
  unfold newtonBlockF newtonResultsF
  have t : min (A.pow10 ctx.precision.1) (A.pow10 ctx.precision.2) = tolF A ctx.precision := rfl
  have m1 : A.mid c.im.1 c.im.2 = (Cell.centreF A c).im := rfl
  have m2 : (⟨A.mid c.re.1 c.re.2, (Cell.centreF A c).im⟩ : Cx K) = Cell.centreF A c := rfl
  simp only [t, m1, m2]
  rw [Py.bind_run]
  rcases hs : nt.secant ctx.f ⟨c.re.1, (Cell.centreF A c).im⟩ ⟨c.re.2, (Cell.centreF A c).im⟩ (tolF A ctx.precision) with _ | z
  · simp [orRuntimeError]
  · simp only [orRuntimeError, Py.pure_run]
    rw [Py.bind_run]
    obtain ⟨a1, a2, a3, a4⟩ := add (z, 1) w
    rcases hw : World.addRoot (z, 1) w with ⟨e | _, w1⟩ <;> rw [hw] at a1 a2 a3 a4 <;> dsimp only at a1 a2 a3 a4 ⊢
    · rcases a4 with ⟨h, _⟩ | ⟨h1, h2⟩
      · cases h
      · cases h1
        exact ⟨a1, a2, a3, by simp, .inr (.inr ⟨rfl, h2⟩)⟩
    · obtain ⟨_, a5⟩ : (Except.ok () : Except Err Unit) = .ok () ∧ w1.added = w.added ++ [(z, 1)] := by
        rcases a4 with h | ⟨h, _⟩
        · exact h
        · cases h
      rcases hdf : ctx.df with _ | df
      · exact ⟨a1, a2, a3, fun _ => a5, .inl rfl⟩
      · dsimp only
        rw [Py.bind_run]
        rcases hn : nt.newton ctx.f df (Cell.centreF A c) (tolF A ctx.precision) with _ | z'
        · exact ⟨a1, a2, a3, fun _ => a5, by simp [orRuntimeError]⟩
        · simp only [orRuntimeError, Py.pure_run]
          obtain ⟨b1, b2, b3, b4⟩ := add (z', 1) w1
          rcases hw' : World.addRoot (z', 1) w1 with ⟨e | _, w2⟩ <;> rw [hw'] at b1 b2 b3 b4 <;> dsimp only at b1 b2 b3 b4 ⊢
          · rcases b4 with ⟨h, _⟩ | ⟨h1, h2⟩
            · cases h
            · cases h1
              exact ⟨b1.trans a1, b2.trans a2, fun hw => b3 (a3 hw), by simp, .inr (.inr ⟨rfl, fun hw => h2 (a3 hw)⟩)⟩
          · obtain ⟨_, b5⟩ : (Except.ok () : Except Err Unit) = .ok () ∧ w2.added = w1.added ++ [(z', 1)] := by
              rcases b4 with h | ⟨h, _⟩
              · exact h
              · cases h
            exact ⟨b1.trans a1, b2.trans a2, fun hw => b3 (a3 hw), fun _ => by rw [b5, a5]; simp, .inl rfl⟩

/-- where the variant stops -/
def newtonStopF (A : FloatOps K) (pi : K) (p : ℤ × ℤ) (c : Cell K) : Prop := stopF A pi p c ∨ Cell.OneTurnF A pi c

/-- what it does there -/
def newtonActF (A : FloatOps K) (nt : NewtonSolver K) (pi : K) (ctx : RCtx K) (c : Cell K) : Py (World σ K) Unit :=
  if stopF A pi ctx.precision c then actF A pi ctx c
  else Py.tryFinally (Py.exceptRuntimeError (newtonBlockF A nt c.re c.im ctx)) (World.advance ctx (A.fl (A.fl (c.re.2 - c.re.1) * A.fl (c.im.2 - c.im.1))))

theorem newtonF_stops (A : FloatOps K) (nt : NewtonSolver K) (est : LineEst σ K) (pi : K) (ctx : RCtx K) :
    StopsF A est ctx (newtonDecideF A nt est pi) (newtonStopF A pi ctx.precision) (newtonActF A nt pi ctx) := by
  intro self c
  have hd : (newtonDecideF A nt est pi self).at ctx c =
      if A.twoPi pi < c.phi ∧ SmallF A ctx.precision c then getRootFromRectangleF A pi c.re.2 c.re.1 c.im.2 c.im.1 c.phi ctx
      else if Cell.OneTurnF A pi c then
        Py.tryFinally (Py.exceptRuntimeError (newtonBlockF A nt c.re c.im ctx)) (World.advance ctx (A.fl (A.fl (c.re.2 - c.re.1) * A.fl (c.im.2 - c.im.1))))
      else (simpleDecideF A est pi self).at ctx c := by
    unfold newtonDecideF Decide.at Cell.OneTurnF SmallF FloatOps.twoPi FloatOps.fourPi
    rfl
  rw [hd, simpleDecideF_eq]
  unfold newtonActF newtonStopF
  by_cases h1 : A.twoPi pi < c.phi ∧ SmallF A ctx.precision c
  · have ht : Cell.TurnsF A pi c := h1.1.le
    have a : stopF A pi ctx.precision c := .inr h1.2
    have b : (getRootFromRectangleF A pi c.re.2 c.re.1 c.im.2 c.im.1 c.phi ctx : Py (World σ K) Unit) = actF A pi ctx c := by
      unfold actF
      rw [if_neg (not_not.2 ht)]
      rfl
    rw [if_pos h1, if_pos a, b]
    exact ⟨fun _ => rfl, fun h => absurd (Or.inl a) h⟩
  · rw [if_neg h1]
    by_cases h2 : Cell.OneTurnF A pi c
    · rw [if_pos h2]
      have hs : ¬ stopF A pi ctx.precision c := by
        rintro (h | h)
        · exact h (le_of_lt h2.1)
        · exact h1 ⟨h2.1, h⟩
      rw [if_neg hs]
      exact ⟨fun _ => rfl, fun h => absurd (Or.inr h2) h⟩
    · rw [if_neg h2]
      by_cases h3 : stopF A pi ctx.precision c
      · rw [if_pos h3, if_pos h3]
        exact ⟨fun _ => rfl, fun h => absurd (Or.inl h3) h⟩
      · rw [if_neg h3]
        refine ⟨fun h => ?_, fun _ => rfl⟩
        rcases h with h | h
        · exact absurd h h3
        · exact absurd h h2

/-- the roots handed over there -/
def newtonOutF (A : FloatOps K) (nt : NewtonSolver K) (pi : K) (ctx : RCtx K) (c : Cell K) : List (Root K) :=
  if Cell.TurnsF A pi c then if SmallF A ctx.precision c then [candF A pi c] else newtonResultsF A nt ctx c else []

theorem newtonF_acts (A : FloatOps K) (nt : NewtonSolver K) (pi : K) (ctx : RCtx K) :
    ActsF (σ := σ) (newtonActF A nt pi ctx) (newtonStopF A pi ctx.precision) fun c R => R = newtonOutF A nt pi ctx c := by
  intro c w w' hstop h
  unfold newtonActF at h
  unfold newtonOutF
  by_cases hs : stopF A pi ctx.precision c
  · rw [if_pos hs] at h
    unfold actF at h
    by_cases ht : Cell.TurnsF A pi c
    · have hsm : SmallF A ctx.precision c := hs.resolve_left (not_not.2 ht)
      rw [if_neg (not_not.2 ht), Py.bind_run] at h
      rcases ha : World.addRoot (candF A pi c) w with ⟨_ | _, w1⟩ <;> rw [ha] at h
      · simp at h
      · dsimp only at h
        obtain ⟨k1, k2⟩ := advance_keeps h
        have : w1.log = w.log ∧ w1.added = w.added ++ [candF A pi c] := by
          unfold World.addRoot at ha
          rw [Py.bind_run] at ha
          rcases hf : w.fuse with _ | _ | n <;> simp [World.tick, hf] at ha
          all_goals
            obtain rfl := ha
            exact ⟨rfl, rfl⟩
        refine ⟨k1.trans this.1, [candF A pi c], k2.trans this.2, ?_⟩
        dsimp only
        rw [if_pos ht, if_pos hsm]
    · rw [if_pos ht] at h
      obtain ⟨k1, k2⟩ := advance_keeps h
      exact ⟨k1, [], by simp [k2], by dsimp only; rw [if_neg ht]⟩
  · rw [if_neg hs] at h
    have ht : Cell.TurnsF A pi c := by
      by_contra ht
      exact hs (.inl ht)
    have hsm : ¬ SmallF A ctx.precision c := fun h => hs (.inr h)
    dsimp only
    rw [if_pos ht, if_neg hsm]
    unfold Py.tryFinally at h
    obtain ⟨n1, _, _, n4, n5⟩ := newtonBlockF_any A nt ctx c w
    have hx : (Py.exceptRuntimeError (newtonBlockF A nt c.re c.im ctx) w).2 = (newtonBlockF A nt c.re c.im ctx w).2 := by
      unfold Py.exceptRuntimeError
      rcases newtonBlockF A nt c.re c.im ctx w with ⟨e | _, w1⟩
      · cases e <;> rfl
      · rfl
    rw [hx] at h
    rcases ha : World.advance ctx (A.fl (A.fl (c.re.2 - c.re.1) * A.fl (c.im.2 - c.im.1))) (newtonBlockF A nt c.re c.im ctx w).2 with ⟨e | _, w2⟩ <;> rw [ha] at h
    · simp at h
    · simp only [Prod.mk.injEq] at h
      obtain ⟨h1, rfl⟩ := h
      obtain ⟨k1, k2⟩ := advance_keeps ha
      refine ⟨k1.trans n1, _, k2.trans (n4 ?_), rfl⟩
      unfold Py.exceptRuntimeError at h1
      rcases hb : newtonBlockF A nt c.re c.im ctx w with ⟨e | _, w1⟩ <;> rw [hb] at h1 n5
      · rcases n5 with h | h | h
        · simp at h
        · exact Or.inr h
        · obtain ⟨h, _⟩ := h
          dsimp only at h; cases h; simp at h1
      · exact Or.inl rfl

theorem mem_newtonResultsF {A : FloatOps K} {nt : NewtonSolver K} {ctx : RCtx K} {c : Cell K} {r : Root K} (h : r ∈ newtonResultsF A nt ctx c) : Solved A nt ctx c r := by
  unfold newtonResultsF at h
  rcases hs : nt.secant ctx.f ⟨c.re.1, (Cell.centreF A c).im⟩ ⟨c.re.2, (Cell.centreF A c).im⟩ (tolF A ctx.precision) with _ | z <;> rw [hs] at h
  · simp at h
  · dsimp only at h
    rcases List.mem_cons.1 h with rfl | h
    · exact ⟨rfl, .inl hs⟩
    · rcases hdf : ctx.df with _ | df <;> rw [hdf] at h <;> dsimp only at h
      · simp at h
      · rcases hn : nt.newton ctx.f df (Cell.centreF A c) (tolF A ctx.precision) with _ | z' <;> rw [hn] at h <;> dsimp only at h
        · simp at h
        · rw [List.mem_singleton] at h
          subst h
          exact ⟨rfl, .inr ⟨df, hdf, hn⟩⟩

theorem newtonF_run {A : FloatOps K} {u : K} (hA : Rounds A.fl u) (nt : NewtonSolver K) {est : LineEst σ K} {pi : K} {ctx : RCtx K} (hest : BoundaryHits est ctx) (limit : ℕ)
    (hc : OkCell A ⟨ctx.reRan, ctx.imRan, 0⟩) (w w' : World σ K) (h : simpleArgumentNewtonF A nt est pi limit ctx w = (.ok (), w')) :
    (∀ l ∈ newCells w w', Cell.In l ⟨ctx.reRan, ctx.imRan, 0⟩ ∧ OkCell A l) ∧
    (∀ r ∈ newRoots w w', (r.2 = 0 ∧ ctx.f r.1 = 0) ∨ ∃ l ∈ newCells w w', newtonStopF A pi ctx.precision l ∧ r ∈ newtonOutF A nt pi ctx l) ∧
    ∀ M, Splits A ctx.precision M → (∀ phi, M ⟨ctx.reRan, ctx.imRan, phi⟩) →
      ∃ l ∈ newCells w w', M l ∧ newtonStopF A pi ctx.precision l ∧ ∀ r ∈ newtonOutF A nt pi ctx l, r ∈ newRoots w w' := by
  unfold simpleArgumentNewtonF resetCache at h
  rw [Py.bind_run, Py.modify_run] at h
  dsimp only at h
  generalize hw0 : (if w.cache.dirty = true then { w with cache := w.cache.reset } else w) = w0 at h
  have g1 : w0.log = w.log := by rw [← hw0]; split <;> rfl
  have g3 : w0.added = w.added := by rw [← hw0]; split <;> rfl
  rw [Py.bind_run] at h
  rcases hp : phaseOfF A est ctx.reRan ctx.imRan ctx w0 with ⟨_ | phi, w1⟩ <;> rw [hp] at h
  · simp at h
  dsimp only at h
  obtain ⟨a1, a3, zs, a4, a5⟩ := phaseOfF_ok hest hp
  obtain ⟨L, R, b1, b2, b3, b4, b5⟩ := dispatchG_run hA hest (newtonF_stops A nt est pi ctx) (newtonF_acts A nt pi ctx) limit ⟨ctx.reRan, ctx.imRan, phi⟩ hc w1 w' h
  have hcells : newCells w w' = ⟨ctx.reRan, ctx.imRan, phi⟩ :: L := by
    unfold newCells; rw [b1, a1, g1]; simp
  have hroots : newRoots w w' = zs ++ R := by unfold newRoots; rw [b2, a4, g3]; simp
  rw [hcells, hroots]
  refine ⟨?_, ?_, ?_⟩
  · intro l hl
    rcases List.mem_cons.1 hl with rfl | hl
    · exact ⟨⟨le_refl _, hc.2.1, le_refl _, le_refl _, hc.2.2, le_refl _⟩, hc⟩
    · exact b3 l hl
  · intro r hr
    rcases List.mem_append.1 hr with hr | hr
    · exact Or.inl (a5 r hr)
    · rcases b4 r hr with h | ⟨l, hl, q1, S, rfl, q2⟩
      · exact .inl h
      · exact .inr ⟨l, hl, q1, q2⟩
  · intro M hM hz
    obtain ⟨l, hl, q1, q2, S, rfl, q3⟩ := b5 M hM (hz phi)
    exact ⟨l, hl, q1, q2, fun r hr => by simp [q3 r hr]⟩

/-! ## Phases of the rectangles -/

theorem KeepsTells.advance {A : FloatOps K} {L : ℤ → Cx K → Cx K → Cx K} {log0 : List (Cell K)} (ctx : RCtx K) (a : K) :
    KeepsTells A L log0 (World.advance ctx a : Py (World σ K) Unit) :=
  KeepsTells.frame (KeepsCache.advance ctx a) fun w => by
    unfold World.advance
    split
    · rw [Py.bind_run]
      have := (World.tick_any w).2.2
      rcases ht : World.tick w with ⟨_ | _, w1⟩ <;> rw [ht] at this <;> exact this
    · rfl

theorem KeepsTells.addRoot {A : FloatOps K} {L : ℤ → Cx K → Cx K → Cx K} {log0 : List (Cell K)} (r : Root K) :
    KeepsTells A L log0 (World.addRoot r : Py (World σ K) Unit) :=
  KeepsTells.frame (KeepsCache.addRoot r) fun w => by
    unfold World.addRoot
    rw [Py.bind_run]
    have := (World.tick_any w).2.2
    rcases ht : World.tick w with ⟨_ | _, w1⟩ <;> rw [ht] at this <;> exact this

theorem newtonActF_tells {A : FloatOps K} {L : ℤ → Cx K → Cx K → Cx K} (nt : NewtonSolver K) {ctx : RCtx K} {pi : K} (log0 : List (Cell K)) (c : Cell K) :
    KeepsTells A L log0 (newtonActF A nt pi ctx c : Py (World σ K) Unit) := by
  unfold newtonActF
  split
  · unfold actF
    split
    · exact KeepsTells.advance _ _
    · exact KeepsTells.bind (KeepsTells.addRoot _) fun _ => KeepsTells.advance _ _
  · intro w hw
    unfold Py.tryFinally
    obtain ⟨n1, n2, _, _, _⟩ := newtonBlockF_any A nt ctx c w
    have hx : (Py.exceptRuntimeError (newtonBlockF A nt c.re c.im ctx) w).2 = (newtonBlockF A nt c.re c.im ctx w).2 := by
      unfold Py.exceptRuntimeError
      rcases newtonBlockF A nt c.re c.im ctx w with ⟨e | _, w1⟩
      · cases e <;> rfl
      · rfl
    have h1 : Tells A L log0 (Py.exceptRuntimeError (newtonBlockF A nt c.re c.im ctx) w).2 := by
      rw [hx]
      exact ⟨hw.1.congr n2, by rw [n1]; exact hw.2⟩
    have h2 := KeepsTells.advance (A := A) (L := L) (log0 := log0) ctx (A.fl (A.fl (c.re.2 - c.re.1) * A.fl (c.im.2 - c.im.1))) _ h1
    rcases ha : World.advance ctx (A.fl (A.fl (c.re.2 - c.re.1) * A.fl (c.im.2 - c.im.1))) (Py.exceptRuntimeError (newtonBlockF A nt c.re c.im ctx) w).2 with ⟨_ | _, w2⟩ <;> rw [ha] at h2
    · simpa [ha] using h2
    · simpa [ha] using h2

theorem newtonF_tells {A : FloatOps K} {L : ℤ → Cx K → Cx K → Cx K} (nt : NewtonSolver K) {est : LineEst σ K} {ctx : RCtx K}
    {pi : K} (hL : ∀ o a b, L o b a = -L o a b) (hits : BoundaryHits est ctx)
    (hest : ∀ o a b w, (est o a b ctx w).2.cache = w.cache ∧ ∀ v, (est o a b ctx w).1 = .ok v → v = L o a b)
    (limit : ℕ) (w : World σ K) :
    ∀ l ∈ newCells w (simpleArgumentNewtonF A nt est pi limit ctx w).2, l.phi = phaseAround A L l := by
  have hdisp : ∀ (limit : ℕ) (c : Cell K), KeepsTells A L w.log ((dispatch (newtonDecideF A nt est pi) limit).at ctx c) := by
    intro limit
    induction limit with
    | zero => exact fun c w hw => hw
    | succ l ih =>
      intro c
      have hd : (dispatch (newtonDecideF A nt est pi) (l + 1)).at ctx c =
        (newtonDecideF A nt est pi (dispatch (newtonDecideF A nt est pi) l)).at ctx c := rfl
      rw [hd]
      by_cases hs : newtonStopF A pi ctx.precision c
      · rw [(newtonF_stops A nt est pi ctx _ c).1 hs]
        exact newtonActF_tells nt _ c
      · rw [(newtonF_stops A nt est pi ctx _ c).2 hs]
        unfold splitStepF
        exact KeepsTells.bind (phaseOfF_tells hL hits hest _ _ _) fun _ => KeepsTells.bind (ih _) fun _ =>
          KeepsTells.bind (KeepsTells.cacheRemove _ _) fun _ =>
          KeepsTells.bind (phaseOfF_tells hL hits hest _ _ _) fun _ =>
          KeepsTells.bind (ih _) fun _ => KeepsTells.cacheRemove _ _
  have h : Tells A L w.log (simpleArgumentNewtonF A nt est pi limit ctx w).2 := by
    unfold simpleArgumentNewtonF resetCache
    rw [Py.bind_run, Py.modify_run]
    refine KeepsTells.bind (phaseOfF_tells hL hits hest _ _ _) (fun phi => hdisp limit ⟨ctx.reRan, ctx.imRan, phi⟩) _ ?_
    by_cases hd : w.cache.dirty = true
    · rw [if_pos hd]; exact ⟨(CacheOf.reset w).1, [], by simp, by simp⟩
    · rw [if_neg hd]; exact ⟨(CacheOf.reset w).2 (by simpa using hd), [], by simp, by simp⟩
  obtain ⟨_, new, h1, h2⟩ := h
  unfold newCells
  rw [h1]
  simpa using h2

/-! ## Depth, and runs which return -/

theorem dispatchG_limit {A : FloatOps K} {u : K} (hA : Rounds A.fl u) {est : LineEst σ K} {ctx : RCtx K} {body : Decide σ K → Decide σ K} {stop : Cell K → Prop}
    {act : Cell K → Py (World σ K) Unit} (hs : StopsF A est ctx body stop act) (hsm : ∀ c, ¬ stop c → ¬ SmallF A ctx.precision c) (hp : GoodPow A ctx.precision) {R : K}
    (l1 l2 m n : ℕ) (c : Cell K) (hc : OkCell A c) (hw : Cell.Within R c) (hb : BelowF A ctx.precision (u * R) m n c) (h1 : m + n < l1) (h2 : m + n < l2) :
    (dispatch body l1).at ctx c = (dispatch body l2).at ctx c := by
  induction l1 generalizing l2 m n c with
  | zero => omega
  | succ l1 ih =>
    rcases l2 with _ | l2
    · omega
    · have hd : ∀ l, (dispatch body (l + 1)).at ctx c = (body (dispatch body l)).at ctx c := fun _ => rfl
      rw [hd, hd]
      by_cases hst : stop c
      · rw [(hs _ c).1 hst, (hs _ c).1 hst]
      · rw [(hs _ c).2 hst, (hs _ c).2 hst]
        obtain ⟨m', n', hmn, hbb⟩ := belowF_halves hA hp hc hw (hsm c hst) hb
        have k1 : ∀ phi, (dispatch body l1).at ctx (halfF1 A ctx.precision c phi) =
            (dispatch body l2).at ctx (halfF1 A ctx.precision c phi) := fun phi =>
          have hh := halfF_ok hA (p := ctx.precision) hc phi phi
          ih l2 m' n' _ hh.1.1 (hw.of_in hh.2.1.1) (hbb phi).1 (by omega) (by omega)
        have k2 : ∀ phi, (dispatch body l1).at ctx (halfF2 A ctx.precision c phi) =
            (dispatch body l2).at ctx (halfF2 A ctx.precision c phi) := fun phi =>
          have hh := halfF_ok hA (p := ctx.precision) hc phi phi
          ih l2 m' n' _ hh.1.2 (hw.of_in hh.2.1.2) (hbb phi).2 (by omega) (by omega)
        unfold splitStepF
        simp only [k1, k2]

theorem dispatchG_never {A : FloatOps K} {u : K} (hA : Rounds A.fl u) {est : LineEst σ K} {ctx : RCtx K} {body : Decide σ K → Decide σ K} {stop : Cell K → Prop}
    {act : Cell K → Py (World σ K) Unit} (hs : StopsF A est ctx body stop act) (hsm : ∀ c, ¬ stop c → ¬ SmallF A ctx.precision c) (hact : ∀ c, Never .recursionError (act c))
    (hp : GoodPow A ctx.precision) {R : K} (hest : ∀ order a b, Never .recursionError (est order a b ctx)) (l m n : ℕ)
    (c : Cell K) (hc : OkCell A c) (hw : Cell.Within R c) (hb : BelowF A ctx.precision (u * R) m n c) (h1 : m + n < l) :
    Never .recursionError ((dispatch body l).at ctx c) := by
  induction l generalizing m n c with
  | zero => omega
  | succ l1 ih =>
    have hd : ∀ l, (dispatch body (l + 1)).at ctx c = (body (dispatch body l)).at ctx c := fun _ => rfl
    rw [hd]
    by_cases hst : stop c
    · rw [(hs _ c).1 hst]
      exact hact c
    · rw [(hs _ c).2 hst]
      obtain ⟨m', n', hmn, hbb⟩ := belowF_halves hA hp hc hw (hsm c hst) hb
      unfold splitStepF
      refine Never.bind (phaseOfF_never hest _ _) fun phi1 => ?_
      have hh := halfF_ok hA (p := ctx.precision) hc phi1 phi1
      refine Never.bind (ih m' n' _ hh.1.1 (hw.of_in hh.2.1.1) (hbb phi1).1 (by omega)) fun _ => ?_
      refine Never.bind (fun w => by simp [cacheRemove]) fun _ => ?_
      refine Never.bind (phaseOfF_never hest _ _) fun phi2 => ?_
      have hh := halfF_ok hA (p := ctx.precision) hc phi2 phi2
      exact Never.bind (ih m' n' _ hh.1.2 (hw.of_in hh.2.1.2) (hbb phi2).2 (by omega)) fun _ w => by
        simp [cacheRemove]

theorem dispatchG_calm {A : FloatOps K} {est : LineEst σ K} {ctx : RCtx K} {body : Decide σ K → Decide σ K} {stop : Cell K → Prop}
    {act : Cell K → Py (World σ K) Unit} (hs : StopsF A est ctx body stop act) (hact : ∀ c, CalmF (act c)) (hest : ∀ order a b, CalmF (est order a b ctx))
    (limit : ℕ) (c : Cell K) : CalmF ((dispatch body limit).at ctx c) := by
  induction limit generalizing c with
  | zero => intro w hw; simp [dispatch, Decide.at, hw]
  | succ l ih =>
    have hd : (dispatch body (l + 1)).at ctx c = (body (dispatch body l)).at ctx c := rfl
    rw [hd]
    by_cases hst : stop c
    · rw [(hs _ c).1 hst]
      exact hact c
    · rw [(hs _ c).2 hst]
      unfold splitStepF
      exact CalmF.bind (phaseOfF_calm hest _ _) fun _ => CalmF.bind (ih _) fun _ =>
        CalmF.bind (CalmF.modify fun _ => rfl) fun _ => CalmF.bind (phaseOfF_calm hest _ _) fun _ =>
        CalmF.bind (ih _) fun _ => CalmF.modify fun _ => rfl

theorem newtonTry_calm (A : FloatOps K) (nt : NewtonSolver K) (ctx : RCtx K) (c : Cell K) (a : K) (w : World σ K) :
    (Py.tryFinally (Py.exceptRuntimeError (newtonBlockF A nt c.re c.im ctx)) (World.advance ctx a) w).1 ≠ .error .recursionError ∧
    (w.fuse = none → (Py.tryFinally (Py.exceptRuntimeError (newtonBlockF A nt c.re c.im ctx)) (World.advance ctx a) w).2.fuse = none ∧
      (Py.tryFinally (Py.exceptRuntimeError (newtonBlockF A nt c.re c.im ctx)) (World.advance ctx a) w).1 = .ok ()) := by
  obtain ⟨_, _, n3, _, n5⟩ := newtonBlockF_any A nt ctx c w
  have hx : (Py.exceptRuntimeError (newtonBlockF A nt c.re c.im ctx) w).2 = (newtonBlockF A nt c.re c.im ctx w).2 ∧
      ((Py.exceptRuntimeError (newtonBlockF A nt c.re c.im ctx) w).1 = .ok () ∨
        ((Py.exceptRuntimeError (newtonBlockF A nt c.re c.im ctx) w).1 = .error .keyboardInterrupt ∧ w.fuse ≠ none)) := by
    unfold Py.exceptRuntimeError
    rcases hb : newtonBlockF A nt c.re c.im ctx w with ⟨e | _, w1⟩ <;> rw [hb] at n5
    · rcases n5 with h | h | ⟨h, h'⟩
      · cases h
      · cases h; exact ⟨rfl, .inl rfl⟩
      · cases h; exact ⟨rfl, .inr ⟨rfl, h'⟩⟩
    · exact ⟨rfl, .inl rfl⟩
  unfold Py.tryFinally
  rcases hr : Py.exceptRuntimeError (newtonBlockF A nt c.re c.im ctx) w with ⟨r, w1⟩
  rw [hr] at hx
  dsimp only at hx
  obtain ⟨rfl, hx2⟩ := hx
  have hadv := CalmF.advance (σ := σ) ctx a (newtonBlockF A nt c.re c.im ctx w).2
  have hnev : Never .recursionError (World.advance ctx a : Py (World σ K) Unit) := never_advance (by simp) ctx a
  have hnev := hnev (newtonBlockF A nt c.re c.im ctx w).2
  dsimp only
  rcases ha : World.advance ctx a (newtonBlockF A nt c.re c.im ctx w).2 with ⟨e | _, w2⟩ <;> rw [ha] at hadv hnev
  · refine ⟨by simpa using hnev, fun hw => ?_⟩
    have := (hadv (n3 hw)).2 e rfl
    subst this
    exact absurd rfl hnev
  · dsimp only
    refine ⟨?_, fun hw => ⟨(hadv (n3 hw)).1, ?_⟩⟩
    · rcases hx2 with h | ⟨h, _⟩ <;> rw [h] <;> simp
    · rcases hx2 with h | ⟨_, h⟩
      · exact h
      · exact absurd hw h

theorem newtonActF_calm (A : FloatOps K) (nt : NewtonSolver K) (pi : K) (ctx : RCtx K) (c : Cell K) :
    CalmF (newtonActF A nt pi ctx c : Py (World σ K) Unit) ∧ Never .recursionError (newtonActF A nt pi ctx c : Py (World σ K) Unit) := by
  unfold newtonActF
  split
  · unfold actF
    split
    · exact ⟨CalmF.advance _ _, never_advance (by simp) ctx _⟩
    · exact ⟨CalmF.bind (CalmF.addRoot _) fun _ => CalmF.advance _ _, Never.bind (never_addRoot (by simp) _) fun _ => never_advance (by simp) ctx _⟩
  · refine ⟨fun w hw => ?_, fun w => (newtonTry_calm A nt ctx c _ w).1⟩
    obtain ⟨h1, h2⟩ := (newtonTry_calm A nt ctx c (A.fl (A.fl (c.re.2 - c.re.1) * A.fl (c.im.2 - c.im.1))) w).2 hw
    exact ⟨h1, fun e he => by rw [h2] at he; cases he⟩

theorem newtonF_calm {A : FloatOps K} (nt : NewtonSolver K) {est : LineEst σ K} {pi : K} {ctx : RCtx K}
    (hest : ∀ order a b, CalmF (est order a b ctx)) (limit : ℕ) : CalmF (simpleArgumentNewtonF A nt est pi limit ctx) := by
  unfold simpleArgumentNewtonF resetCache
  refine CalmF.bind (CalmF.modify fun w => by split <;> rfl) fun _ => ?_
  exact CalmF.bind (phaseOfF_calm hest _ _) fun phi => dispatchG_calm (newtonF_stops A nt est pi ctx) (fun c => (newtonActF_calm A nt pi ctx c).1) hest limit ⟨ctx.reRan, ctx.imRan, phi⟩

theorem newtonStopF_small {A : FloatOps K} {pi : K} {p : ℤ × ℤ} (c : Cell K) (h : ¬ newtonStopF A pi p c) : ¬ SmallF A p c := fun hs => h (.inl (.inr hs))

/-! ## Exact arithmetic -/

theorem newtonDecideF_exact (nt : NewtonSolver K) (est : LineEst σ K) (pi : K) (self : Decide σ K) :
    newtonDecideF (FloatOps.exact K) nt est pi self = newtonDecide nt est pi self := by
  funext re im phi ctx
  have h1 : (FloatOps.exact K).twoPi pi = TWO_PI pi := by simp [FloatOps.twoPi, FloatOps.exact, TWO_PI]
  have h2 : (FloatOps.exact K).fourPi pi = FOUR_PI pi := by simp [FloatOps.fourPi, FloatOps.exact, FOUR_PI]
  have h3 : newtonBlockF (σ := σ) (FloatOps.exact K) nt re im ctx = newtonBlock nt re im ctx := by
    have e : ∀ a b : K, (FloatOps.exact K).mid a b = 1 / 2 * (a + b) := fun a b => by simp [FloatOps.mid, FloatOps.exact]; ring
    have e' : ∀ a b : K, (a + b) * (1 / 2) = 1 / 2 * (a + b) := fun a b => by ring
    unfold newtonBlockF newtonBlock
    simp only [e, e']
    rfl
  unfold newtonDecideF newtonDecide
  rw [h1, h2, h3, simpleDecideF_exact]
  rfl

theorem newtonF_exact (nt : NewtonSolver K) (est : LineEst σ K) (pi : K) (limit : ℕ) (ctx : RCtx K) :
    simpleArgumentNewtonF (FloatOps.exact K) nt est pi limit ctx = simpleArgumentNewton nt est pi limit ctx := by
  have hb : newtonDecideF (σ := σ) (FloatOps.exact K) nt est pi = newtonDecide nt est pi := funext fun self => newtonDecideF_exact nt est pi self
  unfold simpleArgumentNewtonF simpleArgumentNewton calcRoots
  rw [hb, phaseOfF_exact]

end PyZeal
