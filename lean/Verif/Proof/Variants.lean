import Verif.Proof.CleanCache
import Verif.Proof.Cluster
import Verif.Proof.NewtonIdentities

/-! # The Newton and polynomial variants of the search -/

set_option linter.unusedSectionVars false

namespace PyZeal
open Spec
variable {K : Type} {σ : Type} [Field K] [LinearOrder K] [IsStrictOrderedRing K] [FloorRing K]

/-! ## Newton -/

/-- where the Newton variant stops -/
def NewtonStop (pi : K) (p : ℤ × ℤ) (c : Cell K) : Prop := Cell.Stop pi p c ∨ Cell.OneTurn pi c

instance (pi : K) (p : ℤ × ℤ) (c : Cell K) : Decidable (NewtonStop pi p c) := by
  unfold NewtonStop; infer_instance

/-- what it does there -/
def newtonAct (nt : NewtonSolver K) (pi : K) (ctx : RCtx K) (c : Cell K) : Py (World σ K) Unit :=
  if Cell.Stop pi ctx.precision c then simpleAct pi ctx c
  else Py.tryFinally (Py.exceptRuntimeError (newtonBlock nt c.re c.im ctx))
        (World.advance ctx (Cell.area c))

theorem newton_stops (nt : NewtonSolver K) (est : LineEst σ K) (pi : K) (ctx : RCtx K) :
    Stops est ctx (newtonDecide nt est pi) (NewtonStop pi ctx.precision) (newtonAct nt pi ctx) := by
  intro self c
  have hd : (newtonDecide nt est pi self).at ctx c =
      if TWO_PI pi < c.phi ∧ Cell.Small ctx.precision c then
        getRootFromRectangle pi c.re.2 c.re.1 c.im.2 c.im.1 c.phi ctx
      else if Cell.OneTurn pi c then
        Py.tryFinally (Py.exceptRuntimeError (newtonBlock nt c.re c.im ctx)) (World.advance ctx (Cell.area c))
      else (simpleDecide est pi self).at ctx c := by
    have e : FOUR_PI pi = 13 / 10 * (2 * pi) := by unfold FOUR_PI; ring
    unfold newtonDecide Decide.at Cell.OneTurn Cell.Small Cell.area
    rw [e]
    rfl
  rw [hd]
  have hsimp := simple_stops est pi ctx self c
  have small_case : TWO_PI pi < c.phi ∧ Cell.Small ctx.precision c → Cell.Stop pi ctx.precision c ∧
      (getRootFromRectangle pi c.re.2 c.re.1 c.im.2 c.im.1 c.phi ctx : Py (World σ K) Unit) =
        simpleAct pi ctx c := by
    rintro ⟨h1, h2⟩
    have ht : Cell.Turns pi c := le_of_lt h1
    refine ⟨Or.inr h2, ?_⟩
    unfold simpleAct getRootFromRectangle
    rw [if_neg (not_not.2 ht)]
    simp only [sub_self, mul_zero]
    rfl
  unfold newtonAct NewtonStop
  by_cases h1 : TWO_PI pi < c.phi ∧ Cell.Small ctx.precision c
  · obtain ⟨a, b⟩ := small_case h1
    rw [if_pos h1, if_pos a, b]
    exact ⟨fun _ => rfl, fun h => absurd (Or.inl a) h⟩
  · rw [if_neg h1]
    by_cases h2 : Cell.OneTurn pi c
    · rw [if_pos h2]
      have hs : ¬ Cell.Stop pi ctx.precision c := by
        rintro (h | h)
        · exact h (le_of_lt h2.1)
        · exact h1 ⟨h2.1, h⟩
      rw [if_neg hs]
      exact ⟨fun _ => rfl, fun h => absurd (Or.inr h2) h⟩
    · rw [if_neg h2]
      by_cases h3 : Cell.Stop pi ctx.precision c
      · rw [if_pos h3]
        exact ⟨fun _ => hsimp.1 h3, fun h => absurd (Or.inl h3) h⟩
      · refine ⟨fun h => ?_, fun _ => hsimp.2 h3⟩
        rcases h with h | h
        · exact absurd h h3
        · exact absurd h h2

/-- what the solver produces for a rectangle -/
def newtonResults (nt : NewtonSolver K) (ctx : RCtx K) (c : Cell K) : List (Root K) :=
  let tol := min (eps10 K ctx.precision.1) (eps10 K ctx.precision.2)
  match nt.secant ctx.f ⟨c.re.1, 1 / 2 * (c.im.1 + c.im.2)⟩ ⟨c.re.2, 1 / 2 * (c.im.1 + c.im.2)⟩ tol with
  | none => []
  | some z => (z, 1) :: match ctx.df with
    | none => []
    | some df =>
      match nt.newton ctx.f df ⟨(c.re.1 + c.re.2) * (1 / 2), (c.im.1 + c.im.2) * (1 / 2)⟩ tol with
      | none => []
      | some z' => [(z', 1)]

/-- effect of the `try` block, whatever its outcome -/
theorem newtonBlock_any (nt : NewtonSolver K) (ctx : RCtx K) (c : Cell K) (w : World σ K) :
    let r := newtonBlock nt c.re c.im ctx w
    r.2.log = w.log ∧ r.2.advances = w.advances ∧
    (∃ A, r.2.added = w.added ++ A ∧ A <+: newtonResults nt ctx c ∧
      (r.1 = .ok () ∨ r.1 = .error .runtimeError → A = newtonResults nt ctx c)) ∧
    (r.1 = .ok () ∨ r.1 = .error .runtimeError ∨ r.1 = .error .keyboardInterrupt) := by
  have add : ∀ (r : Root K) (w : World σ K), (World.addRoot r w).2.log = w.log ∧
      (World.addRoot r w).2.advances = w.advances ∧
      (((World.addRoot r w).1 = .ok () ∧ (World.addRoot r w).2.added = w.added ++ [r]) ∨
       ((World.addRoot r w).1 = .error .keyboardInterrupt ∧ (World.addRoot r w).2.added = w.added)) := by
    intro r w
    unfold World.addRoot
    rw [Py.bind_run]
    unfold World.tick
    rcases hf : w.fuse with _ | _ | n <;> simp
  dsimp only
  unfold newtonBlock newtonResults
  rw [Py.bind_run]
  dsimp only
  rcases hs : nt.secant ctx.f ⟨c.re.1, 1 / 2 * (c.im.1 + c.im.2)⟩ ⟨c.re.2, 1 / 2 * (c.im.1 + c.im.2)⟩
    (min (eps10 K ctx.precision.1) (eps10 K ctx.precision.2)) with _ | z
  · simp [orRuntimeError]
  · simp only [orRuntimeError, Py.pure_run]
    rw [Py.bind_run]
    obtain ⟨a1, a2, a3⟩ := add (z, 1) w
    rcases hw : World.addRoot (z, 1) w with ⟨e | _, w1⟩ <;> rw [hw] at a1 a2 a3 <;> dsimp only at a1 a2 a3 ⊢
    · obtain ⟨a4, a5⟩ : (Except.error e : Except Err Unit) = .error .keyboardInterrupt ∧ w1.added = w.added := by
        rcases a3 with ⟨h, _⟩ | h
        · cases h
        · exact h
      cases a4
      exact ⟨a1, a2, ⟨[], by simp [a5], by simp, by simp⟩, by simp⟩
    · obtain ⟨_, a5⟩ : (Except.ok () : Except Err Unit) = .ok () ∧ w1.added = w.added ++ [(z, 1)] := by
        rcases a3 with h | ⟨h, _⟩
        · exact h
        · cases h
      rcases hdf : ctx.df with _ | df
      · exact ⟨a1, a2, ⟨[(z, 1)], a5, by simp, by simp⟩, by simp⟩
      · dsimp only
        rw [Py.bind_run]
        rcases hn : nt.newton ctx.f df ⟨(c.re.1 + c.re.2) * (1 / 2), (c.im.1 + c.im.2) * (1 / 2)⟩
          (min (eps10 K ctx.precision.1) (eps10 K ctx.precision.2)) with _ | z'
        · exact ⟨a1, a2, ⟨[(z, 1)], a5, by simp, by simp⟩, by simp [orRuntimeError]⟩
        · simp only [orRuntimeError, Py.pure_run]
          obtain ⟨b1, b2, b3⟩ := add (z', 1) w1
          rcases hw' : World.addRoot (z', 1) w1 with ⟨e | _, w2⟩ <;> rw [hw'] at b1 b2 b3 <;>
            dsimp only at b1 b2 b3 ⊢
          · obtain ⟨b4, b5⟩ : (Except.error e : Except Err Unit) = .error .keyboardInterrupt ∧
                w2.added = w1.added := by
              rcases b3 with ⟨h, _⟩ | h
              · cases h
              · exact h
            cases b4
            exact ⟨b1.trans a1, b2.trans a2, ⟨[(z, 1)], by rw [b5, a5], by simp [List.prefix_iff_eq_append], by simp⟩, by simp⟩
          · obtain ⟨_, b5⟩ : (Except.ok () : Except Err Unit) = .ok () ∧ w2.added = w1.added ++ [(z', 1)] := by
              rcases b3 with h | ⟨h, _⟩
              · exact h
              · cases h
            exact ⟨b1.trans a1, b2.trans a2, ⟨[(z, 1), (z', 1)], by rw [b5, a5]; simp, by simp, by simp⟩, by simp⟩

theorem newton_leafEffect (nt : NewtonSolver K) (pi : K) (ctx : RCtx K) :
    LeafEffect (σ := σ) (newtonAct nt pi ctx)
      (fun c => if ctx.progress then [if Cell.Stop pi ctx.precision c then leafAdvance pi c else Cell.area c] else [])
      (fun c A => A = if Cell.Stop pi ctx.precision c then (if Cell.Turns pi c then [candidate pi c] else [])
        else newtonResults nt ctx c) := by
  intro c w w' h
  unfold newtonAct at h
  by_cases hs : Cell.Stop pi ctx.precision c
  · rw [if_pos hs] at h
    obtain ⟨h1, h2, A, h3, h4⟩ := simple_leafEffect pi ctx c w w' h
    refine ⟨h1, by simp only [if_pos hs]; exact h2, A, h3, by simp only [if_pos hs]; exact h4⟩
  · rw [if_neg hs] at h
    unfold Py.tryFinally at h
    obtain ⟨n1, n2, ⟨A, n3, n4, n5⟩, n6⟩ := newtonBlock_any nt ctx c w
    have hx : (Py.exceptRuntimeError (newtonBlock nt c.re c.im ctx) w).2 = (newtonBlock nt c.re c.im ctx w).2 := by
      unfold Py.exceptRuntimeError
      rcases newtonBlock nt c.re c.im ctx w with ⟨e | _, w1⟩
      · cases e <;> rfl
      · rfl
    rw [hx] at h
    rcases ha : World.advance ctx (Cell.area c) (newtonBlock nt c.re c.im ctx w).2 with ⟨e | _, w2⟩ <;> rw [ha] at h
    · simp at h
    · simp only [Prod.mk.injEq] at h
      obtain ⟨h1, rfl⟩ := h
      obtain ⟨a1, a2, a3⟩ := advance_ok ha
      have hA : A = newtonResults nt ctx c := by
        apply n5
        unfold Py.exceptRuntimeError at h1
        rcases hb : newtonBlock nt c.re c.im ctx w with ⟨e | _, w1⟩ <;> rw [hb] at h1 n6
        · rcases n6 with h | h | h
          · simp at h
          · exact Or.inr h
          · dsimp only at h; cases h; simp at h1
        · exact Or.inl rfl
      refine ⟨a3.trans n1, ?_, A, by rw [a2, n3], by simp only [if_neg hs]; exact hA⟩
      rw [a1, n2]
      simp only [if_neg hs]

theorem newton_actJust (nt : NewtonSolver K) (pi : K) (hpi : 0 < pi) (ctx : RCtx K) :
    ActJust (σ := σ) ctx.f (NewtonStop pi ctx.precision) (newtonAct nt pi ctx) (fun c r =>
      (Cell.Stop pi ctx.precision c ∧ Cell.Turns pi c ∧ r = candidate pi c) ∨
      (¬ Cell.Stop pi ctx.precision c ∧ Cell.OneTurn pi c ∧ r ∈ newtonResults nt ctx c)) := by
  intro c w hstop
  unfold newtonAct
  by_cases hs : Cell.Stop pi ctx.precision c
  · rw [if_pos hs]
    obtain ⟨h1, A, h2, h3⟩ := simple_actJust pi hpi ctx c w hs
    refine ⟨h1, A, h2, fun r hr => ?_⟩
    rcases h3 r hr with h | h
    · exact Or.inl h
    · exact Or.inr (Or.inl ⟨hs, h⟩)
  · rw [if_neg hs]
    have hone : Cell.OneTurn pi c := by
      rcases hstop with h | h
      · exact absurd h hs
      · exact h
    obtain ⟨n1, n2, ⟨A, n3, n4, n5⟩, n6⟩ := newtonBlock_any nt ctx c w
    have hx : (Py.exceptRuntimeError (newtonBlock nt c.re c.im ctx) w).2 = (newtonBlock nt c.re c.im ctx w).2 := by
      unfold Py.exceptRuntimeError
      rcases newtonBlock nt c.re c.im ctx w with ⟨e | _, w1⟩
      · cases e <;> rfl
      · rfl
    unfold Py.tryFinally
    rw [hx]
    obtain ⟨a1, a2⟩ := advance_any ctx (Cell.area c) (newtonBlock nt c.re c.im ctx w).2
    rcases ha : World.advance ctx (Cell.area c) (newtonBlock nt c.re c.im ctx w).2 with ⟨e | _, w2⟩ <;>
      rw [ha] at a1 a2 <;> dsimp only at a1 a2 ⊢ <;>
      exact ⟨a1.trans n1, A, by rw [a2, n3], fun r hr => Or.inr (Or.inr ⟨hs, hone, n4.subset hr⟩)⟩

/-! ## Associated polynomial -/

/-- where the polynomial variant stops -/
def PolyStop (pi : K) (p : ℤ × ℤ) (c : Cell K) : Prop := Cell.Stop pi p c ∨ Cell.FewTurns pi c

instance (pi : K) (p : ℤ × ℤ) (c : Cell K) : Decidable (PolyStop pi p c) := by
  unfold PolyStop; infer_instance

/-- the polynomial block (polynomial_holo.py 72-103) -/
def polyBlock (polyRoots : List (Cx K) → List (Cx K)) (est : LineEst σ K) (pi : K) (ctx : RCtx K) (c : Cell K) :
    Py (World σ K) Unit := do
  let ms ← moments est pi c.re c.im ctx
    ((List.range (roundHalfEven (c.phi / (2 * pi))).toNat).map fun (k : ℕ) => (k : ℤ) + 1)
  World.addRoots ((getRootsWithOrders (polyRoots (coefficientsFromMoments ms)) ctx.precision).1.zip
    (getRootsWithOrders (polyRoots (coefficientsFromMoments ms)) ctx.precision).2)
  World.advance ctx (Cell.area c)

/-- what the polynomial variant does where it stops -/
def polyAct (polyRoots : List (Cx K) → List (Cx K)) (est : LineEst σ K) (pi : K) (ctx : RCtx K) (c : Cell K) :
    Py (World σ K) Unit :=
  if Cell.Stop pi ctx.precision c then simpleAct pi ctx c else polyBlock polyRoots est pi ctx c

theorem poly_stops (polyRoots : List (Cx K) → List (Cx K)) (est : LineEst σ K) (pi : K) (ctx : RCtx K)
    (hdf : ctx.df.isSome) :
    Stops est ctx (polynomialDecide polyRoots est pi) (PolyStop pi ctx.precision)
      (polyAct polyRoots est pi ctx) := by
  intro self c
  obtain ⟨df, hdf⟩ := Option.isSome_iff_exists.1 hdf
  have hd : (polynomialDecide polyRoots est pi self).at ctx c =
      if TWO_PI pi < c.phi ∧ Cell.Small ctx.precision c then
        getRootFromRectangle pi c.re.2 c.re.1 c.im.2 c.im.1 c.phi ctx
      else if Cell.FewTurns pi c then polyBlock polyRoots est pi ctx c
      else (simpleDecide est pi self).at ctx c := by
    have e : MAX_PHASE pi = 34 / 10 * (2 * pi) := by unfold MAX_PHASE; ring
    unfold polynomialDecide Decide.at Cell.FewTurns Cell.Small polyBlock Cell.area
    dsimp only
    rw [hdf, e]
    rfl
  rw [hd]
  have hsimp := simple_stops est pi ctx self c
  have small_case : TWO_PI pi < c.phi ∧ Cell.Small ctx.precision c → Cell.Stop pi ctx.precision c ∧
      (getRootFromRectangle pi c.re.2 c.re.1 c.im.2 c.im.1 c.phi ctx : Py (World σ K) Unit) =
        simpleAct pi ctx c := by
    rintro ⟨h1, h2⟩
    have ht : Cell.Turns pi c := le_of_lt h1
    refine ⟨Or.inr h2, ?_⟩
    unfold simpleAct getRootFromRectangle
    rw [if_neg (not_not.2 ht)]
    simp only [sub_self, mul_zero]
    rfl
  unfold polyAct PolyStop
  by_cases h1 : TWO_PI pi < c.phi ∧ Cell.Small ctx.precision c
  · obtain ⟨a, b⟩ := small_case h1
    rw [if_pos h1, if_pos a, b]
    exact ⟨fun _ => rfl, fun h => absurd (Or.inl a) h⟩
  · rw [if_neg h1]
    by_cases h2 : Cell.FewTurns pi c
    · rw [if_pos h2]
      have hs : ¬ Cell.Stop pi ctx.precision c := by
        rintro (h | h)
        · exact h (le_of_lt h2.1)
        · exact h1 ⟨h2.1, h⟩
      rw [if_neg hs]
      exact ⟨fun _ => rfl, fun h => absurd (Or.inr h2) h⟩
    · rw [if_neg h2]
      by_cases h3 : Cell.Stop pi ctx.precision c
      · rw [if_pos h3]
        exact ⟨fun _ => hsimp.1 h3, fun h => absurd (Or.inl h3) h⟩
      · refine ⟨fun h => ?_, fun _ => hsimp.2 h3⟩
        rcases h with h | h
        · exact absurd h h3
        · exact absurd h h2

theorem moments_hits {est : LineEst σ K} {ctx : RCtx K} (hest : BoundaryHits est ctx) (pi : K) (re im : K × K)
    (orders : List ℤ) : OnlyHits ctx.f (moments est pi re im ctx orders) := by
  induction orders with
  | nil => exact OnlyHits.pure _
  | cons o os ih => exact OnlyHits.bind (calcMoment_hits hest _ _ _) fun _ => OnlyHits.bind ih fun _ => OnlyHits.pure _

theorem moments_length {est : LineEst σ K} {ctx : RCtx K} {pi : K} {re im : K × K}
    {orders : List ℤ} {w w' : World σ K} {ms : List (Cx K)}
    (h : moments est pi re im ctx orders w = (.ok ms, w')) : ms.length = orders.length := by
  induction orders generalizing w w' ms with
  | nil => simp only [moments, Py.pure_run, Prod.mk.injEq, Except.ok.injEq] at h; simp [← h.1]
  | cons o os ih =>
    change (calcMoment est o re im ctx >>= fun m => moments est pi re im ctx os >>= fun ms =>
      pure (Cx.divK m (2 * pi) :: ms)) w = _ at h
    rw [Py.bind_run] at h
    rcases hc : calcMoment est o re im ctx w with ⟨e | m, w1⟩ <;> rw [hc] at h
    · simp at h
    · dsimp only at h
      rw [Py.bind_run] at h
      rcases hm : moments est pi re im ctx os w1 with ⟨e | ms', w2⟩ <;> rw [hm] at h
      · simp at h
      · simp only [Py.pure_run, Prod.mk.injEq, Except.ok.injEq] at h
        rw [← h.1]
        simp [ih hm]

/-- the clusters found by the polynomial block for given moments -/
def polyResults (polyRoots : List (Cx K) → List (Cx K)) (p : ℤ × ℤ) (ms : List (Cx K)) : List (Root K) :=
  clusterLoop (eps10 K p.1, eps10 K p.2) (polyRoots (coefficientsFromMoments ms)) []

theorem polyResults_zip (polyRoots : List (Cx K) → List (Cx K)) (p : ℤ × ℤ) (ms : List (Cx K)) :
    (getRootsWithOrders (polyRoots (coefficientsFromMoments ms)) p).1.zip
      (getRootsWithOrders (polyRoots (coefficientsFromMoments ms)) p).2 = polyResults polyRoots p ms :=
  zip_map_fst_snd _

theorem addRoots_ok {rs : List (Root K)} {w w' : World σ K} (h : World.addRoots rs w = (.ok (), w')) :
    w'.added = w.added ++ rs ∧ w'.advances = w.advances ∧ w'.log = w.log := by
  induction rs generalizing w with
  | nil => simp only [World.addRoots, Py.pure_run, Prod.mk.injEq, true_and] at h; subst h; simp
  | cons r rs ih =>
    simp only [World.addRoots] at h
    rw [Py.bind_run] at h
    rcases ha : World.addRoot r w with ⟨_ | _, w1⟩ <;> rw [ha] at h
    · simp at h
    · obtain ⟨a1, a2, a3⟩ := addRoot_ok ha
      obtain ⟨b1, b2, b3⟩ := ih h
      exact ⟨by rw [b1, a1]; simp, b2.trans a2, b3.trans a3⟩

theorem polyBlock_ok {polyRoots : List (Cx K) → List (Cx K)} {est : LineEst σ K} {pi : K} {ctx : RCtx K}
    (hest : BoundaryHits est ctx) {c : Cell K} {w w' : World σ K}
    (h : polyBlock polyRoots est pi ctx c w = (.ok (), w')) :
    w'.log = w.log ∧ w'.advances = w.advances ++ (if ctx.progress then [Cell.area c] else []) ∧
    ∃ zs ms, w'.added = w.added ++ (zs ++ polyResults polyRoots ctx.precision ms) ∧
      (∀ r ∈ zs, r.2 = 0 ∧ ctx.f r.1 = 0) ∧ ms.length = (roundHalfEven (c.phi / (2 * pi))).toNat := by
  unfold polyBlock at h
  rw [Py.bind_run] at h
  have hh := moments_hits hest pi c.re c.im
    ((List.range (roundHalfEven (c.phi / (2 * pi))).toNat).map fun (k : ℕ) => (k : ℤ) + 1) w
  rcases hm : moments est pi c.re c.im ctx
    ((List.range (roundHalfEven (c.phi / (2 * pi))).toNat).map fun (k : ℕ) => (k : ℤ) + 1) w with ⟨e | ms, w1⟩ <;>
    rw [hm] at h hh
  · simp at h
  · obtain ⟨m1, m2, _, zs, m3, m4⟩ := hh
    have hlen := moments_length hm
    dsimp only at h m1 m2 m3
    rw [polyResults_zip] at h
    rw [Py.bind_run] at h
    rcases ha : World.addRoots (polyResults polyRoots ctx.precision ms) w1 with ⟨e | _, w2⟩ <;> rw [ha] at h
    · simp at h
    · obtain ⟨a1, a2, a3⟩ := addRoots_ok ha
      obtain ⟨b1, b2, b3⟩ := advance_ok h
      refine ⟨by rw [b3, a3, m2], by rw [b1, a2, m1], zs, ms, by rw [b2, a1, m3]; simp, m4, by rw [hlen]; simp⟩

/-- effect of the polynomial variant at a final cell -/
theorem poly_leafEffect {polyRoots : List (Cx K) → List (Cx K)} {est : LineEst σ K} {pi : K} {ctx : RCtx K}
    (hest : BoundaryHits est ctx) :
    LeafEffect (σ := σ) (polyAct polyRoots est pi ctx)
      (fun c => if ctx.progress then [if Cell.Stop pi ctx.precision c then leafAdvance pi c else Cell.area c] else [])
      (fun c A => if Cell.Stop pi ctx.precision c then A = (if Cell.Turns pi c then [candidate pi c] else [])
        else ∃ zs ms, A = zs ++ polyResults polyRoots ctx.precision ms ∧ (∀ r ∈ zs, r.2 = 0 ∧ ctx.f r.1 = 0) ∧
          ms.length = (roundHalfEven (c.phi / (2 * pi))).toNat) := by
  intro c w w' h
  unfold polyAct at h
  by_cases hs : Cell.Stop pi ctx.precision c
  · rw [if_pos hs] at h
    obtain ⟨h1, h2, A, h3, h4⟩ := simple_leafEffect pi ctx c w w' h
    refine ⟨h1, by simp only [if_pos hs]; exact h2, A, h3, by simp only [if_pos hs]; exact h4⟩
  · rw [if_neg hs] at h
    obtain ⟨h1, h2, zs, ms, h3, h4, h5⟩ := polyBlock_ok hest h
    exact ⟨h1, by simp only [if_neg hs]; exact h2, _, h3, by simp only [if_neg hs]; exact ⟨zs, ms, rfl, h4, h5⟩⟩

end PyZeal
