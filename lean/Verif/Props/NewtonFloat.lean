import Verif.Proof.NewtonFloat
import Verif.Props.Float
import Verif.Props.NewtonRounded

/-! # Properties C153, C154: the Newton variant in floating-point arithmetic -/

set_option linter.unusedSectionVars false

namespace PyZeal.Props
open Spec
section
variable {K : Type} {σ : Type} [Field K] [LinearOrder K] [IsStrictOrderedRing K] [FloorRing K]

/-! ## C153 -/

theorem oneTurnF_of_stop {A : FloatOps K} {pi : K} {p : ℤ × ℤ} {c : Cell K} (hs : newtonStopF A pi p c) (ht : Cell.TurnsF A pi c) (hn : ¬ SmallF A p c) : Cell.OneTurnF A pi c := by
  rcases hs with (h | h) | h
  · exact absurd ht h
  · exact absurd h hn
  · exact h

/-- what is handed over for a rectangle with a zero which the solver finds -/
theorem newtonOutF_finds {A : FloatOps K} {u : K} (hA : Rounds A.fl u) {nt : NewtonSolver K} {pi : K} (hpi : 0 < pi) {ctx : RCtx K} (hp : GoodPow A ctx.precision) {c : Cell K} (hc : OkCell A c)
    (hst : newtonStopF A pi ctx.precision c) (ht : Cell.TurnsF A pi c) {z : Cx K} (hz : Cell.Has c z) (hf : Cell.OneTurnF A pi c → FindsF A nt ctx c z) :
    ∃ r ∈ newtonOutF A nt pi ctx c, 1 ≤ r.2 ∧ Near (A.pow10 ctx.precision.1, A.pow10 ctx.precision.2) r.1 z := by
  unfold newtonOutF
  rw [if_pos ht]
  by_cases hs : SmallF A ctx.precision c
  · rw [if_pos hs]
    exact ⟨_, List.mem_singleton.2 rfl, one_le_orderF hA hpi ht, candF_near hA hp hc hs hz⟩
  · rw [if_neg hs]
    obtain ⟨⟨z', h1, h2⟩, _⟩ := hf (oneTurnF_of_stop hst ht hs)
    refine ⟨(z', 1), ?_, le_refl _, h2⟩
    unfold newtonResultsF
    rw [h1]
    exact List.mem_cons_self

/-- C153. The Newton variant in floating-point arithmetic: let a search complete whose rectangle has machine numbers as sides. If the phase computed for every evaluated rectangle containing the point `z`
reached the constant `TWO_PI`, and the solver finds `z` when it is started for such a rectangle, then a root of order at least 1 was handed to the container which differs from `z` by less
than the computed `10 ** (-p)` in each coordinate. -/
theorem C153_no_zero_lost (A : FloatOps K) (u : K) (hA : Rounds A.fl u) (nt : NewtonSolver K) (est : LineEst σ K) (pi : K) (hpi : 0 < pi) (limit : ℕ) (ctx : RCtx K)
    (hest : BoundaryHits est ctx) (hp : GoodPow A ctx.precision) (hm : Cell.Machine A.fl ⟨ctx.reRan, ctx.imRan, 0⟩) (w w' : World σ K)
    (h : simpleArgumentNewtonF A nt est pi limit ctx w = (.ok (), w')) (z : Cx K) (hz : Cell.Has ⟨ctx.reRan, ctx.imRan, 0⟩ z)
    (hturns : ∀ c ∈ newCells w w', Cell.Has c z → Cell.TurnsF A pi c)
    (hfinds : ∀ c ∈ newCells w w', Cell.Has c z → Cell.OneTurnF A pi c → FindsF A nt ctx c z) :
    ∃ r ∈ newRoots w w', 1 ≤ r.2 ∧ Near (A.pow10 ctx.precision.1, A.pow10 ctx.precision.2) r.1 z := by
  have hok : OkCell A ⟨ctx.reRan, ctx.imRan, 0⟩ := ⟨hm, le_trans hz.1 hz.2.1, le_trans hz.2.2.1 hz.2.2.2⟩
  obtain ⟨h1, _, h3⟩ := newtonF_run hA nt hest limit hok w w' h
  obtain ⟨l, hl, g1, g2, g3⟩ := h3 _ (splits_has hA ctx.precision z) fun _ => hz
  obtain ⟨r, r1, r2, r3⟩ := newtonOutF_finds hA hpi hp (h1 l hl).2 g2 (hturns l hl g1) g1 (hfinds l hl g1)
  exact ⟨r, g3 r r1, r2, r3⟩

/-- C153. Every rectangle a completed search looks at lies inside the search rectangle and has machine numbers as sides. Everything handed to the container is an exact zero met on a
boundary (order 0), or the computed centre of a rectangle for which the phase reached `TWO_PI` and whose sides are shorter than the computed `10 ** (-p)` (positive order), or (order 1) what the solver returned for a rectangle
whose phase lies between `TWO_PI` and `FOUR_PI`, with computed sides below 0.1. -/
theorem C153_inside (A : FloatOps K) (u : K) (hA : Rounds A.fl u) (nt : NewtonSolver K) (est : LineEst σ K) (pi : K) (hpi : 0 < pi) (limit : ℕ) (ctx : RCtx K)
    (hest : BoundaryHits est ctx) (hp : GoodPow A ctx.precision) (hm : Cell.Machine A.fl ⟨ctx.reRan, ctx.imRan, 0⟩) (hre : ctx.reRan.1 ≤ ctx.reRan.2)
    (him : ctx.imRan.1 ≤ ctx.imRan.2) (w w' : World σ K) (h : simpleArgumentNewtonF A nt est pi limit ctx w = (.ok (), w')) :
    (∀ c ∈ newCells w w', Cell.In c ⟨ctx.reRan, ctx.imRan, 0⟩ ∧ Cell.Machine A.fl c) ∧
    ∀ r ∈ newRoots w w', (r.2 = 0 ∧ ctx.f r.1 = 0) ∨ ∃ c ∈ newCells w w',
      (1 ≤ r.2 ∧ Cell.TurnsF A pi c ∧ r.1 = Cell.centreF A c ∧ c.re.2 - c.re.1 < A.pow10 ctx.precision.1 ∧ c.im.2 - c.im.1 < A.pow10 ctx.precision.2) ∨
      (Cell.OneTurnF A pi c ∧ Solved A nt ctx c r) := by
  obtain ⟨h1, h2, _⟩ := newtonF_run hA nt hest limit ⟨hm, hre, him⟩ w w' h
  refine ⟨fun c hc => ⟨(h1 c hc).1, (h1 c hc).2.1⟩, fun r hr => ?_⟩
  rcases h2 r hr with h | ⟨l, hl, g1, g2⟩
  · exact .inl h
  · refine .inr ⟨l, hl, ?_⟩
    unfold newtonOutF at g2
    by_cases ht : Cell.TurnsF A pi l
    · rw [if_pos ht] at g2
      by_cases hs : SmallF A ctx.precision l
      · rw [if_pos hs, List.mem_singleton] at g2
        subst g2
        exact .inl ⟨one_le_orderF hA hpi ht, ht, rfl, hA.lt_of_fl_lt hp.1.1 hs.1, hA.lt_of_fl_lt hp.2.1 hs.2⟩
      · rw [if_neg hs] at g2
        exact .inr ⟨oneTurnF_of_stop g1 ht hs, mem_newtonResultsF g2⟩
    · rw [if_neg ht] at g2
      simp at g2

/-- the cells of a search with an estimator which sees the zeros turn exactly if they contain a zero -/
theorem newtonF_turns {A : FloatOps K} {u : K} (hA : Rounds A.fl u) {nt : NewtonSolver K} {est : LineEst σ K} {pi : K} {limit : ℕ} {ctx : RCtx K}
    (hest : BoundaryHits est ctx) (hok : OkCell A ⟨ctx.reRan, ctx.imRan, 0⟩) {zeros : List (Cx K)}
    {L : ℤ → Cx K → Cx K → Cx K} (hs : SeesZeros A est ctx pi zeros L) {w w' : World σ K} (h : simpleArgumentNewtonF A nt est pi limit ctx w = (.ok (), w')) :
    ∀ c ∈ newCells w w', Cell.TurnsF A pi c ↔ ∃ z ∈ zeros, Cell.HasHalfOpen c z := by
  intro c hc
  obtain ⟨h1, h2⟩ := (newtonF_run hA nt hest limit hok w w' h).1 c hc
  have h3 := newtonF_tells (A := A) (pi := pi) nt hs.reverse hest hs.value limit w
  rw [h] at h3
  rw [← hs.around c h1 h2.1, ← h3 c hc]
  rfl

/-- C153. With an estimator which sees the zeros of the function and a solver which finds the zeros in the rectangles for which it is started: a completed search hands, for every zero in the search
rectangle, a root of order at least 1 within the computed `10 ** (-p)` to the container, and everything it hands over (except for exact zeros met on a boundary) is that close to a zero in the search rectangle. -/
theorem C153_conforming (A : FloatOps K) (u : K) (hA : Rounds A.fl u) (nt : NewtonSolver K) (est : LineEst σ K) (pi : K) (hpi : 0 < pi) (limit : ℕ) (ctx : RCtx K)
    (hest : BoundaryHits est ctx) (hp : GoodPow A ctx.precision) (hm : Cell.Machine A.fl ⟨ctx.reRan, ctx.imRan, 0⟩) (hre : ctx.reRan.1 ≤ ctx.reRan.2)
    (him : ctx.imRan.1 ≤ ctx.imRan.2) (zeros : List (Cx K)) (L : ℤ → Cx K → Cx K → Cx K) (hs : SeesZeros A est ctx pi zeros L) (w w' : World σ K)
    (h : simpleArgumentNewtonF A nt est pi limit ctx w = (.ok (), w'))
    (hfinds : ∀ c ∈ newCells w w', Cell.OneTurnF A pi c → ∀ z ∈ zeros, Cell.HasHalfOpen c z → FindsF A nt ctx c z) :
    (∀ z ∈ zeros, Cell.HasHalfOpen ⟨ctx.reRan, ctx.imRan, 0⟩ z → ∃ r ∈ newRoots w w', 1 ≤ r.2 ∧
      Near (A.pow10 ctx.precision.1, A.pow10 ctx.precision.2) r.1 z) ∧
    ∀ r ∈ newRoots w w', (r.2 = 0 ∧ ctx.f r.1 = 0) ∨ 1 ≤ r.2 ∧ ∃ z ∈ zeros, Cell.HasHalfOpen ⟨ctx.reRan, ctx.imRan, 0⟩ z ∧ Near (A.pow10 ctx.precision.1, A.pow10 ctx.precision.2) r.1 z := by
  have hok : OkCell A ⟨ctx.reRan, ctx.imRan, 0⟩ := ⟨hm, hre, him⟩
  have ht := newtonF_turns hA hest hok hs h
  obtain ⟨h1, h2, h3⟩ := newtonF_run hA nt hest limit hok w w' h
  constructor
  · intro z hz hin
    obtain ⟨l, hl, g1, g2, g3⟩ := h3 _ (splits_halfOpen ctx.precision z) fun _ => hin
    obtain ⟨r, r1, r2, r3⟩ := newtonOutF_finds hA hpi hp (h1 l hl).2 g2 ((ht l hl).2 ⟨z, hz, g1⟩) (has_of_halfOpen g1) fun ho => hfinds l hl ho z hz g1
    exact ⟨r, g3 r r1, r2, r3⟩
  · intro r hr
    rcases h2 r hr with h | ⟨l, hl, g1, g2⟩
    · exact .inl h
    · unfold newtonOutF at g2
      by_cases htl : Cell.TurnsF A pi l
      · obtain ⟨z, hz, hzl⟩ := (ht l hl).1 htl
        have hzr : Cell.HasHalfOpen ⟨ctx.reRan, ctx.imRan, 0⟩ z := by
          obtain ⟨b1, _, b2, b3, _, b4⟩ := (h1 l hl).1
          exact ⟨b1.trans hzl.1, hzl.2.1.trans_le b2, b3.trans hzl.2.2.1, hzl.2.2.2.trans_le b4⟩
        rw [if_pos htl] at g2
        by_cases hsm : SmallF A ctx.precision l
        · rw [if_pos hsm, List.mem_singleton] at g2
          subst g2
          exact .inr ⟨one_le_orderF hA hpi htl, z, hz, hzr, candF_near hA hp (h1 l hl).2 hsm (has_of_halfOpen hzl)⟩
        · rw [if_neg hsm] at g2
          obtain ⟨⟨z1, f1, f2⟩, f3⟩ := hfinds l hl (oneTurnF_of_stop g1 htl hsm) z hz hzl
          obtain ⟨q1, q2⟩ := mem_newtonResultsF g2
          refine .inr ⟨q1.ge, z, hz, hzr, ?_⟩
          rcases q2 with q | ⟨df, hdf, q⟩
          · rw [f1] at q
            cases q
            exact f2
          · obtain ⟨z2, f4, f5⟩ := f3 df hdf
            rw [f4] at q
            cases q
            exact f5
      · rw [if_neg htl] at g2
        simp at g2

/-- C153: with exact arithmetic the model is that of the other theorems about searches with the Newton variant -/
theorem C153_exact (nt : NewtonSolver K) (est : LineEst σ K) (pi : K) (limit : ℕ) (ctx : RCtx K) :
    simpleArgumentNewtonF ⟨id, fun p => (10 : K) ^ (-p)⟩ nt est pi limit ctx = simpleArgumentNewton nt est pi limit ctx :=
  newtonF_exact nt est pi limit ctx

/-! ## C154 -/

/-- C154 (partial: needs machine numbers fine enough). Let the search rectangle reach no further than `R` from the axes, where `8 * u * R` is at most the computed `10 ** (-p)`, and let its width and height be
below `2^m` and `2^n` times a quarter of it. With every recursion limit above `m + n` the search with the Newton variant does the same, whatever the solver does; it fails with `RecursionError` only if the
estimator does; and without interrupt it returns, if the estimator does: a `RuntimeError` of the solver does not leave the search. -/
theorem C154_returns_partial (A : FloatOps K) (u : K) (hA : Rounds A.fl u) (nt : NewtonSolver K) (est : LineEst σ K) (pi : K) (ctx : RCtx K)
    (hp : GoodPow A ctx.precision) (hm : Cell.Machine A.fl ⟨ctx.reRan, ctx.imRan, 0⟩) (hre : ctx.reRan.1 ≤ ctx.reRan.2) (him : ctx.imRan.1 ≤ ctx.imRan.2) (R : K)
    (hR : Cell.Within R ⟨ctx.reRan, ctx.imRan, 0⟩) (hR1 : 8 * u * R ≤ A.pow10 ctx.precision.1) (hR2 : 8 * u * R ≤ A.pow10 ctx.precision.2) (m n : ℕ)
    (hwidth : ctx.reRan.2 - ctx.reRan.1 < 2 ^ m * (A.pow10 ctx.precision.1 / 4)) (hheight : ctx.imRan.2 - ctx.imRan.1 < 2 ^ n * (A.pow10 ctx.precision.2 / 4)) (limit : ℕ) (hl : m + n < limit) :
    (∀ limit', m + n < limit' → simpleArgumentNewtonF A nt est pi limit' ctx = simpleArgumentNewtonF A nt est pi limit ctx) ∧
    ((∀ order a b w, (est order a b ctx w).1 ≠ .error .recursionError) → ∀ w, (simpleArgumentNewtonF A nt est pi limit ctx w).1 ≠ .error .recursionError) ∧
    (BoundaryHits est ctx → (∀ order a b w, ∃ v, (est order a b ctx w).1 = .ok v) → ∀ w, w.fuse = none → (simpleArgumentNewtonF A nt est pi limit ctx w).1 = .ok ()) := by
  have hu := hA.u_nonneg
  have hR0 : 0 ≤ R := le_trans (abs_nonneg _) hR.1.1
  have hδ : 0 ≤ u * R := mul_nonneg hu hR0
  have hb : ∀ phi, BelowF A ctx.precision (u * R) m n ⟨ctx.reRan, ctx.imRan, phi⟩ := by
    intro phi
    have p1 : (0 : K) < 2 ^ m := by positivity
    have p2 : (0 : K) < 2 ^ n := by positivity
    have q1 : A.pow10 ctx.precision.1 / 4 ≤ A.pow10 ctx.precision.1 / 2 - 2 * (u * R) := by linarith
    have q2 : A.pow10 ctx.precision.2 / 4 ≤ A.pow10 ctx.precision.2 / 2 - 2 * (u * R) := by linarith
    have r1 := mul_le_mul_of_nonneg_left q1 p1.le
    have r2 := mul_le_mul_of_nonneg_left q2 p2.le
    exact ⟨by dsimp only; linarith, by dsimp only; linarith⟩
  have hnever : (∀ order a b w, (est order a b ctx w).1 ≠ .error .recursionError) → Never .recursionError (simpleArgumentNewtonF A nt est pi limit ctx) := by
    intro hest
    unfold simpleArgumentNewtonF
    refine Never.bind (fun w => by simp [resetCache]) fun _ => ?_
    refine Never.bind (phaseOfF_never hest _ _) fun phi => ?_
    exact dispatchG_never hA (newtonF_stops A nt est pi ctx) newtonStopF_small (fun c => (newtonActF_calm A nt pi ctx c).2) hp hest limit m n ⟨ctx.reRan, ctx.imRan, phi⟩ ⟨hm, hre, him⟩ hR (hb phi) hl
  refine ⟨?_, hnever, fun hits hret w hw => ?_⟩
  · intro limit' hl'
    unfold simpleArgumentNewtonF
    congr 1
    funext _
    congr 1
    funext phi
    exact dispatchG_limit hA (newtonF_stops A nt est pi ctx) newtonStopF_small hp limit' limit m n ⟨ctx.reRan, ctx.imRan, phi⟩ ⟨hm, hre, him⟩ hR (hb phi) hl' hl
  · have hcalm : ∀ order a b, CalmF (est order a b ctx) := by
      intro order a b w hw
      refine ⟨(hits order a b w).2.2.1 hw, fun e he => ?_⟩
      obtain ⟨v, hv⟩ := hret order a b w
      rw [hv] at he; cases he
    have h1 := (newtonF_calm (A := A) (pi := pi) nt hcalm limit w hw).2
    have h2 := hnever (fun order a b w h => by obtain ⟨v, hv⟩ := hret order a b w; rw [hv] at h; cases h) w
    rcases hr : (simpleArgumentNewtonF A nt est pi limit ctx w).1 with e | v
    · rw [h1 e hr] at hr
      exact absurd hr h2
    · rfl

/-- C154: the rest of the property is false of the code. Let the machine numbers around the real (or imaginary) part of a zero be, in the arithmetic used, not closer together than the computed `10 ** (-p)`,
and let no machine rectangle containing the zero pass the test for starting Newton's method (the zero is multiple, or its neighbours are further apart than 0.1). Then the search with the Newton variant never returns, for
any recursion limit; if the estimator does not fail and no interrupt comes, it ends with `RecursionError`. -/
theorem C154_too_fine (A : FloatOps K) (u : K) (hA : Rounds A.fl u) (nt : NewtonSolver K) (est : LineEst σ K) (pi : K) (ctx : RCtx K)
    (hest : BoundaryHits est ctx) (hm : Cell.Machine A.fl ⟨ctx.reRan, ctx.imRan, 0⟩) (zeros : List (Cx K))
    (L : ℤ → Cx K → Cx K → Cx K) (hs : SeesZeros A est ctx pi zeros L) (z : Cx K) (hz : z ∈ zeros) (hin : Cell.HasHalfOpen ⟨ctx.reRan, ctx.imRan, 0⟩ z)
    (hgap : (∀ a b, Machine A.fl a → Machine A.fl b → a ≤ z.re → z.re ≤ b → A.pow10 ctx.precision.1 ≤ A.fl (b - a)) ∨
      ∀ a b, Machine A.fl a → Machine A.fl b → a ≤ z.im → z.im ≤ b → A.pow10 ctx.precision.2 ≤ A.fl (b - a))
    (hno : ∀ c, Cell.Machine A.fl c → Cell.HasHalfOpen c z → c.phi = phaseAround A L c → ¬ Cell.OneTurnF A pi c) (limit : ℕ) (w : World σ K) :
    (simpleArgumentNewtonF A nt est pi limit ctx w).1 ≠ .ok () ∧
    (w.fuse = none → (∀ order a b w, ∃ v, (est order a b ctx w).1 = .ok v) → (simpleArgumentNewtonF A nt est pi limit ctx w).1 = .error .recursionError) := by
  have hok : OkCell A ⟨ctx.reRan, ctx.imRan, 0⟩ := ⟨hm, le_trans hin.1 hin.2.1.le, le_trans hin.2.2.1 hin.2.2.2.le⟩
  have h1 : (simpleArgumentNewtonF A nt est pi limit ctx w).1 ≠ .ok () := by
    intro hr
    obtain ⟨w', h⟩ : ∃ w', simpleArgumentNewtonF A nt est pi limit ctx w = (.ok (), w') := ⟨_, Prod.ext hr rfl⟩
    have ht := newtonF_turns hA hest hok hs h
    obtain ⟨g1, _, g3⟩ := newtonF_run hA nt hest limit hok w w' h
    obtain ⟨l, hl, k1, k2, _⟩ := g3 _ (splits_halfOpen ctx.precision z) fun _ => hin
    obtain ⟨_, ⟨⟨m1, m2⟩, m3, m4⟩, _⟩ := g1 l hl
    have h3 := newtonF_tells (A := A) (pi := pi) nt hs.reverse hest hs.value limit w
    rw [h] at h3
    have hsm : SmallF A ctx.precision l := by
      by_contra hsm
      exact hno l ⟨⟨m1, m2⟩, m3, m4⟩ k1 (h3 l hl) (oneTurnF_of_stop k2 ((ht l hl).2 ⟨z, hz, k1⟩) hsm)
    rcases hgap with hg | hg
    · exact absurd hsm.1 (not_lt.2 (hg _ _ m1 m2 k1.1 k1.2.1.le))
    · exact absurd hsm.2 (not_lt.2 (hg _ _ m3 m4 k1.2.2.1 k1.2.2.2.le))
  refine ⟨h1, fun hf hret => ?_⟩
  have hcalm : ∀ order a b, CalmF (est order a b ctx) := by
    intro order a b w hw
    refine ⟨(hest order a b w).2.2.1 hw, fun e he => ?_⟩
    obtain ⟨v, hv⟩ := hret order a b w
    rw [hv] at he; cases he
  have h2 := (newtonF_calm (A := A) (pi := pi) nt hcalm limit w hf).2
  rcases hr : (simpleArgumentNewtonF A nt est pi limit ctx w).1 with e | v
  · rw [h2 e hr]
  · exact absurd hr h1

/-- C154: with Python floats this happens for every zero whose real part is not a machine number and, in absolute value, at least `2^53` times the computed `10 ** (-p)` and at least `2^53` times the computed `0.1`
(above `9.01e14`), whatever the solver does. -/
theorem C154_too_fine_double (nt : NewtonSolver K) (est : LineEst σ K) (pi : K) (ctx : RCtx K)
    (hest : BoundaryHits est ctx) (hm : Cell.Machine (double K).fl ⟨ctx.reRan, ctx.imRan, 0⟩) (zeros : List (Cx K))
    (L : ℤ → Cx K → Cx K → Cx K) (hs : SeesZeros (double K) est ctx pi zeros L) (z : Cx K) (hz : z ∈ zeros) (hin : Cell.HasHalfOpen ⟨ctx.reRan, ctx.imRan, 0⟩ z)
    (hx : ¬ Machine (double K).fl z.re) (hfar : 2 ^ 53 * (double K).pow10 ctx.precision.1 ≤ |z.re|) (hfar' : 2 ^ 53 * (double K).fl (1 / 10) ≤ |z.re|) (limit : ℕ) (w : World σ K) :
    (simpleArgumentNewtonF (double K) nt est pi limit ctx w).1 ≠ .ok () ∧
    (w.fuse = none → (∀ order a b w, ∃ v, (est order a b ctx w).1 = .ok v) → (simpleArgumentNewtonF (double K) nt est pi limit ctx w).1 = .error .recursionError) := by
  have key : ∀ e : K, Machine (double K).fl e → 2 ^ 53 * e ≤ |z.re| →
      ∀ a b, Machine (double K).fl a → Machine (double K).fl b → a ≤ z.re → z.re ≤ b → e ≤ (double K).fl (b - a) := by
    intro e he hq a b ha hb hax hxb
    have h1 : (2 : K) ^ expo 53 z.re ≤ b - a := flBin_gap (by norm_num) hx ha hb hax hxb
    have h2 := lt_expo 53 z.re
    have h3 : e ≤ 2 ^ expo 53 z.re := by
      have : (2 : K) ^ 53 * e < 2 ^ 53 * 2 ^ expo 53 z.re := by
        refine lt_of_le_of_lt hq ?_
        exact_mod_cast h2
      exact (lt_of_mul_lt_mul_left this (by positivity)).le
    have h4 := (double_rounds (K := K)).mono _ _ (le_trans h3 h1)
    rwa [he] at h4
  refine C154_too_fine (double K) _ double_rounds nt est pi ctx hest hm zeros L hs z hz hin (.inl (key _ (double_pow _).1 hfar)) ?_ limit w
  rintro c ⟨⟨m1, m2⟩, _⟩ hc _ ⟨_, _, h, _⟩
  exact absurd h (not_lt.2 (key _ (double_rounds.idem _) hfar' _ _ m1 m2 hc.1 hc.2.1.le))

/-! ### examples -/

/-- the search of C104 with precision `(2, 3)` -/
def thirdNewton : RCtx ℚ := { thirdSearch with precision := (2, 3) }

/-- a solver which finds the zero up to `10^-4` -/
def thirdSolver : NewtonSolver ℚ := ⟨fun _ _ _ _ => some ⟨3333 / 10000, 6667 / 10000⟩, fun _ _ _ _ => none, fun _ _ _ => none⟩

/-- non-vacuity of C153: the search completes; it starts the solver for a rectangle with sides `1/16` -/
example : (simpleArgumentNewtonF (double ℚ) thirdSolver (crossEst 3 [⟨1 / 3, 2 / 3⟩]) 3 20 thirdNewton exWorld).1 = .ok () := by decide +kernel
example : (simpleArgumentNewtonF (double ℚ) thirdSolver (crossEst 3 [⟨1 / 3, 2 / 3⟩]) 3 20 thirdNewton exWorld).2.added = [(⟨3333 / 10000, 6667 / 10000⟩, 1)] := by decide +kernel
example : ∃ c ∈ (simpleArgumentNewtonF (double ℚ) thirdSolver (crossEst 3 [⟨1 / 3, 2 / 3⟩]) 3 20 thirdNewton exWorld).2.log, Cell.OneTurnF (double ℚ) 3 c := by decide +kernel
example : SeesZeros (double ℚ) (crossEst 3 [⟨1 / 3, 2 / 3⟩]) thirdNewton 3 [⟨1 / 3, 2 / 3⟩] (crossLine 3 [⟨1 / 3, 2 / 3⟩]) :=
  crossEst_sees double_rounds (by norm_num) (by unfold Machine; decide +kernel) _ _
example (c : Cell ℚ) : FindsF (double ℚ) thirdSolver thirdNewton c ⟨1 / 3, 2 / 3⟩ :=
  ⟨⟨_, rfl, by unfold Near; decide +kernel⟩, fun df h => by cases h⟩

/-- non-vacuity of C154, for doubles and any solver -/
example (nt : NewtonSolver ℚ) (w : World Unit ℚ) (hw : w.fuse = none) : (simpleArgumentNewtonF (double ℚ) nt (crossEst 3 [⟨1 / 3, 2 / 3⟩]) 3 24 thirdNewton w).1 = .ok () :=
  (C154_returns_partial (double ℚ) _ double_rounds nt (crossEst 3 [⟨1 / 3, 2 / 3⟩]) 3 thirdNewton (double_good _) (by unfold Cell.Machine Machine; decide +kernel) (by decide +kernel) (by decide +kernel)
    1 (by unfold Cell.Within; decide +kernel) (by decide +kernel) (by decide +kernel) 9 13 (by decide +kernel) (by decide +kernel) 24 (by norm_num)).2.2
    (crossEst_hits 3 [⟨1 / 3, 2 / 3⟩] thirdNewton) (fun _ _ _ _ => ⟨_, rfl⟩) w hw

/-- the zero `10^15 + 1/3 + i/3` in `[10^15, 10^15 + 1] x [0, 1]` with precision `(3, 3)` -/
def farNewton : RCtx ℚ :=
  { f := fun z => z - ⟨10 ^ 15 + 1 / 3, 1 / 3⟩, df := none, precision := (3, 3), reRan := (10 ^ 15, 10 ^ 15 + 1), imRan := (0, 1) }

/-- this search fails with every solver and every recursion limit -/
theorem farNewton_fails (nt : NewtonSolver ℚ) (limit : ℕ) :
    (simpleArgumentNewtonF (double ℚ) nt (crossEst 3 [⟨10 ^ 15 + 1 / 3, 1 / 3⟩]) 3 limit farNewton exWorld).1 = .error .recursionError :=
  (C154_too_fine_double nt (crossEst 3 [⟨10 ^ 15 + 1 / 3, 1 / 3⟩]) 3 farNewton (crossEst_hits _ _ _)
    (by unfold Cell.Machine Machine; decide +kernel) [⟨10 ^ 15 + 1 / 3, 1 / 3⟩] _
    (crossEst_sees double_rounds (by norm_num) (by unfold Machine; decide +kernel) _ _) ⟨10 ^ 15 + 1 / 3, 1 / 3⟩ (by simp)
    (by decide +kernel) (by unfold Machine; decide +kernel) (by decide +kernel) (by decide +kernel) limit exWorld).2 rfl (fun o a b w => ⟨_, rfl⟩)

end

/-! ## C153 with scipy's solver -/

/-- C153, solver. If the derivative is steady and the computed operations are accurate near the zero of a rectangle with sides computed as below 0.1, then scipy's solver, started from the computed start points, finds this zero. -/
theorem C153_solver (A : FloatOps ℝ) (u : ℝ) (hA : Rounds A.fl u) (O : SolverOps ℝ) (arr) (ctx : RCtx ℝ) (df : Cx ℝ → Cx ℝ) (hdf : ctx.df = some df) (hp : GoodPow A ctx.precision)
    (htol : 1 / 2 ≤ 10 ^ 17 * tolF A ctx.precision) (c : Cell ℝ) (hm : Cell.Machine A.fl c) (s1 : A.fl (c.re.2 - c.re.1) < A.fl (1 / 10)) (s2 : A.fl (c.im.2 - c.im.1) < A.fl (1 / 10))
    (z : Cx ℝ) (hz : Cell.Has c z) (h : TameAt A O ctx.f df ctx.precision c z) : FindsF A (roundedSolver O arr) ctx c z := by
  obtain ⟨κ, k1, k2, k3, k4⟩ := h
  obtain ⟨z1, z2, z3, z4⟩ := hz
  obtain ⟨⟨m1, m2⟩, m3, m4⟩ := hm
  obtain ⟨a1, a2⟩ := hA.le_mid m1 m2 (z1.trans z2)
  obtain ⟨b1, b2⟩ := hA.le_mid m3 m4 (z3.trans z4)
  have t0 : 0 < tolF A ctx.precision := lt_min hp.1.2 hp.2.2
  have t1 : tolF A ctx.precision ≤ A.pow10 ctx.precision.1 := min_le_left _ _
  have t2 : tolF A ctx.precision ≤ A.pow10 ctx.precision.2 := min_le_right _ _
  have hfl : A.fl (1 / 10) ≤ 1 / 8 := by
    have h := (abs_le.1 (hA.near (1 / 10))).2
    have := hA.u_small
    rw [abs_of_pos (by norm_num)] at h
    linarith
  have d1 := hA.lt_of_fl_lt (hA.idem (1 / 10)) s1
  have d2 := hA.lt_of_fl_lt (hA.idem (1 / 10)) s2
  unfold FindsF
  have hcre : c.re.1 ≤ (Cell.centreF A c).re ∧ (Cell.centreF A c).re ≤ c.re.2 := ⟨a1, a2⟩
  have hcim : c.im.1 ≤ (Cell.centreF A c).im ∧ (Cell.centreF A c).im ≤ c.im.2 := ⟨b1, b2⟩
  have eta : Cell.centreF A c = ⟨(Cell.centreF A c).re, (Cell.centreF A c).im⟩ := rfl
  generalize (Cell.centreF A c).re = x at *
  generalize (Cell.centreF A c).im = y at *
  obtain ⟨x1, x2⟩ := hcre
  obtain ⟨y1, y2⟩ := hcim
  generalize tolF A ctx.precision = tol at *
  have hn : ∀ z', ‖point z' - point z‖ ≤ 24 / 25 * tol → Near (A.pow10 ctx.precision.1, A.pow10 ctx.precision.2) z' z := fun z' hz' =>
    near_symm (near_of_dist hz' (by dsimp only; linarith) (by dsimp only; linarith))
  constructor
  · have d0 : ‖point (⟨c.re.1, y⟩ : Cx ℝ) - point z‖ ≤ (z.re - c.re.1) + (c.im.2 - c.im.1) :=
      dist_of_coords (by dsimp only; rw [abs_le]; constructor <;> linarith) (by dsimp only; rw [abs_le]; constructor <;> linarith)
    have d1 : ‖point (⟨c.re.2, y⟩ : Cx ℝ) - point z‖ ≤ (c.re.2 - z.re) + (c.im.2 - c.im.1) :=
      dist_of_coords (by dsimp only; rw [abs_le]; constructor <;> linarith) (by dsimp only; rw [abs_le]; constructor <;> linarith)
    have d2 : ‖point (⟨c.re.2, y⟩ : Cx ℝ) - point ⟨c.re.1, y⟩‖ = c.re.2 - c.re.1 := by
      have e : point (⟨c.re.2, y⟩ : Cx ℝ) - point ⟨c.re.1, y⟩ = ((c.re.2 - c.re.1 : ℝ) : ℂ) := by
        apply Complex.ext <;> simp [point]
      rw [e, Complex.norm_real, Real.norm_eq_abs, abs_of_nonneg (by linarith)]
    obtain ⟨z', a1, a2⟩ := C150_secant O arr ctx.f df z _ tol κ k3 k4 t0 (by linarith) ⟨c.re.1, y⟩ ⟨c.re.2, y⟩ (by linarith) (by linarith)
      (by rw [d2]; linarith) (by rw [d2]; linarith)
    exact ⟨z', a1, hn z' a2⟩
  · intro df' hdf'
    rw [hdf] at hdf'
    cases hdf'
    obtain ⟨z', a1, a2⟩ := C150_newton O arr ctx.f df z _ tol κ k3 k4 t0 (by linarith) (Cell.centreF A c)
      ((dist_of_coords (a := c.re.2 - c.re.1) (b := c.im.2 - c.im.1) (by rw [eta, abs_le]; constructor <;> dsimp only <;> linarith)
        (by rw [eta, abs_le]; constructor <;> dsimp only <;> linarith)).trans (by linarith))
    exact ⟨z', a1, hn z' (by linarith)⟩

/-- C153, the whole search with rounding errors: bisection in floating-point arithmetic, scipy's solver with computed operations, a derivative, an estimator which sees the zeros. If near the zeros in the
rectangles for which the solver is started the derivative is steady and the computed operations are accurate, then a completed search hands over, for every zero in the search rectangle, a root of order at least 1 within the computed
`10 ** (-p)`, and everything handed over (except for exact zeros met on a boundary) is that close to a zero. -/
theorem C153_rounded {σ : Type} (A : FloatOps ℝ) (u : ℝ) (hA : Rounds A.fl u) (O : SolverOps ℝ) (arr) (est : LineEst σ ℝ) (pi : ℝ) (hpi : 0 < pi) (limit : ℕ) (ctx : RCtx ℝ)
    (df : Cx ℝ → Cx ℝ) (hdf : ctx.df = some df) (hest : BoundaryHits est ctx) (hp : GoodPow A ctx.precision) (htol : 1 / 2 ≤ 10 ^ 17 * tolF A ctx.precision)
    (hm : Cell.Machine A.fl ⟨ctx.reRan, ctx.imRan, 0⟩) (hre : ctx.reRan.1 ≤ ctx.reRan.2) (him : ctx.imRan.1 ≤ ctx.imRan.2) (zeros : List (Cx ℝ)) (L : ℤ → Cx ℝ → Cx ℝ → Cx ℝ)
    (hs : SeesZeros A est ctx pi zeros L) (w w' : World σ ℝ) (h : simpleArgumentNewtonF A (roundedSolver O arr) est pi limit ctx w = (.ok (), w'))
    (htame : ∀ c ∈ newCells w w', Cell.OneTurnF A pi c → ∀ z ∈ zeros, Cell.HasHalfOpen c z → TameAt A O ctx.f df ctx.precision c z) :
    (∀ z ∈ zeros, Cell.HasHalfOpen ⟨ctx.reRan, ctx.imRan, 0⟩ z → ∃ r ∈ newRoots w w', 1 ≤ r.2 ∧
      Near (A.pow10 ctx.precision.1, A.pow10 ctx.precision.2) r.1 z) ∧
    ∀ r ∈ newRoots w w', (r.2 = 0 ∧ ctx.f r.1 = 0) ∨ 1 ≤ r.2 ∧ ∃ z ∈ zeros, Cell.HasHalfOpen ⟨ctx.reRan, ctx.imRan, 0⟩ z ∧ Near (A.pow10 ctx.precision.1, A.pow10 ctx.precision.2) r.1 z := by
  obtain ⟨h1, _⟩ := newtonF_run hA (roundedSolver O arr) hest limit ⟨hm, hre, him⟩ w w' h
  exact C153_conforming A u hA (roundedSolver O arr) est pi hpi limit ctx hest hp hm hre him zeros L hs w w' h fun c hc ho z hz hcz =>
    C153_solver A u hA O arr ctx df hdf hp htol c (h1 c hc).2.1 ho.2.2.1 ho.2.2.2 z (has_of_halfOpen hcz) (htame c hc ho z hz hcz)

/-! ### example -/

/-- if a search stops at its first rectangle, this is the only one -/
theorem newtonF_first {K σ : Type} [Field K] [LinearOrder K] [IsStrictOrderedRing K] [FloorRing K] {A : FloatOps K} {u : K} (hA : Rounds A.fl u) {nt : NewtonSolver K} {est : LineEst σ K} {pi : K} {ctx : RCtx K}
    (hest : BoundaryHits est ctx) (hok : OkCell A ⟨ctx.reRan, ctx.imRan, 0⟩) {limit : ℕ} {w w' : World σ K} (h : simpleArgumentNewtonF A nt est pi limit ctx w = (.ok (), w')) :
    ∃ phi L, newCells w w' = ⟨ctx.reRan, ctx.imRan, phi⟩ :: L ∧ (newtonStopF A pi ctx.precision ⟨ctx.reRan, ctx.imRan, phi⟩ → L = []) := by
  unfold simpleArgumentNewtonF resetCache at h
  rw [Py.bind_run, Py.modify_run] at h
  dsimp only at h
  generalize hw0 : (if w.cache.dirty = true then { w with cache := w.cache.reset } else w) = w0 at h
  have g1 : w0.log = w.log := by rw [← hw0]; split <;> rfl
  rw [Py.bind_run] at h
  rcases hp : phaseOfF A est ctx.reRan ctx.imRan ctx w0 with ⟨_ | phi, w1⟩ <;> rw [hp] at h
  · simp at h
  dsimp only at h
  obtain ⟨a1, _⟩ := phaseOfF_ok hest hp
  have h : (dispatch (newtonDecideF A nt est pi) limit).at ctx ⟨ctx.reRan, ctx.imRan, phi⟩ w1 = (.ok (), w') := h
  by_cases hs : newtonStopF A pi ctx.precision ⟨ctx.reRan, ctx.imRan, phi⟩
  · rcases limit with _ | limit
    · simp [dispatch, Decide.at] at h
    have h : (newtonDecideF A nt est pi (dispatch (newtonDecideF A nt est pi) limit)).at ctx ⟨ctx.reRan, ctx.imRan, phi⟩ w1 = (.ok (), w') := h
    rw [(newtonF_stops A nt est pi ctx _ _).1 hs] at h
    obtain ⟨b1, _⟩ := newtonF_acts A nt pi ctx _ _ _ hs h
    exact ⟨phi, [], by unfold newCells; rw [b1, a1, g1]; simp, fun _ => rfl⟩
  · obtain ⟨L, _, b1, _⟩ := dispatchG_run hA hest (newtonF_stops A nt est pi ctx) (newtonF_acts A nt pi ctx) limit ⟨ctx.reRan, ctx.imRan, phi⟩ hok w1 w' h
    exact ⟨phi, L, by unfold newCells; rw [b1, a1, g1]; simp, fun h => absurd h hs⟩

/-- exact arithmetic rounds -/
theorem id_rounds {K : Type} [Field K] [LinearOrder K] [IsStrictOrderedRing K] : Rounds (id : K → K) 0 where
  mono := fun _ _ h => h
  idem := fun _ => rfl
  double := fun _ => rfl
  one := rfl
  near := fun x => by simp
  quot := fun a b ha hab _ _ => by
    have hb : 0 < b := lt_of_le_of_lt ha hab
    exact (div_lt_one hb).2 hab
  u_nonneg := le_rfl
  u_small := by norm_num

/-- search for the zero of `z * exp(z)` in a small square around 0, with precision `(3, 3)` -/
noncomputable def zexpNewton : RCtx ℝ :=
  { f := zexp, df := some dzexp, precision := (3, 3), reRan := (-3 / 1000, 3 / 1000), imRan := (-3 / 1000, 3 / 1000) }

/-- non-vacuity of `C153_rounded`: exact bisection, scipy's solver with the computed operations `wobbly`; the search returns and hands over a root near the zero 0 -/
example (w : World Unit ℝ) (hw : w.fuse = none) :
    ∃ w', simpleArgumentNewtonF ⟨id, fun p => (10 : ℝ) ^ (-p)⟩ (roundedSolver wobbly fun _ _ => none) (crossEst 3 [0]) 3 12 zexpNewton w = (.ok (), w') ∧
      ∃ r ∈ newRoots w w', 1 ≤ r.2 ∧ Near (1 / 1000, 1 / 1000) r.1 0 := by
  have e3 : (10 : ℝ) ^ (-(3 : ℤ)) = 1 / 1000 := by norm_num
  have hp : GoodPow (⟨id, fun p => (10 : ℝ) ^ (-p)⟩ : FloatOps ℝ) zexpNewton.precision := ⟨⟨rfl, zpow_pos (by norm_num) _⟩, rfl, zpow_pos (by norm_num) _⟩
  have hm : Cell.Machine (id : ℝ → ℝ) ⟨zexpNewton.reRan, zexpNewton.imRan, 0⟩ := ⟨⟨rfl, rfl⟩, rfl, rfl⟩
  have hre : zexpNewton.reRan.1 ≤ zexpNewton.reRan.2 := by simp only [zexpNewton]; norm_num
  have him : zexpNewton.imRan.1 ≤ zexpNewton.imRan.2 := by simp only [zexpNewton]; norm_num
  have hhits := crossEst_hits (3 : ℝ) [0] zexpNewton
  have htol : tolF (⟨id, fun p => (10 : ℝ) ^ (-p)⟩ : FloatOps ℝ) zexpNewton.precision = 1 / 1000 := by
    unfold tolF zexpNewton
    dsimp only
    rw [min_self, e3]
  have hsee : SeesZeros (⟨id, fun p => (10 : ℝ) ^ (-p)⟩ : FloatOps ℝ) (crossEst 3 [0]) zexpNewton 3 [0] (crossLine 3 [0]) :=
    crossEst_sees (A := (⟨id, fun p => (10 : ℝ) ^ (-p)⟩ : FloatOps ℝ)) id_rounds (by norm_num) rfl _ _
  have hrun := (C154_returns_partial (⟨id, fun p => (10 : ℝ) ^ (-p)⟩ : FloatOps ℝ) 0 id_rounds (roundedSolver wobbly fun _ _ => none) (crossEst 3 [0]) 3 zexpNewton hp hm hre him 1
    (by unfold Cell.Within zexpNewton; norm_num [abs_le]) (by simp only [mul_zero, zero_mul]; exact hp.1.2.le) (by simp only [mul_zero, zero_mul]; exact hp.2.2.le) 5 5
    (by simp only [zexpNewton, e3]; norm_num) (by simp only [zexpNewton, e3]; norm_num) 12 (by norm_num)).2.2 hhits (fun _ _ _ _ => ⟨_, rfl⟩) w hw
  rcases hr : simpleArgumentNewtonF ⟨id, fun p => (10 : ℝ) ^ (-p)⟩ (roundedSolver wobbly fun _ _ => none) (crossEst 3 [0]) 3 12 zexpNewton w with ⟨o, w'⟩
  rw [hr] at hrun
  dsimp only at hrun
  subst hrun
  refine ⟨w', rfl, ?_⟩
  have hcell : ∀ c ∈ newCells w w', c.re = (-3 / 1000, 3 / 1000) ∧ c.im = (-3 / 1000, 3 / 1000) := by
    obtain ⟨phi, L, h1, h2⟩ := newtonF_first id_rounds hhits ⟨hm, hre, him⟩ hr
    have h3 := newtonF_tells (A := (⟨id, fun p => (10 : ℝ) ^ (-p)⟩ : FloatOps ℝ)) (pi := 3) (roundedSolver wobbly fun _ _ => none) hsee.reverse hhits hsee.value 12 w
    rw [hr] at h3
    have h4 := h3 ⟨zexpNewton.reRan, zexpNewton.imRan, phi⟩ (by dsimp only; rw [h1]; exact List.mem_cons_self)
    have h5 := congrArg Cx.re ((crossEst_conforming (3 : ℝ) [0] zexpNewton).around 0 ⟨zexpNewton.reRan, zexpNewton.imRan, 0⟩
      ⟨le_refl _, hre, le_refl _, le_refl _, him, le_refl _⟩)
    have hin : Cell.inside ⟨zexpNewton.reRan, zexpNewton.imRan, 0⟩ ([0] : List (Cx ℝ)) = [0] := by
      unfold Cell.inside
      rw [List.filter_cons_of_pos]
      · rfl
      · have : Cell.HasHalfOpen ⟨zexpNewton.reRan, zexpNewton.imRan, 0⟩ (0 : Cx ℝ) := by
          unfold Cell.HasHalfOpen zexpNewton
          simp only [Cx.zero_re, Cx.zero_im]
          norm_num
        simpa using this
    rw [hin] at h5
    have h6 : phi = 6 := by
      unfold phaseAround at h4
      simp only [id, zero_add] at h4
      rw [h4]
      simp only [Cx.add_re, Nat.cast_zero] at h5
      rw [h5]
      simp [Cx.ofK]
      norm_num
    have hstop : newtonStopF (⟨id, fun p => (10 : ℝ) ^ (-p)⟩ : FloatOps ℝ) 3 zexpNewton.precision ⟨zexpNewton.reRan, zexpNewton.imRan, phi⟩ := by
      right
      rw [h6]
      unfold Cell.OneTurnF zexpNewton
      simp only [id]
      norm_num
    intro c hc
    rw [h1, h2 hstop, List.mem_singleton] at hc
    subst hc
    exact ⟨rfl, rfl⟩
  obtain ⟨h1, _⟩ := C153_rounded (⟨id, fun p => (10 : ℝ) ^ (-p)⟩ : FloatOps ℝ) 0 id_rounds wobbly (fun _ _ => none) (crossEst 3 [0]) 3 (by norm_num) 12 zexpNewton dzexp rfl hhits hp
    (by rw [htol]; norm_num) hm hre him [0] (crossLine 3 [0]) hsee w w' hr (by
      intro c hc _ z hz _
      rw [List.mem_singleton] at hz
      subst hz
      obtain ⟨c1, c2⟩ := hcell c hc
      unfold TameAt
      rw [htol, c1, c2]
      refine ⟨4, ?_, ?_, ?_, ?_⟩
      · norm_num
      · norm_num
      · exact zexp_steady _ (by norm_num)
      · exact wobbly_accurate (by norm_num) (by norm_num) (by norm_num) le_rfl (by norm_num))
  obtain ⟨r, r1, r2, r3⟩ := h1 0 (by simp) (by unfold Cell.HasHalfOpen zexpNewton; simp only [Cx.zero_re, Cx.zero_im]; norm_num)
  refine ⟨r, r1, r2, ?_⟩
  have : zexpNewton.precision = (3, 3) := rfl
  rw [this] at r3
  dsimp only at r3
  rwa [e3] at r3

end PyZeal.Props
