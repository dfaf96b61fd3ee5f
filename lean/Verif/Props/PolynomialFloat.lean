import Verif.Proof.PolynomialFloat
import Verif.Props.NewtonFloat

/-! # Properties C156 and C157: the associated-polynomial variant in floating-point arithmetic -/

set_option linter.unusedSectionVars false

namespace PyZeal.Props
open Spec
section
variable {K : Type} {σ : Type} [Field K] [LinearOrder K] [IsStrictOrderedRing K] [FloorRing K]

theorem fewTurnsF_of_stop {A : FloatOps K} {pi : K} {p : ℤ × ℤ} {c : Cell K} (hs : polyStopF A pi p c) (ht : Cell.TurnsF A pi c) (hn : ¬ SmallF A p c) : Cell.FewTurnsF A pi c := by
  rcases hs with (h | h) | h
  · exact absurd ht h
  · exact absurd h hn
  · exact h

/-- C156. Let a search with the associated-polynomial variant complete, with an estimator with fixed values. Let every rectangle looked at which contains the point `z` turn, and let, for those with a
phase below `MAX_PHASE`, the polynomial of the computed moments have a computed root of order at least 1 within the computed `10 ** (-p)` of `z`. Then a root of order at least 1 that close to `z` is handed to the container. -/
theorem C156_no_zero_lost (A : FloatOps K) (u : K) (hA : Rounds A.fl u) (poly : List (Cx K) → ℤ × ℤ → List (Root K)) (est : LineEst σ K) (pi : K) (hpi : 0 < pi) (limit : ℕ) (ctx : RCtx K)
    (hest : BoundaryHits est ctx) (V : ℤ → Cx K → Cx K → Cx K) (hV : FixedValues est ctx V) (hp : GoodPow A ctx.precision) (hm : Cell.Machine A.fl ⟨ctx.reRan, ctx.imRan, 0⟩) (w w' : World σ K)
    (h : associatedPolynomialF A poly est pi limit ctx w = (.ok (), w')) (z : Cx K) (hz : Cell.Has ⟨ctx.reRan, ctx.imRan, 0⟩ z)
    (hturns : ∀ c ∈ newCells w w', Cell.Has c z → Cell.TurnsF A pi c)
    (hfinds : ∀ c ∈ newCells w w', Cell.Has c z → Cell.FewTurnsF A pi c →
      ∃ r ∈ poly (momentsAround A pi V c) ctx.precision, 1 ≤ r.2 ∧ Near (A.pow10 ctx.precision.1, A.pow10 ctx.precision.2) r.1 z) :
    ∃ r ∈ newRoots w w', 1 ≤ r.2 ∧ Near (A.pow10 ctx.precision.1, A.pow10 ctx.precision.2) r.1 z := by
  have hok : OkCell A ⟨ctx.reRan, ctx.imRan, 0⟩ := ⟨hm, le_trans hz.1 hz.2.1, le_trans hz.2.2.1 hz.2.2.2⟩
  obtain ⟨h1, _, h3⟩ := polyF_run hA poly hest hV limit hok w w' h
  obtain ⟨l, hl, g1, g2, g3⟩ := h3 _ (splits_has hA ctx.precision z) fun _ => hz
  have ht := hturns l hl g1
  unfold polyOutF at g3
  rw [if_pos ht] at g3
  by_cases hs : SmallF A ctx.precision l
  · rw [if_pos hs] at g3
    exact ⟨_, g3 _ (List.mem_singleton.2 rfl), one_le_orderF hA hpi ht, candF_near hA hp (h1 l hl).1.2 hs g1⟩
  · rw [if_neg hs] at g3
    obtain ⟨r, r1, r2, r3⟩ := hfinds l hl g1 (fewTurnsF_of_stop g2 ht hs)
    exact ⟨r, g3 r r1, r2, r3⟩

/-- C156. Every rectangle a completed search looks at lies inside the search rectangle, has machine numbers as sides, and the phase used is the one computed from the values along its own sides. Everything handed to the
container is an exact zero met on a boundary (order 0), or the computed centre of a rectangle whose phase reached `TWO_PI` and whose sides are shorter than the computed `10 ** (-p)` (positive order), or one of the
roots computed from the moments of the orders 1 to the computed number of zeros of a rectangle with a phase between `TWO_PI` and `MAX_PHASE`. -/
theorem C156_inside (A : FloatOps K) (u : K) (hA : Rounds A.fl u) (poly : List (Cx K) → ℤ × ℤ → List (Root K)) (est : LineEst σ K) (pi : K) (hpi : 0 < pi) (limit : ℕ) (ctx : RCtx K)
    (hest : BoundaryHits est ctx) (V : ℤ → Cx K → Cx K → Cx K) (hV : FixedValues est ctx V) (hp : GoodPow A ctx.precision) (hm : Cell.Machine A.fl ⟨ctx.reRan, ctx.imRan, 0⟩)
    (hre : ctx.reRan.1 ≤ ctx.reRan.2) (him : ctx.imRan.1 ≤ ctx.imRan.2) (w w' : World σ K) (h : associatedPolynomialF A poly est pi limit ctx w = (.ok (), w')) :
    (∀ c ∈ newCells w w', Cell.In c ⟨ctx.reRan, ctx.imRan, 0⟩ ∧ Cell.Machine A.fl c ∧ c.phi = phaseAround A V c) ∧
    ∀ r ∈ newRoots w w', (r.2 = 0 ∧ ctx.f r.1 = 0) ∨ ∃ c ∈ newCells w w',
      (1 ≤ r.2 ∧ Cell.TurnsF A pi c ∧ r.1 = Cell.centreF A c ∧ c.re.2 - c.re.1 < A.pow10 ctx.precision.1 ∧ c.im.2 - c.im.1 < A.pow10 ctx.precision.2) ∨
      (Cell.FewTurnsF A pi c ∧ r ∈ poly (momentsAround A pi V c) ctx.precision) := by
  obtain ⟨h1, h2, _⟩ := polyF_run hA poly hest hV limit ⟨hm, hre, him⟩ w w' h
  refine ⟨fun c hc => ⟨(h1 c hc).1.1, (h1 c hc).1.2.1, (h1 c hc).2⟩, fun r hr => ?_⟩
  rcases h2 r hr with h | ⟨l, hl, g1, g2⟩
  · exact .inl h
  · refine .inr ⟨l, hl, ?_⟩
    unfold polyOutF at g2
    by_cases ht : Cell.TurnsF A pi l
    · rw [if_pos ht] at g2
      by_cases hs : SmallF A ctx.precision l
      · rw [if_pos hs, List.mem_singleton] at g2
        subst g2
        exact .inl ⟨one_le_orderF hA hpi ht, ht, rfl, hA.lt_of_fl_lt hp.1.1 hs.1, hA.lt_of_fl_lt hp.2.1 hs.2⟩
      · rw [if_neg hs] at g2
        exact .inr ⟨fewTurnsF_of_stop g1 ht hs, g2⟩
    · rw [if_neg ht] at g2
      simp at g2

/-- C156. With an estimator which sees the zeros of the function, and with computed polynomials whose computed roots have order at least 1 and are within the computed `10 ** (-p)` of zeros, a root for each zero in the
rectangle: a completed search hands, for every zero in the search rectangle, a root of order at least 1 that close to the container, and everything it hands over (except for exact zeros met on a boundary) is that close
to a zero. -/
theorem C156_conforming (A : FloatOps K) (u : K) (hA : Rounds A.fl u) (poly : List (Cx K) → ℤ × ℤ → List (Root K)) (est : LineEst σ K) (pi : K) (hpi : 0 < pi) (limit : ℕ) (ctx : RCtx K)
    (hest : BoundaryHits est ctx) (hp : GoodPow A ctx.precision) (hm : Cell.Machine A.fl ⟨ctx.reRan, ctx.imRan, 0⟩) (hre : ctx.reRan.1 ≤ ctx.reRan.2)
    (him : ctx.imRan.1 ≤ ctx.imRan.2) (zeros : List (Cx K)) (L : ℤ → Cx K → Cx K → Cx K) (hs : SeesZeros A est ctx pi zeros L) (w w' : World σ K)
    (h : associatedPolynomialF A poly est pi limit ctx w = (.ok (), w'))
    (hfinds : ∀ c ∈ newCells w w', Cell.FewTurnsF A pi c → ∀ z ∈ zeros, Cell.HasHalfOpen c z →
      ∃ r ∈ poly (momentsAround A pi L c) ctx.precision, 1 ≤ r.2 ∧ Near (A.pow10 ctx.precision.1, A.pow10 ctx.precision.2) r.1 z)
    (hsound : ∀ c ∈ newCells w w', Cell.FewTurnsF A pi c → ∀ r ∈ poly (momentsAround A pi L c) ctx.precision,
      1 ≤ r.2 ∧ ∃ z ∈ zeros, Cell.HasHalfOpen c z ∧ Near (A.pow10 ctx.precision.1, A.pow10 ctx.precision.2) r.1 z) :
    (∀ z ∈ zeros, Cell.HasHalfOpen ⟨ctx.reRan, ctx.imRan, 0⟩ z → ∃ r ∈ newRoots w w', 1 ≤ r.2 ∧
      Near (A.pow10 ctx.precision.1, A.pow10 ctx.precision.2) r.1 z) ∧
    ∀ r ∈ newRoots w w', (r.2 = 0 ∧ ctx.f r.1 = 0) ∨ 1 ≤ r.2 ∧ ∃ z ∈ zeros, Cell.HasHalfOpen ⟨ctx.reRan, ctx.imRan, 0⟩ z ∧
      Near (A.pow10 ctx.precision.1, A.pow10 ctx.precision.2) r.1 z := by
  have hok : OkCell A ⟨ctx.reRan, ctx.imRan, 0⟩ := ⟨hm, hre, him⟩
  obtain ⟨h1, h2, h3⟩ := polyF_run hA poly hest ⟨hs.reverse, hs.value⟩ limit hok w w' h
  have ht : ∀ c ∈ newCells w w', Cell.TurnsF A pi c ↔ ∃ z ∈ zeros, Cell.HasHalfOpen c z := by
    intro c hc
    obtain ⟨⟨g1, g2⟩, g3⟩ := h1 c hc
    rw [← hs.around c g1 g2.1, ← g3]
    rfl
  have hin : ∀ c ∈ newCells w w', ∀ z, Cell.HasHalfOpen c z → Cell.HasHalfOpen ⟨ctx.reRan, ctx.imRan, 0⟩ z := by
    intro c hc z hz
    obtain ⟨b1, _, b2, b3, _, b4⟩ := (h1 c hc).1.1
    exact ⟨b1.trans hz.1, hz.2.1.trans_le b2, b3.trans hz.2.2.1, hz.2.2.2.trans_le b4⟩
  constructor
  · intro z hz hzin
    obtain ⟨l, hl, g1, g2, g3⟩ := h3 _ (splits_halfOpen ctx.precision z) fun _ => hzin
    have htl := (ht l hl).2 ⟨z, hz, g1⟩
    unfold polyOutF at g3
    rw [if_pos htl] at g3
    by_cases hsm : SmallF A ctx.precision l
    · rw [if_pos hsm] at g3
      exact ⟨_, g3 _ (List.mem_singleton.2 rfl), one_le_orderF hA hpi htl, candF_near hA hp (h1 l hl).1.2 hsm (has_of_halfOpen g1)⟩
    · rw [if_neg hsm] at g3
      obtain ⟨r, r1, r2, r3⟩ := hfinds l hl (fewTurnsF_of_stop g2 htl hsm) z hz g1
      exact ⟨r, g3 r r1, r2, r3⟩
  · intro r hr
    rcases h2 r hr with h | ⟨l, hl, g1, g2⟩
    · exact .inl h
    · unfold polyOutF at g2
      by_cases htl : Cell.TurnsF A pi l
      · rw [if_pos htl] at g2
        by_cases hsm : SmallF A ctx.precision l
        · rw [if_pos hsm, List.mem_singleton] at g2
          subst g2
          obtain ⟨z, hz, hzl⟩ := (ht l hl).1 htl
          exact .inr ⟨one_le_orderF hA hpi htl, z, hz, hin l hl z hzl, candF_near hA hp (h1 l hl).1.2 hsm (has_of_halfOpen hzl)⟩
        · rw [if_neg hsm] at g2
          obtain ⟨q1, z, hz, q2, q3⟩ := hsound l hl (fewTurnsF_of_stop g1 htl hsm) r g2
          exact .inr ⟨q1, z, hz, hin l hl z q2, q3⟩
      · rw [if_neg htl] at g2
        simp at g2

/-- C156. With exact arithmetic, and with the exact steps from the moments to the roots, the search is that of the exact model (C36, C37). -/
theorem C156_exact (polyRoots : List (Cx K) → List (Cx K)) (est : LineEst σ K) (pi : K) (limit : ℕ) (ctx : RCtx K) :
    associatedPolynomialF ⟨id, fun p => (10 : K) ^ (-p)⟩ (fun ms p =>
      (getRootsWithOrders (polyRoots (coefficientsFromMoments (ms.map fun m => Cx.divK m (2 * pi)))) p).1.zip
        (getRootsWithOrders (polyRoots (coefficientsFromMoments (ms.map fun m => Cx.divK m (2 * pi)))) p).2) est pi limit ctx =
      associatedPolynomial polyRoots est pi limit ctx :=
  polyF_exact polyRoots est pi limit ctx

/-! ## C157 -/

/-- C157. If machine numbers near the rectangle are closer together than the computed `10 ** (-p)`, and the recursion limit exceeds the number of halvings the rectangle allows above the precision, then a search with the
associated-polynomial variant does not fail with `RecursionError`; without interrupt it returns if the estimator does, whatever roots are computed from the moments; and a larger recursion limit changes nothing. -/
theorem C157_returns_partial (A : FloatOps K) (u : K) (hA : Rounds A.fl u) (poly : List (Cx K) → ℤ × ℤ → List (Root K)) (est : LineEst σ K) (pi : K) (ctx : RCtx K) (df : Cx K → Cx K) (hdf : ctx.df = some df)
    (hp : GoodPow A ctx.precision) (hm : Cell.Machine A.fl ⟨ctx.reRan, ctx.imRan, 0⟩) (hre : ctx.reRan.1 ≤ ctx.reRan.2) (him : ctx.imRan.1 ≤ ctx.imRan.2) (R : K)
    (hR : Cell.Within R ⟨ctx.reRan, ctx.imRan, 0⟩) (hR1 : 8 * u * R ≤ A.pow10 ctx.precision.1) (hR2 : 8 * u * R ≤ A.pow10 ctx.precision.2) (m n : ℕ)
    (hwidth : ctx.reRan.2 - ctx.reRan.1 < 2 ^ m * (A.pow10 ctx.precision.1 / 4)) (hheight : ctx.imRan.2 - ctx.imRan.1 < 2 ^ n * (A.pow10 ctx.precision.2 / 4)) (limit : ℕ) (hl : m + n < limit) :
    (∀ limit', m + n < limit' → associatedPolynomialF A poly est pi limit' ctx = associatedPolynomialF A poly est pi limit ctx) ∧
    ((∀ order a b w, (est order a b ctx w).1 ≠ .error .recursionError) → ∀ w, (associatedPolynomialF A poly est pi limit ctx w).1 ≠ .error .recursionError) ∧
    (BoundaryHits est ctx → (∀ order a b w, ∃ v, (est order a b ctx w).1 = .ok v) → ∀ w, w.fuse = none → (associatedPolynomialF A poly est pi limit ctx w).1 = .ok ()) := by
  have hu := hA.u_nonneg
  have hR0 : 0 ≤ R := le_trans (abs_nonneg _) hR.1.1
  have hδ : 0 ≤ u * R := mul_nonneg hu hR0
  have hb : ∀ phi, BelowF A ctx.precision (u * R) m n ⟨ctx.reRan, ctx.imRan, phi⟩ := by
    intro phi
    have p1 : (0 : K) < 2 ^ m := by positivity
    have p2 : (0 : K) < 2 ^ n := by positivity
    have q1 : A.pow10 ctx.precision.1 / 4 ≤ A.pow10 ctx.precision.1 / 2 - 2 * (u * R) := by linarith
    have q2 : A.pow10 ctx.precision.2 / 4 ≤ A.pow10 ctx.precision.2 / 2 - 2 * (u * R) := by linarith
    have r1 := mul_le_mul_of_nonneg_left q1 p1.le
    have r2 := mul_le_mul_of_nonneg_left q2 p2.le
    exact ⟨by dsimp only; linarith, by dsimp only; linarith⟩
  have hnever : (∀ order a b w, (est order a b ctx w).1 ≠ .error .recursionError) → Never .recursionError (associatedPolynomialF A poly est pi limit ctx) := by
    intro hest
    unfold associatedPolynomialF
    refine Never.bind (fun w => by simp [resetCache]) fun _ => ?_
    refine Never.bind (phaseOfF_never hest _ _) fun phi => ?_
    exact dispatchG_never hA (polyF_stops A poly est pi ctx hdf) polyStopF_small (fun c => (polyActF_calm A poly pi c).2 hest) hp hest limit m n ⟨ctx.reRan, ctx.imRan, phi⟩ ⟨hm, hre, him⟩ hR (hb phi) hl
  refine ⟨?_, hnever, fun hits hret w hw => ?_⟩
  · intro limit' hl'
    unfold associatedPolynomialF
    congr 1
    funext _
    congr 1
    funext phi
    exact dispatchG_limit hA (polyF_stops A poly est pi ctx hdf) polyStopF_small hp limit' limit m n ⟨ctx.reRan, ctx.imRan, phi⟩ ⟨hm, hre, him⟩ hR (hb phi) hl' hl
  · have hcalm : ∀ order a b, CalmF (est order a b ctx) := by
      intro order a b w hw
      refine ⟨(hits order a b w).2.2.1 hw, fun e he => ?_⟩
      obtain ⟨v, hv⟩ := hret order a b w
      rw [hv] at he; cases he
    have h1 := (polyF_calm (A := A) (pi := pi) poly hdf hcalm limit w hw).2
    have h2 := hnever (fun order a b w h => by obtain ⟨v, hv⟩ := hret order a b w; rw [hv] at h; cases h) w
    rcases hr : (associatedPolynomialF A poly est pi limit ctx w).1 with e | v
    · rw [h1 e hr] at hr
      exact absurd hr h2
    · rfl

/-- C157: the rest of the property is false of the code. Let the machine numbers around the real (or imaginary) part of a zero be, in the arithmetic used, not closer together than the computed `10 ** (-p)`,
and let the computed phase around every machine rectangle containing the zero reach `MAX_PHASE` (the zero has order 4 or more). Then the search with the associated-polynomial variant never returns, for
any recursion limit; if the estimator does not fail and no interrupt comes, it ends with `RecursionError`. -/
theorem C157_too_fine (A : FloatOps K) (u : K) (hA : Rounds A.fl u) (poly : List (Cx K) → ℤ × ℤ → List (Root K)) (est : LineEst σ K) (pi : K) (ctx : RCtx K) (df : Cx K → Cx K) (hdf : ctx.df = some df)
    (hest : BoundaryHits est ctx) (hm : Cell.Machine A.fl ⟨ctx.reRan, ctx.imRan, 0⟩) (zeros : List (Cx K))
    (L : ℤ → Cx K → Cx K → Cx K) (hs : SeesZeros A est ctx pi zeros L) (z : Cx K) (hz : z ∈ zeros) (hin : Cell.HasHalfOpen ⟨ctx.reRan, ctx.imRan, 0⟩ z)
    (hgap : (∀ a b, Machine A.fl a → Machine A.fl b → a ≤ z.re → z.re ≤ b → A.pow10 ctx.precision.1 ≤ A.fl (b - a)) ∨
      ∀ a b, Machine A.fl a → Machine A.fl b → a ≤ z.im → z.im ≤ b → A.pow10 ctx.precision.2 ≤ A.fl (b - a))
    (hmany : ∀ c, Cell.Machine A.fl c → Cell.HasHalfOpen c z → A.fl (A.fl (85 / 100) * A.fl (8 * pi)) ≤ phaseAround A L c) (limit : ℕ) (w : World σ K) :
    (associatedPolynomialF A poly est pi limit ctx w).1 ≠ .ok () ∧
    (w.fuse = none → (∀ order a b w, ∃ v, (est order a b ctx w).1 = .ok v) → (associatedPolynomialF A poly est pi limit ctx w).1 = .error .recursionError) := by
  have hok : OkCell A ⟨ctx.reRan, ctx.imRan, 0⟩ := ⟨hm, le_trans hin.1 hin.2.1.le, le_trans hin.2.2.1 hin.2.2.2.le⟩
  have h1 : (associatedPolynomialF A poly est pi limit ctx w).1 ≠ .ok () := by
    intro hr
    obtain ⟨w', h⟩ : ∃ w', associatedPolynomialF A poly est pi limit ctx w = (.ok (), w') := ⟨_, Prod.ext hr rfl⟩
    obtain ⟨g1, _, g3⟩ := polyF_run hA poly hest ⟨hs.reverse, hs.value⟩ limit hok w w' h
    obtain ⟨l, hl, k1, k2, _⟩ := g3 _ (splits_halfOpen ctx.precision z) fun _ => hin
    obtain ⟨⟨hlin, ⟨⟨m1, m2⟩, m3, m4⟩, _⟩, _⟩ := g1 l hl
    have hph := (g1 l hl).2
    have ht : Cell.TurnsF A pi l := by
      unfold Cell.TurnsF
      rw [hph]
      exact (hs.around l hlin (g1 l hl).1.2.1).2 ⟨z, hz, k1⟩
    have hsm : SmallF A ctx.precision l := by
      by_contra hsm
      refine absurd (fewTurnsF_of_stop k2 ht hsm).2 (not_lt.2 ?_)
      rw [hph]
      exact hmany l ⟨⟨m1, m2⟩, m3, m4⟩ k1
    rcases hgap with hg | hg
    · exact absurd hsm.1 (not_lt.2 (hg _ _ m1 m2 k1.1 k1.2.1.le))
    · exact absurd hsm.2 (not_lt.2 (hg _ _ m3 m4 k1.2.2.1 k1.2.2.2.le))
  refine ⟨h1, fun hf hret => ?_⟩
  have hcalm : ∀ order a b, CalmF (est order a b ctx) := by
    intro order a b w hw
    refine ⟨(hest order a b w).2.2.1 hw, fun e he => ?_⟩
    obtain ⟨v, hv⟩ := hret order a b w
    rw [hv] at he; cases he
  have h2 := (polyF_calm (A := A) (pi := pi) poly hdf hcalm limit w hf).2
  rcases hr : (associatedPolynomialF A poly est pi limit ctx w).1 with e | v
  · rw [h2 e hr]
  · exact absurd hr h1

/-- C157: with Python floats this happens for every zero whose real part is not a machine number and, in absolute value, at least `2^53` times the computed `10 ** (-p)`,
if the computed phase around the rectangles containing it reaches `MAX_PHASE`, whatever roots are computed from moments. -/
theorem C157_too_fine_double (poly : List (Cx K) → ℤ × ℤ → List (Root K)) (est : LineEst σ K) (pi : K) (ctx : RCtx K) (df : Cx K → Cx K) (hdf : ctx.df = some df)
    (hest : BoundaryHits est ctx) (hm : Cell.Machine (double K).fl ⟨ctx.reRan, ctx.imRan, 0⟩) (zeros : List (Cx K))
    (L : ℤ → Cx K → Cx K → Cx K) (hs : SeesZeros (double K) est ctx pi zeros L) (z : Cx K) (hz : z ∈ zeros) (hin : Cell.HasHalfOpen ⟨ctx.reRan, ctx.imRan, 0⟩ z)
    (hx : ¬ Machine (double K).fl z.re) (hfar : 2 ^ 53 * (double K).pow10 ctx.precision.1 ≤ |z.re|)
    (hmany : ∀ c, Cell.Machine (double K).fl c → Cell.HasHalfOpen c z → (double K).fl ((double K).fl (85 / 100) * (double K).fl (8 * pi)) ≤ phaseAround (double K) L c) (limit : ℕ) (w : World σ K) :
    (associatedPolynomialF (double K) poly est pi limit ctx w).1 ≠ .ok () ∧
    (w.fuse = none → (∀ order a b w, ∃ v, (est order a b ctx w).1 = .ok v) → (associatedPolynomialF (double K) poly est pi limit ctx w).1 = .error .recursionError) := by
  have key : ∀ e : K, Machine (double K).fl e → 2 ^ 53 * e ≤ |z.re| →
      ∀ a b, Machine (double K).fl a → Machine (double K).fl b → a ≤ z.re → z.re ≤ b → e ≤ (double K).fl (b - a) := by
    intro e he hq a b ha hb hax hxb
    have h1 : (2 : K) ^ expo 53 z.re ≤ b - a := flBin_gap (by norm_num) hx ha hb hax hxb
    have h2 := lt_expo 53 z.re
    have h3 : e ≤ 2 ^ expo 53 z.re := by
      have : (2 : K) ^ 53 * e < 2 ^ 53 * 2 ^ expo 53 z.re := by
        refine lt_of_le_of_lt hq ?_
        exact_mod_cast h2
      exact (lt_of_mul_lt_mul_left this (by positivity)).le
    have h4 := (double_rounds (K := K)).mono _ _ (le_trans h3 h1)
    rwa [he] at h4
  exact C157_too_fine (double K) _ double_rounds poly est pi ctx df hdf hest hm zeros L hs z hz hin (.inl (key _ (double_pow _).1 hfar)) hmany limit w

/-- C157. Without a derivative the search does not return: if the estimator does not fail and no interrupt comes, it raises `ValueError`. -/
theorem C157_no_derivative (A : FloatOps K) (poly : List (Cx K) → ℤ × ℤ → List (Root K)) (est : LineEst σ K) (pi : K) (ctx : RCtx K) (hdf : ctx.df = none) (hits : BoundaryHits est ctx) (limit : ℕ) (w : World σ K) :
    (associatedPolynomialF A poly est pi limit ctx w).1 ≠ .ok () ∧
    (0 < limit → w.fuse = none → (∀ order a b w, ∃ v, (est order a b ctx w).1 = .ok v) → (associatedPolynomialF A poly est pi limit ctx w).1 = .error .valueError) := by
  refine ⟨fun h => ?_, fun hl hw hret => ?_⟩
  · obtain ⟨df, h1⟩ := polyF_df (Prod.ext h rfl : _ = (Except.ok (), (associatedPolynomialF A poly est pi limit ctx w).2))
    rw [hdf] at h1
    cases h1
  · obtain ⟨l, rfl⟩ : ∃ l, limit = l + 1 := ⟨limit - 1, by omega⟩
    refine polyF_value l hdf (fun order a b w hw => ⟨(hits order a b w).2.2.1 hw, fun e he => ?_⟩) (fun order a b w he => ?_) w hw <;>
    · obtain ⟨v, hv⟩ := hret order a b w
      rw [hv] at he; cases he

end
/-! ### examples -/

/-- the search of C153 with a derivative at hand -/
def thirdPoly : RCtx ℚ := { thirdNewton with df := some fun _ => 1 }

/-- for a polynomial of degree 1: its root, which is the moment of order 1 divided by `2 * pi`, rounded -/
def meanRoot (ms : List (Cx ℚ)) (_ : ℤ × ℤ) : List (Root ℚ) := ms.map fun m => (roundCx (double ℚ) (Cx.divK m ((double ℚ).fl (2 * 3))), 1)

/-- non-vacuity of C156: the search completes after looking at one rectangle, for which it constructs a polynomial; the root handed over is the pair of the Python floats nearest to 1/3 and 2/3 -/
example : (associatedPolynomialF (double ℚ) meanRoot (crossEst 3 [⟨1 / 3, 2 / 3⟩]) 3 20 thirdPoly exWorld).1 = .ok () := by decide +kernel
example : (associatedPolynomialF (double ℚ) meanRoot (crossEst 3 [⟨1 / 3, 2 / 3⟩]) 3 20 thirdPoly exWorld).2.added =
    [(⟨6004799503160661 / 18014398509481984, 6004799503160661 / 9007199254740992⟩, 1)] := by decide +kernel
example : (associatedPolynomialF (double ℚ) meanRoot (crossEst 3 [⟨1 / 3, 2 / 3⟩]) 3 20 thirdPoly exWorld).2.log = [⟨(0, 1), (0, 1), 6⟩] := by decide +kernel

theorem thirdPoly_sees : SeesZeros (double ℚ) (crossEst 3 [⟨1 / 3, 2 / 3⟩]) thirdPoly 3 [⟨1 / 3, 2 / 3⟩] (crossLine 3 [⟨1 / 3, 2 / 3⟩]) :=
  crossEst_sees double_rounds (by norm_num) (by unfold Machine; decide +kernel) _ _

/-- what is assumed of the computed roots holds for this search -/
theorem thirdPoly_cells (w' : World Unit ℚ) (h : associatedPolynomialF (double ℚ) meanRoot (crossEst 3 [⟨1 / 3, 2 / 3⟩]) 3 20 thirdPoly exWorld = (.ok (), w')) :
    ∀ c ∈ newCells exWorld w', c = ⟨(0, 1), (0, 1), 6⟩ := by
  have h1 : w' = (associatedPolynomialF (double ℚ) meanRoot (crossEst 3 [⟨1 / 3, 2 / 3⟩]) 3 20 thirdPoly exWorld).2 := by rw [h]
  subst h1
  decide +kernel

example (w' : World Unit ℚ) (h : associatedPolynomialF (double ℚ) meanRoot (crossEst 3 [⟨1 / 3, 2 / 3⟩]) 3 20 thirdPoly exWorld = (.ok (), w')) :
    ∃ r ∈ newRoots exWorld w', 1 ≤ r.2 ∧ Near ((double ℚ).pow10 2, (double ℚ).pow10 3) r.1 ⟨1 / 3, 2 / 3⟩ :=
  (C156_conforming (double ℚ) _ double_rounds meanRoot (crossEst 3 [⟨1 / 3, 2 / 3⟩]) 3 (by norm_num) 20 thirdPoly (crossEst_hits _ _ _) (double_good _)
    (by unfold Cell.Machine Machine; decide +kernel) (by decide +kernel) (by decide +kernel) [⟨1 / 3, 2 / 3⟩] _ thirdPoly_sees exWorld w' h
    (by
      intro c hc _ z hz _
      rw [thirdPoly_cells w' h c hc]
      rw [List.mem_singleton] at hz
      subst hz
      unfold Near
      decide +kernel)
    (by
      intro c hc _
      rw [thirdPoly_cells w' h c hc]
      unfold Near Cell.HasHalfOpen
      decide +kernel)).1 _ (by simp) (by unfold Cell.HasHalfOpen; decide +kernel)

/-- non-vacuity of C157, for doubles and any way to compute the roots from the moments -/
example (poly : List (Cx ℚ) → ℤ × ℤ → List (Root ℚ)) (w : World Unit ℚ) (hw : w.fuse = none) : (associatedPolynomialF (double ℚ) poly (crossEst 3 [⟨1 / 3, 2 / 3⟩]) 3 24 thirdPoly w).1 = .ok () :=
  (C157_returns_partial (double ℚ) _ double_rounds poly (crossEst 3 [⟨1 / 3, 2 / 3⟩]) 3 thirdPoly _ rfl (double_good _) (by unfold Cell.Machine Machine; decide +kernel) (by decide +kernel) (by decide +kernel)
    1 (by unfold Cell.Within; decide +kernel) (by decide +kernel) (by decide +kernel) 9 13 (by decide +kernel) (by decide +kernel) 24 (by norm_num)).2.2
    (crossEst_hits 3 [⟨1 / 3, 2 / 3⟩] thirdPoly) (fun _ _ _ _ => ⟨_, rfl⟩) w hw

example (poly : List (Cx ℚ) → ℤ × ℤ → List (Root ℚ)) : (associatedPolynomialF (double ℚ) poly (crossEst 3 [⟨1 / 3, 2 / 3⟩]) 3 24 thirdNewton exWorld).1 = .error .valueError :=
  (C157_no_derivative (double ℚ) poly _ 3 thirdNewton rfl (crossEst_hits 3 [⟨1 / 3, 2 / 3⟩] thirdNewton) 24 exWorld).2 (by norm_num) rfl (fun _ _ _ _ => ⟨_, rfl⟩)

/-- the zero `10^15 + 1/3 + i/3` of order 4 in `[10^15, 10^15 + 1] x [0, 1]` with precision `(3, 3)` -/
def farPoly : RCtx ℚ :=
  { f := fun z => (z - ⟨10 ^ 15 + 1 / 3, 1 / 3⟩) ^ 4, df := some fun z => 4 * (z - ⟨10 ^ 15 + 1 / 3, 1 / 3⟩) ^ 3, precision := (3, 3), reRan := (10 ^ 15, 10 ^ 15 + 1), imRan := (0, 1) }

/-- the phase around a rectangle computed from the exact values for a zero of order 4 -/
theorem crossEst_four {K : Type} [Field K] [LinearOrder K] [IsStrictOrderedRing K] [FloorRing K] {A : FloatOps K} {u : K} (hA : Rounds A.fl u) {pi : K} (hmp : Machine A.fl pi) (z : Cx K) (c : Cell K)
    (hx : c.re.1 ≤ c.re.2) (hy : c.im.1 ≤ c.im.2) : phaseAround A (crossLine (4 * pi) [z]) c = if Cell.HasHalfOpen c z then 8 * pi else 0 := by
  have hmp' : A.fl pi = pi := hmp
  have hT : A.fl (8 * pi) = 8 * pi := by
    rw [show (8 : K) * pi = 2 * (2 * (2 * pi)) by ring, hA.double, hA.double, hA.double, hmp']
  have h0 := hA.zero
  have hz : ∀ x x' y : K, crossLine (4 * pi) [z] 0 ⟨x, y⟩ ⟨x', y⟩ = 0 := by
    intro x x' y
    unfold crossLine
    split
    · simp
    · rfl
  have hval : ∀ x : K, (crossLine (4 * pi) [z] 0 ⟨x, c.im.1⟩ ⟨x, c.im.2⟩).re =
      if z.re < x ∧ c.im.1 ≤ z.im ∧ z.im < c.im.2 then 8 * pi else 0 := by
    intro x
    unfold crossLine
    dsimp only
    rw [if_pos rfl, leftSum_empty _ _ _ _ _ hy]
    unfold leftSum
    by_cases h : z.re < x ∧ c.im.1 ≤ z.im ∧ z.im < c.im.2
    · simp [h]
      ring
    · simp [h]
  have hneg : ∀ x : K, (crossLine (4 * pi) [z] 0 ⟨x, c.im.2⟩ ⟨x, c.im.1⟩).re =
      -if z.re < x ∧ c.im.1 ≤ z.im ∧ z.im < c.im.2 then 8 * pi else 0 := by
    intro x
    rw [(crossEst_conforming (4 * pi) [z] (⟨fun _ => 0, none, (0, 0), (0, 0), (0, 0), false⟩ : RCtx K)).reverse 0, ← hval x]; rfl
  unfold phaseAround
  rw [hz, hz, hval, hneg]
  simp only [Cx.zero_re, add_zero, h0, zero_add]
  by_cases him : c.im.1 ≤ z.im ∧ z.im < c.im.2
  · by_cases h1 : z.re < c.re.1
    · have h2 : z.re < c.re.2 := lt_of_lt_of_le h1 hx
      rw [if_pos ⟨h2, him⟩, if_pos ⟨h1, him⟩, if_neg (fun h => absurd h.1 (not_le.2 h1)), hT, hT]
      simp [h0]
    · by_cases h2 : z.re < c.re.2
      · rw [if_pos ⟨h2, him⟩, if_neg (fun h => h1 h.1), if_pos ⟨not_lt.1 h1, h2, him⟩, hT, hT]
        simp [hT]
      · rw [if_neg (fun h => h2 h.1), if_neg (fun h => h1 h.1), if_neg (fun h => h2 h.2.1)]
        simp [h0]
  · rw [if_neg (fun h => him h.2), if_neg (fun h => him h.2), if_neg (fun h => him h.2.2)]
    simp [h0]

/-- the exact values for a zero of order 4 see the zero -/
theorem crossEst_four_sees (z : Cx ℚ) (ctx : RCtx ℚ) : SeesZeros (double ℚ) (crossEst (4 * 3) [z]) ctx 3 [z] (crossLine (4 * 3) [z]) where
  reverse := (crossEst_conforming (4 * 3) [z] ctx).reverse
  value := (crossEst_conforming (4 * 3) [z] ctx).value
  around := by
    intro c hin _
    obtain ⟨_, hx, _, _, hy, _⟩ := hin
    rw [crossEst_four double_rounds (by unfold Machine; decide +kernel) z c hx hy]
    simp only [List.mem_singleton, exists_eq_left]
    by_cases h : Cell.HasHalfOpen c z
    · rw [if_pos h]
      simp only [h, iff_true]
      decide +kernel
    · rw [if_neg h]
      simp only [h, iff_false]
      decide +kernel

/-- this search fails with every recursion limit, whatever roots are computed from moments -/
theorem farPoly_fails (poly : List (Cx ℚ) → ℤ × ℤ → List (Root ℚ)) (limit : ℕ) :
    (associatedPolynomialF (double ℚ) poly (crossEst (4 * 3) [⟨10 ^ 15 + 1 / 3, 1 / 3⟩]) 3 limit farPoly exWorld).1 = .error .recursionError :=
  (C157_too_fine_double poly (crossEst (4 * 3) [⟨10 ^ 15 + 1 / 3, 1 / 3⟩]) 3 farPoly _ rfl (crossEst_hits _ _ _)
    (by unfold Cell.Machine Machine; decide +kernel) [⟨10 ^ 15 + 1 / 3, 1 / 3⟩] _ (crossEst_four_sees _ _) ⟨10 ^ 15 + 1 / 3, 1 / 3⟩ (by simp)
    (by unfold Cell.HasHalfOpen; decide +kernel) (by unfold Machine; decide +kernel) (by decide +kernel)
    (by
      intro c _ hc
      rw [crossEst_four double_rounds (by unfold Machine; decide +kernel) _ c (hc.1.trans hc.2.1.le) (hc.2.2.1.trans hc.2.2.2.le), if_pos hc]
      decide +kernel) limit exWorld).2 rfl (fun o a b w => ⟨_, rfl⟩)

end PyZeal.Props
