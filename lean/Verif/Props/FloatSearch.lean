import Verif.Proof.CountF
import Verif.Proof.SumTotalF
import Verif.Props.FloatCount
import Verif.Props.Float
import Verif.Props.FloatContainer
import Verif.Props.SumTotal

/-! # C127: searches with the summation estimator in floating-point arithmetic -/

set_option linter.unusedSectionVars false

namespace PyZeal.Props
open Spec
open Real

/-- the hypotheses on function, rectangle and settings in the form used by the proofs -/
theorem sumDataF {A : FloatOps ℝ} {u : ℝ} (hA : Rounds A.fl u) {S : SumOps ℝ} {N : ℕ} {δ γ : ℝ}
    (hS : SumArith S N δ γ) (hlin : S.lin = linspaceF A) (hE : rectErr N δ γ u ≤ 1 / 4) {pi : ℝ} (hpi : |pi - π| ≤ u * π)
    {ctx : RCtx ℝ} (hp : GoodPow A ctx.precision) (hre : ctx.reRan.1 < ctx.reRan.2) (him : ctx.imRan.1 < ctx.imRan.2)
    (hm : Cell.Machine A.fl ⟨ctx.reRan, ctx.imRan, 0⟩) {R : ℝ} (hR : Cell.Within R ⟨ctx.reRan, ctx.imRan, 0⟩)
    (hres : 4 * u * R < A.pow10 ctx.precision.1 ∧ 4 * u * R < A.pow10 ctx.precision.2)
    {zeros : List (Cx ℝ)} {r g : Cx ℝ → ℝ} {M d : ℝ} (hf : Factored ctx.f (Cell.Has ⟨ctx.reRan, ctx.imRan, 0⟩) zeros r g M)
    (hM : 0 ≤ M) (hd : 0 < d)
    (hgap : sampleGap S.numPts (max (ctx.reRan.2 - ctx.reRan.1) (ctx.imRan.2 - ctx.imRan.1)) u R < d)
    (hturn : rectErr N δ γ u + 8 * ((π / 2 * (zeros.length / d) + M) *
      sampleGap S.numPts (max (ctx.reRan.2 - ctx.reRan.1) (ctx.imRan.2 - ctx.imRan.1)) u R) ≤ 9 / 10)
    (hfar : ∀ re im, ReachedF A ctx.precision zeros ctx.reRan ctx.imRan re im → ∀ z, Cell.Boundary ⟨re, im, 0⟩ z → Far d zeros z) :
    SumDataF A u S N δ γ pi ctx zeros r g M d R
      (sampleGap S.numPts (max (ctx.reRan.2 - ctx.reRan.1) (ctx.imRan.2 - ctx.imRan.1)) u R) := by
  have hn : (0 : ℝ) < (S.numPts : ℝ) - 1 := by
    have : (2 : ℝ) ≤ S.numPts := by exact_mod_cast hS.samples.numPts
    linarith
  have hle : ∀ x, x ≤ max (ctx.reRan.2 - ctx.reRan.1) (ctx.imRan.2 - ctx.imRan.1) →
      x / ((S.numPts : ℝ) - 1) + 18 * u * R ≤ sampleGap S.numPts (max (ctx.reRan.2 - ctx.reRan.1) (ctx.imRan.2 - ctx.imRan.1)) u R := by
    intro x hx
    unfold sampleGap
    have := div_le_div_of_nonneg_right hx hn.le
    linarith
  exact ⟨hA, hS, hlin, hE, hpi, hp, hres.1, hres.2, hre, him, hm, hR, hf, hM, hd, hle _ (le_max_left _ _), hle _ (le_max_right _ _),
    hgap, hturn, hfar⟩

/-- C127: a search with the simple argument algorithm and the summation estimator, computed in floating-point arithmetic. Let `f` be
factored on the search rectangle, let all rectangles the search comes to look at have their boundary at distance at least `d` from all
zeros and larger than the distance of sample points, and let `f` turn little between neighbouring sample points. Let the wanted accuracy
be above the resolution of the numbers. If the search completes and no line had phase exactly 0 (missing: without this the claim is
false of the code, see `C98_counterexample`), then: the search with the estimator as shipped is the same run;
every phase is one turn for each zero inside up to 9/10, the comparison with `TWO_PI` asks for a zero inside and the order is the
number of zeros inside, for every rectangle looked at; the candidates are the computed centres of the final rectangles with zeros
inside and the numbers of these; every zero in the search rectangle is near a candidate, every candidate is near a zero, the orders sum
up to the number of zeros. -/
theorem C127_search_partial (A : FloatOps ℝ) (u : ℝ) (hA : Rounds A.fl u) (S : SumOps ℝ) (N : ℕ) (δ γ : ℝ)
    (hS : SumArith S N δ γ) (hlin : S.lin = linspaceF A) (hE : rectErr N δ γ u ≤ 1 / 4) (pi : ℝ) (hpi : |pi - π| ≤ u * π)
    (ctx : RCtx ℝ) (hp : GoodPow A ctx.precision) (hre : ctx.reRan.1 < ctx.reRan.2) (him : ctx.imRan.1 < ctx.imRan.2)
    (hm : Cell.Machine A.fl ⟨ctx.reRan, ctx.imRan, 0⟩) (R : ℝ) (hR : Cell.Within R ⟨ctx.reRan, ctx.imRan, 0⟩)
    (hres : 4 * u * R < A.pow10 ctx.precision.1 ∧ 4 * u * R < A.pow10 ctx.precision.2)
    (zeros : List (Cx ℝ)) (r g : Cx ℝ → ℝ) (M d : ℝ) (hf : Factored ctx.f (Cell.Has ⟨ctx.reRan, ctx.imRan, 0⟩) zeros r g M)
    (hM : 0 ≤ M) (hd : 0 < d)
    (hgap : sampleGap S.numPts (max (ctx.reRan.2 - ctx.reRan.1) (ctx.imRan.2 - ctx.imRan.1)) u R < d)
    (hturn : rectErr N δ γ u + 8 * ((π / 2 * (zeros.length / d) + M) *
      sampleGap S.numPts (max (ctx.reRan.2 - ctx.reRan.1) (ctx.imRan.2 - ctx.imRan.1)) u R) ≤ 9 / 10)
    (hfar : ∀ re im, ReachedF A ctx.precision zeros ctx.reRan ctx.imRan re im → ∀ z, Cell.Boundary ⟨re, im, 0⟩ z → Far d zeros z)
    (limit : ℕ) (w w' : World (SumState ℝ) ℝ) (hfuse : w.fuse = none) (hest : w.est = SumState.fresh)
    (hr : simpleArgumentF A (strictLine (sumLineF A S)) pi limit ctx w = (.ok (), w')) :
    simpleArgumentF A (sumLineF A S) pi limit ctx w = (.ok (), w') ∧
    (∀ c ∈ newCells w w', |c.phi - 2 * π * (Cell.count c zeros : ℝ)| ≤ 9 / 10 ∧ (Cell.TurnsF A pi c ↔ ∃ z ∈ zeros, Cell.Interior c z) ∧
      roundHalfEven (A.fl (c.phi / A.fl (2 * pi))) = Cell.count c zeros ∧ ReachedF A ctx.precision zeros ctx.reRan ctx.imRan c.re c.im) ∧
    newRoots w w' = ((newCells w w').filter fun c => decide (ComputedSmall A ctx.precision c.re c.im ∧ 1 ≤ Cell.count c zeros)).map
      (fun c => (⟨A.fl (A.fl (c.re.1 + c.re.2) / 2), A.fl (A.fl (c.im.1 + c.im.2) / 2)⟩, (Cell.count c zeros : ℤ))) ∧
    (∀ z ∈ zeros, Cell.HasHalfOpen ⟨ctx.reRan, ctx.imRan, 0⟩ z → ∃ r ∈ newRoots w w', 1 ≤ r.2 ∧
      Near (A.pow10 ctx.precision.1, A.pow10 ctx.precision.2) r.1 z) ∧
    (∀ r ∈ newRoots w w', 1 ≤ r.2 ∧ Machine A.fl r.1.re ∧ Machine A.fl r.1.im ∧ Cell.Has ⟨ctx.reRan, ctx.imRan, 0⟩ r.1 ∧
      ∃ z ∈ zeros, Near (A.pow10 ctx.precision.1, A.pow10 ctx.precision.2) r.1 z) ∧
    ((newRoots w w').map Prod.snd).sum = Cell.count ⟨ctx.reRan, ctx.imRan, 0⟩ zeros := by
  have hpi0 : 0 < pi := by
    have := (abs_le.1 hpi).1
    have := hA.u_small
    have := Real.pi_pos
    nlinarith
  have X := sumDataF hA hS hlin hE hpi hp hre him hm hR hres hf hM hd hgap hturn hfar
  obtain ⟨hcells, hroots⟩ := X.cells limit w w' hfuse hest hr
  have hplain : simpleArgumentF A (sumLineF A S) pi limit ctx w = (.ok (), w') :=
    (RefEst.strict (sumLineF A S) ctx).searchF A pi limit w () w' hr
  have hok : OkCell A ⟨ctx.reRan, ctx.imRan, 0⟩ := ⟨hm, hre.le, him.le⟩
  have hhits := sumLineF_hits A S ctx
  obtain ⟨h1, h2, h3⟩ := simpleArgumentF_run hA hhits limit hok w w' hplain
  obtain ⟨n1, n2, n3⟩ := simpleArgumentF_count hA hhits hp zeros limit hok w w' hplain fun l hl => ⟨(hcells l hl).2.1, (hcells l hl).2.2.1⟩
  have hcount : ∀ c : Cell ℝ, 1 ≤ Cell.count c zeros ↔ ∃ z ∈ zeros, Cell.HasHalfOpen c z := by
    intro c
    unfold Cell.count
    rw [Nat.one_le_iff_ne_zero, Ne, List.length_eq_zero_iff, List.filter_eq_nil_iff]
    push Not
    exact ⟨fun ⟨z, h1, h2⟩ => ⟨z, h1, of_decide_eq_true h2⟩, fun ⟨z, h1, h2⟩ => ⟨z, h1, decide_eq_true h2⟩⟩
  have hpos : ∀ r ∈ newRoots w w', 1 ≤ r.2 := by
    intro r hr
    obtain ⟨c, hc, rfl⟩ := hroots r hr
    exact one_le_orderF hA hpi0 hc
  have hfil : (newRoots w w').filter (fun r => decide (r.2 ≠ 0)) = newRoots w w' :=
    List.filter_eq_self.2 fun r hr => decide_eq_true (by have := hpos r hr; omega)
  rw [hfil] at n1
  refine ⟨hplain, fun c hc => ?_, ?_, fun z hz hin => ?_, fun r hr => ⟨hpos r hr, ?_⟩, n2⟩
  · obtain ⟨c1, c2, c3, c4⟩ := hcells c hc
    refine ⟨c1.trans hturn, c2.trans ((hcount c).trans ⟨?_, ?_⟩), c3, c4⟩
    · rintro ⟨z, hz, h1, h2, h3, h4⟩
      refine ⟨z, hz, ?_⟩
      by_contra hno
      have hb : Cell.Boundary ⟨c.re, c.im, 0⟩ z := ⟨⟨h1, h2.le, h3, h4.le⟩, hno⟩
      exact (hfar _ _ c4 z hb).ne hd hz rfl
    · rintro ⟨z, hz, h1, h2, h3, h4⟩
      exact ⟨z, hz, h1.le, h2, h3.le, h4⟩
  · rw [n1]
    rfl
  · obtain ⟨l, hl, g1, g2, g3, g4⟩ := h3 _ (splits_halfOpen ctx.precision z) (fun _ => hin)
      fun l hl hzl => (hcells l hl).2.1.2 ((hcount l).2 ⟨z, hz, hzl⟩)
    exact ⟨candF A pi l, g4, one_le_orderF hA hpi0 g3, candF_near hA hp (h1 l hl).2 g2 (has_of_halfOpen g1)⟩
  · rcases h2 r hr with h | ⟨l, hl, g1, g2, rfl⟩
    · have := hpos r hr
      omega
    · obtain ⟨z, hz, hzl⟩ := (hcount l).1 ((hcells l hl).2.1.1 g2)
      obtain ⟨⟨i1, i2, i3, i4, i5, i6⟩, ⟨⟨m1, m2⟩, m3, m4⟩, o1, o2⟩ := h1 l hl
      obtain ⟨a1, a2⟩ := hA.le_mid m1 m2 o1
      obtain ⟨b1, b2⟩ := hA.le_mid m3 m4 o2
      exact ⟨hA.machine_mid _ _, hA.machine_mid _ _, ⟨i1.trans a1, a2.trans i3, i4.trans b1, b2.trans i6⟩, z, hz,
        candF_near hA hp (h1 l hl).2 g1 (has_of_halfOpen hzl)⟩

/-- The conditions under which `C127_total_partial` shows that the search returns: along every side of a rectangle the search comes to
look at, the argument of `f` at the two ends differs by more than the error of a computed phase and twice the turn between neighbouring samples; the
rectangles are not lower than the distance `h` of neighbouring samples; the bounds of the loops are large enough; width and height are below `2^m` and `2^n` times a
quarter of the wanted accuracy, and the recursion limit is above `m + n`. Compare `Safe`. -/
structure SafeF (A : FloatOps ℝ) (S : SumOps ℝ) (N : ℕ) (δ γ : ℝ) (ctx : RCtx ℝ) (zeros : List (Cx ℝ)) (h d M : ℝ) (m n limit : ℕ) : Prop where
  turn : ∀ re im, ReachedF A ctx.precision zeros ctx.reRan ctx.imRan re im → ∀ e ∈ edges re im,
    lineErr N δ γ + 2 * ((π / 2 * (zeros.length / d) + M) * h) < |Complex.arg ⟨(ctx.f e.2 / ctx.f e.1).re, (ctx.f e.2 / ctx.f e.1).im⟩|
  high : ∀ re im, ReachedF A ctx.precision zeros ctx.reRan ctx.imRan re im → h ≤ im.2 - im.1
  evals : ∀ n, 1 ≤ S.evals n
  factor : ∀ idx phi, 1 ≤ idx → S.deltaPhi ≤ |phi| → 99 * idx ≤ S.factor idx phi
  steps : 198 * S.numPts < 97 * ((S.steps - 1) * S.steps)
  width : ctx.reRan.2 - ctx.reRan.1 < 2 ^ m * (A.pow10 ctx.precision.1 / 4)
  height : ctx.imRan.2 - ctx.imRan.1 < 2 ^ n * (A.pow10 ctx.precision.2 / 4)
  depth : m + n < limit

/-- C127 with all hypotheses on the function, the rectangle and the settings, none on the run: under the hypotheses of `C127_search_partial` on the
zeros and the sample size, and the conditions `SafeF`, the search returns; the candidates are the computed centres of the final rectangles
with zeros inside and the numbers of these, every zero in the search rectangle is near a candidate, every candidate is near a zero, the orders sum up to
the number of zeros, and at most `1 + 2 * (number of zeros) * (m + n)` rectangles are looked at. -/
theorem C127_total_partial (A : FloatOps ℝ) (u : ℝ) (hA : Rounds A.fl u) (S : SumOps ℝ) (N : ℕ) (δ γ : ℝ)
    (hS : SumArith S N δ γ) (hlin : S.lin = linspaceF A) (hE : rectErr N δ γ u ≤ 1 / 4) (pi : ℝ) (hpi : |pi - π| ≤ u * π)
    (ctx : RCtx ℝ) (hp : GoodPow A ctx.precision) (hre : ctx.reRan.1 < ctx.reRan.2) (him : ctx.imRan.1 < ctx.imRan.2)
    (hm : Cell.Machine A.fl ⟨ctx.reRan, ctx.imRan, 0⟩) (R : ℝ) (hR : Cell.Within R ⟨ctx.reRan, ctx.imRan, 0⟩)
    (hres : 8 * u * R ≤ A.pow10 ctx.precision.1 ∧ 8 * u * R ≤ A.pow10 ctx.precision.2)
    (zeros : List (Cx ℝ)) (r g : Cx ℝ → ℝ) (M d : ℝ) (hf : Factored ctx.f (Cell.Has ⟨ctx.reRan, ctx.imRan, 0⟩) zeros r g M)
    (hM : 0 ≤ M) (hd : 0 < d)
    (hgap : sampleGap S.numPts (max (ctx.reRan.2 - ctx.reRan.1) (ctx.imRan.2 - ctx.imRan.1)) u R < d)
    (hturn : rectErr N δ γ u + 8 * ((π / 2 * (zeros.length / d) + M) *
      sampleGap S.numPts (max (ctx.reRan.2 - ctx.reRan.1) (ctx.imRan.2 - ctx.imRan.1)) u R) ≤ 9 / 10)
    (hfar : ∀ re im, ReachedF A ctx.precision zeros ctx.reRan ctx.imRan re im → ∀ z, Cell.Boundary ⟨re, im, 0⟩ z → Far d zeros z)
    (m n limit : ℕ) (hsafe : SafeF A S N δ γ ctx zeros
      (sampleGap S.numPts (max (ctx.reRan.2 - ctx.reRan.1) (ctx.imRan.2 - ctx.imRan.1)) u R) d M m n limit)
    (w : World (SumState ℝ) ℝ) (hfuse : w.fuse = none) (hest : w.est = SumState.fresh) :
    ∃ w', simpleArgumentF A (sumLineF A S) pi limit ctx w = (.ok (), w') ∧
    newRoots w w' = ((newCells w w').filter fun c => decide (ComputedSmall A ctx.precision c.re c.im ∧ 1 ≤ Cell.count c zeros)).map
      (fun c => (⟨A.fl (A.fl (c.re.1 + c.re.2) / 2), A.fl (A.fl (c.im.1 + c.im.2) / 2)⟩, (Cell.count c zeros : ℤ))) ∧
    (∀ z ∈ zeros, Cell.HasHalfOpen ⟨ctx.reRan, ctx.imRan, 0⟩ z → ∃ r ∈ newRoots w w', 1 ≤ r.2 ∧
      Near (A.pow10 ctx.precision.1, A.pow10 ctx.precision.2) r.1 z) ∧
    (∀ r ∈ newRoots w w', 1 ≤ r.2 ∧ Machine A.fl r.1.re ∧ Machine A.fl r.1.im ∧ Cell.Has ⟨ctx.reRan, ctx.imRan, 0⟩ r.1 ∧
      ∃ z ∈ zeros, Near (A.pow10 ctx.precision.1, A.pow10 ctx.precision.2) r.1 z) ∧
    ((newRoots w w').map Prod.snd).sum = Cell.count ⟨ctx.reRan, ctx.imRan, 0⟩ zeros ∧
    (newCells w w').length ≤ 1 + 2 * Cell.count ⟨ctx.reRan, ctx.imRan, 0⟩ zeros * (m + n) := by
  have hR0 : 0 ≤ R := (abs_nonneg _).trans hR.1.1
  have hδ : 0 ≤ u * R := mul_nonneg hA.u_nonneg hR0
  have pos1 : 0 < A.pow10 ctx.precision.1 := hp.1.2
  have pos2 : 0 < A.pow10 ctx.precision.2 := hp.2.2
  have hres' : 4 * u * R < A.pow10 ctx.precision.1 ∧ 4 * u * R < A.pow10 ctx.precision.2 := ⟨by linarith [hres.1], by linarith [hres.2]⟩
  have X := sumDataF hA hS hlin hE hpi hp hre him hm hR hres' hf hM hd hgap hturn hfar
  obtain ⟨s1, s2, s3, s4, s5, s6, s7, s8⟩ := hsafe
  have hb : BelowF A ctx.precision (u * R) m n ⟨ctx.reRan, ctx.imRan, 0⟩ := by
    have p1 : (0 : ℝ) < 2 ^ m := by positivity
    have p2 : (0 : ℝ) < 2 ^ n := by positivity
    have q1 : A.pow10 ctx.precision.1 / 4 ≤ A.pow10 ctx.precision.1 / 2 - 2 * (u * R) := by linarith [hres.1]
    have q2 : A.pow10 ctx.precision.2 / 4 ≤ A.pow10 ctx.precision.2 / 2 - 2 * (u * R) := by linarith [hres.2]
    have r1 := mul_le_mul_of_nonneg_left q1 p1.le
    have r2 := mul_le_mul_of_nonneg_left q2 p2.le
    exact ⟨by dsimp only; linarith, by dsimp only; linarith⟩
  obtain ⟨w', hr⟩ := X.completes ⟨s3, s4, s5⟩ s2 s1 limit m n hb s8 w hfuse hest
  obtain ⟨a1, a2, a3, a4, a5, a6⟩ := C127_search_partial A u hA S N δ γ hS hlin hE pi hpi ctx hp hre him hm R hR hres' zeros r g M d hf hM hd hgap
    hturn hfar limit w w' hfuse hest hr
  obtain ⟨hcells, _⟩ := X.cells limit w w' hfuse hest hr
  obtain ⟨_, _, n3⟩ := simpleArgumentF_count hA (sumLineF_hits A S ctx) hp zeros limit ⟨hm, hre.le, him.le⟩ w w' a1
    fun l hl => ⟨(hcells l hl).2.1, (hcells l hl).2.2.1⟩
  exact ⟨w', a1, a3, a4, a5, a6, n3 R m n hR hb⟩

/-- what the container of a finder holds after correct candidates were handed to it -/
theorem reportF_candidates {fd : Finder (SumState ℝ) ℝ} {kind : Root ℝ → NumKind} {re im : ℝ × ℝ} {P1 P2 : ℤ} {ctx : RCtx ℝ} {zeros : List (Cx ℝ)}
    {added : List (Root ℝ)} {cont : AnyContainer ℝ} (hcont : RoundsFreely fd.container)
    (h1 : EndPoint (double ℝ).fl P1 re.1) (h2 : EndPoint (double ℝ).fl P1 re.2)
    (h3 : EndPoint (double ℝ).fl P2 im.1) (h4 : EndPoint (double ℝ).fl P2 im.2) (c1 : ctx.precision = (P1, P2))
    (d2 : ∀ z, Requested re im z → Cell.Interior ⟨ctx.reRan, ctx.imRan, 0⟩ z)
    (d3 : Cell.In ⟨ctx.reRan, ctx.imRan, 0⟩ (Enlarged (5 * 10 ^ (-P1), 5 * 10 ^ (-P2)) re im))
    (hcon : cont = fd.container.addRootsF (double ℝ).fl kind fd.info ctx.toFilter added)
    (r1 : ∀ z ∈ zeros, Cell.HasHalfOpen ⟨ctx.reRan, ctx.imRan, 0⟩ z → ∃ q ∈ added, 1 ≤ q.2 ∧
      Near ((double ℝ).pow10 ctx.precision.1, (double ℝ).pow10 ctx.precision.2) q.1 z)
    (r2 : ∀ q ∈ added, 1 ≤ q.2 ∧ Cell.Has ⟨ctx.reRan, ctx.imRan, 0⟩ q.1 ∧
      ∃ z ∈ zeros, Near ((double ℝ).pow10 ctx.precision.1, (double ℝ).pow10 ctx.precision.2) q.1 z) :
    (∀ z ∈ zeros, Requested re im z → ∃ r ∈ held cont, 1 ≤ r.2 ∧ Near (2 * 10 ^ (-P1), 2 * 10 ^ (-P2)) z r.1) ∧
    ∀ r ∈ held cont, r ∈ held fd.container ∨ (1 ≤ r.2 ∧ RequestedWithin (6 * 10 ^ (-P1), 6 * 10 ^ (-P2)) re im r.1 ∧
      ∃ z ∈ zeros, Near (2 * 10 ^ (-P1), 2 * 10 ^ (-P2)) z r.1) := by
  obtain ⟨a1, a2, _⟩ := addRootsF_free (double ℝ).fl kind fd.info ctx.toFilter added fd.container hcont
  rw [← hcon] at a1 a2
  have cp : ctx.toFilter.precision = (P1, P2) := c1
  rw [cp] at a1 a2
  have cand : ∀ q ∈ added,
      (min re.1 re.2 - 5 * 10 ^ (-P1) ≤ q.1.re ∧ q.1.re ≤ max re.1 re.2 + 5 * 10 ^ (-P1) ∧
       min im.1 im.2 - 5 * 10 ^ (-P2) ≤ q.1.im ∧ q.1.im ≤ max im.1 im.2 + 5 * 10 ^ (-P2)) ∧
      |(roundRootF (double ℝ).fl (kind q) q (P1, P2)).1.re - q.1.re| ≤ 3 / 4 * (10 : ℝ) ^ (-P1) ∧
      |(roundRootF (double ℝ).fl (kind q) q (P1, P2)).1.im - q.1.im| ≤ 3 / 4 * (10 : ℝ) ^ (-P2) := by
    intro q hq
    obtain ⟨_, ⟨t1, t2, t3, t4⟩, _⟩ := r2 q hq
    obtain ⟨e1, _, e2, e3, _, e4⟩ := d3
    have k : min re.1 re.2 - 5 * 10 ^ (-P1) ≤ q.1.re ∧ q.1.re ≤ max re.1 re.2 + 5 * 10 ^ (-P1) ∧
        min im.1 im.2 - 5 * 10 ^ (-P2) ≤ q.1.im ∧ q.1.im ≤ max im.1 im.2 + 5 * 10 ^ (-P2) :=
      ⟨e1.trans t1, t2.trans e2, e3.trans t3, t4.trans e4⟩
    exact ⟨k, (roundF_dec (kind q) (candidate_range h1 h2 k.1 k.2.1)).2, (roundF_dec (kind q) (candidate_range h3 h4 k.2.2.1 k.2.2.2)).2⟩
  have near : ∀ q ∈ added, ∀ z, Near ((double ℝ).pow10 ctx.precision.1, (double ℝ).pow10 ctx.precision.2) q.1 z →
      Near (2 * 10 ^ (-P1), 2 * 10 ^ (-P2)) z (roundRootF (double ℝ).fl (kind q) q (P1, P2)).1 := by
    rintro q hq z ⟨n1, n2⟩
    obtain ⟨_, m1, m2⟩ := cand q hq
    rw [c1] at n1 n2
    have w : ∀ P : ℤ, (double ℝ).pow10 P ≤ 5 / 4 * (10 : ℝ) ^ (-P) := by
      intro P
      have hp := (abs_le.1 (le_trans (double_pow_near (K := ℝ) P)
        (mul_le_mul_of_nonneg_right (by norm_num : ((1 : ℝ) / 2) ^ 53 ≤ 1 / 4) (ten_pos (-P)).le))).2
      linarith
    have w1 := w P1
    have w2 := w P2
    have n1 := abs_lt.1 n1
    have n2 := abs_lt.1 n2
    have m1 := abs_le.1 m1
    have m2 := abs_le.1 m2
    dsimp only at n1 n2
    exact ⟨abs_lt.2 ⟨by linarith [n1.1, n1.2, m1.1, m1.2], by linarith [n1.1, n1.2, m1.1, m1.2]⟩,
      abs_lt.2 ⟨by linarith [n2.1, n2.2, m2.1, m2.2], by linarith [n2.1, n2.2, m2.1, m2.2]⟩⟩
  constructor
  · intro z hz hreq
    obtain ⟨g1, g2, g3, g4⟩ := d2 z hreq
    obtain ⟨q, hq, hq1, hn⟩ := r1 z hz ⟨g1.le, g2, g3.le, g4⟩
    exact ⟨_, a2 q hq, hq1, near q hq z hn⟩
  · intro r hr
    rcases a1 r hr with h | ⟨q, hq, rfl⟩
    · exact Or.inl h
    · right
      obtain ⟨hq1, _, z, hz, hn⟩ := r2 q hq
      obtain ⟨⟨k1, k2, k3, k4⟩, m1, m2⟩ := cand q hq
      have m1 := abs_le.1 m1
      have m2 := abs_le.1 m2
      have u1 := ten_pos (K := ℝ) (-P1)
      have u2 := ten_pos (K := ℝ) (-P2)
      exact ⟨hq1, ⟨by linarith [m1.1, m1.2], by linarith [m1.1, m1.2], by linarith [m2.1, m2.2],
        by linarith [m2.1, m2.2]⟩, z, hz, near q hq z hn⟩

/-- C127 for finders, in Python floats with the shipped settings, with all hypotheses on the function, the arguments and the settings: `calculateRoots` of a new
finder returns without a warning, every zero requested is reported within twice the accuracy of the last digit searched for, and whatever is reported was there
before or is a zero at this distance. -/
theorem C127_finder_partial (quot : Cx ℝ → Cx ℝ → Cx ℝ) (arctan : Cx ℝ → ℝ) (dist : Cx ℝ → Cx ℝ → ℝ) (tree : ℕ → SumTree)
    (evals : ℕ → ℕ) (hev : ∀ n, 1 ≤ evals n) (hq : QuotWithin quot ((1 / 2) ^ 49)) (ha : ArctanWithin arctan ((1 / 2) ^ 49))
    (ht : SumsAll tree) (fd : Finder (SumState ℝ) ℝ) (limit : ℕ)
    (halg : fd.algorithm = simpleArgumentF (double ℝ) (sumLineF (double ℝ) (SumOps.shipped quot arctan dist tree evals)) ((double ℝ).fl π) limit)
    (hfresh : fd.est = SumState.fresh) (hcont : RoundsFreely fd.container) (kind : Root ℝ → NumKind) (re im : ℝ × ℝ) (call : Option (ℤ × ℤ)) (p : ℤ × ℤ)
    (hp : Asked call fd.precision p) (h1 : EndPoint (double ℝ).fl (p.1 + 1) re.1) (h2 : EndPoint (double ℝ).fl (p.1 + 1) re.2)
    (h3 : EndPoint (double ℝ).fl (p.2 + 1) im.1) (h4 : EndPoint (double ℝ).fl (p.2 + 1) im.2)
    (dom : (ℝ × ℝ) × (ℝ × ℝ)) (hdom : dom = desymmetrizeDomainF (double ℝ) re im (p.1 + 1, p.2 + 1))
    (R : ℝ) (hR : Cell.Within R ⟨dom.1, dom.2, 0⟩) (hR1 : R ≤ 2 ^ 50 * (double ℝ).pow10 (p.1 + 1)) (hR2 : R ≤ 2 ^ 50 * (double ℝ).pow10 (p.2 + 1))
    (zeros : List (Cx ℝ)) (r g : Cx ℝ → ℝ) (M d : ℝ) (hf : Factored fd.f (Cell.Has ⟨dom.1, dom.2, 0⟩) zeros r g M)
    (hM : 0 ≤ M) (hd : 0 < d) (hgap : sampleGap 6500 (max (dom.1.2 - dom.1.1) (dom.2.2 - dom.2.1)) ((1 / 2) ^ 53) R < d)
    (hturn : (π / 2 * (zeros.length / d) + M) * sampleGap 6500 (max (dom.1.2 - dom.1.1) (dom.2.2 - dom.2.1)) ((1 / 2) ^ 53) R ≤ 8 / 100)
    (hfar : ∀ re im, ReachedF (double ℝ) (p.1 + 1, p.2 + 1) zeros dom.1 dom.2 re im → ∀ z, Cell.Boundary ⟨re, im, 0⟩ z → Far d zeros z)
    (hside : ∀ re im, ReachedF (double ℝ) (p.1 + 1, p.2 + 1) zeros dom.1 dom.2 re im → ∀ e ∈ edges re im,
      1 / 20 + 2 * ((π / 2 * (zeros.length / d) + M) * sampleGap 6500 (max (dom.1.2 - dom.1.1) (dom.2.2 - dom.2.1)) ((1 / 2) ^ 53) R) <
        |Complex.arg ⟨(fd.f e.2 / fd.f e.1).re, (fd.f e.2 / fd.f e.1).im⟩|)
    (hhigh : ∀ re im, ReachedF (double ℝ) (p.1 + 1, p.2 + 1) zeros dom.1 dom.2 re im →
      sampleGap 6500 (max (dom.1.2 - dom.1.1) (dom.2.2 - dom.2.1)) ((1 / 2) ^ 53) R ≤ im.2 - im.1)
    (m n : ℕ) (hwidth : dom.1.2 - dom.1.1 < 2 ^ m * ((double ℝ).pow10 (p.1 + 1) / 4))
    (hheight : dom.2.2 - dom.2.1 < 2 ^ n * ((double ℝ).pow10 (p.2 + 1) / 4)) (hl : m + n < limit) :
    (fd.calculateRootsF (double ℝ) kind re im call none).outcome = .ok () ∧ (fd.calculateRootsF (double ℝ) kind re im call none).warned = false ∧
    (∀ z ∈ zeros, Requested re im z → ∃ r ∈ held (fd.calculateRootsF (double ℝ) kind re im call none).finder.container, 1 ≤ r.2 ∧
      Near (2 * 10 ^ (-(p.1 + 1)), 2 * 10 ^ (-(p.2 + 1))) z r.1) ∧
    ∀ r ∈ held (fd.calculateRootsF (double ℝ) kind re im call none).finder.container, r ∈ held fd.container ∨
      (1 ≤ r.2 ∧ RequestedWithin (6 * 10 ^ (-(p.1 + 1)), 6 * 10 ^ (-(p.2 + 1))) re im r.1 ∧
        ∃ z ∈ zeros, Near (2 * 10 ^ (-(p.1 + 1)), 2 * 10 ^ (-(p.2 + 1))) z r.1) := by
  obtain ⟨d1, d2, d3⟩ := domainF (P := (p.1 + 1, p.2 + 1)) h1 h2 h3 h4
  have hprec : searchPrecision call fd.precision = (p.1 + 1, p.2 + 1) := searchPrecision_asked hp
  rw [← hdom] at d1 d2 d3
  generalize hP1 : p.1 + 1 = P1 at *
  generalize hP2 : p.2 + 1 = P2 at *
  have hlerr : lineErr 5406000 ((1 / 2) ^ 47) ((1 / 2) ^ 29) ≤ 1 / 20 := by
    unfold lineErr
    norm_num
  have hS := shipped_arith (dist := dist) (evals := evals) hq ha ht
  have hpi : |(double ℝ).fl π - π| ≤ (1 / 2) ^ 53 * π := by
    have := doubleR.near π
    rwa [abs_of_pos Real.pi_pos] at this
  have hlt1 : dom.1.1 < dom.1.2 := by
    obtain ⟨i1, i2, _⟩ := d2 ⟨min re.1 re.2, min im.1 im.2⟩ ⟨le_rfl, min_le_max, le_rfl, min_le_max⟩
    exact i1.trans i2
  have hlt2 : dom.2.1 < dom.2.2 := by
    obtain ⟨_, _, i1, i2⟩ := d2 ⟨min re.1 re.2, min im.1 im.2⟩ ⟨le_rfl, min_le_max, le_rfl, min_le_max⟩
    exact i1.trans i2
  have eL : ∀ ctx' : RCtx ℝ, ctx' = ⟨fd.f, fd.df, (P1, P2), dom.1, dom.2, fd.verbose⟩ →
      ∃ w', simpleArgumentF (double ℝ) (sumLineF (double ℝ) (SumOps.shipped quot arctan dist tree evals)) ((double ℝ).fl π) limit ctx' (fd.start none) = (.ok (), w') ∧
      (∀ z ∈ zeros, Cell.HasHalfOpen ⟨ctx'.reRan, ctx'.imRan, 0⟩ z → ∃ q ∈ w'.added, 1 ≤ q.2 ∧
        Near ((double ℝ).pow10 ctx'.precision.1, (double ℝ).pow10 ctx'.precision.2) q.1 z) ∧
      (∀ q ∈ w'.added, 1 ≤ q.2 ∧ Cell.Has ⟨ctx'.reRan, ctx'.imRan, 0⟩ q.1 ∧
        ∃ z ∈ zeros, Near ((double ℝ).pow10 ctx'.precision.1, (double ℝ).pow10 ctx'.precision.2) q.1 z) := by
    rintro ctx' rfl
    obtain ⟨w', a1, _, a3, a4, _⟩ := C127_total_partial (double ℝ) _ doubleR (SumOps.shipped quot arctan dist tree evals) _ _ _ hS rfl shipped_err.1
      ((double ℝ).fl π) hpi ⟨fd.f, fd.df, (P1, P2), dom.1, dom.2, fd.verbose⟩ (double_good _) hlt1 hlt2 d1 R hR
      ⟨by norm_num at hR1 ⊢; linarith, by norm_num at hR2 ⊢; linarith⟩ zeros r g M d hf hM hd hgap
      (le_trans (add_le_add shipped_err.1 (mul_le_mul_of_nonneg_left hturn (by norm_num))) (by norm_num)) hfar m n limit
      ⟨fun re im h e he => lt_of_le_of_lt (add_le_add hlerr le_rfl) (hside re im h e he), hhigh, hev,
        fun idx phi _ h => (factorF_bounds doubleR (by norm_num) idx phi).1 h, by simp [SumOps.shipped], hwidth, hheight, hl⟩
      (fd.start none) rfl hfresh
    exact ⟨w', a1, a3, fun q hq => ⟨(a4 q hq).1, (a4 q hq).2.2.2.1, (a4 q hq).2.2.2.2⟩⟩
  unfold Finder.calculateRootsF
  dsimp only
  rw [hprec, ← hdom, halg]
  obtain ⟨w', a1, a3, a4⟩ := eL _ rfl
  have a1' : simpleArgumentF (double ℝ) (sumLineF (double ℝ) (SumOps.shipped quot arctan dist tree evals)) ((double ℝ).fl π) limit
      { f := fd.f, df := fd.df, precision := (P1, P2), reRan := dom.1, imRan := dom.2, progress := fd.verbose }
      { cache := fd.cache, est := fd.est, added := [], advances := [], fuse := none, log := [] } = (.ok (), w') := a1
  rw [a1']
  dsimp only
  exact ⟨rfl, rfl, reportF_candidates (ctx := ⟨fd.f, fd.df, (P1, P2), dom.1, dom.2, fd.verbose⟩) hcont h1 h2 h3 h4 rfl d2 d3 rfl a3 a4⟩

/-! ### The hypotheses are met: the zero of `z` in a rectangle that has to be divided, in Python floats -/

theorem fl_dyadic (m : ℤ) (k : ℕ) (h : |m| ≤ 2 ^ 53) : (double ℝ).fl ((m : ℝ) / 2 ^ k) = m / 2 ^ k := by
  have := flBin_fix (K := ℝ) (t := 53) (by norm_num) (m := m) (k := -(k : ℤ)) h
  rw [zpow_neg, zpow_natCast, ← div_eq_mul_inv] at this
  exact this

theorem fl_is {x : ℝ} (m : ℤ) (k : ℕ) (h : |m| ≤ 2 ^ 53) (hx : x = (m : ℝ) / 2 ^ k) : (double ℝ).fl x = x := by
  rw [hx]; exact fl_dyadic m k h

theorem pow10_one : (double ℝ).pow10 0 = 1 := by
  show (double ℝ).fl (eps10 ℝ 0) = 1
  have : eps10 ℝ 0 = 1 := by unfold eps10; norm_num
  rw [this]
  exact doubleR.one

/-- eleven rectangles are looked at -/
theorem fwid_reached : ∀ re im, ReachedF (double ℝ) (0, 0) [0] ((-9 / 8 : ℝ), (17 / 8 : ℝ)) (-49 / 16, 65 / 16) re im →
    (re = (-9 / 8, 17 / 8) ∧ im = (-49 / 16, 65 / 16)) ∨
    (re = (-9 / 8, 17 / 8) ∧ im = (-49 / 16, 1 / 2)) ∨
    (re = (-9 / 8, 17 / 8) ∧ im = (-49 / 16, -41 / 32)) ∨
    (re = (-9 / 8, 17 / 8) ∧ im = (-41 / 32, 1 / 2)) ∨
    (re = (-9 / 8, 1 / 2) ∧ im = (-41 / 32, 1 / 2)) ∨
    (re = (-9 / 8, 1 / 2) ∧ im = (-41 / 32, -25 / 64)) ∨
    (re = (-9 / 8, 1 / 2) ∧ im = (-25 / 64, 1 / 2)) ∨
    (re = (-9 / 8, -5 / 16) ∧ im = (-25 / 64, 1 / 2)) ∨
    (re = (-5 / 16, 1 / 2) ∧ im = (-25 / 64, 1 / 2)) ∨
    (re = (1 / 2, 17 / 8) ∧ im = (-41 / 32, 1 / 2)) ∨
    (re = (-9 / 8, 17 / 8) ∧ im = (1 / 2, 65 / 16)) := by
  have v0 : (double ℝ).fl 1 = 1 := doubleR.one
  have p0 := pow10_one
  have v1 : (double ℝ).fl (13 / 4) = 13 / 4 := fl_is (13) 2 (by norm_num) (by norm_num)
  have v2 : (double ℝ).fl (13 / 8) = 13 / 8 := fl_is (13) 3 (by norm_num) (by norm_num)
  have v3 : (double ℝ).fl (13 / 16) = 13 / 16 := fl_is (13) 4 (by norm_num) (by norm_num)
  have v4 : (double ℝ).fl (57 / 8) = 57 / 8 := fl_is (57) 3 (by norm_num) (by norm_num)
  have v5 : (double ℝ).fl (57 / 16) = 57 / 16 := fl_is (57) 4 (by norm_num) (by norm_num)
  have v6 : (double ℝ).fl (57 / 32) = 57 / 32 := fl_is (57) 5 (by norm_num) (by norm_num)
  have v7 : (double ℝ).fl (57 / 64) = 57 / 64 := fl_is (57) 6 (by norm_num) (by norm_num)
  have v8 : (double ℝ).fl (1 / 2) = 1 / 2 := fl_is (1) 1 (by norm_num) (by norm_num)
  have v9 : (double ℝ).fl (-(5 / 8)) = -(5 / 8) := fl_is (-5) 3 (by norm_num) (by norm_num)
  have v10 : (double ℝ).fl (-(5 / 16)) = -(5 / 16) := fl_is (-5) 4 (by norm_num) (by norm_num)
  have v11 : (double ℝ).fl (-(41 / 16)) = -(41 / 16) := fl_is (-41) 4 (by norm_num) (by norm_num)
  have v12 : (double ℝ).fl (-(41 / 32)) = -(41 / 32) := fl_is (-41) 5 (by norm_num) (by norm_num)
  have v13 : (double ℝ).fl (-(25 / 32)) = -(25 / 32) := fl_is (-25) 5 (by norm_num) (by norm_num)
  have v14 : (double ℝ).fl (-(25 / 64)) = -(25 / 64) := fl_is (-25) 6 (by norm_num) (by norm_num)
  have c1 : ∀ c : Cell ℝ, 1 ≤ Cell.count c [0] → Cell.HasHalfOpen c 0 := by
    intro c hc
    by_contra hno
    unfold Cell.count at hc
    simp [hno] at hc
  intro re im h
  induction h with
  | whole => exact .inl ⟨rfl, rfl⟩
  | left _ hs hc hl ih =>
    have hc := c1 _ hc
    unfold Cell.HasHalfOpen at hc
    unfold ComputedSmall at hs
    unfold ComputedWide at hl
    rcases ih with ⟨rfl, rfl⟩ | ⟨rfl, rfl⟩ | ⟨rfl, rfl⟩ | ⟨rfl, rfl⟩ | ⟨rfl, rfl⟩ | ⟨rfl, rfl⟩ | ⟨rfl, rfl⟩ | ⟨rfl, rfl⟩ | ⟨rfl, rfl⟩ | ⟨rfl, rfl⟩ | ⟨rfl, rfl⟩ <;> (revert hs hc hl; norm_num [v0, p0, v1, v2, v3, v4, v5, v6, v7, v8, v9, v10, v11, v12, v13, v14])
  | right _ hs hc hl ih =>
    have hc := c1 _ hc
    unfold Cell.HasHalfOpen at hc
    unfold ComputedSmall at hs
    unfold ComputedWide at hl
    rcases ih with ⟨rfl, rfl⟩ | ⟨rfl, rfl⟩ | ⟨rfl, rfl⟩ | ⟨rfl, rfl⟩ | ⟨rfl, rfl⟩ | ⟨rfl, rfl⟩ | ⟨rfl, rfl⟩ | ⟨rfl, rfl⟩ | ⟨rfl, rfl⟩ | ⟨rfl, rfl⟩ | ⟨rfl, rfl⟩ <;> (revert hs hc hl; norm_num [v0, p0, v1, v2, v3, v4, v5, v6, v7, v8, v9, v10, v11, v12, v13, v14])
  | lower _ hs hc hl ih =>
    have hc := c1 _ hc
    unfold Cell.HasHalfOpen at hc
    unfold ComputedSmall at hs
    unfold ComputedWide at hl
    rcases ih with ⟨rfl, rfl⟩ | ⟨rfl, rfl⟩ | ⟨rfl, rfl⟩ | ⟨rfl, rfl⟩ | ⟨rfl, rfl⟩ | ⟨rfl, rfl⟩ | ⟨rfl, rfl⟩ | ⟨rfl, rfl⟩ | ⟨rfl, rfl⟩ | ⟨rfl, rfl⟩ | ⟨rfl, rfl⟩ <;> (revert hs hc hl; norm_num [v0, p0, v1, v2, v3, v4, v5, v6, v7, v8, v9, v10, v11, v12, v13, v14])
  | upper _ hs hc hl ih =>
    have hc := c1 _ hc
    unfold Cell.HasHalfOpen at hc
    unfold ComputedSmall at hs
    unfold ComputedWide at hl
    rcases ih with ⟨rfl, rfl⟩ | ⟨rfl, rfl⟩ | ⟨rfl, rfl⟩ | ⟨rfl, rfl⟩ | ⟨rfl, rfl⟩ | ⟨rfl, rfl⟩ | ⟨rfl, rfl⟩ | ⟨rfl, rfl⟩ | ⟨rfl, rfl⟩ | ⟨rfl, rfl⟩ | ⟨rfl, rfl⟩ <;> (revert hs hc hl; norm_num [v0, p0, v1, v2, v3, v4, v5, v6, v7, v8, v9, v10, v11, v12, v13, v14])

theorem fwid_dom : (((-9 / 8 : ℝ), (17 / 8 : ℝ)), ((-49 / 16 : ℝ), (65 / 16 : ℝ))) =
    desymmetrizeDomainF (double ℝ) ((-1 / 8 : ℝ), (1 / 8 : ℝ)) (-1 / 16, 1 / 16) (-1 + 1, -1 + 1) := by
  have p0 := pow10_one
  have v1 : (double ℝ).fl 1 = 1 := doubleR.one
  have v2 : (double ℝ).fl 2 = 2 := fl_is 2 0 (by norm_num) (by norm_num)
  have v3 : (double ℝ).fl 3 = 3 := fl_is 3 0 (by norm_num) (by norm_num)
  have v4 : (double ℝ).fl 4 = 4 := fl_is 4 0 (by norm_num) (by norm_num)
  have v5 : (double ℝ).fl (-(9 / 8)) = -(9 / 8) := fl_is (-9) 3 (by norm_num) (by norm_num)
  have v6 : (double ℝ).fl (17 / 8) = 17 / 8 := fl_is 17 3 (by norm_num) (by norm_num)
  have v7 : (double ℝ).fl (-(49 / 16)) = -(49 / 16) := fl_is (-49) 4 (by norm_num) (by norm_num)
  have v8 : (double ℝ).fl (65 / 16) = 65 / 16 := fl_is 65 4 (by norm_num) (by norm_num)
  unfold desymmetrizeDomainF
  norm_num [p0, v1, v2, v3, v4, v5, v6, v7, v8]

theorem fwid_far : ∀ re im, ReachedF (double ℝ) (0, 0) [0] ((-9 / 8 : ℝ), (17 / 8 : ℝ)) (-49 / 16, 65 / 16) re im →
    ∀ z, Cell.Boundary ⟨re, im, 0⟩ z → Far (1 / 4) [0] z := by
  intro re im hob z hz c hc
  rw [List.mem_singleton] at hc
  subst hc
  obtain ⟨⟨h1, h2, h3, h4⟩, h5⟩ := hz
  simp only [Cx.zero_re, Cx.zero_im, sub_zero] at h1 h2 h3 h4 ⊢
  by_contra hlt
  push Not at hlt
  have a1 : |z.re| < 1 / 4 := abs_lt_of_sq_lt_sq (by nlinarith [sq_nonneg z.im]) (by norm_num)
  have a2 : |z.im| < 1 / 4 := abs_lt_of_sq_lt_sq (by nlinarith [sq_nonneg z.re]) (by norm_num)
  rw [abs_lt] at a1 a2
  rcases fwid_reached re im hob with ⟨rfl, rfl⟩ | ⟨rfl, rfl⟩ | ⟨rfl, rfl⟩ | ⟨rfl, rfl⟩ | ⟨rfl, rfl⟩ | ⟨rfl, rfl⟩ | ⟨rfl, rfl⟩ | ⟨rfl, rfl⟩ | ⟨rfl, rfl⟩ | ⟨rfl, rfl⟩ | ⟨rfl, rfl⟩ <;>
    (refine h5 ⟨?_, ?_, ?_, ?_⟩ <;> dsimp only at * <;> linarith)

/-- the argument of `b / a` in terms of the area between `a` and `b`, relative to their lengths -/
theorem arg_ge_sine {a b : Cx ℝ} {C : ℝ} (hC : 0 < C) (ha : 0 < a.re ^ 2 + a.im ^ 2) (hb : 0 < b.re ^ 2 + b.im ^ 2)
    (hc : C ^ 2 * ((a.re ^ 2 + a.im ^ 2) * (b.re ^ 2 + b.im ^ 2)) ≤ (a.re * b.im - a.im * b.re) ^ 2) :
    C ≤ |Complex.arg ⟨(b / a).re, (b / a).im⟩| := by
  have sa := Real.sq_sqrt ha.le
  have sb := Real.sq_sqrt hb.le
  have pa := Real.sqrt_pos.2 ha
  have pb := Real.sqrt_pos.2 hb
  have hcross : C * (√(a.re ^ 2 + a.im ^ 2) * √(b.re ^ 2 + b.im ^ 2)) ≤ |a.re * b.im - a.im * b.re| := by
    apply abs_le_of_sq_le_sq' _ (abs_nonneg _) |>.2
    rw [sq_abs, mul_pow, mul_pow, sa, sb]
    exact hc
  have h := arg_ge_cross (a := a) (b := b) pa pb (mul_pos hC (mul_pos pa pb)) sa.ge sb.ge hcross
  rwa [mul_div_assoc, div_self (mul_pos pa pb).ne', mul_one] at h

/-- a finder for `f(z) = z` with the simple argument algorithm and the summation estimator, as shipped, in Python floats -/
noncomputable def fwidFinder : Finder (SumState ℝ) ℝ where
  f := fun z => z
  df := none
  algorithm := simpleArgumentF (double ℝ) (sumLineF (double ℝ) (SumOps.shipped (fun b a => (double ℝ).cx (b / a))
      (fun z => (double ℝ).fl (Complex.arg ⟨z.re, z.im⟩)) (fun a b => Real.sqrt (a - b).normSq) leftTree fun _ => 1)) ((double ℝ).fl π) 1000
  precision := (3, 3)
  verbose := false
  info := false
  container := .rounding (RContainer.init none (3, 3))
  cache := EstCache.init false
  est := SumState.fresh

theorem fwid_gap : sampleGap 6500 (max ((17 / 8 : ℝ) - (-9 / 8)) (65 / 16 - (-49 / 16))) ((1 / 2) ^ 53) 5 ≤ 12 / 10000 ∧
    0 ≤ sampleGap 6500 (max ((17 / 8 : ℝ) - (-9 / 8)) (65 / 16 - (-49 / 16))) ((1 / 2) ^ 53) 5 := by
  unfold sampleGap
  norm_num

theorem fwid_turn : (π / 2 * (([(0 : Cx ℝ)].length : ℝ) / (1 / 4)) + 0) *
    sampleGap 6500 (max ((17 / 8 : ℝ) - (-9 / 8)) (65 / 16 - (-49 / 16))) ((1 / 2) ^ 53) 5 ≤ 1 / 100 := by
  obtain ⟨g1, g2⟩ := fwid_gap
  have := Real.pi_pos
  have := Real.pi_le_four
  generalize sampleGap 6500 (max ((17 / 8 : ℝ) - (-9 / 8)) (65 / 16 - (-49 / 16))) ((1 / 2) ^ 53) 5 = s at *
  simp only [List.length_singleton]
  norm_num
  nlinarith

theorem fwid_side : ∀ re im, ReachedF (double ℝ) (0, 0) [0] ((-9 / 8 : ℝ), (17 / 8 : ℝ)) (-49 / 16, 65 / 16) re im → ∀ e ∈ edges re im,
    (1 / 10 : ℝ) ≤ |Complex.arg ⟨(e.2 / e.1).re, (e.2 / e.1).im⟩| := by
  intro re im hob e he
  have := fwid_reached re im hob
  unfold edges at he
  simp only [List.mem_cons, List.not_mem_nil, or_false] at he
  rcases this with ⟨rfl, rfl⟩ | ⟨rfl, rfl⟩ | ⟨rfl, rfl⟩ | ⟨rfl, rfl⟩ | ⟨rfl, rfl⟩ | ⟨rfl, rfl⟩ | ⟨rfl, rfl⟩ | ⟨rfl, rfl⟩ | ⟨rfl, rfl⟩ | ⟨rfl, rfl⟩ | ⟨rfl, rfl⟩ <;>
    rcases he with rfl | rfl | rfl | rfl <;>
    exact arg_ge_sine (by norm_num) (by norm_num) (by norm_num) (by norm_num)

/-- all hypotheses of `C127_finder_partial` are met: `calculateRoots((-1/8, 1/8), (-1/16, 1/16), (-1, -1))` returns without a warning and
the container holds a zero near 0, with the settings as shipped, correctly rounded operations and sums from left to right -/
example : (fwidFinder.calculateRootsF (double ℝ) (fun _ => .numpy) (-1 / 8, 1 / 8) (-1 / 16, 1 / 16) (some (-1, -1)) none).outcome = .ok () ∧
    (fwidFinder.calculateRootsF (double ℝ) (fun _ => .numpy) (-1 / 8, 1 / 8) (-1 / 16, 1 / 16) (some (-1, -1)) none).warned = false ∧
    ∃ r ∈ held (fwidFinder.calculateRootsF (double ℝ) (fun _ => .numpy) (-1 / 8, 1 / 8) (-1 / 16, 1 / 16) (some (-1, -1)) none).finder.container,
      1 ≤ r.2 ∧ Near (2 * (10 : ℝ) ^ (-((-1 : ℤ) + 1)), 2 * (10 : ℝ) ^ (-((-1 : ℤ) + 1))) 0 r.1 := by
  have p0 := pow10_one
  have hmax : max ((17 / 8 : ℝ) - (-9 / 8)) (65 / 16 - (-49 / 16)) = 57 / 8 := by norm_num
  have m1 : Machine (double ℝ).fl (-1 / 8 : ℝ) := fl_is (-1) 3 (by norm_num) (by norm_num)
  have m2 : Machine (double ℝ).fl (1 / 8 : ℝ) := fl_is 1 3 (by norm_num) (by norm_num)
  have m3 : Machine (double ℝ).fl (-1 / 16 : ℝ) := fl_is (-1) 4 (by norm_num) (by norm_num)
  have m4 : Machine (double ℝ).fl (1 / 16 : ℝ) := fl_is 1 4 (by norm_num) (by norm_num)
  obtain ⟨g1, g2⟩ := fwid_gap
  have gt := fwid_turn
  have h := C127_finder_partial _ _ (fun a b => Real.sqrt (a - b).normSq) leftTree (fun _ => 1) (fun _ => le_refl _) quot_rounded arctan_rounded leftTree_all
    fwidFinder 1000 rfl rfl rfl (fun _ => .numpy) (-1 / 8, 1 / 8) (-1 / 16, 1 / 16) (some (-1, -1)) (-1, -1) (.inl rfl)
    ⟨m1, by norm_num, by norm_num, by norm_num [abs_of_nonpos]⟩ ⟨m2, by norm_num, by norm_num, by norm_num [abs_of_nonneg]⟩
    ⟨m3, by norm_num, by norm_num, by norm_num [abs_of_nonpos]⟩ ⟨m4, by norm_num, by norm_num, by norm_num [abs_of_nonneg]⟩
    _ fwid_dom 5 (by unfold Cell.Within; norm_num [abs_of_nonneg, abs_of_nonpos]) (by norm_num [p0]) (by norm_num [p0])
    [0] (fun _ => 1) (fun _ => 0) 0 (1 / 4)
    ⟨fun _ _ => one_pos, fun z _ => by ext <;> simp [fwidFinder], fun a b _ _ => by simp⟩ le_rfl (by norm_num)
    (lt_of_le_of_lt g1 (by norm_num)) (gt.trans (by norm_num)) fwid_far
    (fun re im hob e he => lt_of_lt_of_le (by dsimp only at gt ⊢; linarith) (fwid_side re im hob e he))
    (fun re im hob => g1.trans (by
      rcases fwid_reached re im hob with ⟨rfl, rfl⟩ | ⟨rfl, rfl⟩ | ⟨rfl, rfl⟩ | ⟨rfl, rfl⟩ | ⟨rfl, rfl⟩ | ⟨rfl, rfl⟩ | ⟨rfl, rfl⟩ | ⟨rfl, rfl⟩ | ⟨rfl, rfl⟩ | ⟨rfl, rfl⟩ | ⟨rfl, rfl⟩ <;> norm_num))
    4 5 (by norm_num [p0]) (by norm_num [p0]) (by norm_num)
  exact ⟨h.1, h.2.1, h.2.2.1 0 (by simp) (by unfold Requested; norm_num)⟩

end PyZeal.Props
