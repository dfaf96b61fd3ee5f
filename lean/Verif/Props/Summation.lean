import Verif.Proof.SumLine

/-! # Properties C25-C29, C85: phase summation -/

set_option linter.unusedSectionVars false

namespace PyZeal.Props
open Spec
variable {K : Type} [Field K] [LinearOrder K] [IsStrictOrderedRing K] [FloorRing K]

/-- C25, consistency. Whenever the uninterrupted `genPhiArr` returns: one more point than increments; the
first and last support points are the end points of the requested line, moved by the same multiple of the
offset `2*10^-p` perpendicular to it (not moved if no zero was hit); and all increments
are below `deltaPhi`, or an increment that is too large belongs to an interval shorter than
`maxPrecision`, or there are more than `100*numPts` points. -/
theorem C25_consistent (cfg : SumCfg K) (hδ : 0 < cfg.deltaPhi) (hn : 2 ≤ cfg.numPts) (a b : Cx K)
    (ctx : RCtx K) (w w' : World (SumState K) K) (hw : w.fuse = none) (z : List (Cx K)) (p : List K)
    (h : genPhiArr cfg 0 a b ctx w = (.ok (z, p), w')) :
    z.length = p.length + 1 ∧ cfg.numPts ≤ z.length ∧
    (∃ (j : ℕ) (offset : Cx K),
      (a.im = b.im → offset = ⟨0, 2 * (10 : K) ^ (-ctx.precision.2)⟩) ∧
      (a.im ≠ b.im → offset = ⟨2 * (10 : K) ^ (-ctx.precision.1), 0⟩) ∧
      z.head? = some (a + Cx.smul (j : K) offset) ∧ z.getLast? = some (b + Cx.smul (j : K) offset)) ∧
    (w'.added = w.added → z.head? = some a ∧ z.getLast? = some b) ∧
    ((∀ x ∈ p, |x| < cfg.deltaPhi) ∨
      (∃ k < p.length, cfg.deltaPhi ≤ |p.getD k 0| ∧ 0 < cfg.maxPrecision ∧
        (z.getD k 0 - z.getD (k+1) 0).normSq < cfg.maxPrecision ^ 2) ∨
      100 * cfg.numPts < z.length) := by
  refine (fun key => ?_) (genPhiArr_inv cfg ctx hδ (by omega) a b w
    (fun _ z _ _ => cfg.numPts ≤ z.length ∧ ∃ j : ℕ,
      z.head? = some (a + Cx.smul (j : K) (lineShift a b ctx.precision)) ∧
      z.getLast? = some (b + Cx.smul (j : K) (lineShift a b ctx.precision))) ?_ ?_ hw z p w' h)
  · obtain ⟨⟨_, h0, j, h1, h2⟩, h3, h4⟩ := key
    refine ⟨h3, h0, ⟨j, lineShift a b ctx.precision, ?_, ?_, h1, h2⟩, ?_, h4⟩
    · intro e; simp [lineShift, e, eps10]
    · intro e; simp [lineShift, e, eps10]
    · intro e
      obtain ⟨_, _, g3, g4⟩ := genPhiArr_phases cfg ctx hδ hn a b w hw z p w' h e
      exact ⟨g3, g4⟩
  · intro r hr
    obtain ⟨j, hj, _⟩ := genFuncArr_ok hw hr
    refine ⟨(genFuncArr_length hw hr).1.ge, j, ?_, ?_⟩
    · rw [hj]; unfold shifted
      rw [List.head?_map, linspace_head _ _ _ (by omega)]; rfl
    · rw [hj]; unfold shifted
      rw [List.getLast?_map, linspace_last _ _ _ hn]; rfl
  · intro idx z p w1 k hP hw1 hl hk _ _ r n hn100 hr
    have hk1 : k + 1 < z.length := by omega
    obtain ⟨h0, j, h1, h2⟩ := hP
    refine ⟨?_, j, (splice_head hk1).trans h1, (splice_last hk1).trans h2⟩
    simp [(genFuncArr_length hw1 hr).1]; omega

/-- C25, termination: for a function with finitely many zeros and `deltaPhi > 0`, the uninterrupted
`genPhiArr` returns after at most `99*numPts/98 + 2` rounds. -/
theorem C25_terminates (cfg : SumCfg K) (hδ : 0 < cfg.deltaPhi) (hn : 1 ≤ cfg.numPts) (a b : Cx K)
    (ctx : RCtx K) (w : World (SumState K) K) (hw : w.fuse = none)
    (Z : List (Cx K)) (hZ : ∀ z, ctx.f z = 0 → z ∈ Z)
    (hevals : ∀ n, Z.length * n + 1 ≤ cfg.evals n) (hsteps : 99 * cfg.numPts / 98 + 2 ≤ cfg.steps) :
    ∃ r, (genPhiArr cfg 0 a b ctx w).1 = .ok r := by
  have hs : ∀ a b n (w : World (SumState K) K), w.fuse = none →
      ∃ r, (genFuncArr cfg.evals a b ctx n w).1 = .ok r := by
    intro a b n w hw
    obtain ⟨j, hj, hfree⟩ := exists_free_shift ctx.f (lineShift a b ctx.precision)
      (lineShift_ne_zero a b ctx.precision) (linspace a b n) Z hZ
    rw [length_linspace] at hj
    rcases genFuncLoop_spec ctx.f (lineShift a b ctx.precision) (cfg.evals n) (linspace a b n) w hw
      with ⟨i, _, _, _, h⟩ | ⟨h, _⟩
    · exact ⟨_, congrArg Prod.fst h⟩
    · exact absurd hfree (h j (by have := hevals n; omega))
  rw [genPhiArr_zero, Py.bind_run]
  obtain ⟨r, hr⟩ := hs a b cfg.numPts w hw
  rcases hg : genFuncArr cfg.evals a b ctx cfg.numPts w with ⟨_ | r', w1⟩
  · rw [hg] at hr; simp at hr
  · dsimp only
    have hfst : (genFuncArr cfg.evals a b ctx cfg.numPts w).1 = .ok r' := by rw [hg]
    have hfu : w1.fuse = none := by
      have := (AddsOnly.genFuncArr (σ := SumState K) cfg.evals a b ctx cfg.numPts w).2.2.2.2 hw
      rw [hg] at this; exact this
    obtain ⟨l1, l2⟩ := genFuncArr_length hw hfst
    apply refineLoop_terminates cfg ctx hδ hs _ _ _ _ _ hfu
    · simp [l1, l2]; omega
    · omega
    · omega

/-- The exact argument in quarter turns of a power of `i` (0 for other numbers): an exactly computable
instance of `arctan2`, scaled by `2/π`. -/
def quarter (z : Cx ℚ) : ℚ :=
  if z = ⟨0, 1⟩ then 1 else if z = ⟨-1, 0⟩ then 2 else if z = ⟨0, -1⟩ then -1 else 0

/-- settings used in the examples -/
def exCfg (n : ℕ) (δ : ℚ) : SumCfg ℚ := ⟨n, δ, 1/10, quarter, fun _ => 2, 10⟩

/-- `f = 1` left of `c`, `i` from `c` on -/
def jump (c : ℚ) : Cx ℚ → Cx ℚ := fun z => if z.re < c then 1 else ⟨0, 1⟩

/-- a world with a fresh summation estimator -/
def freshWorld : World (SumState ℚ) ℚ := ⟨EstCache.init false, SumState.fresh, [], [], none, []⟩

/-- the context used in the examples -/
def exCtx (f : Cx ℚ → Cx ℚ) : RCtx ℚ := ⟨f, none, (5, 5), (0, 6), (0, 1), false⟩

/-- non-vacuity: the refinement loop runs (one increment of a quarter turn with `deltaPhi = 1/2` is refined,
with 200 points, until its interval is too short), ending with 201 points and 200 increments. -/
example : ((genPhiArr (exCfg 3 (1/2)) 0 ⟨0, 0⟩ ⟨6, 0⟩ (exCtx (jump (7/2))) freshWorld).1.toOption.map
    fun r => (r.1.length, r.2.length, r.2.sum)) = some (201, 200, 1) := by
  decide +kernel


/-- C26, one line: a horizontal or vertical line (with different end points) that is not served from the internal
caches, along which the function has no zeros: the returned value is real and congruent to
`arg f(end) - arg f(start)` modulo full turns, and no root is added. -/
theorem C26_line (cfg : SumCfg ℝ) (harg : ∀ z, cfg.arg z = Complex.arg ⟨z.re, z.im⟩)
    (hδ : 0 < cfg.deltaPhi) (hn : 2 ≤ cfg.numPts) (ctx : RCtx ℝ) (a b : Cx ℝ) (hab : a ≠ b)
    (hpar : a.im = b.im ∨ a.re = b.re)
    (w w' : World (SumState ℝ) ℝ) (hw : w.fuse = none)
    (hH : a.im = b.im → w.est.horizontal.get? (a.im, 0) = none)
    (hV : a.re = b.re → w.est.vertical.get? (a.re, 0) = none)
    (hf : ∀ z, OnSegment a b z → ctx.f z ≠ 0) (phi : Cx ℝ)
    (h : sumLine cfg 0 a b ctx w = (.ok phi, w')) :
    phi.im = 0 ∧ (phi.re : Real.Angle) = (Complex.arg ⟨(ctx.f b).re, (ctx.f b).im⟩ : Real.Angle) -
      (Complex.arg ⟨(ctx.f a).re, (ctx.f a).im⟩ : Real.Angle) ∧ w'.added = w.added := by
  have main := sumLine_angle cfg harg hδ hn ctx a b hab hpar w w' hw hH hV hf phi h
  exact ⟨main.1, main.2.1, main.2.2.1⟩

/-- C26, rectangle: on a new estimator (more generally: no line through the rectangle's sides sampled before,
shared cache empty) and for a function without zeros on the boundary, the total of
`calcMoment` of order 0 around a rectangle is a whole number of turns `2*pi`. -/
theorem C26_whole_turns (cfg : SumCfg ℝ) (harg : ∀ z, cfg.arg z = Complex.arg ⟨z.re, z.im⟩)
    (hδ : 0 < cfg.deltaPhi) (hn : 2 ≤ cfg.numPts) (ctx : RCtx ℝ) (re im : ℝ × ℝ)
    (hre : re.1 ≠ re.2) (him : im.1 ≠ im.2)
    (w : World (SumState ℝ) ℝ) (hw : w.fuse = none) (hc : w.cache.data = [])
    (hH : ∀ y, y = im.1 ∨ y = im.2 → w.est.horizontal.get? (y, 0) = none)
    (hV : ∀ x, x = re.1 ∨ x = re.2 → w.est.vertical.get? (x, 0) = none)
    (hf : ∀ z, OnBoundary re im z → ctx.f z ≠ 0) (phi : Cx ℝ)
    (h : (calcMoment (sumLine cfg) 0 re im ctx w).1 = .ok phi) :
    ∃ n : ℤ, phi = ⟨2 * Real.pi * n, 0⟩ :=
  calcMoment_angle cfg harg hδ hn ctx re im hre him w hw hc hH hV hf phi h

/-- C26, total correctness: if moreover `f` has finitely many zeros (none on the boundary) and the loops are not cut off
by the model's bounds, `calcMoment` does return, and it returns a whole number of turns. -/
theorem C26_returns_whole_turns (cfg : SumCfg ℝ)
    (harg : ∀ z, cfg.arg z = Complex.arg ⟨z.re, z.im⟩)
    (hδ : 0 < cfg.deltaPhi) (hn : 2 ≤ cfg.numPts) (ctx : RCtx ℝ) (re im : ℝ × ℝ)
    (hre : re.1 ≠ re.2) (him : im.1 ≠ im.2)
    (w : World (SumState ℝ) ℝ) (hw : w.fuse = none) (hc : w.cache.data = [])
    (hH : ∀ y, y = im.1 ∨ y = im.2 → w.est.horizontal.get? (y, 0) = none)
    (hV : ∀ x, x = re.1 ∨ x = re.2 → w.est.vertical.get? (x, 0) = none)
    (hf : ∀ z, OnBoundary re im z → ctx.f z ≠ 0) (Z : List (Cx ℝ)) (hZ : ∀ z, ctx.f z = 0 → z ∈ Z)
    (hevals : ∀ n, Z.length * n + 1 ≤ cfg.evals n) (hsteps : 99 * cfg.numPts / 98 + 2 ≤ cfg.steps) :
    ∃ n : ℤ, (calcMoment (sumLine cfg) 0 re im ctx w).1 = .ok ⟨2 * Real.pi * n, 0⟩ := by
  obtain ⟨phi, hphi⟩ := calcMoment_defined cfg harg hδ hn ctx re im hre him w hw hc hH hV hf
    fun u v w hw => C25_terminates cfg hδ (by omega) u v ctx w hw Z hZ hevals hsteps
  obtain ⟨n, rfl⟩ := C26_whole_turns cfg harg hδ hn ctx re im hre him w hw hc hH hV hf phi hphi
  exact ⟨n, hphi⟩

/-- non-vacuity of C26: `f(z) = z` around the square `[-1,1]²` with the default settings -/
example : ∃ n : ℤ, (calcMoment (sumLine (⟨6500, 1/100, 1/10^10, fun z => Complex.arg ⟨z.re, z.im⟩,
      fun n => 1 * n + 1, 6600⟩ : SumCfg ℝ)) 0 (-1, 1) (-1, 1)
      ⟨fun z => z, none, (5, 5), (-1, 1), (-1, 1), false⟩
      ⟨EstCache.init false, SumState.fresh, [], [], none, []⟩).1 = .ok ⟨2 * Real.pi * n, 0⟩ := by
  apply C26_returns_whole_turns _ (fun _ => rfl) (by norm_num) (by norm_num) _ _ _ (by norm_num)
    (by norm_num) _ rfl rfl (fun _ _ => rfl) (fun _ _ => rfl) ?_ [0] (by simp) (by simp)
    (by norm_num)
  rintro z (⟨h | h, _⟩ | ⟨h | h, _⟩) (e : z = 0) <;> rw [e] at h <;> norm_num at h

/-- C27, lines that are not axis parallel: ValueError and no change of anything. -/
theorem C27_not_parallel (cfg : SumCfg K) (o : ℤ) (a b : Cx K) (ctx : RCtx K)
    (w : World (SumState K) K) (h1 : a.im ≠ b.im) (h2 : a.re ≠ b.re) :
    sumLine cfg o a b ctx w = (.error .valueError, w) := by
  unfold sumLine; rw [if_neg h1, if_neg h2]; rfl

/-- C27, higher moments: whatever was asked before, from a new estimator every axis parallel line with
`order ≠ 0` raises NotImplementedError and changes nothing. -/
theorem C27_higher_orders (cfg : SumCfg K) (w : World (SumState K) K) (hw : w.est = SumState.fresh)
    (history : List (ℤ × Cx K × Cx K × RCtx K)) (o : ℤ) (ho : o ≠ 0) (a b : Cx K)
    (hpar : a.im = b.im ∨ a.re = b.re) (ctx : RCtx K) :
    sumLine cfg o a b ctx (runLines cfg w history) =
      (.error .notImplementedError, runLines cfg w history) := by
  have hinv : OnlyOrderZero (runLines cfg w history).est := by
    have h0 : OnlyOrderZero w.est := by rw [hw]; exact OnlyOrderZero.fresh
    clear hw
    induction history generalizing w with
    | nil => exact h0
    | cons q qs ih => exact ih _ (OnlyOrderZero.sumLine cfg _ _ _ _ w h0)
  exact sumLine_order cfg o ho a b hpar ctx _ hinv

/-- C27, orientation: from every state, reversing an axis parallel line (with different end points)
reverses the sign of the result and leads to the same state and the same exceptions. -/
theorem C27_reversal (cfg : SumCfg K) (o : ℤ) (a b : Cx K) (hab : a ≠ b) (ctx : RCtx K)
    (w : World (SumState K) K) :
    (sumLine cfg o b a ctx w).2 = (sumLine cfg o a b ctx w).2 ∧
    (∀ v, (sumLine cfg o a b ctx w).1 = .ok v → (sumLine cfg o b a ctx w).1 = .ok (-v)) ∧
    (∀ e, (sumLine cfg o a b ctx w).1 = .error e → (sumLine cfg o b a ctx w).1 = .error e) :=
  sumLine_reverse cfg o a b hab ctx w

/-- non-vacuity for C27: a line with a quarter turn in both orientations -/
example : ((sumLine (exCfg 7 10) 0 ⟨0, 0⟩ ⟨6, 0⟩ (exCtx (jump (7/2))) freshWorld).1.toOption,
    (sumLine (exCfg 7 10) 0 ⟨6, 0⟩ ⟨0, 0⟩ (exCtx (jump (7/2))) freshWorld).1.toOption) =
    (some ⟨1, 0⟩, some ⟨-1, 0⟩) := by decide +kernel

/-- C28 is false of the code: a line with seven support points, a quarter turn between the fourth and the
fifth. Split at the fourth support point, each half is charged with the quarter turn: whole line 1,
halves 1 and 1. -/
theorem C28_counterexample :
    ∃ (cfg : SumCfg ℚ) (ctx : RCtx ℚ) (w0 w1 w2 : World (SumState ℚ) ℚ),
      w1 = (sumLine cfg 0 ⟨0, 0⟩ ⟨6, 0⟩ ctx w0).2 ∧ w2 = (sumLine cfg 0 ⟨0, 0⟩ ⟨3, 0⟩ ctx w1).2 ∧
      w0.est = SumState.fresh ∧
      (sumLine cfg 0 ⟨0, 0⟩ ⟨6, 0⟩ ctx w0).1.toOption = some ⟨1, 0⟩ ∧
      (sumLine cfg 0 ⟨0, 0⟩ ⟨3, 0⟩ ctx w1).1.toOption = some ⟨1, 0⟩ ∧
      (sumLine cfg 0 ⟨3, 0⟩ ⟨6, 0⟩ ctx w2).1.toOption = some ⟨1, 0⟩ :=
  ⟨exCfg 7 10, exCtx (jump (7/2)), freshWorld, _, _, rfl, rfl, rfl, by decide +kernel,
    by decide +kernel, by decide +kernel⟩

/-- C28 for horizontal lines, what holds: after a line `lo..hi` has been sampled (first line at that height, no zeros on
it), splitting it at a point `m` that is not a support point and has at least three
support points on each side conserves the phase exactly, without further evaluations. -/
theorem C28_horizontal_partial (cfg : SumCfg K) (hδ : 0 < cfg.deltaPhi) (hn : 2 ≤ cfg.numPts)
    (ctx : RCtx K) (lo m hi y : K) (w w1 : World (SumState K) K)
    (hw : w.fuse = none) (hmiss : w.est.horizontal.get? (y, 0) = none) (h1 : lo < m) (h2 : m < hi)
    (hf : ∀ z, OnSegment ⟨lo, y⟩ ⟨hi, y⟩ z → ctx.f z ≠ 0)
    (S : Cx K) (hS : sumLine cfg 0 ⟨lo, y⟩ ⟨hi, y⟩ ctx w = (.ok S, w1))
    (zs : List (Cx K)) (ps : List K) (hzs : (genPhiArr cfg 0 ⟨lo, y⟩ ⟨hi, y⟩ ctx w).1 = .ok (zs, ps))
    (hm : ∀ z ∈ zs, z.re ≠ m) (hl : 3 ≤ (zs.filter fun z => decide (z.re < m)).length)
    (hr : 3 ≤ (zs.filter fun z => decide (m < z.re)).length) :
    ∃ (S1 S2 : Cx K) (w2 w3 : World (SumState K) K),
      sumLine cfg 0 ⟨lo, y⟩ ⟨m, y⟩ ctx w1 = (.ok S1, w2) ∧
      sumLine cfg 0 ⟨m, y⟩ ⟨hi, y⟩ ctx w2 = (.ok S2, w3) ∧ S1 + S2 = S ∧ w3.added = w.added :=
  split_horizontal cfg hδ hn ctx lo m hi y w w1 hw hmiss h1 h2 hf S hS zs ps hzs hm hl hr

/-- C28 for vertical lines. -/
theorem C28_vertical_partial (cfg : SumCfg K) (hδ : 0 < cfg.deltaPhi) (hn : 2 ≤ cfg.numPts)
    (ctx : RCtx K) (lo m hi x : K) (w w1 : World (SumState K) K)
    (hw : w.fuse = none) (hmiss : w.est.vertical.get? (x, 0) = none) (h1 : lo < m) (h2 : m < hi)
    (hf : ∀ z, OnSegment ⟨x, lo⟩ ⟨x, hi⟩ z → ctx.f z ≠ 0)
    (S : Cx K) (hS : sumLine cfg 0 ⟨x, lo⟩ ⟨x, hi⟩ ctx w = (.ok S, w1))
    (zs : List (Cx K)) (ps : List K) (hzs : (genPhiArr cfg 0 ⟨x, lo⟩ ⟨x, hi⟩ ctx w).1 = .ok (zs, ps))
    (hm : ∀ z ∈ zs, z.im ≠ m) (hl : 3 ≤ (zs.filter fun z => decide (z.im < m)).length)
    (hr : 3 ≤ (zs.filter fun z => decide (m < z.im)).length) :
    ∃ (S1 S2 : Cx K) (w2 w3 : World (SumState K) K),
      sumLine cfg 0 ⟨x, lo⟩ ⟨x, m⟩ ctx w1 = (.ok S1, w2) ∧
      sumLine cfg 0 ⟨x, m⟩ ⟨x, hi⟩ ctx w2 = (.ok S2, w3) ∧ S1 + S2 = S ∧ w3.added = w.added :=
  split_vertical cfg hδ hn ctx lo m hi x w w1 hw hmiss h1 h2 hf S hS zs ps hzs hm hl hr

/-- C29 is false of the code: the phase along `[0,3]` is 0 for a new estimator, but a quarter turn after the same
estimator was asked for `[0,6]`; and it is also answered from there for another function. -/
theorem C29_counterexample :
    ∃ (cfg : SumCfg ℚ) (ctx ctx' : RCtx ℚ) (w0 w1 : World (SumState ℚ) ℚ),
      w0.est = SumState.fresh ∧ w1 = (sumLine cfg 0 ⟨0, 0⟩ ⟨6, 0⟩ ctx w0).2 ∧
      (sumLine cfg 0 ⟨0, 0⟩ ⟨3, 0⟩ ctx w0).1.toOption = some ⟨0, 0⟩ ∧
      (sumLine cfg 0 ⟨0, 0⟩ ⟨3, 0⟩ ctx w1).1.toOption = some ⟨1, 0⟩ ∧
      (∀ z, ctx'.f z = 1) ∧
      (sumLine cfg 0 ⟨0, 0⟩ ⟨6, 0⟩ ctx' w0).1.toOption = some ⟨0, 0⟩ ∧
      (sumLine cfg 0 ⟨0, 0⟩ ⟨6, 0⟩ ctx' w1).1.toOption = some ⟨1, 0⟩ :=
  ⟨exCfg 7 10, exCtx (jump (7/2)), exCtx (fun _ => 1), freshWorld, _, rfl, rfl, by decide +kernel,
    by decide +kernel, fun _ => rfl, by decide +kernel, by decide +kernel⟩

/-- C29, what holds: if no line with the same height (abscissa) was asked before, the answer,
and what is added to the container, is that of a new estimator with an empty shared cache. -/
theorem C29_partial (cfg : SumCfg K) (o : ℤ) (a b : Cx K) (ctx : RCtx K) (w : World (SumState K) K)
    (hH : a.im = b.im → w.est.horizontal.get? (a.im, o) = none)
    (hV : a.re = b.re → w.est.vertical.get? (a.re, o) = none) :
    (sumLine cfg o a b ctx w).1 =
      (sumLine cfg o a b ctx { w with est := SumState.fresh, cache := EstCache.init false }).1 ∧
    (sumLine cfg o a b ctx w).2.added =
      (sumLine cfg o a b ctx
        { w with est := SumState.fresh, cache := EstCache.init false }).2.added :=
  sumLine_fresh cfg o a b ctx w hH hV

/-- non-vacuity of C29_partial: the height `1` was not asked for, although `0` was -/
example : ((sumLine (exCfg 7 10) 0 ⟨0, 0⟩ ⟨6, 0⟩ (exCtx (jump (7/2))) freshWorld).2.est.horizontal.get?
    (1, 0)).isNone = true := by decide +kernel

/-- C85. An equidistant grid with an even number of points: no dyadic point of the line other than its ends
is a support point. -/
theorem C85_even_grid (a b : Cx K) (hab : a ≠ b) (n : ℕ) (hn : Even n) (j k : ℕ)
    (h : a + Cx.smul ((j : K) / 2 ^ k) (b - a) ∈ linspace a b n) :
    a + Cx.smul ((j : K) / 2 ^ k) (b - a) = a ∨ a + Cx.smul ((j : K) / 2 ^ k) (b - a) = b :=
  dyadic_support a b hab n hn j k h

/-- C85, consequence: with an even number of at least six points, a line whose sampling needed no refinement can be
halved without loss (here for horizontal lines). -/
theorem C85_halving (cfg : SumCfg K) (hδ : 0 < cfg.deltaPhi) (hn : 6 ≤ cfg.numPts)
    (heven : Even cfg.numPts) (ctx : RCtx K) (lo hi y : K) (w w1 : World (SumState K) K)
    (hw : w.fuse = none) (hmiss : w.est.horizontal.get? (y, 0) = none) (h1 : lo < hi)
    (hf : ∀ z, OnSegment ⟨lo, y⟩ ⟨hi, y⟩ z → ctx.f z ≠ 0)
    (S : Cx K) (hS : sumLine cfg 0 ⟨lo, y⟩ ⟨hi, y⟩ ctx w = (.ok S, w1))
    (hsmall : ∀ p ∈ phases cfg.arg ((linspace (⟨lo, y⟩ : Cx K) ⟨hi, y⟩ cfg.numPts).map ctx.f),
      |p| < cfg.deltaPhi) :
    ∃ (S1 S2 : Cx K) (w2 w3 : World (SumState K) K),
      sumLine cfg 0 ⟨lo, y⟩ ⟨(lo + hi) / 2, y⟩ ctx w1 = (.ok S1, w2) ∧
      sumLine cfg 0 ⟨(lo + hi) / 2, y⟩ ⟨hi, y⟩ ctx w2 = (.ok S2, w3) ∧ S1 + S2 = S :=
  halving cfg hδ hn heven ctx lo hi y w w1 hw hmiss h1 hf S hS hsmall

/-- non-vacuity of C28_partial and C85: eight points, quarter turn between two of them, halved at 3 -/
example :
    let w1 := (sumLine (exCfg 8 10) 0 ⟨0, 0⟩ ⟨6, 0⟩ (exCtx (jump 2)) freshWorld).2
    let w2 := (sumLine (exCfg 8 10) 0 ⟨0, 0⟩ ⟨3, 0⟩ (exCtx (jump 2)) w1).2
    ((sumLine (exCfg 8 10) 0 ⟨0, 0⟩ ⟨6, 0⟩ (exCtx (jump 2)) freshWorld).1.toOption,
      (sumLine (exCfg 8 10) 0 ⟨0, 0⟩ ⟨3, 0⟩ (exCtx (jump 2)) w1).1.toOption,
      (sumLine (exCfg 8 10) 0 ⟨3, 0⟩ ⟨6, 0⟩ (exCtx (jump 2)) w2).1.toOption) =
    (some ⟨1, 0⟩, some ⟨1, 0⟩, some ⟨0, 0⟩) := by decide +kernel

end PyZeal.Props
