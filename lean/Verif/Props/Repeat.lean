import Verif.Props.SumSearch

/-! # Properties C99, C100: repeated lines and raised errors of the summation estimator -/

set_option linter.unusedSectionVars false
namespace PyZeal.Props
open Spec
section
variable {K : Type} [Field K] [LinearOrder K] [IsStrictOrderedRing K] [FloorRing K]

/-- C99 is false of the code: a quarter turn between the support points 4 and 5; after the line 0..6 and its left half were asked,
the line 0..6 has lost the quarter turn. -/
theorem C99_counterexample :
    ∃ (cfg : SumCfg ℚ) (ctx : RCtx ℚ) (w0 w1 w2 : World (SumState ℚ) ℚ),
      w0.est = SumState.fresh ∧ w1 = (sumLine cfg 0 ⟨0, 0⟩ ⟨6, 0⟩ ctx w0).2 ∧ w2 = (sumLine cfg 0 ⟨0, 0⟩ ⟨3, 0⟩ ctx w1).2 ∧
      (sumLine cfg 0 ⟨0, 0⟩ ⟨6, 0⟩ ctx w0).1.toOption = some ⟨1, 0⟩ ∧
      (sumLine cfg 0 ⟨0, 0⟩ ⟨3, 0⟩ ctx w1).1.toOption = some ⟨0, 0⟩ ∧
      (sumLine cfg 0 ⟨0, 0⟩ ⟨6, 0⟩ ctx w2).1.toOption = some ⟨0, 0⟩ :=
  ⟨exCfg 7 10, exCtx (jump (9/2)), freshWorld, _, _, rfl, rfl, rfl, by decide +kernel, by decide +kernel, by decide +kernel⟩

/-- `f = 1` below `c`, `i` from `c` on -/
def jumpUp (c : ℚ) : Cx ℚ → Cx ℚ := fun z => if z.im < c then 1 else ⟨0, 1⟩

/-- C99, immediate repetition: the vertical line 13/2..7 is asked twice after the line 0..7; the first answer is 0, the
second 1. -/
theorem C99_vertical_counterexample :
    ∃ (cfg : SumCfg ℚ) (ctx : RCtx ℚ) (w0 w1 w2 : World (SumState ℚ) ℚ),
      w0.est = SumState.fresh ∧ w1 = (sumLine cfg 0 ⟨0, 0⟩ ⟨0, 7⟩ ctx w0).2 ∧ w2 = (sumLine cfg 0 ⟨0, 13/2⟩ ⟨0, 7⟩ ctx w1).2 ∧
      (sumLine cfg 0 ⟨0, 13/2⟩ ⟨0, 7⟩ ctx w1).1.toOption = some ⟨0, 0⟩ ∧
      (sumLine cfg 0 ⟨0, 13/2⟩ ⟨0, 7⟩ ctx w2).1.toOption = some ⟨1, 0⟩ :=
  ⟨exCfg 8 10, exCtx (jumpUp (34/5)), freshWorld, _, _, rfl, rfl, rfl, by decide +kernel, by decide +kernel⟩

/-- C100 is false of the code: the vertical lines 0..7, 0..7/2 and then 13/4..7/2: the third request raises IndexError. -/
theorem C100_counterexample :
    ∃ (cfg : SumCfg ℚ) (ctx : RCtx ℚ) (w0 w1 w2 : World (SumState ℚ) ℚ),
      w0.est = SumState.fresh ∧ (∀ z, ctx.f z = 1) ∧
      w1 = (sumLine cfg 0 ⟨0, 0⟩ ⟨0, 7⟩ ctx w0).2 ∧ w2 = (sumLine cfg 0 ⟨0, 0⟩ ⟨0, 7/2⟩ ctx w1).2 ∧
      (sumLine cfg 0 ⟨0, 0⟩ ⟨0, 7⟩ ctx w0).1.toOption = some 0 ∧ (sumLine cfg 0 ⟨0, 0⟩ ⟨0, 7/2⟩ ctx w1).1.toOption = some 0 ∧
      (sumLine cfg 0 ⟨0, 13/4⟩ ⟨0, 7/2⟩ ctx w2).1 = .error .indexError :=
  ⟨exCfg 8 10, exCtx fun _ => 1, freshWorld, _, _, rfl, fun _ => rfl, rfl, rfl, by decide +kernel, by decide +kernel,
    by decide +kernel⟩

/-- what was stored last for the start of a line is what is found -/
theorem cachedLine_store (c : LineCache K) (z : K) (o : ℤ) (lo hi hi' : K) (v : PhiLine K) :
    cachedLine (storeCache c z o lo hi v) z o lo hi' = some (.start, v) := by
  unfold cachedLine
  rw [storeCache_get, if_pos rfl]
  dsimp only
  rw [Dict.get?_set, if_neg (by simp), Dict.get?_set, if_pos rfl]

theorem cutEnd_all (proj : Cx K → K) (hi : K) (zs : List (Cx K)) (ps : List K) (h : ∀ z ∈ zs, proj z ≤ hi) (h3 : 3 ≤ zs.length)
    (hp : ps.length ≤ zs.length) : cutEnd proj (zs, ps) hi = some (zs, ps) := by
  rw [cutEnd_eq proj hi zs zs [] ps (by simp) h (by simp) h3, List.take_of_length_le hp]

/-- C99, what holds: a line not asked before at its height (abscissa), with at least three support points and no
zero of the function on it, gets the same phase when it is asked again at once, in the same or in the opposite direction, and nothing is added. -/
theorem C99_immediate_partial (cfg : SumCfg K) (hδ : 0 < cfg.deltaPhi) (hn : 3 ≤ cfg.numPts) (ctx : RCtx K) (a b : Cx K) (hab : a ≠ b)
    (hpar : a.im = b.im ∨ a.re = b.re) (w w1 : World (SumState K) K) (hw : w.fuse = none)
    (hH : a.im = b.im → w.est.horizontal.get? (a.im, 0) = none) (hV : a.re = b.re → w.est.vertical.get? (a.re, 0) = none)
    (hf : ∀ z, OnSegment a b z → ctx.f z ≠ 0) (S : Cx K) (hS : sumLine cfg 0 a b ctx w = (.ok S, w1)) :
    (sumLine cfg 0 a b ctx w1).1 = .ok S ∧ (sumLine cfg 0 b a ctx w1).1 = .ok (-S) ∧
    (sumLine cfg 0 a b ctx w1).2.added = w.added := by
  have key : (sumLine cfg 0 a b ctx w1).1 = .ok S ∧ (sumLine cfg 0 a b ctx w1).2.added = w.added := by
    have hab' : ∀ z, OnSegment ⟨min a.re b.re, min a.im b.im⟩ ⟨max a.re b.re, max a.im b.im⟩ z ↔ OnSegment a b z := by
      intro z; unfold OnSegment
      have h1 : min a.re b.re ≤ max a.re b.re := min_le_max
      have h2 : min a.im b.im ≤ max a.im b.im := min_le_max
      simp only [min_eq_left h1, max_eq_right h1, min_eq_left h2, max_eq_right h2]
    by_cases h1 : a.im = b.im
    · have e : (⟨min a.re b.re, a.im⟩ : Cx K) = ⟨min a.re b.re, min a.im b.im⟩ := by rw [h1, min_self]
      have e' : (⟨max a.re b.re, a.im⟩ : Cx K) = ⟨max a.re b.re, max a.im b.im⟩ := by rw [h1, max_self]
      unfold sumLine at hS ⊢
      rw [if_pos h1, horizontal_run, reuseH_miss (hH h1)] at hS
      rw [if_pos h1, horizontal_run]
      simp only [sliceOrSample] at hS
      rcases hg : genPhiArr cfg 0 ⟨min a.re b.re, a.im⟩ ⟨max a.re b.re, a.im⟩ ctx w with ⟨_ | ⟨zs, ps⟩, w0⟩
      · rw [hg] at hS; simp at hS
      rw [hg] at hS
      simp only [Prod.mk.injEq, Except.ok.injEq] at hS
      obtain ⟨rfl, rfl⟩ := hS
      obtain ⟨hadd, hseg⟩ := genPhiArr_noZeros cfg ctx hδ (by omega) _ _ w hw (OnSegment a b)
        (fun u v n hu hv => linspace_onSegment _ _ u v n hu hv) (by rw [e, ← hab']; exact onSegment_left _ _)
        (by rw [e', ← hab']; exact onSegment_right _ _) hf zs ps w0 hg
      obtain ⟨l1, l2, _⟩ := C25_consistent cfg hδ (by omega) _ _ ctx w w0 hw zs ps hg
      have hre : reuseH (putH a.im 0 (min a.re b.re) (max a.re b.re) (zs, ps) w0).est.horizontal 0 (min a.re b.re) (max a.re b.re) a.im =
          some (zs, ps) := by
        unfold reuseH putH
        rw [cachedLine_store]
        exact cutEnd_all _ _ _ _ (fun z hz => (hseg z hz).2.1) (by omega) (by omega)
      rw [hre]
      exact ⟨rfl, hadd⟩
    · have h2 := hpar.resolve_left h1
      have e : (⟨a.re, min a.im b.im⟩ : Cx K) = ⟨min a.re b.re, min a.im b.im⟩ := by rw [h2, min_self]
      have e' : (⟨a.re, max a.im b.im⟩ : Cx K) = ⟨max a.re b.re, max a.im b.im⟩ := by rw [h2, max_self]
      unfold sumLine at hS ⊢
      rw [if_neg h1, if_pos h2, vertical_run, reuseV_miss (hV h2)] at hS
      rw [if_neg h1, if_pos h2, vertical_run]
      simp only [sliceOrSample] at hS
      rcases hg : genPhiArr cfg 0 ⟨a.re, min a.im b.im⟩ ⟨a.re, max a.im b.im⟩ ctx w with ⟨_ | ⟨zs, ps⟩, w0⟩
      · rw [hg] at hS; simp at hS
      rw [hg] at hS
      simp only [Prod.mk.injEq, Except.ok.injEq] at hS
      obtain ⟨rfl, rfl⟩ := hS
      obtain ⟨hadd, hseg⟩ := genPhiArr_noZeros cfg ctx hδ (by omega) _ _ w hw (OnSegment a b)
        (fun u v n hu hv => linspace_onSegment _ _ u v n hu hv) (by rw [e, ← hab']; exact onSegment_left _ _)
        (by rw [e', ← hab']; exact onSegment_right _ _) hf zs ps w0 hg
      obtain ⟨l1, l2, _⟩ := C25_consistent cfg hδ (by omega) _ _ ctx w w0 hw zs ps hg
      have hre : reuseV (putV a.re 0 (min a.im b.im) (max a.im b.im) (zs, ps) w0).est.vertical 0 (min a.im b.im) (max a.im b.im) a.re =
          .ok (some (zs, ps)) := by
        unfold reuseV putV
        rw [cachedLine_store]
        exact congrArg _ (cutEnd_all _ _ _ _ (fun z hz => (hseg z hz).2.2.2) (by omega) (by omega))
      rw [hre]
      exact ⟨rfl, hadd⟩
  exact ⟨key.1, (sumLine_reverse cfg 0 a b hab ctx w1).2.1 S key.1, key.2⟩

/-- non-vacuity -/
example : ((sumLine (exCfg 7 10) 0 ⟨0, 0⟩ ⟨6, 0⟩ (exCtx (jump (9/2))) freshWorld).1.toOption) = some ⟨1, 0⟩ := by decide +kernel

/-- C99, what the code does instead (horizontal lines): once a part `lo..m` of a line `lo..hi` has been asked, where `m` is not a
support point and has three support points before it, the whole line has the phase of the part. -/
theorem C99_forgets_partial (cfg : SumCfg K) (hδ : 0 < cfg.deltaPhi) (hn : 2 ≤ cfg.numPts)
    (ctx : RCtx K) (lo m hi y : K) (w w1 : World (SumState K) K)
    (hw : w.fuse = none) (hmiss : w.est.horizontal.get? (y, 0) = none) (h1 : lo < m) (h2 : m < hi)
    (hf : ∀ z, OnSegment ⟨lo, y⟩ ⟨hi, y⟩ z → ctx.f z ≠ 0)
    (S : Cx K) (hS : sumLine cfg 0 ⟨lo, y⟩ ⟨hi, y⟩ ctx w = (.ok S, w1))
    (zs : List (Cx K)) (ps : List K) (hzs : (genPhiArr cfg 0 ⟨lo, y⟩ ⟨hi, y⟩ ctx w).1 = .ok (zs, ps))
    (hm : ∀ z ∈ zs, z.re ≠ m) (hl : 3 ≤ (zs.filter fun z => decide (z.re < m)).length) :
    ∃ (S1 : Cx K) (w2 w3 : World (SumState K) K),
      sumLine cfg 0 ⟨lo, y⟩ ⟨m, y⟩ ctx w1 = (.ok S1, w2) ∧ sumLine cfg 0 ⟨lo, y⟩ ⟨hi, y⟩ ctx w2 = (.ok S1, w3) := by
  have h12 := h1.trans h2
  rcases hg : genPhiArr cfg 0 ⟨lo, y⟩ ⟨hi, y⟩ ctx w with ⟨_ | v, w0⟩
  · rw [hg] at hzs; simp at hzs
  rw [hg] at hzs
  simp only [Except.ok.injEq] at hzs
  subst hzs
  obtain ⟨hadd, _⟩ := genPhiArr_noZeros cfg ctx hδ (by omega) _ _ w hw (OnSegment ⟨lo, y⟩ ⟨hi, y⟩)
    (fun u v n hu hv => linspace_onSegment _ _ u v n hu hv) (onSegment_left _ _)
    (onSegment_right _ _) hf zs ps w0 hg
  have hsort := genPhiArr_sorted cfg ctx hδ hn _ _ Cx.re (by intros; simp) h12 w hw zs ps w0 hg hadd
  have hsplit := sorted_split Cx.re m zs hsort hm
  simp only [sumLine, if_true] at hS ⊢
  rw [horizontal_run, min_eq_left h12.le, max_eq_right h12.le, reuseH_miss hmiss] at hS
  simp only [sliceOrSample, hg, Prod.mk.injEq, Except.ok.injEq] at hS
  obtain ⟨rfl, rfl⟩ := hS
  generalize hZ1 : zs.filter (fun z => decide (z.re < m)) = Z1 at hsplit hl
  generalize hZ2 : zs.filter (fun z => decide (m < z.re)) = Z2 at hsplit
  have hZ1m : ∀ z ∈ Z1, z.re < m := by intro z hz; rw [← hZ1] at hz; simpa using (List.mem_filter.1 hz).2
  have hZ2m : ∀ z ∈ Z2, m < z.re := by intro z hz; rw [← hZ2] at hz; simpa using (List.mem_filter.1 hz).2
  have hre1 : reuseH (putH y 0 lo hi (zs, ps) w0).est.horizontal 0 lo m y = some (Z1, ps.take Z1.length) := by
    unfold reuseH putH
    rw [cachedLine_store]
    exact cutEnd_eq Cx.re m zs Z1 Z2 ps hsplit (fun z hz => (hZ1m z hz).le) hZ2m hl
  have hre2 : reuseH (putH y 0 lo m (Z1, ps.take Z1.length) (putH y 0 lo hi (zs, ps) w0)).est.horizontal 0 lo hi y =
      some (Z1, ps.take Z1.length) := by
    unfold reuseH
    conv_lhs => rw [putH]
    dsimp only
    rw [cachedLine_store]
    exact cutEnd_all _ _ _ _ (fun z hz => ((hZ1m z hz).trans h2).le) hl (by simp)
  refine ⟨Cx.ofK (ps.take Z1.length).sum, putH y 0 lo m (Z1, ps.take Z1.length) (putH y 0 lo hi (zs, ps) w0),
    putH y 0 lo hi (Z1, ps.take Z1.length) (putH y 0 lo m (Z1, ps.take Z1.length) (putH y 0 lo hi (zs, ps) w0)), ?_, ?_⟩
  · rw [horizontal_run, min_eq_left h1.le, max_eq_right h1.le, hre1]
    simp only [sliceOrSample, Py.pure_run, lineSign, h1, if_true, one_mul]
  · rw [horizontal_run, min_eq_left h12.le, max_eq_right h12.le, hre2]
    simp only [sliceOrSample, Py.pure_run, lineSign, h12, if_true, one_mul]

/-- non-vacuity: seven support points, cut at 7/2 -/
example : ((genPhiArr (exCfg 7 10) 0 ⟨0, 0⟩ ⟨6, 0⟩ (exCtx (jump (9/2))) freshWorld).1.toOption.map fun r =>
    (r.1.all fun z => decide (z.re ≠ 7/2), (r.1.filter fun z => decide (z.re < 7/2)).length)) = some (true, 4) := by decide +kernel

/-- C100 in a whole search: eight support points per line, two points in the square round which the function turns once; the
search ends with IndexError. -/
theorem C100_search_counterexample :
    ∃ (cfg : SumCfg ℚ) (ctx : RCtx ℚ) (w : World (SumState ℚ) ℚ) (z1 z2 : Cx ℚ), w.est = SumState.fresh ∧
      (∀ z, ctx.f z = sector (z - z1) * sector (z - z2)) ∧
      (simpleArgument (sumLine cfg) 2 20 ctx w).1 = .error .indexError :=
  ⟨exCfg 8 10, ⟨fun z => sector (z - ⟨-13/10, -13/10⟩) * sector (z - ⟨13/10, 13/10⟩), none, (0, 0), (-4, 4), (-7/2, 7/2), false⟩,
    freshWorld, ⟨-13/10, -13/10⟩, ⟨13/10, 13/10⟩, rfl, fun _ => rfl, by decide +kernel⟩

/-- C100, what holds: in any state of the internal caches a horizontal line is evaluated without exception. -/
theorem C100_horizontal_partial (cfg : SumCfg K) (hδ : 0 < cfg.deltaPhi) (hn : 1 ≤ cfg.numPts) (a b : Cx K) (h : a.im = b.im)
    (ctx : RCtx K) (w : World (SumState K) K) (hw : w.fuse = none) (Z : List (Cx K)) (hZ : ∀ z, ctx.f z = 0 → z ∈ Z)
    (hevals : ∀ n, Z.length * n + 1 ≤ cfg.evals n) (hsteps : 99 * cfg.numPts / 98 + 2 ≤ cfg.steps) :
    ∃ S, (sumLine cfg 0 a b ctx w).1 = .ok S := by
  unfold sumLine
  rw [if_pos h, horizontal_run]
  rcases reuseH w.est.horizontal 0 (min a.re b.re) (max a.re b.re) a.im with _ | v
  · obtain ⟨r, hr⟩ := C25_terminates cfg hδ hn ⟨min a.re b.re, a.im⟩ ⟨max a.re b.re, a.im⟩ ctx w hw Z hZ hevals hsteps
    simp only [sliceOrSample]
    rcases hg : genPhiArr cfg 0 ⟨min a.re b.re, a.im⟩ ⟨max a.re b.re, a.im⟩ ctx w with ⟨_ | v, w1⟩
    · rw [hg] at hr; simp at hr
    · exact ⟨_, rfl⟩
  · exact ⟨_, rfl⟩

/-- C100, what holds for vertical lines: the only exception is IndexError; it is raised without any other effect, and only if a line with
the same abscissa and the same upper end, but none with the same lower end, has been asked before, of which no stored
support point lies on the line asked now. -/
theorem C100_vertical_partial (cfg : SumCfg K) (hδ : 0 < cfg.deltaPhi) (hn : 1 ≤ cfg.numPts) (a b : Cx K) (hne : a.im ≠ b.im) (h : a.re = b.re)
    (ctx : RCtx K) (w : World (SumState K) K) (hw : w.fuse = none) (Z : List (Cx K)) (hZ : ∀ z, ctx.f z = 0 → z ∈ Z)
    (hevals : ∀ n, Z.length * n + 1 ≤ cfg.evals n) (hsteps : 99 * cfg.numPts / 98 + 2 ≤ cfg.steps) :
    (∃ S, (sumLine cfg 0 a b ctx w).1 = .ok S) ∨
    (sumLine cfg 0 a b ctx w = (.error .indexError, w) ∧ ∃ lines v, w.est.vertical.get? (a.re, 0) = some lines ∧
      lines.get? (min a.im b.im, .start) = none ∧ lines.get? (max a.im b.im, .stop) = some v ∧ ∀ z ∈ v.1, z.im < min a.im b.im) := by
  unfold sumLine
  rw [if_neg hne, if_pos h, vertical_run]
  rcases hre : reuseV w.est.vertical 0 (min a.im b.im) (max a.im b.im) a.re with e | r
  · right
    unfold reuseV cachedLine at hre
    rcases hc : w.est.vertical.get? (a.re, 0) with _ | lines
    · rw [hc] at hre; simp at hre
    rw [hc] at hre
    dsimp only at hre
    rcases hs : lines.get? (min a.im b.im, .start) with _ | v
    · rw [hs] at hre
      rcases ht : lines.get? (max a.im b.im, .stop) with _ | v
      · rw [ht] at hre; simp at hre
      rw [ht] at hre
      simp only [Option.map_some] at hre
      unfold cutStartV at hre
      split at hre
      · simp at hre
      · rcases hi : whereFrom (fun z : Cx K => decide (min a.im b.im ≤ z.im)) 0 v.1 with _ | ⟨m, t⟩
        · rw [hi] at hre
          simp only [Except.error.injEq] at hre
          subst hre
          refine ⟨rfl, lines, v, rfl, hs, ht, fun z hz => ?_⟩
          have := whereFrom_nil.1 hi z hz
          simpa using this
        · rw [hi] at hre; simp at hre
    · rw [hs] at hre; simp at hre
  · left
    rcases r with _ | v
    · obtain ⟨r, hr⟩ := C25_terminates cfg hδ hn ⟨a.re, min a.im b.im⟩ ⟨a.re, max a.im b.im⟩ ctx w hw Z hZ hevals hsteps
      simp only [sliceOrSample]
      rcases hg : genPhiArr cfg 0 ⟨a.re, min a.im b.im⟩ ⟨a.re, max a.im b.im⟩ ctx w with ⟨_ | v, w1⟩
      · rw [hg] at hr; simp at hr
      · exact ⟨_, rfl⟩
    · exact ⟨_, rfl⟩

/-- non-vacuity of both: `f = 1`, no zeros, in the state after three requests -/
example : ((∀ n, ([] : List (Cx ℚ)).length * n + 1 ≤ (exCfg 8 10).evals n)) ∧ 99 * (exCfg 8 10).numPts / 98 + 2 ≤ (exCfg 8 10).steps ∧
    ∀ z, (exCtx fun _ => 1).f z = 0 → z ∈ ([] : List (Cx ℚ)) :=
  ⟨by simp [exCfg], by decide, by intro z h; simp [exCtx] at h⟩
end
end PyZeal.Props
