import Verif.Proof.Grid
import Verif.Proof.SumLine

/-! # One evaluation of a line by the summation estimator, in terms of cached data -/

set_option linter.unusedSectionVars false

namespace PyZeal
open Spec

/-- the end of a line belonging to a key -/
def Side.pick {α : Type} (s : Side) (lo hi : α) : α :=
  match s with
  | .start => lo
  | .stop => hi

/-- entry of the internal caches; `hz = true`: horizontal lines -/
noncomputable def ent (hz : Bool) (s : SumState ℝ) (z : ℝ) (k : ℝ × Side) : Option (PhiLine ℝ) :=
  match (if hz then s.horizontal else s.vertical).get? (z, 0) with
  | none => none
  | some inner => inner.get? k

theorem ent_fresh (hz : Bool) (z : ℝ) (k : ℝ × Side) : ent hz SumState.fresh z k = none := by
  cases hz <;> rfl

/-- storing a line -/
noncomputable def put (hz : Bool) (z lo hi : ℝ) (v : PhiLine ℝ) (w : World (SumState ℝ) ℝ) : World (SumState ℝ) ℝ :=
  if hz then putH z 0 lo hi v w else putV z 0 lo hi v w

theorem ent_put (hz : Bool) (z lo hi : ℝ) (v : PhiLine ℝ) (w : World (SumState ℝ) ℝ) (hz' : Bool) (z' : ℝ) (k : ℝ × Side) {u : PhiLine ℝ}
    (h : ent hz' (put hz z lo hi v w).est z' k = some u) :
    (hz' = hz ∧ z' = z ∧ (k = (hi, .stop) ∨ k = (lo, .start)) ∧ u = v) ∨ ent hz' w.est z' k = some u := by
  have key : ∀ (c : LineCache ℝ), (match (storeCache c z 0 lo hi v).get? (z', 0) with
      | none => none
      | some inner => inner.get? k) = some u →
      (z' = z ∧ (k = (hi, .stop) ∨ k = (lo, .start)) ∧ u = v) ∨ (match c.get? (z', 0) with
      | none => none
      | some inner => inner.get? k) = some u := by
    intro c hc
    rw [storeCache_get] at hc
    by_cases e : z = z'
    · subst e
      rw [if_pos rfl] at hc
      dsimp only at hc
      rw [Dict.get?_set, Dict.get?_set] at hc
      split at hc
      · rename_i e
        left
        exact ⟨rfl, .inl e.symm, (Option.some.inj hc).symm⟩
      · split at hc
        · rename_i e
          left
          exact ⟨rfl, .inr e.symm, (Option.some.inj hc).symm⟩
        · right
          rcases hg : c.get? (z, 0) with _ | inner <;> rw [hg] at hc
          · simp at hc
          · exact hc
    · rw [if_neg (by simp [e])] at hc
      exact .inr hc
  cases hz <;> cases hz'
  · rcases key _ h with ⟨h1, h2⟩ | h1
    · exact .inl ⟨rfl, h1, h2⟩
    · exact .inr h1
  · exact .inr h
  · exact .inr h
  · rcases key _ h with ⟨h1, h2⟩ | h1
    · exact .inl ⟨rfl, h1, h2⟩
    · exact .inr h1

theorem put_rest (hz : Bool) (z lo hi : ℝ) (v : PhiLine ℝ) (w : World (SumState ℝ) ℝ) :
    (put hz z lo hi v w).cache = w.cache ∧ (put hz z lo hi v w).fuse = w.fuse ∧ (put hz z lo hi v w).added = w.added := by
  cases hz <;> exact ⟨rfl, rfl, rfl⟩

variable {f : Cx ℝ → Cx ℝ} {S : Cx ℝ → Prop} {T : Cx ℝ → Cx ℝ → ℝ} {h eta : ℝ}

theorem cachedLine_some {c : LineCache ℝ} {z lo hi : ℝ} {s : Side} {v : PhiLine ℝ} (hc : cachedLine c z 0 lo hi = some (s, v)) :
    ∃ inner, c.get? (z, 0) = some inner ∧ inner.get? (s.pick lo hi, s) = some v := by
  unfold cachedLine at hc
  rcases hg : c.get? (z, 0) with _ | inner <;> rw [hg] at hc
  · simp at hc
  · refine ⟨inner, rfl, ?_⟩
    dsimp only at hc
    rcases h1 : inner.get? (lo, Side.start) with _ | u <;> rw [h1] at hc
    · rcases h2 : inner.get? (hi, Side.stop) with _ | u <;> rw [h2] at hc
      · simp at hc
      · simp only [Option.map_some, Option.some.injEq, Prod.mk.injEq] at hc
        obtain ⟨rfl, rfl⟩ := hc
        exact h2
    · simp only [Option.some.injEq, Prod.mk.injEq] at hc
      obtain ⟨rfl, rfl⟩ := hc
      exact h1

/-- the line that is summed: a slice of cached data or a fresh sample -/
theorem slice_step (ts : TurnSys f S T h eta) (hh : 0 ≤ h)
    (cfg : SumCfg ℝ) (harg : ∀ z, cfg.arg z = Complex.arg (toC z)) (hδ : 0 < cfg.deltaPhi) (hn : 2 ≤ cfg.numPts)
    (ctx : RCtx ℝ) (hf : ctx.f = f) {hz : Bool} {z lo hi : ℝ} (hlo : lo < hi) (hstep : (hi - lo) / ((cfg.numPts : ℝ) - 1) ≤ h)
    (hS : ∀ t, lo ≤ t → t ≤ hi → S (lpt hz z t)) {w w' : World (SumState ℝ) ℝ} (hw : w.fuse = none) {r : Option (PhiLine ℝ)}
    (hr : ∀ v, r = some v → Cover S T h (lpt hz z) lo hi v) {v : PhiLine ℝ}
    (hs : sliceOrSample cfg 0 (lpt hz z lo) (lpt hz z hi) ctx r w = (.ok v, w')) :
    Cover S T h (lpt hz z) lo hi v ∧ w'.cache = w.cache ∧ w'.est = w.est ∧ w'.added = w.added ∧ w'.fuse = none := by
  cases r with
  | some u =>
    simp only [sliceOrSample, Py.pure_run, Prod.mk.injEq, Except.ok.injEq] at hs
    obtain ⟨rfl, rfl⟩ := hs
    exact ⟨hr _ rfl, rfl, rfl, rfl, hw⟩
  | none =>
    simp only [sliceOrSample] at hs
    have ha := AddsOnly.genPhiArr cfg 0 (lpt hz z lo) (lpt hz z hi) ctx w
    rw [hs] at ha
    obtain ⟨a1, a2, _, _, a5⟩ := ha
    have : Cover S T h (lpt hz z) lo hi v ∧ w'.added = w.added := by
      cases hz
      · exact Cover.sample ts (lpt_isLine _ _) (proj := Cx.im) (fun t => rfl) (fun u v t => by simp) cfg harg hδ hn ctx hf hlo hstep hh hS hw hs
      · exact Cover.sample ts (lpt_isLine _ _) (proj := Cx.re) (fun t => rfl) (fun u v t => by simp) cfg harg hδ hn ctx hf hlo hstep hh hS hw hs
    exact ⟨this.1, a1, a2, this.2, a5 hw⟩

theorem line_step (ts : TurnSys f S T h eta) (hh : 0 ≤ h)
    (cfg : SumCfg ℝ) (harg : ∀ z, cfg.arg z = Complex.arg (toC z)) (hδ : 0 < cfg.deltaPhi) (hn : 2 ≤ cfg.numPts)
    (ctx : RCtx ℝ) (hf : ctx.f = f) {hz : Bool} {z lo hi x1 x2 : ℝ} (hlo : lo < hi) (hx : (x1 = lo ∧ x2 = hi) ∨ (x1 = hi ∧ x2 = lo))
    (hstep : (hi - lo) / ((cfg.numPts : ℝ) - 1) ≤ h)
    (hS : ∀ t, lo ≤ t → t ≤ hi → S (lpt hz z t)) {w w' : World (SumState ℝ) ℝ} (hw : w.fuse = none)
    (hstart : ∀ v, ent hz w.est z (lo, .start) = some v → ∃ hi', hi ≤ hi' ∧ Cover S T h (lpt hz z) lo hi' v)
    (hstop : ∀ v, ent hz w.est z (hi, .stop) = some v → ∃ lo', lo' ≤ lo ∧ Cover S T h (lpt hz z) lo' hi v)
    {d : Cx ℝ} (hr : sumLine cfg 0 (lpt hz z x1) (lpt hz z x2) ctx w = (.ok d, w')) :
    d.im = 0 ∧ |d.re - T (lpt hz z x1) (lpt hz z x2)| ≤ 2 * eta ∧ w'.cache = w.cache ∧ w'.fuse = none ∧ w'.added = w.added ∧
      ∃ v, Cover S T h (lpt hz z) lo hi v ∧ ∀ hz' z' k u, ent hz' w'.est z' k = some u →
        (hz' = hz ∧ z' = z ∧ (k = (hi, .stop) ∨ k = (lo, .start)) ∧ u = v) ∨ ent hz' w.est z' k = some u := by
  have hmin : min x1 x2 = lo := by rcases hx with ⟨rfl, rfl⟩ | ⟨rfl, rfl⟩ <;> simp [hlo.le]
  have hmax : max x1 x2 = hi := by rcases hx with ⟨rfl, rfl⟩ | ⟨rfl, rfl⟩ <;> simp [hlo.le]
  have main : ∃ (r : Option (PhiLine ℝ)) (v : PhiLine ℝ) (w1 : World (SumState ℝ) ℝ),
      (∀ v, r = some v → Cover S T h (lpt hz z) lo hi v) ∧
      sliceOrSample cfg 0 (lpt hz z lo) (lpt hz z hi) ctx r w = (.ok v, w1) ∧
      d = Cx.ofK (lineSign x1 x2 * v.2.sum) ∧ w' = put hz z lo hi v w1 := by
    cases hz with
    | true =>
      have e : sumLine cfg 0 (lpt true z x1) (lpt true z x2) ctx w = retrieveCachedHorizontal cfg 0 x1 x2 z ctx w := by
        unfold sumLine; rw [if_pos (show (lpt true z x1).im = (lpt true z x2).im from rfl)]; rfl
      rw [e, horizontal_run, hmin, hmax] at hr
      rcases hs : sliceOrSample cfg 0 ⟨lo, z⟩ ⟨hi, z⟩ ctx (reuseH w.est.horizontal 0 lo hi z) w with ⟨_ | v, w1⟩ <;> rw [hs] at hr
      · simp at hr
      simp only [Prod.mk.injEq, Except.ok.injEq] at hr
      refine ⟨_, v, w1, ?_, hs, hr.1.symm, hr.2.symm⟩
      intro u hu
      unfold reuseH at hu
      rcases hc : cachedLine w.est.horizontal z 0 lo hi with _ | ⟨s, c⟩ <;> rw [hc] at hu
      · simp at hu
      · obtain ⟨inner, i1, i2⟩ := cachedLine_some hc
        have i3 : ent true w.est z (s.pick lo hi, s) = some c := by
          unfold ent; rw [if_pos rfl, i1]; exact i2
        cases s with
        | start =>
          obtain ⟨hi', j1, j2⟩ := hstart _ i3
          exact j2.cutEnd (fun t => rfl) hh hlo.le j1 hu
        | stop =>
          obtain ⟨lo', j1, j2⟩ := hstop _ i3
          exact Cover.cutStartH hh j2 j1 hlo.le hu
    | false =>
      have e : sumLine cfg 0 (lpt false z x1) (lpt false z x2) ctx w = retrieveCachedVertical cfg 0 x1 x2 z ctx w := by
        unfold sumLine
        rw [if_neg, if_pos (show (lpt false z x1).re = (lpt false z x2).re from rfl)]
        · rfl
        · rcases hx with ⟨rfl, rfl⟩ | ⟨rfl, rfl⟩
          · exact hlo.ne
          · exact hlo.ne'
      rw [e, vertical_run, hmin, hmax] at hr
      rcases hu : reuseV w.est.vertical 0 lo hi z with _ | r <;> rw [hu] at hr
      · simp at hr
      dsimp only at hr
      rcases hs : sliceOrSample cfg 0 ⟨z, lo⟩ ⟨z, hi⟩ ctx r w with ⟨_ | v, w1⟩ <;> rw [hs] at hr
      · simp at hr
      simp only [Prod.mk.injEq, Except.ok.injEq] at hr
      refine ⟨_, v, w1, ?_, hs, hr.1.symm, hr.2.symm⟩
      rintro u rfl
      unfold reuseV at hu
      rcases hc : cachedLine w.est.vertical z 0 lo hi with _ | ⟨s, c⟩ <;> rw [hc] at hu
      · simp at hu
      · obtain ⟨inner, i1, i2⟩ := cachedLine_some hc
        have i3 : ent false w.est z (s.pick lo hi, s) = some c := by
          unfold ent; rw [if_neg Bool.false_ne_true, i1]; exact i2
        cases s with
        | start =>
          obtain ⟨hi', j1, j2⟩ := hstart _ i3
          exact j2.cutEnd (fun t => rfl) hh hlo.le j1 (by simpa using hu)
        | stop =>
          obtain ⟨lo', j1, j2⟩ := hstop _ i3
          exact Cover.cutStartV hh j2 j1 hlo.le hu
  obtain ⟨r, v, w1, m1, m2, rfl, rfl⟩ := main
  obtain ⟨c1, c2, c3, c4, c5⟩ := slice_step ts hh cfg harg hδ hn ctx hf hlo hstep hS hw m1 m2
  obtain ⟨p1, p2, p3⟩ := put_rest hz z lo hi v w1
  refine ⟨rfl, ?_, p1.trans c2, p2.trans c5, p3.trans c4, v, c1, ?_⟩
  · have hcl := c1.close ts (lpt_isLine hz z)
    rcases hx with ⟨rfl, rfl⟩ | ⟨rfl, rfl⟩
    · have : (Cx.ofK (lineSign x1 x2 * v.2.sum)).re = v.2.sum := by simp [lineSign, hlo]
      rw [this]; exact hcl
    · have e : (Cx.ofK (lineSign x1 x2 * v.2.sum)).re = -v.2.sum := by simp [lineSign, not_lt.2 hlo.le]
      rw [e, ts.swap (lpt_isLine hz z) hS le_rfl hlo.le hlo.le le_rfl]
      rw [abs_sub_comm] at hcl
      rw [show -v.2.sum - -T (lpt hz z x2) (lpt hz z x1) = T (lpt hz z x2) (lpt hz z x1) - v.2.sum by ring]
      exact hcl
  · intro hz' z' k u hu
    have := ent_put hz z lo hi v w1 hz' z' k hu
    rw [c3] at this
    exact this

end PyZeal
