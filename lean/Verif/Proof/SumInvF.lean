import Verif.Proof.CoverF
import Verif.Proof.TreeGrid
import Verif.Proof.SumTree

/-! # Invariant of searches with the summation estimator in floating point arithmetic -/

set_option linter.unusedSectionVars false

namespace PyZeal
open Spec

/-- what is used of a rectangle: its corners are machine numbers of size at most `R`, its sides are sampled finely and in `D` -/
structure TGrid.Ready (G : TGrid) (A : FloatOps ℝ) (S : SumOps ℝ) (u R h : ℝ) (D : Cx ℝ → Prop) (p : List Bool) : Prop where
  mach : ∀ hz, Machine A.fl (G.elo p hz) ∧ Machine A.fl (G.ehi p hz)
  bound : ∀ hz, |G.elo p hz| ≤ R ∧ |G.ehi p hz| ≤ R
  step : ∀ hz, (G.ehi p hz - G.elo p hz) / ((S.numPts : ℝ) - 1) + 18 * u * R ≤ h
  clear : ∀ hz b t, G.elo p hz ≤ t → t ≤ G.ehi p hz → D (lpt hz (G.ez p hz b) t)

theorem TGrid.Ready.mez {G : TGrid} {A : FloatOps ℝ} {S : SumOps ℝ} {u R h : ℝ} {D : Cx ℝ → Prop} {p : List Bool}
    (hp : G.Ready A S u R h D p) (hz b : Bool) : Machine A.fl (G.ez p hz b) := by
  unfold TGrid.ez
  cases b
  · exact (hp.mach (!hz)).1
  · exact (hp.mach (!hz)).2

theorem lpt_machine {fl : ℝ → ℝ} (hz : Bool) {z : ℝ} (h : Machine fl z) : MachineLine fl (lpt hz z) := by
  cases hz
  · exact .inr ⟨z, h, rfl⟩
  · exact .inl ⟨z, h, rfl⟩

variable {A : FloatOps ℝ} {u : ℝ} {S : SumOps ℝ} {N : ℕ} {δ γ : ℝ} {D : Cx ℝ → Prop} {T : Cx ℝ → Cx ℝ → ℝ} {h eta R : ℝ} {ctx : RCtx ℝ}

/-- the line that is summed: a slice of cached data or a fresh sample -/
theorem slice_stepF (F : FineLine A u S N δ γ ctx.f D T h eta) (hh : 0 ≤ h) {hz : Bool} {z lo hi : ℝ} (hlo : lo < hi) (hstep : (hi - lo) / ((S.numPts : ℝ) - 1) + 18 * u * R ≤ h)
    (hzm : Machine A.fl z) (hlo1 : Machine A.fl lo) (hhi1 : Machine A.fl hi) (hlo2 : |lo| ≤ R) (hhi2 : |hi| ≤ R)
    (hS : ∀ t, lo ≤ t → t ≤ hi → D (lpt hz z t)) {w w' : World (SumState ℝ) ℝ} (hw : w.fuse = none) {r : Option (PhiLine ℝ)}
    (hr : ∀ v, r = some v → CoverF S ctx.f D N h (lpt hz z) lo hi v) {v : PhiLine ℝ}
    (hs : sliceOrSampleF A S 0 (lpt hz z lo) (lpt hz z hi) ctx r w = (.ok v, w')) :
    CoverF S ctx.f D N h (lpt hz z) lo hi v ∧ w'.cache = w.cache ∧ w'.est = w.est ∧ w'.added = w.added ∧ w'.fuse = none := by
  cases r with
  | some u =>
    simp only [sliceOrSampleF, Py.pure_run, Prod.mk.injEq, Except.ok.injEq] at hs
    obtain ⟨rfl, rfl⟩ := hs
    exact ⟨hr _ rfl, rfl, rfl, rfl, hw⟩
  | none =>
    simp only [sliceOrSampleF] at hs
    obtain ⟨rfl, hc⟩ := CoverF.sample F (lpt_machine hz hzm) hlo.le hlo1 hhi1 hlo2 hhi2 hh hstep hS hs
    exact ⟨hc, rfl, rfl, rfl, hw⟩

theorem line_stepF (F : FineLine A u S N δ γ ctx.f D T h eta) (hh : 0 ≤ h) {hz : Bool} {z lo hi x1 x2 : ℝ} (hlo : lo < hi) (hx : (x1 = lo ∧ x2 = hi) ∨ (x1 = hi ∧ x2 = lo))
    (hstep : (hi - lo) / ((S.numPts : ℝ) - 1) + 18 * u * R ≤ h)
    (hzm : Machine A.fl z) (hlo1 : Machine A.fl lo) (hhi1 : Machine A.fl hi) (hlo2 : |lo| ≤ R) (hhi2 : |hi| ≤ R)
    (hS : ∀ t, lo ≤ t → t ≤ hi → D (lpt hz z t)) {w w' : World (SumState ℝ) ℝ} (hw : w.fuse = none)
    (hstart : ∀ v, ent hz w.est z (lo, .start) = some v → ∃ hi', hi ≤ hi' ∧ CoverF S ctx.f D N h (lpt hz z) lo hi' v)
    (hstop : ∀ v, ent hz w.est z (hi, .stop) = some v → ∃ lo', lo' ≤ lo ∧ CoverF S ctx.f D N h (lpt hz z) lo' hi v)
    {d : Cx ℝ} (hr : sumLineF A S 0 (lpt hz z x1) (lpt hz z x2) ctx w = (.ok d, w')) :
    d.im = 0 ∧ LineTurn (lineErr N δ γ + 2 * eta) (lineMax N γ) T (lpt hz z x1) (lpt hz z x2) d.re ∧ w'.cache = w.cache ∧ w'.fuse = none ∧ w'.added = w.added ∧
      ∃ v, CoverF S ctx.f D N h (lpt hz z) lo hi v ∧ ∀ hz' z' k u, ent hz' w'.est z' k = some u →
        (hz' = hz ∧ z' = z ∧ (k = (hi, .stop) ∨ k = (lo, .start)) ∧ u = v) ∨ ent hz' w.est z' k = some u := by
  have hmin : min x1 x2 = lo := by rcases hx with ⟨rfl, rfl⟩ | ⟨rfl, rfl⟩ <;> simp [hlo.le]
  have hmax : max x1 x2 = hi := by rcases hx with ⟨rfl, rfl⟩ | ⟨rfl, rfl⟩ <;> simp [hlo.le]
  have main : ∃ (r : Option (PhiLine ℝ)) (v : PhiLine ℝ) (w1 : World (SumState ℝ) ℝ),
      (∀ v, r = some v → CoverF S ctx.f D N h (lpt hz z) lo hi v) ∧
      sliceOrSampleF A S 0 (lpt hz z lo) (lpt hz z hi) ctx r w = (.ok v, w1) ∧
      d = Cx.ofK (lineSign x1 x2 * S.sum v.2) ∧ w' = put hz z lo hi v w1 := by
    cases hz with
    | true =>
      have e : sumLineF A S 0 (lpt true z x1) (lpt true z x2) ctx w = retrieveCachedHorizontalF A S 0 x1 x2 z ctx w := by
        unfold sumLineF; rw [if_pos (show (lpt true z x1).im = (lpt true z x2).im from rfl)]; rfl
      rw [e, horizontalF_run, hmin, hmax] at hr
      rcases hs : sliceOrSampleF A S 0 ⟨lo, z⟩ ⟨hi, z⟩ ctx (reuseH w.est.horizontal 0 lo hi z) w with ⟨_ | v, w1⟩ <;> rw [hs] at hr
      · simp at hr
      simp only [Prod.mk.injEq, Except.ok.injEq] at hr
      refine ⟨_, v, w1, ?_, hs, hr.1.symm, hr.2.symm⟩
      intro u hu
      unfold reuseH at hu
      rcases hc : cachedLine w.est.horizontal z 0 lo hi with _ | ⟨s, c⟩ <;> rw [hc] at hu
      · simp at hu
      · obtain ⟨inner, i1, i2⟩ := cachedLine_some hc
        have i3 : ent true w.est z (s.pick lo hi, s) = some c := by
          unfold ent; rw [if_pos rfl, i1]; exact i2
        cases s with
        | start =>
          obtain ⟨hi', j1, j2⟩ := hstart _ i3
          exact j2.cutEnd (fun t => rfl) hh hlo.le j1 hu
        | stop =>
          obtain ⟨lo', j1, j2⟩ := hstop _ i3
          exact CoverF.cutStartH hh j2 j1 hlo.le hu
    | false =>
      have e : sumLineF A S 0 (lpt false z x1) (lpt false z x2) ctx w = retrieveCachedVerticalF A S 0 x1 x2 z ctx w := by
        unfold sumLineF
        rw [if_neg, if_pos (show (lpt false z x1).re = (lpt false z x2).re from rfl)]
        · rfl
        · rcases hx with ⟨rfl, rfl⟩ | ⟨rfl, rfl⟩
          · exact hlo.ne
          · exact hlo.ne'
      rw [e, verticalF_run, hmin, hmax] at hr
      rcases hu : reuseV w.est.vertical 0 lo hi z with _ | r <;> rw [hu] at hr
      · simp at hr
      dsimp only at hr
      rcases hs : sliceOrSampleF A S 0 ⟨z, lo⟩ ⟨z, hi⟩ ctx r w with ⟨_ | v, w1⟩ <;> rw [hs] at hr
      · simp at hr
      simp only [Prod.mk.injEq, Except.ok.injEq] at hr
      refine ⟨_, v, w1, ?_, hs, hr.1.symm, hr.2.symm⟩
      rintro u rfl
      unfold reuseV at hu
      rcases hc : cachedLine w.est.vertical z 0 lo hi with _ | ⟨s, c⟩ <;> rw [hc] at hu
      · simp at hu
      · obtain ⟨inner, i1, i2⟩ := cachedLine_some hc
        have i3 : ent false w.est z (s.pick lo hi, s) = some c := by
          unfold ent; rw [if_neg Bool.false_ne_true, i1]; exact i2
        cases s with
        | start =>
          obtain ⟨hi', j1, j2⟩ := hstart _ i3
          exact j2.cutEnd (fun t => rfl) hh hlo.le j1 (by simpa using hu)
        | stop =>
          obtain ⟨lo', j1, j2⟩ := hstop _ i3
          exact CoverF.cutStartV hh j2 j1 hlo.le hu
  obtain ⟨r, v, w1, m1, m2, rfl, rfl⟩ := main
  obtain ⟨c1, c2, c3, c4, c5⟩ := slice_stepF F hh hlo hstep hzm hlo1 hhi1 hlo2 hhi2 hS hw m1 m2
  obtain ⟨p1, p2, p3⟩ := put_rest hz z lo hi v w1
  refine ⟨rfl, ?_, p1.trans c2, p2.trans c5, p3.trans c4, v, c1, ?_⟩
  · obtain ⟨q1, q2⟩ := c1.close F (lpt_isLine hz z)
    rcases hx with ⟨rfl, rfl⟩ | ⟨rfl, rfl⟩
    · have : (Cx.ofK (lineSign x1 x2 * S.sum v.2)).re = S.sum v.2 := by simp [lineSign, hlo]
      rw [this]; exact ⟨q1, q2⟩
    · have e : (Cx.ofK (lineSign x1 x2 * S.sum v.2)).re = -S.sum v.2 := by simp [lineSign, not_lt.2 hlo.le]
      rw [e]
      refine ⟨by rwa [abs_neg], ?_⟩
      rw [F.turns.swap (lpt_isLine hz z) hS le_rfl hlo.le hlo.le le_rfl]
      rw [abs_sub_comm] at q2
      rw [show -S.sum v.2 - -T (lpt hz z x2) (lpt hz z x1) = T (lpt hz z x2) (lpt hz z x1) - S.sum v.2 by ring]
      exact q2
  · intro hz' z' k u hu
    have := ent_put hz z lo hi v w1 hz' z' k hu
    rw [c3] at this
    exact this

/-- `e` is an oriented edge of a completed rectangle -/
def DoneEdgeF (G : TGrid) (Done : List Bool → Prop) (e : Cx ℝ × Cx ℝ) : Prop := ∃ m, Done m ∧ ∃ hz b, e = G.own m hz b

/-- invariant of a search; `VB` are the rectangles with cached lines, `VD` the evaluated, `Done` the completed ones -/
structure SumInvF (G : TGrid) (S : SumOps ℝ) (f : Cx ℝ → Cx ℝ) (D : Cx ℝ → Prop) (T : Cx ℝ → Cx ℝ → ℝ) (N : ℕ) (h E B : ℝ) (VB VD Done : List Bool → Prop)
    (w : World (SumState ℝ) ℝ) : Prop where
  wf : CacheWF w.cache
  fuse : w.fuse = none
  up : ∀ q, VD q → ∀ n, n <:+ q → VD n
  done : ∀ q, Done q → VD q
  line : ∀ hz z x s v, ent hz w.est z (x, s) = some v → ∃ q b, VB q ∧ z = G.ez q hz b ∧ x = s.pick (G.elo q hz) (G.ehi q hz) ∧
    CoverF S f D N h (lpt hz z) (G.elo q hz) (G.ehi q hz) v
  val : ∀ a b v, w.cache.look 0 a b = some v → v ≠ 0 ∧ v.im = 0 ∧ LineTurn E B T a b v.re
  kept : ∀ q, VD q → ∀ hz b e, (e = G.own q hz b ∨ e = (G.own q hz b).swap) → Has w.cache e ∨ DoneEdgeF G Done e
  sym : ∀ e, Has w.cache e → Has w.cache e.swap ∨ DoneEdgeF G Done e.swap

variable {G : TGrid} {VD Done : List Bool → Prop}

/-- cached data with a common end covers the line to be evaluated -/
theorem SumInvF.no_finer {E B : ℝ} {f : Cx ℝ → Cx ℝ} {w : World (SumState ℝ) ℝ} {p : List Bool} (hI : SumInvF G S f D T N h E B (fun q => VD q ∨ q = p) VD Done w)
    (hnew : ∀ q, VD q → ¬ p <:+ q) (hdone : ∀ m, Done m → ¬ m <:+ p) {hz b b' : Bool}
    (hmiss : ¬ Has w.cache (G.own p hz b)) {q : List Bool} (hq : VD q ∨ q = p) (h1 : G.ez q hz b' = G.ez p hz b)
    (h2 : G.elo q hz = G.elo p hz ∨ G.ehi q hz = G.ehi p hz) : G.elo q hz ≤ G.elo p hz ∧ G.ehi p hz ≤ G.ehi q hz := by
  by_contra hk
  have hq : VD q := hq.resolve_right (by rintro rfl; exact hk ⟨le_rfl, le_rfl⟩)
  rcases G.finer h1 h2 hk with hdesc | ⟨n, e0, e1, e2, e3⟩
  · exact hnew q hq hdesc
  · have hn := hI.up q hq n e0
    rcases hI.kept _ hn hz (!b) (G.own p hz b) (.inr (G.own_swap e1 e2 e3).symm) with hh | ⟨m, hm, hz', b'', he⟩
    · exact hmiss hh
    · rcases G.own_eq he.symm with hd | hd
      · exact hdone m hm hd
      · exact hnew m (hI.done m hm) hd

theorem edge_invF (F : FineLine A u S N δ γ ctx.f D T h eta) (hh : 0 ≤ h) {p : List Bool}
    (hnew : ∀ q, VD q → ¬ p <:+ q) (hdone : ∀ m, Done m → ¬ m <:+ p) (hS : G.Ready A S u R h D p) (hz b : Bool)
    {w w' : World (SumState ℝ) ℝ} (hI : SumInvF G S ctx.f D T N h (lineErr N δ γ + 2 * eta) (lineMax N γ) (fun q => VD q ∨ q = p) VD Done w) {d : Cx ℝ}
    (hr : edgeMoment (strictLine (sumLineF A S)) 0 ctx (G.own p hz b) w = (.ok d, w')) :
    SumInvF G S ctx.f D T N h (lineErr N δ γ + 2 * eta) (lineMax N γ) (fun q => VD q ∨ q = p) VD Done w' ∧
    (d.im = 0 ∧ LineTurn (lineErr N δ γ + 2 * eta) (lineMax N γ) T (G.own p hz b).1 (G.own p hz b).2 d.re) ∧
    (∀ e, (e = G.own p hz b ∨ e = (G.own p hz b).swap) → Has w'.cache e ∨ DoneEdgeF G Done e) ∧
    (∀ e, Has w.cache e → Has w'.cache e) ∧ w'.added = w.added := by
  rw [edgeMoment_run] at hr
  dsimp only at hr
  -- the counters of the cache
  have hlook : ∀ o x y, (w.cache.retrieve 0 (G.own p hz b).1 (G.own p hz b).2).2.look o x y = w.cache.look o x y :=
    fun o x y => EstCache.look_retrieve _ _ _ _ _ _ _
  have hI1 : SumInvF G S ctx.f D T N h (lineErr N δ γ + 2 * eta) (lineMax N γ) (fun q => VD q ∨ q = p) VD Done
      { w with cache := (w.cache.retrieve 0 (G.own p hz b).1 (G.own p hz b).2).2 } := by
    refine ⟨hI.wf.of_data (w.cache.retrieve_data _ _ _), hI.fuse, hI.up, hI.done, hI.line, ?_, ?_, ?_⟩
    · intro x y v hv; exact hI.val x y v ((hlook _ _ _).symm.trans hv)
    · intro q hq hz' b' e he
      rcases hI.kept q hq hz' b' e he with ⟨v, hv⟩ | h
      · exact .inl ⟨v, (hlook _ _ _).trans hv⟩
      · exact .inr h
    · rintro e ⟨v, hv⟩
      rcases hI.sym e ⟨v, (hlook _ _ _).symm.trans hv⟩ with ⟨u, hu⟩ | h
      · exact .inl ⟨u, (hlook _ _ _).trans hu⟩
      · exact .inr h
  have hmono1 : ∀ e, Has w.cache e → Has (w.cache.retrieve 0 (G.own p hz b).1 (G.own p hz b).2).2 e :=
    fun e ⟨v, hv⟩ => ⟨v, (hlook _ _ _).trans hv⟩
  rcases hv : w.cache.look 0 (G.own p hz b).1 (G.own p hz b).2 with _ | v <;> rw [hv] at hr
  swap
  · -- cached
    obtain ⟨v1, v2, v3⟩ := hI.val _ _ _ hv
    dsimp only at hr
    rw [if_pos v1] at hr
    simp only [Prod.mk.injEq, Except.ok.injEq] at hr
    obtain ⟨rfl, rfl⟩ := hr
    refine ⟨hI1, ⟨v2, v3⟩, ?_, hmono1, rfl⟩
    rintro e (rfl | rfl)
    · exact .inl ⟨v, (hlook _ _ _).trans hv⟩
    · rcases hI.sym (G.own p hz b) ⟨v, hv⟩ with hs | hs
      · exact .inl (hmono1 _ hs)
      · exact .inr hs
  · -- evaluated
    have hmiss : ¬ Has w.cache (G.own p hz b) := by rintro ⟨v, hv'⟩; rw [hv] at hv'; simp at hv'
    generalize hw1 : ({ w with cache := (w.cache.retrieve 0 (G.own p hz b).1 (G.own p hz b).2).2 } : World (SumState ℝ) ℝ) = w1 at *
    have hadd1 : w1.added = w.added := by rw [← hw1]
    have hent1 : w1.est = w.est := by rw [← hw1]
    have hmono1' : ∀ e, Has w.cache e → Has w1.cache e := by rw [← hw1]; exact hmono1
    have hmiss1 : ¬ Has w1.cache (G.own p hz b) := by
      rw [← hw1]; rintro ⟨v, hv'⟩; exact hmiss ⟨v, (hlook _ _ _).symm.trans hv'⟩
    dsimp only at hr
    rw [compute_run, World.tick_none hI1.fuse] at hr
    dsimp only at hr
    unfold strictLine at hr
    rcases hs : sumLineF A S 0 (G.own p hz b).1 (G.own p hz b).2 ctx w1 with ⟨_ | d', w2⟩ <;> rw [hs] at hr
    · simp at hr
    dsimp only at hr
    by_cases hd0 : d' = 0
    · rw [if_pos hd0] at hr; simp at hr
    rw [if_neg hd0] at hr
    simp only [Prod.mk.injEq, Except.ok.injEq] at hr
    obtain ⟨rfl, rfl⟩ := hr
    obtain ⟨x1, x2, e1, e2⟩ := G.own_ends p hz b
    have hlt := G.elo_lt p hz
    have hnf := fun (q : List Bool) (b' : Bool) => hI1.no_finer hnew hdone (b' := b') hmiss1 (q := q)
    rw [e1] at hs
    have step := line_stepF F hh hlt e2 (hS.step hz) (hS.mez hz b) (hS.mach hz).1 (hS.mach hz).2 (hS.bound hz).1 (hS.bound hz).2 (hS.clear hz b) hI1.fuse
      (by
        intro v hv
        obtain ⟨q, b', q1, q2, q3, q4⟩ := hI1.line _ _ _ _ _ hv
        refine ⟨G.ehi q hz, (hnf q b' q1 q2.symm (.inl q3.symm)).2, ?_⟩
        rw [show G.elo p hz = G.elo q hz from q3]
        exact q4)
      (by
        intro v hv
        obtain ⟨q, b', q1, q2, q3, q4⟩ := hI1.line _ _ _ _ _ hv
        refine ⟨G.elo q hz, (hnf q b' q1 q2.symm (.inr q3.symm)).1, ?_⟩
        rw [show G.ehi p hz = G.ehi q hz from q3]
        exact q4) hs
    obtain ⟨s1, s2, s3, s4, s5, v, s6, s7⟩ := step
    have hTswap : T (lpt hz (G.ez p hz b) x2) (lpt hz (G.ez p hz b) x1) = -T (lpt hz (G.ez p hz b) x1) (lpt hz (G.ez p hz b) x2) := by
      rcases e2 with ⟨rfl, rfl⟩ | ⟨rfl, rfl⟩
      · exact F.turns.swap (lpt_isLine _ _) (hS.clear hz b) le_rfl hlt.le hlt.le le_rfl
      · exact F.turns.swap (lpt_isLine _ _) (hS.clear hz b) hlt.le le_rfl le_rfl hlt.le
    have hhas : ∀ e, Has w1.cache e → Has ((w2.cache.store 0 (G.own p hz b).1 (G.own p hz b).2 d').store 0
        (G.own p hz b).2 (G.own p hz b).1 (-d')) e := by
      intro e he
      refine Has.mono_store (Has.mono_store ?_)
      rw [s3]; exact he
    have hhas1 : Has ((w2.cache.store 0 (G.own p hz b).1 (G.own p hz b).2 d').store 0
        (G.own p hz b).2 (G.own p hz b).1 (-d')) (G.own p hz b) := Has.mono_store (has_store _ _ _ _)
    have hhas2 : Has ((w2.cache.store 0 (G.own p hz b).1 (G.own p hz b).2 d').store 0
        (G.own p hz b).2 (G.own p hz b).1 (-d')) (G.own p hz b).swap := has_store _ _ _ _
    refine ⟨⟨?_, s4, hI.up, hI.done, ?_, ?_, ?_, ?_⟩, ⟨s1, ?_⟩, ?_, fun e he => hhas e (hmono1' e he), s5.trans hadd1⟩
    · refine CacheWF.store (CacheWF.store ?_ _ _ _ _) _ _ _ _
      rw [s3]; exact hI1.wf
    · intro hz' z' x s u hu
      rcases s7 hz' z' _ u hu with ⟨rfl, rfl, hk, rfl⟩ | hu
      · refine ⟨p, b, .inr rfl, rfl, ?_, s6⟩
        rcases hk with hk | hk <;> rw [Prod.mk.injEq] at hk <;> obtain ⟨rfl, rfl⟩ := hk <;> rfl
      · exact hI1.line _ _ _ _ _ hu
    · intro x y u hu
      simp only [EstCache.look_store] at hu
      split at hu
      · rename_i hxy
        obtain ⟨_, rfl, rfl⟩ := hxy
        obtain rfl := Option.some.inj hu
        refine ⟨neg_ne_zero.2 hd0, by simp [s1], ?_⟩
        rw [e1]
        simp only [Cx.neg_re]
        refine ⟨by rw [abs_neg]; exact s2.1, ?_⟩
        rw [hTswap, ← abs_neg]
        rw [show -(-d'.re - -T (lpt hz (G.ez p hz b) x1) (lpt hz (G.ez p hz b) x2)) = d'.re - T (lpt hz (G.ez p hz b) x1) (lpt hz (G.ez p hz b) x2) by ring]
        exact s2.2
      · split at hu
        · rename_i hxy
          obtain ⟨_, rfl, rfl⟩ := hxy
          obtain rfl := Option.some.inj hu
          refine ⟨hd0, s1, ?_⟩
          rw [e1]
          exact s2
        · rw [s3] at hu; exact hI1.val _ _ _ hu
    · intro q hq hz' b' e he
      rcases hI1.kept q hq hz' b' e he with hh | hh
      · exact .inl (hhas e hh)
      · exact .inr hh
    · intro e he
      rcases has_store_iff he with rfl | he
      · exact .inl hhas1
      · rcases has_store_iff he with rfl | he
        · exact .inl hhas2
        · rw [s3] at he
          rcases hI1.sym e he with hh | hh
          · exact .inl (hhas _ hh)
          · exact .inr hh
    · rw [e1]; exact s2
    · rintro e (rfl | rfl)
      · exact .inl hhas1
      · exact .inl hhas2

end PyZeal
