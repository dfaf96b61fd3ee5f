import Verif.Proof.SumDefined
import Verif.Proof.SumTotal
import Verif.Proof.Approx
import Verif.Props.Summation
import Verif.Props.Finder

/-! # Property C98: searches with the summation estimator find the zeros -/

set_option linter.unusedSectionVars false

namespace PyZeal.Props
open Spec

/-- A bound for the turn of `f` between neighbouring samples of a line of length at most `L` at distance at least `d` from the `N` zeros. -/
noncomputable def stepTurn (numPts : ℕ) (L d M : ℝ) (N : ℕ) : ℝ := (Real.pi / 2 * (N / d) + M) * (L / ((numPts : ℝ) - 1))

/-- What is asked of the sample size: neighbouring samples are closer than the distance `d` of the zeros to the lines, and between them
`f` turns by less than 1/40 of a full turn. `L` is the longer side, `N` the number of zeros. -/
def FineEnough (numPts : ℕ) (L d M : ℝ) (N : ℕ) : Prop :=
  L / ((numPts : ℝ) - 1) < d ∧ stepTurn numPts L d M N < Real.pi / 20

theorem sumData {cfg : SumCfg ℝ} (harg : ∀ z, cfg.arg z = Complex.arg ⟨z.re, z.im⟩) (hδ : 0 < cfg.deltaPhi) (hn : 2 ≤ cfg.numPts)
    {ctx : RCtx ℝ} (hre : ctx.reRan.1 < ctx.reRan.2) (him : ctx.imRan.1 < ctx.imRan.2)
    {zeros : List (Cx ℝ)} {r g : Cx ℝ → ℝ} {M d : ℝ} (hf : Factored ctx.f (Cell.Has ⟨ctx.reRan, ctx.imRan, 0⟩) zeros r g M)
    (hM : 0 ≤ M) (hd : 0 < d)
    (hfine : FineEnough cfg.numPts (max (ctx.reRan.2 - ctx.reRan.1) (ctx.imRan.2 - ctx.imRan.1)) d M zeros.length)
    (hfar : ∀ re im, Reached ctx.precision zeros ctx.reRan ctx.imRan re im → ∀ z, Cell.Boundary ⟨re, im, 0⟩ z → Far d zeros z) :
    SumData cfg ctx zeros r g M d (max (ctx.reRan.2 - ctx.reRan.1) (ctx.imRan.2 - ctx.imRan.1) / ((cfg.numPts : ℝ) - 1)) := by
  have hpi := Real.pi_pos
  have hN : (0 : ℝ) < (cfg.numPts : ℝ) - 1 := by
    have : (2 : ℝ) ≤ cfg.numPts := by exact_mod_cast hn
    linarith
  obtain ⟨f1, f2⟩ := hfine
  unfold stepTurn at f2
  exact ⟨harg, hδ, hn, hre, him, hf, hM, hd, div_nonneg (le_trans (sub_nonneg.2 hre.le) (le_max_left _ _)) hN.le, f1,
    div_le_div_of_nonneg_right (le_max_left _ _) hN.le, div_le_div_of_nonneg_right (le_max_right _ _) hN.le, by linarith, hfar⟩

theorem simple_open {p : ℤ × ℤ} (c : Cell ℝ) (h : ¬ Cell.Stop Real.pi p c) : Cell.Turns Real.pi c ∧ ¬ Cell.Small p c := by
  unfold Cell.Stop at h
  tauto

/-- C98. Let `f` have the listed zeros (with multiplicity) in the search rectangle and no others, and let none of them be closer than
`d` to a side of a rectangle the search comes to look at. If the sample size is fine enough and the algorithm object is new, then a search by
the simple argument algorithm with the summation estimator, in which no line has the phase exactly 0 (the run with `strictLine` returns),
returns; every phase it computes is correct up to 0.2 turns; the candidates are exactly the final rectangles
with zeros in them (centre, number of zeros); so every zero in the rectangle is near a candidate, every candidate is near a zero,
the orders sum up to the number of zeros, and the work is bounded by the number of zeros. -/
theorem C98_search_partial (cfg : SumCfg ℝ) (harg : ∀ z, cfg.arg z = Complex.arg ⟨z.re, z.im⟩) (hδ : 0 < cfg.deltaPhi) (hn : 2 ≤ cfg.numPts)
    (ctx : RCtx ℝ) (hre : ctx.reRan.1 < ctx.reRan.2) (him : ctx.imRan.1 < ctx.imRan.2)
    (zeros : List (Cx ℝ)) (r g : Cx ℝ → ℝ) (M d : ℝ) (hf : Factored ctx.f (Cell.Has ⟨ctx.reRan, ctx.imRan, 0⟩) zeros r g M)
    (hM : 0 ≤ M) (hd : 0 < d)
    (hfine : FineEnough cfg.numPts (max (ctx.reRan.2 - ctx.reRan.1) (ctx.imRan.2 - ctx.imRan.1)) d M zeros.length)
    (hfar : ∀ re im, Reached ctx.precision zeros ctx.reRan ctx.imRan re im → ∀ z, Cell.Boundary ⟨re, im, 0⟩ z → Far d zeros z)
    (limit : ℕ) (w w' : World (SumState ℝ) ℝ) (hfuse : w.fuse = none) (hest : w.est = SumState.fresh)
    (hr : simpleArgument (strictLine (sumLine cfg)) Real.pi limit ctx w = (.ok (), w')) :
    simpleArgument (sumLine cfg) Real.pi limit ctx w = (.ok (), w') ∧
    (∀ c ∈ newCells w w', |c.phi - 2 * Real.pi * (Cell.count c zeros : ℝ)| < 2 / 10 * (2 * Real.pi)) ∧
    newRoots w w' = ((newCells w w').filter fun c => decide (Cell.Stop Real.pi ctx.precision c ∧ 1 ≤ Cell.count c zeros)).map
      (fun c => (Cell.centre c, (Cell.count c zeros : ℤ))) ∧
    (∀ z ∈ zeros, Cell.HasHalfOpen ⟨ctx.reRan, ctx.imRan, 0⟩ z → ∃ r ∈ newRoots w w', 1 ≤ r.2 ∧
      Near (10 ^ (-ctx.precision.1) / 2, 10 ^ (-ctx.precision.2) / 2) z r.1) ∧
    (∀ r ∈ newRoots w w', 1 ≤ r.2 ∧ ∃ z ∈ zeros, Near (10 ^ (-ctx.precision.1) / 2, 10 ^ (-ctx.precision.2) / 2) z r.1) ∧
    ((newRoots w w').map Prod.snd).sum = Cell.count ⟨ctx.reRan, ctx.imRan, 0⟩ zeros ∧
    ∀ m n, Cell.Below ctx.precision m n ⟨ctx.reRan, ctx.imRan, 0⟩ →
      (newCells w w').length ≤ 1 + 2 * Cell.count ⟨ctx.reRan, ctx.imRan, 0⟩ zeros * (m + n) := by
  have hpi := Real.pi_pos
  have D := sumData harg hδ hn hre him hf hM hd hfine hfar
  have f2 := hfine.2
  unfold stepTurn at f2
  obtain ⟨acc, hno⟩ := sum_search_cells D (simple_stops _ Real.pi ctx) simple_open (quiet_simple _ _) (good_simple hpi ctx) limit w w' hfuse hest hr
  have hplain : simpleArgument (sumLine cfg) Real.pi limit ctx w = (.ok (), w') :=
    (RefEst.strict (sumLine cfg) ctx).calcRoots (simple_stops _ Real.pi ctx) (simple_stops _ Real.pi ctx) limit w () w' hr
  have hacc : ∀ c ∈ newCells w w', |c.phi - 2 * Real.pi * (Cell.count c zeros : ℝ)| < 2 / 10 * (2 * Real.pi) := by
    intro c hc
    have := (acc c hc).2
    linarith
  obtain ⟨a1, a2, a3, a4, a5⟩ := approx_run hpi (sumLine_hits cfg ctx) hplain hacc
  have hfil : (newRoots w w').filter (fun r => decide (r.2 ≠ 0)) = newRoots w w' :=
    List.filter_eq_self.2 fun r hr => decide_eq_true (hno r hr)
  rw [hfil] at a1
  refine ⟨hplain, hacc, a1, a2, fun r hr => ⟨?_, a3 r hr (hno r hr)⟩, a4, a5⟩
  rw [a1] at hr
  obtain ⟨c, hc, rfl⟩ := List.mem_map.1 hr
  have := of_decide_eq_true (List.mem_filter.1 hc).2
  have h2 := this.2
  dsimp only
  omega

/-- the same finder with an estimator that reports lines with phase exactly 0 as errors -/
noncomputable def checked (fd : Finder (SumState ℝ) ℝ) (cfg : SumCfg ℝ) (limit : ℕ) : Finder (SumState ℝ) ℝ :=
  { fd with algorithm := simpleArgument (strictLine (sumLine cfg)) Real.pi limit }

/-- C98 for finders: the first search of a `RootFinder` with the simple argument algorithm, the summation estimator and a
rounding container without filters, under the hypotheses of `C98_search_partial` for the rectangle it searches.
The call returns without warning; every zero in the requested rectangle has a reported root of positive order closer than `10^-(p+1)` in each coordinate,
and every root that is new in the container has positive order, lies in the requested rectangle enlarged by `5 * 10^-(p+1)` and
is closer than `10^-(p+1)` to a zero. -/
theorem C98_finder_partial (fd : Finder (SumState ℝ) ℝ) (cfg : SumCfg ℝ) (harg : ∀ z, cfg.arg z = Complex.arg ⟨z.re, z.im⟩)
    (hδ : 0 < cfg.deltaPhi) (hn : 2 ≤ cfg.numPts) (limit : ℕ) (halg : fd.algorithm = simpleArgument (sumLine cfg) Real.pi limit)
    (hfresh : fd.est = SumState.fresh) (hcont : RoundsFreely fd.container) (re im : ℝ × ℝ) (call : Option (ℤ × ℤ)) (p : ℤ × ℤ)
    (hp : Asked call fd.precision p) (dom : (ℝ × ℝ) × (ℝ × ℝ)) (hdom : dom = desymmetrizeDomain re im (p.1 + 1, p.2 + 1))
    (zeros : List (Cx ℝ)) (r g : Cx ℝ → ℝ) (M d : ℝ) (hf : Factored fd.f (Cell.Has ⟨dom.1, dom.2, 0⟩) zeros r g M)
    (hM : 0 ≤ M) (hd : 0 < d)
    (hfine : FineEnough cfg.numPts (max (dom.1.2 - dom.1.1) (dom.2.2 - dom.2.1)) d M zeros.length)
    (hfar : ∀ re im, Reached (p.1 + 1, p.2 + 1) zeros dom.1 dom.2 re im → ∀ z, Cell.Boundary ⟨re, im, 0⟩ z → Far d zeros z)
    (hr : ((checked fd cfg limit).calculateRoots re im call none).outcome = .ok ())
    (hwarn : ((checked fd cfg limit).calculateRoots re im call none).warned = false) :
    let s := fd.calculateRoots re im call none
    s.outcome = .ok () ∧ s.warned = false ∧
    (∀ z ∈ zeros, Requested re im z → ∃ r ∈ held s.finder.container, 1 ≤ r.2 ∧
      Near (10 ^ (-(p.1 + 1)), 10 ^ (-(p.2 + 1))) z r.1) ∧
    ∀ r ∈ held s.finder.container, r ∈ held fd.container ∨
      (1 ≤ r.2 ∧ RequestedWithin (5 * 10 ^ (-(p.1 + 1)), 5 * 10 ^ (-(p.2 + 1))) re im r.1 ∧
        ∃ z ∈ zeros, Near (10 ^ (-(p.1 + 1)), 10 ^ (-(p.2 + 1))) z r.1) := by
  intro s
  obtain ⟨d1, d2, d3, d4⟩ := C46_domain re im (p.1 + 1, p.2 + 1)
  rw [← hdom] at d1 d2 d3 d4
  have hprec : (fd.ctx re im call).precision = (p.1 + 1, p.2 + 1) := searchPrecision_asked hp
  have hd1 : (fd.ctx re im call).reRan = dom.1 := by
    rw [hdom, ← searchPrecision_asked hp]; rfl
  have hd2 : (fd.ctx re im call).imRan = dom.2 := by
    rw [hdom, ← searchPrecision_asked hp]; rfl
  have hrun : simpleArgument (strictLine (sumLine cfg)) Real.pi limit (fd.ctx re im call) (fd.start none) =
      (.ok (), (simpleArgument (strictLine (sumLine cfg)) Real.pi limit (fd.ctx re im call) (fd.start none)).2) :=
    Prod.ext (calculateRoots_done hr hwarn) rfl
  generalize (simpleArgument (strictLine (sumLine cfg)) Real.pi limit (fd.ctx re im call) (fd.start none)).2 = w' at hrun
  obtain ⟨a1, _, a4, a2, a3, _⟩ := C98_search_partial cfg harg hδ hn (fd.ctx re im call) (by rw [hd1]; exact d1) (by rw [hd2]; exact d2) zeros r g M d
    (by rw [hd1, hd2]; exact hf) hM hd (by rw [hd1, hd2]; exact hfine) (by rw [hd1, hd2, hprec]; exact hfar) limit (fd.start none) w' rfl hfresh hrun
  have hadd : (fd.algorithm (fd.ctx re im call) (fd.start none)).2.added = newRoots (fd.start none) w' := by
    rw [halg, a1]; rfl
  have hhas := C36_candidates_justified (sumLine cfg) Real.pi Real.pi_pos limit (fd.ctx re im call) (sumLine_hits cfg _)
    (by rw [hd1]; exact d1.le) (by rw [hd2]; exact d2.le) (fd.start none)
  rw [a1] at hhas
  dsimp only at hhas
  have hout : s.outcome = .ok () ∧ s.warned = false := by
    simp only [s]
    unfold Finder.calculateRoots
    have : (fd.algorithm (fd.ctx re im call) (fd.start none)).1 = .ok () := by rw [halg, a1]
    dsimp only
    constructor
    · change (match (fd.algorithm (fd.ctx re im call) (fd.start none)).1 with
        | .ok _ => (_ : Search (SumState ℝ) ℝ)
        | .error .keyboardInterrupt => _
        | .error e => _).outcome = _
      rw [this]
    · change (match (fd.algorithm (fd.ctx re im call) (fd.start none)).1 with
        | .ok _ => (_ : Search (SumState ℝ) ℝ)
        | .error .keyboardInterrupt => _
        | .error e => _).warned = _
      rw [this]
  refine ⟨hout.1, hout.2, ?_⟩
  obtain ⟨b1, b2⟩ := serial_report fd hcont re im call p hp none zeros (by rw [hadd]; exact a2)
    (by rw [hadd]; exact fun r hr _ => (a3 r hr).2) (by
      rw [hadd]
      intro q hq
      rcases hhas q hq with h | ⟨c, _, h1, _, _, h2, _, h3⟩
      · exact .inl h
      · obtain ⟨a1, a2, a3, a4, a5, a6⟩ := h1
        refine .inr ⟨h3, ?_⟩
        rw [h2]
        unfold Cell.Has Cell.centre
        dsimp only at a1 a2 a3 a4 a5 a6 ⊢
        refine ⟨?_, ?_, ?_, ?_⟩ <;> linarith)
  refine ⟨b1, fun x hx => (b2 x hx).imp id ?_⟩
  rintro ⟨⟨q, hq, hqx⟩, h | h⟩
  · rw [hadd] at hq
    have := (a3 q hq).1
    omega
  · exact h


/-! ### Non-vacuity of C98: `f(z) = z` on a square round the origin -/

noncomputable def idCfg : SumCfg ℝ where
  numPts := 101
  deltaPhi := 1 / 100
  maxPrecision := 0
  arg := fun z => Complex.arg ⟨z.re, z.im⟩
  evals := fun n => n + 1
  steps := 200

noncomputable def idCtx : RCtx ℝ where
  f := fun z => z
  df := none
  precision := (0, 0)
  reRan := (-1 / 4, 1 / 4)
  imRan := (-1 / 4, 1 / 4)

noncomputable def idWorld : World (SumState ℝ) ℝ :=
  { cache := EstCache.init false, est := SumState.fresh, added := [], advances := [], fuse := none, log := [] }

theorem id_angles : ∀ e ∈ edges idCtx.reRan idCtx.imRan,
    (Complex.arg (toC (idCtx.f e.2)) : Real.Angle) ≠ (Complex.arg (toC (idCtx.f e.1)) : Real.Angle) := by
  intro e he heq
  have key : ∀ a b : Cx ℝ, toC a ≠ 0 → toC b ≠ 0 → a.re * b.im - a.im * b.re ≠ 0 →
      (Complex.arg (toC b) : Real.Angle) = (Complex.arg (toC a) : Real.Angle) → False := by
    intro a b ha hb hab h
    have h1 := sweep_coe (c := 0) ha hb
    simp only [sub_zero] at h1
    rw [h, sub_self] at h1
    have h2 : (toC b / toC a).im ≠ 0 := by
      rw [Complex.div_im]
      have hp : 0 < Complex.normSq (toC a) := Complex.normSq_pos.2 ha
      intro h0
      apply hab
      have : (toC b).im * (toC a).re / Complex.normSq (toC a) - (toC b).re * (toC a).im / Complex.normSq (toC a) =
        ((toC b).im * (toC a).re - (toC b).re * (toC a).im) / Complex.normSq (toC a) := by ring
      rw [this, div_eq_zero_iff] at h0
      rcases h0 with h0 | h0
      · simp only [toC] at h0; linarith
      · exact absurd h0 hp.ne'
    unfold sweep at h1
    simp only [sub_zero] at h1
    have h3 := Real.Angle.coe_eq_zero_iff.1 h1
    obtain ⟨n, hn⟩ := h3
    have l := Complex.neg_pi_lt_arg (toC b / toC a)
    have u := Complex.arg_le_pi (toC b / toC a)
    have hpi := Real.pi_pos
    have hn0 : n = 0 := by
      rw [← hn] at l u
      simp only [zsmul_eq_mul] at l u
      have l1 : (-1 : ℝ) < n := by nlinarith
      have u1 : (n : ℝ) < 1 := by nlinarith
      have l2 : -1 < n := by exact_mod_cast l1
      have u2 : n < 1 := by exact_mod_cast u1
      omega
    rw [hn0, zero_smul] at hn
    exact h2 (Complex.arg_eq_zero_iff.1 hn.symm).2
  have hne : ∀ x y : ℝ, x ≠ 0 → toC ⟨x, y⟩ ≠ 0 := by
    intro x y hx h
    exact hx (congrArg Complex.re h)
  simp only [edges, idCtx, List.mem_cons, List.not_mem_nil, or_false] at he heq
  rcases he with rfl | rfl | rfl | rfl <;>
    exact key _ _ (hne _ _ (by norm_num)) (hne _ _ (by norm_num)) (by norm_num) heq

theorem id_run : ∃ w', simpleArgument (strictLine (sumLine idCfg)) Real.pi 1 idCtx idWorld = (.ok (), w') := by
  have hb : ∀ z, OnBoundary idCtx.reRan idCtx.imRan z → idCtx.f z ≠ 0 := by
    intro z hz h0
    have h0 : z = 0 := h0
    subst h0
    unfold OnBoundary idCtx at hz
    norm_num at hz
  obtain ⟨phi, w1, h1, h2⟩ := strict_moment_defined idCfg (fun _ => rfl) (by norm_num [idCfg]) (by norm_num [idCfg]) idCtx idCtx.reRan idCtx.imRan
    (by norm_num [idCtx]) (by norm_num [idCtx]) idWorld rfl rfl (fun _ _ => rfl) (fun _ _ => rfl) hb
    (fun u v w hw => C25_terminates idCfg (by norm_num [idCfg]) (by norm_num [idCfg]) u v idCtx w hw [0] (by simp [idCtx])
      (by simp [idCfg]) (by norm_num [idCfg])) id_angles
  unfold simpleArgument calcRoots
  rw [Py.bind_run]
  have e : (resetCache : Py (World (SumState ℝ) ℝ) Unit) idWorld = (.ok (), idWorld) := by
    unfold resetCache; rw [Py.modify_run]; rfl
  rw [e]
  dsimp only
  unfold phaseOf
  rw [Py.bind_run, Py.bind_run, h1]
  simp only [Py.bind_run, Py.modify_run, Py.pure_run]
  have hs : Cell.Stop Real.pi idCtx.precision ⟨idCtx.reRan, idCtx.imRan, phi.re⟩ := by
    right; unfold Cell.Small idCtx; norm_num
  have := ((simple_stops (strictLine (sumLine idCfg)) Real.pi idCtx) (dispatch (simpleDecide (strictLine (sumLine idCfg)) Real.pi) 0)
    ⟨idCtx.reRan, idCtx.imRan, phi.re⟩).1 hs
  change ∃ w', (simpleDecide (strictLine (sumLine idCfg)) Real.pi (dispatch (simpleDecide (strictLine (sumLine idCfg)) Real.pi) 0)).at idCtx
    ⟨idCtx.reRan, idCtx.imRan, phi.re⟩ _ = (.ok (), w')
  rw [this]
  unfold simpleAct
  have hadv : ∀ (a : ℝ) (w : World (SumState ℝ) ℝ), World.advance idCtx a w = (.ok (), w) := by
    intro a w; rfl
  split
  · exact ⟨_, hadv _ _⟩
  · rw [Py.bind_run, World.addRoot_none (w := { w1 with log := w1.log ++ [⟨idCtx.reRan, idCtx.imRan, phi.re⟩] }) h2]
    exact ⟨_, hadv _ _⟩

theorem id_fine : FineEnough idCfg.numPts (max (idCtx.reRan.2 - idCtx.reRan.1) (idCtx.imRan.2 - idCtx.imRan.1)) (1 / 4) 0 [(0 : Cx ℝ)].length := by
  have hpi := Real.pi_pos
  unfold FineEnough stepTurn
  simp only [idCfg, idCtx, List.length_singleton]
  norm_num
  linarith

theorem id_far : ∀ re im, Reached idCtx.precision [0] idCtx.reRan idCtx.imRan re im → ∀ z, Cell.Boundary ⟨re, im, 0⟩ z → Far (1 / 4) [0] z := by
  intro re im hob z hz
  have hwhole : re = (-1 / 4, 1 / 4) ∧ im = (-1 / 4, 1 / 4) := by
    have hsmall : Cell.Small (0, 0) ⟨((-1 / 4 : ℝ), 1 / 4), (-1 / 4, 1 / 4), 0⟩ := by unfold Cell.Small; norm_num
    have : ∀ re im, Reached (0, 0) [0] ((-1 / 4 : ℝ), (1 / 4 : ℝ)) (-1 / 4, 1 / 4) re im → re = (-1 / 4, 1 / 4) ∧ im = (-1 / 4, 1 / 4) := by
      intro re im h
      induction h with
      | whole => exact ⟨rfl, rfl⟩
      | left _ h _ _ ih => rw [ih.1, ih.2] at h; exact absurd hsmall h
      | right _ h _ _ ih => rw [ih.1, ih.2] at h; exact absurd hsmall h
      | lower _ h _ _ ih => rw [ih.1, ih.2] at h; exact absurd hsmall h
      | upper _ h _ _ ih => rw [ih.1, ih.2] at h; exact absurd hsmall h
    exact this re im hob
  obtain ⟨rfl, rfl⟩ := hwhole
  intro c hc
  rw [List.mem_singleton] at hc
  subst hc
  obtain ⟨⟨h1, h2, h3, h4⟩, h5⟩ := hz
  simp only [Cx.zero_re, Cx.zero_im, sub_zero] at h1 h2 h3 h4 ⊢
  by_contra hlt
  push Not at hlt
  refine h5 ⟨?_, ?_, ?_, ?_⟩ <;> simp only <;> nlinarith [sq_nonneg z.re, sq_nonneg z.im]

/-- all hypotheses of `C98_search_partial` are met: the zero at the origin is found -/
example : ∃ w', simpleArgument (sumLine idCfg) Real.pi 1 idCtx idWorld = (.ok (), w') ∧
    ∃ r ∈ newRoots idWorld w', 1 ≤ r.2 ∧ Near ((10 : ℝ) ^ (-(0 : ℤ)) / 2, (10 : ℝ) ^ (-(0 : ℤ)) / 2) 0 r.1 := by
  obtain ⟨w', hr⟩ := id_run
  obtain ⟨a, _, _, b, _⟩ := C98_search_partial idCfg (fun _ => rfl) (by norm_num [idCfg]) (by norm_num [idCfg]) idCtx (by norm_num [idCtx])
    (by norm_num [idCtx]) [0] (fun _ => 1) (fun _ => 0) 0 (1 / 4)
    ⟨fun _ _ => one_pos, fun z _ => by ext <;> simp [idCtx], fun a b _ _ => by simp⟩ le_rfl (by norm_num)
    id_fine id_far
    1 idWorld w' rfl rfl hr
  exact ⟨w', a, b 0 (by simp) (by unfold Cell.HasHalfOpen idCtx; norm_num)⟩

/-! ### C98 is false without the hypothesis on lines with phase 0 -/

/-- the argument of `z` in quarter turns, rounded down to whole quarters: one full turn round the origin -/
def sector (z : Cx ℚ) : Cx ℚ :=
  if 0 ≤ z.im then (if 0 < z.re then 1 else ⟨0, 1⟩) else (if z.re < 0 then ⟨-1, 0⟩ else ⟨0, -1⟩)

/-- turns once round each of the two points -/
def sectors (z : Cx ℚ) : Cx ℚ := sector (z - ⟨-13/10, -13/4⟩) * sector (z - ⟨13/10, 13/4⟩)

/-- the search rectangle of the counterexample -/
def symCtx : RCtx ℚ := ⟨sectors, none, (0, 0), (-4, 4), (-7/2, 7/2), false⟩

/-- C98 is false of the code without the hypothesis that no line has the phase exactly 0 (here in units of quarter turns,
with eight support points per line). The function turns once round each of two points in the rectangle, the first phase the search computes
is the correct 8 = 2 full turns, and the search returns normally, but with one candidate only: the other point is
lost. A line of the first split has phase 0; the shared cache stores the 0 but treats it as missing, so the line is evaluated
again from the internal cache, which has been overwritten by a shorter line. -/
theorem C98_counterexample :
    ∃ (cfg : SumCfg ℚ) (ctx : RCtx ℚ) (w w' : World (SumState ℚ) ℚ) (z1 z2 : Cx ℚ),
      w.est = SumState.fresh ∧ w.fuse = none ∧ (∀ z, ctx.f z = sector (z - z1) * sector (z - z2)) ∧
      Cell.Has ⟨ctx.reRan, ctx.imRan, 0⟩ z1 ∧ Cell.Has ⟨ctx.reRan, ctx.imRan, 0⟩ z2 ∧
      w' = (simpleArgument (sumLine cfg) 2 20 ctx w).2 ∧
      (simpleArgument (sumLine cfg) 2 20 ctx w).1.toOption = some () ∧
      (newCells w w').head?.map Cell.phi = some 8 ∧
      newRoots w w' = [(⟨-5/4, -49/16⟩, 1)] ∧
      ¬ Near (1 / 2, 1 / 2) z2 ⟨-5/4, -49/16⟩ := by
  refine ⟨exCfg 8 10, symCtx, freshWorld, _, ⟨-13/10, -13/4⟩, ⟨13/10, 13/4⟩, rfl, rfl, fun _ => rfl, ?_, ?_, rfl, ?_, ?_, ?_, ?_⟩
  · unfold Cell.Has symCtx; norm_num
  · unfold Cell.Has symCtx; norm_num
  · decide +kernel
  · decide +kernel
  · decide +kernel
  · unfold Near; norm_num [abs_of_nonneg, abs_of_pos]

end PyZeal.Props
