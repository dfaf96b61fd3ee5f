import Verif.Props.EndToEnd

/-! # Property C138: the Newton variant with the summation estimator and scipy's solver -/

set_option linter.unusedSectionVars false

namespace PyZeal.Props
open Spec Settings

/-- C138. Search with the Newton variant, the summation estimator and scipy's solver, with or without derivative, under the hypotheses of C98 (`Factored`, `FineEnough`, `Far`, `Safe`); moreover `f` has a
derivative `df` which is steady near the zeros the search isolates in rectangles with sides below 0.1. The search returns; every zero in the rectangle has a candidate of positive order closer
than `10^-p` in each coordinate; every candidate has positive order and is that close to a zero in the rectangle. -/
theorem C138_search (abs : Cx ℝ → ℝ) (habs : ∀ z, abs z = √(z.re ^ 2 + z.im ^ 2)) (arr) (cfg : SumCfg ℝ) (harg : ∀ z, cfg.arg z = Complex.arg ⟨z.re, z.im⟩) (hδ : 0 < cfg.deltaPhi) (hn : 2 ≤ cfg.numPts)
    (ctx : RCtx ℝ) (df : Cx ℝ → Cx ℝ) (hdf : ctx.df = none ∨ ctx.df = some df) (hre : ctx.reRan.1 < ctx.reRan.2) (him : ctx.imRan.1 < ctx.imRan.2) (hp1 : ctx.precision.1 ≤ 19) (hp2 : ctx.precision.2 ≤ 19)
    (zeros : List (Cx ℝ)) (r g : Cx ℝ → ℝ) (M d : ℝ) (hf : Factored ctx.f (Cell.Has ⟨ctx.reRan, ctx.imRan, 0⟩) zeros r g M) (hM : 0 ≤ M) (hd : 0 < d)
    (hfine : FineEnough cfg.numPts (max (ctx.reRan.2 - ctx.reRan.1) (ctx.imRan.2 - ctx.imRan.1)) d M zeros.length)
    (hfar : ∀ re im, Reached ctx.precision zeros ctx.reRan ctx.imRan re im → ∀ z, Cell.Boundary ⟨re, im, 0⟩ z → Far d zeros z)
    (ht : Tame ctx.f df ctx.precision zeros ctx.reRan ctx.imRan)
    (limit : ℕ) (hsafe : Safe cfg ctx zeros (max (ctx.reRan.2 - ctx.reRan.1) (ctx.imRan.2 - ctx.imRan.1)) d M limit)
    (w : World (SumState ℝ) ℝ) (hfuse : w.fuse = none) (hest : w.est = SumState.fresh) :
    ∃ w', simpleArgumentNewton (scipySolver abs arr) (sumLine cfg) Real.pi limit ctx w = (.ok (), w') ∧
    (∀ z ∈ zeros, Cell.HasHalfOpen ⟨ctx.reRan, ctx.imRan, 0⟩ z → ∃ r ∈ newRoots w w', 1 ≤ r.2 ∧
      Near ((10 : ℝ) ^ (-ctx.precision.1), (10 : ℝ) ^ (-ctx.precision.2)) z r.1) ∧
    ∀ r ∈ newRoots w w', 1 ≤ r.2 ∧ ∃ z ∈ zeros, Cell.HasHalfOpen ⟨ctx.reRan, ctx.imRan, 0⟩ z ∧
      Near ((10 : ℝ) ^ (-ctx.precision.1), (10 : ℝ) ^ (-ctx.precision.2)) z r.1 := by
  have hpi := Real.pi_pos
  obtain ⟨w', hr⟩ := strict_returns harg hδ hn hre him hf hM hd hfine hfar hsafe (newton_stops (scipySolver abs arr) _ Real.pi ctx) newton_open (quiet_newton _ _ _)
    (Finishes.newtonAct (scipySolver abs arr) Real.pi ctx) w hfuse hest
  have D := sumData harg hδ hn hre him hf hM hd hfine hfar
  obtain ⟨acc, _⟩ := sum_search_cells D (newton_stops (scipySolver abs arr) _ Real.pi ctx) newton_open (quiet_newton _ _ _) (good_newton (scipySolver abs arr) hpi ctx) limit w w' hfuse hest hr
  obtain ⟨h1, _, a1, a2, a3⟩ := C98_newton_partial (scipySolver abs arr) cfg harg hδ hn ctx hre him zeros r g M d hf hM hd hfine hfar limit w w' hfuse hest hr
  have hone : ∀ c ∈ newCells w w', ∀ z ∈ zeros, Cell.HasHalfOpen c z → Cell.HasHalfOpen ⟨ctx.reRan, ctx.imRan, 0⟩ z := by
    intro c hc z _ hz
    obtain ⟨i1, i2, i3, i4, i5, i6⟩ : Cell.In ⟨c.re, c.im, 0⟩ ⟨ctx.reRan, ctx.imRan, 0⟩ := reached_in hre.le him.le (acc c hc).1
    dsimp only at i1 i2 i3 i4 i5 i6
    obtain ⟨z1, z2, z3, z4⟩ := hz
    refine ⟨?_, ?_, ?_, ?_⟩ <;> dsimp only <;> linarith
  refine ⟨w', h1, a3 fun c hc ho z hz hcz => ?_, fun r hr => ?_⟩
  · exact (cell_solves abs habs arr ctx.f df ctx.precision hp1 hp2 c ho.2.2.1 ho.2.2.2 z hcz (ht c.re c.im (acc c hc).1 (a1 c hc ho) ho.2.2.1 ho.2.2.2 z hz hcz)).1
  · obtain ⟨b1, c, hc, ⟨b2, b3, b4⟩ | ⟨b2, b3, b4⟩⟩ := a2 r hr
    · refine ⟨b1, ?_⟩
      obtain ⟨z, hz⟩ := List.exists_mem_of_length_pos (l := zeros.filter fun z => decide (Cell.HasHalfOpen c z)) (by
        rw [b4] at b1
        exact_mod_cast b1)
      obtain ⟨hz, hcz⟩ := List.mem_filter.1 hz
      have hcz : Cell.HasHalfOpen c z := by simpa using hcz
      refine ⟨z, hz, hone c hc z hz hcz, ?_⟩
      rw [b3]
      exact near_symm (near_centre b2 hcz)
    · refine ⟨b1, ?_⟩
      have hcount := a1 c hc b2
      obtain ⟨z, hz⟩ := List.exists_mem_of_length_pos (l := zeros.filter fun z => decide (Cell.HasHalfOpen c z)) (by
        have : (zeros.filter fun z => decide (Cell.HasHalfOpen c z)).length = 1 := hcount
        omega)
      obtain ⟨hz, hcz⟩ := List.mem_filter.1 hz
      have hcz : Cell.HasHalfOpen c z := by simpa using hcz
      obtain ⟨⟨z1, y1, y2⟩, z2, y3, y4⟩ := cell_solves abs habs arr ctx.f df ctx.precision hp1 hp2 c b2.2.2.1 b2.2.2.2 z hcz
        (ht c.re c.im (acc c hc).1 hcount b2.2.2.1 b2.2.2.2 z hz hcz)
      refine ⟨z, hz, hone c hc z hz hcz, ?_⟩
      rcases b4 with h | ⟨df', hd', h⟩
      · rw [y1] at h
        cases h
        exact y2
      · rcases hdf with e | e
        · rw [e] at hd'
          cases hd'
        · rw [e] at hd'
          cases hd'
          rw [y3] at h
          cases h
          exact y4

/-- C138 for finders: the first search of a `RootFinder` with the Newton variant, the summation estimator, scipy's solver and a rounding container without filters. The call returns without warning; every zero
in the requested rectangle has a reported root of positive order closer than `1.5 * 10^-(p+1)` in each coordinate, and every root that is new in the container has positive order and is that close to a zero
at most `4 * 10^-(p+1)` outside the requested rectangle. -/
theorem C138_finder (fd : Finder (SumState ℝ) ℝ) (abs : Cx ℝ → ℝ) (habs : ∀ z, abs z = √(z.re ^ 2 + z.im ^ 2)) (arr) (cfg : SumCfg ℝ) (harg : ∀ z, cfg.arg z = Complex.arg ⟨z.re, z.im⟩)
    (hδ : 0 < cfg.deltaPhi) (hn : 2 ≤ cfg.numPts) (limit : ℕ) (halg : fd.algorithm = simpleArgumentNewton (scipySolver abs arr) (sumLine cfg) Real.pi limit)
    (hfresh : fd.est = SumState.fresh) (hcont : RoundsFreely fd.container) (df : Cx ℝ → Cx ℝ) (hdf : fd.df = none ∨ fd.df = some df) (re im : ℝ × ℝ) (call : Option (ℤ × ℤ)) (p : ℤ × ℤ)
    (hp : Asked call fd.precision p) (hp1 : p.1 ≤ 18) (hp2 : p.2 ≤ 18) (dom : (ℝ × ℝ) × (ℝ × ℝ)) (hdom : dom = desymmetrizeDomain re im (p.1 + 1, p.2 + 1))
    (zeros : List (Cx ℝ)) (r g : Cx ℝ → ℝ) (M d : ℝ) (hf : Factored fd.f (Cell.Has ⟨dom.1, dom.2, 0⟩) zeros r g M)
    (hM : 0 ≤ M) (hd : 0 < d)
    (hfine : FineEnough cfg.numPts (max (dom.1.2 - dom.1.1) (dom.2.2 - dom.2.1)) d M zeros.length)
    (hfar : ∀ re im, Reached (p.1 + 1, p.2 + 1) zeros dom.1 dom.2 re im → ∀ z, Cell.Boundary ⟨re, im, 0⟩ z → Far d zeros z)
    (ht : Tame fd.f df (p.1 + 1, p.2 + 1) zeros dom.1 dom.2)
    (hsafe : Safe cfg ⟨fd.f, fd.df, (p.1 + 1, p.2 + 1), dom.1, dom.2, false⟩ zeros (max (dom.1.2 - dom.1.1) (dom.2.2 - dom.2.1)) d M limit) :
    let s := fd.calculateRoots re im call none
    s.outcome = .ok () ∧ s.warned = false ∧
    (∀ z ∈ zeros, Requested re im z → ∃ r ∈ held s.finder.container, 1 ≤ r.2 ∧
      Near (3 / 2 * 10 ^ (-(p.1 + 1)), 3 / 2 * 10 ^ (-(p.2 + 1))) z r.1) ∧
    ∀ r ∈ held s.finder.container, r ∈ held fd.container ∨
      (1 ≤ r.2 ∧ ∃ z ∈ zeros, Cell.Has (Enlarged (4 * 10 ^ (-(p.1 + 1)), 4 * 10 ^ (-(p.2 + 1))) re im) z ∧
        Near (3 / 2 * 10 ^ (-(p.1 + 1)), 3 / 2 * 10 ^ (-(p.2 + 1))) z r.1) := by
  intro s
  obtain ⟨d1, d2, d3, d4⟩ := C46_domain re im (p.1 + 1, p.2 + 1)
  rw [← hdom] at d1 d2 d3 d4
  have hprec : (fd.ctx re im call).precision = (p.1 + 1, p.2 + 1) := searchPrecision_asked hp
  have hd1 : (fd.ctx re im call).reRan = dom.1 := by
    rw [hdom, ← searchPrecision_asked hp]; rfl
  have hd2 : (fd.ctx re im call).imRan = dom.2 := by
    rw [hdom, ← searchPrecision_asked hp]; rfl
  obtain ⟨w', a1, a2, a3⟩ := C138_search abs habs arr cfg harg hδ hn (fd.ctx re im call) df hdf (by rw [hd1]; exact d1) (by rw [hd2]; exact d2)
    (by rw [hprec]; dsimp only; omega) (by rw [hprec]; dsimp only; omega) zeros r g M d
    (by rw [hd1, hd2]; exact hf) hM hd (by rw [hd1, hd2]; exact hfine) (by rw [hd1, hd2, hprec]; exact hfar) (by rw [hd1, hd2, hprec]; exact ht) limit
    (by
      obtain ⟨s1, s2, s3, s4⟩ := hsafe
      exact ⟨by rw [hd1, hd2, hprec]; exact s1, by rw [hd1, hd2, hprec]; exact s2, s3, by rw [hd1, hd2, hprec]; exact s4⟩)
    (fd.start none) rfl hfresh
  have hrun : (fd.algorithm (fd.ctx re im call) (fd.start none)).1 = .ok () := by rw [halg, a1]
  obtain ⟨e1, e2⟩ := calculateRoots_outcome fd re im call none
  rw [hrun] at e1 e2
  have hok : s.outcome = .ok () := e1.trans (if_neg (by simp))
  have hwarn : s.warned = false := e2.trans (by simp)
  obtain ⟨b1, b2⟩ := serial_sound_from fd hcont re im call p hp none (fun _ => False) zeros ((10 : ℝ) ^ (-(p.1 + 1)), (10 : ℝ) ^ (-(p.2 + 1))) (by
    intro w1 h
    rw [halg, a1] at h
    cases h
    rw [hprec] at a2 a3
    exact ⟨a2, fun r hr => .inr (a3 r hr)⟩) hok hwarn
  have e10 : ∀ x : ℝ, x + x / 2 = 3 / 2 * x := fun x => by ring
  simp only [e10] at b1 b2
  refine ⟨hok, hwarn, b1, fun r hr => ?_⟩
  rcases b2 r hr with h | ⟨_, z, h, _⟩ | h
  · exact .inl h
  · exact h.elim
  · exact .inr h

/-- C138 from the settings and the constructor (see C136) to the roots -/
theorem C138_end_to_end (X : Externals ℝ) (dx : ℝ) (hX : Libraries X dx) (ops : List SOp) (hops : ProperOps (fun _ => False) ops) (a : FinderArgs) (q : ℤ × ℤ) (d : Defaults)
    (hc : Chosen ops a .SIMPLE_ARGUMENT_NEWTON .SUMMATION_ESTIMATOR q d) (f df : Cx ℝ → Cx ℝ) (df' : Option (Cx ℝ → Cx ℝ)) (hdf : df' = none ∨ df' = some df)
    (re im : ℝ × ℝ) (call : Option (ℤ × ℤ)) (p : ℤ × ℤ) (hp : Asked call q p) (hp1 : p.1 ≤ 18) (hp2 : p.2 ≤ 18)
    (dom : (ℝ × ℝ) × (ℝ × ℝ)) (hdom : dom = desymmetrizeDomain re im (p.1 + 1, p.2 + 1))
    (zeros : List (Cx ℝ)) (r g : Cx ℝ → ℝ) (M dist : ℝ) (hf : Factored f (Cell.Has ⟨dom.1, dom.2, 0⟩) zeros r g M)
    (hM : 0 ≤ M) (hd : 0 < dist) (hfine : FineEnough 6500 (max (dom.1.2 - dom.1.1) (dom.2.2 - dom.2.1)) dist M zeros.length)
    (hfar : ∀ re im, Reached (p.1 + 1, p.2 + 1) zeros dom.1 dom.2 re im → ∀ z, Cell.Boundary ⟨re, im, 0⟩ z → Far dist zeros z)
    (ht : Tame f df (p.1 + 1, p.2 + 1) zeros dom.1 dom.2)
    (hsafe : Safe (shippedSum X) ⟨f, df', (p.1 + 1, p.2 + 1), dom.1, dom.2, false⟩ zeros (max (dom.1.2 - dom.1.1) (dom.2.2 - dom.2.1)) dist M X.limit) :
    ∃ fd, newFinder fileEnv X f df' a (SWorld.run newInstallation ops).2.fs = (.ok fd, (SWorld.run newInstallation ops).2.fs) ∧
    let s := fd.calculateRoots re im call none
    s.outcome = .ok () ∧ s.warned = false ∧
    (∀ z ∈ zeros, Requested re im z → ∃ r ∈ held s.finder.container, 1 ≤ r.2 ∧
      Near (3 / 2 * 10 ^ (-(p.1 + 1)), 3 / 2 * 10 ^ (-(p.2 + 1))) z r.1) ∧
    ∀ r ∈ held s.finder.container, 1 ≤ r.2 ∧ ∃ z ∈ zeros, Cell.Has (Enlarged (4 * 10 ^ (-(p.1 + 1)), 4 * 10 ^ (-(p.2 + 1))) re im) z ∧
        Near (3 / 2 * 10 ^ (-(p.1 + 1)), 3 / 2 * 10 ^ (-(p.2 + 1))) z r.1 := by
  obtain ⟨fd, e, e1, e2, e3, e4, e8, e5, _, e7⟩ := constructed X dx hX ops hops a _ _ q d hc f df'
  refine ⟨fd, e, ?_⟩
  intro s
  obtain ⟨arr, harr⟩ : ∃ arr, X.newton = scipySolver X.quad.abs arr := ⟨_, hX.newton⟩
  obtain ⟨h1, h2, h3, h4⟩ := C138_finder fd X.quad.abs hX.abs arr (shippedSum X) hX.arg (by norm_num [shippedSum]) (by norm_num [shippedSum]) X.limit (by rw [e3, ← hX.pi, ← harr]; rfl) e8 e5 df
    (by rw [e2]; exact hdf) re im call p (e4 ▸ hp) hp1 hp2 dom hdom zeros r g M dist (by rw [e1]; exact hf) hM hd hfine hfar (by rw [e1]; exact ht) (by rw [e1, e2]; exact hsafe)
  refine ⟨h1, h2, h3, fun r hr => (h4 r hr).resolve_left fun h => ?_⟩
  rw [e7] at h
  simp at h

/-! ## A concrete case: the zero of `z` in a square in which 0 divides the sides as 1 : 2 -/

theorem thirds_size (r i : ℝ × ℝ) (h : Reached (3, 3) [0] ((-3 / 1000 : ℝ), (6 / 1000 : ℝ)) (-3 / 1000, 6 / 1000) r i) : 1 / 2000 ≤ i.2 - i.1 := by
  have hp : (0 : ℝ) < 10 ^ (-(3 : ℤ)) := zpow_pos (by norm_num) _
  have big : ∀ r i : ℝ × ℝ, Reached (3, 3) [0] ((-3 / 1000 : ℝ), (6 / 1000 : ℝ)) (-3 / 1000, 6 / 1000) r i → ¬ Cell.Small (3, 3) ⟨r, i, 0⟩ → 1 / 1000 ≤ r.2 - r.1 := by
    intro r i h hs
    obtain ⟨h1, h2, h3, h4⟩ := thirds_reached r i h
    by_contra hlt
    push Not at hlt
    refine hs ?_
    unfold Cell.Small
    norm_num
    have := h2.1
    constructor
    · linarith
    · rcases h3 with h3 | h3 <;> linarith
  cases h with
  | whole => norm_num
  | left h hs hc hw | right h hs hc hw =>
    have hb := big _ _ h hs
    obtain ⟨h1, h2, h3, h4⟩ := thirds_reached _ _ h
    rw [div_lt_div_iff_of_pos_right hp] at hw
    rcases h3 with h3 | h3 <;> linarith
  | lower h hs hc hw | upper h hs hc hw =>
    have hb := big _ _ h hs
    obtain ⟨h1, h2, h3, h4⟩ := thirds_reached _ _ h
    rw [div_le_div_iff_of_pos_right hp] at hw
    rcases h3 with h3 | h3
    · dsimp only; linarith
    · have := h2.1
      linarith

theorem thirds_far : ∀ re im, Reached (3, 3) [0] ((-3 / 1000 : ℝ), (6 / 1000 : ℝ)) (-3 / 1000, 6 / 1000) re im → ∀ z, Cell.Boundary ⟨re, im, 0⟩ z → Far (1 / 6000) [0] z := by
  intro r i h z hz c hc
  obtain ⟨h1, h2, h3, h4⟩ := thirds_reached r i h
  have h5 := thirds_size r i h
  have l2 := h2.1
  rw [List.mem_singleton] at hc
  subst hc
  rw [Cx.zero_re, Cx.zero_im, sub_zero, sub_zero]
  have hle : (1 / 6000 : ℝ) ^ 2 ≤ ((i.2 - i.1) / 3) ^ 2 := pow_le_pow_left₀ (by norm_num) (by linarith) 2
  obtain ⟨⟨b1, b2, b3, b4⟩, hb⟩ := hz
  dsimp only at b1 b2 b3 b4
  by_cases hre : z.re = r.1 ∨ z.re = r.2
  · have := thirds_ends h1 z.re hre
    have hle' : ((i.2 - i.1) / 3) ^ 2 ≤ ((r.2 - r.1) / 3) ^ 2 := pow_le_pow_left₀ (by linarith) (by rcases h3 with h3 | h3 <;> linarith) 2
    nlinarith [sq_nonneg z.im]
  · by_cases him : z.im = i.1 ∨ z.im = i.2
    · have := thirds_ends h2 z.im him
      nlinarith [sq_nonneg z.re]
    · exfalso
      rw [not_or] at hre him
      exact hb ⟨lt_of_le_of_ne b1 (Ne.symm hre.1), lt_of_le_of_ne b2 hre.2, lt_of_le_of_ne b3 (Ne.symm him.1), lt_of_le_of_ne b4 him.2⟩

theorem thirds_bound {x : ℝ × ℝ} (h : Thirds x) (t : ℝ) (ht : t = x.1 ∨ t = x.2) : t ^ 2 ≤ (4 / 3 * (x.2 - x.1)) ^ 2 := by
  obtain ⟨l, h⟩ := h
  rw [sq_le_sq, abs_of_pos (by linarith : 0 < 4 / 3 * (x.2 - x.1)), abs_le]
  rcases h with h | h | h | h <;> rcases ht with rfl | rfl <;> constructor <;> linarith

/-- the turn along an edge -/
theorem thirds_turn {r i : ℝ × ℝ} (h1 : Thirds r) (h2 : Thirds i) (h3 : r.2 - r.1 = i.2 - i.1 ∨ r.2 - r.1 = 2 * (i.2 - i.1)) (e) (he : e ∈ edges r i) :
    1 / 27 ≤ |Complex.arg ⟨(e.2 / e.1).re, (e.2 / e.1).im⟩| := by
  have l1 := h1.1
  have l2 := h2.1
  have hA : (0 : ℝ) < 3 * (i.2 - i.1) := by linarith
  have hC : 0 < (i.2 - i.1) ^ 2 / 3 := by have := sq_pos_of_pos (sub_pos.2 l2); linarith
  have e27 : (i.2 - i.1) ^ 2 / 3 / (3 * (i.2 - i.1) * (3 * (i.2 - i.1))) = 1 / 27 := by
    have : i.2 - i.1 ≠ 0 := by linarith
    field_simp
    norm_num
  rw [← e27]
  have hw : (r.2 - r.1) ^ 2 ≤ 4 * (i.2 - i.1) ^ 2 := by rcases h3 with h3 | h3 <;> rw [h3] <;> nlinarith
  have hlen : ∀ x y, (x = r.1 ∨ x = r.2) → (y = i.1 ∨ y = i.2) → x ^ 2 + y ^ 2 ≤ (3 * (i.2 - i.1)) ^ 2 := by
    intro x y hx hy
    have a := thirds_bound h1 x hx
    have b := thirds_bound h2 y hy
    nlinarith
  have hhor : ∀ y, (y = i.1 ∨ y = i.2) → (i.2 - i.1) ^ 2 / 3 ≤ (r.2 - r.1) * |y| := by
    intro y hy
    have a := thirds_ends h2 y hy
    have b : (i.2 - i.1) / 3 ≤ |y| := by
      rw [sq_le_sq, abs_of_pos (by linarith : 0 < (i.2 - i.1) / 3)] at a
      exact a
    have c : i.2 - i.1 ≤ r.2 - r.1 := by rcases h3 with h3 | h3 <;> linarith
    have := mul_le_mul c b (by linarith) (by linarith)
    nlinarith
  have hver : ∀ x, (x = r.1 ∨ x = r.2) → (i.2 - i.1) ^ 2 / 3 ≤ (i.2 - i.1) * |x| := by
    intro x hx
    have a := thirds_ends h1 x hx
    have b : (r.2 - r.1) / 3 ≤ |x| := by
      rw [sq_le_sq, abs_of_pos (by linarith : 0 < (r.2 - r.1) / 3)] at a
      exact a
    have c : (i.2 - i.1) / 3 ≤ |x| := by rcases h3 with h3 | h3 <;> linarith
    have := mul_le_mul_of_nonneg_left c (sub_pos.2 l2).le
    nlinarith
  unfold edges at he
  simp only [List.mem_cons, List.not_mem_nil, or_false] at he
  rcases he with rfl | rfl | rfl | rfl
  · refine arg_ge_cross hA hA hC (hlen _ _ (by simp) (by simp)) (hlen _ _ (by simp) (by simp)) ?_
    dsimp only
    have e : ∀ a b y : ℝ, |a * y - y * b| = |b - a| * |y| := fun a b y => by rw [← abs_neg, ← abs_mul]; congr 1; ring
    rw [e]
    rw [abs_of_pos (by linarith)]
    exact hhor _ (by simp)
  · refine arg_ge_cross hA hA hC (hlen _ _ (by simp) (by simp)) (hlen _ _ (by simp) (by simp)) ?_
    dsimp only
    have e : ∀ a b x : ℝ, |x * b - a * x| = |b - a| * |x| := fun a b x => by rw [← abs_mul]; congr 1; ring
    rw [e]
    rw [abs_of_pos (by linarith)]
    exact hver _ (by simp)
  · refine arg_ge_cross hA hA hC (hlen _ _ (by simp) (by simp)) (hlen _ _ (by simp) (by simp)) ?_
    dsimp only
    have e : ∀ a b y : ℝ, |a * y - y * b| = |a - b| * |y| := fun a b y => by rw [← abs_mul]; congr 1; ring
    rw [e]
    rw [abs_of_pos (by linarith)]
    exact hhor _ (by simp)
  · refine arg_ge_cross hA hA hC (hlen _ _ (by simp) (by simp)) (hlen _ _ (by simp) (by simp)) ?_
    dsimp only
    have e : ∀ a b x : ℝ, |x * b - a * x| = |a - b| * |x| := fun a b x => by rw [abs_sub_comm a, ← abs_mul]; congr 1; ring
    rw [e]
    rw [abs_of_pos (by linarith)]
    exact hver _ (by simp)

theorem thirds_fine : FineEnough 6500 (max ((6 / 1000 : ℝ) - (-3 / 1000)) (6 / 1000 - (-3 / 1000))) (1 / 6000) 0 [(0 : Cx ℝ)].length := by
  have hpi := Real.pi_pos
  unfold FineEnough stepTurn
  simp only [List.length_singleton]
  norm_num
  linarith

theorem thirds_safe : Safe (shippedSum someLibraries) ⟨fun z => z, none, (3, 3), (-3 / 1000, 6 / 1000), (-3 / 1000, 6 / 1000), false⟩ [0]
    (max ((6 / 1000 : ℝ) - (-3 / 1000)) (6 / 1000 - (-3 / 1000))) (1 / 6000) 0 1000 := by
  have hpi := Real.pi_le_four
  have hmax : max ((6 / 1000 : ℝ) - (-3 / 1000)) (6 / 1000 - (-3 / 1000)) = 9 / 1000 := by norm_num
  rw [hmax]
  refine ⟨?_, ?_, ⟨[0], ?_, ?_, ?_⟩, 4, 4, ?_, ?_⟩
  · intro re im hob e he
    obtain ⟨h1, h2, h3, h4⟩ := thirds_reached _ _ hob
    have hst : 2 * stepTurn (shippedSum someLibraries).numPts (9 / 1000) (1 / 6000) 0 [(0 : Cx ℝ)].length < 1 / 27 := by
      unfold stepTurn
      simp only [shippedSum, List.length_singleton]
      norm_num
      linarith
    exact lt_of_lt_of_le hst (thirds_turn h1 h2 h3 e he)
  · intro re im hob
    have := thirds_size _ _ hob
    refine le_trans ?_ this
    norm_num [shippedSum]
  · simp
  · simp [shippedSum, someLibraries]
  · norm_num [shippedSum, someLibraries]
  · unfold Cell.Below; norm_num
  · norm_num

theorem id_steady (r : ℝ) : Steady (fun z => z) (fun _ => 1) 0 r := by
  refine ⟨rfl, fun h => ?_, fun z _ => ?_, fun z _ => ?_⟩
  · have := congrArg Cx.re h
    simp at this
  · have : point (1 : Cx ℝ) = 1 := toC_one
    rw [this]
    exact hasDerivAt_id _
  · rw [sub_self, norm_zero]
    positivity

/-- non-vacuity of C138: `RootFinder(lambda z: z, algorithmType=SIMPLE_ARGUMENT_NEWTON).calculateRoots(..., precision=(2, 2))` on a new installation; the solver is used, since the searched square is not small and has
sides below 0.1 -/
example : ∃ fd, newFinder fileEnv someLibraries (fun z => z) none { algorithm := .SIMPLE_ARGUMENT_NEWTON } newInstallation.fs = (.ok fd, newInstallation.fs) ∧
    ∃ r ∈ held (fd.calculateRoots (-2 / 1000, 4 / 1000) (0, 2 / 1000) (some (2, 2)) none).finder.container, 1 ≤ r.2 ∧
      Near (3 / 2 * (10 : ℝ) ^ (-((2 : ℤ) + 1)), 3 / 2 * (10 : ℝ) ^ (-((2 : ℤ) + 1))) 0 r.1 := by
  obtain ⟨fd, h0, _, _, h2, _⟩ := C138_end_to_end someLibraries _ someLibraries_ok [] trivial { algorithm := .SIMPLE_ARGUMENT_NEWTON } (5, 5) shippedDefaults
    ⟨shipped_now, ⟨by decide, by decide, by decide⟩, rfl, rfl, rfl, rfl⟩ (fun z => z) (fun _ => 1) none (.inl rfl)
    (-2 / 1000, 4 / 1000) (0, 2 / 1000) (some (2, 2)) (2, 2) (.inl rfl) (by norm_num) (by norm_num) _ thirds_domain.symm [0] (fun _ => 1) (fun _ => 0) 0 (1 / 6000)
    ⟨fun _ _ => one_pos, fun z _ => by ext <;> simp, fun a b _ _ => by simp⟩ le_rfl (by norm_num) thirds_fine thirds_far
    (fun r i _ _ _ _ z hz _ => by rw [List.mem_singleton] at hz; subst hz; exact id_steady _) thirds_safe
  refine ⟨fd, h0, h2 0 (by simp) ?_⟩
  unfold Requested
  norm_num

end PyZeal.Props
