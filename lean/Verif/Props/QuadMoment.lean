import Verif.Proof.PolySearch
import Verif.Props.QuadSearch
import Verif.Props.Variants

/-! # Properties C131 and C132: moments by numerical quadrature, and searches with associated polynomials -/

set_option linter.unusedSectionVars false

namespace PyZeal.Props
open Spec

/-! ## C131 -/

/-- C131, one line. Let `f` be analytic along an axis-parallel line from `a` to `b`, with all zeros at distance at least `d` from it. If the error bound `momentError` is below 1/1250,
the quadrature estimator returns, without side effects, minus `i` times the integral of `z^k f'(z) / f(z)` along the line, up to twice the error bound. -/
theorem C131_line {σ : Type} (cfg : QuadCfg ℝ) (hromb : cfg.romb = romberg) (habs : ∀ z, cfg.abs z = √(z.re ^ 2 + z.im ^ 2))
    (hev : ∀ n, 1 ≤ cfg.evals n) (hsteps : 13 ≤ cfg.steps) (ctx : RCtx ℝ) (df : Cx ℝ → Cx ℝ) (hdf : ctx.df = some df) (S : Cx ℝ → Prop)
    (zeros : List (Cx ℝ)) (G : ℂ → ℂ) (B V R d : ℝ) (hf : AnalyticWith ctx.f df S zeros G B V) (hB : BoundedBy S G B R) (hd : 0 < d) (a b : Cx ℝ) (hne : a ≠ b)
    (hax : a.im = b.im ∨ a.re = b.re) (hS : ∀ t, 0 ≤ t → t ≤ 1 → S (along a b t) ∧ Far d zeros (along a b t)) (k : ℕ)
    (herr : momentError k zeros.length B d R (|b.re - a.re| + |b.im - a.im|) < 1 / 1250) (w : World σ ℝ) :
    ∃ v, quadLine cfg k a b ctx w = (.ok v, w) ∧
      ‖point v - (-Complex.I) * ((point b - point a) *
        ∫ t in (0 : ℝ)..1, point (along a b t) ^ k * point (df (along a b t)) / point (ctx.f (along a b t)))‖ ≤
        2 * momentError k zeros.length B d R (|b.re - a.re| + |b.im - a.im|) := by
  obtain ⟨v, h1, h2⟩ := quadLine_moment cfg hromb habs hev hsteps df ctx hdf hf hB hd ⟨hne, hax⟩ hS k herr w
  refine ⟨v, h1, ?_⟩
  have e : lineInt (fun z => z ^ k * logD (zeros.map toC) G z) (toC a) (toC b) = (point b - point a) *
        ∫ t in (0 : ℝ)..1, point (along a b t) ^ k * point (df (along a b t)) / point (ctx.f (along a b t)) := by
    unfold lineInt
    congr 1
    apply intervalIntegral.integral_congr
    intro t ht
    rw [Set.uIcc_of_le zero_le_one] at ht
    obtain ⟨s1, s2⟩ := hS t ht.1 ht.2
    have h := hf.log_pow s1 (fun c hc => s2.ne hd hc) k
    rw [toC_div, toC_mul, zpow_natCast, toC_pow, toC_along] at h
    dsimp only
    rw [← h, ← toC_along]
    show _ = toC (along a b t) ^ k * toC (df (along a b t)) / toC (ctx.f (along a b t))
    ring
  rw [← e, neg_mul, sub_neg_eq_add]
  exact h2

/-- C131, round a rectangle. In a state without pending interrupt, with a fresh cache, `calcMoment` of order `k` returns `2 * pi` times the sum of the `k`-th powers of the zeros in the rectangle,
up to eight times the error bound. -/
theorem C131_rectangle {σ : Type} (cfg : QuadCfg ℝ) (hromb : cfg.romb = romberg) (habs : ∀ z, cfg.abs z = √(z.re ^ 2 + z.im ^ 2))
    (hev : ∀ n, 1 ≤ cfg.evals n) (hsteps : 13 ≤ cfg.steps) (ctx : RCtx ℝ) (df : Cx ℝ → Cx ℝ) (hdf : ctx.df = some df)
    (re im : ℝ × ℝ) (hre : re.1 < re.2) (him : im.1 < im.2) (zeros : List (Cx ℝ)) (G : ℂ → ℂ) (B V R d e : ℝ)
    (hf : AnalyticWith ctx.f df (Cell.Has ⟨re, im, 0⟩) zeros G B V) (hB : BoundedBy (Cell.Has ⟨re, im, 0⟩) G B R) (hd : 0 < d)
    (hfar : ∀ z, Cell.Boundary ⟨re, im, 0⟩ z → Far d zeros z) (k : ℕ)
    (herr : ∀ l, l = re.2 - re.1 ∨ l = im.2 - im.1 → momentError k zeros.length B d R l ≤ e ∧ momentError k zeros.length B d R l < 1 / 1250)
    (w : World σ ℝ) (hfuse : w.fuse = none) (flag : Bool) (hfresh : w.cache = EstCache.init flag) :
    ∃ v w', calcMoment (quadLine cfg) k re im ctx w = (.ok v, w') ∧ w'.fuse = none ∧
      ‖point v - 2 * Real.pi * powerSum k zeros re im‖ ≤ 8 * e := by
  obtain ⟨v, w', h1, h2, h3, _⟩ := calc_moment (quad_edges cfg hromb habs hev hsteps df ctx hdf hf hB hd hre him (fun z h => h) hfar k herr) (w := w)
    ⟨by rw [hfresh]; exact CacheWF.init _, hfuse, fun a b v hv => by
      rw [hfresh] at hv
      unfold EstCache.look EstCache.init at hv
      simp at hv⟩
  rw [momX_around hre him (fun z hz => hf.analytic z hz) (far_off hd hfar)] at h3
  refine ⟨v, w', h1, h2.fuse, ?_⟩
  have : ‖toC v - 2 * Real.pi * powerSum k zeros re im‖ ≤ 8 * e := by linarith
  exact this

/-! ## C132 -/

/-- C132. Search with associated polynomials and numerical quadrature (scipy's Romberg integration), for a function which is analytic on the rectangle, with its derivative given,
from any state without a pending interrupt. Assume that the zeros keep off the sides of the rectangles the search comes to look at, that moments along these sides have a relative error of at most `η`, that
`44 η < (δ/R)^n` for the possible numbers `n` of zeros of an associated polynomial, that the polynomial solver is accurate up to `ρ`, and that the recursion limit is large enough for the precision.
Then the search returns; every zero in the rectangle is near a candidate, every candidate near a zero; and the orders sum up to the number of zeros. -/
theorem C132_search {σ : Type} (polyRoots : List (Cx ℝ) → List (Cx ℝ)) (cfg : QuadCfg ℝ) (hromb : cfg.romb = romberg) (habs : ∀ z, cfg.abs z = √(z.re ^ 2 + z.im ^ 2))
    (hev : ∀ n, 1 ≤ cfg.evals n) (hsteps : 13 ≤ cfg.steps) (ctx : RCtx ℝ) (df : Cx ℝ → Cx ℝ) (hdf : ctx.df = some df)
    (hre : ctx.reRan.1 < ctx.reRan.2) (him : ctx.imRan.1 < ctx.imRan.2)
    (zeros : List (Cx ℝ)) (G : ℂ → ℂ) (B V R η δ ρ : ℝ) (hf : AnalyticWith ctx.f df (Cell.Has ⟨ctx.reRan, ctx.imRan, 0⟩) zeros G B V)
    (hB : BoundedBy (Cell.Has ⟨ctx.reRan, ctx.imRan, 0⟩) G B R) (hres : PolyResolved ctx.precision zeros B V R η ctx.reRan ctx.imRan)
    (hR : 0 < R) (h0 : 0 ≤ η) (h1 : η ≤ 1 / 200) (hδ : 0 < δ) (hsm : ∀ n, 1 ≤ n → n ≤ 3 → n ≤ zeros.length → 44 * η * R ^ n < δ ^ n)
    (hρ : 0 ≤ ρ) (hsolve : SolvesWithin polyRoots (R + δ) ρ)
    (limit m n : ℕ) (hb : Cell.Below ctx.precision m n ⟨ctx.reRan, ctx.imRan, 0⟩) (hl : m + n < limit) (w : World σ ℝ) (hfuse : w.fuse = none) :
    ∃ w', associatedPolynomial polyRoots (quadLine cfg) Real.pi limit ctx w = (.ok (), w') ∧ w'.fuse = none ∧
    (∀ z ∈ zeros, Cell.HasHalfOpen ⟨ctx.reRan, ctx.imRan, 0⟩ z → ∃ r ∈ newRoots w w', 1 ≤ r.2 ∧
      Near (10 ^ (-ctx.precision.1) + (δ + ρ), 10 ^ (-ctx.precision.2) + (δ + ρ)) z r.1) ∧
    (∀ r ∈ newRoots w w', 1 ≤ r.2 ∧ ∃ z ∈ zeros, Cell.HasHalfOpen ⟨ctx.reRan, ctx.imRan, 0⟩ z ∧
      Near (max (10 ^ (-ctx.precision.1) / 2) (δ + ρ), max (10 ^ (-ctx.precision.2) / 2) (δ + ρ)) z r.1) ∧
    ((newRoots w w').map Prod.snd).sum = Cell.count ⟨ctx.reRan, ctx.imRan, 0⟩ zeros := by
  have hg := quad_good (σ := σ) cfg hromb habs hev hsteps df ctx hdf hre him hf (Rch := PolyReached ctx.precision zeros ctx.reRan ctx.imRan)
    (fun _ _ h => h.reached) (fun r i h => by
      obtain ⟨d, hd, h1, h2, _⟩ := hres r i h
      exact ⟨d, hd, h1, h2 _ (.inl rfl), h2 _ (.inr rfl)⟩)
  obtain ⟨w', phi, a1, a2, _, a3⟩ := hg.searchQ (P := MomentsOk zeros G fun k => 2 * (η * R ^ k))
    (Q := PolyAdds ctx.precision zeros (δ + ρ)) (poly_stops polyRoots (quadLine cfg) Real.pi ctx (by rw [hdf]; rfl))
    (fun c hs hre hphi => by
      obtain ⟨t1, t2⟩ := poly_open hs hphi
      exact ⟨t1, fun phi => poly_halves hre t1 t2 phi⟩)
    (fun c w hs hrch hphi hw => by
      obtain ⟨d, hd, hfar, _, hmom⟩ := hres _ _ hrch
      obtain ⟨p1, p2⟩ := reached_pos hre him hrch.reached
      obtain ⟨i1, i2, i3, i4, i5, i6⟩ := reached_in hre.le him.le hrch.reached
      have hS : ∀ z, Cell.Has ⟨c.re, c.im, 0⟩ z → Cell.Has ⟨ctx.reRan, ctx.imRan, 0⟩ z := fun z hz =>
        ⟨i1.trans hz.1, hz.2.1.trans i3, i4.trans hz.2.2.1, hz.2.2.2.trans i6⟩
      refine poly_leaf hR h0 h1 hδ hρ hsolve (fun z hz => ?_) hsm (fun hc3 k hk => ?_) (fun k => ?_) hs hphi hw
      · exact hB.radius z (hS z ⟨hz.1, hz.2.1.le, hz.2.2.1, hz.2.2.2.le⟩)
      · exact quad_edges cfg hromb habs hev hsteps df ctx hdf hf hB hd p1 p2 hS hfar (k + 1) (hmom (k + 1) (by omega) hk hc3)
      · exact momX_around p1 p2 (fun z hz => hf.analytic z (hS z hz)) (far_off hd hfar) k)
    (fun c phi1 phi2 A1 A2 => PolyAdds.append c phi1 phi2 A1 A2) .whole limit m n hb hl w hfuse
  exact ⟨w', a1, a2, a3.found, a3.just, a3.sum⟩

/-- the same with a pending interrupt which does not strike -/
theorem poly_sound {σ : Type} (polyRoots : List (Cx ℝ) → List (Cx ℝ)) (cfg : QuadCfg ℝ) (hromb : cfg.romb = romberg) (habs : ∀ z, cfg.abs z = √(z.re ^ 2 + z.im ^ 2))
    (hev : ∀ n, 1 ≤ cfg.evals n) (hsteps : 13 ≤ cfg.steps) (ctx : RCtx ℝ) (df : Cx ℝ → Cx ℝ) (hdf : ctx.df = some df)
    (hre : ctx.reRan.1 < ctx.reRan.2) (him : ctx.imRan.1 < ctx.imRan.2)
    (zeros : List (Cx ℝ)) (G : ℂ → ℂ) (B V R η δ ρ : ℝ) (hf : AnalyticWith ctx.f df (Cell.Has ⟨ctx.reRan, ctx.imRan, 0⟩) zeros G B V)
    (hB : BoundedBy (Cell.Has ⟨ctx.reRan, ctx.imRan, 0⟩) G B R) (hres : PolyResolved ctx.precision zeros B V R η ctx.reRan ctx.imRan)
    (hR : 0 < R) (h0 : 0 ≤ η) (h1 : η ≤ 1 / 200) (hδ : 0 < δ) (hsm : ∀ n, 1 ≤ n → n ≤ 3 → n ≤ zeros.length → 44 * η * R ^ n < δ ^ n)
    (hρ : 0 ≤ ρ) (hsolve : SolvesWithin polyRoots (R + δ) ρ)
    (limit m n : ℕ) (hb : Cell.Below ctx.precision m n ⟨ctx.reRan, ctx.imRan, 0⟩) (hl : m + n < limit) :
    SoundAt (associatedPolynomial polyRoots (quadLine cfg : LineEst σ ℝ) Real.pi limit) ctx (fun _ => False) zeros
      (10 ^ (-ctx.precision.1) + (δ + ρ), 10 ^ (-ctx.precision.2) + (δ + ρ)) := by
  intro w w' h
  obtain ⟨w1, e1, _, b1, b2, _⟩ := C132_search (σ := σ) polyRoots cfg hromb habs hev hsteps ctx df hdf hre him zeros G B V R η δ ρ hf hB hres hR h0 h1 hδ hsm hρ hsolve limit m n hb hl
    { w with fuse := none } rfl
  have hi : Interruptible (associatedPolynomial polyRoots (quadLine cfg : LineEst σ ℝ) Real.pi limit ctx) :=
    .calcRoots (fun o a b => (Interruptible.closed ctx.f).toBasic.quadLine cfg o a b)
      (fun _ hs => .polynomialDecide polyRoots (fun o a b => (Interruptible.closed ctx.f).toBasic.quadLine cfg o a b) Real.pi _ hs) limit
  obtain ⟨hadd, i2⟩ := added_same hi h e1
  have hnew : newRoots w w' = newRoots { w with fuse := none } w1 := by unfold newRoots; rw [hadd]
  refine ⟨by rw [hadd]; exact i2, by rw [hnew]; exact b1, fun r hr => .inr ?_⟩
  obtain ⟨c1, z, c2, c3, c4, c5⟩ := b2 r (by rw [← hnew]; exact hr)
  refine ⟨c1, z, c2, c3, lt_of_lt_of_le c4 ?_, lt_of_lt_of_le c5 ?_⟩
  · have : (0 : ℝ) < 10 ^ (-ctx.precision.1) := by positivity
    exact max_le (by dsimp only; linarith) (by dsimp only; linarith)
  · have : (0 : ℝ) < 10 ^ (-ctx.precision.2) := by positivity
    exact max_le (by dsimp only; linarith) (by dsimp only; linarith)

/-- C132 for finders. A `RootFinder` with associated polynomials, numerical quadrature and a rounding container without filters, under the hypotheses of `C132_search` for the rectangle it searches, in any
state. The call returns without warning; every zero in the requested rectangle has a reported root of positive order closer than `1.5 * 10^-(p+1) + δ + ρ` in each coordinate, and every root
that is new in the container has positive order and is that close to a zero at most `4 * 10^-(p+1)` outside the requested rectangle. -/
theorem C132_finder {σ : Type} (fd : Finder σ ℝ) (polyRoots : List (Cx ℝ) → List (Cx ℝ)) (cfg : QuadCfg ℝ) (hromb : cfg.romb = romberg)
    (habs : ∀ z, cfg.abs z = √(z.re ^ 2 + z.im ^ 2)) (hev : ∀ n, 1 ≤ cfg.evals n) (hsteps : 13 ≤ cfg.steps) (limit : ℕ)
    (halg : fd.algorithm = associatedPolynomial polyRoots (quadLine cfg) Real.pi limit)
    (hcont : RoundsFreely fd.container) (df : Cx ℝ → Cx ℝ) (hdf : fd.df = some df) (re im : ℝ × ℝ) (call : Option (ℤ × ℤ)) (p : ℤ × ℤ)
    (hp : Asked call fd.precision p) (dom : (ℝ × ℝ) × (ℝ × ℝ)) (hdom : dom = desymmetrizeDomain re im (p.1 + 1, p.2 + 1))
    (zeros : List (Cx ℝ)) (G : ℂ → ℂ) (B V R η δ ρ : ℝ) (hf : AnalyticWith fd.f df (Cell.Has ⟨dom.1, dom.2, 0⟩) zeros G B V)
    (hB : BoundedBy (Cell.Has ⟨dom.1, dom.2, 0⟩) G B R) (hres : PolyResolved (p.1 + 1, p.2 + 1) zeros B V R η dom.1 dom.2)
    (hR : 0 < R) (h0 : 0 ≤ η) (h1 : η ≤ 1 / 200) (hδ : 0 < δ) (hsm : ∀ n, 1 ≤ n → n ≤ 3 → n ≤ zeros.length → 44 * η * R ^ n < δ ^ n)
    (hρ : 0 ≤ ρ) (hsolve : SolvesWithin polyRoots (R + δ) ρ)
    (m n : ℕ) (hb : Cell.Below (p.1 + 1, p.2 + 1) m n ⟨dom.1, dom.2, 0⟩) (hl : m + n < limit) :
    let s := fd.calculateRoots re im call none
    s.outcome = .ok () ∧ s.warned = false ∧
    (∀ z ∈ zeros, Requested re im z → ∃ r ∈ held s.finder.container, 1 ≤ r.2 ∧
      Near (3 / 2 * 10 ^ (-(p.1 + 1)) + (δ + ρ), 3 / 2 * 10 ^ (-(p.2 + 1)) + (δ + ρ)) z r.1) ∧
    ∀ r ∈ held s.finder.container, r ∈ held fd.container ∨
      (1 ≤ r.2 ∧ ∃ z ∈ zeros, Cell.Has (Enlarged (4 * 10 ^ (-(p.1 + 1)), 4 * 10 ^ (-(p.2 + 1))) re im) z ∧
        Near (3 / 2 * 10 ^ (-(p.1 + 1)) + (δ + ρ), 3 / 2 * 10 ^ (-(p.2 + 1)) + (δ + ρ)) z r.1) := by
  intro s
  obtain ⟨d1, d2, d3, d4⟩ := C46_domain re im (p.1 + 1, p.2 + 1)
  rw [← hdom] at d1 d2 d3 d4
  have hprec : (fd.ctx re im call).precision = (p.1 + 1, p.2 + 1) := searchPrecision_asked hp
  have hd1 : (fd.ctx re im call).reRan = dom.1 := by
    rw [hdom, ← searchPrecision_asked hp]; rfl
  have hd2 : (fd.ctx re im call).imRan = dom.2 := by
    rw [hdom, ← searchPrecision_asked hp]; rfl
  obtain ⟨w', a1, _⟩ := C132_search polyRoots cfg hromb habs hev hsteps (fd.ctx re im call) df hdf (by rw [hd1]; exact d1) (by rw [hd2]; exact d2)
    zeros G B V R η δ ρ (by rw [hd1, hd2]; exact hf) (by rw [hd1, hd2]; exact hB) (by rw [hd1, hd2, hprec]; exact hres) hR h0 h1 hδ hsm hρ hsolve
    limit m n (by rw [hd1, hd2, hprec]; exact hb) hl (fd.start none) rfl
  have hrun : (fd.algorithm (fd.ctx re im call) (fd.start none)).1 = .ok () := by rw [halg, a1]
  obtain ⟨e1, e2⟩ := calculateRoots_outcome fd re im call none
  rw [hrun] at e1 e2
  have o1 : s.outcome = .ok () := e1.trans (if_neg (by simp))
  have o2 : s.warned = false := e2.trans (by simp)
  have hsound := poly_sound (σ := σ) polyRoots cfg hromb habs hev hsteps (fd.ctx re im call) df hdf (by rw [hd1]; exact d1) (by rw [hd2]; exact d2)
    zeros G B V R η δ ρ (by rw [hd1, hd2]; exact hf) (by rw [hd1, hd2]; exact hB) (by rw [hd1, hd2, hprec]; exact hres) hR h0 h1 hδ hsm hρ hsolve
    limit m n (by rw [hd1, hd2, hprec]; exact hb) hl
  rw [hprec, ← halg] at hsound
  obtain ⟨b1, b2⟩ := serial_sound fd hcont re im call p hp none (fun _ => False) zeros _ hsound o1 o2
  have e10 : ∀ q : ℤ, (10 : ℝ) ^ (-(q + 1)) + (δ + ρ) + 10 ^ (-(q + 1)) / 2 = 3 / 2 * 10 ^ (-(q + 1)) + (δ + ρ) := fun q => by ring
  simp only [e10] at b1 b2
  refine ⟨o1, o2, b1, fun r hr => ?_⟩
  rcases b2 r hr with h | ⟨_, z, h, _⟩ | h
  · exact .inl h
  · exact h.elim
  · exact .inr h

/-- C132 for parallel finders: the same for a `ParallelRootFinder` with any number of processes and any schedule without interrupt, if the hypotheses hold for the rectangle of each job;
the tolerance is `0.6 * 10^-p + δ + ρ`. -/
theorem C132_parallel {σ : Type} (fd : Finder σ ℝ) (polyRoots : List (Cx ℝ) → List (Cx ℝ)) (cfg : QuadCfg ℝ) (hromb : cfg.romb = romberg)
    (habs : ∀ z, cfg.abs z = √(z.re ^ 2 + z.im ^ 2)) (hev : ∀ n, 1 ≤ cfg.evals n) (hsteps : 13 ≤ cfg.steps) (limit : ℕ)
    (halg : fd.algorithm = associatedPolynomial polyRoots (quadLine cfg) Real.pi limit)
    (hcont : RoundsFreely fd.container) (df : Cx ℝ → Cx ℝ) (hdf : fd.df = some df) (cpus : ℕ) (hcpus : 1 ≤ cpus) (re im : ℝ × ℝ)
    (call : Option (ℤ × ℤ)) (p : ℤ × ℤ) (hp : Asked call fd.precision p) (sched : Schedule) (hsched : sched.interrupted = false)
    (dom : (ℝ × ℝ) × (ℝ × ℝ)) (hdom : dom = desymmetrizeDomain re im (p.1 + 1, p.2 + 1))
    (zeros : List (Cx ℝ)) (G : ℂ → ℂ) (B V R η δ ρ : ℝ) (hf : AnalyticWith fd.f df (Cell.Has ⟨dom.1, dom.2, 0⟩) zeros G B V)
    (hB : BoundedBy (Cell.Has ⟨dom.1, dom.2, 0⟩) G B R)
    (hres : ∀ job ∈ createRootJobs fd.f fd.df cpus dom.1 dom.2 (p.1 + 1, p.2 + 1) fd.verbose, PolyResolved (p.1 + 1, p.2 + 1) zeros B V R η job.reRan job.imRan)
    (hR : 0 < R) (h0 : 0 ≤ η) (h1 : η ≤ 1 / 200) (hδ : 0 < δ) (hsm : ∀ n, 1 ≤ n → n ≤ 3 → n ≤ zeros.length → 44 * η * R ^ n < δ ^ n)
    (hρ : 0 ≤ ρ) (hsolve : SolvesWithin polyRoots (R + δ) ρ)
    (m n : ℕ) (hb : Cell.Below (p.1 + 1, p.2 + 1) m n ⟨dom.1, dom.2, 0⟩) (hl : m + n < limit) :
    let s := fd.calculateRootsParallel cpus re im call sched
    s.outcome = .ok () ∧ s.warned = false ∧
    (∀ z ∈ zeros, Requested re im z → ∃ r ∈ held s.finder.container, 1 ≤ r.2 ∧
      Near (6 / 10 * 10 ^ (-p.1) + (δ + ρ), 6 / 10 * 10 ^ (-p.2) + (δ + ρ)) z r.1) ∧
    ∀ r ∈ held s.finder.container, r ∈ held fd.container ∨
      (1 ≤ r.2 ∧ ∃ z ∈ zeros, Cell.Has (Enlarged (4 * 10 ^ (-(p.1 + 1)), 4 * 10 ^ (-(p.2 + 1))) re im) z ∧
        Near (6 / 10 * 10 ^ (-p.1) + (δ + ρ), 6 / 10 * 10 ^ (-p.2) + (δ + ρ)) z r.1) := by
  intro s
  obtain ⟨d1, d2, _, _⟩ := C46_domain re im (p.1 + 1, p.2 + 1)
  rw [← hdom] at d1 d2
  have hjob := fun job hj => job_facts fd df hdf cpus hcpus dom d1 d2 _ zeros G B V hf m n hb job hj
  have hbd : ∀ job : RCtx ℝ, (∀ z, Cell.Has (⟨job.reRan, job.imRan, 0⟩ : Cell ℝ) z → Cell.Has ⟨dom.1, dom.2, 0⟩ z) →
      BoundedBy (Cell.Has ⟨job.reRan, job.imRan, 0⟩) G B R := fun job h =>
    ⟨fun z hz => hB.one z (h z hz), fun z hz => hB.two z (h z hz), fun z hz => hB.three z (h z hz), fun z hz => hB.radius z (h z hz)⟩
  have hout := parallel_returns fd cpus hcpus re im call p hp sched hsched dom hdom fun job hj w hw => by
    obtain ⟨h2, h3, h4, h5, h8, h6, h7⟩ := hjob job hj
    obtain ⟨w', a1, a2, _⟩ := C132_search polyRoots cfg hromb habs hev hsteps job df h2 h4 h5 zeros G B V R η δ ρ h7 (hbd job h8) (h3 ▸ hres job hj) hR h0 h1 hδ hsm hρ hsolve
      limit m n h6 hl w hw
    exact ⟨w', by rw [halg]; exact a1, a2⟩
  have e10 : ∀ q : ℤ, (10 : ℝ) ^ (-(q + 1)) + (δ + ρ) + 10 ^ (-q) / 2 = 6 / 10 * 10 ^ (-q) + (δ + ρ) := by
    intro q
    rw [neg_add, zpow_add₀ (by norm_num)]
    norm_num
    ring
  obtain ⟨b1, b2⟩ := parallel_sound fd hcont cpus hcpus re im call p hp sched hsched (fun _ => False) zeros
    ((10 : ℝ) ^ (-(p.1 + 1)) + (δ + ρ), (10 : ℝ) ^ (-(p.2 + 1)) + (δ + ρ)) (by
      rw [← hdom]
      intro job hj
      obtain ⟨h2, h3, h4, h5, h8, h6, h7⟩ := hjob job hj
      have := poly_sound (σ := σ) polyRoots cfg hromb habs hev hsteps job df h2 h4 h5 zeros G B V R η δ ρ h7 (hbd job h8) (h3 ▸ hres job hj) hR h0 h1 hδ hsm hρ hsolve
        limit m n h6 hl
      rw [h3] at this
      rw [halg]
      exact this) hout.1
  simp only [e10] at b1 b2
  refine ⟨hout.1, hout.2, b1, fun r hr => ?_⟩
  rcases b2 r hr with h | ⟨_, z, h, _⟩ | h
  · exact .inl h
  · exact h.elim
  · exact .inr h

/-! ## A concrete case: `f(z) = exp(z) * z * (z - 1/20)` -/

noncomputable def pairF (z : Cx ℝ) : Cx ℝ :=
  ⟨(Complex.exp (point z) * (point z * (point z - 1 / 20))).re, (Complex.exp (point z) * (point z * (point z - 1 / 20))).im⟩

noncomputable def dpairF (z : Cx ℝ) : Cx ℝ :=
  ⟨(Complex.exp (point z) * (point z * (point z - 1 / 20) + 2 * point z - 1 / 20)).re,
    (Complex.exp (point z) * (point z * (point z - 1 / 20) + 2 * point z - 1 / 20)).im⟩

noncomputable def pairZeros : List (Cx ℝ) := [0, ⟨1 / 20, 0⟩]

noncomputable def pairRe : ℝ × ℝ := (-9 / 40, 13 / 40)
noncomputable def pairIm : ℝ × ℝ := (-29 / 80, 37 / 80)

noncomputable def pairCtx : RCtx ℝ := ⟨pairF, some dpairF, (1, 1), pairRe, pairIm, false⟩

/-- a finder with an exact polynomial solver -/
noncomputable def pairFinder : Finder Unit ℝ where
  f := pairF
  df := some dpairF
  algorithm := associatedPolynomial (exact_polyRoots_exist (K := ℝ)).choose (quadLine rombCfg) Real.pi 8
  precision := (3, 3)
  verbose := false
  info := false
  container := .rounding (RContainer.init none (3, 3))
  cache := EstCache.init false
  est := ()

theorem pair_dom : (pairRe, pairIm) = desymmetrizeDomain ((-1 / 8 : ℝ), (1 / 8 : ℝ)) (-1 / 16, 1 / 16) (1, 1) := by
  unfold desymmetrizeDomain pairRe pairIm
  norm_num [eps10]

theorem point_twentieth : point ⟨1 / 20, 0⟩ = 1 / 20 := by
  unfold point
  apply Complex.ext <;> norm_num

theorem pair_analytic : AnalyticWith pairF dpairF (Cell.Has ⟨pairRe, pairIm, 0⟩) pairZeros (fun z => z) 1 1 := by
  have p0 : point 0 = 0 := rfl
  have hprod : ∀ u : ℂ, (pairZeros.map fun c => u - point c).prod = u * (u - 1 / 20) := by
    intro u
    simp only [pairZeros, List.map_cons, List.map_nil, List.prod_cons, List.prod_nil, mul_one, p0, sub_zero, point_twentieth]
  refine ⟨fun z _ => analyticAt_id, fun z _ => ?_, fun z _ => ?_, fun z _ => ?_, fun a b ha hb => ?_⟩
  · rw [hprod]
    rfl
  · have h1 := (Complex.hasDerivAt_exp (point z)).mul ((hasDerivAt_id (point z)).mul ((hasDerivAt_id (point z)).sub_const (1 / 20)))
    have e : point (dpairF z) = Complex.exp (point z) * (id (point z) * (id (point z) - 1 / 20)) + Complex.exp (point z) * (1 * (id (point z) - 1 / 20) + id (point z) * 1) := by
      show Complex.exp (point z) * (point z * (point z - 1 / 20) + 2 * point z - 1 / 20) = _
      simp only [id]; ring
    rw [e]
    refine h1.congr_of_eventuallyEq (Filter.Eventually.of_forall fun u => ?_)
    dsimp only
    rw [hprod]
    rfl
  · have : iteratedDeriv 3 (fun z : ℂ => z) (point z) = 0 := by
      have : (fun z : ℂ => z) = id := rfl
      rw [this]
      simp [iteratedDeriv_succ, iteratedDeriv_zero]
    rw [this]; simp
  · obtain ⟨_, _, a3, a4⟩ := ha
    obtain ⟨_, _, b3, b4⟩ := hb
    dsimp only [pairIm] at a3 a4 b3 b4
    show |b.im - a.im| ≤ _
    rw [abs_le]
    constructor <;> linarith

theorem pair_bounded : BoundedBy (Cell.Has ⟨pairRe, pairIm, 0⟩) (fun z => z) 1 (3 / 5) := by
  have hid : (fun z : ℂ => z) = id := rfl
  refine ⟨fun z _ => ?_, fun z _ => ?_, fun z _ => ?_, fun z hz => ?_⟩
  · rw [hid]; simp [iteratedDeriv_succ, iteratedDeriv_zero]
  · rw [hid]; simp [iteratedDeriv_succ, iteratedDeriv_zero]
  · rw [hid]; simp [iteratedDeriv_succ, iteratedDeriv_zero]
  · obtain ⟨a1, a2, a3, a4⟩ := hz
    dsimp only [pairIm, pairRe] at a1 a2 a3 a4
    have : ‖point z‖ ^ 2 = z.re ^ 2 + z.im ^ 2 := by
      rw [← Complex.normSq_eq_norm_sq, Complex.normSq_apply]
      show z.re * z.re + z.im * z.im = _
      ring
    have h1 : z.re ^ 2 ≤ (13 / 40) ^ 2 := by nlinarith
    have h2 : z.im ^ 2 ≤ (37 / 80) ^ 2 := by nlinarith
    nlinarith [norm_nonneg (point z)]

theorem pair_far (z : Cx ℝ) (hz : Cell.Boundary ⟨pairRe, pairIm, 0⟩ z) : Far (1 / 5) pairZeros z := by
  obtain ⟨⟨a1, a2, a3, a4⟩, hno⟩ := hz
  dsimp only [pairIm, pairRe] at a1 a2 a3 a4
  have hside : z.re = -9 / 40 ∨ z.re = 13 / 40 ∨ z.im = -29 / 80 ∨ z.im = 37 / 80 := by
    by_contra h
    push Not at h
    exact hno ⟨lt_of_le_of_ne a1 h.1.symm, lt_of_le_of_ne a2 h.2.1, lt_of_le_of_ne a3 h.2.2.1.symm, lt_of_le_of_ne a4 h.2.2.2⟩
  intro c hc
  simp only [pairZeros, List.mem_cons, List.not_mem_nil, or_false] at hc
  rcases hc with rfl | rfl <;> simp only [Cx.zero_re, Cx.zero_im] <;> rcases hside with h | h | h | h <;> rw [h] <;> nlinarith [sq_nonneg z.re, sq_nonneg z.im, sq_nonneg (z.re - 1 / 20)]

theorem pair_reached {r i : ℝ × ℝ} (h : PolyReached (1, 1) pairZeros pairRe pairIm r i) : r = pairRe ∧ i = pairIm := by
  have hcount : ∀ c : Cell ℝ, Cell.count c pairZeros ≤ 2 := fun c => List.length_filter_le _ _
  induction h with
  | whole => exact ⟨rfl, rfl⟩
  | left _ _ h _ _ | right _ _ h _ _ | lower _ _ h _ _ | upper _ _ h _ _ => exact absurd (h.trans (hcount _)) (by norm_num)

theorem pair_error (k : ℕ) (h1 : 1 ≤ k) (h2 : k ≤ 2) (l : ℝ) (hl : l = pairRe.2 - pairRe.1 ∨ l = pairIm.2 - pairIm.1) :
    momentError k pairZeros.length 1 (1 / 5) (3 / 5) l ≤ 1 / 5000 * (3 / 5) ^ k ∧ momentError k pairZeros.length 1 (1 / 5) (3 / 5) l < 1 / 1250 := by
  obtain rfl | rfl : k = 1 ∨ k = 2 := by omega
  all_goals
    unfold momentError momentBound
    simp only [pairZeros, List.length_cons, List.length_nil]
    rcases hl with rfl | rfl <;> norm_num [pairRe, pairIm]

theorem pair_resolved : PolyResolved (1, 1) pairZeros 1 1 (3 / 5) (1 / 5000) pairRe pairIm := by
  intro r i h
  obtain ⟨rfl, rfl⟩ := pair_reached h
  have hpi := Real.two_le_pi
  have hpi4 := Real.pi_le_four
  refine ⟨1 / 5, by norm_num, pair_far, fun l hl => ?_, fun k h1 h2 _ => ?_⟩
  · unfold quadError
    simp only [pairZeros, List.length_cons, List.length_nil]
    rcases hl with rfl | rfl <;> norm_num [pairRe, pairIm] <;> linarith
  · exact pair_error k h1 (h2.trans (List.length_filter_le _ _))

theorem pair_small (n : ℕ) (h1 : 1 ≤ n) (_ : n ≤ 3) (h3 : n ≤ pairZeros.length) : 44 * (1 / 5000) * (3 / 5 : ℝ) ^ n < (3 / 50) ^ n := by
  have h3 : n ≤ 2 := h3
  obtain rfl | rfl : n = 1 ∨ n = 2 := by omega
  all_goals norm_num

theorem pair_solves : SolvesWithin (exact_polyRoots_exist (K := ℝ)).choose (3 / 5 + 3 / 50) 0 := by
  intro zs _ _
  refine ⟨_, (exact_polyRoots_exist (K := ℝ)).choose_spec zs, ?_⟩
  rw [List.forall₂_same]
  intro x _
  simp

theorem pair_below : Cell.Below (1, 1) 3 4 (⟨pairRe, pairIm, 0⟩ : Cell ℝ) := by
  unfold Cell.Below pairRe pairIm; norm_num

theorem pair_pos : pairRe.1 < pairRe.2 ∧ pairIm.1 < pairIm.2 := by unfold pairRe pairIm; norm_num

/-- non-vacuity of `C131_rectangle`: the sum of the squares of the zeros is 1/400 -/
example (w : World Unit ℝ) (hw : w.fuse = none) (hc : w.cache = EstCache.init false) :
    ∃ v w', calcMoment (quadLine rombCfg) (2 : ℕ) pairRe pairIm pairCtx w = (.ok v, w') ∧ ‖point v - 2 * Real.pi * (1 / 400)‖ ≤ 8 * (1 / 5000 * (3 / 5) ^ 2) := by
  obtain ⟨v, w', h1, _, h2⟩ := C131_rectangle rombCfg rfl (fun _ => rfl) (fun n => by simp [rombCfg]) le_rfl pairCtx dpairF rfl pairRe pairIm pair_pos.1 pair_pos.2
    pairZeros (fun z => z) 1 1 (3 / 5) (1 / 5) _ pair_analytic pair_bounded (by norm_num) pair_far 2 (pair_error 2 (by norm_num) le_rfl) w hw false hc
  refine ⟨v, w', h1, ?_⟩
  have e : powerSum 2 pairZeros pairRe pairIm = 1 / 400 := by
    have p0 : point 0 = 0 := rfl
    have i1 : Cell.HasHalfOpen (⟨pairRe, pairIm, 0⟩ : Cell ℝ) 0 := by unfold Cell.HasHalfOpen pairRe pairIm; norm_num
    have i2 : Cell.HasHalfOpen (⟨pairRe, pairIm, 0⟩ : Cell ℝ) ⟨1 / 20, 0⟩ := by unfold Cell.HasHalfOpen pairRe pairIm; norm_num
    unfold powerSum pairZeros
    simp only [List.filter_cons, i1, i2, decide_true, if_true, List.filter_nil, List.map_cons, List.map_nil, List.sum_cons, List.sum_nil, p0, point_twentieth]
    norm_num
  rw [e] at h2
  exact h2

/-- non-vacuity of `C131_line`: the lower side -/
example (w : World Unit ℝ) : ∃ v, quadLine rombCfg (1 : ℕ) ⟨-9 / 40, -29 / 80⟩ ⟨13 / 40, -29 / 80⟩ pairCtx w = (.ok v, w) := by
  obtain ⟨v, h, _⟩ := C131_line rombCfg rfl (fun _ => rfl) (fun n => by simp [rombCfg]) le_rfl pairCtx dpairF rfl _ pairZeros (fun z => z) 1 1 (3 / 5) (1 / 5)
    pair_analytic pair_bounded (by norm_num) ⟨-9 / 40, -29 / 80⟩ ⟨13 / 40, -29 / 80⟩ (fun h => by have := congrArg Cx.re h; norm_num at this) (.inl rfl) (fun t h0 h1 => by
      have hh : Cell.Has (⟨pairRe, pairIm, 0⟩ : Cell ℝ) (along ⟨-9 / 40, -29 / 80⟩ ⟨13 / 40, -29 / 80⟩ t) := by
        unfold Cell.Has along pairRe pairIm
        simp only
        norm_num
        constructor <;> nlinarith
      refine ⟨hh, pair_far _ ⟨hh, fun h => ?_⟩⟩
      have := h.2.2.1
      unfold along pairIm at this
      simp at this) 1 (by
      have := (pair_error 1 le_rfl (by norm_num) _ (.inl rfl)).2
      have e : |(13 / 40 : ℝ) - -9 / 40| + |(-29 / 80 : ℝ) - -29 / 80| = pairRe.2 - pairRe.1 := by
        unfold pairRe
        norm_num
      dsimp only
      rw [e]
      exact this) w
  exact ⟨v, h⟩

/-- non-vacuity of `C132_search` -/
example (w : World Unit ℝ) (hw : w.fuse = none) : ∃ w', associatedPolynomial (exact_polyRoots_exist (K := ℝ)).choose (quadLine rombCfg) Real.pi 8 pairCtx w = (.ok (), w') ∧
    ((newRoots w w').map Prod.snd).sum = 2 := by
  obtain ⟨w', h1, _, _, _, h2⟩ := C132_search _ rombCfg rfl (fun _ => rfl) (fun n => by simp [rombCfg]) le_rfl pairCtx dpairF rfl pair_pos.1 pair_pos.2
    pairZeros (fun z => z) 1 1 (3 / 5) (1 / 5000) (3 / 50) 0 pair_analytic pair_bounded pair_resolved (by norm_num) (by norm_num) (by norm_num) (by norm_num)
    pair_small le_rfl pair_solves 8 3 4 pair_below (by norm_num) w hw
  refine ⟨w', h1, h2.trans ?_⟩
  have i1 : Cell.HasHalfOpen (⟨pairRe, pairIm, 0⟩ : Cell ℝ) 0 := by unfold Cell.HasHalfOpen pairRe pairIm; norm_num
  have i2 : Cell.HasHalfOpen (⟨pairRe, pairIm, 0⟩ : Cell ℝ) ⟨1 / 20, 0⟩ := by unfold Cell.HasHalfOpen pairRe pairIm; norm_num
  have : Cell.count (⟨pairRe, pairIm, 0⟩ : Cell ℝ) pairZeros = 2 := by
    unfold Cell.count pairZeros
    simp only [List.filter_cons, i1, i2, decide_true, if_true, List.filter_nil, List.length_cons, List.length_nil]
  show ((Cell.count (⟨pairRe, pairIm, 0⟩ : Cell ℝ) pairZeros : ℕ) : ℤ) = 2
  rw [this]; rfl

/-- non-vacuity of `C132_finder`: `calculateRoots((-1/8, 1/8), (-1/16, 1/16), (0, 0))` -/
example : let s := pairFinder.calculateRoots (-1 / 8, 1 / 8) (-1 / 16, 1 / 16) (some (0, 0)) none
    s.outcome = .ok () ∧ s.warned = false ∧
      ∃ r ∈ held s.finder.container, 1 ≤ r.2 ∧ Near ((3 / 2 : ℝ) * 10 ^ (-((0 : ℤ) + 1)) + (3 / 50 + 0), (3 / 2 : ℝ) * 10 ^ (-((0 : ℤ) + 1)) + (3 / 50 + 0)) 0 r.1 := by
  have h := C132_finder pairFinder _ rombCfg rfl (fun _ => rfl) (fun n => by simp [rombCfg]) le_rfl 8 rfl rfl dpairF rfl
    (-1 / 8, 1 / 8) (-1 / 16, 1 / 16) (some (0, 0)) (0, 0) (.inl rfl) (pairRe, pairIm) pair_dom
    pairZeros (fun z => z) 1 1 (3 / 5) (1 / 5000) (3 / 50) 0 pair_analytic pair_bounded pair_resolved (by norm_num) (by norm_num) (by norm_num) (by norm_num)
    pair_small le_rfl pair_solves 3 4 pair_below (by norm_num)
  exact ⟨h.1, h.2.1, h.2.2.1 0 (by simp [pairZeros]) (by unfold Requested; norm_num)⟩

/-- non-vacuity of `C132_parallel` -/
example : let s := pairFinder.calculateRootsParallel 1 (-1 / 8, 1 / 8) (-1 / 16, 1 / 16) (some (0, 0)) ⟨[0], false, 0⟩
    s.outcome = .ok () ∧ ∃ r ∈ held s.finder.container, 1 ≤ r.2 ∧ Near ((6 / 10 : ℝ) * 10 ^ (-(0 : ℤ)) + (3 / 50 + 0), (6 / 10 : ℝ) * 10 ^ (-(0 : ℤ)) + (3 / 50 + 0)) 0 r.1 := by
  have h := C132_parallel pairFinder _ rombCfg rfl (fun _ => rfl) (fun n => by simp [rombCfg]) le_rfl 8 rfl rfl dpairF rfl 1 le_rfl
    (-1 / 8, 1 / 8) (-1 / 16, 1 / 16) (some (0, 0)) (0, 0) (.inl rfl) ⟨[0], false, 0⟩ rfl (pairRe, pairIm) pair_dom
    pairZeros (fun z => z) 1 1 (3 / 5) (1 / 5000) (3 / 50) 0 pair_analytic pair_bounded
    (fun job hj => by
      obtain ⟨i, hi, j, hj, rfl⟩ := mem_jobs.1 hj
      obtain rfl : i = 0 := by omega
      obtain rfl : j = 0 := by omega
      have e1 : (jobAt pairFinder.f pairFinder.df 1 pairRe pairIm (0 + 1, 0 + 1) pairFinder.verbose 0 0).reRan = pairRe := by
        unfold jobAt node pairRe; norm_num
      have e2 : (jobAt pairFinder.f pairFinder.df 1 pairRe pairIm (0 + 1, 0 + 1) pairFinder.verbose 0 0).imRan = pairIm := by
        unfold jobAt node pairIm; norm_num
      rw [e1, e2]
      exact pair_resolved) (by norm_num) (by norm_num) (by norm_num) (by norm_num)
    pair_small le_rfl pair_solves 3 4 pair_below (by norm_num)
  exact ⟨h.1, h.2.2.1 0 (by simp [pairZeros]) (by unfold Requested; norm_num)⟩

end PyZeal.Props
