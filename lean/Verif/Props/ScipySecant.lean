import Verif.Proof.ScipySecant
import Verif.Props.ScipyNewton

/-! # Property C137: the Newton grid without derivative -/

set_option linter.unusedSectionVars false

namespace PyZeal.Props
open Spec

/-- C137, the solver. Without derivative scipy runs the secant method for all start points at the same time, from `x` and a second point beside `x`. It returns one point for each
start point; every returned point comes from at most 50 steps of the secant method from one of the start points. If one of the start points lies, together with the second point, in a disc around a zero on which the derivative is steady, the call
does not raise, and every start point in such a disc ends at distance at most two thirds of `1.48e-8` from the zero of its disc. -/
theorem C137_grid (abs : Cx ℝ → ℝ) (habs : ∀ z, abs z = √(z.re ^ 2 + z.im ^ 2)) (dx : ℝ) (hdx : 0 < dx) (f : Cx ℝ → Cx ℝ) (pts : List (Cx ℝ)) :
    (∀ out, (scipyAll abs dx).grid f pts none = some out → out.length = pts.length ∧
      ∀ y ∈ out, ∃ x ∈ pts, ∃ x', Beside dx x x' ∧ ∃ k ≤ 50, ∃ a b, SecantAfter f x x' k a b ∧ (y = a ∨ y = b)) ∧
    ∀ (df : Cx ℝ → Cx ℝ) (c : Cx ℝ) (r : ℝ), Steady f df c r → r ≤ 10 ^ 11 → ∀ (i : ℕ) (x : Cx ℝ), pts[i]? = some x → ‖point x - point c‖ + dx * (1 + ‖point x‖) ≤ r →
      ∃ out y, (scipyAll abs dx).grid f pts none = some out ∧ out[i]? = some y ∧ ‖point y - point c‖ ≤ 2 / 3 * (148 / 10 ^ 10) := by
  constructor
  · intro out h
    obtain ⟨h1, h2⟩ := arraySecant_follows abs f (148 / 10 ^ 10) dx 50 pts out h
    refine ⟨h1, fun y hy => ?_⟩
    obtain ⟨x, hx, rest⟩ := h2 y hy
    exact ⟨x, hx, _, beside_iff.2 rfl, rest⟩
  · intro df c r h hr i x hi h0
    have hn : 3 / 2 * ((2 / 5 : ℝ) ^ 49 * r) < 148 / 10 ^ 10 := by
      have h1 : (2 / 5 : ℝ) ^ 49 * r ≤ (2 / 5 : ℝ) ^ 49 * 10 ^ 11 := mul_le_mul_of_nonneg_left hr (by positivity)
      have h2 : 3 / 2 * ((2 / 5 : ℝ) ^ 49 * 10 ^ 11) < 148 / 10 ^ 10 := by norm_num
      linarith
    obtain ⟨out, h1, y, h2, h3⟩ := arraySecant_converges h abs (fun z => by rw [habs, norm_toC]) hdx (by norm_num) 49 pts i x hi h0 hn
    exact ⟨out, y, h1, h2, h3⟩

/-- a zero in the rectangle attracts one of the start points -/
theorem secant_grid_finds (abs : Cx ℝ → ℝ) (habs : ∀ z, abs z = √(z.re ^ 2 + z.im ^ 2)) (dx : ℝ) (hdx : 0 < dx) (f df : Cx ℝ → Cx ℝ) (cell : Cell ℝ) (n : ℕ) (hn : 2 ≤ n) (pts : List (Cx ℝ))
    (h1 : cell.re.1 ≤ cell.re.2) (h2 : cell.im.1 ≤ cell.im.2) (hg : IsGrid cell n pts) (c : Cx ℝ) (hc : Cell.Has cell c) (r W : ℝ) (h : Steady f df c r) (hr : r ≤ 10 ^ 11)
    (hW : ∀ z, Cell.Has cell z → ‖point z‖ ≤ W)
    (hsp : (cell.re.2 - cell.re.1) / ((n : ℝ) - 1) / 2 + (cell.im.2 - cell.im.1) / ((n : ℝ) - 1) / 2 + dx * (1 + W) ≤ r) :
    ∃ out, (scipyAll abs dx).grid f pts none = some out ∧ ∃ y ∈ out, ‖point y - point c‖ ≤ 2 / 3 * (148 / 10 ^ 10) := by
  obtain ⟨c1, c2, c3, c4⟩ := hc
  obtain ⟨i, hi, hi'⟩ := grid_near c1 c2 hn
  obtain ⟨j, hj, hj'⟩ := grid_near c3 c4 hn
  obtain ⟨x, hx⟩ : ∃ x, pts[i * n + j]? = some x := ⟨_, hg.2 i j hi hj⟩
  have hin : Cell.Has cell x := by
    have hpts : pts = gridPoints _ _ n := IsGrid.unique hg (isGrid_points _ h1 h2 hn)
    have := List.mem_of_getElem? hx
    rw [hpts] at this
    exact (C45_grid _ _ h1 h2 n hn).2.2.1 x this
  have hxe := Option.some.inj (hx.symm.trans (hg.2 i j hi hj))
  have hd : ‖point x - point c‖ ≤ (cell.re.2 - cell.re.1) / ((n : ℝ) - 1) / 2 + (cell.im.2 - cell.im.1) / ((n : ℝ) - 1) / 2 := by
    rw [hxe]; exact dist_of_coords hi' hj'
  have hw := mul_le_mul_of_nonneg_left (hW x hin) hdx.le
  obtain ⟨out, y, g1, g2, g3⟩ := (C137_grid abs habs dx hdx f pts).2 df c r h hr (i * n + j) x hx (by linarith)
  exact ⟨out, g1, y, List.mem_of_getElem? g2, g3⟩

/-- C137. A `RootFinder` without derivative, with the Newton grid algorithm, scipy's solver, a new rounding container and filters set. An uninterrupted search returns without warning. Every zero in the searched
rectangle with a disc on which the derivative is steady, if the disc is at least as large as half the spacing of the grid (sum over both directions) plus `dx * (1 + W)`, where `W` bounds the absolute values in the rectangle and `dx` (about 6.8e-6) is the distance scipy uses for
the second start point, is reported within `1e-8` plus rounding, provided the filters let points so close to the zero pass. And every reported root has order 0 and is the rounding of a point which passes the filters and which the secant method reaches from a point of the
searched rectangle in at most 50 steps. -/
theorem C137_finder {σ : Type} (fd : Finder σ ℝ) (abs : Cx ℝ → ℝ) (habs : ∀ z, abs z = √(z.re ^ 2 + z.im ^ 2)) (dx : ℝ) (hdx : 0 < dx) (n : ℕ) (hn : 2 ≤ n) (truthy : Bool)
    (hfd : fd.algorithm = newtonGrid (scipyAll abs dx) n truthy) (hdf : fd.df = none)
    (hc : RoundsFreely fd.container) (he : IsEmpty fd.container) (calls : List (FilterType × ℤ)) (re im : ℝ × ℝ) (call : Option (ℤ × ℤ)) (p : ℤ × ℤ)
    (hp : Asked call fd.precision p) (cell : Cell ℝ) (hcell : cell = Searched re im (p.1 + 1, p.2 + 1)) (W : ℝ) (hW : ∀ z, Cell.Has cell z → ‖point z‖ ≤ W) :
    ∃ fd', Finder.setRootFilters calls fd = (.ok (), fd') ∧
      let s := fd'.calculateRoots re im call none
      s.outcome = .ok () ∧ s.warned = false ∧
      (∀ df c r, Steady fd.f df c r → r ≤ 10 ^ 11 → Cell.Has cell c →
        (cell.re.2 - cell.re.1) / ((n : ℝ) - 1) / 2 + (cell.im.2 - cell.im.1) / ((n : ℝ) - 1) / 2 + dx * (1 + W) ≤ r →
        (∀ y, ‖point y - point c‖ ≤ 1 / 10 ^ 8 → Passes calls cell fd.f y) →
        ∃ root ∈ held s.finder.container, root.2 = 0 ∧ Near (1 / 10 ^ 8 + 10 ^ (-(p.1 + 1)) / 2, 1 / 10 ^ 8 + 10 ^ (-(p.2 + 1)) / 2) c root.1) ∧
      ∀ root ∈ held s.finder.container, root.2 = 0 ∧ ∃ x x' a b y, Cell.Has cell x ∧ Beside dx x x' ∧ (∃ k ≤ 50, SecantAfter fd.f x x' k a b) ∧ (y = a ∨ y = b) ∧
        RoundsTo (p.1 + 1, p.2 + 1) y root.1 ∧ Passes calls cell fd.f y := by
  subst hcell
  obtain ⟨fd', pts, h1, h2, h3⟩ := C117_serial (scipyAll abs dx) n hn truthy fd hfd hc he calls re im call p hp
  refine ⟨fd', h1, ?_⟩
  intro s
  obtain ⟨h4, h5, h6⟩ := h3
  rw [hdf] at h6
  have hle := searched_ordered re im (p.1 + 1, p.2 + 1)
  have hpts : pts = gridPoints _ _ n := IsGrid.unique h2 (isGrid_points _ hle.1 hle.2 hn)
  refine ⟨h4, h5, fun df c r hs hr hin hsp hpass => ?_, fun root hroot => ?_⟩
  · obtain ⟨out, g1, y, g2, g3⟩ := secant_grid_finds abs habs dx hdx fd.f df _ n hn pts hle.1 hle.2 h2 c hin r W hs hr hW hsp
    obtain ⟨y1, hy1⟩ : ∃ y1, RoundsTo (p.1 + 1, p.2 + 1) y y1 := ⟨_, roundsTo_roundRoot _ (y, 0)⟩
    exact ⟨(y1, 0), (h6 _).2 ⟨rfl, out, g1, y, g2, hy1, hpass y (g3.trans (by norm_num))⟩, rfl, rounded_near hy1 g3⟩
  · obtain ⟨h0, out, g1, y, g2, g3, g4⟩ := (h6 root).1 hroot
    obtain ⟨x, hx, x', hx', k, hk, a, b, hab, hy⟩ := ((C137_grid abs habs dx hdx fd.f pts).1 out g1).2 y g2
    rw [hpts] at hx
    exact ⟨h0, x, x', a, b, y, (C45_grid _ _ hle.1 hle.2 n hn).2.2.1 x hx, hx', ⟨k, hk, hab⟩, hy, g3, g4⟩

/-- C137 for parallel finders: the same with any number of processes and any schedule without interrupt, rounded at the requested precision. -/
theorem C137_parallel {σ : Type} (fd : Finder σ ℝ) (abs : Cx ℝ → ℝ) (habs : ∀ z, abs z = √(z.re ^ 2 + z.im ^ 2)) (dx : ℝ) (hdx : 0 < dx) (n : ℕ) (hn : 2 ≤ n) (truthy : Bool)
    (hfd : fd.algorithm = newtonGrid (scipyAll abs dx) n truthy) (hdf : fd.df = none)
    (hc : RoundsFreely fd.container) (he : IsEmpty fd.container) (calls : List (FilterType × ℤ)) (cpus : ℕ) (hcpus : 1 ≤ cpus) (re im : ℝ × ℝ) (call : Option (ℤ × ℤ)) (p : ℤ × ℤ)
    (hp : Asked call fd.precision p) (sched : Schedule) (hsched : sched.interrupted = false) (cell : Cell ℝ) (hcell : cell = Searched re im (p.1 + 1, p.2 + 1))
    (W : ℝ) (hW : ∀ z, Cell.Has cell z → ‖point z‖ ≤ W) :
    ∃ fd', Finder.setRootFilters calls fd = (.ok (), fd') ∧
      let s := fd'.calculateRootsParallel cpus re im call sched
      s.outcome = .ok () ∧ s.warned = false ∧
      (∀ df c r, Steady fd.f df c r → r ≤ 10 ^ 11 → Cell.Has cell c →
        (cell.re.2 - cell.re.1) / ((n : ℝ) - 1) / 2 + (cell.im.2 - cell.im.1) / ((n : ℝ) - 1) / 2 + dx * (1 + W) ≤ r →
        (∀ y, ‖point y - point c‖ ≤ 1 / 10 ^ 8 → Passes calls cell fd.f y) →
        ∃ root ∈ held s.finder.container, root.2 = 0 ∧ Near (1 / 10 ^ 8 + 10 ^ (-p.1) / 2, 1 / 10 ^ 8 + 10 ^ (-p.2) / 2) c root.1) ∧
      ∀ root ∈ held s.finder.container, root.2 = 0 ∧ ∃ x x' a b y, Cell.Has cell x ∧ Beside dx x x' ∧ (∃ k ≤ 50, SecantAfter fd.f x x' k a b) ∧ (y = a ∨ y = b) ∧
        RoundsTo p y root.1 ∧ Passes calls cell fd.f y := by
  subst hcell
  obtain ⟨fd', cells, h1, ⟨_, t2, _, t4⟩, h3⟩ := C117_parallel (scipyAll abs dx) n hn truthy fd hfd hc he calls cpus hcpus re im call p hp sched hsched
  refine ⟨fd', h1, ?_⟩
  intro s
  obtain ⟨h4, h5, h6⟩ := h3
  rw [hdf] at h6
  have hn1 : (0 : ℝ) < (n : ℝ) - 1 := by
    have : (2 : ℝ) ≤ n := by exact_mod_cast hn
    linarith
  refine ⟨h4, h5, fun df c r hs hr hin hsp hpass => ?_, fun root hroot => ?_⟩
  · obtain ⟨l, hl, hlc⟩ := (t2 c).1 hin
    obtain ⟨i1, i2, i3, i4, i5, i6⟩ := t4 l hl
    have w1 : (l.re.2 - l.re.1) / ((n : ℝ) - 1) ≤ _ := div_le_div_of_nonneg_right (sub_le_sub i3 i1) hn1.le
    have w2 : (l.im.2 - l.im.1) / ((n : ℝ) - 1) ≤ _ := div_le_div_of_nonneg_right (sub_le_sub i6 i4) hn1.le
    obtain ⟨out, g1, y, g2, g3⟩ := secant_grid_finds abs habs dx hdx fd.f df l n hn _ i2 i5 (isGrid_points l i2 i5 hn) c hlc r W hs hr
      (fun z ⟨z1, z2, z3, z4⟩ => hW z ⟨i1.trans z1, z2.trans i3, i4.trans z3, z4.trans i6⟩) (by linarith)
    obtain ⟨y1, hy1⟩ : ∃ y1, RoundsTo p y y1 := ⟨_, roundsTo_roundRoot _ (y, 0)⟩
    exact ⟨(y1, 0), (h6 _).2 ⟨rfl, l, hl, _, out, isGrid_points l i2 i5 hn, g1, y, g2, hy1, hpass y (g3.trans (by norm_num))⟩, rfl, rounded_near hy1 g3⟩
  · obtain ⟨h0, l, hl, pts, out, g0, g1, y, g2, g3, g4⟩ := (h6 root).1 hroot
    obtain ⟨i1, i2, i3, i4, i5, i6⟩ := t4 l hl
    obtain ⟨x, hx, x', hx', k, hk, a, b, hab, hy⟩ := ((C137_grid abs habs dx hdx fd.f pts).1 out g1).2 y g2
    rw [IsGrid.unique g0 (isGrid_points l i2 i5 hn)] at hx
    obtain ⟨x1, x2, x3, x4⟩ := (C45_grid _ _ i2 i5 n hn).2.2.1 x hx
    dsimp only at x1 x2 x3 x4
    refine ⟨h0, x, x', a, b, y, ⟨?_, ?_, ?_, ?_⟩, hx', ⟨k, hk, hab⟩, hy, g3, g4⟩ <;> linarith

/-! ## A concrete case -/

/-- a finder for `z * exp(z)` without derivative, with nine grid points -/
noncomputable def gridZexpPlain : Finder Unit ℝ where
  f := zexp
  df := none
  algorithm := newtonGrid (scipyAll absC (7 / 10 ^ 6)) 3 false
  precision := (2, 2)
  verbose := false
  info := false
  container := .rounding (RContainer.init none (2, 2))
  cache := EstCache.init false
  est := ()

/-- non-vacuity of `C137_finder`: the zero 0 is reported -/
example : ∃ fd', Finder.setRootFilters [] gridZexpPlain = (.ok (), fd') ∧
    ∃ r ∈ held (fd'.calculateRoots (-2 / 1000, 4 / 1000) (0, 2 / 1000) none none).finder.container, r.2 = 0 ∧
      Near (1 / 10 ^ 8 + (10 : ℝ) ^ (-((2 : ℤ) + 1)) / 2, 1 / 10 ^ 8 + (10 : ℝ) ^ (-((2 : ℤ) + 1)) / 2) 0 r.1 := by
  have hcell : Searched ((-2 / 1000 : ℝ), (4 / 1000 : ℝ)) (0, 2 / 1000) (2 + 1, 2 + 1) = ⟨(-3 / 1000, 6 / 1000), (-3 / 1000, 6 / 1000), 0⟩ := by
    rw [← searched_eq, show ((2 + 1, 2 + 1) : ℤ × ℤ) = (3, 3) from rfl, thirds_domain]
  obtain ⟨fd', h1, _, _, h2, _⟩ := C137_finder gridZexpPlain absC (fun _ => rfl) (7 / 10 ^ 6) (by norm_num) 3 (by norm_num) false rfl rfl rfl rfl []
    (-2 / 1000, 4 / 1000) (0, 2 / 1000) none (2, 2) (.inr ⟨rfl, rfl⟩) _ rfl 1 (by
      rw [hcell]
      rintro z ⟨z1, z2, z3, z4⟩
      dsimp only at z1 z2 z3 z4
      refine (Complex.norm_le_abs_re_add_abs_im _).trans ?_
      have a : |(point z).re| ≤ 1 / 2 := by rw [abs_le]; show -(1 / 2) ≤ z.re ∧ z.re ≤ 1 / 2; constructor <;> linarith
      have b : |(point z).im| ≤ 1 / 2 := by rw [abs_le]; show -(1 / 2) ≤ z.im ∧ z.im ≤ 1 / 2; constructor <;> linarith
      linarith)
  refine ⟨fd', h1, h2 dzexp 0 (1 / 40) (zexp_steady _ le_rfl) (by norm_num) ?_ ?_ ?_⟩
  · rw [hcell]
    unfold Cell.Has
    norm_num
  · rw [hcell]
    norm_num
  · intro y hy
    exact ⟨nofun, fun t ⟨a, b, h, _⟩ => absurd h (by simp)⟩

end PyZeal.Props
