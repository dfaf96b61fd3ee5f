import Verif.Proof.Quadrature
import Mathlib.Tactic.IntervalCases

/-! # Properties C31-C33: quadrature -/

set_option linter.unusedSectionVars false

namespace PyZeal.Props
open Spec
variable {K : Type} [Field K] [LinearOrder K] [IsStrictOrderedRing K] {σ : Type}

/-- C31, merging: the equidistant points of a line with `n` intervals merged with the `n` midpoints give
exactly the equidistant points with `2n` intervals, and the function values are merged accordingly. -/
theorem C31_merge (a b : Cx K) (n : ℕ) (hn : 0 < n) (g : Cx K → Cx K) (w : World σ K) :
    let midpoints := (List.range n).map fun (i : ℕ) => along a b (((i : K) + 1 / 2) / n)
    mergeArrays (grid a b n, (grid a b n).map g) (midpoints, midpoints.map g) w =
      (.ok (grid a b (2 * n), (grid a b (2 * n)).map g), w) := by
  intro midpoints
  have hn' : (n : K) ≠ 0 := by exact_mod_cast hn.ne'
  have hm : midpoints = linspace (along a b (1 / (2 * n))) (along a b (1 - 1 / (2 * n))) n := by
    unfold linspace
    apply List.map_congr_left
    intro i hi
    rw [List.mem_range] at hi
    by_cases h1 : n = 1
    · subst h1
      obtain rfl : i = 0 := by omega
      ext <;> simp [along]
    · have h5 : (n : K) - 1 ≠ 0 := by
        rw [sub_ne_zero]
        exact_mod_cast h1
      unfold along
      ext <;> simp <;> field_simp <;> ring
  have mg := merge_grid a b n hn
  rw [← hm] at mg
  unfold mergeArrays
  rw [Py.bind_run, mergeArray_ok _ _ b (by simp [midpoints]) (grid_last a b _ hn)]
  dsimp only
  rw [Py.bind_run, mergeArray_ok _ _ (g b) (by simp [midpoints])
    (by rw [List.getLast?_map, grid_last a b _ hn]; rfl)]
  dsimp only
  rw [← List.map_dropLast, ← map_interleave, mg]
  have : ((interleave (grid a b n).dropLast midpoints).map g ++ [g b]) = (grid a b (2 * n)).map g := by
    rw [← mg, List.map_append]; rfl
  rw [this]
  rfl

/-- non-vacuity: merging three points with two midpoints -/
example : (mergeArrays (grid (0 : Cx ℚ) ⟨4, 0⟩ 2, (grid (0 : Cx ℚ) ⟨4, 0⟩ 2).map fun z => z * z)
    ([⟨1, 0⟩, ⟨3, 0⟩], [⟨1, 0⟩, ⟨9, 0⟩]) (⟨EstCache.init false, (), [], [], none, []⟩ : World Unit ℚ)).1.toOption =
    some ([⟨0, 0⟩, ⟨1, 0⟩, ⟨2, 0⟩, ⟨3, 0⟩, ⟨4, 0⟩], [⟨0, 0⟩, ⟨1, 0⟩, ⟨4, 0⟩, ⟨9, 0⟩, ⟨16, 0⟩]) := by
  decide +kernel

/-- C31, the refinement as a whole. On a line without zeros of `f`, let `Q s` be the quadrature rule applied to
`df(z)*z^order/f(z)` on the equidistant grid with `2^s` intervals. The estimator returns, changing nothing, a
value made from `Q s` where `s` is the first of the levels 10,...,21 such that `Q s` and `Q (s+1)` agree to three
digits, and from `Q 22` if there is none (the multiplying `c` is the subject of C32). -/
theorem C31_refinement (cfg : QuadCfg K) (hev : ∀ n, 1 ≤ cfg.evals n) (hsteps : 13 ≤ cfg.steps)
    (df : Cx K → Cx K) (order : ℤ) (ctx : RCtx K) (hdf : ctx.df = some df) (a b : Cx K)
    (hf : ∀ t, 0 ≤ t → t ≤ 1 → ctx.f (along a b t) ≠ 0) (w : World σ K) :
    let Q := quadAt cfg.romb (fun z => df z * z ^ order / ctx.f z) a b (cfg.abs (b - a))
    ∃ (s : ℕ) (c : K), quadLine cfg order a b ctx w =
        (.ok (Cx.divK (Cx.smul c (b - a) * (⟨0, -1⟩ * Q s)) (cfg.abs (b - a))), w) ∧
      10 ≤ s ∧ (∀ u, 10 ≤ u → u < s → ¬ quadClose (Q u) (Q (u + 1))) ∧
      (s ≤ 21 ∧ quadClose (Q s) (Q (s + 1)) ∨ s = 22) := by
  intro Q
  obtain ⟨s', q, e, ⟨t, h1, h2, h3, h4, h5, h6⟩ | ⟨h1, h2, h3⟩⟩ := quadLine_exact cfg hev hsteps df order
    ctx hdf a b hf Q rfl w
  · exact ⟨t, quadFactor K s', by rw [e, h6], h1, h4, Or.inl ⟨h2, h3⟩⟩
  · exact ⟨22, quadFactor K s', by rw [e, h3], by norm_num, fun u hu hu' => h1 u hu (by omega), Or.inr rfl⟩

/-- C31, shapes: with a derivative the estimator never fails on array shapes or inadmissible numbers of samples,
whatever the function (zeros on the line included): the only possible exceptions are an interrupt and
the exhaustion of the model's loop bound. -/
theorem C31_shapes_fit (cfg : QuadCfg K) (order : ℤ) (a b : Cx K) (ctx : RCtx K) (hdf : ctx.df ≠ none)
    (w w' : World σ K) (e : Err) (h : quadLine cfg order a b ctx w = (.error e, w')) :
    e = .keyboardInterrupt ∨ e = .outOfFuel := by
  have := quadLine_safe cfg order a b ctx hdf w
  rw [h] at this
  exact this

/-- C31, termination: for a function with finitely many zeros 13 tests of the loop condition, i.e. at most 12
refinements, suffice. -/
theorem C31_terminates (cfg : QuadCfg K) (hsteps : 13 ≤ cfg.steps) (ctx : RCtx K) (Z : List (Cx K))
    (hZ : ∀ z, ctx.f z = 0 → z ∈ Z) (hevals : ∀ n, Z.length * n + 1 ≤ cfg.evals n) (hdf : ctx.df ≠ none)
    (order : ℤ) (a b : Cx K) (w : World σ K) (hw : w.fuse = none) :
    ∃ phi, (quadLine cfg order a b ctx w).1 = .ok phi :=
  quadLine_total hZ hevals hsteps hdf order a b w hw

/-- C31, bound: the estimator's behaviour does not depend on anything but sampling at most `2^21` points at once,
12 refinements, and quadrature of `2^s+1` values for `10 ≤ s ≤ 22`: two parameter sets which agree
there (and may do anything elsewhere, e.g. fail) give the same run. -/
theorem C31_bounded (cfg cfg' : QuadCfg K) (habs : cfg.abs = cfg'.abs)
    (hevals : ∀ n ≤ 2 ^ 21, cfg.evals n = cfg'.evals n)
    (hromb : ∀ s, 10 ≤ s → s ≤ 22 → ∀ y dx, y.length = 2 ^ s + 1 → cfg.romb y dx = cfg'.romb y dx)
    (hs : 13 ≤ cfg.steps) (hs' : 13 ≤ cfg'.steps) (order : ℤ) (a b : Cx K) (ctx : RCtx K) (w : World σ K) :
    quadLine cfg order a b ctx w = quadLine cfg' order a b ctx w :=
  quadLine_agree ⟨habs, hevals, hromb⟩ hs hs' order a b ctx w

/-- parameters used in the examples: trapezoidal rule, `|z|` for real `z` -/
def exQuad : QuadCfg ℚ := ⟨trapezoid, fun z => |z.re|, fun _ => 1, 13⟩

/-- non-vacuity of the hypotheses of C31 (and of C33's opposite case): `f = 1`, `df = 1` -/
example : (∀ n, 1 ≤ exQuad.evals n) ∧ 13 ≤ exQuad.steps ∧
    (∀ t : ℚ, 0 ≤ t → t ≤ 1 → (fun _ : Cx ℚ => (1 : Cx ℚ)) (along 0 1 t) ≠ 0) := by
  refine ⟨fun _ => le_rfl, le_rfl, fun t _ _ => ?_⟩
  intro h
  exact absurd (congrArg Cx.re h) (by norm_num)

/-- C32, exact form of what holds. On a line without zeros the estimator returns `(b-a)/|b-a|` times the quadrature
value (times `1/i`) if at most two refinements happen, i.e. if two successive values up to level 12 agree. In
general it returns `1 - 2^-(s-1)` times that value, `s` the last level sampled: the property
itself fails for more than two refinements (`C32_counterexample`). -/
theorem C32_partial (cfg : QuadCfg K) (hev : ∀ n, 1 ≤ cfg.evals n) (hsteps : 13 ≤ cfg.steps)
    (df : Cx K → Cx K) (order : ℤ) (ctx : RCtx K) (hdf : ctx.df = some df) (a b : Cx K)
    (hf : ∀ t, 0 ≤ t → t ≤ 1 → ctx.f (along a b t) ≠ 0) (w : World σ K) :
    let Q := quadAt cfg.romb (fun z => df z * z ^ order / ctx.f z) a b (cfg.abs (b - a))
    let direction := Cx.divK (b - a) (cfg.abs (b - a))
    (∃ s c, quadLine cfg order a b ctx w = (.ok (Cx.smul c (direction * (⟨0, -1⟩ * Q s))), w) ∧
      10 ≤ s ∧ s ≤ 22 ∧ 1 - 1 / 2 ^ 12 ≤ c ∧ c ≤ 1) ∧
    (quadClose (Q 10) (Q 11) → quadLine cfg order a b ctx w = (.ok (direction * (⟨0, -1⟩ * Q 10)), w)) ∧
    (¬ quadClose (Q 10) (Q 11) → quadClose (Q 11) (Q 12) →
      quadLine cfg order a b ctx w = (.ok (direction * (⟨0, -1⟩ * Q 11)), w)) ∧
    (∀ s, 12 ≤ s → s ≤ 21 → (∀ u, 10 ≤ u → u < s → ¬ quadClose (Q u) (Q (u + 1))) →
      quadClose (Q s) (Q (s + 1)) → quadLine cfg order a b ctx w =
        (.ok (Cx.smul (1 - 1 / 2 ^ s) (direction * (⟨0, -1⟩ * Q s))), w)) ∧
    ((∀ u, 10 ≤ u → u ≤ 21 → ¬ quadClose (Q u) (Q (u + 1))) → quadLine cfg order a b ctx w =
        (.ok (Cx.smul (1 - 1 / 2 ^ 21) (direction * (⟨0, -1⟩ * Q 22))), w)) := by
  intro Q direction
  have hd : ∀ (c : K) (q : Cx K), Cx.divK (Cx.smul c (b - a) * q) (cfg.abs (b - a)) =
      Cx.smul c (direction * q) := by
    intro c q
    ext <;> simp [direction] <;> ring
  have hone : ∀ q : Cx K, Cx.smul 1 q = q := fun q => by ext <;> simp
  obtain ⟨s', q, e, h⟩ := quadLine_exact cfg hev hsteps df order ctx hdf a b hf Q rfl w
  rw [hd] at e
  have hfac : ∀ s, s ≤ 22 → 1 - 1 / 2 ^ 12 ≤ quadFactor K s ∧ quadFactor K s ≤ 1 := by
    intro s hs
    unfold quadFactor
    split
    · norm_num
    · have h12 : 12 ≤ s - 1 := by omega
      have h1 : (2 : K) ^ 12 ≤ 2 ^ (s - 1) := pow_le_pow_right₀ (by norm_num) h12
      have h2 : (1 : K) / 2 ^ (s - 1) ≤ 1 / 2 ^ 12 := one_div_le_one_div_of_le (by positivity) h1
      have h3 : (0 : K) ≤ 1 / 2 ^ (s - 1) := by positivity
      constructor <;> linarith
  refine ⟨?_, ?_, ?_, ?_, ?_⟩
  · rcases h with ⟨t, h1, h2, h3, h4, h5, h6⟩ | ⟨h1, h2, h3⟩
    · subst h5 h6
      obtain ⟨g1, g2⟩ := hfac (t + 1) (by omega)
      exact ⟨t, quadFactor K (t + 1), e, h1, by omega, g1, g2⟩
    · subst h2 h3
      obtain ⟨g1, g2⟩ := hfac 22 le_rfl
      exact ⟨22, quadFactor K 22, e, by norm_num, le_rfl, g1, g2⟩
  · intro hc
    rcases h with ⟨t, h1, h2, h3, h4, h5, h6⟩ | ⟨h1, h2, h3⟩
    · obtain rfl : t = 10 := by
        by_contra hne
        exact h4 10 le_rfl (by omega) hc
      subst h5 h6
      rw [e, quadFactor, if_pos (by norm_num), hone]
    · exact absurd hc (h1 10 le_rfl (by norm_num))
  · intro hnc hc
    rcases h with ⟨t, h1, h2, h3, h4, h5, h6⟩ | ⟨h1, h2, h3⟩
    · obtain rfl : t = 11 := by
        by_contra hne
        rcases Nat.lt_or_gt_of_ne hne with hlt | hgt
        · obtain rfl : t = 10 := by omega
          exact hnc h3
        · exact h4 11 (by norm_num) hgt hc
      subst h5 h6
      rw [e, quadFactor, if_pos (by norm_num), hone]
    · exact absurd hc (h1 11 (by norm_num) (by norm_num))
  · intro s hs12 hs21 hnc hc
    rcases h with ⟨t, h1, h2, h3, h4, h5, h6⟩ | ⟨h1, h2, h3⟩
    · obtain rfl : t = s := by
        by_contra hne
        rcases Nat.lt_or_gt_of_ne hne with hlt | hgt
        · exact hnc t h1 hlt h3
        · exact h4 s (by omega) hgt hc
      subst h5 h6
      rw [e, quadFactor, if_neg (by omega)]
      rfl
    · exact absurd hc (h1 s (by omega) hs21)
  · intro hnc
    rcases h with ⟨t, h1, h2, h3, h4, h5, h6⟩ | ⟨h1, h2, h3⟩
    · exact absurd h3 (hnc t h1 h2)
    · subst h2 h3
      rw [e, quadFactor, if_neg (by norm_num)]

/-- a function with a peak at the start of the line -/
def peak : Cx ℚ → Cx ℚ := fun z => if z.re = 0 then ⟨10 ^ 9, 0⟩ else 0

/-- the trapezoidal rule for `peak` on `[0, 1]` with `2^s` intervals: `10^9 / 2^(s+1)` -/
theorem quadAt_peak (s : ℕ) :
    quadAt trapezoid (fun z => peak z * z ^ (0 : ℤ) / 1) 0 1 |(1 - 0 : Cx ℚ).re| s = ⟨10 ^ 9 / 2 ^ (s + 1), 0⟩ := by
  have hpos : 0 < 2 ^ s := by positivity
  have h0 : along (0 : Cx ℚ) 1 (((0 : ℕ) : ℚ) / ((2 ^ s : ℕ) : ℚ)) = 0 := by ext <;> simp [along]
  have hg : grid (0 : Cx ℚ) 1 (2 ^ s) = 0 :: (List.range (2 ^ s)).map fun (i : ℕ) =>
      along 0 1 (((i + 1 : ℕ) : ℚ) / ((2 ^ s : ℕ) : ℚ)) := by
    unfold grid
    rw [List.range_succ_eq_map, List.map_cons, List.map_map, h0]
    rfl
  have hz : ∀ i : ℕ, peak (along 0 1 (((i + 1 : ℕ) : ℚ) / ((2 ^ s : ℕ) : ℚ))) = 0 := by
    intro i
    unfold peak
    rw [if_neg]
    simp only [along, Cx.add_re, Cx.smul_re, Cx.sub_re, Cx.one_re, Cx.zero_re]
    have : (0 : ℚ) < ((i + 1 : ℕ) : ℚ) / ((2 ^ s : ℕ) : ℚ) := by positivity
    simp only [zero_add, sub_zero, mul_one]
    exact this.ne'
  have hm : ∀ pr : Cx ℚ → ℚ, pr 0 = 0 →
      ((grid (0 : Cx ℚ) 1 (2 ^ s)).map fun z => pr (peak z * z ^ (0 : ℤ) / 1)) =
      pr ⟨10 ^ 9, 0⟩ :: List.replicate (2 ^ s) 0 := by
    intro pr hpr
    rw [hg, List.map_cons]
    congr 1
    · simp [peak]
    · rw [List.map_map, List.eq_replicate_iff]
      refine ⟨by simp, ?_⟩
      intro x hx
      obtain ⟨i, _, rfl⟩ := List.mem_map.1 hx
      simp only [Function.comp_apply]
      rw [hz i]
      simp [hpr]
  have hlast : ∀ x : ℚ, (x :: List.replicate (2 ^ s) (0 : ℚ)).getLastD 0 = 0 := by
    intro x
    obtain ⟨k, hk⟩ : ∃ k, 2 ^ s = k + 1 := ⟨2 ^ s - 1, by omega⟩
    rw [hk]
    simp only [List.getLastD_cons]
    rw [List.getLastD_eq_getLast?, List.getLast?_replicate]
    simp
  unfold quadAt
  have := hm Cx.re rfl
  rw [this, hm Cx.im rfl]
  ext
  · simp only [trapezoid, List.sum_cons, hlast, List.headD_cons, List.sum_replicate, smul_zero, add_zero]
    simp only [Cx.sub_re, Cx.one_re, Cx.zero_re, sub_zero, abs_one]
    field_simp
    norm_num
    rw [pow_succ]
  · simp only [trapezoid, List.sum_cons, hlast, List.headD_cons, List.sum_replicate, smul_zero, add_zero]
    simp

/-- C32 fails: with the trapezoidal rule, `f = 1` and the peaked `df` on the line from 0 to 1, all twelve refinements
happen and the returned value differs from the direction times the quadrature value (at any sampled
level): it is too short by the factor `1 - 2^-21`. -/
theorem C32_counterexample (p : ℤ × ℤ) :
    let ctx : RCtx ℚ := ⟨fun _ => 1, some peak, p, (0, 1), (0, 1), false⟩
    let Q := quadAt trapezoid (fun z => peak z * z ^ (0 : ℤ) / 1) 0 1 1
    ∀ w : World Unit ℚ,
      quadLine exQuad 0 0 1 ctx w = (.ok (Cx.smul (1 - 1 / 2 ^ 21) (⟨0, -1⟩ * Q 22)), w) ∧
      ∀ s, 10 ≤ s → s ≤ 22 → quadLine exQuad 0 0 1 ctx w ≠ (.ok (⟨0, -1⟩ * Q s), w) := by
  intro ctx Q w
  have hQ : ∀ s, Q s = ⟨10 ^ 9 / 2 ^ (s + 1), 0⟩ := by
    intro s
    have := quadAt_peak s
    simp only [Cx.sub_re, Cx.one_re, Cx.zero_re, sub_zero, abs_one] at this
    exact this
  have hlen : exQuad.abs (1 - 0) = 1 := by simp [exQuad]
  have h := (C32_partial exQuad (fun _ => le_rfl) le_rfl peak 0 ctx rfl 0 1 (by
    intro t _ _ h
    exact absurd (congrArg Cx.re h) (by norm_num [ctx])) w).2.2.2.2
  rw [hlen] at h
  have hQ' : quadAt exQuad.romb (fun z => peak z * z ^ (0 : ℤ) / ctx.f z) 0 1 1 = Q := rfl
  rw [hQ'] at h
  have hd : Cx.divK ((1 : Cx ℚ) - 0) 1 = 1 := by ext <;> simp
  rw [hd, one_mul] at h
  have hmain := h (by
    intro u h1 h2 hc
    have := hc.1
    rw [hQ, hQ] at this
    interval_cases u <;> norm_num at this)
  refine ⟨hmain, ?_⟩
  intro s h1 h2 he
  rw [hmain] at he
  have := congrArg Cx.im (Except.ok.inj (Prod.ext_iff.1 he).1)
  simp [hQ] at this
  interval_cases s <;> norm_num at this

/-- C33: without derivative the quadrature estimator raises `ValueError`, and nothing has happened: container,
caches and counters are as before. (That `f` is not evaluated shows in the model as the independence of the
outcome from `f` and from the loop bounds.) -/
theorem C33_no_derivative (cfg : QuadCfg K) (order : ℤ) (a b : Cx K) (ctx : RCtx K) (hdf : ctx.df = none)
    (w : World σ K) : quadLine cfg order a b ctx w = (.error .valueError, w) := by
  unfold quadLine
  rw [hdf]
  rfl

/-- C33 for a whole rectangle: `calcMoment` on an empty cache raises, adds no root, stores nothing. -/
theorem C33_rectangle (cfg : QuadCfg K) (order : ℤ) (re im : K × K) (ctx : RCtx K) (hdf : ctx.df = none)
    (w : World σ K) (hw : w.fuse = none) (hc : w.cache.data = []) :
    (calcMoment (quadLine cfg) order re im ctx w).1 = .error .valueError ∧
    (calcMoment (quadLine cfg) order re im ctx w).2.added = w.added ∧
    (calcMoment (quadLine cfg) order re im ctx w).2.est = w.est ∧
    (calcMoment (quadLine cfg) order re im ctx w).2.cache.data = [] := by
  unfold calcMoment edges
  simp only [sumEdges]
  rw [Py.bind_run]
  have h : ∀ e : Cx K × Cx K, edgeMoment (quadLine cfg) order ctx e w =
      (.error .valueError, { w with cache := (w.cache.retrieve order e.1 e.2).2 }) := by
    intro e
    have hr : (w.cache.retrieve order e.1 e.2).1 = none := by
      simp [EstCache.retrieve, hc, Dict.get?]
    unfold edgeMoment
    rw [Py.bind_run]
    simp only [World.retrieve, hr]
    unfold edgeMoment.compute
    rw [Py.bind_run, World.tick_none (by exact hw)]
    dsimp only
    rw [Py.bind_run, C33_no_derivative cfg _ _ _ ctx hdf]
  rw [h]
  refine ⟨rfl, rfl, rfl, ?_⟩
  simp only [EstCache.retrieve]
  split <;> exact hc

end PyZeal.Props
