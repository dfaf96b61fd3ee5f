import Verif.Proof.Float
import Verif.Proof.FloatBin
import Verif.Props.Search
import Verif.Props.Once

/-! # C104, C105: the search in floating-point arithmetic -/

set_option linter.unusedSectionVars false

namespace PyZeal.Props
open Spec
variable {K : Type} {σ : Type} [Field K] [LinearOrder K] [IsStrictOrderedRing K] [FloorRing K]

/-! ## Python floats -/

theorem double_rounds : Rounds (double K).fl ((1 / 2) ^ 53) := flBin_rounds (by norm_num)

theorem double_pow (p : ℤ) : Machine (double K).fl ((double K).pow10 p) ∧ 0 < (double K).pow10 p := by
  refine ⟨double_rounds.idem _, ?_⟩
  have h := (abs_le.1 ((double_rounds (K := K)).near (eps10 K p))).1
  have hp := eps10_pos (K := K) p
  have hu := (double_rounds (K := K)).u_small
  rw [abs_of_pos hp] at h
  have h2 := mul_le_mul_of_nonneg_right hu hp.le
  have h3 : (double K).pow10 p = (double K).fl (eps10 K p) := rfl
  rw [h3]
  linarith

theorem double_good (p : ℤ × ℤ) : GoodPow (double K) p := ⟨double_pow p.1, double_pow p.2⟩

/-- the computed tolerance is the tolerance up to a relative error of `2^-53` -/
theorem double_pow_near (p : ℤ) : |(double K).pow10 p - (10 : K) ^ (-p)| ≤ (1 / 2) ^ 53 * (10 : K) ^ (-p) := by
  have h := (double_rounds (K := K)).near (eps10 K p)
  rw [abs_of_pos (eps10_pos (K := K) p)] at h
  exact h

/-! ## C104 -/

/-- the computed order of a candidate is at least one -/
theorem one_le_orderF {A : FloatOps K} {u : K} (hA : Rounds A.fl u) {pi : K} (hpi : 0 < pi) {c : Cell K}
    (h : Cell.TurnsF A pi c) : 1 ≤ roundHalfEven (A.fl (c.phi / A.fl (2 * pi))) := by
  unfold Cell.TurnsF at h
  have hu0 := hA.u_nonneg
  have hu := hA.u_small
  have lower : ∀ x : K, 0 ≤ x → 15 / 16 * x ≤ A.fl x := by
    intro x hx
    have h1 := (abs_le.1 (hA.near x)).1
    rw [abs_of_nonneg hx] at h1
    have h2 := mul_le_mul_of_nonneg_right hu hx
    linarith
  have hT : 0 < A.fl (2 * pi) := lt_of_lt_of_le (by linarith) (lower (2 * pi) (by linarith))
  generalize A.fl (2 * pi) = T at *
  have h8 : (3 : K) / 4 ≤ A.fl (8 / 10) := le_trans (by norm_num) (lower (8 / 10) (by norm_num))
  have h1 : 3 / 4 * T ≤ A.fl (8 / 10) * T := mul_le_mul_of_nonneg_right h8 hT.le
  have h2 := lower (A.fl (8 / 10) * T) (by nlinarith)
  have h3 : 45 / 64 * T ≤ c.phi := by linarith
  have h4 : 45 / 64 ≤ c.phi / T := by rw [le_div_iff₀ hT]; exact h3
  have h5 := lower (c.phi / T) (by linarith)
  have h6 := (roundHalfEven_spec (A.fl (c.phi / T))).1
  have h7 : (0 : K) < roundHalfEven (A.fl (c.phi / T)) := by
    have := (abs_le.1 h6).2
    linarith
  have h8 : (0 : ℤ) < roundHalfEven (A.fl (c.phi / T)) := by exact_mod_cast h7
  omega

theorem candF_near {A : FloatOps K} {u : K} (hA : Rounds A.fl u) {p : ℤ × ℤ} (hp : GoodPow A p) {pi : K} {c : Cell K}
    (hc : OkCell A c) (hs : SmallF A p c) {z : Cx K} (hz : Cell.Has c z) :
    Near (A.pow10 p.1, A.pow10 p.2) (candF A pi c).1 z := by
  obtain ⟨⟨⟨m1, m2⟩, m3, m4⟩, h1, h2⟩ := hc
  obtain ⟨a1, a2⟩ := hA.le_mid m1 m2 h1
  obtain ⟨b1, b2⟩ := hA.le_mid m3 m4 h2
  have s1 := hA.lt_of_fl_lt hp.1.1 hs.1
  have s2 := hA.lt_of_fl_lt hp.2.1 hs.2
  obtain ⟨z1, z2, z3, z4⟩ := hz
  unfold Near candF
  dsimp only
  rw [abs_lt, abs_lt]
  refine ⟨⟨?_, ?_⟩, ?_, ?_⟩ <;> linarith

theorem has_of_halfOpen {c : Cell K} {z : Cx K} (h : Cell.HasHalfOpen c z) : Cell.Has c z :=
  ⟨h.1, h.2.1.le, h.2.2.1, h.2.2.2.le⟩

/-- C104. The search in floating-point arithmetic: let a search complete whose rectangle has machine numbers as sides. If
the phase computed for every evaluated rectangle containing the point `z` reached the constant `TWO_PI`, then a candidate of
order at least 1 was handed to the container which differs from `z` by less than the computed `10 ** (-p)` in each
coordinate. -/
theorem C104_no_zero_lost (A : FloatOps K) (u : K) (hA : Rounds A.fl u) (est : LineEst σ K) (pi : K) (hpi : 0 < pi)
    (limit : ℕ) (ctx : RCtx K) (hest : BoundaryHits est ctx) (hp : GoodPow A ctx.precision)
    (hm : Cell.Machine A.fl ⟨ctx.reRan, ctx.imRan, 0⟩) (w w' : World σ K)
    (h : simpleArgumentF A est pi limit ctx w = (.ok (), w')) (z : Cx K)
    (hz : Cell.Has ⟨ctx.reRan, ctx.imRan, 0⟩ z)
    (hturns : ∀ c ∈ newCells w w', Cell.Has c z → Cell.TurnsF A pi c) :
    ∃ r ∈ newRoots w w', 1 ≤ r.2 ∧ |r.1.re - z.re| < A.pow10 ctx.precision.1 ∧
      |r.1.im - z.im| < A.pow10 ctx.precision.2 := by
  have hok : OkCell A ⟨ctx.reRan, ctx.imRan, 0⟩ :=
    ⟨hm, le_trans hz.1 hz.2.1, le_trans hz.2.2.1 hz.2.2.2⟩
  obtain ⟨h1, h2, h3⟩ := simpleArgumentF_run hA hest limit hok w w' h
  obtain ⟨l, hl, g1, g2, g3, g4⟩ := h3 _ (splits_has hA ctx.precision z) (fun _ => hz) hturns
  obtain ⟨n1, n2⟩ := candF_near hA hp (pi := pi) (h1 l hl).2 g2 g1
  exact ⟨candF A pi l, g4, one_le_orderF hA hpi g3, n1, n2⟩

/-- C104. All rectangles a completed search looks at lie inside the search rectangle and have machine numbers as sides,
and so does every candidate which is not an exact zero met on a boundary: it is a machine number inside a rectangle for
which the phase reached `TWO_PI` and whose sides are shorter than the computed `10 ** (-p)`. -/
theorem C104_inside (A : FloatOps K) (u : K) (hA : Rounds A.fl u) (est : LineEst σ K) (pi : K) (hpi : 0 < pi)
    (limit : ℕ) (ctx : RCtx K) (hest : BoundaryHits est ctx) (hp : GoodPow A ctx.precision)
    (hm : Cell.Machine A.fl ⟨ctx.reRan, ctx.imRan, 0⟩) (hre : ctx.reRan.1 ≤ ctx.reRan.2)
    (him : ctx.imRan.1 ≤ ctx.imRan.2) (w w' : World σ K)
    (h : simpleArgumentF A est pi limit ctx w = (.ok (), w')) :
    (∀ c ∈ newCells w w', Cell.In c ⟨ctx.reRan, ctx.imRan, 0⟩ ∧ Cell.Machine A.fl c) ∧
    ∀ r ∈ newRoots w w', (r.2 = 0 ∧ ctx.f r.1 = 0) ∨
      (1 ≤ r.2 ∧ Machine A.fl r.1.re ∧ Machine A.fl r.1.im ∧ ∃ c ∈ newCells w w', Cell.TurnsF A pi c ∧ Cell.Has c r.1 ∧
        c.re.2 - c.re.1 < A.pow10 ctx.precision.1 ∧ c.im.2 - c.im.1 < A.pow10 ctx.precision.2) := by
  obtain ⟨h1, h2, _⟩ := simpleArgumentF_run hA hest limit ⟨hm, hre, him⟩ w w' h
  refine ⟨fun c hc => ⟨(h1 c hc).1, (h1 c hc).2.1⟩, fun r hr => ?_⟩
  rcases h2 r hr with h | ⟨l, hl, g1, g2, rfl⟩
  · exact Or.inl h
  · obtain ⟨_, ⟨⟨m1, m2⟩, m3, m4⟩, o1, o2⟩ := h1 l hl
    obtain ⟨a1, a2⟩ := hA.le_mid m1 m2 o1
    obtain ⟨b1, b2⟩ := hA.le_mid m3 m4 o2
    exact Or.inr ⟨one_le_orderF hA hpi g2, hA.machine_mid _ _, hA.machine_mid _ _, l, hl, g2, ⟨a1, a2, b1, b2⟩,
      hA.lt_of_fl_lt hp.1.1 g1.1, hA.lt_of_fl_lt hp.2.1 g1.2⟩

/-- the cells of a search with such an estimator turn exactly if they contain a zero -/
theorem sees_turns {A : FloatOps K} {u : K} (hA : Rounds A.fl u) {est : LineEst σ K} {pi : K} {limit : ℕ} {ctx : RCtx K}
    (hest : BoundaryHits est ctx) (hok : OkCell A ⟨ctx.reRan, ctx.imRan, 0⟩) {zeros : List (Cx K)}
    {L : ℤ → Cx K → Cx K → Cx K} (hs : SeesZeros A est ctx pi zeros L) {w w' : World σ K}
    (h : simpleArgumentF A est pi limit ctx w = (.ok (), w')) :
    ∀ c ∈ newCells w w', Cell.TurnsF A pi c ↔ ∃ z ∈ zeros, Cell.HasHalfOpen c z := by
  intro c hc
  obtain ⟨h1, _⟩ := (simpleArgumentF_run hA hest limit hok w w' h).1 c hc
  obtain ⟨_, h2⟩ := (simpleArgumentF_run hA hest limit hok w w' h).1 c hc
  have h3 := simpleArgumentF_tells (A := A) (pi := pi) hs.reverse hest hs.value limit w
  rw [h] at h3
  rw [← hs.around c h1 h2.1, ← h3 c hc]
  rfl

/-- C104. In floating-point arithmetic, with an estimator which sees the zeros of the function: a completed search hands, for
every zero in the search rectangle, a candidate within the computed `10 ** (-p)` to the container, and every candidate
it hands over (except for exact zeros met on a boundary) is that close to a zero. -/
theorem C104_conforming (A : FloatOps K) (u : K) (hA : Rounds A.fl u) (est : LineEst σ K) (pi : K) (hpi : 0 < pi)
    (limit : ℕ) (ctx : RCtx K) (hest : BoundaryHits est ctx) (hp : GoodPow A ctx.precision)
    (hm : Cell.Machine A.fl ⟨ctx.reRan, ctx.imRan, 0⟩) (hre : ctx.reRan.1 ≤ ctx.reRan.2)
    (him : ctx.imRan.1 ≤ ctx.imRan.2) (zeros : List (Cx K)) (L : ℤ → Cx K → Cx K → Cx K)
    (hs : SeesZeros A est ctx pi zeros L) (w w' : World σ K)
    (h : simpleArgumentF A est pi limit ctx w = (.ok (), w')) :
    (∀ z ∈ zeros, Cell.HasHalfOpen ⟨ctx.reRan, ctx.imRan, 0⟩ z → ∃ r ∈ newRoots w w', 1 ≤ r.2 ∧
      Near (A.pow10 ctx.precision.1, A.pow10 ctx.precision.2) r.1 z) ∧
    ∀ r ∈ newRoots w w', (r.2 = 0 ∧ ctx.f r.1 = 0) ∨ 1 ≤ r.2 ∧ ∃ z ∈ zeros,
      Near (A.pow10 ctx.precision.1, A.pow10 ctx.precision.2) r.1 z := by
  have hok : OkCell A ⟨ctx.reRan, ctx.imRan, 0⟩ := ⟨hm, hre, him⟩
  have ht := sees_turns hA hest hok hs h
  obtain ⟨h1, h2, h3⟩ := simpleArgumentF_run hA hest limit hok w w' h
  constructor
  · intro z hz hin
    obtain ⟨l, hl, g1, g2, g3, g4⟩ := h3 _ (splits_halfOpen ctx.precision z) (fun _ => hin)
      fun l hl hzl => (ht l hl).2 ⟨z, hz, hzl⟩
    exact ⟨candF A pi l, g4, one_le_orderF hA hpi g3, candF_near hA hp (h1 l hl).2 g2 (has_of_halfOpen g1)⟩
  · intro r hr
    rcases h2 r hr with h | ⟨l, hl, g1, g2, rfl⟩
    · exact Or.inl h
    · obtain ⟨z, hz, hzl⟩ := (ht l hl).1 g2
      exact Or.inr ⟨one_le_orderF hA hpi g2, z, hz, candF_near hA hp (h1 l hl).2 g1 (has_of_halfOpen hzl)⟩

/-- C104: the hypotheses on the arithmetic hold for Python floats (binary, 53 bits, round-to-nearest-even), apart from overflow
and underflow; and the computed tolerance is `10^-p` up to a relative error of `2^-53`. -/
theorem C104_double (p : ℤ × ℤ) : Rounds (double K).fl ((1 / 2) ^ 53) ∧ GoodPow (double K) p ∧
    ∀ q : ℤ, |(double K).pow10 q - (10 : K) ^ (-q)| ≤ (1 / 2) ^ 53 * (10 : K) ^ (-q) :=
  ⟨double_rounds, double_good p, double_pow_near⟩

/-- C104: with exact arithmetic the model is that of the other theorems about searches -/
theorem C104_exact (est : LineEst σ K) (pi : K) (limit : ℕ) (ctx : RCtx K) :
    simpleArgumentF ⟨id, fun p => (10 : K) ^ (-p)⟩ est pi limit ctx = simpleArgument est pi limit ctx :=
  simpleArgumentF_exact est pi limit ctx

/-! ### examples -/

/-- the exact estimator for one zero sees it, in any arithmetic -/
theorem crossEst_sees {A : FloatOps K} {u : K} (hA : Rounds A.fl u) {pi : K} (hpi : 0 < pi) (hmp : Machine A.fl pi)
    (z : Cx K) (ctx : RCtx K) : SeesZeros A (crossEst pi [z]) ctx pi [z] (crossLine pi [z]) where
  reverse := (crossEst_conforming pi [z] ctx).reverse
  value := (crossEst_conforming pi [z] ctx).value
  around := by
    intro c hin _
    obtain ⟨_, hx, _, _, hy, _⟩ := hin
    have hmp' : A.fl pi = pi := hmp
    have hT : A.fl (2 * pi) = 2 * pi := by rw [hA.double, hmp']
    have h0 := hA.zero
    have hz : ∀ x x' y : K, crossLine pi [z] 0 ⟨x, y⟩ ⟨x', y⟩ = 0 := by
      intro x x' y
      unfold crossLine
      split
      · simp
      · rfl
    have hval : ∀ x : K, (crossLine pi [z] 0 ⟨x, c.im.1⟩ ⟨x, c.im.2⟩).re =
        if z.re < x ∧ c.im.1 ≤ z.im ∧ z.im < c.im.2 then 2 * pi else 0 := by
      intro x
      unfold crossLine
      dsimp only
      rw [if_pos rfl, leftSum_empty _ _ _ _ _ hy]
      unfold leftSum
      by_cases h : z.re < x ∧ c.im.1 ≤ z.im ∧ z.im < c.im.2
      · simp [h]
      · simp [h]
    have hneg : ∀ x : K, (crossLine pi [z] 0 ⟨x, c.im.2⟩ ⟨x, c.im.1⟩).re =
        -if z.re < x ∧ c.im.1 ≤ z.im ∧ z.im < c.im.2 then 2 * pi else 0 := by
      intro x
      rw [(crossEst_conforming pi [z] ctx).reverse 0, ← hval x]; rfl
    have hphase : phaseAround A (crossLine pi [z]) c = if Cell.HasHalfOpen c z then 2 * pi else 0 := by
      unfold phaseAround
      rw [hz, hz, hval, hneg]
      simp only [Cx.zero_re, add_zero, h0, zero_add]
      by_cases him : c.im.1 ≤ z.im ∧ z.im < c.im.2
      · by_cases h1 : z.re < c.re.1
        · have h2 : z.re < c.re.2 := lt_of_lt_of_le h1 hx
          rw [if_pos ⟨h2, him⟩, if_pos ⟨h1, him⟩, if_neg (fun h => absurd h.1 (not_le.2 h1)), hT, hT]
          simp [h0]
        · by_cases h2 : z.re < c.re.2
          · rw [if_pos ⟨h2, him⟩, if_neg (fun h => h1 h.1), if_pos ⟨not_lt.1 h1, h2, him⟩, hT, hT]
            simp [hT]
          · rw [if_neg (fun h => h2 h.1), if_neg (fun h => h1 h.1), if_neg (fun h => h2 h.2.1)]
            simp [h0]
      · rw [if_neg (fun h => him h.2), if_neg (fun h => him h.2), if_neg (fun h => him h.2.2)]
        simp [h0]
    rw [hphase, hT]
    simp only [List.mem_singleton, exists_eq_left]
    by_cases h : Cell.HasHalfOpen c z
    · rw [if_pos h]
      simp only [h, iff_true]
      have a := hA.mono (8 / 10) 1 (by norm_num)
      rw [hA.one] at a
      have b := hA.mono (A.fl (8 / 10) * (2 * pi)) (2 * pi) (by nlinarith)
      rw [hT] at b
      exact b
    · rw [if_neg h]
      simp only [h, iff_false, not_le]
      have lower : ∀ x : K, 0 ≤ x → 15 / 16 * x ≤ A.fl x := by
        intro x hx
        have h1 := (abs_le.1 (hA.near x)).1
        rw [abs_of_nonneg hx] at h1
        have h2 := mul_le_mul_of_nonneg_right hA.u_small hx
        linarith
      have a : (0 : K) < A.fl (8 / 10) := lt_of_lt_of_le (by norm_num) (lower (8 / 10) (by norm_num))
      have b : 0 < A.fl (8 / 10) * (2 * pi) := mul_pos a (by linarith)
      exact lt_of_lt_of_le (by linarith) (lower _ b.le)

/-- search for a zero of `z - (1/3 + 2/3 i)` in the unit square with precision `(1, 1)`, in Python floats -/
def thirdSearch : RCtx ℚ :=
  { f := fun z => z - ⟨1 / 3, 2 / 3⟩, df := none, precision := (1, 1), reRan := (0, 1), imRan := (0, 1) }

/-- non-vacuity: the search completes; the candidate is a machine number, not the zero -/
example : (simpleArgumentF (double ℚ) (crossEst 3 [⟨1 / 3, 2 / 3⟩]) 3 20 thirdSearch exWorld).1 = .ok () := by
  decide +kernel
example : (simpleArgumentF (double ℚ) (crossEst 3 [⟨1 / 3, 2 / 3⟩]) 3 20 thirdSearch exWorld).2.added =
    [(⟨11 / 32, 21 / 32⟩, 1)] := by decide +kernel
example : SeesZeros (double ℚ) (crossEst 3 [⟨1 / 3, 2 / 3⟩]) thirdSearch 3 [⟨1 / 3, 2 / 3⟩]
    (crossLine 3 [⟨1 / 3, 2 / 3⟩]) :=
  crossEst_sees double_rounds (by norm_num) (by unfold Machine; decide +kernel) _ _
example : Cell.Machine (double ℚ).fl ⟨thirdSearch.reRan, thirdSearch.imRan, 0⟩ := by
  unfold Cell.Machine Machine; decide +kernel

/-! ## C105 -/

/-- C105 (partial: needs machine numbers fine enough). In floating-point arithmetic the refinement comes to an end: let the
search rectangle reach no further than `R` from the axes, where `8 * u * R` is at most the computed `10 ** (-p)`, and let
its width and height be below `2^m` and `2^n` times a quarter of it. With every recursion limit above `m + n` the
search does the same, and fails with `RecursionError` only if the estimator does. -/
theorem C105_returns_partial (A : FloatOps K) (u : K) (hA : Rounds A.fl u) (est : LineEst σ K) (pi : K) (ctx : RCtx K)
    (hp : GoodPow A ctx.precision) (hm : Cell.Machine A.fl ⟨ctx.reRan, ctx.imRan, 0⟩)
    (hre : ctx.reRan.1 ≤ ctx.reRan.2) (him : ctx.imRan.1 ≤ ctx.imRan.2) (R : K)
    (hR : Cell.Within R ⟨ctx.reRan, ctx.imRan, 0⟩) (hR1 : 8 * u * R ≤ A.pow10 ctx.precision.1)
    (hR2 : 8 * u * R ≤ A.pow10 ctx.precision.2) (m n : ℕ)
    (hwidth : ctx.reRan.2 - ctx.reRan.1 < 2 ^ m * (A.pow10 ctx.precision.1 / 4))
    (hheight : ctx.imRan.2 - ctx.imRan.1 < 2 ^ n * (A.pow10 ctx.precision.2 / 4)) (limit : ℕ) (hl : m + n < limit) :
    (∀ limit', m + n < limit' → simpleArgumentF A est pi limit' ctx = simpleArgumentF A est pi limit ctx) ∧
    ((∀ order a b w, (est order a b ctx w).1 ≠ .error .recursionError) →
      ∀ w, (simpleArgumentF A est pi limit ctx w).1 ≠ .error .recursionError) := by
  have hu := hA.u_nonneg
  have hR0 : 0 ≤ R := le_trans (abs_nonneg _) hR.1.1
  have hδ : 0 ≤ u * R := mul_nonneg hu hR0
  have hb : ∀ phi, BelowF A ctx.precision (u * R) m n ⟨ctx.reRan, ctx.imRan, phi⟩ := by
    intro phi
    have p1 : (0 : K) < 2 ^ m := by positivity
    have p2 : (0 : K) < 2 ^ n := by positivity
    have q1 : A.pow10 ctx.precision.1 / 4 ≤ A.pow10 ctx.precision.1 / 2 - 2 * (u * R) := by linarith
    have q2 : A.pow10 ctx.precision.2 / 4 ≤ A.pow10 ctx.precision.2 / 2 - 2 * (u * R) := by linarith
    have r1 := mul_le_mul_of_nonneg_left q1 p1.le
    have r2 := mul_le_mul_of_nonneg_left q2 p2.le
    exact ⟨by dsimp only; linarith, by dsimp only; linarith⟩
  constructor
  · intro limit' hl'
    unfold simpleArgumentF
    congr 1
    funext _
    congr 1
    funext phi
    exact dispatchF_limit hA hp limit' limit m n ⟨ctx.reRan, ctx.imRan, phi⟩ ⟨hm, hre, him⟩ hR (hb phi) hl' hl
  · intro hest
    have : Never .recursionError (simpleArgumentF A est pi limit ctx) := by
      unfold simpleArgumentF
      refine Never.bind (fun w => by simp [resetCache]) fun _ => ?_
      refine Never.bind (phaseOfF_never hest _ _) fun phi => ?_
      exact dispatchF_never hA hp hest limit m n ⟨ctx.reRan, ctx.imRan, phi⟩ ⟨hm, hre, him⟩ hR (hb phi) hl
    exact this

/-- C105 (partial), for Python floats: no `RecursionError` if the search rectangle reaches no further than
`2^50 * 10 ** (-p)` from the axes. -/
theorem C105_double_partial (est : LineEst σ K) (pi : K) (ctx : RCtx K)
    (hm : Cell.Machine (double K).fl ⟨ctx.reRan, ctx.imRan, 0⟩)
    (hre : ctx.reRan.1 ≤ ctx.reRan.2) (him : ctx.imRan.1 ≤ ctx.imRan.2) (R : K)
    (hR : Cell.Within R ⟨ctx.reRan, ctx.imRan, 0⟩) (hR1 : R ≤ 2 ^ 50 * (double K).pow10 ctx.precision.1)
    (hR2 : R ≤ 2 ^ 50 * (double K).pow10 ctx.precision.2) (m n : ℕ)
    (hwidth : ctx.reRan.2 - ctx.reRan.1 < 2 ^ m * ((double K).pow10 ctx.precision.1 / 4))
    (hheight : ctx.imRan.2 - ctx.imRan.1 < 2 ^ n * ((double K).pow10 ctx.precision.2 / 4)) (limit : ℕ)
    (hl : m + n < limit) :
    (∀ limit', m + n < limit' →
      simpleArgumentF (double K) est pi limit' ctx = simpleArgumentF (double K) est pi limit ctx) ∧
    ((∀ order a b w, (est order a b ctx w).1 ≠ .error .recursionError) →
      ∀ w, (simpleArgumentF (double K) est pi limit ctx w).1 ≠ .error .recursionError) :=
  C105_returns_partial (double K) _ double_rounds est pi ctx (double_good _) hm hre him R hR
    (by norm_num at hR1 ⊢; linarith) (by norm_num at hR2 ⊢; linarith) m n hwidth hheight limit hl

/-- non-vacuity: the unit square with precision `(1, 1)` -/
example : Cell.Within 1 ⟨thirdSearch.reRan, thirdSearch.imRan, 0⟩ ∧
    1 ≤ 2 ^ 50 * (double ℚ).pow10 thirdSearch.precision.1 ∧
    thirdSearch.reRan.2 - thirdSearch.reRan.1 < 2 ^ 6 * ((double ℚ).pow10 thirdSearch.precision.1 / 4) := by
  unfold Cell.Within; decide +kernel

/-- C105: the rest of the property is false of the code. If the machine numbers around the real (or imaginary) part of a
zero are, in the arithmetic used, not closer together than the computed `10 ** (-p)`, then the search for it never returns, for
any recursion limit; if the estimator does not fail and no interrupt comes, it ends with `RecursionError`. -/
theorem C105_too_fine (A : FloatOps K) (u : K) (hA : Rounds A.fl u) (est : LineEst σ K) (pi : K) (ctx : RCtx K)
    (hest : BoundaryHits est ctx) (hm : Cell.Machine A.fl ⟨ctx.reRan, ctx.imRan, 0⟩) (zeros : List (Cx K))
    (L : ℤ → Cx K → Cx K → Cx K) (hs : SeesZeros A est ctx pi zeros L) (z : Cx K) (hz : z ∈ zeros)
    (hin : Cell.HasHalfOpen ⟨ctx.reRan, ctx.imRan, 0⟩ z)
    (hgap : (∀ a b, Machine A.fl a → Machine A.fl b → a ≤ z.re → z.re ≤ b → A.pow10 ctx.precision.1 ≤ A.fl (b - a)) ∨
      ∀ a b, Machine A.fl a → Machine A.fl b → a ≤ z.im → z.im ≤ b → A.pow10 ctx.precision.2 ≤ A.fl (b - a))
    (limit : ℕ) (w : World σ K) :
    (simpleArgumentF A est pi limit ctx w).1 ≠ .ok () ∧
    (w.fuse = none → (∀ order a b w, ∃ v, (est order a b ctx w).1 = .ok v) →
      (simpleArgumentF A est pi limit ctx w).1 = .error .recursionError) := by
  have hok : OkCell A ⟨ctx.reRan, ctx.imRan, 0⟩ :=
    ⟨hm, le_trans hin.1 hin.2.1.le, le_trans hin.2.2.1 hin.2.2.2.le⟩
  have h1 : (simpleArgumentF A est pi limit ctx w).1 ≠ .ok () := by
    intro hr
    obtain ⟨w', h⟩ : ∃ w', simpleArgumentF A est pi limit ctx w = (.ok (), w') := ⟨_, Prod.ext hr rfl⟩
    have ht := sees_turns hA hest hok hs h
    obtain ⟨g1, _, g3⟩ := simpleArgumentF_run hA hest limit hok w w' h
    obtain ⟨l, hl, k1, k2, _, _⟩ := g3 _ (splits_halfOpen ctx.precision z) (fun _ => hin)
      fun l hl hzl => (ht l hl).2 ⟨z, hz, hzl⟩
    obtain ⟨_, ⟨⟨m1, m2⟩, m3, m4⟩, _⟩ := g1 l hl
    rcases hgap with hg | hg
    · exact absurd k2.1 (not_lt.2 (hg _ _ m1 m2 k1.1 k1.2.1.le))
    · exact absurd k2.2 (not_lt.2 (hg _ _ m3 m4 k1.2.2.1 k1.2.2.2.le))
  refine ⟨h1, fun hf hret => ?_⟩
  have hcalm : ∀ order a b, CalmF (est order a b ctx) := by
    intro order a b w hw
    refine ⟨(hest order a b w).2.2.1 hw, fun e he => ?_⟩
    obtain ⟨v, hv⟩ := hret order a b w
    rw [hv] at he; cases he
  have h2 := (simpleArgumentF_calm (A := A) (pi := pi) hcalm limit w hf).2
  rcases hr : (simpleArgumentF A est pi limit ctx w).1 with e | v
  · rw [h2 e hr]
  · exact absurd hr h1

/-- around a number which is not a machine number, machine numbers are at least a unit in the last place apart -/
theorem flBin_gap {t : ℕ} (ht : 0 < t) {x a b : K} (hx : flBin t x ≠ x) (ha : flBin t a = a) (hb : flBin t b = b)
    (hax : a ≤ x) (hxb : x ≤ b) : 2 ^ expo t x ≤ b - a := by
  have hx0 : x ≠ 0 := by rintro rfl; exact hx (flBin_zero t)
  wlog hpos : 0 < x generalizing x a b
  · have hneg : 0 < -x := by
      rcases lt_trichotomy x 0 with h | h | h
      · linarith
      · exact absurd h hx0
      · exact absurd h hpos
    have := this (x := -x) (a := -b) (b := -a) (by rw [flBin_neg]; intro h; exact hx (neg_injective h))
      (by rw [flBin_neg, hb]) (by rw [flBin_neg, ha]) (by linarith) (by linarith) (neg_ne_zero.2 hx0) hneg
    have e : expo t (-x) = expo t x := by simp [expo]
    rw [e] at this
    linarith
  · have p := two_zpow_pos (K := K) (expo t x)
    have l1 := expo_le t hx0
    have l2 := lt_expo t x
    rw [abs_of_pos hpos] at l1 l2
    generalize hU : (2 : K) ^ expo t x = U at *
    have hfl := Int.floor_le (x / U)
    have hfl2 := Int.lt_floor_add_one (x / U)
    generalize hn : ⌊x / U⌋ = n at *
    rw [le_div_iff₀ p] at hfl
    rw [div_lt_iff₀ p] at hfl2
    have hc1 : (2 : K) ^ (t - 1 : ℤ) = ((2 ^ (t - 1) : ℤ) : K) := by
      push_cast
      rw [← zpow_natCast]; congr 1; omega
    have hc2 : (2 : K) ^ (t : ℤ) = ((2 ^ t : ℤ) : K) := by push_cast; rw [zpow_natCast]
    have hn1 : (2 : ℤ) ^ (t - 1) ≤ n := by
      rw [← hn, Int.le_floor, ← hc1, le_div_iff₀ p]; exact l1
    have hn2 : n + 1 ≤ 2 ^ t := by
      have : (n : K) < ((2 ^ t : ℤ) : K) := by
        rw [← hc2]
        exact lt_of_mul_lt_mul_right (lt_of_le_of_lt hfl l2) p.le
      have : n < 2 ^ t := by exact_mod_cast this
      omega
    -- no machine number strictly between
    have none : ∀ y : K, flBin t y = y → ¬ (n * U < y ∧ y < (n + 1) * U) := by
      rintro y hy ⟨y1, y2⟩
      have k1 : (2 : K) ^ (t - 1 : ℤ) * U ≤ n * U := by
        rw [hc1]; exact mul_le_mul_of_nonneg_right (by exact_mod_cast hn1) p.le
      have k2 : ((n : K) + 1) * U ≤ 2 ^ (t : ℤ) * U := by
        rw [hc2]; exact mul_le_mul_of_nonneg_right (by exact_mod_cast hn2) p.le
      have ypos : 0 < y := lt_trans (lt_of_lt_of_le (mul_pos (two_zpow_pos (t - 1 : ℤ)) p) k1) y1
      have he : expo t y = expo t x := by
        refine expo_unique t ypos.ne' ?_ ?_ <;> rw [hU, abs_of_pos ypos] <;> linarith
      have hyy := flBin_eq t ypos.ne'
      rw [he, hU, hy] at hyy
      rw [hyy] at y1 y2
      have z1 := lt_of_mul_lt_mul_right y1 p.le
      have z2 := lt_of_mul_lt_mul_right y2 p.le
      have z1' : n < roundHalfEven (y / U) := by exact_mod_cast z1
      have z2' : roundHalfEven (y / U) < n + 1 := by exact_mod_cast z2
      omega
    have hxn : (n : K) * U ≠ x := by
      intro h
      apply hx
      rw [← h, ← hU]
      apply flBin_fix ht
      have : (0 : ℤ) < 2 ^ (t - 1) := by positivity
      rw [abs_of_nonneg (by omega)]
      omega
    have hlt : (n : K) * U < x := lt_of_le_of_ne hfl hxn
    have a1 : a ≤ n * U := by
      by_contra hc
      push Not at hc
      exact none a ha ⟨hc, lt_of_le_of_lt hax hfl2⟩
    have b1 : ((n : K) + 1) * U ≤ b := by
      by_contra hc
      push Not at hc
      exact none b hb ⟨lt_of_lt_of_le hlt hxb, hc⟩
    linarith

/-- C105: with Python floats this happens for every zero one of whose coordinates is not a machine number and at least
`2^53` times the computed `10 ** (-p)`, in absolute value (for instance above 9008 with `p = 12`). -/
theorem C105_too_fine_double (est : LineEst σ K) (pi : K) (ctx : RCtx K)
    (hest : BoundaryHits est ctx) (hm : Cell.Machine (double K).fl ⟨ctx.reRan, ctx.imRan, 0⟩) (zeros : List (Cx K))
    (L : ℤ → Cx K → Cx K → Cx K) (hs : SeesZeros (double K) est ctx pi zeros L) (z : Cx K) (hz : z ∈ zeros)
    (hin : Cell.HasHalfOpen ⟨ctx.reRan, ctx.imRan, 0⟩ z)
    (hfar : ¬ Machine (double K).fl z.re ∧ 2 ^ 53 * (double K).pow10 ctx.precision.1 ≤ |z.re| ∨
      ¬ Machine (double K).fl z.im ∧ 2 ^ 53 * (double K).pow10 ctx.precision.2 ≤ |z.im|)
    (limit : ℕ) (w : World σ K) :
    (simpleArgumentF (double K) est pi limit ctx w).1 ≠ .ok () ∧
    (w.fuse = none → (∀ order a b w, ∃ v, (est order a b ctx w).1 = .ok v) →
      (simpleArgumentF (double K) est pi limit ctx w).1 = .error .recursionError) := by
  have key : ∀ (x : K) (q : ℤ), ¬ Machine (double K).fl x → 2 ^ 53 * (double K).pow10 q ≤ |x| →
      ∀ a b, Machine (double K).fl a → Machine (double K).fl b → a ≤ x → x ≤ b →
        (double K).pow10 q ≤ (double K).fl (b - a) := by
    intro x q hx hq a b ha hb hax hxb
    have h1 : (2 : K) ^ expo 53 x ≤ b - a := flBin_gap (by norm_num) hx ha hb hax hxb
    have h2 := lt_expo 53 x
    have h3 : (double K).pow10 q ≤ 2 ^ expo 53 x := by
      have : (2 : K) ^ 53 * (double K).pow10 q < 2 ^ 53 * 2 ^ expo 53 x := by
        refine lt_of_le_of_lt hq ?_
        exact_mod_cast h2
      exact (lt_of_mul_lt_mul_left this (by positivity)).le
    have h4 := (double_rounds (K := K)).mono _ _ (le_trans h3 h1)
    have h5 : (double K).fl ((double K).pow10 q) = (double K).pow10 q := (double_pow q).1
    rwa [h5] at h4
  refine C105_too_fine (double K) _ double_rounds est pi ctx hest hm zeros L hs z hz hin ?_ limit w
  rcases hfar with ⟨h1, h2⟩ | ⟨h1, h2⟩
  · exact Or.inl (key z.re _ h1 h2)
  · exact Or.inr (key z.im _ h1 h2)

/-- non-vacuity: the zero `10000 + 1/3 + i/3` in `[10000, 10001] x [0, 1]` with precision `(12, 12)`: the search fails
with every recursion limit -/
def farSearch : RCtx ℚ :=
  { f := fun z => z - ⟨30001 / 3, 1 / 3⟩, df := none, precision := (12, 12), reRan := (10000, 10001), imRan := (0, 1) }

theorem farSearch_fails (limit : ℕ) :
    (simpleArgumentF (double ℚ) (crossEst 3 [⟨30001 / 3, 1 / 3⟩]) 3 limit farSearch exWorld).1 =
      .error .recursionError :=
  (C105_too_fine_double (crossEst 3 [⟨30001 / 3, 1 / 3⟩]) 3 farSearch (crossEst_hits _ _ _)
    (by unfold Cell.Machine Machine; decide +kernel) [⟨30001 / 3, 1 / 3⟩] _
    (crossEst_sees double_rounds (by norm_num) (by unfold Machine; decide +kernel) _ _) ⟨30001 / 3, 1 / 3⟩ (by simp)
    (by decide +kernel) (Or.inl (by unfold Machine; decide +kernel)) limit exWorld).2 rfl
    (fun o a b w => ⟨_, rfl⟩)

/-- in exact arithmetic the same search completes, with every recursion limit above 80 -/
theorem farSearch_exact (limit : ℕ) (hl : 80 < limit) :
    (simpleArgument (crossEst 3 [⟨30001 / 3, 1 / 3⟩]) 3 limit farSearch exWorld).1 = .ok () :=
  (C34_completes ⟨fun _ _ _ _ => none, fun _ _ _ _ => none, fun _ _ _ => none⟩ (crossEst 3 [⟨30001 / 3, 1 / 3⟩]) 3 farSearch
    (fun o a b w hw => ⟨_, w, rfl, hw⟩) 40 40 (by unfold Cell.Below; decide +kernel) limit hl exWorld rfl).1

end PyZeal.Props
