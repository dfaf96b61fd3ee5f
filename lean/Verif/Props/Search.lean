import Verif.Proof.Exact
import Verif.Proof.Approx

/-! # Properties C30, C34-C40, C84: the simple argument search -/

set_option linter.unusedSectionVars false

namespace PyZeal.Props
open Spec
variable {K : Type} [Field K] [LinearOrder K] [IsStrictOrderedRing K] [FloorRing K] {σ : Type}

/-! ## An exact estimator for the examples

Along a vertical line it reports the turns of the zeros to the left of the line. -/

/-- sum of the `k`-th powers of the zeros left of `x` with imaginary part in `[lo, hi)` -/
def leftSum (zeros : List (Cx K)) (k : ℕ) (x lo hi : K) : Cx K :=
  ((zeros.filter fun z => decide (z.re < x ∧ lo ≤ z.im ∧ z.im < hi)).map fun z => z ^ k).sum

/-- the moment along a line: only vertical lines contribute -/
def crossLine (pi : K) (zeros : List (Cx K)) (o : ℤ) (a b : Cx K) : Cx K :=
  if a.re = b.re then
    Cx.ofK (2 * pi) * (leftSum zeros o.toNat a.re a.im b.im - leftSum zeros o.toNat a.re b.im a.im)
  else 0

/-- exact estimator for the given zeros -/
def crossEst (pi : K) (zeros : List (Cx K)) : LineEst Unit K := fun o a b _ => pure (crossLine pi zeros o a b)

theorem leftSum_empty (zeros : List (Cx K)) (k : ℕ) (x lo hi : K) (h : hi ≤ lo) : leftSum zeros k x lo hi = 0 := by
  unfold leftSum
  have : zeros.filter (fun z => decide (z.re < x ∧ lo ≤ z.im ∧ z.im < hi)) = [] := by
    rw [List.filter_eq_nil_iff]
    intro z _
    simp only [decide_eq_true_eq, not_and, not_lt]
    intro _ h1
    exact le_trans h h1
  rw [this]; rfl

theorem leftSum_sub (zeros : List (Cx K)) (k : ℕ) (x1 x2 y1 y2 : K) (h : x1 ≤ x2) :
    leftSum zeros k x2 y1 y2 - leftSum zeros k x1 y1 y2 =
      ((Cell.inside ⟨(x1, x2), (y1, y2), 0⟩ zeros).map fun z => z ^ k).sum := by
  unfold leftSum Cell.inside Cell.HasHalfOpen
  induction zeros with
  | nil => simp
  | cons z zs ih =>
    dsimp only at ih ⊢
    simp only [List.filter_cons]
    by_cases hy : y1 ≤ z.im ∧ z.im < y2
    · by_cases h1 : z.re < x1
      · have h2 : z.re < x2 := lt_of_lt_of_le h1 h
        have h3 : ¬ x1 ≤ z.re := not_le.2 h1
        simp only [h1, h2, h3, hy, and_self, decide_true, if_true, List.map_cons, List.sum_cons, false_and,
          decide_false, Bool.false_eq_true, if_false]
        rw [← ih]; ring
      · have h3 : x1 ≤ z.re := not_lt.1 h1
        by_cases h2 : z.re < x2
        · simp only [h1, h2, h3, hy, and_self, decide_true, if_true, List.map_cons, List.sum_cons, false_and,
            decide_false, Bool.false_eq_true, if_false]
          rw [← ih]; ring
        · simp only [h1, h2, false_and, and_false, decide_false, Bool.false_eq_true, if_false]
          exact ih
    · have e1 : ¬ (z.re < x2 ∧ y1 ≤ z.im ∧ z.im < y2) := fun h => hy h.2
      have e2 : ¬ (z.re < x1 ∧ y1 ≤ z.im ∧ z.im < y2) := fun h => hy h.2
      have e3 : ¬ (x1 ≤ z.re ∧ z.re < x2 ∧ y1 ≤ z.im ∧ z.im < y2) := fun h => hy h.2.2
      rw [decide_eq_false e1, decide_eq_false e2, decide_eq_false e3]
      simpa using ih

/-- it conforms, for any function with these zeros and any search rectangle -/
theorem crossEst_conforming (pi : K) (zeros : List (Cx K)) (ctx : RCtx K) :
    Conforming (crossEst pi zeros) ctx pi zeros (crossLine pi zeros) where
  reverse := by
    intro o a b
    unfold crossLine
    by_cases h : a.re = b.re
    · rw [if_pos h, if_pos h.symm, h]; ring
    · rw [if_neg h, if_neg (Ne.symm h)]; simp
  value := fun o a b w => ⟨rfl, fun v hv => by cases hv; rfl⟩
  around := by
    intro k c hin
    obtain ⟨_, hx, _, _, hy, _⟩ := hin
    have hz : ∀ x x' y : K, crossLine pi zeros k ⟨x, y⟩ ⟨x', y⟩ = 0 := by
      intro x x' y
      unfold crossLine
      split
      · simp
      · rfl
    have hi : Cell.inside c zeros = Cell.inside ⟨(c.re.1, c.re.2), (c.im.1, c.im.2), 0⟩ zeros := rfl
    rw [hz, hz, hi, ← leftSum_sub zeros k c.re.1 c.re.2 c.im.1 c.im.2 hx]
    unfold crossLine
    dsimp only
    rw [if_pos rfl, if_pos rfl, leftSum_empty _ _ _ _ _ hy, leftSum_empty _ _ _ _ _ hy]
    simp only [Int.toNat_natCast]
    ring

/-- a function with the zeros `1/4+1/4 i` (double) and `13/4+5/4 i` -/
def exF : Cx ℚ → Cx ℚ := fun z => (z - ⟨1 / 4, 1 / 4⟩) * (z - ⟨1 / 4, 1 / 4⟩) * (z - ⟨13 / 4, 5 / 4⟩)
def exZeros : List (Cx ℚ) := [⟨1 / 4, 1 / 4⟩, ⟨1 / 4, 1 / 4⟩, ⟨13 / 4, 5 / 4⟩]
def exPi : ℚ := 22 / 7
def exSearch : RCtx ℚ := { f := exF, df := none, precision := (0, 0), reRan := (0, 4), imRan := (0, 2), progress := true }
def exWorld : World Unit ℚ := ⟨EstCache.init false, (), [], [], none, []⟩
def exRun : Except Err Unit × World Unit ℚ := simpleArgument (crossEst exPi exZeros) exPi 10 exSearch exWorld

theorem crossEst_hits (pi : K) (zeros : List (Cx K)) (ctx : RCtx K) : BoundaryHits (crossEst pi zeros) ctx :=
  fun _ _ _ w => ⟨rfl, rfl, id, [], by simp [crossEst], by simp⟩

theorem crossEst_stateless (pi : K) (zeros : List (Cx K)) (ctx : RCtx K) :
    NoHiddenState (crossEst pi zeros) ctx := fun _ _ _ _ _ _ => rfl

/-- the run used in the examples below is a completed search with two candidates, one of them of order 2 -/
theorem exRun_ok : exRun.1 = .ok () := by decide +kernel
example : exRun.2.added = [(⟨1 / 4, 1 / 4⟩, 2), (⟨13 / 4, 5 / 4⟩, 1)] := by decide +kernel

/-- and the estimator is exact in this run -/
theorem exRun_exact : ∀ c ∈ newCells exWorld exRun.2, c.phi = 2 * exPi * (Cell.count c exZeros : ℚ) := by
  decide +kernel

example : exRun.2.log.length = 19 := by decide +kernel

/-! ## C30 -/

/-- C30. Whatever searches were run before with the same algorithm object (hence whatever its cache contains), a
search with an estimator without hidden state has the same outcome and the same effect on container, progress bar and
log as with a new algorithm object. -/
theorem C30_clean_cache (est : LineEst σ K) (pi : K) (limit : ℕ) (ctx : RCtx K) (hest : NoHiddenState est ctx)
    (used : World σ K) (debug : Bool) (s : σ) :
    let fresh := { used with cache := EstCache.init debug, est := s }
    let r1 := simpleArgument est pi limit ctx used
    let r2 := simpleArgument est pi limit ctx fresh
    r1.1 = r2.1 ∧ r1.2.added = r2.2.added ∧ r1.2.advances = r2.2.advances ∧ r1.2.log = r2.2.log := by
  intro fresh r1 r2
  have h := calcRoots_clean (simple_stops est pi ctx) (fun o a b => Sim.of_cacheFree (hest o a b))
    (simpleAct_sim pi ctx) limit used fresh ⟨rfl, rfl, rfl, rfl⟩
  obtain ⟨h0, _, h1, h2, _, h3⟩ := h
  exact ⟨h0, h1, h2, h3⟩

/-- non-vacuity: the hypothesis holds of the quadrature estimator -/
theorem C30_quadrature (cfg : QuadCfg K) (ctx : RCtx K) : NoHiddenState (quadLine cfg : LineEst σ K) ctx :=
  fun o a b => (CacheFree.basic ctx.f).quadLine cfg o a b

/-- non-vacuity: a cache filled with wrong values by an earlier use -/
example : (simpleArgument (crossEst exPi exZeros) exPi 10 exSearch
    { exWorld with cache := ((EstCache.init true).store 0 ⟨0, 0⟩ ⟨4, 0⟩ ⟨100, 0⟩) }).2.added = exRun.2.added := by
  decide +kernel

/-! ## C34 -/

/-- C34. Let the width of the search rectangle be below `2^m * 10^-p1` and its height below `2^n * 10^-p2`. With any
estimator the search never needs more than `m + n + 1` nested calls: with every recursion limit above
`m + n` it does exactly the same. -/
theorem C34_depth (est : LineEst σ K) (pi : K) (ctx : RCtx K) (m n : ℕ)
    (h : Cell.Below ctx.precision m n ⟨ctx.reRan, ctx.imRan, 0⟩) (limit limit' : ℕ) (h1 : m + n < limit)
    (h2 : m + n < limit') : simpleArgument est pi limit ctx = simpleArgument est pi limit' ctx :=
  calcRoots_limit (simple_stops est pi ctx) stop_not_small limit limit' m n h.1 h.2 h1 h2

/-- C34. Under the same condition no `RecursionError` occurs, unless the estimator itself raises it. -/
theorem C34_no_recursion_error (est : LineEst σ K) (pi : K) (ctx : RCtx K)
    (hest : ∀ order a b w, (est order a b ctx w).1 ≠ .error .recursionError) (m n : ℕ)
    (h : Cell.Below ctx.precision m n ⟨ctx.reRan, ctx.imRan, 0⟩) (limit : ℕ) (h1 : m + n < limit)
    (w : World σ K) : (simpleArgument est pi limit ctx w).1 ≠ .error .recursionError :=
  calcRoots_never (simple_stops est pi ctx) stop_not_small hest (fun c _ => simpleAct_never pi ctx c)
    limit m n h.1 h.2 h1 w

/-- C34: the estimators of the code do not raise `RecursionError` -/
theorem C34_estimators (ctx : RCtx K) (cfg : QuadCfg K) (cfg' : SumCfg K) :
    (∀ order a b (w : World σ K), (quadLine cfg order a b ctx w).1 ≠ .error .recursionError) ∧
    ∀ order a b w, (sumLine cfg' order a b ctx w).1 ≠ .error .recursionError :=
  ⟨(Never.closed ctx.f .recursionError (by simp [Err.ofEstimator]) (by simp)).toBasic.quadLine cfg,
   (Never.closed ctx.f .recursionError (by simp [Err.ofEstimator]) (by simp)).sumLine cfg'⟩

/-- non-vacuity: width `4 < 2^3`, height `2 < 2^2`; and with a limit that is too small the error does occur -/
example : Cell.Below exSearch.precision 3 2 ⟨exSearch.reRan, exSearch.imRan, 0⟩ := by
  unfold Cell.Below; decide +kernel
example : (simpleArgument (crossEst exPi exZeros) exPi 4 exSearch exWorld).1 = .error .recursionError := by
  decide +kernel

/-! ## C35 -/

/-- C35. Let a search complete. If the estimator reported at least one turn for every evaluated rectangle containing the
point `z` of the search rectangle, then a candidate of order at least 1 was handed to the container which
differs from `z` by less than half of `10^-p` in each coordinate. -/
theorem C35_no_zero_lost (est : LineEst σ K) (pi : K) (hpi : 0 < pi) (limit : ℕ) (ctx : RCtx K)
    (hest : BoundaryHits est ctx) (w w' : World σ K) (h : simpleArgument est pi limit ctx w = (.ok (), w'))
    (z : Cx K) (hz : Cell.Has ⟨ctx.reRan, ctx.imRan, 0⟩ z)
    (hturns : ∀ c ∈ newCells w w', Cell.Has c z → Cell.Turns pi c) :
    ∃ r ∈ newRoots w w', 1 ≤ r.2 ∧ |r.1.re - z.re| < (10 : K) ^ (-ctx.precision.1) / 2 ∧
      |r.1.im - z.im| < (10 : K) ^ (-ctx.precision.2) / 2 := by
  obtain ⟨phi, t, A, h1, h2, _, h4, h5, _⟩ := simple_run hpi hest h
  have hz' : Cell.Has ⟨ctx.reRan, ctx.imRan, phi⟩ z := hz
  obtain ⟨l, hl, hlz⟩ := (t.cover ctx.precision _ z).1 hz'
  have hcells : newCells w w' = ⟨ctx.reRan, ctx.imRan, phi⟩ :: t.log ctx.precision ⟨ctx.reRan, ctx.imRan, phi⟩ := by
    unfold newCells; rw [h2]; simp
  have hroots : newRoots w w' = A := by unfold newRoots; rw [h4]; simp
  have ht : Cell.Turns pi l := hturns l (hcells ▸ t.leaves_subset_log _ _ l hl) hlz
  have hs : Cell.Small ctx.precision l := by
    rcases t.leaves_stop _ _ _ h1 l hl with h | h
    · exact absurd ht h
    · exact h
  have hmem : candidate pi l ∈ A.filter (fun r => decide (r.2 ≠ 0)) := by
    rw [h5]
    exact List.mem_map.2 ⟨l, List.mem_filter.2 ⟨hl, by simpa using ht⟩, rfl⟩
  refine ⟨candidate pi l, hroots ▸ (List.mem_filter.1 hmem).1, one_le_order hpi ht, ?_⟩
  obtain ⟨s1, s2⟩ := hs
  obtain ⟨z1, z2, z3, z4⟩ := hlz
  simp only [candidate, Cell.centre]
  rw [abs_lt, abs_lt]
  refine ⟨⟨?_, ?_⟩, ?_, ?_⟩ <;> linarith

/-- non-vacuity: in the example run both zeros satisfy the hypotheses -/
example : (∀ c ∈ newCells exWorld exRun.2, Cell.Has c ⟨13 / 4, 5 / 4⟩ → Cell.Turns exPi c) ∧
    Cell.Has ⟨exSearch.reRan, exSearch.imRan, 0⟩ (⟨13 / 4, 5 / 4⟩ : Cx ℚ) := by decide +kernel

/-- C35, C36 for a conforming estimator: after a completed search every zero in the (half-open) search rectangle has a
candidate of order at least 1 less than half of `10^-p` away in each coordinate, and every candidate of
non-zero order has such a zero. -/
theorem C35_conforming (est : LineEst σ K) (pi : K) (hpi : 0 < pi) (limit : ℕ) (ctx : RCtx K)
    (hre : ctx.reRan.1 ≤ ctx.reRan.2) (him : ctx.imRan.1 ≤ ctx.imRan.2) (hest : BoundaryHits est ctx)
    (zeros : List (Cx K)) (L : ℤ → Cx K → Cx K → Cx K) (hconf : Conforming est ctx pi zeros L)
    (w w' : World σ K) (h : simpleArgument est pi limit ctx w = (.ok (), w')) :
    (∀ z ∈ zeros, Cell.HasHalfOpen ⟨ctx.reRan, ctx.imRan, 0⟩ z → ∃ r ∈ newRoots w w', 1 ≤ r.2 ∧
      Near (10 ^ (-ctx.precision.1) / 2, 10 ^ (-ctx.precision.2) / 2) z r.1) ∧
    ∀ r ∈ newRoots w w', r.2 ≠ 0 → ∃ z ∈ zeros,
      Near (10 ^ (-ctx.precision.1) / 2, 10 ^ (-ctx.precision.2) / 2) z r.1 := by
  have hex := exact_cells hconf hest (simple_stops est pi ctx) (fun c => KeepsCache.simpleAct pi ctx c)
    (simple_leafEffect pi ctx) hre him limit w w' h
  obtain ⟨phi, t, A, h1, h2, _, h4, h5, _⟩ := simple_run hpi hest h
  have hcells : newCells w w' = ⟨ctx.reRan, ctx.imRan, phi⟩ :: t.log ctx.precision ⟨ctx.reRan, ctx.imRan, phi⟩ := by
    unfold newCells; rw [h2]; simp
  have hroots : newRoots w w' = A := by unfold newRoots; rw [h4]; simp
  have near : ∀ (l : Cell K) (z : Cx K), Cell.Small ctx.precision l → Cell.HasHalfOpen l z →
      Near ((10 : K) ^ (-ctx.precision.1) / 2, (10 : K) ^ (-ctx.precision.2) / 2) z (candidate pi l).1 := by
    intro l z hs hz
    obtain ⟨s1, s2⟩ := hs
    obtain ⟨z1, z2, z3, z4⟩ := hz
    unfold Near candidate Cell.centre
    dsimp only
    rw [abs_lt, abs_lt]
    refine ⟨⟨?_, ?_⟩, ?_, ?_⟩ <;> linarith
  have small : ∀ l ∈ t.leaves ctx.precision ⟨ctx.reRan, ctx.imRan, phi⟩, Cell.Turns pi l →
      Cell.Small ctx.precision l := by
    intro l hl ht
    rcases t.leaves_stop _ _ _ h1 l hl with h | h
    · exact absurd ht h
    · exact h
  have exl : ∀ l ∈ t.leaves ctx.precision ⟨ctx.reRan, ctx.imRan, phi⟩, l.phi = 2 * pi * (Cell.count l zeros : K) :=
    fun l hl => hex l (hcells ▸ t.leaves_subset_log _ _ l hl)
  rw [hroots]
  constructor
  · intro z hz hzr
    obtain ⟨l, hl, hlz⟩ := t.halfOpen_leaf ctx.precision ⟨ctx.reRan, ctx.imRan, phi⟩ z hzr
    have hcount : 1 ≤ Cell.count l zeros := by
      unfold Cell.count
      exact List.length_pos_of_mem (List.mem_filter.2 ⟨hz, by simpa using hlz⟩)
    have ht : Cell.Turns pi l := by
      unfold Cell.Turns
      rw [exl l hl]
      have : (1 : K) ≤ (Cell.count l zeros : K) := by exact_mod_cast hcount
      nlinarith
    have hmem : candidate pi l ∈ A.filter (fun r => decide (r.2 ≠ 0)) := by
      rw [h5]
      exact List.mem_map.2 ⟨l, List.mem_filter.2 ⟨hl, by simpa using ht⟩, rfl⟩
    exact ⟨_, (List.mem_filter.1 hmem).1, one_le_order hpi ht, near l z (small l hl ht) hlz⟩
  · intro r hr h0
    have : r ∈ A.filter (fun r => decide (r.2 ≠ 0)) := List.mem_filter.2 ⟨hr, by simpa using h0⟩
    rw [h5] at this
    obtain ⟨l, hl, rfl⟩ := List.mem_map.1 this
    obtain ⟨hl, ht⟩ := List.mem_filter.1 hl
    have ht : Cell.Turns pi l := by simpa using ht
    have hpos : 0 < Cell.count l zeros := by
      rw [Nat.pos_iff_ne_zero]
      intro hc
      unfold Cell.Turns at ht
      rw [exl l hl, hc] at ht
      simp at ht
      linarith
    obtain ⟨z, hz⟩ := List.exists_mem_of_length_pos hpos
    obtain ⟨hz, hlz⟩ := List.mem_filter.1 hz
    exact ⟨z, hz, near l z (small l hl ht) (by simpa using hlz)⟩

/-- non-vacuity: `crossEst_conforming`; the example run -/
example : ∃ r ∈ newRoots exWorld exRun.2, 1 ≤ r.2 ∧
    Near (10 ^ (-exSearch.precision.1) / 2, 10 ^ (-exSearch.precision.2) / 2) (⟨13 / 4, 5 / 4⟩ : Cx ℚ) r.1 :=
  (C35_conforming (crossEst exPi exZeros) exPi (by unfold exPi; norm_num) 10 exSearch (by decide +kernel)
    (by decide +kernel) (crossEst_hits _ _ _) exZeros _ (crossEst_conforming _ _ _) exWorld exRun.2
    (Prod.ext exRun_ok rfl)).1 _ (by decide +kernel) (by decide +kernel)

/-! ## C36 -/

/-- C36. Whatever the outcome of a search (completed, exception, interrupt): every root handed to the container is
either a boundary zero of order 0, at which `f` vanishes exactly, or the centre of an evaluated rectangle inside
the search rectangle which is smaller than `10^-p1 x 10^-p2` and for which at least 0.8 turns were reported; its
order is the number of turns rounded to the nearest integer, and is at least 1. -/
theorem C36_candidates_justified (est : LineEst σ K) (pi : K) (hpi : 0 < pi) (limit : ℕ) (ctx : RCtx K)
    (hest : BoundaryHits est ctx) (hre : ctx.reRan.1 ≤ ctx.reRan.2) (him : ctx.imRan.1 ≤ ctx.imRan.2)
    (w : World σ K) (r : Root K) (hr : r ∈ newRoots w (simpleArgument est pi limit ctx w).2) :
    (r.2 = 0 ∧ ctx.f r.1 = 0) ∨
    ∃ c ∈ newCells w (simpleArgument est pi limit ctx w).2, Cell.In c ⟨ctx.reRan, ctx.imRan, 0⟩ ∧
      Cell.Small ctx.precision c ∧ Cell.Turns pi c ∧ r.1 = Cell.centre c ∧
      NearestEven 0 (c.phi / (2 * pi)) (r.2 : K) ∧ 1 ≤ r.2 := by
  obtain ⟨L, A, h1, h2, h3, h4⟩ := calcRoots_justified hest (simple_stops est pi ctx)
    (simple_actJust pi hpi ctx) limit hre him w
  have hcells : newCells w (simpleArgument est pi limit ctx w).2 = L := by
    unfold newCells simpleArgument; rw [h1]; simp
  have hroots : newRoots w (simpleArgument est pi limit ctx w).2 = A := by
    unfold newRoots simpleArgument; rw [h2]; simp
  rw [hroots] at hr
  rcases h4 r hr with h | ⟨c, hc, hs, ht, rfl⟩
  · exact Or.inl h
  · refine Or.inr ⟨c, hcells ▸ hc, h3 c hc, ?_, ht, rfl, ?_, one_le_order hpi ht⟩
    · rcases hs with h | h
      · exact absurd ht h
      · exact h
    · obtain ⟨g1, g2⟩ := roundHalfEven_spec (c.phi / (2 * pi))
      refine ⟨roundHalfEven (c.phi / (2 * pi)), by simp [candidate], ?_, ?_⟩
      · simpa [candidate] using g1
      · simpa [candidate] using g2

/-- non-vacuity: a search that is interrupted after the first candidate -/
example : (simpleArgument (crossEst exPi exZeros) exPi 10 exSearch { exWorld with fuse := some 30 }).1 =
      .error .keyboardInterrupt ∧
    newRoots exWorld (simpleArgument (crossEst exPi exZeros) exPi 10 exSearch { exWorld with fuse := some 30 }).2 =
      [(⟨1 / 4, 1 / 4⟩, 2)] := by decide +kernel

/-! ## C37 -/

theorem sum_filter_ne_zero (A : List (Root K)) :
    ((A.filter fun r => decide (r.2 ≠ 0)).map Prod.snd).sum = (A.map Prod.snd).sum := by
  induction A with
  | nil => rfl
  | cons a A ih =>
    by_cases h : a.2 = 0
    · rw [List.filter_cons_of_neg (by simpa using h), ih]; simp [h]
    · rw [List.filter_cons_of_pos (by simpa using h), List.map_cons, List.sum_cons, ih]; simp

theorem sum_map_filter_turns (pi : K) (hpi : 0 < pi) (Z : List (Cx K)) (L : List (Cell K))
    (hex : ∀ c ∈ L, c.phi = 2 * pi * (Cell.count c Z : K)) :
    ((((L.filter fun c => decide (Cell.Turns pi c)).map (candidate pi)).map Prod.snd).sum =
      ((L.map fun c => Cell.count c Z).sum : ℕ)) ∧
    (L.filter fun c => decide (Cell.Turns pi c)).length ≤ (L.map fun c => Cell.count c Z).sum := by
  induction L with
  | nil => simp
  | cons c L ih =>
    obtain ⟨i1, i2⟩ := ih fun c hc => hex c (by simp [hc])
    have hc := hex c (by simp)
    have hdiv : c.phi / (2 * pi) = ((Cell.count c Z : ℕ) : ℤ) := by
      rw [hc]; field_simp; simp
    have hround : roundHalfEven (c.phi / (2 * pi)) = (Cell.count c Z : ℤ) := by
      rw [hdiv]
      obtain ⟨g1, _⟩ := roundHalfEven_spec (((Cell.count c Z : ℕ) : ℤ) : K)
      have : |((((Cell.count c Z : ℕ) : ℤ) - roundHalfEven (((Cell.count c Z : ℕ) : ℤ) : K) : ℤ) : K)| ≤ 1 / 2 := by
        push_cast; push_cast at g1; exact g1
      rw [← Int.cast_abs] at this
      have h1 : |((Cell.count c Z : ℕ) : ℤ) - roundHalfEven (((Cell.count c Z : ℕ) : ℤ) : K)| < 1 := by
        have : ((|((Cell.count c Z : ℕ) : ℤ) - roundHalfEven (((Cell.count c Z : ℕ) : ℤ) : K)| : ℤ) : K) < (1 : ℤ) := by
          push_cast at this ⊢; linarith
        exact_mod_cast this
      have := Int.abs_lt_one_iff.1 h1
      omega
    by_cases ht : Cell.Turns pi c
    · have h1 := one_le_order hpi ht
      simp only [List.filter_cons, ht, decide_true, if_true, List.map_cons, List.sum_cons, List.length_cons]
      rw [i1]
      simp only [candidate]
      rw [hround] at h1 ⊢
      refine ⟨by push_cast; rfl, by omega⟩
    · have h0 : Cell.count c Z = 0 := by
        by_contra hne
        have : (1 : K) ≤ (Cell.count c Z : K) := by exact_mod_cast Nat.one_le_iff_ne_zero.2 hne
        apply ht
        unfold Cell.Turns
        rw [hc]
        nlinarith
      simp only [List.filter_cons, ht, decide_false, List.map_cons, List.sum_cons, h0]
      simp only [Bool.false_eq_true, if_false, zero_add]
      exact ⟨i1, i2⟩

/-- C37. Let a search complete with exact phases, i.e. for every evaluated rectangle the reported phase is
`2*pi` times the number of zeros in it (listed with multiplicity; left and lower sides count as inside). Then the
orders of all roots handed to the container sum up to the number of zeros in the search rectangle. At most that
many candidates (roots of non-zero order) are produced, and none if there are no zeros. -/
theorem C37_multiplicities (est : LineEst σ K) (pi : K) (hpi : 0 < pi) (limit : ℕ) (ctx : RCtx K)
    (hest : BoundaryHits est ctx) (w w' : World σ K) (h : simpleArgument est pi limit ctx w = (.ok (), w'))
    (zeros : List (Cx K)) (hexact : ∀ c ∈ newCells w w', c.phi = 2 * pi * (Cell.count c zeros : K)) :
    let N := Cell.count ⟨ctx.reRan, ctx.imRan, 0⟩ zeros
    let candidates := (newRoots w w').filter fun r => decide (r.2 ≠ 0)
    ((newRoots w w').map Prod.snd).sum = N ∧ candidates.length ≤ N ∧ (N = 0 → candidates = []) := by
  intro N candidates
  obtain ⟨phi, t, A, h1, h2, _, h4, h5, _⟩ := simple_run hpi hest h
  have hcells : newCells w w' = ⟨ctx.reRan, ctx.imRan, phi⟩ :: t.log ctx.precision ⟨ctx.reRan, ctx.imRan, phi⟩ := by
    unfold newCells; rw [h2]; simp
  have hroots : newRoots w w' = A := by unfold newRoots; rw [h4]; simp
  obtain ⟨s1, s2⟩ := sum_map_filter_turns pi hpi zeros (t.leaves ctx.precision ⟨ctx.reRan, ctx.imRan, phi⟩)
    (fun c hc => hexact c (hcells ▸ t.leaves_subset_log _ _ c hc))
  rw [t.count_leaves] at s1 s2
  have hN : N = Cell.count ⟨ctx.reRan, ctx.imRan, phi⟩ zeros := rfl
  have hcand : candidates.length ≤ N := by
    simp only [candidates, hroots]
    rw [h5, List.length_map]
    exact s2
  refine ⟨?_, hcand, ?_⟩
  · rw [hroots, ← sum_filter_ne_zero, h5]
    exact s1
  · intro h0
    rw [h0] at hcand
    exact List.eq_nil_of_length_eq_zero (Nat.le_zero.1 hcand)

/-- non-vacuity: `exRun_ok`, `exRun_exact`; three zeros -/
example : Cell.count ⟨exSearch.reRan, exSearch.imRan, 0⟩ exZeros = 3 := by decide +kernel
example : ((newRoots exWorld exRun.2).map Prod.snd).sum =
    (Cell.count ⟨exSearch.reRan, exSearch.imRan, 0⟩ exZeros : ℕ) :=
  (C37_multiplicities (crossEst exPi exZeros) exPi (by unfold exPi; norm_num) 10 exSearch (crossEst_hits _ _ _) exWorld exRun.2
    (Prod.ext exRun_ok rfl) exZeros exRun_exact).1

/-- C37 for a conforming estimator: no assumption on the run itself -/
theorem C37_conforming (est : LineEst σ K) (pi : K) (hpi : 0 < pi) (limit : ℕ) (ctx : RCtx K)
    (hre : ctx.reRan.1 ≤ ctx.reRan.2) (him : ctx.imRan.1 ≤ ctx.imRan.2) (hest : BoundaryHits est ctx)
    (zeros : List (Cx K)) (L : ℤ → Cx K → Cx K → Cx K) (hconf : Conforming est ctx pi zeros L)
    (w w' : World σ K) (h : simpleArgument est pi limit ctx w = (.ok (), w')) :
    ((newRoots w w').map Prod.snd).sum = Cell.count ⟨ctx.reRan, ctx.imRan, 0⟩ zeros :=
  (C37_multiplicities est pi hpi limit ctx hest w w' h zeros
    (exact_cells hconf hest (simple_stops est pi ctx) (fun c => KeepsCache.simpleAct pi ctx c)
      (simple_leafEffect pi ctx) hre him limit w w' h)).1

/-! ## C38 -/

/-- C38. In a completed search, whatever the estimator answered, the final rectangles (the evaluated rectangles at
which the refinement stops) tile the search rectangle: a point lies in the search rectangle iff it lies in
a final one, the interiors of different final rectangles are disjoint, and the areas sum up. -/
theorem C38_tiling (est : LineEst σ K) (pi : K) (hpi : 0 < pi) (limit : ℕ) (ctx : RCtx K)
    (hest : BoundaryHits est ctx) (w w' : World σ K) (h : simpleArgument est pi limit ctx w = (.ok (), w')) :
    let final := (newCells w w').filter fun c => decide (Cell.Stop pi ctx.precision c)
    (∀ z, Cell.Has ⟨ctx.reRan, ctx.imRan, 0⟩ z ↔ ∃ c ∈ final, Cell.Has c z) ∧
    (final.Pairwise fun a b => ∀ z, ¬ (Cell.Interior a z ∧ Cell.Interior b z)) ∧
    (final.map Cell.area).sum = Cell.area ⟨ctx.reRan, ctx.imRan, 0⟩ := by
  intro final
  obtain ⟨phi, t, A, h1, h2, _, h4, h5, _⟩ := simple_run hpi hest h
  have hcells : newCells w w' = ⟨ctx.reRan, ctx.imRan, phi⟩ :: t.log ctx.precision ⟨ctx.reRan, ctx.imRan, phi⟩ := by
    unfold newCells; rw [h2]; simp
  have hf : final = t.leaves ctx.precision ⟨ctx.reRan, ctx.imRan, phi⟩ := by
    simp only [final, hcells]
    exact t.leaves_eq_filter (Cell.Stop pi ctx.precision) _ _ h1
  rw [hf]
  exact ⟨fun z => t.cover ctx.precision ⟨ctx.reRan, ctx.imRan, phi⟩ z, t.disjoint _ _, t.area_leaves _ _⟩

/-- non-vacuity: the example run stops at ten rectangles -/
example : ((newCells exWorld exRun.2).filter fun c => decide (Cell.Stop exPi exSearch.precision c)).length = 10 := by
  decide +kernel

/-! ## C39 -/

/-- C39 is false: the rectangles at which a root is found are not counted (`top.imag` of a real number is 0). The
example search completes, the task total is the area 8, the reported progress is 7.5. -/
theorem C39_counterexample : exRun.1 = .ok () ∧ Cell.area ⟨exSearch.reRan, exSearch.imRan, 0⟩ = (8 : ℚ) ∧
    (newProgress exWorld exRun.2).sum = 15 / 2 := by decide +kernel

/-- C39, what holds: the reported progress is the area of the search rectangle without the final rectangles at which
roots were found. -/
theorem C39_progress_partial (est : LineEst σ K) (pi : K) (hpi : 0 < pi) (limit : ℕ) (ctx : RCtx K)
    (hprog : ctx.progress = true) (hest : BoundaryHits est ctx) (w w' : World σ K)
    (h : simpleArgument est pi limit ctx w = (.ok (), w')) :
    let withRoots := (newCells w w').filter fun c =>
      decide (Cell.Stop pi ctx.precision c ∧ Cell.Turns pi c)
    (newProgress w w').sum = Cell.area ⟨ctx.reRan, ctx.imRan, 0⟩ - (withRoots.map Cell.area).sum ∧
    ((newRoots w w').filter fun r => decide (r.2 ≠ 0)).length = withRoots.length := by
  intro withRoots
  obtain ⟨phi, t, A, h1, h2, h3, h4, h5, _⟩ := simple_run hpi hest h
  have hcells : newCells w w' = ⟨ctx.reRan, ctx.imRan, phi⟩ :: t.log ctx.precision ⟨ctx.reRan, ctx.imRan, phi⟩ := by
    unfold newCells; rw [h2]; simp
  have hroots : newRoots w w' = A := by unfold newRoots; rw [h4]; simp
  have hp : newProgress w w' = (t.leaves ctx.precision ⟨ctx.reRan, ctx.imRan, phi⟩).map (leafAdvance pi) := by
    unfold newProgress; rw [h3]; simp [hprog]
  have hw : withRoots = (t.leaves ctx.precision ⟨ctx.reRan, ctx.imRan, phi⟩).filter
      fun c => decide (Cell.Turns pi c) := by
    simp only [withRoots, hcells]
    rw [← t.leaves_eq_filter (Cell.Stop pi ctx.precision) _ _ h1, List.filter_filter]
    congr 1
    funext c
    simp [Bool.and_comm]
  rw [hw, hp, hroots, h5, List.length_map]
  refine ⟨?_, rfl⟩
  have ha : Cell.area ⟨ctx.reRan, ctx.imRan, 0⟩ = Cell.area ⟨ctx.reRan, ctx.imRan, phi⟩ := rfl
  rw [ha, ← t.area_leaves ctx.precision]
  generalize t.leaves ctx.precision ⟨ctx.reRan, ctx.imRan, phi⟩ = L
  induction L with
  | nil => simp
  | cons c L ih =>
    by_cases ht : Cell.Turns pi c
    · simp only [List.map_cons, List.sum_cons, List.filter_cons, ht, decide_true, if_true, leafAdvance]
      rw [ih]; ring
    · simp only [List.map_cons, List.sum_cons, List.filter_cons, ht, decide_false, if_false, leafAdvance]
      simp only [Bool.false_eq_true, if_false]
      rw [ih]; ring

/-! ## C40 -/

/-- C40. For every phase closer than 0.2 turns to `n` turns (in particular exactly `n` turns) the thresholds classify
it like `n`, and the computed order is `n`. -/
theorem C40_thresholds (pi : K) (hpi : 0 < pi) (n : ℤ) (phi : K) (h : |phi - 2 * pi * n| < 2 / 10 * (2 * pi)) :
    (phi < TWO_PI pi ↔ n ≤ 0) ∧ (TWO_PI pi < phi ↔ 1 ≤ n) ∧
    (TWO_PI pi < phi ∧ phi < FOUR_PI pi ↔ n = 1) ∧
    (TWO_PI pi < phi ∧ phi < MAX_PHASE pi ↔ 1 ≤ n ∧ n ≤ 3) ∧
    roundHalfEven (phi / (2 * pi)) = n := by
  rw [abs_lt] at h
  obtain ⟨ha, hb⟩ := h
  unfold TWO_PI FOUR_PI MAX_PHASE
  have key : ∀ k : ℤ, (n ≤ k → (n : K) ≤ k) ∧ (k ≤ n → (k : K) ≤ n) :=
    fun k => ⟨fun h => by exact_mod_cast h, fun h => by exact_mod_cast h⟩
  have up : ∀ k : ℤ, n ≤ k → 2 * pi * (n : K) ≤ 2 * pi * k := fun k h =>
    mul_le_mul_of_nonneg_left ((key k).1 h) (by positivity)
  have dn : ∀ k : ℤ, k ≤ n → 2 * pi * (k : K) ≤ 2 * pi * n := fun k h =>
    mul_le_mul_of_nonneg_left ((key k).2 h) (by positivity)
  have A : phi < 8 / 10 * (2 * pi) ↔ n ≤ 0 := by
    constructor
    · intro h; by_contra hn
      have := dn 1 (by omega); push_cast at this; linarith
    · intro h; have := up 0 h; push_cast at this; linarith
  have B : 8 / 10 * (2 * pi) < phi ↔ 1 ≤ n := by
    constructor
    · intro h; by_contra hn
      have := up 0 (by omega); push_cast at this; linarith
    · intro h; have := dn 1 h; push_cast at this; linarith
  have C : phi < 65 / 100 * (4 * pi) ↔ n ≤ 1 := by
    constructor
    · intro h; by_contra hn
      have := dn 2 (by omega); push_cast at this; linarith
    · intro h; have := up 1 h; push_cast at this; linarith
  have D : phi < 85 / 100 * (8 * pi) ↔ n ≤ 3 := by
    constructor
    · intro h; by_contra hn
      have := dn 4 (by omega); push_cast at this; linarith
    · intro h; have := up 3 h; push_cast at this; linarith
  refine ⟨A, B, ?_, ?_, ?_⟩
  · rw [B, C]; omega
  · rw [B, D]
  · obtain ⟨g1, g2⟩ := roundHalfEven_spec (phi / (2 * pi))
    have e : |phi / (2 * pi) - n| < 2 / 10 := by
      have : phi / (2 * pi) - n = (phi - 2 * pi * n) / (2 * pi) := by field_simp
      rw [this, abs_div, abs_of_pos (show (0 : K) < 2 * pi by positivity), div_lt_iff₀ (by positivity), abs_lt]
      exact ⟨ha, hb⟩
    exact nearest_int_unique g1 g2 (by linarith) (fun h => by rw [h] at e; norm_num at e)

/-- non-vacuity: 2.1 turns -/
example : |(21 / 10 * (2 * exPi)) - 2 * exPi * ((2 : ℤ) : ℚ)| < 2 / 10 * (2 * exPi) := by unfold exPi; norm_num

/-! ## C84 -/

/-- C84. Let a search complete with exact phases, the width of the search rectangle below `2^m * 10^-p1` and its height
below `2^n * 10^-p2`. Then at most `1 + 2 * N * (m + n)` rectangles were evaluated, where `N` is the number of zeros
in the search rectangle. -/
theorem C84_work (est : LineEst σ K) (pi : K) (hpi : 0 < pi) (limit : ℕ) (ctx : RCtx K)
    (hest : BoundaryHits est ctx) (w w' : World σ K) (h : simpleArgument est pi limit ctx w = (.ok (), w'))
    (zeros : List (Cx K)) (hexact : ∀ c ∈ newCells w w', c.phi = 2 * pi * (Cell.count c zeros : K)) (m n : ℕ)
    (hb : Cell.Below ctx.precision m n ⟨ctx.reRan, ctx.imRan, 0⟩) :
    (newCells w w').length ≤ 1 + 2 * Cell.count ⟨ctx.reRan, ctx.imRan, 0⟩ zeros * (m + n) :=
  (approx_run hpi hest h (fun c hc => by rw [hexact c hc]; simp; positivity)).2.2.2.2 m n hb

/-- C35, C36, C37, C84 with approximate phases: let the phase of every evaluated rectangle be within 0.2 turns of the truth. Then a completed
search hands to the container, apart from boundary hits of order 0, exactly one candidate for each final rectangle with zeros: its centre,
with the number of zeros in the rectangle as order. So every zero is near a candidate and every candidate near a zero,
the orders sum up to the number of zeros, and the number of evaluated rectangles is bounded as in C84. -/
theorem C37_tolerance (est : LineEst σ K) (pi : K) (hpi : 0 < pi) (limit : ℕ) (ctx : RCtx K)
    (hest : BoundaryHits est ctx) (w w' : World σ K) (h : simpleArgument est pi limit ctx w = (.ok (), w'))
    (zeros : List (Cx K)) (hnear : ∀ c ∈ newCells w w', |c.phi - 2 * pi * (Cell.count c zeros : K)| < 2 / 10 * (2 * pi)) :
    (newRoots w w').filter (fun r => decide (r.2 ≠ 0)) =
      ((newCells w w').filter fun c => decide (Cell.Stop pi ctx.precision c ∧ 1 ≤ Cell.count c zeros)).map
        (fun c => (Cell.centre c, (Cell.count c zeros : ℤ))) ∧
    (∀ z ∈ zeros, Cell.HasHalfOpen ⟨ctx.reRan, ctx.imRan, 0⟩ z → ∃ r ∈ newRoots w w', 1 ≤ r.2 ∧
      Near (10 ^ (-ctx.precision.1) / 2, 10 ^ (-ctx.precision.2) / 2) z r.1) ∧
    (∀ r ∈ newRoots w w', r.2 ≠ 0 → ∃ z ∈ zeros,
      Near (10 ^ (-ctx.precision.1) / 2, 10 ^ (-ctx.precision.2) / 2) z r.1) ∧
    ((newRoots w w').map Prod.snd).sum = Cell.count ⟨ctx.reRan, ctx.imRan, 0⟩ zeros ∧
    ∀ m n, Cell.Below ctx.precision m n ⟨ctx.reRan, ctx.imRan, 0⟩ →
      (newCells w w').length ≤ 1 + 2 * Cell.count ⟨ctx.reRan, ctx.imRan, 0⟩ zeros * (m + n) :=
  approx_run hpi hest h hnear

/-- non-vacuity: `exRun_ok`; the phases of the example run are exact -/
example : ∀ c ∈ newCells exWorld exRun.2, |c.phi - 2 * exPi * (Cell.count c exZeros : ℚ)| < 2 / 10 * (2 * exPi) := by
  intro c hc
  rw [exRun_exact c hc]
  unfold exPi
  norm_num

/-- non-vacuity: 19 rectangles, bound 1 + 2 * 3 * 5 -/
example : (newCells exWorld exRun.2).length ≤ 1 + 2 * 3 * (3 + 2) := by decide +kernel

end PyZeal.Props
