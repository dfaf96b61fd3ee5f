import Verif.Proof.FloatTurn
import Verif.Props.Float

/-! # C106: the phase around a rectangle, computed in floating-point arithmetic -/

set_option linter.unusedSectionVars false

namespace PyZeal.Props
open Spec
open Real

/-- C106: the phase the summation estimator computes around a rectangle is a whole number of turns up to a bounded error -/
theorem C106_whole_turns (A : FloatOps ℝ) (u : ℝ) (hA : Rounds A.fl u) (S : SumOps ℝ) (N : ℕ) (δ γ : ℝ)
    (hS : SumArith S N δ γ) (ctx : RCtx ℝ) (re im : ℝ × ℝ) (hre : re.1 ≠ re.2) (him : im.1 ≠ im.2)
    (w w' : World (SumState ℝ) ℝ) (hw : w.fuse = none) (hc : w.cache.data = [])
    (hH : ∀ y, y = im.1 ∨ y = im.2 → w.est.horizontal.get? (y, 0) = none)
    (hV : ∀ x, x = re.1 ∨ x = re.2 → w.est.vertical.get? (x, 0) = none) (phi : Cx ℝ)
    (h : calcMomentF A (sumLineF A S) 0 re im ctx w = (.ok phi, w')) (hadd : w'.added = w.added) :
    phi.im = 0 ∧ ∃ n : ℤ, |phi.re - 2 * π * n| ≤ rectErr N δ γ u := by
  obtain ⟨h1, _, h2⟩ := calcMomentF_angle hA hS ctx re im hre him w w' hw hc hH hV phi h hadd
  exact ⟨h1, h2⟩

/-- C106: if the error is at most 1/4, the comparison with the computed constant `TWO_PI` asks for at least one whole turn, and
the order rounded from the computed quotient is the number of turns -/
theorem C106_decision (A : FloatOps ℝ) (u : ℝ) (hA : Rounds A.fl u) (S : SumOps ℝ) (N : ℕ) (δ γ : ℝ)
    (hS : SumArith S N δ γ) (hE : rectErr N δ γ u ≤ 1 / 4) (pi : ℝ) (hpi : |pi - π| ≤ u * π)
    (ctx : RCtx ℝ) (re im : ℝ × ℝ) (hre : re.1 ≠ re.2) (him : im.1 ≠ im.2)
    (w w' : World (SumState ℝ) ℝ) (hw : w.fuse = none) (hc : w.cache.data = [])
    (hH : ∀ y, y = im.1 ∨ y = im.2 → w.est.horizontal.get? (y, 0) = none)
    (hV : ∀ x, x = re.1 ∨ x = re.2 → w.est.vertical.get? (x, 0) = none) (phi : Cx ℝ)
    (h : calcMomentF A (sumLineF A S) 0 re im ctx w = (.ok phi, w')) (hadd : w'.added = w.added) :
    ∃ n : ℤ, |phi.re - 2 * π * n| ≤ 1 / 4 ∧ (Cell.TurnsF A pi ⟨re, im, phi.re⟩ ↔ 1 ≤ n) ∧
      roundHalfEven (A.fl (phi.re / A.fl (2 * pi))) = n := by
  obtain ⟨_, h2, n, h3⟩ := calcMomentF_angle hA hS ctx re im hre him w w' hw hc hH hV phi h hadd
  have hδ := hS.δ0
  have hγ := hS.γ0
  have hu0 := hA.u_nonneg
  have hN : (200 : ℝ) ≤ N := by
    have := hS.len0
    have := hS.samples.numPts
    exact_mod_cast (by omega : 200 ≤ N)
  have hle : 0 ≤ lineErr N δ γ := by unfold lineErr; positivity
  have hM : 800 ≤ lineMax N γ := by unfold lineMax; nlinarith
  have huM : 11 * u * lineMax N γ ≤ 1 / 4 := by unfold rectErr at hE; linarith
  have hu : u ≤ 1 / 1000 := by nlinarith
  obtain ⟨t1, t2⟩ := turns_decide hA hpi hu h2 huM (h3.trans hE)
  exact ⟨n, h3.trans hE, t1, t2⟩

/-- C106: with the shipped settings, in Python's floats: the phase around a rectangle is computed, and unless zeros were met on
the sides it is a whole number of turns up to 1/4, the comparison with `TWO_PI` asks for at least one turn, and the order
is the number of turns -/
theorem C106_shipped (quot : Cx ℝ → Cx ℝ → Cx ℝ) (arctan : Cx ℝ → ℝ) (dist : Cx ℝ → Cx ℝ → ℝ) (tree : ℕ → SumTree)
    (evals : ℕ → ℕ) (hq : QuotWithin quot ((1 / 2) ^ 49)) (ha : ArctanWithin arctan ((1 / 2) ^ 49)) (ht : SumsAll tree)
    (ctx : RCtx ℝ) (re im : ℝ × ℝ) (hre : re.1 ≠ re.2) (him : im.1 ≠ im.2)
    (hE : SidesEnd (σ := SumState ℝ) (double ℝ) (SumOps.shipped quot arctan dist tree evals) ctx re im)
    (w : World (SumState ℝ) ℝ) (hw : w.fuse = none) (hc : w.cache.data = []) (hs : w.est = SumState.fresh) :
    ∃ phi w', calcMomentF (double ℝ) (sumLineF (double ℝ) (SumOps.shipped quot arctan dist tree evals)) 0 re im ctx w =
        (.ok phi, w') ∧
      (w'.added = w.added → ∃ n : ℤ, |phi.re - 2 * π * n| ≤ 1 / 4 ∧
        (Cell.TurnsF (double ℝ) ((double ℝ).fl π) ⟨re, im, phi.re⟩ ↔ 1 ≤ n) ∧
        roundHalfEven ((double ℝ).fl (phi.re / (double ℝ).fl (2 * (double ℝ).fl π))) = n) := by
  have hS := shipped_arith (dist := dist) (evals := evals) hq ha ht
  have hH : ∀ y, y = im.1 ∨ y = im.2 → w.est.horizontal.get? (y, 0) = none := by
    intro y _; rw [hs]; rfl
  have hV : ∀ x, x = re.1 ∨ x = re.2 → w.est.vertical.get? (x, 0) = none := by
    intro y _; rw [hs]; rfl
  obtain ⟨phi, w', h⟩ := calcMomentF_ends hS (A := double ℝ) (ctx := ctx)
    (fun idx phi _ h => (factorF_bounds doubleR (by norm_num) idx phi).1 h)
    (by simp [SumOps.shipped]) re im hE hre him w hw hc hH hV
  refine ⟨phi, w', h, fun hadd => ?_⟩
  refine C106_decision _ _ doubleR _ _ _ _ hS shipped_err.1 _ ?_ ctx re im hre him w w' hw hc hH hV phi h hadd
  have := doubleR.near π
  rwa [abs_of_pos Real.pi_pos] at this

/-- C106: adding up `n` numbers in any order, rounding each sum: the relative error (with respect to the sum of the absolute
values) is at most `(1 + u)^d - 1`, `d` the length of the longest chain of additions -/
theorem C106_sum (A : FloatOps ℝ) (u : ℝ) (hA : Rounds A.fl u) (xs : List ℝ) (t : SumTree)
    (ht : t.leaves.Perm (List.range xs.length)) :
    |t.eval A xs - xs.sum| ≤ ((1 + u) ^ t.depth - 1) * (xs.map abs).sum := sumTree_all hA xs t ht

/-- C106: the phase computed from an approximate quotient -/
theorem C106_phase (S : SumOps ℝ) (quot : Cx ℝ → Cx ℝ → Cx ℝ) (arctan : Cx ℝ → ℝ) (η ε : ℝ)
    (hS : ∀ a b, S.phase a b = arctan (quot b a)) (hη : η ≤ 1 / 2) (hε : ε ≤ 4 / 5)
    (hq : QuotWithin quot η) (ha : ArctanWithin arctan ε) : PhaseWithin S (3 / 2 * η + ε) := by
  intro a b h1 h2
  have hp := ha (quot b a)
  rw [hS]
  refine ⟨?_, ?_⟩
  · have := Complex.abs_arg_le_pi ⟨(quot b a).re, (quot b a).im⟩
    have p2 := Real.pi_lt_d2
    rw [abs_le] at hp this ⊢
    constructor <;> linarith [hp.1, hp.2, this.1, this.2]
  · have h1' : (⟨a.re, a.im⟩ : ℂ) ≠ 0 := fun e => h1 (toC_eq_zero.1 e)
    have h2' : (⟨b.re, b.im⟩ : ℂ) ≠ 0 := fun e => h2 (toC_eq_zero.1 e)
    exact phase_of_quot h1' h2' hη (hq a b h1 h2) hp

/-! ## Exact arithmetic -/

/-- the exact operations -/
noncomputable def exactOps (cfg : SumCfg ℝ) : SumOps ℝ where
  numPts := cfg.numPts
  deltaPhi := cfg.deltaPhi
  maxPrecision := cfg.maxPrecision
  lin := linspace
  phase := fun a b => cfg.arg (b / a)
  dist := fun a b => Real.sqrt (a - b).normSq
  factor := fun idx phi => ⌊((idx : ℕ) : ℝ) * (zRefine : ℝ) * |phi| / cfg.deltaPhi⌋.toNat
  sum := List.sum
  evals := cfg.evals
  steps := cfg.steps

theorem genFuncLoopF_exact {σ : Type} (f : Cx ℝ → Cx ℝ) (s : Cx ℝ) (n : ℕ) (base : List (Cx ℝ)) :
    (genFuncLoopF (FloatOps.exact ℝ) f s n base : Py (World σ ℝ) _) = genFuncLoop f s n base := by
  induction n generalizing base with
  | zero => rfl
  | succ n ih =>
    have e : (fun z : Cx ℝ => (FloatOps.exact ℝ).cx (z + s)) = fun z => z + s := rfl
    simp only [genFuncLoopF, genFuncLoop, e, ih]

theorem genFuncArrF_exact {σ : Type} (cfg : SumCfg ℝ) (a b : Cx ℝ) (ctx : RCtx ℝ) (n : ℕ) :
    (genFuncArrF (FloatOps.exact ℝ) (exactOps cfg) a b ctx n : Py (World σ ℝ) _) = genFuncArr cfg.evals a b ctx n := by
  unfold genFuncArrF genFuncArr
  rw [genFuncLoopF_exact]
  rfl

theorem dist_lt_iff (a b : Cx ℝ) (m : ℝ) : Real.sqrt (a - b).normSq < m ↔ 0 < m ∧ (a - b).normSq < m ^ 2 := by
  constructor
  · intro h
    have h0 : 0 < m := lt_of_le_of_lt (Real.sqrt_nonneg _) h
    exact ⟨h0, (Real.sqrt_lt' h0).1 h⟩
  · rintro ⟨h0, h⟩
    exact (Real.sqrt_lt' h0).2 h

theorem refineLoopF_exact (cfg : SumCfg ℝ) (ctx : RCtx ℝ) (n idx : ℕ) (z : List (Cx ℝ)) (p : List ℝ) :
    refineLoopF (FloatOps.exact ℝ) (exactOps cfg) ctx n idx z p = refineLoop cfg ctx n idx z p := by
  induction n generalizing idx z p with
  | zero => rfl
  | succ n ih =>
    unfold refineLoopF refineLoop
    have e1 : (exactOps cfg).deltaPhi = cfg.deltaPhi := rfl
    rw [e1]
    rcases whereFrom (fun p => decide (cfg.deltaPhi ≤ |p|)) 0 p with _ | ⟨k, t⟩
    · rfl
    dsimp only
    have e2 : ((exactOps cfg).dist (z.getD k 0) (z.getD (k + 1) 0) < (exactOps cfg).maxPrecision) =
        (0 < cfg.maxPrecision ∧ (z.getD k 0 - z.getD (k + 1) 0).normSq < cfg.maxPrecision ^ 2) :=
      propext (dist_lt_iff _ _ _)
    simp only [e2, ih, genFuncArrF_exact]
    rfl

/-- C106: with exact operations the model is that of the other theorems about the estimator -/
theorem C106_exact (cfg : SumCfg ℝ) : sumLineF (FloatOps.exact ℝ) (exactOps cfg) = sumLine cfg := by
  have h : ∀ o a b ctx, genPhiArrF (FloatOps.exact ℝ) (exactOps cfg) o a b ctx = genPhiArr cfg o a b ctx := by
    intro o a b ctx
    unfold genPhiArrF genPhiArr
    simp only [genFuncArrF_exact, refineLoopF_exact]
    rfl
  have h2 : ∀ o a b ctx r, sliceOrSampleF (FloatOps.exact ℝ) (exactOps cfg) o a b ctx r = sliceOrSample cfg o a b ctx r := by
    intro o a b ctx r
    rcases r with _ | v
    · exact h o a b ctx
    · rfl
  funext o a b ctx
  unfold sumLineF sumLine retrieveCachedHorizontalF retrieveCachedHorizontal retrieveCachedVerticalF retrieveCachedVertical
  simp only [h2]
  rfl

/-! ## An instance -/

theorem linspaceF_im {K : Type} [Field K] [LinearOrder K] [IsStrictOrderedRing K] [FloorRing K]
    {A : FloatOps K} {u : K} (hA : Rounds A.fl u) {a b : Cx K} {y : K} (hy : Machine A.fl y)
    (ha : a.im = y) (hb : b.im = y) (n : ℕ) : ∀ z ∈ linspaceF A a b n, z.im = y := by
  have h0 : A.fl 0 = 0 := hA.zero
  unfold Machine at hy
  rcases n with _ | _ | n
  · simp [linspaceF]
  · simp [linspaceF, ha]
  · intro z hz
    simp only [linspaceF, List.mem_append, List.mem_cons, List.mem_map, List.mem_range, List.not_mem_nil, or_false] at hz
    rcases hz with (rfl | ⟨k, _, rfl⟩) | rfl
    · exact ha
    · simp [FloatOps.cx, ha, hb, h0, hy]
    · exact hb

theorem linspaceF_re {K : Type} [Field K] [LinearOrder K] [IsStrictOrderedRing K] [FloorRing K]
    {A : FloatOps K} {u : K} (hA : Rounds A.fl u) {a b : Cx K} {x : K} (hx : Machine A.fl x)
    (ha : a.re = x) (hb : b.re = x) (n : ℕ) : ∀ z ∈ linspaceF A a b n, z.re = x := by
  have h0 : A.fl 0 = 0 := hA.zero
  unfold Machine at hx
  rcases n with _ | _ | n
  · simp [linspaceF]
  · simp [linspaceF, ha]
  · intro z hz
    simp only [linspaceF, List.mem_append, List.mem_cons, List.mem_map, List.mem_range, List.not_mem_nil, or_false] at hz
    rcases hz with (rfl | ⟨k, _, rfl⟩) | rfl
    · exact ha
    · simp [FloatOps.cx, ha, hb, h0, hx]
    · exact hb

/-- sampling between points of a set without zeros -/
theorem genFuncArrF_clear {σ : Type} {A : FloatOps ℝ} {S : SumOps ℝ} (hev : ∀ n, 1 ≤ S.evals n)
    {ctx : RCtx ℝ} {P : Cx ℝ → Prop} (hP : ∀ z, P z → ctx.f z ≠ 0)
    (hL : ∀ a b, P a → P b → ∀ n, ∀ z ∈ S.lin a b n, P z) {a b : Cx ℝ} (ha : P a) (hb : P b) (n : ℕ) (w : World σ ℝ) :
    genFuncArrF A S a b ctx n w = (.ok (S.lin a b n, (S.lin a b n).map ctx.f), w) := by
  have hz := hL a b ha hb n
  unfold genFuncArrF
  obtain ⟨m, hm⟩ : ∃ m, S.evals n = m + 1 := ⟨S.evals n - 1, by have := hev n; omega⟩
  rw [hm]
  unfold genFuncLoopF
  have he : ((S.lin a b n).filter fun z => decide (ctx.f z = 0)).isEmpty = true := by
    rw [List.isEmpty_iff, List.filter_eq_nil_iff]
    intro z hz' h0
    exact hP z (hz z hz') (of_decide_eq_true h0)
  dsimp only
  rw [if_pos he]
  rfl

theorem refineLoopF_clear {A : FloatOps ℝ} {S : SumOps ℝ} (hS : Samples S) (hev : ∀ n, 1 ≤ S.evals n)
    {ctx : RCtx ℝ} {P : Cx ℝ → Prop} (hP : ∀ z, P z → ctx.f z ≠ 0)
    (hL : ∀ a b, P a → P b → ∀ n, ∀ z ∈ S.lin a b n, P z) (n : ℕ) :
    ∀ (idx : ℕ) (z : List (Cx ℝ)) (p : List ℝ) (w : World (SumState ℝ) ℝ), (∀ x ∈ z, P x) → p.length + 1 = z.length →
      (refineLoopF A S ctx n idx z p w).2 = w := by
  induction n with
  | zero => intro idx z p w _ _; rfl
  | succ n ih =>
    intro idx z p w hz hlen
    unfold refineLoopF
    rcases hw : whereFrom (fun p => decide (S.deltaPhi ≤ |p|)) 0 p with _ | ⟨k, t⟩
    · rfl
    dsimp only
    split
    · rfl
    split
    · rfl
    obtain ⟨_, hk, hbig, _⟩ := whereFrom_cons hw
    simp only [Nat.sub_zero, decide_eq_true_eq] at hk hbig
    have hgd : p.getD k 0 = p[k] := List.getD_eq_getElem _ _ hk
    have hfac2 : 2 ≤ S.factor (idx + 1) (p.getD k 0) := hS.factor _ _ (by omega) (by rw [hgd]; exact hbig)
    have hPg : ∀ i, i < z.length → P (z.getD i 0) := by
      intro i hi
      rw [List.getD_eq_getElem _ _ hi]
      exact hz _ (List.getElem_mem hi)
    have hr := genFuncArrF_clear (A := A) hev hP hL (hPg k (by omega)) (hPg (k + 1) (by omega))
      (S.factor (idx + 1) (p.getD k 0)) w
    rw [Py.bind_run, hr]
    dsimp only
    refine ih _ _ _ _ ?_ ?_
    · intro x hx
      simp only [List.mem_append] at hx
      rcases hx with (hx | hx) | hx
      · exact hz x (List.mem_of_mem_take hx)
      · exact hL _ _ (hPg k (by omega)) (hPg (k + 1) (by omega)) _ x (List.mem_of_mem_drop (List.mem_of_mem_dropLast hx))
      · exact hz x (List.mem_of_mem_drop hx)
    · simp only [List.length_append, List.length_take, List.length_drop, List.length_dropLast, phasesOf_length,
        List.length_map, hS.length]
      omega

theorem sumLineF_clear {A : FloatOps ℝ} {S : SumOps ℝ} (hS : Samples S) (hev : ∀ n, 1 ≤ S.evals n)
    {ctx : RCtx ℝ} {P : Cx ℝ → Prop} (hP : ∀ z, P z → ctx.f z ≠ 0)
    (hL : ∀ a b, P a → P b → ∀ n, ∀ z ∈ S.lin a b n, P z) (o : ℤ) {a b : Cx ℝ} (hPa : P a) (hPb : P b)
    (w : World (SumState ℝ) ℝ) : (sumLineF A S o a b ctx w).2.added = w.added ∧
    (sumLineF A S o a b ctx w).2.fuse = w.fuse := by
  have core : ∀ u v r, P u → P v → (sliceOrSampleF A S o u v ctx r w).2 = w := by
    intro u v r hu hv
    rcases r with _ | r
    · show (genPhiArrF A S o u v ctx w).2 = w
      unfold genPhiArrF
      split
      · rfl
      · rw [Py.bind_run, genFuncArrF_clear hev hP hL hu hv]
        dsimp only
        refine refineLoopF_clear hS hev hP hL _ _ _ _ _ (hL _ _ hu hv _) ?_
        have := hS.numPts
        simp only [phasesOf_length, List.length_map, hS.length]
        omega
    · rfl
  have key : ∀ u v r, P u → P v → ∃ x, sliceOrSampleF A S o u v ctx r w = (x, w) := by
    intro u v r hu hv
    exact ⟨_, Prod.ext rfl (core u v r hu hv)⟩
  unfold sumLineF
  split
  · rename_i e
    rw [horizontalF_run]
    have hlo : P ⟨min a.re b.re, a.im⟩ := by
      rcases min_choice a.re b.re with h | h <;> rw [h]
      · exact hPa
      · rw [e]; exact hPb
    have hhi : P ⟨max a.re b.re, a.im⟩ := by
      rcases max_choice a.re b.re with h | h <;> rw [h]
      · exact hPa
      · rw [e]; exact hPb
    obtain ⟨x, hx⟩ := key _ _ (reuseH w.est.horizontal o (min a.re b.re) (max a.re b.re) a.im) hlo hhi
    rw [hx]
    rcases x with _ | _ <;> exact ⟨rfl, rfl⟩
  · split
    · rename_i e
      rw [verticalF_run]
      have hlo : P ⟨a.re, min a.im b.im⟩ := by
        rcases min_choice a.im b.im with h | h <;> rw [h]
        · exact hPa
        · rw [e]; exact hPb
      have hhi : P ⟨a.re, max a.im b.im⟩ := by
        rcases max_choice a.im b.im with h | h <;> rw [h]
        · exact hPa
        · rw [e]; exact hPb
      rcases reuseV w.est.vertical o (min a.im b.im) (max a.im b.im) a.re with _ | r
      · exact ⟨rfl, rfl⟩
      · obtain ⟨x, hx⟩ := key _ _ r hlo hhi
        dsimp only
        rw [hx]
        rcases x with _ | _ <;> exact ⟨rfl, rfl⟩
    · exact ⟨rfl, rfl⟩

theorem edgeF_clear {A : FloatOps ℝ} {S : SumOps ℝ} (hS : Samples S) (hev : ∀ n, 1 ≤ S.evals n)
    {ctx : RCtx ℝ} {P : Cx ℝ → Prop} (hP : ∀ z, P z → ctx.f z ≠ 0)
    (hL : ∀ a b, P a → P b → ∀ n, ∀ z ∈ S.lin a b n, P z) (o : ℤ) {a b : Cx ℝ} (hPa : P a) (hPb : P b)
    (w : World (SumState ℝ) ℝ) (hw : w.fuse = none) :
    (edgeMoment (sumLineF A S) o ctx (a, b) w).2.added = w.added ∧
    (edgeMoment (sumLineF A S) o ctx (a, b) w).2.fuse = none := by
  rw [edgeMoment_run]
  have hcomp : (edgeMoment.compute (sumLineF A S) o ctx (a, b) { w with cache := (w.cache.retrieve o a b).2 }).2.added =
      w.added ∧ (edgeMoment.compute (sumLineF A S) o ctx (a, b) { w with cache := (w.cache.retrieve o a b).2 }).2.fuse =
      none := by
    rw [compute_run, World.tick_none (by exact hw)]
    dsimp only
    have := sumLineF_clear (A := A) hS hev hP hL o hPa hPb { w with cache := (w.cache.retrieve o a b).2 }
    dsimp only at this
    rw [hw] at this ⊢
    revert this
    rcases sumLineF A S o a b ctx _ with ⟨_ | d, w2⟩
    · exact id
    · exact id
  dsimp only
  rcases w.cache.look o a b with _ | v
  · exact hcomp
  · dsimp only
    split
    · exact ⟨rfl, hw⟩
    · exact hcomp

theorem sumEdgesF_clear {A : FloatOps ℝ} {S : SumOps ℝ} {ctx : RCtx ℝ} {o : ℤ} (es : List (Cx ℝ × Cx ℝ))
    (h : ∀ e ∈ es, ∀ w : World (SumState ℝ) ℝ, w.fuse = none → (edgeMoment (sumLineF A S) o ctx e w).2.added = w.added ∧
      (edgeMoment (sumLineF A S) o ctx e w).2.fuse = none) :
    ∀ (phi : Cx ℝ) (w : World (SumState ℝ) ℝ), w.fuse = none →
      (sumEdgesF A (sumLineF A S) o ctx es phi w).2.added = w.added := by
  induction es with
  | nil => intro phi w _; rfl
  | cons e es ih =>
    intro phi w hw
    obtain ⟨h1, h2⟩ := h e (by simp) w hw
    simp only [sumEdgesF, Py.bind_run]
    rcases he : edgeMoment (sumLineF A S) o ctx e w with ⟨_ | d, w1⟩
    · rw [he] at h1; exact h1
    · rw [he] at h1 h2
      dsimp only at h1 h2 ⊢
      rw [ih (fun e' he' => h e' (by simp [he'])) _ w1 h2, h1]

/-- no zeros are met on the sides if there are none on the lines through them -/
theorem calcMomentF_clear {A : FloatOps ℝ} {u : ℝ} (hA : Rounds A.fl u) {S : SumOps ℝ} (hS : Samples S)
    (hlin : S.lin = linspaceF A) (hev : ∀ n, 1 ≤ S.evals n) {ctx : RCtx ℝ} {re im : ℝ × ℝ}
    (hm : Cell.Machine A.fl ⟨re, im, 0⟩)
    (hf : ∀ z, z.im = im.1 ∨ z.im = im.2 ∨ z.re = re.1 ∨ z.re = re.2 → ctx.f z ≠ 0)
    (w : World (SumState ℝ) ℝ) (hw : w.fuse = none) :
    (calcMomentF A (sumLineF A S) 0 re im ctx w).2.added = w.added := by
  obtain ⟨⟨m1, m2⟩, m3, m4⟩ := hm
  have hH : ∀ y, y = im.1 ∨ y = im.2 → Machine A.fl y → ∀ a b : Cx ℝ, a.im = y → b.im = y →
      ∀ w : World (SumState ℝ) ℝ, w.fuse = none → (edgeMoment (sumLineF A S) 0 ctx (a, b) w).2.added = w.added ∧
      (edgeMoment (sumLineF A S) 0 ctx (a, b) w).2.fuse = none := by
    intro y hy my a b ha hb w hw
    refine edgeF_clear hS hev (P := fun z => z.im = y) (fun z hz => hf z ?_) ?_ 0 ha hb w hw
    · rcases hy with rfl | rfl
      · exact .inl hz
      · exact .inr (.inl hz)
    · rw [hlin]
      exact fun a b ha hb n => linspaceF_im hA my ha hb n
  have hV : ∀ x, x = re.1 ∨ x = re.2 → Machine A.fl x → ∀ a b : Cx ℝ, a.re = x → b.re = x →
      ∀ w : World (SumState ℝ) ℝ, w.fuse = none → (edgeMoment (sumLineF A S) 0 ctx (a, b) w).2.added = w.added ∧
      (edgeMoment (sumLineF A S) 0 ctx (a, b) w).2.fuse = none := by
    intro x hx mx a b ha hb w hw
    refine edgeF_clear hS hev (P := fun z => z.re = x) (fun z hz => hf z ?_) ?_ 0 ha hb w hw
    · rcases hx with rfl | rfl
      · exact .inr (.inr (.inl hz))
      · exact .inr (.inr (.inr hz))
    · rw [hlin]
      exact fun a b ha hb n => linspaceF_re hA mx ha hb n
  unfold calcMomentF
  refine sumEdgesF_clear _ ?_ _ w hw
  intro e he
  simp only [edges, List.mem_cons, List.not_mem_nil, or_false] at he
  rcases he with rfl | rfl | rfl | rfl
  · exact hH _ (.inl rfl) m3 _ _ rfl rfl
  · exact hV _ (.inr rfl) m2 _ _ rfl rfl
  · exact hH _ (.inr rfl) m4 _ _ rfl rfl
  · exact hV _ (.inl rfl) m1 _ _ rfl rfl

/-- C106: sampling the sides of a rectangle ends at once if the function has no zeros on the lines through the sides -/
theorem C106_sides_end {σ : Type} (A : FloatOps ℝ) (u : ℝ) (hA : Rounds A.fl u) (S : SumOps ℝ)
    (hlin : S.lin = linspaceF A) (hev : ∀ n, 1 ≤ S.evals n)
    (ctx : RCtx ℝ) (re im : ℝ × ℝ) (hm : Cell.Machine A.fl ⟨re, im, 0⟩)
    (hf : ∀ z, z.im = im.1 ∨ z.im = im.2 ∨ z.re = re.1 ∨ z.re = re.2 → ctx.f z ≠ 0) :
    SidesEnd (σ := σ) A S ctx re im := by
  have core : ∀ P : Cx ℝ → Prop, (∀ z, P z → ctx.f z ≠ 0) →
      (∀ a b, P a → P b → ∀ n, ∀ z ∈ S.lin a b n, P z) → ∀ a b, P a → P b → LineEnds (σ := σ) A S ctx a b := by
    intro P hP hL a b ha hb
    refine ⟨P, ha, hb, fun a' b' ha' hb' n w => ?_⟩
    exact ⟨_, _, genFuncArrF_clear hev hP hL ha' hb' n w, hL a' b' ha' hb' n⟩
  rw [hlin] at core
  obtain ⟨⟨m1, m2⟩, m3, m4⟩ := hm
  refine ⟨⟨?_, ?_⟩, ?_, ?_⟩
  · exact core (fun z => z.im = im.1) (fun z h => hf z (.inl h)) (fun a b ha hb n => linspaceF_im hA m3 ha hb n) _ _ rfl rfl
  · exact core (fun z => z.re = re.2) (fun z h => hf z (.inr (.inr (.inr h))))
      (fun a b ha hb n => linspaceF_re hA m2 ha hb n) _ _ rfl rfl
  · exact core (fun z => z.im = im.2) (fun z h => hf z (.inr (.inl h)))
      (fun a b ha hb n => linspaceF_im hA m4 ha hb n) _ _ rfl rfl
  · exact core (fun z => z.re = re.1) (fun z h => hf z (.inr (.inr (.inl h))))
      (fun a b ha hb n => linspaceF_re hA m1 ha hb n) _ _ rfl rfl

/-- C106: with the shipped settings in Python's floats, for a function without zeros on the lines through the sides of the
rectangle: the phase is computed, nothing is added to the result, the phase is a whole number of turns up to 1/4, the comparison
with `TWO_PI` asks for at least one turn, and the order is the number of turns -/
theorem C106_clear (quot : Cx ℝ → Cx ℝ → Cx ℝ) (arctan : Cx ℝ → ℝ) (dist : Cx ℝ → Cx ℝ → ℝ) (tree : ℕ → SumTree)
    (evals : ℕ → ℕ) (hev : ∀ n, 1 ≤ evals n) (hq : QuotWithin quot ((1 / 2) ^ 49)) (ha : ArctanWithin arctan ((1 / 2) ^ 49))
    (ht : SumsAll tree) (ctx : RCtx ℝ) (re im : ℝ × ℝ) (hre : re.1 ≠ re.2) (him : im.1 ≠ im.2)
    (hm : Cell.Machine (double ℝ).fl ⟨re, im, 0⟩)
    (hf : ∀ z, z.im = im.1 ∨ z.im = im.2 ∨ z.re = re.1 ∨ z.re = re.2 → ctx.f z ≠ 0)
    (w : World (SumState ℝ) ℝ) (hw : w.fuse = none) (hc : w.cache.data = []) (hs : w.est = SumState.fresh) :
    ∃ phi w', calcMomentF (double ℝ) (sumLineF (double ℝ) (SumOps.shipped quot arctan dist tree evals)) 0 re im ctx w =
        (.ok phi, w') ∧ w'.added = w.added ∧
      ∃ n : ℤ, |phi.re - 2 * π * n| ≤ 1 / 4 ∧
        (Cell.TurnsF (double ℝ) ((double ℝ).fl π) ⟨re, im, phi.re⟩ ↔ 1 ≤ n) ∧
        roundHalfEven ((double ℝ).fl (phi.re / (double ℝ).fl (2 * (double ℝ).fl π))) = n := by
  obtain ⟨phi, w', h, h'⟩ := C106_shipped quot arctan dist tree evals hq ha ht ctx re im hre him
    (C106_sides_end _ _ doubleR _ rfl hev ctx re im hm hf) w hw hc hs
  have hadd := calcMomentF_clear doubleR (shipped_arith (dist := dist) (evals := evals) hq ha ht).samples rfl hev hm hf w hw
  rw [h] at hadd
  exact ⟨phi, w', h, hadd, h' hadd⟩

/-- correctly rounded quotients -/
theorem quot_rounded : QuotWithin (fun b a => (double ℝ).cx (b / a)) ((1 / 2) ^ 49) := by
  intro a b h1 h2
  have e : (⟨b.re, b.im⟩ : ℂ) / ⟨a.re, a.im⟩ = toC (b / a) := (toC_div b a).symm
  rw [e]
  show ‖(⟨((double ℝ).cx (b / a)).re, ((double ℝ).cx (b / a)).im⟩ : ℂ) - toC (b / a)‖ ≤ _
  generalize b / a = q
  have n1 := doubleR.near q.re
  have n2 := doubleR.near q.im
  have l1 := Complex.abs_re_le_norm (toC q)
  have l2 := Complex.abs_im_le_norm (toC q)
  have hb := Complex.norm_le_abs_re_add_abs_im ((⟨((double ℝ).cx q).re, ((double ℝ).cx q).im⟩ : ℂ) - toC q)
  simp only [FloatOps.cx, Complex.sub_re, Complex.sub_im, toC] at hb l1 l2 n1 n2 ⊢
  generalize ‖(⟨q.re, q.im⟩ : ℂ)‖ = M at *
  have c1 : (1 / 2 : ℝ) ^ 53 * |q.re| ≤ (1 / 2) ^ 53 * M := mul_le_mul_of_nonneg_left l1 (by positivity)
  have c2 : (1 / 2 : ℝ) ^ 53 * |q.im| ≤ (1 / 2) ^ 53 * M := mul_le_mul_of_nonneg_left l2 (by positivity)
  have hM : 0 ≤ M := le_trans (abs_nonneg _) l1
  have : 2 * ((1 / 2 : ℝ) ^ 53 * M) ≤ (1 / 2) ^ 49 * M := by
    have : 2 * (1 / 2 : ℝ) ^ 53 ≤ (1 / 2) ^ 49 := by norm_num
    nlinarith
  linarith

/-- correctly rounded arguments -/
theorem arctan_rounded : ArctanWithin (fun z => (double ℝ).fl (Complex.arg ⟨z.re, z.im⟩)) ((1 / 2) ^ 49) := by
  intro z
  refine (doubleR.near _).trans ?_
  have := Complex.abs_arg_le_pi ⟨z.re, z.im⟩
  have p4 := Real.pi_le_four
  calc (1 / 2 : ℝ) ^ 53 * |Complex.arg ⟨z.re, z.im⟩| ≤ (1 / 2) ^ 53 * 4 := mul_le_mul_of_nonneg_left (by linarith) (by positivity)
    _ ≤ _ := by norm_num

/-- adding up from left to right -/
def leftTree : ℕ → SumTree
  | 0 => .leaf 0
  | 1 => .leaf 0
  | n + 2 => .node (leftTree (n + 1)) (.leaf (n + 1))

theorem leftTree_all : SumsAll leftTree := by
  intro n hn
  obtain ⟨m, rfl⟩ : ∃ m, n = m + 1 := ⟨n - 1, by omega⟩
  have : (leftTree (m + 1)).leaves = List.range (m + 1) := by
    clear hn
    induction m with
    | zero => rfl
    | succ m ih => rw [leftTree, SumTree.leaves, ih, List.range_succ (n := m + 1)]; rfl
  rw [this]

/-- non-vacuity of the theorems about C106: the identity around the square with corners `±1 ± i`, computed with correctly
rounded operations and sums from left to right -/
example : ∃ phi w', calcMomentF (double ℝ) (sumLineF (double ℝ) (SumOps.shipped (fun b a => (double ℝ).cx (b / a))
      (fun z => (double ℝ).fl (Complex.arg ⟨z.re, z.im⟩)) (fun a b => Real.sqrt (a - b).normSq) leftTree fun _ => 1))
      0 (-1, 1) (-1, 1) (⟨id, none, (5, 5), (-1, 1), (-1, 1), false⟩ : RCtx ℝ)
      ⟨EstCache.init false, SumState.fresh, [], [], none, []⟩ = (.ok phi, w') ∧
    ∃ n : ℤ, |phi.re - 2 * π * n| ≤ 1 / 4 := by
  have m1 : Machine (double ℝ).fl 1 := doubleR.one
  have m2 : Machine (double ℝ).fl (-1) := by
    unfold Machine
    show flBin 53 (-1 : ℝ) = -1
    rw [flBin_neg]
    exact congrArg Neg.neg m1
  obtain ⟨phi, w', h, _, n, hn, _⟩ := C106_clear _ _ (fun a b => Real.sqrt (a - b).normSq) leftTree (fun _ => 1)
    (fun _ => le_refl _) quot_rounded arctan_rounded leftTree_all
    (⟨id, none, (5, 5), (-1, 1), (-1, 1), false⟩ : RCtx ℝ) (-1, 1) (-1, 1) (by norm_num) (by norm_num)
    ⟨⟨m2, m1⟩, m2, m1⟩ (by
      intro z hz h0
      have h0 : z = 0 := h0
      rw [h0] at hz
      norm_num at hz) ⟨EstCache.init false, SumState.fresh, [], [], none, []⟩ rfl rfl rfl
  exact ⟨phi, w', h, n, hn⟩

end PyZeal.Props
