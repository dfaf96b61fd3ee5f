import Verif.Props.FloatSum
import Verif.Proof.Sampling
import Mathlib.Data.Finset.Card

/-! # C107: sampling a line in floating-point arithmetic -/

set_option linter.unusedSectionVars false

namespace PyZeal
open Spec
variable {K : Type} [Field K] [LinearOrder K] [IsStrictOrderedRing K] {σ : Type}

/-- the line after `j` moves -/
def movedF (A : FloatOps K) (s : Cx K) (j : ℕ) (z : Cx K) : Cx K := (fun z => A.cx (z + s))^[j] z

theorem genFuncLoopF_spec (A : FloatOps K) (f : Cx K → Cx K) (s : Cx K) (n : ℕ) (base : List (Cx K)) (w : World σ K)
    (hw : w.fuse = none) :
    (∃ r w', genFuncLoopF A f s n base w = (.ok r, w')) ∨
    ((∀ j < n, ∃ z ∈ base, f (movedF A s j z) = 0) ∧ (genFuncLoopF A f s n base w).1 = .error .outOfFuel) := by
  induction n generalizing base w with
  | zero => right; exact ⟨fun j hj => absurd hj (by omega), rfl⟩
  | succ n ih =>
    simp only [genFuncLoopF]
    by_cases he : (base.filter fun z => decide (f z = 0)).isEmpty = true
    · rw [if_pos he]
      exact .inl ⟨_, _, rfl⟩
    · rw [if_neg he, Py.bind_run, World.addRoots_none _ hw]
      dsimp only
      rcases ih (base.map fun z => A.cx (z + s))
        { w with added := w.added ++ (base.filter fun z => decide (f z = 0)).map fun z => (z, (0:ℤ)) } hw with h | ⟨h1, h2⟩
      · exact .inl h
      · refine .inr ⟨?_, h2⟩
        intro j hj
        rcases j with _ | j
        · rw [List.isEmpty_iff, List.filter_eq_nil_iff] at he
          push Not at he
          obtain ⟨z, hz, hfz⟩ := he
          exact ⟨z, hz, of_decide_eq_true hfz⟩
        · obtain ⟨z, hz, hfz⟩ := h1 j (by omega)
          obtain ⟨y, hy, rfl⟩ := List.mem_map.1 hz
          exact ⟨y, hy, hfz⟩

/-- pigeonhole: if each point is moved to different places, finitely many zeros are passed -/
theorem genFuncLoopF_ends {A : FloatOps K} {f : Cx K → Cx K} {s : Cx K} {n : ℕ} {base : List (Cx K)} {w : World σ K}
    (hw : w.fuse = none) (Z : List (Cx K)) (hZ : ∀ z, f z = 0 → z ∈ Z) (hn : Z.length * base.length < n)
    (hinj : ∀ z ∈ base, ∀ i j, i < j → j ≤ Z.length * base.length → movedF A s i z ≠ movedF A s j z) :
    ∃ r w', genFuncLoopF A f s n base w = (.ok r, w') := by
  rcases genFuncLoopF_spec A f s n base w hw with h | ⟨h, _⟩
  · exact h
  · exfalso
    have hex : ∀ j ∈ Finset.range (Z.length * base.length + 1),
        ∃ p : Cx K × ℕ, p ∈ (Z.toFinset ×ˢ Finset.range base.length) ∧
          movedF A s j (base.getD p.2 0) = p.1 := by
      intro j hj
      rw [Finset.mem_range] at hj
      obtain ⟨z, hz, h0⟩ := h j (by omega)
      obtain ⟨i, hi, rfl⟩ := List.getElem_of_mem hz
      refine ⟨(movedF A s j base[i], i), ?_, by simp [hi]⟩
      rw [Finset.mem_product, List.mem_toFinset, Finset.mem_range]
      exact ⟨hZ _ h0, hi⟩
    choose! g hg1 hg2 using hex
    have hcard : (Z.toFinset ×ˢ Finset.range base.length).card < (Finset.range (Z.length * base.length + 1)).card := by
      rw [Finset.card_product, Finset.card_range, Finset.card_range]
      have := Nat.mul_le_mul_right base.length (List.toFinset_card_le Z)
      omega
    obtain ⟨i, hi, j, hj, hij, hgij⟩ := Finset.exists_ne_map_eq_of_card_lt_of_maps_to hcard hg1
    have a2 := hg2 i hi
    have b2 := hg2 j hj
    have hm := hg1 i hi
    rw [Finset.mem_product, Finset.mem_range] at hm
    rw [Finset.mem_range] at hi hj
    rw [← hgij] at b2
    have e := a2.trans b2.symm
    have hmem : base.getD (g i).2 0 ∈ base := by
      rw [List.getD_eq_getElem _ _ hm.2]
      exact List.getElem_mem _
    rcases Nat.lt_or_gt_of_ne hij with h | h
    · exact hinj _ hmem i j h (by omega) e
    · exact hinj _ hmem j i h (by omega) e.symm

/-- moving away from where one was -/
theorem step_up {fl : K → K} {u : K} (near : ∀ x, |fl x - x| ≤ u * |x|) (hu0 : 0 ≤ u) (hu : u ≤ 1 / 16) {s R x : K}
    (hs : 0 < s) (hR : 4 * u * R ≤ s) (hx : |x| ≤ R) :
    x < fl (x + s) ∧ |fl (x + s)| ≤ |x| + 2 * s := by
  have h := near (x + s)
  have h1 : u * |x + s| ≤ 5 / 16 * s := by
    have h2 : |x + s| ≤ R + s := le_trans (abs_add_le _ _) (by rw [abs_of_pos hs]; linarith)
    have h3 : u * |x + s| ≤ u * (R + s) := mul_le_mul_of_nonneg_left h2 hu0
    have h4 : u * s ≤ 1 / 16 * s := mul_le_mul_of_nonneg_right hu hs.le
    linarith
  have h5 := abs_add_le (fl (x + s) - (x + s)) (x + s)
  rw [sub_add_cancel] at h5
  have h6 : |x + s| ≤ |x| + s := le_trans (abs_add_le _ _) (by rw [abs_of_pos hs])
  refine ⟨?_, by linarith⟩
  rw [abs_le] at h
  linarith [h.1]

theorem movedF_lt {A : FloatOps K} {u : K} (hA : Rounds A.fl u) (proj : Cx K → K) {s : Cx K} {R : K}
    (hproj : ∀ z, proj (A.cx (z + s)) = A.fl (proj z + proj s)) (hs : 0 < proj s) (hR : 4 * u * R ≤ proj s) (m : ℕ) (z : Cx K)
    (hz : |proj z| + 2 * m * proj s ≤ R) :
    ∀ j ≤ m, |proj (movedF A s j z)| ≤ |proj z| + 2 * j * proj s ∧
      ∀ i < j, proj (movedF A s i z) < proj (movedF A s j z) := by
  intro j
  induction j with
  | zero => intro _; exact ⟨by simp [movedF], fun i hi => absurd hi (by omega)⟩
  | succ j ih =>
    intro hj
    obtain ⟨h1, h2⟩ := ih (by omega)
    have hjm : (j : K) ≤ m := by exact_mod_cast (by omega : j ≤ m)
    have hb : |proj (movedF A s j z)| ≤ R := by nlinarith
    obtain ⟨s1, s2⟩ := step_up hA.near hA.u_nonneg hA.u_small hs hR hb
    have e : proj (movedF A s (j + 1) z) = A.fl (proj (movedF A s j z) + proj s) := by
      unfold movedF
      rw [Function.iterate_succ_apply']
      exact hproj _
    rw [e]
    refine ⟨by push_cast; linarith, ?_⟩
    intro i hi
    rcases Nat.lt_or_eq_of_le (Nat.lt_succ_iff.1 hi) with h | rfl
    · exact lt_trans (h2 i h) s1
    · exact s1


/-- a zero that does not move -/
theorem genFuncLoopF_stuck {A : FloatOps K} {f : Cx K → Cx K} {s z : Cx K} (hz : f z = 0) (hs : A.cx (z + s) = z) (n : ℕ) :
    ∀ (base : List (Cx K)) (w : World σ K), z ∈ base → ∀ r, (genFuncLoopF A f s n base w).1 ≠ .ok r := by
  induction n with
  | zero => intro base w _ r h; simp [genFuncLoopF] at h
  | succ n ih =>
    intro base w hb r h
    simp only [genFuncLoopF] at h
    have he : ¬ (base.filter fun z => decide (f z = 0)).isEmpty = true := by
      rw [List.isEmpty_iff, List.filter_eq_nil_iff]
      push Not
      exact ⟨z, hb, decide_eq_true hz⟩
    rw [if_neg he, Py.bind_run] at h
    rcases ha : World.addRoots ((base.filter fun z => decide (f z = 0)).map fun z => (z, (0:ℤ))) w with ⟨_ | _, w1⟩
    · rw [ha] at h; simp at h
    · rw [ha] at h
      exact ih _ w1 (List.mem_map.2 ⟨z, hb, hs⟩) r h

end PyZeal

namespace PyZeal.Props
open Spec
variable {K : Type} [Field K] [LinearOrder K] [IsStrictOrderedRing K] [FloorRing K] {σ : Type}

/-- C107, horizontal lines: sampling ends after at most `|Z| * size + 1` evaluations if the distance of the line from the
real axis is small compared with the offset `2 * 10**(-p)` divided by the unit roundoff -/
theorem C107_horizontal_partial (A : FloatOps K) (u : K) (hA : Rounds A.fl u) (S : SumOps K) (a b : Cx K) (hab : a.im = b.im)
    (ctx : RCtx K) (size : ℕ) (w : World σ K) (hw : w.fuse = none)
    (Z : List (Cx K)) (hZ : ∀ z, ctx.f z = 0 → z ∈ Z) (hlen : (S.lin a b size).length = size)
    (hfuel : Z.length * size + 1 ≤ S.evals size) (s R : K) (hs : s = A.fl (2 * A.pow10 ctx.precision.2)) (hs0 : 0 < s)
    (hR : 4 * u * R ≤ s) (hz : ∀ z ∈ S.lin a b size, |z.im| + 2 * (Z.length * size : ℕ) * s ≤ R) :
    ∃ r w', genFuncArrF A S a b ctx size w = (.ok r, w') := by
  unfold genFuncArrF lineShiftF
  rw [if_pos hab, ← hs]
  refine genFuncLoopF_ends hw Z hZ (by rw [hlen]; omega) ?_
  rw [hlen]
  intro z hzm i j hij hj e
  have := (movedF_lt hA Cx.im (s := ⟨0, s⟩) (R := R) (fun z => rfl) hs0 hR (Z.length * size) z (hz z hzm) j hj).2 i hij
  rw [e] at this
  exact lt_irrefl _ this

/-- C107, vertical lines -/
theorem C107_vertical_partial (A : FloatOps K) (u : K) (hA : Rounds A.fl u) (S : SumOps K) (a b : Cx K) (hab : a.im ≠ b.im)
    (ctx : RCtx K) (size : ℕ) (w : World σ K) (hw : w.fuse = none)
    (Z : List (Cx K)) (hZ : ∀ z, ctx.f z = 0 → z ∈ Z) (hlen : (S.lin a b size).length = size)
    (hfuel : Z.length * size + 1 ≤ S.evals size) (s R : K) (hs : s = A.fl (2 * A.pow10 ctx.precision.1)) (hs0 : 0 < s)
    (hR : 4 * u * R ≤ s) (hz : ∀ z ∈ S.lin a b size, |z.re| + 2 * (Z.length * size : ℕ) * s ≤ R) :
    ∃ r w', genFuncArrF A S a b ctx size w = (.ok r, w') := by
  unfold genFuncArrF lineShiftF
  rw [if_neg hab, ← hs]
  refine genFuncLoopF_ends hw Z hZ (by rw [hlen]; omega) ?_
  rw [hlen]
  intro z hzm i j hij hj e
  have := (movedF_lt hA Cx.re (s := ⟨s, 0⟩) (R := R) (fun z => rfl) hs0 hR (Z.length * size) z (hz z hzm) j hj).2 i hij
  rw [e] at this
  exact lt_irrefl _ this

/-- C107 is false in general: if a sample point is a zero and the offset added to it is lost in rounding, sampling never
ends, whatever the number of evaluations -/
theorem C107_stuck (A : FloatOps K) (S : SumOps K) (a b : Cx K) (ctx : RCtx K) (size : ℕ) (w : World σ K)
    (z : Cx K) (hz : z ∈ S.lin a b size) (h0 : ctx.f z = 0)
    (habs : (a.im = b.im → A.fl z.re = z.re ∧ A.fl (z.im + A.fl (2 * A.pow10 ctx.precision.2)) = z.im) ∧
      (a.im ≠ b.im → A.fl (z.re + A.fl (2 * A.pow10 ctx.precision.1)) = z.re ∧ A.fl z.im = z.im)) :
    ∀ r, (genFuncArrF A S a b ctx size w).1 ≠ .ok r := by
  unfold genFuncArrF
  refine genFuncLoopF_stuck h0 ?_ _ _ w hz
  unfold lineShiftF
  split
  · rename_i h
    obtain ⟨h1, h2⟩ := habs.1 h
    simp only [FloatOps.cx, Cx.add_re, Cx.add_im, add_zero]
    exact Cx.ext h1 h2
  · rename_i h
    obtain ⟨h1, h2⟩ := habs.2 h
    simp only [FloatOps.cx, Cx.add_re, Cx.add_im, add_zero]
    exact Cx.ext h1 h2

theorem roundHalfEven_add_small (m : ℤ) {d : K} (hd : |d| < 1 / 2) : roundHalfEven ((m : K) + d) = m := by
  have := (roundHalfEven_spec ((m : K) + d)).1
  rw [abs_lt] at hd
  rw [abs_le] at this
  have l1 : ((roundHalfEven ((m : K) + d) : ℤ) : K) < ((m + 1 : ℤ) : K) := by push_cast; linarith [this.1, this.2, hd.1, hd.2]
  have l2 : ((m - 1 : ℤ) : K) < ((roundHalfEven ((m : K) + d) : ℤ) : K) := by push_cast; linarith [this.1, this.2, hd.1, hd.2]
  have l1 := Int.cast_lt.1 l1
  have l2 := Int.cast_lt.1 l2
  omega

theorem flBin_of_near {y : K} (hy : y ≠ 0) {k m : ℤ} {d : K} (he : expo 53 y = k) (hd : |d| < 1 / 2)
    (h : y = (m + d) * 2 ^ k) : flBin 53 y = m * 2 ^ k := by
  have p := two_zpow_pos (K := K) k
  rw [flBin_eq 53 hy, he, h, mul_div_cancel_right₀ _ p.ne', roundHalfEven_add_small m hd]

/-- adding something tiny to a float does nothing -/
theorem flBin_absorb {x s : K} (hx : flBin 53 x = x) (hs0 : 0 ≤ s) (hs : 2 ^ 56 * s ≤ |x|) : flBin 53 (x + s) = x := by
  by_cases hx0 : x = 0
  · subst hx0
    have : s = 0 := le_antisymm (by simp at hs; linarith) hs0
    rw [this, add_zero, hx]
  rcases hs0.eq_or_lt with rfl | hspos
  · rw [add_zero, hx]
  have p := two_zpow_pos (K := K) (expo 53 x)
  have l1 := expo_le 53 hx0
  have l2 := lt_expo 53 x
  have hform := flBin_eq 53 hx0
  rw [hx] at hform
  generalize hk : expo 53 x = k at *
  generalize roundHalfEven (x / (2 : K) ^ k) = m at hform
  have c1 : (2 : K) ^ ((53 : ℕ) - 1 : ℤ) = 2 ^ 52 := by norm_num
  have c2 : (2 : K) ^ ((53 : ℕ) : ℤ) = 2 ^ 53 := by norm_num
  rw [c1] at l1
  rw [c2] at l2
  have hsU : s < 1 / 8 * 2 ^ k := by
    generalize (2:K) ^ k = U at *
    linarith
  have hd : |s / 2 ^ k| < 1 / 8 := by
    rw [abs_of_pos (div_pos hspos p), div_lt_iff₀ p]; linarith
  have hne : x + s ≠ 0 := by
    intro h
    have : s = -x := by linear_combination h
    have : |x| = s := by rw [this, abs_of_nonpos (by linarith)]
    rw [this] at l1
    generalize (2:K) ^ k = U at *
    linarith
  have hy : x + s = (m + s / 2 ^ k) * 2 ^ k := by
    rw [add_mul, div_mul_cancel₀ _ p.ne', ← hform]
  have main : expo 53 (x + s) = k → flBin 53 (x + s) = x := by
    intro he
    rw [flBin_of_near hne he (lt_trans hd (by norm_num)) hy, ← hform]
  rcases lt_or_gt_of_ne hx0 with hneg | hpos
  · by_cases hm : m = -2 ^ 52
    · -- a power of two, approached from below in absolute value
      have hk1 : (2 : K) ^ k = 2 * 2 ^ (k - 1) := by
        rw [mul_comm, ← zpow_add_one₀ (by norm_num)]; congr 1; ring
      have p' := two_zpow_pos (K := K) (k - 1)
      have hxe : x = -2 ^ 53 * 2 ^ (k - 1) := by
        rw [hform, hm, hk1]; push_cast; ring
      have hys : x + s < 0 := by
        rw [hxe]; rw [hk1] at hsU
        generalize (2:K) ^ (k - 1) = V at *
        linarith
      have he : expo 53 (x + s) = k - 1 := by
        refine expo_unique 53 hne ?_ ?_
        · rw [c1, abs_of_neg hys, hxe]; rw [hk1] at hsU
          generalize (2:K) ^ (k - 1) = V at *
          linarith
        · rw [c2, abs_of_neg hys, hxe]
          generalize (2:K) ^ (k - 1) = V at *
          linarith
      have hd' : |s / 2 ^ (k - 1)| < 1 / 2 := by
        rw [abs_of_pos (div_pos hspos p'), div_lt_iff₀ p']; rw [hk1] at hsU; linarith
      have hy' : x + s = (((-2 ^ 53 : ℤ) : K) + s / 2 ^ (k - 1)) * 2 ^ (k - 1) := by
        rw [add_mul, div_mul_cancel₀ _ p'.ne', hxe]; push_cast; ring
      rw [flBin_of_near hne he hd' hy', hxe]
      push_cast; ring
    · apply main
      have hmneg : m ≤ -2 ^ 52 - 1 := by
        have : (m : K) * 2 ^ k ≤ -2 ^ 52 * 2 ^ k := by
          rw [← hform]; rw [abs_of_neg hneg] at l1
          generalize (2:K) ^ k = U at *
          linarith
        have : (m : K) ≤ ((-2 ^ 52 : ℤ) : K) := by have := le_of_mul_le_mul_right this p; push_cast; linarith
        have : m ≤ -2 ^ 52 := by exact_mod_cast this
        omega
      have hmK : (m : K) ≤ -2 ^ 52 - 1 := by exact_mod_cast hmneg
      have hxm : x ≤ (-2 ^ 52 - 1) * 2 ^ k := by
        rw [hform]; exact mul_le_mul_of_nonneg_right hmK p.le
      rw [abs_of_neg hneg] at l2
      generalize hU : (2:K) ^ k = U at *
      have hys : x + s < 0 := by linarith
      refine expo_unique 53 hne ?_ ?_
      · rw [c1, abs_of_neg hys, hU]; linarith
      · rw [c2, abs_of_neg hys, hU]; linarith
  · apply main
    have hmpos : m ≤ 2 ^ 53 - 1 := by
      have : (m : K) * 2 ^ k < 2 ^ 53 * 2 ^ k := by
        rw [← hform]; rwa [abs_of_pos hpos] at l2
      have : (m : K) < ((2 ^ 53 : ℤ) : K) := by have := lt_of_mul_lt_mul_right this p.le; push_cast; linarith
      have : m < 2 ^ 53 := by exact_mod_cast this
      omega
    have hmK : (m : K) ≤ 2 ^ 53 - 1 := by exact_mod_cast hmpos
    have hxm : x ≤ (2 ^ 53 - 1) * 2 ^ k := by
      rw [hform]; exact mul_le_mul_of_nonneg_right hmK p.le
    rw [abs_of_pos hpos] at l1
    generalize hU : (2:K) ^ k = U at *
    have hys : 0 < x + s := by linarith
    refine expo_unique 53 hne ?_ ?_
    · rw [c1, abs_of_pos hys, hU]; linarith
    · rw [c2, abs_of_pos hys, hU]; linarith

/-- C107 in Python's floats: sampling a vertical line through a zero never ends if the zero is a sample point and its real part
is at least `2^56` times the computed offset `2 * 10**(-p)` in absolute value (for instance above 1.5e12 with `p = 5`) -/
theorem C107_stuck_double (S : SumOps K) (a b : Cx K) (hab : a.im ≠ b.im) (ctx : RCtx K) (size : ℕ) (w : World σ K)
    (z : Cx K) (hz : z ∈ S.lin a b size) (h0 : ctx.f z = 0) (hm : Machine (double K).fl z.re ∧ Machine (double K).fl z.im)
    (hfar : 2 ^ 56 * (double K).fl (2 * (double K).pow10 ctx.precision.1) ≤ |z.re|) :
    ∀ r, (genFuncArrF (double K) S a b ctx size w).1 ≠ .ok r := by
  refine C107_stuck (double K) S a b ctx size w z hz h0 ⟨fun h => absurd h hab, fun _ => ⟨?_, hm.2⟩⟩
  refine flBin_absorb hm.1 ?_ hfar
  rw [double_rounds.double]
  have := (double_pow (K := K) ctx.precision.1)
  unfold Machine at this
  rw [this.1]
  linarith [this.2]

/-- C107 in Python's floats, for horizontal lines not too far from the axis: `|Im z| ≤ 2^49 * 10**(-p)` -/
theorem C107_horizontal_double_partial (S : SumOps K) (hS : S.lin = linspaceF (double K)) (a b : Cx K) (hab : a.im = b.im)
    (hm : Machine (double K).fl a.im) (ctx : RCtx K) (size : ℕ) (w : World σ K) (hw : w.fuse = none)
    (Z : List (Cx K)) (hZ : ∀ z, ctx.f z = 0 → z ∈ Z) (hsmall : Z.length * size ≤ 2 ^ 48)
    (hfuel : Z.length * size + 1 ≤ S.evals size) (hnear : |a.im| ≤ 2 ^ 49 * (double K).pow10 ctx.precision.2) :
    ∃ r w', genFuncArrF (double K) S a b ctx size w = (.ok r, w') := by
  have hp := double_pow (K := K) ctx.precision.2
  have he : (double K).fl (2 * (double K).pow10 ctx.precision.2) = 2 * (double K).pow10 ctx.precision.2 := by
    have := hp.1
    unfold Machine at this
    rw [double_rounds.double, this]
  have hm' : ((Z.length * size : ℕ) : K) ≤ 2 ^ 48 := by exact_mod_cast hsmall
  refine C107_horizontal_partial (double K) _ double_rounds S a b hab ctx size w hw Z hZ
    (by rw [hS]; exact linspaceF_length _ _ _ _) hfuel _ (3 * 2 ^ 49 * (double K).pow10 ctx.precision.2) rfl
    (by rw [he]; linarith [hp.2]) ?_ ?_
  · rw [he]
    have := hp.2
    generalize (double K).pow10 ctx.precision.2 = e at *
    norm_num
    linarith
  · intro z hz
    rw [hS] at hz
    rw [linspaceF_im double_rounds hm rfl hab.symm size z hz, he]
    have h2 := hp.2
    generalize (double K).pow10 ctx.precision.2 = e at *
    have : 2 * ((Z.length * size : ℕ) : K) * (2 * e) ≤ 2 * 2 ^ 48 * (2 * e) :=
      mul_le_mul_of_nonneg_right (by linarith) (by linarith)
    linarith

/-- C107 in Python's floats, for vertical lines not too far from the axis: `|Re z| ≤ 2^49 * 10**(-p)` -/
theorem C107_vertical_double_partial (S : SumOps K) (hS : S.lin = linspaceF (double K)) (a b : Cx K) (hre : a.re = b.re) (hab : a.im ≠ b.im)
    (hm : Machine (double K).fl a.re) (ctx : RCtx K) (size : ℕ) (w : World σ K) (hw : w.fuse = none)
    (Z : List (Cx K)) (hZ : ∀ z, ctx.f z = 0 → z ∈ Z) (hsmall : Z.length * size ≤ 2 ^ 48)
    (hfuel : Z.length * size + 1 ≤ S.evals size) (hnear : |a.re| ≤ 2 ^ 49 * (double K).pow10 ctx.precision.1) :
    ∃ r w', genFuncArrF (double K) S a b ctx size w = (.ok r, w') := by
  have hp := double_pow (K := K) ctx.precision.1
  have he : (double K).fl (2 * (double K).pow10 ctx.precision.1) = 2 * (double K).pow10 ctx.precision.1 := by
    have := hp.1
    unfold Machine at this
    rw [double_rounds.double, this]
  have hm' : ((Z.length * size : ℕ) : K) ≤ 2 ^ 48 := by exact_mod_cast hsmall
  refine C107_vertical_partial (double K) _ double_rounds S a b hab ctx size w hw Z hZ
    (by rw [hS]; exact linspaceF_length _ _ _ _) hfuel _ (3 * 2 ^ 49 * (double K).pow10 ctx.precision.1) rfl
    (by rw [he]; linarith [hp.2]) ?_ ?_
  · rw [he]
    have := hp.2
    generalize (double K).pow10 ctx.precision.1 = e at *
    norm_num
    linarith
  · intro z hz
    rw [hS] at hz
    rw [linspaceF_re double_rounds hm rfl hre.symm size z hz, he]
    have h2 := hp.2
    generalize (double K).pow10 ctx.precision.1 = e at *
    have : 2 * ((Z.length * size : ℕ) : K) * (2 * e) ≤ 2 * 2 ^ 48 * (2 * e) :=
      mul_le_mul_of_nonneg_right (by linarith) (by linarith)
    linarith

/-- the operations used in the examples: sample points as in numpy, three points per line -/
def farOps : SumOps ℚ :=
  ⟨3, 1 / 100, 1 / 10 ^ 10, linspaceF (double ℚ), fun _ _ => 0, fun _ _ => 1, fun _ _ => 2, List.sum, fun n => n + 1, 1⟩

/-- a concrete line on which sampling never ends: the vertical line through `2^60` from `-i` to `i`, with precision 5 and the
function `z - 2^60`; whatever the bound for the number of evaluations -/
theorem C107_counterexample (evals : ℕ → ℕ) (w : World Unit ℚ) :
    ∀ r, (genFuncArrF (double ℚ) { farOps with evals := evals } ⟨2 ^ 60, -1⟩ ⟨2 ^ 60, 1⟩
      ⟨fun z => z - ⟨2 ^ 60, 0⟩, none, (5, 5), (0, 2 ^ 60), (-1, 1), false⟩ 3 w).1 ≠ .ok r := by
  refine C107_stuck_double _ _ _ (by norm_num) _ 3 w ⟨2 ^ 60, 0⟩ ?_ (by decide +kernel)
    ⟨?_, ?_⟩ (by decide +kernel)
  · show (⟨2 ^ 60, 0⟩ : Cx ℚ) ∈ linspaceF (double ℚ) ⟨2 ^ 60, -1⟩ ⟨2 ^ 60, 1⟩ 3
    decide +kernel
  · show (double ℚ).fl (2 ^ 60) = 2 ^ 60
    decide +kernel
  · show (double ℚ).fl 0 = 0
    decide +kernel

/-- non-vacuity of the partial theorems: `z - 1/2` on the line from 0 to 1 hits its zero, moves once, and returns -/
example : (genFuncArrF (double ℚ) farOps ⟨0, 0⟩ ⟨1, 0⟩ ⟨fun z => z - ⟨1/2, 0⟩, none, (1, 1), (0, 1), (0, 1), false⟩ 3
      (⟨EstCache.init false, (), [], [], none, []⟩ : World Unit ℚ)).2.added = [(⟨1/2, 0⟩, 0)] := by
  decide +kernel
example : ∃ r w', genFuncArrF (double ℚ) farOps ⟨0, 0⟩ ⟨1, 0⟩ ⟨fun z => z - ⟨1/2, 0⟩, none, (1, 1), (0, 1), (0, 1), false⟩ 3
      (⟨EstCache.init false, (), [], [], none, []⟩ : World Unit ℚ) = (.ok r, w') :=
  C107_horizontal_double_partial farOps rfl ⟨0, 0⟩ ⟨1, 0⟩ rfl (show (double ℚ).fl 0 = 0 by decide +kernel)
    ⟨fun z => z - ⟨1/2, 0⟩, none, (1, 1), (0, 1), (0, 1), false⟩ 3 _ rfl [⟨1 / 2, 0⟩]
    (fun z hz => by simp only [List.mem_singleton]; exact sub_eq_zero.1 hz) (by norm_num) (by decide) (by
      have := (double_pow (K := ℚ) 1).2
      simp only [abs_zero]
      positivity)

end PyZeal.Props
