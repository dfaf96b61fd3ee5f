import Verif.Proof.FloatSum
import Verif.Proof.FloatBin
import Mathlib.Analysis.SpecialFunctions.Complex.LogBounds
import Mathlib.Analysis.Real.Pi.Bounds


/-! # The phase computed around a rectangle in floating-point arithmetic -/

set_option linter.unusedSectionVars false
set_option linter.unusedSimpArgs false

namespace PyZeal
open Spec
open Real

/-- deciding and counting from a computed phase close to whole turns -/
theorem turns_decide_wide {A : FloatOps ℝ} {u : ℝ} (hA : Rounds A.fl u) {pi phi M : ℝ} (hpi : |pi - π| ≤ u * π) {n : ℤ}
    (hu : u ≤ 1 / 1000) (hM : |phi| ≤ 5 * M) (huM : 11 * u * M ≤ 1 / 4) (h : |phi - 2 * π * n| ≤ 9 / 10) :
    (A.fl (A.fl (8 / 10) * A.fl (2 * pi)) ≤ phi ↔ 1 ≤ n) ∧ roundHalfEven (A.fl (phi / A.fl (2 * pi))) = n := by
  have hu0 := hA.u_nonneg
  have p1 := Real.pi_gt_d2
  have p2 := Real.pi_lt_d2
  -- the constants
  have up : u * π ≤ 1 / 1000 * 3.15 := by
    calc u * π ≤ 1 / 1000 * π := mul_le_mul_of_nonneg_right hu (by linarith)
      _ ≤ _ := by linarith
  have q1 : 0 < pi := by rw [abs_le] at hpi; linarith [hpi.1]
  have n2 := hA.near (2 * pi)
  rw [abs_of_pos (show (0:ℝ) < 2 * pi by linarith)] at n2
  have c2 : |A.fl (2 * pi) - 2 * π| ≤ 5 * (u * π) := by
    have : u * (2 * pi) ≤ 3 * (u * π) := by
      have : pi ≤ 3 / 2 * π := by rw [abs_le] at hpi; linarith [hpi.2]
      nlinarith
    rw [abs_le] at hpi n2 ⊢
    constructor <;> linarith [hpi.1, hpi.2, n2.1, n2.2]
  have n8 := hA.near (8 / 10)
  rw [abs_of_pos (show (0:ℝ) < 8 / 10 by norm_num)] at n8
  generalize A.fl (2 * pi) = T at *
  generalize A.fl (8 / 10) = e at *
  have T1 : 6.2 ≤ T := by rw [abs_le] at c2; linarith [c2.1]
  have T2 : T ≤ 6.4 := by rw [abs_le] at c2; linarith [c2.2]
  have e1 : 0.79 ≤ e := by rw [abs_le] at n8; linarith [n8.1]
  have e2 : e ≤ 0.81 := by rw [abs_le] at n8; linarith [n8.2]
  have nP := hA.near (e * T)
  have P1 : 4.8 ≤ e * T := by nlinarith
  have P2 : e * T ≤ 5.2 := by nlinarith
  rw [abs_of_pos (show 0 < e * T by linarith)] at nP
  have P3 : u * (e * T) ≤ 1 / 1000 * 5.2 := mul_le_mul hu P2 (by linarith) (by norm_num)
  generalize A.fl (e * T) = P at *
  have Q1 : 4.7 ≤ P := by rw [abs_le] at nP; linarith [nP.1]
  have Q2 : P ≤ 5.3 := by rw [abs_le] at nP; linarith [nP.2]
  rw [abs_le] at h
  constructor
  · constructor
    · intro hP
      by_contra hn
      have : (n : ℝ) ≤ 0 := by exact_mod_cast (by omega : n ≤ 0)
      nlinarith [h.1, h.2]
    · intro hn
      have : (1 : ℝ) ≤ n := by exact_mod_cast hn
      nlinarith [h.1, h.2]
  · -- the quotient
    have hTpos : 0 < T := by linarith
    have nq := hA.near (phi / T)
    have hphiu : u * |phi| ≤ 5 / 44 := by
      calc u * |phi| ≤ u * (5 * M) := mul_le_mul_of_nonneg_left hM hu0
        _ ≤ _ := by linarith
    have a1 : u * |phi / T| ≤ 5 / 44 / 6.2 := by
      rw [abs_div, abs_of_pos hTpos, ← mul_div_assoc]
      exact div_le_div₀ (by norm_num) hphiu (by norm_num) T1
    -- |phi/T - n| ≤ ...
    have a2 : |phi / T - n| ≤ 0.2 := by
      have hn : |(n:ℝ)| * (2 * π) ≤ |phi| + 9 / 10 := by
        have : (n:ℝ) * (2 * π) = phi - (phi - 2 * π * n) := by ring
        calc |(n:ℝ)| * (2 * π) = |(n:ℝ) * (2 * π)| := by rw [abs_mul, abs_of_pos (show (0:ℝ) < 2 * π by linarith)]
          _ = |phi - (phi - 2 * π * n)| := by rw [this]
          _ ≤ |phi| + |phi - 2 * π * n| := abs_sub _ _
          _ ≤ _ := by have := abs_le.2 h; linarith
      have hnT : |(n:ℝ) * (T - 2 * π)| ≤ 5 / 2 * (u * |phi| + u * (9 / 10)) := by
        rw [abs_mul]
        calc |(n:ℝ)| * |T - 2 * π| ≤ |(n:ℝ)| * (5 * (u * π)) := mul_le_mul_of_nonneg_left c2 (abs_nonneg _)
          _ = 5 / 2 * u * (|(n:ℝ)| * (2 * π)) := by ring
          _ ≤ 5 / 2 * u * (|phi| + 9 / 10) := mul_le_mul_of_nonneg_left hn (by linarith)
          _ = _ := by ring
      have e : phi / T - n = ((phi - 2 * π * n) - n * (T - 2 * π)) / T := by field_simp; ring
      rw [e, abs_div, abs_of_pos hTpos, div_le_iff₀ hTpos]
      calc |phi - 2 * π * n - n * (T - 2 * π)| ≤ |phi - 2 * π * n| + |n * (T - 2 * π)| := abs_sub _ _
        _ ≤ 9 / 10 + 5 / 2 * (5 / 44 + 1 / 1000 * (9 / 10)) := by
            have := abs_le.2 h
            linarith
        _ ≤ 0.2 * T := by linarith
    have a3 : |A.fl (phi / T) - n| < 1 / 2 := by
      rw [abs_le] at a2 nq
      rw [abs_lt]
      constructor <;> linarith [a2.1, a2.2, nq.1, nq.2]
    rw [abs_lt] at a3
    generalize A.fl (phi / T) = t at *
    have b1 : roundHalfEven t = n := by
      have := (roundHalfEven_spec t).1
      rw [abs_le] at this
      have l1 : ((roundHalfEven t : ℤ) : ℝ) < ((n + 1 : ℤ) : ℝ) := by push_cast; linarith [this.1, this.2]
      have l2 : ((n - 1 : ℤ) : ℝ) < ((roundHalfEven t : ℤ) : ℝ) := by push_cast; linarith [this.1, this.2]
      have l1 := Int.cast_lt.1 l1
      have l2 := Int.cast_lt.1 l2
      omega
    exact b1

theorem turns_decide {A : FloatOps ℝ} {u : ℝ} (hA : Rounds A.fl u) {pi phi M : ℝ} (hpi : |pi - π| ≤ u * π) {n : ℤ}
    (hu : u ≤ 1 / 1000) (hM : |phi| ≤ 5 * M) (huM : 11 * u * M ≤ 1 / 4) (h : |phi - 2 * π * n| ≤ 1 / 4) :
    (A.fl (A.fl (8 / 10) * A.fl (2 * pi)) ≤ phi ↔ 1 ≤ n) ∧ roundHalfEven (A.fl (phi / A.fl (2 * pi))) = n :=
  turns_decide_wide hA hpi hu hM huM (h.trans (by norm_num))

/-- adding up in any order -/
theorem sumTree_near {A : FloatOps ℝ} {u : ℝ} (hA : Rounds A.fl u) (xs : List ℝ) (t : SumTree) :
    |t.eval A xs - (t.leaves.map fun i => xs.getD i 0).sum| ≤
      ((1 + u) ^ t.depth - 1) * (t.leaves.map fun i => |xs.getD i 0|).sum := by
  have hu0 := hA.u_nonneg
  have h1 : (1:ℝ) ≤ 1 + u := by linarith
  induction t with
  | leaf i => simp [SumTree.eval, SumTree.leaves, SumTree.depth]
  | node l r ihl ihr =>
    simp only [SumTree.eval, SumTree.leaves, SumTree.depth, List.map_append, List.sum_append]
    have hn := hA.near (l.eval A xs + r.eval A xs)
    generalize l.eval A xs = a at *
    generalize r.eval A xs = b at *
    have la := abs_list_sum_le (l.leaves.map fun i => xs.getD i 0)
    have lb := abs_list_sum_le (r.leaves.map fun i => xs.getD i 0)
    rw [List.map_map] at la lb
    change _ ≤ (l.leaves.map fun i => |xs.getD i 0|).sum at la
    change _ ≤ (r.leaves.map fun i => |xs.getD i 0|).sum at lb
    generalize (l.leaves.map fun i => xs.getD i 0).sum = sa at *
    generalize (r.leaves.map fun i => xs.getD i 0).sum = sb at *
    generalize (l.leaves.map fun i => |xs.getD i 0|).sum = Sa at *
    generalize (r.leaves.map fun i => |xs.getD i 0|).sum = Sb at *
    have hSa : 0 ≤ Sa := le_trans (abs_nonneg _) la
    have hSb : 0 ≤ Sb := le_trans (abs_nonneg _) lb
    have ml : (1 + u) ^ l.depth ≤ (1 + u) ^ max l.depth r.depth := pow_le_pow_right₀ h1 (le_max_left _ _)
    have mr : (1 + u) ^ r.depth ≤ (1 + u) ^ max l.depth r.depth := pow_le_pow_right₀ h1 (le_max_right _ _)
    have m1 : (1:ℝ) ≤ (1 + u) ^ max l.depth r.depth := one_le_pow₀ h1
    rw [pow_succ]
    generalize (1 + u) ^ max l.depth r.depth = g at *
    have ha : |a - sa| ≤ (g - 1) * Sa := le_trans ihl (mul_le_mul_of_nonneg_right (by linarith) hSa)
    have hb : |b - sb| ≤ (g - 1) * Sb := le_trans ihr (mul_le_mul_of_nonneg_right (by linarith) hSb)
    have hab : |a + b| ≤ g * (Sa + Sb) := by
      rw [abs_le] at ha hb la lb ⊢
      constructor <;> nlinarith [ha.1, ha.2, hb.1, hb.2, la.1, la.2, lb.1, lb.2]
    have hub : u * |a + b| ≤ u * (g * (Sa + Sb)) := mul_le_mul_of_nonneg_left hab hu0
    rw [abs_le] at ha hb hn ⊢
    constructor <;> nlinarith [ha.1, ha.2, hb.1, hb.2, hn.1, hn.2]

theorem map_getD_range (xs : List ℝ) : (List.range xs.length).map (fun i => xs.getD i 0) = xs := by
  apply List.ext_getElem
  · simp
  · intro i h1 h2
    simp [h2]

/-- adding up all entries of an array in any order -/
theorem sumTree_all {A : FloatOps ℝ} {u : ℝ} (hA : Rounds A.fl u) (xs : List ℝ) (t : SumTree)
    (ht : t.leaves.Perm (List.range xs.length)) :
    |t.eval A xs - xs.sum| ≤ ((1 + u) ^ t.depth - 1) * (xs.map abs).sum := by
  have h := sumTree_near hA xs t
  have e1 : (t.leaves.map fun i => xs.getD i 0).sum = xs.sum := by
    rw [(ht.map _).sum_eq, map_getD_range]
  have e2 : (t.leaves.map fun i => |xs.getD i 0|).sum = (xs.map abs).sum := by
    have : (t.leaves.map fun i => |xs.getD i 0|) = (t.leaves.map fun i => xs.getD i 0).map abs := by
      rw [List.map_map]; rfl
    rw [this, ((ht.map _).map _).sum_eq, map_getD_range]
  rwa [e1, e2] at h

/-- the phase from the quotient -/
theorem phase_of_quot {a b q p η ε} (ha : a ≠ 0) (hb : b ≠ 0) (hη : η ≤ 1 / 2) (hq : ‖q - b / a‖ ≤ η * ‖b / a‖)
    (hp : |p - Complex.arg q| ≤ ε) :
    ∃ k : ℤ, |p - (Complex.arg b - Complex.arg a + 2 * π * k)| ≤ 3 / 2 * η + ε := by
  have hba : b / a ≠ 0 := div_ne_zero hb ha
  have hn : 0 < ‖b / a‖ := norm_pos_iff.2 hba
  obtain ⟨e, he⟩ : ∃ e, q = b / a * (1 + e) := ⟨(q - b / a) / (b / a), by field_simp; ring⟩
  have hen : ‖e‖ ≤ η := by
    have : q - b / a = b / a * e := by rw [he]; ring
    rw [this, norm_mul, mul_comm] at hq
    exact le_of_mul_le_mul_right hq hn
  have h1e : (1 + e) ≠ 0 := by
    intro h
    have : e = -1 := by linear_combination h
    rw [this] at hen; norm_num at hen; linarith
  have harg : |Complex.arg (1 + e)| ≤ 3 / 2 * η := by
    have h2 := Complex.norm_log_one_add_half_le_self (z := e) (by linarith)
    have h3 := Complex.abs_im_le_norm (Complex.log (1 + e))
    rw [Complex.log_im] at h3
    linarith
  have hang : ((Complex.arg q : ℝ) : Real.Angle) = ((Complex.arg b - Complex.arg a + Complex.arg (1 + e) : ℝ) : Real.Angle) := by
    rw [he, Complex.arg_mul_coe_angle hba h1e, Complex.arg_div_coe_angle hb ha, Real.Angle.coe_add, Real.Angle.coe_sub]
  obtain ⟨k, hk⟩ := Real.Angle.angle_eq_iff_two_pi_dvd_sub.1 hang
  refine ⟨k, ?_⟩
  rw [abs_le] at harg hp ⊢
  constructor <;> linarith [harg.1, harg.2, hp.1, hp.2]

/-- the refinement loop ends -/
theorem refineLoopF_ends {K : Type} [Field K] [LinearOrder K] [IsStrictOrderedRing K] [FloorRing K]
    {A : FloatOps K} {S : SumOps K} (hS : Samples S) {ctx : RCtx K} {P : Cx K → Prop}
    (hE : ∀ a' b', P a' → P b' → ∀ n (w : World (SumState K) K), ∃ r w', genFuncArrF A S a' b' ctx n w = (.ok r, w') ∧ ∀ z ∈ r.1, P z)
    (hfac : ∀ idx phi, 1 ≤ idx → S.deltaPhi ≤ |phi| → 99 * idx ≤ S.factor idx phi)
    (hsteps : 198 * S.numPts < 97 * ((S.steps - 1) * S.steps)) (n : ℕ) :
    ∀ (idx : ℕ) (z : List (Cx K)) (p : List K) (w : World (SumState K) K), idx + n = S.steps → 0 < n →
      (∀ x ∈ z, P x) → p.length + 1 = z.length → 2 * S.numPts + 97 * (idx * (idx + 1)) ≤ 2 * z.length →
      ∃ v w', refineLoopF A S ctx n idx z p w = (.ok v, w') := by
  induction n with
  | zero => intro idx z p w _ h0; omega
  | succ n ih =>
    intro idx z p w hidx _ hP hlen hz
    unfold refineLoopF
    rcases hw : whereFrom (fun p => decide (S.deltaPhi ≤ |p|)) 0 p with _ | ⟨k, t⟩
    · exact ⟨_, _, rfl⟩
    dsimp only
    split
    · exact ⟨_, _, rfl⟩
    split
    · exact ⟨_, _, rfl⟩
    rename_i hmax
    obtain ⟨_, hk, hbig, _⟩ := whereFrom_cons hw
    simp only [Nat.sub_zero, decide_eq_true_eq] at hk hbig
    have hgd : p.getD k 0 = p[k] := List.getD_eq_getElem _ _ hk
    have hf := hfac (idx + 1) (p.getD k 0) (by omega) (by rw [hgd]; exact hbig)
    have hmax' : z.length ≤ 100 * S.numPts := not_lt.1 hmax
    have hPg : ∀ i, i < z.length → P (z.getD i 0) := by
      intro i hi
      rw [List.getD_eq_getElem _ _ hi]
      exact hP _ (List.getElem_mem hi)
    obtain ⟨r, w1, hr, hrP⟩ := hE (z.getD k 0) (z.getD (k + 1) 0) (hPg _ (by omega)) (hPg _ (by omega)) (S.factor (idx + 1) (p.getD k 0)) w
    obtain ⟨r1, _, r3, _⟩ := genFuncArrF_ok hS hr
    have hr2len : r.2.length = S.factor (idx + 1) (p.getD k 0) := by rw [r1]; simp [r3]
    rw [Py.bind_run, hr]
    dsimp only
    have hn : 0 < n := by
      rcases Nat.eq_zero_or_pos n with rfl | h
      · exfalso
        have e : S.steps = idx + 1 := by omega
        rw [e] at hsteps
        simp only [Nat.add_sub_cancel] at hsteps
        omega
      · exact h
    refine ih (idx + 1) _ _ w1 (by omega) hn ?_ ?_ ?_
    · intro x hx
      simp only [List.mem_append] at hx
      rcases hx with (hx | hx) | hx
      · exact hP x (List.mem_of_mem_take hx)
      · exact hrP x (List.mem_of_mem_drop (List.mem_of_mem_dropLast hx))
      · exact hP x (List.mem_of_mem_drop hx)
    · simp only [List.length_append, List.length_take, List.length_drop, List.length_dropLast, phasesOf_length, hr2len, r3]
      omega
    · simp only [List.length_append, List.length_take, List.length_drop, List.length_dropLast, r3]
      have : (idx + 1) * (idx + 1 + 1) = idx * (idx + 1) + 2 * (idx + 1) := by ring
      rw [this]
      omega

theorem genPhiArrF_ends {K : Type} [Field K] [LinearOrder K] [IsStrictOrderedRing K] [FloorRing K]
    {A : FloatOps K} {S : SumOps K} (hS : Samples S) {ctx : RCtx K} {P : Cx K → Prop}
    (hE : ∀ a' b', P a' → P b' → ∀ n (w : World (SumState K) K), ∃ r w', genFuncArrF A S a' b' ctx n w = (.ok r, w') ∧ ∀ z ∈ r.1, P z)
    (hfac : ∀ idx phi, 1 ≤ idx → S.deltaPhi ≤ |phi| → 99 * idx ≤ S.factor idx phi)
    (hsteps : 198 * S.numPts < 97 * ((S.steps - 1) * S.steps)) (a b : Cx K) (ha : P a) (hb : P b)
    (w : World (SumState K) K) :
    ∃ v w', genPhiArrF A S 0 a b ctx w = (.ok v, w') := by
  unfold genPhiArrF
  rw [if_neg (by simp), Py.bind_run]
  obtain ⟨r, w1, hr, hrP⟩ := hE a b ha hb S.numPts w
  obtain ⟨r1, _, r3, _⟩ := genFuncArrF_ok hS hr
  rw [hr]
  dsimp only
  have := hS.numPts
  exact refineLoopF_ends hS hE hfac hsteps S.steps 0 _ _ w1 (by omega)
    (by rcases Nat.eq_zero_or_pos S.steps with h | h
        · rw [h] at hsteps; omega
        · exact h) hrP (by rw [r1]; simp [r3]; omega) (by rw [r3]; omega)

theorem edgeF_ends {A : FloatOps ℝ} {S : SumOps ℝ} (hS : Samples S) {ctx : RCtx ℝ}
    (hfac : ∀ idx phi, 1 ≤ idx → S.deltaPhi ≤ |phi| → 99 * idx ≤ S.factor idx phi)
    (hsteps : 198 * S.numPts < 97 * ((S.steps - 1) * S.steps)) (a b : Cx ℝ)
    (hE : LineEnds (σ := SumState ℝ) A S ctx a b)
    (hpar : a.im = b.im ∨ a.re = b.re) (w : World (SumState ℝ) ℝ) (hw : w.fuse = none)
    (hc : w.cache.look 0 a b = none)
    (hH : a.im = b.im → w.est.horizontal.get? (a.im, 0) = none)
    (hV : a.re = b.re → w.est.vertical.get? (a.re, 0) = none) :
    ∃ phi w', edgeMoment (sumLineF A S) 0 ctx (a, b) w = (.ok phi, w') := by
  obtain ⟨P, hPa, hPb, hE⟩ := hE
  rw [edgeMoment_run, hc]
  dsimp only
  rw [compute_run, World.tick_none (by exact hw)]
  dsimp only
  have hlo : a.im = b.im → P ⟨min a.re b.re, a.im⟩ := by
    intro e; rcases min_choice a.re b.re with h | h <;> rw [h]
    · exact hPa
    · rw [e]; exact hPb
  have hhi : a.im = b.im → P ⟨max a.re b.re, a.im⟩ := by
    intro e; rcases max_choice a.re b.re with h | h <;> rw [h]
    · exact hPa
    · rw [e]; exact hPb
  have vlo : a.re = b.re → P ⟨a.re, min a.im b.im⟩ := by
    intro e; rcases min_choice a.im b.im with h | h <;> rw [h]
    · exact hPa
    · rw [e]; exact hPb
  have vhi : a.re = b.re → P ⟨a.re, max a.im b.im⟩ := by
    intro e; rcases max_choice a.im b.im with h | h <;> rw [h]
    · exact hPa
    · rw [e]; exact hPb
  have : ∃ d w2, sumLineF A S 0 a b ctx { w with cache := (w.cache.retrieve 0 a b).2 } = (.ok d, w2) := by
    unfold sumLineF
    by_cases h1 : a.im = b.im
    · rw [if_pos h1, horizontalF_run, reuseH_miss (hH h1)]
      simp only [sliceOrSampleF]
      obtain ⟨v, w', h⟩ := genPhiArrF_ends hS hE hfac hsteps ⟨min a.re b.re, a.im⟩ ⟨max a.re b.re, a.im⟩ (hlo h1) (hhi h1)
        { w with cache := (w.cache.retrieve 0 a b).2 }
      rw [h]
      exact ⟨_, _, rfl⟩
    · have h2 := hpar.resolve_left h1
      rw [if_neg h1, if_pos h2, verticalF_run, reuseV_miss (hV h2)]
      simp only [sliceOrSampleF]
      obtain ⟨v, w', h⟩ := genPhiArrF_ends hS hE hfac hsteps ⟨a.re, min a.im b.im⟩ ⟨a.re, max a.im b.im⟩ (vlo h2) (vhi h2)
        { w with cache := (w.cache.retrieve 0 a b).2 }
      rw [h]
      exact ⟨_, _, rfl⟩
  obtain ⟨d, w2, h⟩ := this
  rw [h]
  exact ⟨_, _, rfl⟩


/-- computing the phase around a rectangle ends -/
theorem calcMomentF_ends {A : FloatOps ℝ} {S : SumOps ℝ} {N : ℕ} {δ γ : ℝ} (hS : SumArith S N δ γ)
    {ctx : RCtx ℝ}
    (hfac : ∀ idx phi, 1 ≤ idx → S.deltaPhi ≤ |phi| → 99 * idx ≤ S.factor idx phi)
    (hsteps : 198 * S.numPts < 97 * ((S.steps - 1) * S.steps)) (re im : ℝ × ℝ)
    (hE : SidesEnd (σ := SumState ℝ) A S ctx re im)
    (hre : re.1 ≠ re.2) (him : im.1 ≠ im.2)
    (w : World (SumState ℝ) ℝ) (hw : w.fuse = none) (hc : w.cache.data = [])
    (hH : ∀ y, y = im.1 ∨ y = im.2 → w.est.horizontal.get? (y, 0) = none)
    (hV : ∀ x, x = re.1 ∨ x = re.2 → w.est.vertical.get? (x, 0) = none) :
    ∃ phi w', calcMomentF A (sumLineF A S) 0 re im ctx w = (.ok phi, w') := by
  obtain ⟨x1, x2⟩ := re
  obtain ⟨y1, y2⟩ := im
  obtain ⟨⟨E1, E2⟩, E3, E4⟩ := hE
  simp only at hre him hH hV
  have hlook : ∀ u v, w.cache.look 0 u v = none := by
    intro u v; unfold EstCache.look; rw [hc]; rfl
  unfold calcMomentF edges
  simp only [sumEdgesF, Py.bind_run, Py.pure_run]
  -- bottom
  obtain ⟨d1, w1, h1⟩ := edgeF_ends hS.samples hfac hsteps ⟨x1, y1⟩ ⟨x2, y1⟩ E1 (.inl rfl) w hw (hlook _ _)
    (fun _ => hH _ (.inl rfl)) (fun e => absurd e hre)
  rw [h1]; dsimp only
  obtain ⟨a1, b1, p1, c1, e1, f1, g1⟩ := edgeF_angle hS ctx ⟨x1, y1⟩ ⟨x2, y1⟩
    (fun e => hre (congrArg Cx.re e)) (.inl rfl) w w1 hw (hlook _ _) (fun _ => hH _ (.inl rfl))
    (fun e => absurd e hre) d1 h1
  -- right
  have k2 : w1.cache.look 0 ⟨x2, y1⟩ ⟨x2, y2⟩ = none := by
    rw [e1 _ _ (by simp [hre, hre.symm]) (by simp [him, him.symm])]; exact hlook _ _
  have v2 : w1.est.vertical.get? (x2, 0) = none := by
    rw [g1 _ (fun e => absurd e hre)]; exact hV _ (.inr rfl)
  obtain ⟨d2, w2, h2⟩ := edgeF_ends hS.samples hfac hsteps ⟨x2, y1⟩ ⟨x2, y2⟩ E2 (.inr rfl) w1 c1 k2
    (fun e => absurd e him) (fun _ => v2)
  rw [h2]; dsimp only
  obtain ⟨a2, b2, p2, c2, e2, f2, g2⟩ := edgeF_angle hS ctx ⟨x2, y1⟩ ⟨x2, y2⟩
    (fun e => him (congrArg Cx.im e)) (.inr rfl) w1 w2 c1 k2 (fun e => absurd e him) (fun _ => v2) d2 h2
  -- top
  have k3 : w2.cache.look 0 ⟨x2, y2⟩ ⟨x1, y2⟩ = none := by
    rw [e2 _ _ (by simp [him, him.symm]) (by simp [hre, hre.symm]),
          e1 _ _ (by simp [hre, hre.symm]) (by simp [him, him.symm])]; exact hlook _ _
  have v3 : w2.est.horizontal.get? (y2, 0) = none := by
    rw [f2 _ (fun e => absurd e him), f1 _ (fun _ => him.symm)]; exact hH _ (.inr rfl)
  obtain ⟨d3, w3, h3⟩ := edgeF_ends hS.samples hfac hsteps ⟨x2, y2⟩ ⟨x1, y2⟩ E3 (.inl rfl) w2 c2 k3
    (fun _ => v3) (fun e => absurd e hre.symm)
  rw [h3]; dsimp only
  obtain ⟨a3, b3, p3, c3, e3, f3, g3⟩ := edgeF_angle hS ctx ⟨x2, y2⟩ ⟨x1, y2⟩
    (fun e => hre (congrArg Cx.re e).symm) (.inl rfl) w2 w3 c2 k3 (fun _ => v3)
    (fun e => absurd e hre.symm) d3 h3
  -- left
  have k4 : w3.cache.look 0 ⟨x1, y2⟩ ⟨x1, y1⟩ = none := by
    rw [e3 _ _ (by simp [hre, hre.symm]) (by simp [him, him.symm]),
          e2 _ _ (by simp [hre, hre.symm]) (by simp [hre, hre.symm]),
          e1 _ _ (by simp [him, him.symm]) (by simp [hre, hre.symm])]; exact hlook _ _
  have v4 : w3.est.vertical.get? (x1, 0) = none := by
    rw [g3 _ (fun e => absurd e hre.symm), g2 _ (fun _ => hre), g1 _ (fun e => absurd e hre)]
    exact hV _ (.inl rfl)
  obtain ⟨d4, w4, h4⟩ := edgeF_ends hS.samples hfac hsteps ⟨x1, y2⟩ ⟨x1, y1⟩ E4 (.inr rfl) w3 c3 k4
    (fun e => absurd e him.symm) (fun _ => v4)
  rw [h4]
  exact ⟨_, _, rfl⟩

theorem linspaceF_length {K : Type} [Field K] [LinearOrder K] [FloorRing K] (A : FloatOps K) (a b : Cx K) (n : ℕ) :
    (linspaceF A a b n).length = n := by
  rcases n with _ | _ | n <;> simp [linspaceF]

theorem linspaceF_first {K : Type} [Field K] [LinearOrder K] [FloorRing K] (A : FloatOps K) (a b : Cx K) (n : ℕ)
    (h : 1 ≤ n) : (linspaceF A a b n).head? = some a := by
  rcases n with _ | _ | n
  · omega
  · rfl
  · rfl

theorem linspaceF_last {K : Type} [Field K] [LinearOrder K] [FloorRing K] (A : FloatOps K) (a b : Cx K) (n : ℕ)
    (h : 2 ≤ n) : (linspaceF A a b n).getLast? = some b := by
  rcases n with _ | _ | n
  · omega
  · omega
  · simp only [linspaceF]
    exact List.getLast?_concat ..

/-- the refinement factor of the shipped settings -/
theorem factorF_bounds {K : Type} [Field K] [LinearOrder K] [IsStrictOrderedRing K] [FloorRing K] {A : FloatOps K} {u : K}
    (hA : Rounds A.fl u) (hu : u ≤ 1 / 1000)
    (idx : ℕ) (phi : K) :
    (A.fl (1 / 100) ≤ |phi| → 99 * idx ≤ factorF A (A.fl (1 / 100)) idx phi) ∧
    (|phi| ≤ 4 → factorF A (A.fl (1 / 100)) idx phi ≤ 41000 * idx) := by
  have hu0 := hA.u_nonneg
  have hd := hA.near (1 / 100)
  rw [abs_of_pos (show (0:K) < 1 / 100 by norm_num)] at hd
  unfold factorF
  generalize A.fl (1 / 100) = d at *
  have d1 : 0.0099 ≤ d := by rw [abs_le] at hd; linarith [hd.1]
  have d2 : d ≤ 0.0101 := by rw [abs_le] at hd; linarith [hd.2]
  have dpos : 0 < d := by linarith
  have hx0 : (0:K) ≤ ((idx * zRefine : ℕ) : K) * |phi| := mul_nonneg (Nat.cast_nonneg _) (abs_nonneg _)
  have hx := hA.near (((idx * zRefine : ℕ) : K) * |phi|)
  rw [abs_of_nonneg hx0] at hx
  have hi : (0:K) ≤ idx := Nat.cast_nonneg _
  have hc : ((idx * zRefine : ℕ) : K) = 100 * idx := by unfold zRefine; push_cast; ring
  rw [hc] at hx hx0 ⊢
  generalize A.fl (100 * (idx:K) * |phi|) = x at *
  have ux : u * (100 * idx * |phi|) ≤ 1 / 1000 * (100 * idx * |phi|) := mul_le_mul_of_nonneg_right hu hx0
  have x1 : 0.999 * (100 * idx * |phi|) ≤ x := by rw [abs_le] at hx; linarith [hx.1]
  have x2 : x ≤ 1.001 * (100 * idx * |phi|) := by rw [abs_le] at hx; linarith [hx.2]
  have xpos : 0 ≤ x := by linarith
  have hq0 : 0 ≤ x / d := div_nonneg xpos dpos.le
  have hq := hA.near (x / d)
  rw [abs_of_nonneg hq0] at hq
  have uq : u * (x / d) ≤ 1 / 1000 * (x / d) := mul_le_mul_of_nonneg_right hu hq0
  generalize A.fl (x / d) = q at *
  have q1 : 0.999 * (x / d) ≤ q := by rw [abs_le] at hq; linarith [hq.1]
  have q2 : q ≤ 1.001 * (x / d) := by rw [abs_le] at hq; linarith [hq.2]
  constructor
  · intro h
    have : 99.9 * idx ≤ x / d := by
      rw [le_div_iff₀ dpos]
      have : (idx : K) * d ≤ idx * |phi| := mul_le_mul_of_nonneg_left h hi
      linarith
    have h99 : ((99 * idx : ℕ) : K) ≤ q := by push_cast; linarith
    have : ((99 * idx : ℕ) : ℤ) ≤ ⌊q⌋ := by rw [Int.le_floor]; exact_mod_cast h99
    omega
  · intro h
    have : x / d ≤ 1.001 * 400 * idx / 0.0099 := by
      refine div_le_div₀ (by positivity) ?_ (by norm_num) d1
      have : (idx : K) * |phi| ≤ idx * 4 := mul_le_mul_of_nonneg_left h hi
      linarith
    have : q ≤ ((41000 * idx : ℕ) : K) := by
      push_cast
      have e : (1.001:K) * 400 * idx / 0.0099 = 1.001 * 400 / 0.0099 * idx := by ring
      rw [e] at this
      have : (1.001:K) * 400 / 0.0099 * idx ≤ 40500 * idx := mul_le_mul_of_nonneg_right (by norm_num) hi
      linarith
    have : ⌊q⌋ ≤ ((41000 * idx : ℕ) : ℤ) := by
      have := (Int.floor_le q).trans this
      exact_mod_cast this
    omega


theorem SumTree.leaves_ne (t : SumTree) : 1 ≤ t.leaves.length := by
  induction t with
  | leaf i => simp [SumTree.leaves]
  | node l r ihl ihr => simp only [SumTree.leaves, List.length_append]; omega

theorem SumTree.depth_lt (t : SumTree) : t.depth + 1 ≤ t.leaves.length := by
  induction t with
  | leaf i => simp [SumTree.leaves, SumTree.depth]
  | node l r ihl ihr =>
    simp only [SumTree.leaves, SumTree.depth, List.length_append]
    have := l.leaves_ne
    have := r.leaves_ne
    omega

theorem pow_small {u : ℝ} (hu : 0 ≤ u) {d : ℕ} {c : ℝ} (hd : (d : ℝ) * u ≤ c) (hc1 : c < 1) :
    (1 + u) ^ d ≤ 1 / (1 - c) := by
  have h2 : 1 + u ≤ Real.exp u := by
    have := Real.add_one_le_exp u; linarith
  have h0 : 0 ≤ (d : ℝ) * u := by positivity
  calc (1 + u) ^ d ≤ Real.exp u ^ d := pow_le_pow_left₀ (by linarith) h2 _
    _ = Real.exp (d * u) := by rw [Real.exp_nat_mul]
    _ ≤ Real.exp c := Real.exp_le_exp.2 hd
    _ ≤ 1 / (1 - c) := Real.exp_bound_div_one_sub_of_interval (h0.trans hd) hc1

theorem pow_shipped {d : ℕ} (hd : d ≤ 5406000) : (1 + (1 / 2 : ℝ) ^ 53) ^ d - 1 ≤ (1 / 2) ^ 29 := by
  have hd' : (d : ℝ) ≤ 5406000 := by exact_mod_cast hd
  have h1 := pow_small (u := (1 / 2 : ℝ) ^ 53) (by positivity) (d := d) (c := 5406000 * (1 / 2 : ℝ) ^ 53)
    (mul_le_mul_of_nonneg_right hd' (by positivity)) (by norm_num)
  have h5 : 1 / (1 - 5406000 * (1 / 2 : ℝ) ^ 53) ≤ 1 + (1 / 2) ^ 29 := by norm_num
  exact sub_le_iff_le_add'.2 (h1.trans h5)

theorem doubleR : Rounds (double ℝ).fl ((1 / 2) ^ 53) := flBin_rounds (by norm_num)

/-- the shipped settings in Python's floats -/
theorem shipped_arith {quot : Cx ℝ → Cx ℝ → Cx ℝ} {arctan : Cx ℝ → ℝ} {dist : Cx ℝ → Cx ℝ → ℝ} {tree : ℕ → SumTree}
    {evals : ℕ → ℕ} (hq : QuotWithin quot ((1 / 2) ^ 49)) (ha : ArctanWithin arctan ((1 / 2) ^ 49)) (ht : SumsAll tree) :
    SumArith (SumOps.shipped quot arctan dist tree evals) 5406000 ((1 / 2) ^ 47) ((1 / 2) ^ 29) where
  samples :=
    { length := linspaceF_length _
      first := linspaceF_first _
      last := linspaceF_last _
      factor := by
        intro idx phi h1 h2
        have := (factorF_bounds doubleR (by norm_num) idx phi).1 h2
        exact le_trans (by omega) this
      numPts := by simp [SumOps.shipped] }
  δ0 := by positivity
  γ0 := by positivity
  phase := by
    intro a b h1 h2
    have hp := ha (quot b a)
    refine ⟨?_, ?_⟩
    · have := Complex.abs_arg_le_pi ⟨(quot b a).re, (quot b a).im⟩
      have p2 := Real.pi_lt_d2
      simp only [SumOps.shipped]
      rw [abs_le] at hp this ⊢
      constructor <;> norm_num at hp <;> linarith [hp.1, hp.2, this.1, this.2]
    · have h1' : (⟨a.re, a.im⟩ : ℂ) ≠ 0 := fun e => h1 (toC_eq_zero.1 e)
      have h2' : (⟨b.re, b.im⟩ : ℂ) ≠ 0 := fun e => h2 (toC_eq_zero.1 e)
      obtain ⟨k, hk⟩ := phase_of_quot h1' h2' (by norm_num) (hq a b h1 h2) hp
      exact ⟨k, le_trans hk (by norm_num)⟩
  sum := by
    intro l hl
    simp only [SumOps.shipped]
    split
    · rename_i h
      rw [List.length_eq_zero_iff] at h
      simp [h]
    · rename_i h
      have hp := ht l.length (by omega)
      refine le_trans (sumTree_all doubleR l _ hp) ?_
      have hd := (tree l.length).depth_lt
      rw [hp.length_eq, List.length_range] at hd
      refine mul_le_mul_of_nonneg_right (pow_shipped (by omega)) ?_
      exact le_trans (abs_nonneg _) (abs_list_sum_le l)
  len := by
    intro idx phi h1 h2
    have := (factorF_bounds doubleR (by norm_num) idx phi).2 h2
    simp only [SumOps.shipped] at h1 ⊢
    exact le_trans (Nat.add_le_add_left this _) (by omega)
  len0 := by simp [SumOps.shipped]

theorem shipped_err : rectErr 5406000 ((1 / 2) ^ 47) ((1 / 2) ^ 29) ((1 / 2) ^ 53) ≤ 1 / 4 ∧
    11 * (1 / 2 : ℝ) ^ 53 * lineMax 5406000 ((1 / 2) ^ 29) ≤ 1 / 4 := by
  unfold rectErr lineErr lineMax
  norm_num

end PyZeal
