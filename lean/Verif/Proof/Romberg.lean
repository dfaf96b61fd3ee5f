import Verif.Model.Romberg
import Mathlib.MeasureTheory.Integral.IntervalIntegral.TrapezoidalRule
import Mathlib.Algebra.BigOperators.Intervals
import Mathlib.Tactic.Linarith
import Mathlib.Tactic.Positivity
import Mathlib.Tactic.FieldSimp
import Mathlib.Tactic.Ring

/-! # The error of Romberg's method -/

set_option linter.unusedSectionVars false

namespace PyZeal
open MeasureTheory intervalIntegral

/-- halving the intervals of the trapezoidal rule -/
theorem trapezoidal_double (φ : ℝ → ℝ) (N : ℕ) (hN : 0 < N) (h : ℝ) :
    trapezoidal_integral φ (2 * N) 0 h =
      1 / 2 * (trapezoidal_integral φ N 0 h + h / N * ∑ m ∈ Finset.range N, φ ((2 * m + 1) * h / (2 * N))) := by
  unfold trapezoidal_integral
  have hN' : (N : ℝ) ≠ 0 := by positivity
  have hs : ∑ k ∈ Finset.range (2 * N - 1), φ (0 + (k + 1) * (h - 0) / ((2 * N : ℕ) : ℝ)) =
      ∑ m ∈ Finset.range N, φ ((2 * m + 1) * h / (2 * N)) + ∑ k ∈ Finset.range (N - 1), φ (0 + (k + 1) * (h - 0) / N) := by
    obtain ⟨M, rfl⟩ : ∃ M, N = M + 1 := ⟨N - 1, by omega⟩
    have e1 : 2 * (M + 1) - 1 = 2 * M + 1 := by omega
    have e2 : M + 1 - 1 = M := by omega
    rw [e1, e2]
    generalize hc : ((M + 1 : ℕ) : ℝ) = c at hN' ⊢
    have hc2 : ((2 * (M + 1) : ℕ) : ℝ) = 2 * c := by rw [← hc]; push_cast; ring
    rw [hc2]
    clear hc hc2 hN e1 e2
    induction M with
    | zero => simp
    | succ M ih =>
      rw [show 2 * (M + 1) + 1 = 2 * M + 1 + 1 + 1 by ring, Finset.sum_range_succ, Finset.sum_range_succ, ih,
        Finset.sum_range_succ (fun m : ℕ => φ ((2 * m + 1) * h / (2 * c))) (M + 1),
        Finset.sum_range_succ (fun k : ℕ => φ (0 + (k + 1) * (h - 0) / c)) M]
      have a1 : (0 : ℝ) + (((2 * M + 1 : ℕ) : ℝ) + 1) * (h - 0) / (2 * c) = 0 + ((M : ℝ) + 1) * (h - 0) / c := by
        push_cast; field_simp; ring
      have a2 : (0 : ℝ) + (((2 * M + 1 + 1 : ℕ) : ℝ) + 1) * (h - 0) / (2 * c) = (2 * ((M + 1 : ℕ) : ℝ) + 1) * h / (2 * c) := by
        push_cast; field_simp; ring
      rw [a1, a2]
      ring
  rw [hs]
  push_cast
  field_simp
  ring

/-- the first column of the table is the trapezoidal rule -/
theorem rombTrap_eq (φ : ℝ → ℝ) (y : List ℝ) (k : ℕ) (h : ℝ) (hy : ∀ i, i ≤ 2 ^ k → y.getD i 0 = φ ((i : ℝ) * h / 2 ^ k))
    (i : ℕ) (hi : i ≤ k) : rombTrap y (2 ^ k) h i = trapezoidal_integral φ (2 ^ i) 0 h := by
  induction i with
  | zero =>
    unfold rombTrap trapezoidal_integral
    rw [hy 0 (Nat.zero_le _), hy (2 ^ k) le_rfl]
    simp
    ring
  | succ i ih =>
    unfold rombTrap
    have hs : ((List.range (2 ^ i)).map fun m => y.getD (2 ^ k / 2 ^ (i + 1) + m * (2 ^ k / 2 ^ i)) 0).sum =
        ∑ m ∈ Finset.range (2 ^ i), φ ((2 * m + 1) * h / (2 * ((2 ^ i : ℕ) : ℝ))) := by
      rw [Finset.sum_range]
      rw [← List.sum_ofFn]
      congr 1
      apply List.ext_getElem
      · simp
      · intro m h1 h2
        have hm : m < 2 ^ i := by simpa using h1
        simp only [List.getElem_map, List.getElem_range, List.getElem_ofFn]
        obtain ⟨r, rfl⟩ : ∃ r, k = i + 1 + r := ⟨k - (i + 1), by omega⟩
        have d1 : 2 ^ (i + 1 + r) / 2 ^ (i + 1) = 2 ^ r := by rw [pow_add]; exact Nat.mul_div_cancel_left _ (by positivity)
        have d2 : 2 ^ (i + 1 + r) / 2 ^ i = 2 * 2 ^ r := by
          rw [pow_add, pow_succ, mul_assoc]; exact Nat.mul_div_cancel_left _ (by positivity)
        rw [d1, d2, hy]
        · congr 1
          have p1 : (2 : ℝ) ^ r ≠ 0 := by positivity
          have p2 : (2 : ℝ) ^ i ≠ 0 := by positivity
          push_cast
          rw [pow_add, pow_add]
          field_simp
          ring
        · have : (2 * m + 1) * 2 ^ r ≤ (2 * 2 ^ i) * 2 ^ r := Nat.mul_le_mul_right _ (by omega)
          calc 2 ^ r + m * (2 * 2 ^ r) = (2 * m + 1) * 2 ^ r := by ring
            _ ≤ (2 * 2 ^ i) * 2 ^ r := this
            _ = 2 ^ (i + 1 + r) := by rw [pow_add, pow_add]; ring
    have hd := trapezoidal_double φ (2 ^ i) (by positivity) h
    rw [ih (by omega), hs, show (2 : ℕ) ^ (i + 1) = 2 * 2 ^ i by ring, hd]
    push_cast
    rfl

/-- the bound for the error in column `j`, in units of that of the first column -/
noncomputable def rombConst : ℕ → ℝ
  | 0 => 1
  | j + 1 => rombConst j * ((4 ^ (j + 1) + 4) / (4 ^ (j + 1) - 1))

theorem four_pow_gt (j : ℕ) : (1 : ℝ) < 4 ^ (j + 1) := one_lt_pow₀ (by norm_num) (by omega)

theorem rombConst_nonneg (j : ℕ) : 0 ≤ rombConst j := by
  induction j with
  | zero => simp [rombConst]
  | succ j ih =>
    have := four_pow_gt j
    unfold rombConst
    exact mul_nonneg ih (div_nonneg (by linarith) (by linarith))

theorem rombConst_le (j : ℕ) : rombConst j ≤ 4 := by
  have h : ∀ j, rombConst (j + 2) ≤ 4 - 20 / 3 / 4 ^ (j + 2) := by
    intro j
    induction j with
    | zero => norm_num [rombConst]
    | succ j ih =>
      have hq := four_pow_gt (j + 2)
      have e : (4 : ℝ) ^ (j + 2 + 1) = 4 * 4 ^ (j + 2) := by ring
      change rombConst (j + 2) * ((4 ^ (j + 2 + 1) + 4) / (4 ^ (j + 2 + 1) - 1)) ≤ 4 - 20 / 3 / 4 ^ (j + 2 + 1)
      rw [e] at hq ⊢
      generalize (4 : ℝ) ^ (j + 2) = q at *
      have hq0 : 0 < q := by linarith
      have hq1 : 0 < 4 * q - 1 := by linarith
      calc rombConst (j + 2) * ((4 * q + 4) / (4 * q - 1)) ≤ (4 - 20 / 3 / q) * ((4 * q + 4) / (4 * q - 1)) :=
            mul_le_mul_of_nonneg_right ih (div_nonneg (by linarith) hq1.le)
        _ ≤ 4 - 20 / 3 / (4 * q) := by
            rw [← sub_nonneg]
            have : 4 - 20 / 3 / (4 * q) - (4 - 20 / 3 / q) * ((4 * q + 4) / (4 * q - 1)) = (85 / 3) / (q * (4 * q - 1)) := by
              field_simp
              ring
            rw [this]
            positivity
  rcases j with _ | _ | j
  · norm_num [rombConst]
  · norm_num [rombConst]
  · have : (0 : ℝ) ≤ 20 / 3 / 4 ^ (j + 2) := by positivity
    linarith [h j]

/-- if the error in the first column is divided by four from row to row, so it is in the other columns -/
theorem rombTable_err (y : List ℝ) (n : ℕ) (h I C : ℝ) (k : ℕ) (hT : ∀ i, i ≤ k → |rombTrap y n h i - I| ≤ C / 4 ^ i)
    (j i : ℕ) (hji : j ≤ i) (hik : i ≤ k) : |rombTable y n h j i - I| ≤ rombConst j * (C / 4 ^ i) := by
  induction j generalizing i with
  | zero => simpa [rombTable, rombConst] using hT i hik
  | succ j ih =>
    obtain ⟨i, rfl⟩ : ∃ i', i = i' + 1 := ⟨i - 1, by omega⟩
    have h1 := ih (i + 1) (by omega) hik
    have h2 := ih i (by omega) (by omega)
    have hq := four_pow_gt j
    unfold rombTable rombConst
    rw [Nat.add_sub_cancel]
    generalize rombTable y n h j (i + 1) = r1 at *
    generalize rombTable y n h j i = r0 at *
    generalize rombConst j = c at *
    have e : C / 4 ^ i = 4 * (C / 4 ^ (i + 1)) := by rw [pow_succ]; field_simp
    rw [e] at h2
    generalize C / 4 ^ (i + 1) = D at *
    generalize (4 : ℝ) ^ (j + 1) = q at *
    have hq1 : 0 < q - 1 := by linarith
    have e2 : r1 + (r1 - r0) / (q - 1) - I = (q * (r1 - I) - (r0 - I)) / (q - 1) := by field_simp; ring
    rw [e2, abs_div, abs_of_pos hq1, div_le_iff₀ hq1]
    calc |q * (r1 - I) - (r0 - I)| ≤ |q * (r1 - I)| + |r0 - I| := abs_sub _ _
      _ = q * |r1 - I| + |r0 - I| := by rw [abs_mul, abs_of_pos (by linarith : 0 < q)]
      _ ≤ q * (c * D) + c * (4 * D) := add_le_add (mul_le_mul_of_nonneg_left h1 (by linarith)) h2
      _ = c * ((q + 4) / (q - 1)) * D * (q - 1) := by field_simp

/-- The trapezoidal rule for a function with bounded second derivative -/
theorem trapezoidal_err {φ φ' φ'' : ℝ → ℝ} {l M : ℝ} (hl : 0 < l) (h1 : ∀ t, 0 ≤ t → t ≤ l → HasDerivAt φ (φ' t) t)
    (h2 : ∀ t, 0 ≤ t → t ≤ l → HasDerivAt φ' (φ'' t) t) (hM : ∀ t, 0 ≤ t → t ≤ l → |φ'' t| ≤ M) (N : ℕ) (hN : 0 < N) :
    |trapezoidal_integral φ N 0 l - ∫ t in (0 : ℝ)..l, φ t| ≤ l ^ 3 * M / (12 * N ^ 2) := by
  have hM0 : 0 ≤ M := (abs_nonneg _).trans (hM 0 le_rfl hl.le)
  have e1 : ∀ x ∈ Set.Icc 0 l, derivWithin φ (Set.Icc 0 l) x = φ' x := fun x hx =>
    (h1 x hx.1 hx.2).hasDerivWithinAt.derivWithin (uniqueDiffOn_Icc hl x hx)
  have e2 : ∀ x ∈ Set.Icc 0 l, HasDerivWithinAt (derivWithin φ (Set.Icc 0 l)) (φ'' x) (Set.Icc 0 l) x := fun x hx =>
    ((h2 x hx.1 hx.2).hasDerivWithinAt).congr e1 (e1 x hx)
  have := trapezoidal_error_le (f := φ) (a := 0) (b := l) (ζ := M) ?_ ?_ ?_ hN
  · rw [sub_zero, abs_of_pos hl] at this
    exact this
  · rw [Set.uIcc_of_le hl.le]
    exact fun x hx => (h1 x hx.1 hx.2).differentiableAt.differentiableWithinAt
  · rw [Set.uIcc_of_le hl.le]
    exact fun x hx => (e2 x hx).differentiableWithinAt
  · intro x
    rw [Set.uIcc_of_le hl.le, iteratedDerivWithin_succ, iteratedDerivWithin_one]
    by_cases hx : x ∈ Set.Icc 0 l
    · rw [(e2 x hx).derivWithin (uniqueDiffOn_Icc hl x hx)]
      exact hM x hx.1 hx.2
    · rw [derivWithin_zero_of_notMem_closure (by rwa [closure_Icc]), abs_zero]
      exact hM0

/-- Romberg's method on `2^k` intervals is at least a quarter as good as the trapezoidal rule -/
theorem romberg_err {φ φ' φ'' : ℝ → ℝ} {l M : ℝ} (hl : 0 < l) (h1 : ∀ t, 0 ≤ t → t ≤ l → HasDerivAt φ (φ' t) t)
    (h2 : ∀ t, 0 ≤ t → t ≤ l → HasDerivAt φ' (φ'' t) t) (hM : ∀ t, 0 ≤ t → t ≤ l → |φ'' t| ≤ M) (k : ℕ)
    (y : List ℝ) (hy : y = (List.range (2 ^ k + 1)).map fun i : ℕ => φ ((i : ℝ) * l / 2 ^ k)) :
    |romberg y (l / 2 ^ k) - ∫ t in (0 : ℝ)..l, φ t| ≤ l ^ 3 * M / (3 * 4 ^ k) := by
  have hM0 : 0 ≤ M := (abs_nonneg _).trans (hM 0 le_rfl hl.le)
  have hlen : y.length - 1 = 2 ^ k := by rw [hy]; simp
  unfold romberg
  rw [hlen, Nat.log2_two_pow]
  have hh : ((2 ^ k : ℕ) : ℝ) * (l / 2 ^ k) = l := by push_cast; field_simp
  rw [hh]
  have hyv : ∀ i, i ≤ 2 ^ k → y.getD i 0 = φ ((i : ℝ) * l / 2 ^ k) := by
    intro i hi
    rw [hy, List.getD_eq_getElem?_getD, List.getElem?_eq_getElem (by simp; omega)]
    simp
  have hT : ∀ i, i ≤ k → |rombTrap y (2 ^ k) l i - ∫ t in (0 : ℝ)..l, φ t| ≤ (l ^ 3 * M / 12) / 4 ^ i := by
    intro i hi
    rw [rombTrap_eq φ y k l hyv i hi]
    refine (trapezoidal_err hl h1 h2 hM (2 ^ i) (by positivity)).trans (le_of_eq ?_)
    push_cast
    rw [← pow_mul, mul_comm i 2, pow_mul]
    norm_num
    field_simp
  refine (rombTable_err y (2 ^ k) l _ _ k hT k k le_rfl le_rfl).trans ?_
  calc rombConst k * (l ^ 3 * M / 12 / 4 ^ k) ≤ 4 * (l ^ 3 * M / 12 / 4 ^ k) :=
        mul_le_mul_of_nonneg_right (rombConst_le k) (by positivity)
    _ = l ^ 3 * M / (3 * 4 ^ k) := by field_simp; ring

end PyZeal
