import Verif.Spec.Float
import Verif.Proof.Rounding

/-! # Binary floating-point rounding -/

set_option linter.unusedSectionVars false

namespace PyZeal
open Spec
variable {K : Type} [Field K] [LinearOrder K] [IsStrictOrderedRing K] [FloorRing K]

theorem roundHalfEven_int (n : ℤ) : roundHalfEven (n : K) = n := by
  obtain ⟨h1, h2⟩ := roundHalfEven_spec (n : K)
  refine nearest_int_unique h1 h2 (t := (n : K)) ?_ ?_
  · simp
  · simp

theorem roundHalfEven_neg (t : K) : roundHalfEven (-t) = -roundHalfEven t := by
  obtain ⟨h1, h2⟩ := roundHalfEven_spec t
  obtain ⟨g1, g2⟩ := roundHalfEven_spec (-t)
  have e : |(-t) - ((-roundHalfEven t : ℤ) : K)| = |t - roundHalfEven t| := by
    push_cast
    rw [← abs_neg]; congr 1; ring
  exact nearest_int_unique g1 g2 (by rw [e]; exact h1) (by rw [e]; intro h; simpa using h2 h)

/-- exponent of the last place -/
def expo (t : ℕ) (x : K) : ℤ := Int.log 2 |x| - (t - 1 : ℤ)

theorem flBin_eq (t : ℕ) {x : K} (hx : x ≠ 0) :
    flBin t x = (roundHalfEven (x / 2 ^ expo t x) : K) * 2 ^ expo t x := by
  unfold flBin expo; rw [if_neg hx]

theorem flBin_zero (t : ℕ) : flBin t (0 : K) = 0 := by simp [flBin]

theorem two_zpow_pos (e : ℤ) : (0 : K) < 2 ^ e := zpow_pos (by norm_num) _

/-- `x` lies in the binade of its exponent -/
theorem expo_le (t : ℕ) {x : K} (hx : x ≠ 0) : (2 : K) ^ (t - 1 : ℤ) * 2 ^ expo t x ≤ |x| := by
  have h := Int.zpow_log_le_self (b := 2) (r := |x|) (by norm_num) (abs_pos.2 hx)
  rw [← zpow_add₀ (by norm_num)]
  unfold expo
  rw [show (t - 1 : ℤ) + (Int.log 2 |x| - (t - 1)) = Int.log 2 |x| by ring]
  exact_mod_cast h

theorem lt_expo (t : ℕ) (x : K) : |x| < (2 : K) ^ (t : ℤ) * 2 ^ expo t x := by
  have h := Int.lt_zpow_succ_log_self (b := 2) (by norm_num) |x|
  rw [← zpow_add₀ (by norm_num)]
  unfold expo
  rw [show (t : ℤ) + (Int.log 2 |x| - (t - 1)) = Int.log 2 |x| + 1 by ring]
  exact_mod_cast h

/-- the exponent is determined by the binade -/
theorem expo_unique (t : ℕ) {x : K} (hx : x ≠ 0) {e : ℤ} (h1 : (2 : K) ^ (t - 1 : ℤ) * 2 ^ e ≤ |x|)
    (h2 : |x| < (2 : K) ^ (t : ℤ) * 2 ^ e) : expo t x = e := by
  have a1 := expo_le t hx
  have a2 := lt_expo t x
  rw [← zpow_add₀ (by norm_num)] at h1 h2 a1 a2
  have b1 := lt_of_le_of_lt h1 a2
  have b2 := lt_of_le_of_lt a1 h2
  rw [zpow_lt_zpow_iff_right₀ (by norm_num)] at b1 b2
  omega

theorem expo_mono (t : ℕ) {x y : K} (hx : x ≠ 0) (h : |x| ≤ |y|) : expo t x ≤ expo t y := by
  have b := lt_of_le_of_lt (le_trans (expo_le t hx) h) (lt_expo t y)
  rw [← zpow_add₀ (by norm_num), ← zpow_add₀ (by norm_num), zpow_lt_zpow_iff_right₀ (by norm_num)] at b
  omega

theorem flBin_neg (t : ℕ) (x : K) : flBin t (-x) = -flBin t x := by
  by_cases hx : x = 0
  · simp [hx, flBin_zero]
  · rw [flBin_eq t hx, flBin_eq t (neg_ne_zero.2 hx)]
    have : expo t (-x) = expo t x := by simp [expo]
    rw [this, neg_div, roundHalfEven_neg]
    push_cast; ring

theorem flBin_two (t : ℕ) (x : K) : flBin t (2 * x) = 2 * flBin t x := by
  by_cases hx : x = 0
  · simp [hx, flBin_zero]
  · have h2 : 2 * x ≠ 0 := mul_ne_zero two_ne_zero hx
    have e : expo t (2 * x) = expo t x + 1 := by
      refine expo_unique t h2 ?_ ?_
      · have := expo_le t hx
        rw [abs_mul, abs_two, zpow_add₀ (by norm_num : (2 : K) ≠ 0), zpow_one]
        linarith
      · have := lt_expo t x
        rw [abs_mul, abs_two, zpow_add₀ (by norm_num : (2 : K) ≠ 0), zpow_one]
        linarith
    rw [flBin_eq t hx, flBin_eq t h2, e, zpow_add₀ (by norm_num : (2 : K) ≠ 0), zpow_one]
    have p := two_zpow_pos (K := K) (expo t x)
    have : 2 * x / (2 ^ expo t x * 2) = x / 2 ^ expo t x := by field_simp
    rw [this]; ring

theorem flBin_near (t : ℕ) (x : K) : |flBin t x - x| ≤ (1 / 2) ^ t * |x| := by
  by_cases hx : x = 0
  · simp [hx, flBin_zero]
  · have p := two_zpow_pos (K := K) (expo t x)
    have h := (roundHalfEven_spec (x / 2 ^ expo t x)).1
    have e : |flBin t x - x| = |x / 2 ^ expo t x - roundHalfEven (x / 2 ^ expo t x)| * 2 ^ expo t x := by
      rw [flBin_eq t hx, ← abs_neg, show -((roundHalfEven (x / 2 ^ expo t x) : K) * 2 ^ expo t x - x) =
        (x / 2 ^ expo t x - roundHalfEven (x / 2 ^ expo t x)) * 2 ^ expo t x by field_simp; ring,
        abs_mul, abs_of_pos p]
    rw [e]
    have h1 := expo_le t hx
    have h2 : ((1 : K) / 2) ^ t * (2 ^ (t - 1 : ℤ) * 2 ^ expo t x) = 1 / 2 * 2 ^ expo t x := by
      rw [zpow_sub₀ (by norm_num), zpow_natCast, zpow_one, div_pow, one_pow]
      field_simp
    calc _ ≤ 1 / 2 * 2 ^ expo t x := mul_le_mul_of_nonneg_right h p.le
      _ ≤ _ := by rw [← h2]; exact mul_le_mul_of_nonneg_left h1 (by positivity)

/-- the machine numbers -/
theorem flBin_fix {t : ℕ} (ht : 0 < t) {m k : ℤ} (hm : |m| ≤ 2 ^ t) :
    flBin t ((m : K) * 2 ^ k) = m * 2 ^ k := by
  by_cases hm0 : m = 0
  · simp [hm0, flBin_zero]
  · have pk := two_zpow_pos (K := K) k
    have hx : (m : K) * 2 ^ k ≠ 0 := mul_ne_zero (by exact_mod_cast hm0) pk.ne'
    generalize hxd : (m : K) * 2 ^ k = x at hx
    have pe := two_zpow_pos (K := K) (expo t x)
    have key : ∃ n : ℤ, x / 2 ^ expo t x = n := by
      have a := expo_le t hx
      have hm' : (|(m : K)|) ≤ (2 : K) ^ (t : ℤ) := by rw [zpow_natCast]; exact_mod_cast hm
      have hxa : |x| = |(m : K)| * 2 ^ k := by rw [← hxd, abs_mul, abs_of_pos pk]
      have b : (2 : K) ^ (t - 1 : ℤ) * 2 ^ expo t x ≤ 2 ^ (t : ℤ) * 2 ^ k :=
        le_trans a (by rw [hxa]; exact mul_le_mul_of_nonneg_right hm' pk.le)
      rw [← zpow_add₀ (by norm_num), ← zpow_add₀ (by norm_num), zpow_le_zpow_iff_right₀ (by norm_num)] at b
      rcases lt_or_ge k (expo t x) with h | h
      · -- only possible for `|m| = 2^t`
        have e : expo t x = k + 1 := by omega
        have c : (2 : K) ^ (t : ℤ) ≤ |(m : K)| := by
          rw [e, hxa] at a
          have : (2 : K) ^ (t - 1 : ℤ) * 2 ^ (k + 1) = 2 ^ (t : ℤ) * 2 ^ k := by
            rw [← zpow_add₀ (by norm_num), ← zpow_add₀ (by norm_num)]; congr 1; ring
          rw [this] at a
          exact le_of_mul_le_mul_right a pk
        have c' : (2 : ℤ) ^ t ≤ |m| := by rw [zpow_natCast] at c; exact_mod_cast c
        have hm2 : |m| = 2 ^ t := le_antisymm hm c'
        obtain ⟨s, rfl⟩ : ∃ s, t = s + 1 := ⟨t - 1, by omega⟩
        rw [e, ← hxd, zpow_add₀ (by norm_num), zpow_one]
        rcases abs_choice m with h1 | h1
        · refine ⟨2 ^ s, ?_⟩
          have : m = 2 ^ (s + 1) := by rw [← h1, hm2]
          rw [this]
          push_cast
          field_simp
          ring
        · refine ⟨-2 ^ s, ?_⟩
          have : m = -2 ^ (s + 1) := by rw [← hm2, h1]; ring
          rw [this]
          push_cast
          field_simp
          ring
      · obtain ⟨d, hd⟩ : ∃ d : ℕ, k = expo t x + d := ⟨(k - expo t x).toNat, by omega⟩
        refine ⟨m * 2 ^ d, ?_⟩
        rw [div_eq_iff pe.ne']
        have : (2 : K) ^ k = 2 ^ expo t x * 2 ^ d := by
          rw [← zpow_natCast, ← zpow_add₀ (by norm_num)]; congr 1
        generalize expo t x = e at this
        rw [← hxd, this]
        push_cast; ring
    obtain ⟨n, hn⟩ := key
    rw [flBin_eq t hx, hn, roundHalfEven_int, ← hn]
    field_simp

/-- results of rounding are machine numbers -/
theorem flBin_form {t : ℕ} (x : K) :
    ∃ m : ℤ, |m| ≤ 2 ^ t ∧ flBin t x = m * 2 ^ expo t x := by
  by_cases hx : x = 0
  · exact ⟨0, by simp, by simp [hx, flBin_zero]⟩
  · refine ⟨roundHalfEven (x / 2 ^ expo t x), ?_, flBin_eq t hx⟩
    have p := two_zpow_pos (K := K) (expo t x)
    have h := lt_expo t x
    have hb : |x / 2 ^ expo t x| < 2 ^ (t : ℤ) := by
      rw [abs_div, abs_of_pos p, div_lt_iff₀ p]; exact h
    have hc : (2 : K) ^ (t : ℤ) = ((2 ^ t : ℤ) : K) := by push_cast; rw [zpow_natCast]
    rw [hc, abs_lt] at hb
    rw [abs_le]
    constructor
    · rw [← roundHalfEven_int (K := K) (-2 ^ t)]
      exact roundHalfEven_mono (by push_cast at hb ⊢; exact hb.1.le)
    · rw [← roundHalfEven_int (K := K) (2 ^ t)]
      exact roundHalfEven_mono hb.2.le

theorem flBin_idem {t : ℕ} (ht : 0 < t) (x : K) : flBin t (flBin t x) = flBin t x := by
  obtain ⟨m, h1, h2⟩ := flBin_form (t := t) x
  rw [h2, flBin_fix ht h1]

theorem flBin_mono_pos {t : ℕ} (ht : 0 < t) {x y : K} (hx : 0 < x) (h : x ≤ y) : flBin t x ≤ flBin t y := by
  have hy := lt_of_lt_of_le hx h
  have hle : |x| ≤ |y| := by rw [abs_of_pos hx, abs_of_pos hy]; exact h
  have he := expo_mono t hx.ne' hle
  have py := two_zpow_pos (K := K) (expo t y)
  rcases eq_or_lt_of_le he with e | e
  · rw [flBin_eq t hx.ne', flBin_eq t hy.ne', e]
    apply mul_le_mul_of_nonneg_right _ py.le
    exact_mod_cast roundHalfEven_mono (div_le_div_of_nonneg_right h py.le)
  · obtain ⟨m, h1, h2⟩ := flBin_form (t := t) x
    have px := two_zpow_pos (K := K) (expo t x)
    have b1 : flBin t x ≤ 2 ^ (t : ℤ) * 2 ^ expo t x := by
      rw [h2]
      apply mul_le_mul_of_nonneg_right _ px.le
      have : (m : K) ≤ ((2 ^ t : ℤ) : K) := by exact_mod_cast le_trans (le_abs_self m) h1
      rw [zpow_natCast]; exact_mod_cast this
    have b2 : (2 : K) ^ (t : ℤ) * 2 ^ expo t x ≤ 2 ^ (t - 1 : ℤ) * 2 ^ expo t y := by
      rw [← zpow_add₀ (by norm_num), ← zpow_add₀ (by norm_num), zpow_le_zpow_iff_right₀ (by norm_num)]
      omega
    have b3 : (2 : K) ^ (t - 1 : ℤ) * 2 ^ expo t y ≤ flBin t y := by
      rw [flBin_eq t hy.ne']
      apply mul_le_mul_of_nonneg_right _ py.le
      have hb := expo_le t hy.ne'
      rw [abs_of_pos hy] at hb
      have hc : (2 : K) ^ (t - 1 : ℤ) = ((2 ^ (t - 1) : ℤ) : K) := by
        push_cast
        rw [← zpow_natCast]; congr 1; omega
      rw [hc]
      have hd : (2 : ℤ) ^ (t - 1) ≤ roundHalfEven (y / 2 ^ expo t y) := by
        rw [← roundHalfEven_int (K := K) (2 ^ (t - 1))]
        apply roundHalfEven_mono
        rw [← hc, le_div_iff₀ py]
        exact hb
      exact_mod_cast hd
    exact le_trans b1 (le_trans b2 b3)

theorem flBin_nonneg {t : ℕ} {x : K} (hx : 0 ≤ x) : 0 ≤ flBin t x := by
  rcases eq_or_lt_of_le hx with h | h
  · rw [← h, flBin_zero]
  · rw [flBin_eq t h.ne']
    have p := two_zpow_pos (K := K) (expo t x)
    apply mul_nonneg _ p.le
    have : (0 : ℤ) ≤ roundHalfEven (x / 2 ^ expo t x) := by
      have h0 := roundHalfEven_int (K := K) 0
      rw [← h0]
      apply roundHalfEven_mono
      push_cast
      positivity
    exact_mod_cast this

theorem flBin_mono {t : ℕ} (ht : 0 < t) {x y : K} (h : x ≤ y) : flBin t x ≤ flBin t y := by
  rcases lt_trichotomy 0 x with hx | hx | hx
  · exact flBin_mono_pos ht hx h
  · rw [← hx, flBin_zero]; exact flBin_nonneg (hx ▸ h)
  · rcases lt_or_ge y 0 with hy | hy
    · have := flBin_mono_pos ht (neg_pos.2 hy) (neg_le_neg h)
      rw [flBin_neg, flBin_neg] at this
      linarith
    · have h1 := flBin_nonneg (t := t) hy
      have h2 := flBin_nonneg (t := t) (neg_pos.2 hx).le
      rw [flBin_neg] at h2
      linarith

/-- a quotient of machine numbers below 1 is computed as less than 1 -/
theorem flBin_quot {t : ℕ} (ht : 0 < t) {a b : K} (ha : 0 ≤ a) (hab : a < b) (fa : flBin t a = a)
    (fb : flBin t b = b) : flBin t (a / b) < 1 := by
  have hb := lt_of_le_of_lt ha hab
  rcases eq_or_lt_of_le ha with h0 | h0
  · rw [← h0, zero_div, flBin_zero]; exact one_pos
  have key : a / b ≤ ((2 ^ t - 1 : ℤ) : K) * 2 ^ (-(t : ℤ)) := by
    have pa := two_zpow_pos (K := K) (expo t a)
    have pb := two_zpow_pos (K := K) (expo t b)
    have pt := two_zpow_pos (K := K) (t : ℤ)
    have hta : a = roundHalfEven (a / 2 ^ expo t a) * 2 ^ expo t a := by rw [← flBin_eq t h0.ne', fa]
    have htb : b = roundHalfEven (b / 2 ^ expo t b) * 2 ^ expo t b := by rw [← flBin_eq t hb.ne', fb]
    generalize roundHalfEven (a / 2 ^ expo t a) = m at hta
    generalize roundHalfEven (b / 2 ^ expo t b) = n at htb
    have la := lt_expo t a
    have lb := lt_expo t b
    have gb := expo_le t hb.ne'
    rw [abs_of_pos h0] at la
    rw [abs_of_pos hb] at lb gb
    have hcast : (2 : K) ^ (t : ℤ) = ((2 ^ t : ℤ) : K) := by push_cast; rw [zpow_natCast]
    rw [zpow_neg, ← div_eq_mul_inv, div_le_div_iff₀ hb pt]
    push_cast
    rw [← zpow_natCast]
    have he := expo_mono t h0.ne' (show |a| ≤ |b| by rw [abs_of_pos h0, abs_of_pos hb]; exact hab.le)
    clear fa fb
    generalize expo t a = ea at *
    generalize expo t b = eb at *
    rcases eq_or_lt_of_le he with e | e
    · rw [e] at hta
      have hmn : m < n := by
        have : (m : K) * 2 ^ eb < n * 2 ^ eb := by rw [← hta, ← htb]; exact hab
        exact_mod_cast lt_of_mul_lt_mul_right this pb.le
      have h1 : a + 2 ^ eb ≤ b := by
        rw [hta, htb]
        have : (m : K) + 1 ≤ n := by exact_mod_cast hmn
        nlinarith
      nlinarith
    · have hm : m < 2 ^ t := by
        have : (m : K) < ((2 ^ t : ℤ) : K) := by
          rw [← hcast]
          have la' : (m : K) * 2 ^ ea < 2 ^ (t : ℤ) * 2 ^ ea := by rw [← hta]; exact la
          exact lt_of_mul_lt_mul_right la' pa.le
        exact_mod_cast this
      have hm1 : (m : K) ≤ 2 ^ (t : ℤ) - 1 := by
        rw [hcast]
        have : m + 1 ≤ 2 ^ t := hm
        have : ((m + 1 : ℤ) : K) ≤ ((2 ^ t : ℤ) : K) := by exact_mod_cast this
        push_cast at this ⊢
        linarith
      have h1 : (2 : K) ^ (t : ℤ) * 2 ^ ea ≤ b := by
        refine le_trans ?_ gb
        rw [← zpow_add₀ (by norm_num), ← zpow_add₀ (by norm_num), zpow_le_zpow_iff_right₀ (by norm_num)]
        omega
      have h2 : a ≤ (2 ^ (t : ℤ) - 1) * 2 ^ ea := by
        rw [hta]
        exact mul_le_mul_of_nonneg_right hm1 pa.le
      have h3 : (0 : K) ≤ 2 ^ (t : ℤ) - 1 := by
        have : (1 : K) ≤ 2 ^ (t : ℤ) := by
          rw [zpow_natCast]; exact one_le_pow₀ (by norm_num)
        linarith
      calc a * 2 ^ (t : ℤ) ≤ (2 ^ (t : ℤ) - 1) * 2 ^ ea * 2 ^ (t : ℤ) :=
            mul_le_mul_of_nonneg_right h2 pt.le
        _ = (2 ^ (t : ℤ) - 1) * (2 ^ (t : ℤ) * 2 ^ ea) := by ring
        _ ≤ (2 ^ (t : ℤ) - 1) * b := mul_le_mul_of_nonneg_left h1 h3
  have h1 := flBin_mono ht key
  rw [flBin_fix ht] at h1
  · refine lt_of_le_of_lt h1 ?_
    have pt := two_zpow_pos (K := K) (t : ℤ)
    rw [zpow_neg, ← div_eq_mul_inv, div_lt_one pt]
    push_cast
    rw [zpow_natCast]
    linarith
  · have : (1 : ℤ) ≤ 2 ^ t := one_le_pow₀ (by norm_num)
    rw [abs_of_nonneg (by linarith)]
    linarith

/-- binary arithmetic with at least four bits is as described -/
theorem flBin_rounds {t : ℕ} (ht : 4 ≤ t) : Rounds (flBin t : K → K) ((1 / 2) ^ t) where
  mono _ _ h := flBin_mono (by omega) h
  idem x := flBin_idem (by omega) x
  double x := flBin_two t x
  one := by
    have := flBin_fix (K := K) (t := t) (by omega) (m := 1) (k := 0)
      (by rw [abs_one]; exact one_le_pow₀ (by norm_num))
    simpa using this
  near x := flBin_near t x
  quot _ _ h1 h2 h3 h4 := flBin_quot (by omega) h1 h2 h3 h4
  u_nonneg := by positivity
  u_small := by
    calc ((1 : K) / 2) ^ t ≤ (1 / 2) ^ 4 := pow_le_pow_of_le_one (by norm_num) (by norm_num) ht
      _ = 1 / 16 := by norm_num

end PyZeal
