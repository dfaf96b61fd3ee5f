import Verif.Spec.FloatContainer
import Verif.Proof.FloatBin
import Verif.Proof.Float

/-! # Decimal rounding of machine numbers -/

set_option linter.unusedSectionVars false

namespace PyZeal
open Spec
variable {K : Type} [Field K] [LinearOrder K] [IsStrictOrderedRing K] [FloorRing K]

/-! ## Nearest machine numbers -/

theorem roundHalfEven_closest (t : K) (n : ℤ) : |t - roundHalfEven t| ≤ |t - n| := by
  obtain ⟨h1, h2⟩ := roundHalfEven_spec t
  rcases lt_or_ge |t - n| (1 / 2) with h | h
  · rw [nearest_int_unique h1 h2 h.le (fun e => absurd e h.ne)]
  · exact le_trans h1 h

theorem flBin_nearest {t : ℕ} (ht : 0 < t) : Nearest (flBin t : K → K) := by
  intro x r hx
  by_cases hr : r = 0
  · subst hr; simp [flBin_zero]
  have p := two_zpow_pos (K := K) (expo t r)
  have key : ∀ n : ℤ, |flBin t r - r| ≤ |(n : K) * 2 ^ expo t r - r| := by
    intro n
    have h := roundHalfEven_closest (r / 2 ^ expo t r) n
    have e : ∀ m : ℤ, |(m : K) * 2 ^ expo t r - r| = |r / 2 ^ expo t r - m| * 2 ^ expo t r := by
      intro m
      rw [← abs_neg, show -((m : K) * 2 ^ expo t r - r) = (r / 2 ^ expo t r - m) * 2 ^ expo t r by field_simp; ring,
        abs_mul, abs_of_pos p]
    rw [flBin_eq t hr, e, e]
    exact mul_le_mul_of_nonneg_right h p.le
  obtain ⟨m, hm, hf⟩ := flBin_form (t := t) x
  have hx' : x = m * 2 ^ expo t x := by rw [← hf]; exact hx.symm
  rcases le_or_gt (expo t r) (expo t x) with h | h
  · obtain ⟨d, hd⟩ : ∃ d : ℕ, expo t x = expo t r + d := ⟨(expo t x - expo t r).toNat, by omega⟩
    have := key (m * 2 ^ d)
    have e : (2 : K) ^ expo t x = 2 ^ expo t r * 2 ^ d := by
      rw [← zpow_natCast, ← zpow_add₀ (by norm_num)]; congr 1
    rw [e] at hx'
    rw [hx']
    push_cast at this
    rw [show (m : K) * (2 ^ expo t r * 2 ^ d) = m * 2 ^ d * 2 ^ expo t r by ring]
    exact this
  · have px := two_zpow_pos (K := K) (expo t x)
    have b1 : |x| ≤ 2 ^ (t - 1 : ℤ) * 2 ^ expo t r := by
      have c1 : |x| ≤ 2 ^ (t : ℤ) * 2 ^ expo t x := by
        have hmK : |(m : K)| ≤ (2 : K) ^ (t : ℤ) := by rw [zpow_natCast]; exact_mod_cast hm
        calc |x| = |(m : K)| * 2 ^ expo t x := by
              conv_lhs => rw [hx']
              rw [abs_mul, abs_of_pos px]
          _ ≤ _ := mul_le_mul_of_nonneg_right hmK px.le
      have c2 : (2 : K) ^ (t : ℤ) * 2 ^ expo t x ≤ 2 ^ (t - 1 : ℤ) * 2 ^ expo t r := by
        rw [← zpow_add₀ (by norm_num), ← zpow_add₀ (by norm_num), zpow_le_zpow_iff_right₀ (by norm_num)]
        omega
      exact le_trans c1 c2
    have b2 := expo_le t hr
    have hc : (2 : K) ^ (t - 1 : ℤ) = ((2 ^ (t - 1) : ℤ) : K) := by
      push_cast
      rw [← zpow_natCast]; congr 1; omega
    rw [hc] at b1 b2
    have b3 := abs_sub_abs_le_abs_sub r x
    rw [abs_sub_comm r x] at b3
    rcases le_total 0 r with h0 | h0
    · refine le_trans (key (2 ^ (t - 1))) ?_
      rw [abs_of_nonneg h0] at b2 b3
      rw [abs_of_nonpos (by linarith)]
      linarith
    · refine le_trans (key (-2 ^ (t - 1))) ?_
      rw [abs_of_nonpos h0] at b2 b3
      push_cast at b1 b2 ⊢
      rw [abs_of_nonneg (by linarith)]
      linarith

/-! ## Python's rounding -/

/-- rounding to a machine number and to decimals again gives the same decimal number -/
theorem pyRound_machine {fl : K → K} (hn : Nearest fl) {x : K} (hx : Machine fl x) (p : ℤ) :
    pyRound (fl (pyRound x p)) p = pyRound x p := by
  refine ((nearestEven_iff p _ _).1 ?_).symm
  obtain ⟨n, h1, h2, h3⟩ := pyRound_nearest x p
  have h := hn x (pyRound x p) hx
  refine ⟨n, h1, le_trans h h2, fun e => h3 (le_antisymm h2 ?_)⟩
  rw [← e]; exact h

theorem pyRoundF_idem {fl : K → K} (hn : Nearest fl) {x : K} (hx : Machine fl x) (p : ℤ) :
    pyRoundF fl (pyRoundF fl x p) p = pyRoundF fl x p := by
  unfold pyRoundF
  rw [pyRound_machine hn hx]

theorem pyRoundF_near {fl : K → K} (hn : Nearest fl) {x : K} (hx : Machine fl x) (p : ℤ) :
    |pyRoundF fl x p - x| ≤ (10 : K) ^ (-p) := by
  have h1 := hn x (pyRound x p) hx
  have h2 := pyRound_err x p
  unfold pyRoundF
  have h3 : |fl (pyRound x p) - x| ≤ |fl (pyRound x p) - pyRound x p| + |pyRound x p - x| := abs_sub_le _ _ _
  rw [abs_sub_comm (pyRound x p) x] at h3
  unfold eps10 at h2
  linarith

/-! ## Both ways of rounding, in range -/

/-- a decimal number with at most 15 significant digits, as a double -/
def DecF (p : ℤ) (y : K) : Prop := ∃ k : ℤ, |k| ≤ 2 ^ 50 ∧ y = flBin 53 ((k : K) * (10 : K) ^ (-p))

theorem ten_machine {p : ℤ} (h0 : 0 ≤ p) (h1 : p ≤ 22) : flBin 53 ((10 : K) ^ p) = (10 : K) ^ p := by
  obtain ⟨n, rfl⟩ := Int.eq_ofNat_of_zero_le h0
  have hn : n ≤ 22 := by omega
  have h := flBin_fix (K := K) (t := 53) (by norm_num) (m := 5 ^ n) (k := n) ?_
  · have e : (((5 : ℤ) ^ n : ℤ) : K) * 2 ^ (n : ℤ) = (10 : K) ^ (n : ℤ) := by
      push_cast
      rw [zpow_natCast, zpow_natCast, ← mul_pow]; norm_num
    rw [e] at h
    exact h
  · rw [abs_of_nonneg (by positivity)]
    calc (5 : ℤ) ^ n ≤ 5 ^ 22 := pow_le_pow_right₀ (by norm_num) hn
      _ ≤ _ := by norm_num

theorem fl_near (x : K) : |flBin 53 x - x| ≤ (1 / 2) ^ 53 * |x| := flBin_near 53 x

theorem pow50_machine (s : K) (h : |s| ≤ 2 ^ 50) : |flBin 53 s| ≤ 2 ^ 50 := by
  have e : flBin 53 ((2 : K) ^ 50) = 2 ^ 50 := by
    have := flBin_fix (K := K) (t := 53) (by norm_num) (m := 2 ^ 50) (k := 0) (by norm_num)
    rw [zpow_zero, mul_one] at this
    rw [show (((2 : ℤ) ^ 50 : ℤ) : K) = 2 ^ 50 by norm_num] at this
    exact this
  rw [abs_le] at h ⊢
  have h1 := flBin_mono (K := K) (t := 53) (by norm_num) h.1
  have h2 := flBin_mono (K := K) (t := 53) (by norm_num) h.2
  rw [flBin_neg, e] at h1
  rw [e] at h2
  exact ⟨h1, h2⟩

theorem round50 (s : K) (h : |s| ≤ 2 ^ 50) : |roundHalfEven s| ≤ 2 ^ 50 := by
  rw [abs_le] at h ⊢
  constructor
  · rw [← roundHalfEven_int (K := K) (-2 ^ 50)]
    exact roundHalfEven_mono (le_trans (by norm_num) h.1)
  · rw [← roundHalfEven_int (K := K) (2 ^ 50)]
    exact roundHalfEven_mono (le_trans h.2 (by norm_num))

theorem round_eq_of_near {s : K} {k : ℤ} (h : |s - k| < 1 / 2) : roundHalfEven s = k := by
  obtain ⟨h1, h2⟩ := roundHalfEven_spec s
  exact nearest_int_unique h1 h2 h.le (fun e => absurd e h.ne)

theorem ten_pos (p : ℤ) : (0 : K) < (10 : K) ^ p := zpow_pos (by norm_num) _

/-- in range, either way of rounding gives a decimal number of at most 15 digits within `3/4 * 10^-p` -/
theorem roundF_dec (k : NumKind) {p : ℤ} {x : K} (h : InRange p x) :
    DecF p (roundF (flBin 53) k x p) ∧ |roundF (flBin 53) k x p - x| ≤ 3 / 4 * (10 : K) ^ (-p) := by
  obtain ⟨h0, h22, hx⟩ := h
  have hT := ten_pos (K := K) p
  have hc := zpow_cancel (K := K) p
  have hu := ten_pos (K := K) (-p)
  have hxs : |x * (10 : K) ^ p| ≤ 2 ^ 50 := by rw [abs_mul, abs_of_pos hT]; exact hx
  -- the rounding of `k * 10^-p`, `k` close to `x * 10^p`
  have main : ∀ n : ℤ, |n| ≤ 2 ^ 50 → |x * (10 : K) ^ p - n| ≤ 5 / 8 →
      |flBin 53 ((n : K) * (10 : K) ^ (-p)) - x| ≤ 3 / 4 * (10 : K) ^ (-p) := by
    intro n hn hd
    have hnK : |(n : K)| ≤ 2 ^ 50 := by exact_mod_cast hn
    have h1 := fl_near ((n : K) * (10 : K) ^ (-p))
    rw [abs_mul, abs_of_pos hu] at h1
    have h2 : ((1 : K) / 2) ^ 53 * (|(n : K)| * (10 : K) ^ (-p)) ≤ 1 / 8 * (10 : K) ^ (-p) := by
      have : ((1 : K) / 2) ^ 53 * |(n : K)| ≤ 1 / 8 := by
        calc ((1 : K) / 2) ^ 53 * |(n : K)| ≤ (1 / 2) ^ 53 * 2 ^ 50 := mul_le_mul_of_nonneg_left hnK (by positivity)
          _ = 1 / 8 := by norm_num
      calc _ = ((1 : K) / 2) ^ 53 * |(n : K)| * (10 : K) ^ (-p) := by ring
        _ ≤ _ := mul_le_mul_of_nonneg_right this hu.le
    have h3 : |(n : K) * (10 : K) ^ (-p) - x| ≤ 5 / 8 * (10 : K) ^ (-p) := by
      have e : (n : K) * (10 : K) ^ (-p) - x = -(x * (10 : K) ^ p - n) * (10 : K) ^ (-p) := by
        rw [neg_mul, sub_mul, mul_assoc, hc]; ring
      rw [e, abs_mul, abs_neg, abs_of_pos hu]
      exact mul_le_mul_of_nonneg_right hd hu.le
    have h4 := abs_sub_le (flBin 53 ((n : K) * (10 : K) ^ (-p))) ((n : K) * (10 : K) ^ (-p)) x
    linarith
  cases k with
  | python =>
    have e : roundF (flBin 53) .python x p = flBin 53 ((roundHalfEven (x * (10 : K) ^ p) : K) * (10 : K) ^ (-p)) := rfl
    rw [e]
    have hk := round50 _ hxs
    have hs := (roundHalfEven_spec (x * (10 : K) ^ p)).1
    exact ⟨⟨_, hk, rfl⟩, main _ hk (by linarith)⟩
  | numpy =>
    have e : roundF (flBin 53) .numpy x p =
        flBin 53 ((roundHalfEven (flBin 53 (x * (10 : K) ^ p)) : K) * (10 : K) ^ (-p)) := by
      show npRoundF (flBin 53) x p = _
      unfold npRoundF
      rw [if_pos h0, ten_machine h0 h22, zpow_neg, div_eq_mul_inv]
    rw [e]
    have hk := round50 _ (pow50_machine _ hxs)
    have hs := (roundHalfEven_spec (flBin 53 (x * (10 : K) ^ p))).1
    have hf := fl_near (x * (10 : K) ^ p)
    have hb : ((1 : K) / 2) ^ 53 * |x * (10 : K) ^ p| ≤ 1 / 8 := by
      calc ((1 : K) / 2) ^ 53 * |x * (10 : K) ^ p| ≤ (1 / 2) ^ 53 * 2 ^ 50 :=
            mul_le_mul_of_nonneg_left hxs (by positivity)
        _ = 1 / 8 := by norm_num
    have h4 := abs_sub_le (x * (10 : K) ^ p) (flBin 53 (x * (10 : K) ^ p))
      ((roundHalfEven (flBin 53 (x * (10 : K) ^ p)) : ℤ) : K)
    rw [abs_sub_comm (x * (10 : K) ^ p) (flBin 53 _)] at h4
    exact ⟨⟨_, hk, rfl⟩, main _ hk (by linarith)⟩

/-- a decimal number as a double, scaled up -/
theorem dec_scaled {p : ℤ} {y : K} {k : ℤ} (hk : |k| ≤ 2 ^ 50) (hy : y = flBin 53 ((k : K) * (10 : K) ^ (-p))) :
    |y * (10 : K) ^ p - k| ≤ 1 / 8 := by
  have hT := ten_pos (K := K) p
  have hc := zpow_cancel (K := K) p
  have hu := ten_pos (K := K) (-p)
  have hkK : |(k : K)| ≤ 2 ^ 50 := by exact_mod_cast hk
  have h1 := fl_near ((k : K) * (10 : K) ^ (-p))
  rw [← hy, abs_mul, abs_of_pos hu] at h1
  have e : y * (10 : K) ^ p - k = (y - (k : K) * (10 : K) ^ (-p)) * (10 : K) ^ p := by
    rw [sub_mul, mul_assoc, mul_comm ((10 : K) ^ (-p)), hc, mul_one]
  rw [e, abs_mul, abs_of_pos hT]
  calc _ ≤ (1 / 2) ^ 53 * (|(k : K)| * (10 : K) ^ (-p)) * (10 : K) ^ p := mul_le_mul_of_nonneg_right h1 hT.le
    _ = (1 / 2) ^ 53 * |(k : K)| * ((10 : K) ^ p * (10 : K) ^ (-p)) := by ring
    _ ≤ (1 / 2) ^ 53 * 2 ^ 50 := by
      rw [hc, mul_one]; exact mul_le_mul_of_nonneg_left hkK (by positivity)
    _ = 1 / 8 := by norm_num

/-- such a number is left alone by either way of rounding -/
theorem roundF_fix (k : NumKind) {p : ℤ} (h0 : 0 ≤ p) (h22 : p ≤ 22) {y : K} (h : DecF p y) :
    roundF (flBin 53) k y p = y := by
  obtain ⟨n, hn, hy⟩ := h
  have hd := dec_scaled hn hy
  cases k with
  | python =>
    have e : roundF (flBin 53) .python y p = flBin 53 ((roundHalfEven (y * (10 : K) ^ p) : K) * (10 : K) ^ (-p)) := rfl
    rw [e, round_eq_of_near (lt_of_le_of_lt hd (by norm_num)), ← hy]
  | numpy =>
    have e : roundF (flBin 53) .numpy y p =
        flBin 53 ((roundHalfEven (flBin 53 (y * (10 : K) ^ p)) : K) * (10 : K) ^ (-p)) := by
      show npRoundF (flBin 53) y p = _
      unfold npRoundF
      rw [if_pos h0, ten_machine h0 h22, zpow_neg, div_eq_mul_inv]
    have hnK : |(n : K)| ≤ 2 ^ 50 := by exact_mod_cast hn
    have hb : |y * (10 : K) ^ p| ≤ 2 ^ 51 := by
      have := abs_sub_abs_le_abs_sub (y * (10 : K) ^ p) n
      have : |y * (10 : K) ^ p| ≤ 2 ^ 50 + 1 / 8 := by linarith
      refine le_trans this (by norm_num)
    have hf := fl_near (y * (10 : K) ^ p)
    have hb2 : ((1 : K) / 2) ^ 53 * |y * (10 : K) ^ p| ≤ 1 / 4 := by
      calc ((1 : K) / 2) ^ 53 * |y * (10 : K) ^ p| ≤ (1 / 2) ^ 53 * 2 ^ 51 :=
            mul_le_mul_of_nonneg_left hb (by positivity)
        _ = 1 / 4 := by norm_num
    have h4 := abs_sub_le (flBin 53 (y * (10 : K) ^ p)) (y * (10 : K) ^ p) (n : K)
    rw [e, round_eq_of_near (lt_of_le_of_lt (le_trans h4 (add_le_add (le_trans hf hb2) hd)) (by norm_num)), ← hy]

/-- different such numbers keep a distance -/
theorem dec_apart {p : ℤ} {y z : K} (hy : DecF p y) (hz : DecF p z) (h : y ≠ z) :
    3 / 4 * (10 : K) ^ (-p) ≤ |y - z| := by
  obtain ⟨n, hn, ey⟩ := hy
  obtain ⟨m, hm, ez⟩ := hz
  have d1 := dec_scaled hn ey
  have d2 := dec_scaled hm ez
  have hnm : n ≠ m := by rintro rfl; exact h (by rw [ey, ez])
  have h1 : (1 : K) ≤ |(n : K) - m| := by
    have : (1 : ℤ) ≤ |n - m| := Int.one_le_abs (sub_ne_zero.2 hnm)
    exact_mod_cast this
  have hT := ten_pos (K := K) p
  have hu := ten_pos (K := K) (-p)
  have hc := zpow_cancel (K := K) p
  have h2 : 3 / 4 ≤ |y * (10 : K) ^ p - z * (10 : K) ^ p| := by
    have t1 := abs_sub_le (n : K) (y * (10 : K) ^ p) m
    have t2 := abs_sub_le (y * (10 : K) ^ p) (z * (10 : K) ^ p) m
    rw [abs_sub_comm (n : K) (y * (10 : K) ^ p)] at t1
    linarith
  rw [← sub_mul, abs_mul, abs_of_pos hT] at h2
  calc 3 / 4 * (10 : K) ^ (-p) ≤ |y - z| * (10 : K) ^ p * (10 : K) ^ (-p) := mul_le_mul_of_nonneg_right h2 hu.le
    _ = |y - z| := by rw [mul_assoc, hc, mul_one]

/-! ## Histories -/

/-- what is stored after one call was stored before or is the rounding of the added root at the precision of the call -/
theorem stepF_mem {fl : K → K} {c : RContainer K} {op : ROpF K} {r : Root K} (h : r ∈ (c.stepF fl op).rootSet) :
    (r ∈ c.rootSet ∧ (c.stepF fl op).precision = c.precision) ∨
    ∃ k x ctx info, op = .add k x ctx info ∧ (c.stepF fl op).precision = ctx.precision ∧
      r = roundRootF fl k x ctx.precision := by
  cases op with
  | add k x ctx info =>
    simp only [RContainer.stepF, RContainer.addRootF] at h ⊢
    by_cases ha : c.accepts x ctx
    · rw [if_pos ha] at h ⊢
      by_cases hp : ctx.precision ≠ c.precision
      · rw [if_pos hp] at h ⊢
        dsimp only at h ⊢
        split at h
        · simp [RContainer.clear] at h
        · rename_i hi
          rw [if_neg hi]
          simp only [setAdd, RContainer.clear, List.not_mem_nil, if_false, List.nil_append, List.mem_singleton] at h
          exact Or.inr ⟨k, x, ctx, info, rfl, rfl, h⟩
      · rw [if_neg hp] at h ⊢
        have hp' : ctx.precision = c.precision := not_not.1 hp
        split at h
        · rename_i hi
          rw [if_pos hi]
          exact Or.inl ⟨h, rfl⟩
        · rename_i hi
          rw [if_neg hi]
          simp only [setAdd] at h
          split at h
          · exact Or.inl ⟨h, rfl⟩
          · rcases List.mem_append.1 h with h | h
            · exact Or.inl ⟨h, rfl⟩
            · exact Or.inr ⟨k, x, ctx, info, rfl, hp'.symm, by rw [hp']; exact List.mem_singleton.1 h⟩
    · rw [if_neg ha] at h ⊢
      exact Or.inl ⟨h, rfl⟩
  | remove k x =>
    left
    simp only [RContainer.stepF, RContainer.removeRootF] at h ⊢
    split at h
    · rename_i hm
      rw [if_pos hm]
      exact ⟨List.mem_of_mem_erase h, rfl⟩
    · rename_i hm
      rw [if_neg hm]
      exact ⟨h, rfl⟩
  | clear => simp [RContainer.stepF, RContainer.clear] at h
  | register key p => exact Or.inl ⟨h, rfl⟩
  | unregister key => exact Or.inl ⟨h, rfl⟩

/-- everything stored is the rounding of a root added in the history, at the precision the container has -/
theorem runF_mem {fl : K → K} (ops : List (ROpF K)) : ∀ (c : RContainer K) (r : Root K), r ∈ (c.runF fl ops).rootSet →
    (r ∈ c.rootSet ∧ (c.runF fl ops).precision = c.precision) ∨
    ∃ k x ctx info, ROpF.add k x ctx info ∈ ops ∧ (c.runF fl ops).precision = ctx.precision ∧
      r = roundRootF fl k x ctx.precision := by
  induction ops with
  | nil => intro c r h; exact Or.inl ⟨h, rfl⟩
  | cons op ops ih =>
    intro c r h
    have e : c.runF fl (op :: ops) = (c.stepF fl op).runF fl ops := rfl
    rw [e] at h ⊢
    rcases ih _ r h with ⟨h1, h2⟩ | ⟨k, x, ctx, info, h1, h2, h3⟩
    · rcases stepF_mem h1 with ⟨g1, g2⟩ | ⟨k, x, ctx, info, g1, g2, g3⟩
      · exact Or.inl ⟨g1, h2.trans g2⟩
      · exact Or.inr ⟨k, x, ctx, info, by simp [g1], h2.trans g2, g3⟩
    · exact Or.inr ⟨k, x, ctx, info, List.mem_cons_of_mem _ h1, h2, h3⟩

theorem setAdd_nodup' {s : List (Root K)} (r : Root K) (h : s.Nodup) : (setAdd s r).Nodup := by
  unfold setAdd
  split
  · exact h
  · rename_i hr
    exact h.append (List.nodup_singleton r) (by simpa using hr)

theorem stepF_nodup {fl : K → K} {c : RContainer K} (op : ROpF K) (h : c.rootSet.Nodup) :
    (c.stepF fl op).rootSet.Nodup := by
  cases op with
  | add k x ctx info =>
    simp only [RContainer.stepF, RContainer.addRootF]
    split
    · split
      · dsimp only
        split
        · exact List.nodup_nil
        · exact setAdd_nodup' _ List.nodup_nil
      · split
        · exact h
        · exact setAdd_nodup' _ h
    · exact h
  | remove k x =>
    simp only [RContainer.stepF, RContainer.removeRootF]
    split
    · exact h.erase _
    · exact h
  | clear => simp [RContainer.stepF, RContainer.clear]
  | register key p => exact h
  | unregister key => exact h

theorem runF_nodup {fl : K → K} (ops : List (ROpF K)) : ∀ (c : RContainer K), c.rootSet.Nodup →
    (c.runF fl ops).rootSet.Nodup := by
  induction ops with
  | nil => intro c h; exact h
  | cons op ops ih => intro c h; exact ih _ (stepF_nodup op h)

/-- adding a stored root which rounds to itself changes nothing -/
theorem addRootF_again {fl : K → K} {c : RContainer K} {k : NumKind} {r : Root K} (hr : r ∈ c.rootSet)
    (hfix : roundRootF fl k r c.precision = r) (info : Bool) {ctx : FilterCtx K} (hp : ctx.precision = c.precision) :
    c.addRootF fl info k r ctx = c := by
  unfold RContainer.addRootF
  split
  · rw [if_neg (not_not.2 hp)]
    dsimp only
    rw [hfix]
    split
    · rfl
    · simp [setAdd, hr]
  · rfl

/-- removing a stored root which rounds to itself -/
theorem removeRootF_stored {fl : K → K} {c : RContainer K} (hnd : c.rootSet.Nodup) {k : NumKind} {r : Root K}
    (hr : r ∈ c.rootSet) (hfix : roundRootF fl k r c.precision = r) :
    RemovesExactly r c (c.removeRootF fl k r) := by
  unfold RContainer.removeRootF
  simp only [hfix]
  rw [if_pos hr]
  refine ⟨rfl, rfl, rfl, fun s => ?_⟩
  rw [hnd.mem_erase_iff]
  exact and_comm

end PyZeal
