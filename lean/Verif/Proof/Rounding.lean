import Verif.Spec.Rounding

/-! # Lemmas on rounding -/

set_option linter.unusedSectionVars false

namespace PyZeal
open Spec
variable {K : Type} [Field K] [LinearOrder K] [IsStrictOrderedRing K] [FloorRing K]

theorem roundHalfEven_spec (t : K) :
    |t - (roundHalfEven t : K)| ≤ 1 / 2 ∧
      (|t - (roundHalfEven t : K)| = 1 / 2 → Even (roundHalfEven t)) := by
  have h0 := Int.floor_le t
  have h1 := Int.lt_floor_add_one t
  unfold roundHalfEven
  split
  · rename_i h
    rw [abs_of_nonneg (by linarith)]
    exact ⟨h.le, fun e => absurd e h.ne⟩
  split
  · rename_i h h'
    push_cast
    rw [abs_of_nonpos (by linarith)]
    exact ⟨by linarith, fun e => absurd e (by intro e; linarith)⟩
  rename_i h h'
  have he : t - ⌊t⌋ = 1 / 2 := le_antisymm (not_lt.1 h') (not_lt.1 h)
  split
  · rename_i hev
    rw [he, abs_of_pos (by norm_num)]
    exact ⟨le_refl _, fun _ => Int.even_iff.2 hev⟩
  · rename_i hev
    push_cast
    have : t - (⌊t⌋ + 1) = -(1 / 2) := by linarith
    rw [this, abs_neg, abs_of_pos (by norm_num)]
    exact ⟨le_refl _, fun _ => by rw [Int.even_iff]; omega⟩

omit [FloorRing K] in
theorem nearest_int_unique {t : K} {n m : ℤ}
    (hn : |t - n| ≤ 1 / 2) (hn' : |t - n| = 1 / 2 → Even n)
    (hm : |t - m| ≤ 1 / 2) (hm' : |t - m| = 1 / 2 → Even m) : n = m := by
  wlog hlt : n ≤ m generalizing n m
  · exact (this hm hm' hn hn' (le_of_not_ge hlt)).symm
  rw [abs_le] at hn hm
  have h1 : (m : K) - n ≤ 1 := by linarith
  have h2 : m - n ≤ 1 := by exact_mod_cast h1
  rcases Nat.lt_or_ge 0 (m - n).toNat with h | h
  · have e : m = n + 1 := by omega
    subst e
    push_cast at hm
    have e1 : t - n = 1 / 2 := by linarith
    have e2 : t - ((n + 1 : ℤ) : K) = -(1 / 2) := by push_cast; linarith
    have a1 := hn' (by rw [e1, abs_of_pos (by norm_num)])
    have a2 := hm' (by rw [e2, abs_neg, abs_of_pos (by norm_num)])
    rw [Int.even_iff] at a1 a2
    omega
  · omega

omit [LinearOrder K] [IsStrictOrderedRing K] [FloorRing K] in
theorem zpow_cancel [CharZero K] (p : ℤ) : (10 : K) ^ p * (10 : K) ^ (-p) = 1 := by
  rw [← zpow_add₀ (by norm_num)]; simp

omit [FloorRing K] in
theorem scale_abs (x y : K) (p : ℤ) :
    |x - y * (10 : K) ^ (-p)| = |x * (10 : K) ^ p - y| * (10 : K) ^ (-p) := by
  have hp : (0 : K) < (10 : K) ^ (-p) := zpow_pos (by norm_num) _
  rw [← abs_of_pos hp, ← abs_mul, abs_of_pos hp, sub_mul, mul_assoc, zpow_cancel, mul_one]

/-- The model's rounding is exactly the specified one. -/
theorem nearestEven_iff (p : ℤ) (x y : K) : NearestEven p x y ↔ y = pyRound x p := by
  have hp : (0 : K) < (10 : K) ^ (-p) := zpow_pos (by norm_num) _
  have key : ∀ n : ℤ, (|x - (n : K) * (10 : K) ^ (-p)| ≤ (10 : K) ^ (-p) / 2 ↔
      |x * (10 : K) ^ p - n| ≤ 1 / 2) ∧
      (|x - (n : K) * (10 : K) ^ (-p)| = (10 : K) ^ (-p) / 2 ↔
      |x * (10 : K) ^ p - n| = 1 / 2) := by
    intro n
    rw [scale_abs]
    constructor
    · constructor
      · intro h
        have : |x * 10 ^ p - (n : K)| * 10 ^ (-p) ≤ 1 / 2 * 10 ^ (-p) := by linarith
        exact le_of_mul_le_mul_right this hp
      · intro h
        have := mul_le_mul_of_nonneg_right h hp.le
        linarith
    · constructor
      · intro h
        have : |x * 10 ^ p - (n : K)| * 10 ^ (-p) = 1 / 2 * 10 ^ (-p) := by linarith
        exact mul_right_cancel₀ hp.ne' this
      · intro h; rw [h]; ring
  obtain ⟨r1, r2⟩ := roundHalfEven_spec (x * (10 : K) ^ p)
  constructor
  · rintro ⟨n, rfl, h1, h2⟩
    have : n = roundHalfEven (x * (10 : K) ^ p) :=
      nearest_int_unique ((key n).1.1 h1) (fun e => h2 ((key n).2.2 e)) r1 r2
    rw [this]; rfl
  · rintro rfl
    exact ⟨_, rfl, (key _).1.2 r1, fun e => r2 ((key _).2.1 e)⟩

theorem pyRound_nearest (x : K) (p : ℤ) : NearestEven p x (pyRound x p) :=
  (nearestEven_iff p x _).2 rfl

theorem pyRound_err (x : K) (p : ℤ) : |x - pyRound x p| ≤ eps10 K p / 2 := by
  obtain ⟨n, h, h1, _⟩ := pyRound_nearest x p
  exact h1

theorem pyRound_of_decimals {p : ℤ} {x : K} (h : HasDecimals p x) : pyRound x p = x := by
  have hp : (0 : K) < (10 : K) ^ (-p) := zpow_pos (by norm_num) _
  obtain ⟨n, rfl⟩ := h
  refine ((nearestEven_iff p _ _).1 ⟨n, rfl, ?_, ?_⟩).symm
  · simp only [sub_self, abs_zero]; linarith
  · simp only [sub_self, abs_zero]
    intro e; exact absurd e (ne_of_lt (by linarith))

theorem pyRound_hasDecimals (x : K) (p : ℤ) : HasDecimals p (pyRound x p) := ⟨_, rfl⟩

theorem pyRound_idem (x : K) (p : ℤ) : pyRound (pyRound x p) p = pyRound x p :=
  pyRound_of_decimals (pyRound_hasDecimals x p)

theorem roundHalfEven_mono {s t : K} (h : s ≤ t) : roundHalfEven s ≤ roundHalfEven t := by
  by_contra hlt
  push Not at hlt
  obtain ⟨a1, a2⟩ := roundHalfEven_spec s
  obtain ⟨b1, b2⟩ := roundHalfEven_spec t
  rw [abs_le] at a1 b1
  have h1 : (roundHalfEven t : K) + 1 ≤ roundHalfEven s := by exact_mod_cast hlt
  have e1 : s = t := by linarith
  subst e1
  linarith

theorem pyRound_mono {x y : K} (h : x ≤ y) (p : ℤ) : pyRound x p ≤ pyRound y p := by
  have hp : (0 : K) < (10 : K) ^ (-p) := zpow_pos (by norm_num) _
  have hq : (0 : K) < (10 : K) ^ p := zpow_pos (by norm_num) _
  unfold pyRound eps10
  apply mul_le_mul_of_nonneg_right _ hp.le
  exact_mod_cast roundHalfEven_mono (mul_le_mul_of_nonneg_right h hq.le)

end PyZeal
