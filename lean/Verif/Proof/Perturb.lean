import Mathlib.Analysis.Complex.Basic
import Mathlib.Analysis.Complex.Polynomial.Basic
import Mathlib.Tactic.ComputeDegree
import Mathlib.Tactic.Linarith
import Mathlib.Tactic.Ring
import Mathlib.Tactic.LinearCombination

/-! # Zeros of polynomials with perturbed power sums -/

namespace PyZeal
open Polynomial

private theorem n3 (a b c : ℂ) : ‖a + b + c‖ ≤ ‖a‖ + ‖b‖ + ‖c‖ := (norm_add_le _ _).trans (add_le_add_left (norm_add_le _ _) _)

/-- degree 2 -/
theorem quadratic_close {z1 z2 w1 w2 : ℂ} {R η : ℝ} (hR : 0 < R) (h0 : 0 ≤ η) (h1 : η ≤ 1 / 100) (hz1 : ‖z1‖ ≤ R) (hz2 : ‖z2‖ ≤ R)
    (hp1 : ‖(w1 + w2) - (z1 + z2)‖ ≤ η * R) (hp2 : ‖(w1 ^ 2 + w2 ^ 2) - (z1 ^ 2 + z2 ^ 2)‖ ≤ η * R ^ 2) :
    (∀ z, z = z1 ∨ z = z2 → ‖z - w1‖ * ‖z - w2‖ ≤ 22 * η * R ^ 2) ∧ ∀ w, w = w1 ∨ w = w2 → ‖w - z1‖ * ‖w - z2‖ ≤ 22 * η * R ^ 2 := by
  obtain ⟨D1, hD1⟩ : ∃ D, D = (w1 + w2) - (z1 + z2) := ⟨_, rfl⟩
  obtain ⟨D2, hD2⟩ : ∃ D, D = w1 * w2 - z1 * z2 := ⟨_, rfl⟩
  have hs : ‖z1 + z2‖ ≤ 2 * R := (norm_add_le _ _).trans (by linarith)
  rw [← hD1] at hp1
  have hD2n : ‖D2‖ ≤ 3 * η * R ^ 2 := by
    have e : D2 = (D1 * D1 + 2 * (z1 + z2) * D1 + -((w1 ^ 2 + w2 ^ 2) - (z1 ^ 2 + z2 ^ 2))) / 2 := by rw [hD1, hD2]; ring
    have h := n3 (D1 * D1) (2 * (z1 + z2) * D1) (-((w1 ^ 2 + w2 ^ 2) - (z1 ^ 2 + z2 ^ 2)))
    rw [norm_neg, norm_mul, norm_mul, norm_mul] at h
    rw [e, norm_div]
    have h2 : ‖(2 : ℂ)‖ = 2 := by norm_num
    rw [h2] at h ⊢
    have a1 : ‖D1‖ * ‖D1‖ ≤ (η * R) * (η * R) := mul_le_mul hp1 hp1 (norm_nonneg _) (by positivity)
    have a2 : 2 * ‖z1 + z2‖ * ‖D1‖ ≤ 2 * (2 * R) * (η * R) := mul_le_mul (by linarith) hp1 (norm_nonneg _) (by positivity)
    have a3 : (η * R) * (η * R) ≤ η * R ^ 2 := by
      have : η * (η * R ^ 2) ≤ 1 * (η * R ^ 2) := mul_le_mul_of_nonneg_right (by linarith) (by positivity)
      nlinarith
    rw [div_le_iff₀ (by norm_num)]
    nlinarith
  have bound : ∀ x : ℂ, ‖-D1 * x + D2‖ ≤ η * R * ‖x‖ + 3 * η * R ^ 2 := by
    intro x
    refine (norm_add_le _ _).trans (add_le_add ?_ hD2n)
    rw [norm_mul, norm_neg]
    exact mul_le_mul_of_nonneg_right hp1 (norm_nonneg _)
  constructor
  · intro z hz
    rw [← norm_mul]
    have hzn : ‖z‖ ≤ R := by rcases hz with rfl | rfl <;> assumption
    have e : (z - w1) * (z - w2) = -D1 * z + D2 := by rcases hz with rfl | rfl <;> rw [hD1, hD2] <;> ring
    rw [e]
    refine (bound z).trans ?_
    have : η * R * ‖z‖ ≤ η * R * R := mul_le_mul_of_nonneg_left hzn (by positivity)
    have : 0 ≤ η * R ^ 2 := by positivity
    nlinarith
  · intro w hw
    have e : (w - z1) * (w - z2) = -(-D1 * w + D2) := by rcases hw with rfl | rfl <;> rw [hD1, hD2] <;> ring
    have hb : ‖w - z1‖ * ‖w - z2‖ ≤ η * R * ‖w‖ + 3 * η * R ^ 2 := by
      rw [← norm_mul, e, norm_neg]; exact bound w
    have hw2 : ‖w‖ ≤ 2 * R := by
      by_contra hc
      push Not at hc
      have f1 : ‖w‖ / 2 ≤ ‖w - z1‖ := by have := norm_sub_norm_le w z1; linarith
      have f2 : ‖w‖ / 2 ≤ ‖w - z2‖ := by have := norm_sub_norm_le w z2; linarith
      have f3 : ‖w‖ / 2 * (‖w‖ / 2) ≤ ‖w - z1‖ * ‖w - z2‖ := mul_le_mul f1 f2 (by positivity) (norm_nonneg _)
      have g1 : η * R * ‖w‖ ≤ 1 / 100 * (‖w‖ / 2) * ‖w‖ :=
        mul_le_mul_of_nonneg_right (mul_le_mul h1 (by linarith) hR.le (by norm_num)) (norm_nonneg _)
      have g2 : 3 * η * R ^ 2 ≤ 3 * (1 / 100) * (‖w‖ / 2) ^ 2 :=
        mul_le_mul (by linarith) (pow_le_pow_left₀ hR.le (by linarith) 2) (by positivity) (by norm_num)
      nlinarith
    refine hb.trans ?_
    have : η * R * ‖w‖ ≤ η * R * (2 * R) := mul_le_mul_of_nonneg_left hw2 (by positivity)
    have : 0 ≤ η * R ^ 2 := by positivity
    nlinarith

/-- degree 3 -/
theorem cubic_close {z1 z2 z3 w1 w2 w3 : ℂ} {R η : ℝ} (hR : 0 < R) (h0 : 0 ≤ η) (h1 : η ≤ 1 / 100) (hz1 : ‖z1‖ ≤ R) (hz2 : ‖z2‖ ≤ R) (hz3 : ‖z3‖ ≤ R)
    (hp1 : ‖(w1 + w2 + w3) - (z1 + z2 + z3)‖ ≤ η * R) (hp2 : ‖(w1 ^ 2 + w2 ^ 2 + w3 ^ 2) - (z1 ^ 2 + z2 ^ 2 + z3 ^ 2)‖ ≤ η * R ^ 2)
    (hp3 : ‖(w1 ^ 3 + w2 ^ 3 + w3 ^ 3) - (z1 ^ 3 + z2 ^ 3 + z3 ^ 3)‖ ≤ η * R ^ 3) :
    (∀ z, z = z1 ∨ z = z2 ∨ z = z3 → ‖z - w1‖ * ‖z - w2‖ * ‖z - w3‖ ≤ 22 * η * R ^ 3) ∧
    ∀ w, w = w1 ∨ w = w2 ∨ w = w3 → ‖w - z1‖ * ‖w - z2‖ * ‖w - z3‖ ≤ 22 * η * R ^ 3 := by
  obtain ⟨P1, hP1⟩ : ∃ D, D = (w1 + w2 + w3) - (z1 + z2 + z3) := ⟨_, rfl⟩
  obtain ⟨P2, hP2⟩ : ∃ D, D = (w1 ^ 2 + w2 ^ 2 + w3 ^ 2) - (z1 ^ 2 + z2 ^ 2 + z3 ^ 2) := ⟨_, rfl⟩
  obtain ⟨P3, hP3⟩ : ∃ D, D = (w1 ^ 3 + w2 ^ 3 + w3 ^ 3) - (z1 ^ 3 + z2 ^ 3 + z3 ^ 3) := ⟨_, rfl⟩
  obtain ⟨s1, hs1⟩ : ∃ s, s = z1 + z2 + z3 := ⟨_, rfl⟩
  obtain ⟨s2, hs2⟩ : ∃ s, s = z1 ^ 2 + z2 ^ 2 + z3 ^ 2 := ⟨_, rfl⟩
  obtain ⟨D2, hD2⟩ : ∃ D, D = (w1 * w2 + w1 * w3 + w2 * w3) - (z1 * z2 + z1 * z3 + z2 * z3) := ⟨_, rfl⟩
  obtain ⟨D3, hD3⟩ : ∃ D, D = w1 * w2 * w3 - z1 * z2 * z3 := ⟨_, rfl⟩
  rw [← hP1] at hp1
  rw [← hP2] at hp2
  rw [← hP3] at hp3
  have ns1 : ‖s1‖ ≤ 3 * R := by rw [hs1]; exact (n3 _ _ _).trans (by linarith)
  have sq : ∀ z : ℂ, ‖z‖ ≤ R → ‖z ^ 2‖ ≤ R ^ 2 := fun z h => by rw [norm_pow]; exact pow_le_pow_left₀ (norm_nonneg _) h 2
  have ns2 : ‖s2‖ ≤ 3 * R ^ 2 := by
    rw [hs2]; exact (n3 _ _ _).trans (by linarith [sq z1 hz1, sq z2 hz2, sq z3 hz3])
  have n2 : ‖(2 : ℂ)‖ = 2 := by norm_num
  have n3' : ‖(3 : ℂ)‖ = 3 := by norm_num
  have n6 : ‖(6 : ℂ)‖ = 6 := by norm_num
  have hR2 : 0 < R ^ 2 := by positivity
  have hR3 : 0 < R ^ 3 := by positivity
  have ηR : 0 ≤ η * R := by positivity
  have ηR2 : 0 ≤ η * R ^ 2 := by positivity
  have ηR3 : 0 ≤ η * R ^ 3 := by positivity
  have D2n : ‖D2‖ ≤ 4 * η * R ^ 2 := by
    have e : D2 = (P1 * P1 + 2 * s1 * P1 + -P2) / 2 := by rw [hD2, hP1, hP2, hs1]; ring
    have h := n3 (P1 * P1) (2 * s1 * P1) (-P2)
    rw [norm_neg, norm_mul, norm_mul, norm_mul, n2] at h
    rw [e, norm_div, n2, div_le_iff₀ (by norm_num)]
    have a1 : ‖P1‖ * ‖P1‖ ≤ (1 / 100 * R) * (η * R) := mul_le_mul (hp1.trans (mul_le_mul_of_nonneg_right h1 hR.le)) hp1 (norm_nonneg _) (by positivity)
    have a2 : 2 * ‖s1‖ * ‖P1‖ ≤ 2 * (3 * R) * (η * R) := mul_le_mul (by linarith) hp1 (norm_nonneg _) (by positivity)
    nlinarith
  have D3n : ‖D3‖ ≤ 9 * η * R ^ 3 := by
    have e : D3 = ((3 * (s1 * s1) * P1 + 3 * s1 * (P1 * P1) + P1 * P1 * P1) + -(3 * (s1 * P2) + 3 * (P1 * s2) + 3 * (P1 * P2)) + 2 * P3) / 6 := by
      rw [hD3, hP1, hP2, hP3, hs1, hs2]; ring
    have b1 := n3 (3 * (s1 * s1) * P1) (3 * s1 * (P1 * P1)) (P1 * P1 * P1)
    have b2 := n3 (3 * (s1 * P2)) (3 * (P1 * s2)) (3 * (P1 * P2))
    have b3 := n3 (3 * (s1 * s1) * P1 + 3 * s1 * (P1 * P1) + P1 * P1 * P1) (-(3 * (s1 * P2) + 3 * (P1 * s2) + 3 * (P1 * P2))) (2 * P3)
    rw [norm_neg] at b3
    simp only [norm_mul, n3'] at b1 b2
    have b4 : ‖2 * P3‖ = 2 * ‖P3‖ := by rw [norm_mul, n2]
    rw [b4] at b3
    rw [e, norm_div, n6, div_le_iff₀ (by norm_num)]
    have p1' : ‖P1‖ ≤ 1 / 100 * R := hp1.trans (mul_le_mul_of_nonneg_right h1 hR.le)
    have c1 : ‖s1‖ * ‖s1‖ ≤ (3 * R) * (3 * R) := mul_le_mul ns1 ns1 (norm_nonneg _) (by positivity)
    have c2 : 3 * (‖s1‖ * ‖s1‖) * ‖P1‖ ≤ 3 * ((3 * R) * (3 * R)) * (η * R) := mul_le_mul (by linarith) hp1 (norm_nonneg _) (by positivity)
    have c3 : ‖P1‖ * ‖P1‖ ≤ (1 / 100 * R) * (η * R) := mul_le_mul p1' hp1 (norm_nonneg _) (by positivity)
    have c4 : 3 * ‖s1‖ * (‖P1‖ * ‖P1‖) ≤ 3 * (3 * R) * ((1 / 100 * R) * (η * R)) := mul_le_mul (by linarith) c3 (by positivity) (by positivity)
    have c5 : ‖P1‖ * ‖P1‖ * ‖P1‖ ≤ (1 / 100 * R) * (η * R) * (1 / 100 * R) := mul_le_mul c3 p1' (norm_nonneg _) (by positivity)
    have c6 : ‖s1‖ * ‖P2‖ ≤ 3 * R * (η * R ^ 2) := mul_le_mul ns1 hp2 (norm_nonneg _) (by positivity)
    have c7 : ‖P1‖ * ‖s2‖ ≤ η * R * (3 * R ^ 2) := mul_le_mul hp1 ns2 (norm_nonneg _) (by positivity)
    have c8 : ‖P1‖ * ‖P2‖ ≤ 1 / 100 * R * (η * R ^ 2) := mul_le_mul p1' hp2 (norm_nonneg _) (by positivity)
    nlinarith
  have bound : ∀ x : ℂ, ‖-P1 * x ^ 2 + D2 * x + -D3‖ ≤ η * R * ‖x‖ ^ 2 + 4 * η * R ^ 2 * ‖x‖ + 9 * η * R ^ 3 := by
    intro x
    refine (n3 _ _ _).trans (add_le_add (add_le_add ?_ ?_) (by rw [norm_neg]; exact D3n))
    · rw [norm_mul, norm_neg, norm_pow]
      exact mul_le_mul_of_nonneg_right hp1 (by positivity)
    · rw [norm_mul]
      exact mul_le_mul_of_nonneg_right D2n (norm_nonneg _)
  constructor
  · intro z hz
    rw [← norm_mul, ← norm_mul]
    have hzn : ‖z‖ ≤ R := by rcases hz with rfl | rfl | rfl <;> assumption
    have e : (z - w1) * (z - w2) * (z - w3) = -P1 * z ^ 2 + D2 * z + -D3 := by rcases hz with rfl | rfl | rfl <;> rw [hP1, hD2, hD3] <;> ring
    rw [e]
    refine (bound z).trans ?_
    have a1 : η * R * ‖z‖ ^ 2 ≤ η * R * R ^ 2 := mul_le_mul_of_nonneg_left (pow_le_pow_left₀ (norm_nonneg _) hzn 2) ηR
    have a2 : 4 * η * R ^ 2 * ‖z‖ ≤ 4 * η * R ^ 2 * R := mul_le_mul_of_nonneg_left hzn (by positivity)
    nlinarith
  · intro w hw
    have e : (w - z1) * (w - z2) * (w - z3) = -(-P1 * w ^ 2 + D2 * w + -D3) := by rcases hw with rfl | rfl | rfl <;> rw [hP1, hD2, hD3] <;> ring
    have hb : ‖w - z1‖ * ‖w - z2‖ * ‖w - z3‖ ≤ η * R * ‖w‖ ^ 2 + 4 * η * R ^ 2 * ‖w‖ + 9 * η * R ^ 3 := by
      rw [← norm_mul, ← norm_mul, e, norm_neg]; exact bound w
    have hw2 : ‖w‖ ≤ 2 * R := by
      by_contra hc
      push Not at hc
      have f1 : ‖w‖ / 2 ≤ ‖w - z1‖ := by have := norm_sub_norm_le w z1; linarith
      have f2 : ‖w‖ / 2 ≤ ‖w - z2‖ := by have := norm_sub_norm_le w z2; linarith
      have f3 : ‖w‖ / 2 ≤ ‖w - z3‖ := by have := norm_sub_norm_le w z3; linarith
      have f4 : ‖w‖ / 2 * (‖w‖ / 2) * (‖w‖ / 2) ≤ ‖w - z1‖ * ‖w - z2‖ * ‖w - z3‖ :=
        mul_le_mul (mul_le_mul f1 f2 (by positivity) (norm_nonneg _)) f3 (by positivity) (by positivity)
      have hr : R ≤ ‖w‖ / 2 := by linarith
      have g1 : η * R * ‖w‖ ^ 2 ≤ 1 / 100 * (‖w‖ / 2) * ‖w‖ ^ 2 :=
        mul_le_mul_of_nonneg_right (mul_le_mul h1 hr hR.le (by norm_num)) (by positivity)
      have g2 : 4 * η * R ^ 2 * ‖w‖ ≤ 4 * (1 / 100) * (‖w‖ / 2) ^ 2 * ‖w‖ :=
        mul_le_mul_of_nonneg_right (mul_le_mul (by linarith) (pow_le_pow_left₀ hR.le hr 2) (by positivity) (by norm_num)) (norm_nonneg _)
      have g3 : 9 * η * R ^ 3 ≤ 9 * (1 / 100) * (‖w‖ / 2) ^ 3 :=
        mul_le_mul (by linarith) (pow_le_pow_left₀ hR.le hr 3) (by positivity) (by norm_num)
      have hw : 0 < ‖w‖ ^ 3 := by
        have : 0 < ‖w‖ := by linarith
        positivity
      nlinarith
    refine hb.trans ?_
    have a1 : η * R * ‖w‖ ^ 2 ≤ η * R * (2 * R) ^ 2 := mul_le_mul_of_nonneg_left (pow_le_pow_left₀ (norm_nonneg _) hw2 2) ηR
    have a2 : 4 * η * R ^ 2 * ‖w‖ ≤ 4 * η * R ^ 2 * (2 * R) := mul_le_mul_of_nonneg_left hw2 (by positivity)
    nlinarith

/-- Two lists of at most three numbers with nearly the same power sums are close to each other. -/
theorem power_sums_close {zs ws : List ℂ} {R η δ : ℝ} (hlen : ws.length = zs.length) (h3 : zs.length ≤ 3) (hR : 0 < R) (h0 : 0 ≤ η) (h1 : η ≤ 1 / 100)
    (hδ : 0 < δ) (hz : ∀ z ∈ zs, ‖z‖ ≤ R)
    (hp : ∀ k, 1 ≤ k → k ≤ zs.length → ‖(ws.map fun w => w ^ k).sum - (zs.map fun z => z ^ k).sum‖ ≤ η * R ^ k) (hsm : 22 * η * R ^ zs.length < δ ^ zs.length) :
    (∀ z ∈ zs, ∃ w ∈ ws, ‖z - w‖ < δ) ∧ ∀ w ∈ ws, ∃ z ∈ zs, ‖w - z‖ < δ := by
  match zs, ws, hlen with
  | [], [], _ => simp
  | [z1], [w1], _ =>
    have := hp 1 le_rfl le_rfl
    simp at this hsm
    have hlt : ‖w1 - z1‖ < δ := by nlinarith [mul_nonneg h0 hR.le]
    simp [hlt, norm_sub_rev z1 w1]
  | [z1, z2], [w1, w2], _ =>
    have p1 := hp 1 le_rfl (by simp)
    have p2 := hp 2 (by simp) (by simp)
    simp only [List.map_cons, List.map_nil, List.sum_cons, List.sum_nil, pow_one, add_zero, List.length_cons, List.length_nil, zero_add, Nat.reduceAdd] at p1 p2 hsm
    obtain ⟨a, b⟩ := quadratic_close hR h0 h1 (hz z1 (by simp)) (hz z2 (by simp)) p1 p2
    have key : ∀ x y : ℝ, 0 ≤ x → 0 ≤ y → x * y ≤ 22 * η * R ^ 2 → x < δ ∨ y < δ := by
      intro x y hx hy h
      by_contra hc
      push Not at hc
      have := mul_le_mul hc.1 hc.2 hδ.le hx
      nlinarith
    constructor
    · intro z hz
      rcases key _ _ (norm_nonneg _) (norm_nonneg _) (a z (by simpa using hz)) with h | h
      · exact ⟨w1, by simp, h⟩
      · exact ⟨w2, by simp, h⟩
    · intro w hw
      rcases key _ _ (norm_nonneg _) (norm_nonneg _) (b w (by simpa using hw)) with h | h
      · exact ⟨z1, by simp, h⟩
      · exact ⟨z2, by simp, h⟩
  | [z1, z2, z3], [w1, w2, w3], _ =>
    have p1 := hp 1 le_rfl (by simp)
    have p2 := hp 2 (by simp) (by simp)
    have p3 := hp 3 (by simp) (by simp)
    simp only [List.map_cons, List.map_nil, List.sum_cons, List.sum_nil, pow_one, add_zero, List.length_cons, List.length_nil, zero_add, Nat.reduceAdd, ← add_assoc] at p1 p2 p3 hsm
    obtain ⟨a, b⟩ := cubic_close hR h0 h1 (hz z1 (by simp)) (hz z2 (by simp)) (hz z3 (by simp)) p1 p2 p3
    have key : ∀ x y z : ℝ, 0 ≤ x → 0 ≤ y → 0 ≤ z → x * y * z ≤ 22 * η * R ^ 3 → x < δ ∨ y < δ ∨ z < δ := by
      intro x y z hx hy hz h
      by_contra hc
      push Not at hc
      have h1 := mul_le_mul hc.1 hc.2.1 hδ.le hx
      have h2 := mul_le_mul h1 hc.2.2 hδ.le (by positivity)
      nlinarith
    constructor
    · intro z hz
      rcases key _ _ _ (norm_nonneg _) (norm_nonneg _) (norm_nonneg _) (a z (by simpa using hz)) with h | h | h
      · exact ⟨w1, by simp, h⟩
      · exact ⟨w2, by simp, h⟩
      · exact ⟨w3, by simp, h⟩
    · intro w hw
      rcases key _ _ _ (norm_nonneg _) (norm_nonneg _) (norm_nonneg _) (b w (by simpa using hw)) with h | h | h
      · exact ⟨z1, by simp, h⟩
      · exact ⟨z2, by simp, h⟩
      · exact ⟨z3, by simp, h⟩
  | _ :: _ :: _ :: _ :: _, _, _ => simp at h3; omega

/-! ## Numbers with given power sums -/

theorem exists_quadratic (b c : ℂ) : ∃ w : ℂ, w ^ 2 + b * w + c = 0 := by
  obtain ⟨w, hw⟩ := Complex.exists_root (f := X ^ 2 + C b * X + C c) (by
    have : (X ^ 2 + C b * X + C c : ℂ[X]).degree = 2 := by compute_degree!
    rw [this]; norm_num)
  exact ⟨w, by simpa [IsRoot] using hw⟩

theorem exists_cubic (a b c : ℂ) : ∃ w : ℂ, w ^ 3 + a * w ^ 2 + b * w + c = 0 := by
  obtain ⟨w, hw⟩ := Complex.exists_root (f := X ^ 3 + C a * X ^ 2 + C b * X + C c) (by
    have : (X ^ 3 + C a * X ^ 2 + C b * X + C c : ℂ[X]).degree = 3 := by compute_degree!
    rw [this]; norm_num)
  exact ⟨w, by simpa [IsRoot] using hw⟩

/-- up to three numbers are power sums -/
theorem exists_power_sums (ms : List ℂ) (h : ms.length ≤ 3) :
    ∃ ws : List ℂ, ws.length = ms.length ∧ (List.range ms.length).map (fun k => (ws.map fun w => w ^ (k + 1)).sum) = ms := by
  match ms, h with
  | [], _ => exact ⟨[], rfl, rfl⟩
  | [m1], _ => exact ⟨[m1], rfl, by simp [List.range_succ]⟩
  | [m1, m2], _ =>
    obtain ⟨w, hw⟩ := exists_quadratic (-m1) ((m1 ^ 2 - m2) / 2)
    refine ⟨[w, m1 - w], rfl, ?_⟩
    simp only [List.length_cons, List.length_nil, List.range_succ, List.range_zero, List.nil_append, List.cons_append, List.map_cons, List.map_nil, List.sum_cons,
      List.sum_nil, List.cons.injEq, and_true]
    refine ⟨by ring, ?_⟩
    linear_combination 2 * hw
  | [m1, m2, m3], _ =>
    obtain ⟨w, hw⟩ := exists_cubic (-m1) ((m1 ^ 2 - m2) / 2) (-((m1 ^ 3 - 3 * m1 * m2 + 2 * m3) / 6))
    obtain ⟨v, hv⟩ := exists_quadratic (-(m1 - w)) ((m1 ^ 2 - m2) / 2 - w * (m1 - w))
    refine ⟨[w, v, m1 - w - v], rfl, ?_⟩
    simp only [List.length_cons, List.length_nil, List.range_succ, List.range_zero, List.nil_append, List.cons_append, List.map_cons, List.map_nil, List.sum_cons,
      List.sum_nil, List.cons.injEq, and_true]
    refine ⟨by ring, ?_, ?_⟩
    · linear_combination 2 * hv
    · linear_combination 3 * hw + 3 * (m1 - w) * hv
  | _ :: _ :: _ :: _ :: _, h => simp at h; omega
end PyZeal
