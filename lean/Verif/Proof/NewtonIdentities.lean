import Verif.Model.Algorithms
import Mathlib.RingTheory.MvPolynomial.Symmetric.NewtonIdentities
import Mathlib.RingTheory.Polynomial.Vieta

/-! # The coefficients computed from moments -/

set_option linter.unusedSectionVars false

namespace PyZeal
open Finset
variable {K : Type} [Field K] [LinearOrder K] [IsStrictOrderedRing K] [FloorRing K]

section
variable {R : Type} [CommRing R]

/-- Newton's identities for a list of ring elements -/
theorem newton_list (zs : List R) (k : ℕ) :
    (k : R) * (zs : Multiset R).esymm k =
      ∑ i ∈ range k, (-1) ^ i * (zs : Multiset R).esymm (k - 1 - i) * (zs.map fun z => z ^ (i + 1)).sum := by
  have key := MvPolynomial.mul_esymm_eq_sum (Fin zs.length) R k
  have hz : (Finset.univ.val.map zs.get : Multiset R) = zs := by
    rw [Fin.univ_val_map, List.ofFn_get]
  have he : ∀ n, MvPolynomial.aeval zs.get (MvPolynomial.esymm (Fin zs.length) R n) =
      (zs : Multiset R).esymm n := by
    intro n
    rw [MvPolynomial.aeval_esymm_eq_multiset_esymm, hz]
  have hp : ∀ n, MvPolynomial.aeval zs.get (MvPolynomial.psum (Fin zs.length) R n) =
      (zs.map fun z => z ^ n).sum := by
    intro n
    unfold MvPolynomial.psum
    rw [map_sum]
    simp only [map_pow, MvPolynomial.aeval_X]
    rw [← List.sum_ofFn]
    congr 1
    apply List.ext_getElem <;> simp
  have h2 := congrArg (MvPolynomial.aeval zs.get) key
  simp only [map_mul, map_natCast, map_pow, map_neg, map_one, map_sum, he, hp] at h2
  rw [h2]
  rw [Finset.sum_filter, Finset.Nat.sum_antidiagonal_eq_sum_range_succ_mk, Finset.sum_range_succ]
  simp only [lt_irrefl, if_false, add_zero]
  rw [Finset.mul_sum, ← Finset.sum_range_reflect]
  apply Finset.sum_congr rfl
  intro j hj
  rw [Finset.mem_range] at hj
  rw [if_pos (by omega)]
  have e1 : k - (k - 1 - j) = j + 1 := by omega
  rw [e1]
  have e2 : (-1 : R) ^ (k + 1) * (-1) ^ (k - 1 - j) = (-1) ^ j := by
    rw [← pow_add]
    have : k + 1 + (k - 1 - j) = j + 2 * (k - j) := by omega
    rw [this, pow_add, pow_mul]
    simp
  rw [← mul_assoc, ← mul_assoc, e2]

end

/-- the inner loop as a sum -/
theorem momentSum_go (e p : ℕ → Cx K) (k n : ℕ) (hkn : k ≤ n) (sign : Cx K) :
    momentSum.go ((List.range k).map e) ((List.range n).map p) sign =
      ∑ i ∈ range k, sign * (-1) ^ i * e i * p i := by
  induction k generalizing e p n sign with
  | zero => cases n <;> simp [momentSum.go]
  | succ k ih =>
    rcases n with _ | n
    · omega
    · rw [List.range_succ_eq_map, List.range_succ_eq_map, List.map_cons, List.map_cons, List.map_map, List.map_map]
      simp only [momentSum.go]
      rw [ih _ _ n (by omega), Finset.sum_range_succ']
      simp only [pow_zero, mul_one, Function.comp]
      rw [add_comm]
      congr 1
      apply Finset.sum_congr rfl
      intro i _
      rw [pow_succ]
      simp only [Nat.succ_eq_add_one]
      ring

theorem reverse_map_range (e : ℕ → Cx K) (k : ℕ) :
    ((List.range k).map e).reverse = (List.range k).map fun (i : ℕ) => e (k - 1 - i) := by
  apply List.ext_getElem
  · simp
  · intro i h1 h2
    simp

theorem divK_eq (x y : Cx K) (k : ℕ) (hk : k ≠ 0) (h : x = (k : Cx K) * y) : Cx.divK x (k : K) = y := by
  have hk' : (k : K) ≠ 0 := by exact_mod_cast hk
  have hc : ∀ n : ℕ, ((n : Cx K)).re = n ∧ ((n : Cx K)).im = 0 := by
    intro n
    induction n with
    | zero => simp
    | succ n ih => push_cast; simp [ih.1, ih.2]
  subst h
  ext
  · simp only [Cx.divK_re, Cx.mul_re, (hc k).1, (hc k).2]; field_simp; ring
  · simp only [Cx.divK_im, Cx.mul_im, (hc k).1, (hc k).2]; field_simp; ring

theorem momentLoop_eq (zs : List (Cx K)) (moments : List (Cx K))
    (hm : moments = (List.range moments.length).map fun (i : ℕ) => (zs.map fun z => z ^ (i + 1)).sum)
    (r k : ℕ) (hk : 1 ≤ k) (hr : k + r ≤ moments.length + 1) :
    momentLoop moments r ((List.range k).map fun (i : ℕ) => (zs : Multiset (Cx K)).esymm i) =
      (List.range (k + r)).map fun (i : ℕ) => (zs : Multiset (Cx K)).esymm i := by
  induction r generalizing k with
  | zero => simp [momentLoop]
  | succ r ih =>
    simp only [momentLoop]
    have hs : Cx.divK (momentSum ((List.range k).map fun (i : ℕ) => (zs : Multiset (Cx K)).esymm i) moments)
        (((List.range k).map fun (i : ℕ) => (zs : Multiset (Cx K)).esymm i).length : K) =
        (zs : Multiset (Cx K)).esymm k := by
      simp only [List.length_map, List.length_range]
      apply divK_eq _ _ _ (by omega)
      unfold momentSum
      rw [reverse_map_range, hm, momentSum_go _ _ _ _ (by omega), newton_list zs k]
      apply Finset.sum_congr rfl
      intro i _
      rw [one_mul]
    rw [hs]
    have e : ((List.range k).map fun (i : ℕ) => (zs : Multiset (Cx K)).esymm i) ++ [(zs : Multiset (Cx K)).esymm k] =
        (List.range (k + 1)).map fun (i : ℕ) => (zs : Multiset (Cx K)).esymm i := by
      rw [List.range_succ, List.map_append]; rfl
    rw [e, ih (k + 1) (by omega) (by omega)]
    congr 2
    omega

theorem alternate_eq (e : ℕ → Cx K) (n : ℕ) (sign : Cx K) :
    alternate sign ((List.range n).map e) = (List.range n).map fun (i : ℕ) => sign * (-1) ^ i * e i := by
  induction n generalizing e sign with
  | zero => rfl
  | succ n ih =>
    rw [List.range_succ_eq_map, List.map_cons, List.map_map]
    simp only [alternate, List.map_cons, List.map_map]
    rw [ih]
    simp only [pow_zero, mul_one, Function.comp]
    congr 1
    · ring
    · apply List.map_congr_left
      intro i _
      simp only [Function.comp, Nat.succ_eq_add_one, pow_succ]
      ring

/-- the coefficients of the associated polynomial -/
theorem coefficientsFromMoments_eq (zs : List (Cx K)) :
    coefficientsFromMoments ((List.range zs.length).map fun (i : ℕ) => (zs.map fun z => z ^ (i + 1)).sum) =
      (List.range (zs.length + 1)).map fun (i : ℕ) =>
        ((zs.map fun z => Polynomial.X - Polynomial.C z).prod : Polynomial (Cx K)).coeff i := by
  unfold coefficientsFromMoments
  have h1 : ([1] : List (Cx K)) = (List.range 1).map fun (i : ℕ) => (zs : Multiset (Cx K)).esymm i := by
    simp [Multiset.esymm]
  rw [h1, momentLoop_eq zs _ (by simp) _ 1 (le_refl _) (by simp; omega)]
  simp only [List.length_map, List.length_range]
  rw [alternate_eq, reverse_map_range, add_comm 1]
  apply List.map_congr_left
  intro i hi
  rw [List.mem_range] at hi
  have := Multiset.prod_X_sub_C_coeff (zs : Multiset (Cx K)) (k := i) (by simp; omega)
  simp only [Multiset.map_coe, Multiset.prod_coe, Multiset.coe_card] at this
  rw [this, one_mul]
  congr 2

end PyZeal
