import Mathlib.Algebra.Order.Floor.Ring
import Mathlib.Algebra.Order.Field.Basic
import Mathlib.Algebra.Order.Field.Power
import Mathlib.Algebra.Order.Ring.Abs
import Mathlib.Algebra.CharZero.Defs
import Mathlib.Algebra.Field.ZMod
import Mathlib.Tactic.Ring
import Mathlib.Tactic.Linarith
import Mathlib.Tactic.FieldSimp
import Mathlib.Tactic.Positivity
import Mathlib.Data.Rat.Floor

/-!
# Numbers used by the model

PyZEAL computes with Python floats, ints and numpy complex128.  The model uses an
arbitrary ordered field `K` with a floor function (so it runs over `ℚ` and
specialises to `ℝ`) and the pair type `Cx K` for complex numbers.  Arithmetic is exact; see
DESIGN.md section 1 for what this leaves out.
-/

namespace PyZeal

/-- Complex numbers with components in `K` (models Python `complex` / numpy
`complex128`, exact arithmetic). -/
@[ext] structure Cx (K : Type) where
  re : K
  im : K
deriving DecidableEq, Repr

namespace Cx
variable {K : Type}

section Ops
variable [Field K]

instance : Zero (Cx K) := ⟨⟨0, 0⟩⟩
instance : One (Cx K) := ⟨⟨1, 0⟩⟩
instance : Add (Cx K) := ⟨fun a b => ⟨a.re + b.re, a.im + b.im⟩⟩
instance : Neg (Cx K) := ⟨fun a => ⟨-a.re, -a.im⟩⟩
instance : Sub (Cx K) := ⟨fun a b => ⟨a.re - b.re, a.im - b.im⟩⟩
instance : Mul (Cx K) := ⟨fun a b => ⟨a.re * b.re - a.im * b.im, a.re * b.im + a.im * b.re⟩⟩
/-- squared modulus -/
def normSq (a : Cx K) : K := a.re * a.re + a.im * a.im
instance : Inv (Cx K) := ⟨fun a => ⟨a.re / a.normSq, -a.im / a.normSq⟩⟩
instance : Div (Cx K) := ⟨fun a b => a * b⁻¹⟩
/-- a real number as a complex number -/
def ofK (x : K) : Cx K := ⟨x, 0⟩
/-- multiplication by a real number -/
def smul (c : K) (a : Cx K) : Cx K := ⟨c * a.re, c * a.im⟩
/-- division by a real number (`z / 2.0`) -/
def divK (a : Cx K) (c : K) : Cx K := ⟨a.re / c, a.im / c⟩

@[simp] theorem zero_re : (0 : Cx K).re = 0 := rfl
@[simp] theorem zero_im : (0 : Cx K).im = 0 := rfl
@[simp] theorem one_re : (1 : Cx K).re = 1 := rfl
@[simp] theorem one_im : (1 : Cx K).im = 0 := rfl
@[simp] theorem add_re (a b : Cx K) : (a + b).re = a.re + b.re := rfl
@[simp] theorem add_im (a b : Cx K) : (a + b).im = a.im + b.im := rfl
@[simp] theorem neg_re (a : Cx K) : (-a).re = -a.re := rfl
@[simp] theorem neg_im (a : Cx K) : (-a).im = -a.im := rfl
@[simp] theorem sub_re (a b : Cx K) : (a - b).re = a.re - b.re := rfl
@[simp] theorem sub_im (a b : Cx K) : (a - b).im = a.im - b.im := rfl
@[simp] theorem mul_re (a b : Cx K) : (a * b).re = a.re * b.re - a.im * b.im := rfl
@[simp] theorem mul_im (a b : Cx K) : (a * b).im = a.re * b.im + a.im * b.re := rfl
@[simp] theorem inv_re (a : Cx K) : (a⁻¹).re = a.re / a.normSq := rfl
@[simp] theorem inv_im (a : Cx K) : (a⁻¹).im = -a.im / a.normSq := rfl
@[simp] theorem smul_re (c : K) (a : Cx K) : (smul c a).re = c * a.re := rfl
@[simp] theorem smul_im (c : K) (a : Cx K) : (smul c a).im = c * a.im := rfl
@[simp] theorem divK_re (c : K) (a : Cx K) : (divK a c).re = a.re / c := rfl
@[simp] theorem divK_im (c : K) (a : Cx K) : (divK a c).im = a.im / c := rfl
@[simp] theorem ofK_re (x : K) : (ofK x).re = x := rfl
@[simp] theorem ofK_im (x : K) : (ofK x).im = 0 := rfl

instance : CommRing (Cx K) where
  add_assoc a b c := by ext <;> simp <;> ring
  zero_add a := by ext <;> simp
  add_zero a := by ext <;> simp
  add_comm a b := by ext <;> simp <;> ring
  mul_assoc a b c := by ext <;> simp <;> ring
  one_mul a := by ext <;> simp
  mul_one a := by ext <;> simp
  mul_comm a b := by ext <;> simp <;> ring
  left_distrib a b c := by ext <;> simp <;> ring
  right_distrib a b c := by ext <;> simp <;> ring
  zero_mul a := by ext <;> simp
  mul_zero a := by ext <;> simp
  neg_add_cancel a := by ext <;> simp
  sub_eq_add_neg a b := by ext <;> simp <;> ring
  nsmul := nsmulRec
  zsmul := zsmulRec

end Ops

section Ord
variable [Field K] [LinearOrder K] [IsStrictOrderedRing K]

theorem normSq_eq_zero {a : Cx K} : a.normSq = 0 ↔ a = 0 := by
  constructor
  · intro h
    have h1 : a.re * a.re = 0 := by
      have := mul_self_nonneg a.re; have := mul_self_nonneg a.im
      unfold normSq at h; linarith
    have h2 : a.im * a.im = 0 := by
      have := mul_self_nonneg a.re; have := mul_self_nonneg a.im
      unfold normSq at h; linarith
    ext
    · simpa using h1
    · simpa using h2
  · rintro rfl; simp [normSq]

theorem normSq_nonneg (a : Cx K) : 0 ≤ a.normSq := by
  unfold normSq
  have := mul_self_nonneg a.re; have := mul_self_nonneg a.im; linarith

instance : Field (Cx K) where
  exists_pair_ne := ⟨0, 1, by intro h; have := congrArg Cx.re h; simp at this⟩
  mul_inv_cancel a ha := by
    have hn : a.normSq ≠ 0 := fun h => ha (normSq_eq_zero.1 h)
    ext
    · simp only [mul_re, inv_re, inv_im, one_re]
      field_simp
      unfold normSq; ring
    · simp only [mul_im, inv_re, inv_im, one_im]
      field_simp
      ring
  inv_zero := by ext <;> simp
  div_eq_mul_inv _ _ := rfl
  nnqsmul := _
  nnqsmul_def := fun _ _ => rfl
  qsmul := _
  qsmul_def := fun _ _ => rfl

/-- `|re| < a` and `|im| < b` are componentwise comparisons -/
def close (a b : K) (z w : Cx K) : Prop := |z.re - w.re| < a ∧ |z.im - w.im| < b

end Ord
end Cx

variable {K : Type} [Field K] [LinearOrder K] [IsStrictOrderedRing K]

/-- `10 ** (-p)`: the real number belonging to `p` decimal places. -/
def eps10 (K : Type) [Field K] (p : ℤ) : K := (10 : K) ^ (-p)

theorem eps10_pos (p : ℤ) : 0 < eps10 K p := zpow_pos (by norm_num) _

theorem eps10_succ (p : ℤ) : eps10 K p = 10 * eps10 K (p + 1) := by
  unfold eps10
  rw [neg_add, zpow_add₀ (by norm_num)]
  field_simp

variable [FloorRing K]

/-- Round to the nearest integer, ties to the even one.  Python `round(x)` and
`numpy.round(x)` on exact values. -/
def roundHalfEven (x : K) : ℤ :=
  if x - ⌊x⌋ < 1 / 2 then ⌊x⌋
  else if 1 / 2 < x - ⌊x⌋ then ⌊x⌋ + 1
  else if ⌊x⌋ % 2 = 0 then ⌊x⌋ else ⌊x⌋ + 1

/-- Python `round(x, p)`: round `x` to `p` decimal places, ties to even.
Simplification: the final conversion of the decimal back to a double is dropped. -/
def pyRound (x : K) (p : ℤ) : K := (roundHalfEven (x * (10 : K) ^ p) : K) * eps10 K p

end PyZeal
