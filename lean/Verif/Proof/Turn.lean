import Verif.Proof.Winding
import Verif.Spec.Turn
import Mathlib.Analysis.SpecialFunctions.Trigonometric.Bounds

/-! # The change of argument along axis parallel segments -/

set_option linter.unusedSectionVars false

namespace PyZeal
open Spec Real

/-- the angle swept by the vector from `c` to a point moving straight from `a` to `b` -/
noncomputable def sweep (c a b : ℂ) : ℝ := Complex.arg ((b - c) / (a - c))

theorem sweep_coe {c a b : ℂ} (ha : a ≠ c) (hb : b ≠ c) :
    (sweep c a b : Real.Angle) = (Complex.arg (b - c) : Real.Angle) - (Complex.arg (a - c) : Real.Angle) :=
  Complex.arg_div_coe_angle (sub_ne_zero.2 hb) (sub_ne_zero.2 ha)

theorem abs_arg_lt_of_re_pos {z : ℂ} (h : 0 < z.re) : |Complex.arg z| < π / 2 :=
  Complex.abs_arg_lt_pi_div_two_iff.2 (.inl h)

/-- seen from a half plane the swept angle is a difference of arguments -/
theorem sweep_halfPlane {c a b ζ : ℂ} (ha : 0 < (ζ * (a - c)).re) (hb : 0 < (ζ * (b - c)).re) :
    sweep c a b = Complex.arg (ζ * (b - c)) - Complex.arg (ζ * (a - c)) := by
  have hζ : ζ ≠ 0 := by rintro rfl; simp at ha
  have hac : a - c ≠ 0 := by intro e; rw [e] at ha; simp at ha
  have hbc : b - c ≠ 0 := by intro e; rw [e] at hb; simp at hb
  have e : (b - c) / (a - c) = (ζ * (b - c)) / (ζ * (a - c)) := by field_simp
  unfold sweep
  rw [e]
  have h1 := abs_lt.1 (abs_arg_lt_of_re_pos ha)
  have h2 := abs_lt.1 (abs_arg_lt_of_re_pos hb)
  have h3 : (Complex.arg ((ζ * (b - c)) / (ζ * (a - c))) : Real.Angle) =
      ((Complex.arg (ζ * (b - c)) - Complex.arg (ζ * (a - c)) : ℝ) : Real.Angle) := by
    rw [Complex.arg_div_coe_angle (mul_ne_zero hζ hbc) (mul_ne_zero hζ hac), Real.Angle.coe_sub]
  have h4 := congrArg Real.Angle.toReal h3
  rw [Complex.arg_coe_angle_toReal_eq_arg, Real.Angle.toReal_coe_eq_self_iff.2 ⟨by linarith, by linarith⟩] at h4
  exact h4

theorem sweep_add {c a b e ζ : ℂ} (ha : 0 < (ζ * (a - c)).re) (hb : 0 < (ζ * (b - c)).re)
    (he : 0 < (ζ * (e - c)).re) : sweep c a b + sweep c b e = sweep c a e := by
  rw [sweep_halfPlane ha hb, sweep_halfPlane hb he, sweep_halfPlane ha he]; ring

/-- a short step turns little -/
theorem sweep_bound {c a b : ℂ} {d : ℝ} (hd : 0 < d) (ha : d ≤ ‖a - c‖) (hab : ‖b - a‖ < d) :
    |sweep c a b| ≤ π / 2 * (‖b - a‖ / d) := by
  have hac : a - c ≠ 0 := by intro e; rw [e, norm_zero] at ha; linarith
  generalize hz : (b - c) / (a - c) = z
  have hw : z - 1 = (b - a) / (a - c) := by rw [← hz]; field_simp; ring
  have hn : ‖z - 1‖ ≤ ‖b - a‖ / d := by
    rw [hw, norm_div]
    exact div_le_div_of_nonneg_left (norm_nonneg _) hd ha
  have hlt : ‖b - a‖ / d < 1 := (div_lt_one hd).2 hab
  have hre : 0 < z.re := by
    have h1 : |(z - 1).re| ≤ ‖z - 1‖ := Complex.abs_re_le_norm _
    simp only [Complex.sub_re, Complex.one_re] at h1
    have := abs_le.1 h1
    linarith
  have h0 : z ≠ 0 := by rintro rfl; simp at hre
  have hα := abs_arg_lt_of_re_pos hre
  unfold sweep
  rw [hz]
  have hs : |Real.sin (Complex.arg z)| ≤ ‖z - 1‖ := by
    rw [Complex.sin_arg, abs_div, abs_of_nonneg (norm_nonneg z), div_le_iff₀ (norm_pos_iff.2 h0)]
    have e1 : ‖z‖ ^ 2 = z.re ^ 2 + z.im ^ 2 := by rw [← Complex.normSq_eq_norm_sq, Complex.normSq_apply]; ring
    have e2 : ‖z - 1‖ ^ 2 = (z.re - 1) ^ 2 + z.im ^ 2 := by
      rw [← Complex.normSq_eq_norm_sq, Complex.normSq_apply]; simp; ring
    apply abs_le_of_sq_le_sq _ (mul_nonneg (norm_nonneg _) (norm_nonneg _))
    rw [mul_pow, e1, e2]
    nlinarith [sq_nonneg (z.re ^ 2 + z.im ^ 2 - z.re)]
  have hj : 2 / π * |Complex.arg z| ≤ |Real.sin (Complex.arg z)| := by
    have := Real.mul_abs_le_abs_sin (x := Complex.arg z) hα.le
    exact this
  have hpi := Real.pi_pos
  have : 2 / π * |Complex.arg z| ≤ ‖b - a‖ / d := hj.trans (hs.trans hn)
  calc |Complex.arg z| = π / 2 * (2 / π * |Complex.arg z|) := by field_simp
    _ ≤ π / 2 * (‖b - a‖ / d) := by gcongr

theorem sweep_pos {c a b : ℂ} (h : 0 < (a - c).re * (b - c).im - (a - c).im * (b - c).re) :
    0 < sweep c a b ∧ sweep c a b < π := by
  have hac : a - c ≠ 0 := by intro e; rw [e] at h; simp at h
  have him : 0 < ((b - c) / (a - c)).im := by
    rw [Complex.div_im]
    have hp : 0 < Complex.normSq (a - c) := Complex.normSq_pos.2 hac
    rw [← sub_div]
    apply div_pos _ hp
    linarith
  unfold sweep
  refine ⟨?_, ?_⟩
  · rcases (Complex.arg_nonneg_iff.2 him.le).lt_or_eq with h | h
    · exact h
    · rw [eq_comm, Complex.arg_eq_zero_iff] at h
      rw [h.2] at him; exact absurd him (lt_irrefl _)
  · rcases (Complex.arg_le_pi ((b - c) / (a - c))).lt_or_eq with h | h
    · exact h
    · rw [Complex.arg_eq_pi_iff] at h
      rw [h.2] at him; exact absurd him (lt_irrefl _)

/-- around a point strictly inside a rectangle: one full turn -/
theorem sweep_inside {x1 x2 y1 y2 : ℝ} {c : ℂ} (h1 : x1 < c.re) (h2 : c.re < x2) (h3 : y1 < c.im) (h4 : c.im < y2) :
    sweep c ⟨x1, y1⟩ ⟨x2, y1⟩ + sweep c ⟨x2, y1⟩ ⟨x2, y2⟩ + sweep c ⟨x2, y2⟩ ⟨x1, y2⟩ + sweep c ⟨x1, y2⟩ ⟨x1, y1⟩ =
      2 * π := by
  have ne : ∀ x y : ℝ, (x ≠ c.re) → (⟨x, y⟩ : ℂ) ≠ c := fun x y h e => h (congrArg Complex.re e)
  obtain ⟨a1, b1⟩ := sweep_pos (c := c) (a := ⟨x1, y1⟩) (b := ⟨x2, y1⟩) (by simp; nlinarith)
  obtain ⟨a2, b2⟩ := sweep_pos (c := c) (a := ⟨x2, y1⟩) (b := ⟨x2, y2⟩) (by simp; nlinarith)
  obtain ⟨a3, b3⟩ := sweep_pos (c := c) (a := ⟨x2, y2⟩) (b := ⟨x1, y2⟩) (by simp; nlinarith)
  obtain ⟨a4, b4⟩ := sweep_pos (c := c) (a := ⟨x1, y2⟩) (b := ⟨x1, y1⟩) (by simp; nlinarith)
  have hang : ((sweep c ⟨x1, y1⟩ ⟨x2, y1⟩ + sweep c ⟨x2, y1⟩ ⟨x2, y2⟩ + sweep c ⟨x2, y2⟩ ⟨x1, y2⟩ +
      sweep c ⟨x1, y2⟩ ⟨x1, y1⟩ : ℝ) : Real.Angle) = 0 := by
    simp only [Real.Angle.coe_add, sweep_coe (ne x1 y1 h1.ne) (ne x2 y1 h2.ne'), sweep_coe (ne x2 y1 h2.ne') (ne x2 y2 h2.ne'),
      sweep_coe (ne x2 y2 h2.ne') (ne x1 y2 h1.ne), sweep_coe (ne x1 y2 h1.ne) (ne x1 y1 h1.ne)]
    abel
  obtain ⟨n, hn⟩ := Real.Angle.coe_eq_zero_iff.1 hang
  rw [zsmul_eq_mul] at hn
  have hpi := Real.pi_pos
  have n1 : 0 < n := by
    by_contra hc
    have : (n : ℝ) ≤ 0 := by exact_mod_cast not_lt.1 hc
    nlinarith
  have n2 : n < 2 := by
    by_contra hc
    have : (2 : ℝ) ≤ n := by exact_mod_cast not_lt.1 hc
    nlinarith
  have : n = 1 := by omega
  subst this
  rw [← hn]; simp

/-- around a point strictly outside: no turn -/
theorem sweep_outside {x1 x2 y1 y2 : ℝ} {c : ℂ} (hx : x1 ≤ x2) (hy : y1 ≤ y2)
    (h : c.re < x1 ∨ x2 < c.re ∨ c.im < y1 ∨ y2 < c.im) :
    sweep c ⟨x1, y1⟩ ⟨x2, y1⟩ + sweep c ⟨x2, y1⟩ ⟨x2, y2⟩ + sweep c ⟨x2, y2⟩ ⟨x1, y2⟩ + sweep c ⟨x1, y2⟩ ⟨x1, y1⟩ = 0 := by
  obtain ⟨ζ, z1, z2, z3, z4⟩ : ∃ ζ : ℂ, 0 < (ζ * (⟨x1, y1⟩ - c)).re ∧ 0 < (ζ * (⟨x2, y1⟩ - c)).re ∧
      0 < (ζ * (⟨x2, y2⟩ - c)).re ∧ 0 < (ζ * (⟨x1, y2⟩ - c)).re := by
    rcases h with h | h | h | h
    · exact ⟨1, by simp; linarith, by simp; linarith, by simp; linarith, by simp; linarith⟩
    · exact ⟨-1, by simp; linarith, by simp; linarith, by simp; linarith, by simp; linarith⟩
    · exact ⟨-Complex.I, by simp; linarith, by simp; linarith, by simp; linarith, by simp; linarith⟩
    · exact ⟨Complex.I, by simp; linarith, by simp; linarith, by simp; linarith, by simp; linarith⟩
  rw [sweep_halfPlane z1 z2, sweep_halfPlane z2 z3, sweep_halfPlane z3 z4, sweep_halfPlane z4 z1]
  ring

/-! ## lines -/

/-- an axis parallel line, parametrised by the moving coordinate -/
def IsLine (pt : ℝ → Cx ℝ) : Prop := (∃ y, pt = fun t => ⟨t, y⟩) ∨ ∃ x, pt = fun t => ⟨x, t⟩

/-- a half plane at `c` containing a segment which avoids `c` -/
theorem line_halfPlane {pt : ℝ → Cx ℝ} (hpt : IsLine pt) {A B : ℝ} {c : ℂ}
    (h : ∀ t, A ≤ t → t ≤ B → toC (pt t) ≠ c) : ∃ ζ : ℂ, ∀ t, A ≤ t → t ≤ B → 0 < (ζ * (toC (pt t) - c)).re := by
  have key : ∀ u : ℝ, (u < A ∨ B < u) ∨ (A ≤ u ∧ u ≤ B) := by
    intro u
    rcases lt_or_ge u A with h | h
    · exact .inl (.inl h)
    · rcases lt_or_ge B u with h' | h'
      · exact .inl (.inr h')
      · exact .inr ⟨h, h'⟩
  rcases hpt with ⟨y, rfl⟩ | ⟨x, rfl⟩
  · rcases lt_trichotomy y c.im with hy | hy | hy
    · exact ⟨Complex.I, fun t _ _ => by simp [toC]; linarith⟩
    · rcases key c.re with (hu | hu) | hu
      · exact ⟨1, fun t h1 _ => by simp [toC]; linarith⟩
      · exact ⟨-1, fun t _ h1 => by simp [toC]; linarith⟩
      · exact (h c.re hu.1 hu.2 (Complex.ext rfl hy)).elim
    · exact ⟨-Complex.I, fun t _ _ => by simp [toC]; linarith⟩
  · rcases lt_trichotomy x c.re with hx | hx | hx
    · exact ⟨-1, fun t _ _ => by simp [toC]; linarith⟩
    · rcases key c.im with (hu | hu) | hu
      · exact ⟨-Complex.I, fun t h1 _ => by simp [toC]; linarith⟩
      · exact ⟨Complex.I, fun t _ h1 => by simp [toC]; linarith⟩
      · exact (h c.im hu.1 hu.2 (Complex.ext hx rfl)).elim
    · exact ⟨1, fun t _ _ => by simp [toC]; linarith⟩

/-! ## systems of turning angles -/

/-- What the proofs use of the change `T a b` of the argument of `f` along axis parallel segments in `S`: it is additive along a line,
at most `eta` for segments of length at most `h`, and agrees with the difference of arguments modulo full turns. -/
structure TurnSys (f : Cx ℝ → Cx ℝ) (S : Cx ℝ → Prop) (T : Cx ℝ → Cx ℝ → ℝ) (h eta : ℝ) : Prop where
  add : ∀ pt, IsLine pt → ∀ A B, (∀ t, A ≤ t → t ≤ B → S (pt t)) → ∀ a b c, A ≤ a → a ≤ B → A ≤ b → b ≤ B → A ≤ c → c ≤ B →
    T (pt a) (pt b) + T (pt b) (pt c) = T (pt a) (pt c)
  bound : ∀ pt, IsLine pt → ∀ a b, S (pt a) → S (pt b) → |b - a| ≤ h → |T (pt a) (pt b)| ≤ eta
  angle : ∀ a b, S a → S b → (T a b : Real.Angle) = (Complex.arg (toC (f b)) : Real.Angle) - (Complex.arg (toC (f a)) : Real.Angle)
  ne : ∀ z, S z → f z ≠ 0
  small : eta < π

theorem TurnSys.arg {f : Cx ℝ → Cx ℝ} {S : Cx ℝ → Prop} {T : Cx ℝ → Cx ℝ → ℝ} {h eta : ℝ} (ts : TurnSys f S T h eta)
    {pt : ℝ → Cx ℝ} (hpt : IsLine pt) {a b : ℝ} (ha : S (pt a)) (hb : S (pt b)) (hab : |b - a| ≤ h) :
    Complex.arg (toC (f (pt b) / f (pt a))) = T (pt a) (pt b) := by
  have h1 := ts.bound pt hpt a b ha hb hab
  have h2 := ts.angle _ _ ha hb
  have h3 := abs_le.1 h1
  have h4 := ts.small
  rw [toC_div]
  rw [← Complex.arg_div_coe_angle (fun e => ts.ne _ hb (toC_eq_zero.1 e)) (fun e => ts.ne _ ha (toC_eq_zero.1 e))] at h2
  have h5 := congrArg Real.Angle.toReal h2
  rw [Complex.arg_coe_angle_toReal_eq_arg, Real.Angle.toReal_coe_eq_self_iff.2 ⟨by linarith, by linarith⟩] at h5
  exact h5.symm

/-- the change of the argument of a factored function -/
noncomputable def turn (zeros : List (Cx ℝ)) (g : Cx ℝ → ℝ) (a b : Cx ℝ) : ℝ :=
  (zeros.map fun c => sweep (toC c) (toC a) (toC b)).sum + (g b - g a)

theorem Spec.Far.norm {d : ℝ} {zeros : List (Cx ℝ)} {z c : Cx ℝ} (h : Far d zeros z) (hc : c ∈ zeros) :
    d ≤ ‖toC z - toC c‖ := by
  have h1 := h c hc
  have h2 : ‖toC z - toC c‖ ^ 2 = (z.re - c.re) ^ 2 + (z.im - c.im) ^ 2 := by
    rw [← Complex.normSq_eq_norm_sq, Complex.normSq_apply]; simp [toC]; ring
  rw [← h2] at h1
  exact le_of_abs_le ((sq_le_sq.1 h1).trans (abs_of_nonneg (norm_nonneg _)).le)

theorem Spec.Far.ne {d : ℝ} (hd : 0 < d) {zeros : List (Cx ℝ)} {z c : Cx ℝ} (h : Far d zeros z) (hc : c ∈ zeros) :
    toC z ≠ toC c := by
  intro e
  have := h.norm hc
  rw [e, sub_self, norm_zero] at this
  linarith

theorem toC_sub (a b : Cx ℝ) : toC (a - b) = toC a - toC b := by apply Complex.ext <;> simp [toC]

theorem toC_prod (l : List (Cx ℝ)) : toC l.prod = (l.map toC).prod := by
  induction l with
  | nil => simp [toC]; rfl
  | cons a l ih => rw [List.prod_cons, toC_mul, ih, List.map_cons, List.prod_cons]

theorem prod_arg (l : List ℂ) (h : ∀ x ∈ l, x ≠ 0) :
    l.prod ≠ 0 ∧ (Complex.arg l.prod : Real.Angle) = (l.map fun x => (Complex.arg x : Real.Angle)).sum := by
  induction l with
  | nil => simp
  | cons a l ih =>
    obtain ⟨h1, h2⟩ := ih fun x hx => h x (by simp [hx])
    have h0 := h a (by simp)
    rw [List.prod_cons, List.map_cons, List.sum_cons, Complex.arg_mul_coe_angle h0 h1, h2]
    exact ⟨mul_ne_zero h0 h1, rfl⟩

theorem Spec.Factored.arg {f : Cx ℝ → Cx ℝ} {S : Cx ℝ → Prop} {zeros : List (Cx ℝ)} {r g : Cx ℝ → ℝ} {M d : ℝ}
    (hf : Factored f S zeros r g M) (hd : 0 < d) {z : Cx ℝ} (hz : S z) (hfar : Far d zeros z) :
    f z ≠ 0 ∧ (Complex.arg (toC (f z)) : Real.Angle) = (g z : Real.Angle) +
      (zeros.map fun c => (Complex.arg (toC z - toC c) : Real.Angle)).sum := by
  have hr := hf.pos z hz
  have e1 : toC ⟨r z * Real.cos (g z), r z * Real.sin (g z)⟩ = (r z : ℂ) * (Real.cos (g z) + Real.sin (g z) * Complex.I) := by
    apply Complex.ext <;> simp [toC, -Complex.ofReal_cos, -Complex.ofReal_sin]
  have e2 : toC (f z) = (r z : ℂ) * (Real.cos (g z) + Real.sin (g z) * Complex.I) *
      (zeros.map fun c => toC z - toC c).prod := by
    rw [hf.eq z hz, toC_mul, e1, toC_prod, List.map_map]
    congr 3
  obtain ⟨p1, p2⟩ := prod_arg (zeros.map fun c => toC z - toC c) (by
    intro x hx
    obtain ⟨c, hc, rfl⟩ := List.mem_map.1 hx
    exact sub_ne_zero.2 (hfar.ne hd hc))
  have n1 : ((Real.cos (g z) : ℂ) + Real.sin (g z) * Complex.I) ≠ 0 := by
    intro e
    have h1 := congrArg Complex.re e
    have h2 := congrArg Complex.im e
    simp [-Complex.ofReal_cos, -Complex.ofReal_sin] at h1 h2
    have := Real.sin_sq_add_cos_sq (g z)
    rw [h1, h2] at this
    norm_num at this
  have n2 : (r z : ℂ) ≠ 0 := by exact_mod_cast hr.ne'
  refine ⟨fun e => ?_, ?_⟩
  · have : toC (f z) = 0 := toC_eq_zero.2 e
    rw [e2] at this
    exact mul_ne_zero (mul_ne_zero n2 n1) p1 this
  · rw [e2, Complex.arg_mul_coe_angle (mul_ne_zero n2 n1) p1, p2, List.map_map]
    congr 1
    exact Complex.arg_mul_cos_add_sin_mul_I_coe_angle hr (g z : Real.Angle)

theorem coe_sum {α : Type} (l : List α) (u : α → ℝ) :
    (((l.map u).sum : ℝ) : Real.Angle) = (l.map fun x => (u x : Real.Angle)).sum := by
  induction l with
  | nil => simp
  | cons a l ih => simp only [List.map_cons, List.sum_cons, Real.Angle.coe_add, ih]

theorem list_sum_sub {α : Type} (l : List α) (u v : α → Real.Angle) :
    (l.map fun x => u x - v x).sum = (l.map u).sum - (l.map v).sum := by
  induction l with
  | nil => simp
  | cons a l ih => simp only [List.map_cons, List.sum_cons, ih]; abel

theorem list_sum_add3 {α : Type} (l : List α) (u v x : α → ℝ) (h : ∀ a ∈ l, u a + v a = x a) :
    (l.map u).sum + (l.map v).sum = (l.map x).sum := by
  induction l with
  | nil => simp
  | cons a l ih =>
    have h1 := ih fun b hb => h b (by simp [hb])
    have h2 := h a (by simp)
    simp only [List.map_cons, List.sum_cons]
    linarith

theorem abs_sum_le {α : Type} (l : List α) (u : α → ℝ) (b : ℝ) (h : ∀ a ∈ l, |u a| ≤ b) :
    |(l.map u).sum| ≤ l.length * b := by
  induction l with
  | nil => simp
  | cons a l ih =>
    have h1 := ih fun b hb => h b (by simp [hb])
    have h2 := h a (by simp)
    simp only [List.map_cons, List.sum_cons, List.length_cons]
    push_cast
    calc |u a + (l.map u).sum| ≤ |u a| + |(l.map u).sum| := abs_add_le _ _
      _ ≤ b + l.length * b := add_le_add h2 h1
      _ = (l.length + 1) * b := by ring

theorem line_dist {pt : ℝ → Cx ℝ} (hpt : IsLine pt) (a b : ℝ) :
    ‖toC (pt b) - toC (pt a)‖ = |b - a| ∧ |(pt b).re - (pt a).re| + |(pt b).im - (pt a).im| = |b - a| := by
  rcases hpt with ⟨y, rfl⟩ | ⟨x, rfl⟩
  · refine ⟨?_, by simp⟩
    have : toC (⟨b, y⟩ : Cx ℝ) - toC ⟨a, y⟩ = ((b - a : ℝ) : ℂ) := by apply Complex.ext <;> simp [toC]
    simp only [this, Complex.norm_real, Real.norm_eq_abs]
  · refine ⟨?_, by simp⟩
    have : toC (⟨x, b⟩ : Cx ℝ) - toC ⟨x, a⟩ = ((b - a : ℝ) : ℂ) * Complex.I := by apply Complex.ext <;> simp [toC]
    simp only [this, norm_mul, Complex.norm_real, Real.norm_eq_abs, Complex.norm_I, mul_one]

theorem Spec.Factored.turnSys {f : Cx ℝ → Cx ℝ} {S : Cx ℝ → Prop} {zeros : List (Cx ℝ)} {r g : Cx ℝ → ℝ} {M d h : ℝ}
    (hf : Factored f S zeros r g M) (hd : 0 < d) (hh : h < d) (hM : 0 ≤ M)
    (hsmall : (π / 2 * (zeros.length / d) + M) * h < π) :
    TurnSys f (fun z => S z ∧ Far d zeros z) (turn zeros g) h ((π / 2 * (zeros.length / d) + M) * h) where
  add := by
    intro pt hpt A B hAB a b c a1 a2 b1 b2 c1 c2
    unfold turn
    have := list_sum_add3 zeros (fun z => sweep (toC z) (toC (pt a)) (toC (pt b)))
      (fun z => sweep (toC z) (toC (pt b)) (toC (pt c))) (fun z => sweep (toC z) (toC (pt a)) (toC (pt c))) (by
        intro z hz
        obtain ⟨ζ, hζ⟩ := line_halfPlane hpt (A := A) (B := B) (c := toC z)
          fun t t1 t2 => (hAB t t1 t2).2.ne hd hz
        exact sweep_add (hζ a a1 a2) (hζ b b1 b2) (hζ c c1 c2))
    linarith
  bound := by
    intro pt hpt a b ha hb hab
    obtain ⟨l1, l2⟩ := line_dist hpt a b
    have hpi := Real.pi_pos
    have h1 := abs_sum_le zeros (fun z => sweep (toC z) (toC (pt a)) (toC (pt b))) (π / 2 * (h / d)) (by
      intro z hz
      refine (sweep_bound hd (ha.2.norm hz) (by rw [l1]; linarith)).trans ?_
      rw [l1]
      gcongr)
    have h2 := hf.lip _ _ ha.1 hb.1
    rw [l2] at h2
    have h3 : M * |b - a| ≤ M * h := by gcongr
    unfold turn
    calc _ ≤ |(zeros.map fun c => sweep (toC c) (toC (pt a)) (toC (pt b))).sum| + |g (pt b) - g (pt a)| := abs_add_le _ _
      _ ≤ zeros.length * (π / 2 * (h / d)) + M * h := add_le_add h1 (h2.trans h3)
      _ = _ := by ring
  angle := by
    intro a b ha hb
    rw [(hf.arg hd ha.1 ha.2).2, (hf.arg hd hb.1 hb.2).2]
    unfold turn
    rw [Real.Angle.coe_add, coe_sum, Real.Angle.coe_sub]
    have : (zeros.map fun c => (sweep (toC c) (toC a) (toC b) : Real.Angle)) =
        zeros.map fun c => (Complex.arg (toC b - toC c) : Real.Angle) - (Complex.arg (toC a - toC c) : Real.Angle) := by
      apply List.map_congr_left
      intro c hc
      exact sweep_coe (ha.2.ne hd hc) (hb.2.ne hd hc)
    rw [this, list_sum_sub]
    abel
  ne := fun z hz => (hf.arg hd hz.1 hz.2).1
  small := hsmall

/-- around a rectangle whose boundary contains none of the zeros the changes add up to one turn per zero inside -/
theorem turn_around {zeros : List (Cx ℝ)} (g : Cx ℝ → ℝ) {x1 x2 y1 y2 : ℝ} (hx : x1 < x2) (hy : y1 < y2)
    (hb : ∀ c ∈ zeros, ¬ (((c.re = x1 ∨ c.re = x2) ∧ y1 ≤ c.im ∧ c.im ≤ y2) ∨ ((c.im = y1 ∨ c.im = y2) ∧ x1 ≤ c.re ∧ c.re ≤ x2)))
    (phi : ℝ) :
    turn zeros g ⟨x1, y1⟩ ⟨x2, y1⟩ + turn zeros g ⟨x2, y1⟩ ⟨x2, y2⟩ + turn zeros g ⟨x2, y2⟩ ⟨x1, y2⟩ +
      turn zeros g ⟨x1, y2⟩ ⟨x1, y1⟩ = 2 * π * (Cell.count ⟨(x1, x2), (y1, y2), phi⟩ zeros : ℝ) := by
  unfold turn
  have : (zeros.map fun c => sweep (toC c) (toC ⟨x1, y1⟩) (toC ⟨x2, y1⟩)).sum +
      (zeros.map fun c => sweep (toC c) (toC ⟨x2, y1⟩) (toC ⟨x2, y2⟩)).sum +
      (zeros.map fun c => sweep (toC c) (toC ⟨x2, y2⟩) (toC ⟨x1, y2⟩)).sum +
      (zeros.map fun c => sweep (toC c) (toC ⟨x1, y2⟩) (toC ⟨x1, y1⟩)).sum =
      2 * π * (Cell.count ⟨(x1, x2), (y1, y2), phi⟩ zeros : ℝ) := by
    induction zeros with
    | nil => simp [Cell.count]
    | cons c l ih =>
      have h1 := ih fun c hc => hb c (by simp [hc])
      have h2 := hb c (by simp)
      simp only [List.map_cons, List.sum_cons]
      by_cases hin : Cell.HasHalfOpen (⟨(x1, x2), (y1, y2), phi⟩ : Cell ℝ) c
      · have hc : Cell.count (⟨(x1, x2), (y1, y2), phi⟩ : Cell ℝ) (c :: l) =
            Cell.count (⟨(x1, x2), (y1, y2), phi⟩ : Cell ℝ) l + 1 := by
          unfold Cell.count; rw [List.filter_cons_of_pos (by simpa using hin)]; rfl
        obtain ⟨g1, g2, g3, g4⟩ := hin
        simp only at g1 g2 g3 g4
        have k1 : x1 < c.re := lt_of_le_of_ne g1 fun e => h2 (.inl ⟨.inl e.symm, g3, g4.le⟩)
        have k3 : y1 < c.im := lt_of_le_of_ne g3 fun e => h2 (.inr ⟨.inl e.symm, g1, g2.le⟩)
        have := sweep_inside (c := toC c) k1 g2 k3 g4
        rw [hc]
        simp only [toC] at this h1 ⊢
        push_cast
        linarith
      · have hc : Cell.count (⟨(x1, x2), (y1, y2), phi⟩ : Cell ℝ) (c :: l) =
            Cell.count (⟨(x1, x2), (y1, y2), phi⟩ : Cell ℝ) l := by
          unfold Cell.count; rw [List.filter_cons_of_neg (by simpa using hin)]
        have hout : c.re < x1 ∨ x2 < c.re ∨ c.im < y1 ∨ y2 < c.im := by
          by_contra hno
          push Not at hno
          obtain ⟨k1, k2, k3, k4⟩ := hno
          apply hin
          refine ⟨k1, lt_of_le_of_ne k2 fun e => h2 (.inl ⟨.inr e, k3, k4⟩), k3, lt_of_le_of_ne k4 fun e => h2 (.inr ⟨.inr e, k1, k2⟩)⟩
        have := sweep_outside (c := toC c) hx.le hy.le hout
        rw [hc]
        simp only [toC] at this h1 ⊢
        linarith
  linarith

end PyZeal
