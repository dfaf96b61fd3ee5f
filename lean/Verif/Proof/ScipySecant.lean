import Verif.Model.ScipySecant
import Verif.Spec.Secant
import Verif.Proof.ScipyNewton

/-! # The array version of the secant method -/

set_option linter.unusedSectionVars false

namespace PyZeal
open Spec

theorem toC_mul' (a b : Cx ℝ) : toC (a * b) = toC a * toC b := toC_mul a b

/-- the secant step in the form used by the array version -/
theorem arrayStep_secant (abs : Cx ℝ → ℝ) (habs : ∀ z, abs z = ‖toC z‖) {p0 q0 p1 q1 : Cx ℝ} (hq : q1 ≠ q0) :
    p1 - q1 * (p1 - p0) / (q1 - q0) = secantStep abs p0 q0 p1 q1 := by
  have hne : toC q1 - toC q0 ≠ 0 := fun h => hq (toC_injective (sub_eq_zero.1 h))
  refine toC_injective (mul_left_cancel₀ hne ?_)
  rw [secantStep_eq abs habs hq, toC_sub, toC_div, toC_mul, toC_sub, toC_sub]
  field_simp
  ring

theorem half_self (c : Cx ℝ) : (c + c) / 2 = c := by
  have h2 : (2 : Cx ℝ) ≠ 0 := by
    intro h
    have := congrArg Cx.re h
    rw [show (2 : Cx ℝ) = 1 + 1 from (one_add_one_eq_two).symm] at this
    simp at this
  field_simp
  ring

/-- what is known of a point near a simple zero -/
structure Attracted (f : Cx ℝ → Cx ℝ) (c : Cx ℝ) (r : ℝ) (s : SecantPt ℝ) : Prop where
  q0 : s.q0 = f s.p
  q1 : s.q1 = f s.p1
  near : ‖toC s.p - toC c‖ ≤ r
  near1 : ‖toC s.p1 - toC c‖ ≤ r
  apart : s.p ≠ s.p1 ∨ (s.p = c ∧ s.p1 = c ∧ s.failed = false)

/-- one step for a point near a simple zero -/
theorem Attracted.move {f df : Cx ℝ → Cx ℝ} {c : Cx ℝ} {r : ℝ} (h : Steady f df c r) (abs : Cx ℝ → ℝ) (habs : ∀ z, abs z = ‖toC z‖) {tol : ℝ} (htol : 0 < tol) {s t : SecantPt ℝ}
    (hs : Attracted f c r s) (ht : t = SecantPt.move abs tol { s with nz := decide (s.q1 ≠ s.q0) }) :
    Attracted f c r (t.swap f) ∧ ‖toC t.p - toC c‖ ≤ 2 / 5 * ‖toC s.p1 - toC c‖ ∧ t.p1 = s.p1 ∧
    ((t.nz = true → t.failed = false) → ‖toC t.p - toC c‖ ≤ 2 / 3 * tol ∧ t.failed = false) ∧
    (7 / 5 * ‖toC s.p1 - toC c‖ < tol → t.failed = false) := by
  subst ht
  rcases hs.apart with hne | ⟨e1, e2, e3⟩
  · obtain ⟨hq, _, hb⟩ := h.secant abs habs hs.near hs.near1 hne
    rw [← hs.q0, ← hs.q1] at hq hb
    rw [← arrayStep_secant abs habs hq] at hb
    have hn0 := norm_nonneg (toC s.p1 - toC c)
    have hm : SecantPt.move abs tol { s with nz := decide (s.q1 ≠ s.q0) } =
        { s with nz := true, p := s.p1 - s.q1 * (s.p1 - s.p) / (s.q1 - s.q0), failed := decide (tol ≤ abs (s.q1 * (s.p1 - s.p) / (s.q1 - s.q0))) } := by
      unfold SecantPt.move
      simp [hq]
    rw [hm]
    obtain ⟨d, hd⟩ : ∃ d, d = s.q1 * (s.p1 - s.p) / (s.q1 - s.q0) := ⟨_, rfl⟩
    rw [← hd] at hb ⊢
    have hdp : ‖toC (s.p1 - d) - toC s.p1‖ = abs d := by
      rw [habs, ← toC_sub, sub_sub_cancel_left, toC_neg, norm_neg]
    refine ⟨⟨hs.q1, rfl, hs.near1, ?_, ?_⟩, hb, rfl, fun hnf => ⟨error_of_step hb ?_, hnf rfl⟩, fun hlt => ?_⟩
    · have := hs.near1
      unfold SecantPt.swap
      dsimp only
      linarith
    · unfold SecantPt.swap
      dsimp only
      by_cases he : s.p1 = s.p1 - d
      · right
        rw [← he] at hb ⊢
        have h0 : ‖toC s.p1 - toC c‖ ≤ 0 := by linarith
        have hc := toC_injective (sub_eq_zero.1 (norm_le_zero_iff.1 h0))
        refine ⟨hc, hc, ?_⟩
        have hd0 : d = 0 := by
          have := sub_eq_self.1 he.symm
          exact this
        rw [hd0, habs, toC_eq_zero.2 rfl, norm_zero]
        simp [htol]
      · exact .inl he
    · have := hnf rfl
      dsimp only at this
      rw [hdp]
      have := of_decide_eq_false this
      exact (not_le.1 this).le
    · have := step_of_error hb
      rw [hdp] at this
      simp only [decide_eq_false_iff_not, not_le]
      linarith
  · have hq : s.q1 = s.q0 := by rw [hs.q0, hs.q1, e1, e2]
    have hm : SecantPt.move abs tol { s with nz := decide (s.q1 ≠ s.q0) } = { s with nz := false, p := c, active := false } := by
      unfold SecantPt.move
      rw [e1, e2]
      simp [hq, half_self]
    rw [hm]
    have hr : ‖toC c - toC c‖ ≤ r := e1 ▸ hs.near
    have h0 : ‖toC c - toC c‖ = 0 := by rw [sub_self, norm_zero]
    refine ⟨⟨hs.q1, rfl, hs.near1, hr, .inr ⟨e2, rfl, e3⟩⟩, ?_, rfl, fun _ => ⟨?_, e3⟩, fun _ => e3⟩
    · dsimp only; rw [h0]; positivity
    · dsimp only; rw [h0]; positivity

/-- a point near a simple zero converges, whatever the other points do -/
theorem arraySecantLoop_converges {f df : Cx ℝ → Cx ℝ} {c : Cx ℝ} {r : ℝ} (h : Steady f df c r) (abs : Cx ℝ → ℝ) (habs : ∀ z, abs z = ‖toC z‖) {tol : ℝ} (htol : 0 < tol)
    (n : ℕ) (l : List (SecantPt ℝ)) (i : ℕ) (s : SecantPt ℝ) (hi : l[i]? = some s) (hs : Attracted f c r s) (hn : 3 / 2 * ((2 / 5) ^ n * ‖toC s.p1 - toC c‖) < tol) :
    ∃ t, (arraySecantLoop abs f tol (n + 1) l)[i]? = some t ∧ ‖toC t.p - toC c‖ ≤ 2 / 3 * tol ∧ t.failed = false := by
  induction n generalizing l s with
  | zero =>
    obtain ⟨t, ht⟩ : ∃ t, t = SecantPt.move abs tol { s with nz := decide (s.q1 ≠ s.q0) } := ⟨_, rfl⟩
    obtain ⟨_, _, h3, h4, h5⟩ := hs.move h abs habs htol ht
    have hn0 := norm_nonneg (toC s.p1 - toC c)
    rw [pow_zero, one_mul] at hn
    unfold arraySecantLoop
    dsimp only
    split
    · rename_i hall
      have hnz : s.q1 = s.q0 := by
        have := hall { s with nz := decide (s.q1 ≠ s.q0) } (List.mem_map.2 ⟨s, List.mem_of_getElem? hi, rfl⟩)
        simpa using this
      rcases hs.apart with hne | ⟨e1, e2, e3⟩
      · obtain ⟨hq, _⟩ := h.secant abs habs hs.near hs.near1 hne
        rw [← hs.q0, ← hs.q1] at hq
        exact absurd hnz hq
      · refine ⟨{ s with nz := decide (s.q1 ≠ s.q0), p := (s.p1 + s.p) / 2 }, ?_, ?_, e3⟩
        · rw [List.getElem?_map, List.getElem?_map, hi]; rfl
        · dsimp only
          rw [e1, e2, half_self, sub_self, norm_zero]
          positivity
    · have hi' : ((l.map fun s => { s with nz := decide (s.q1 ≠ s.q0) }).map (SecantPt.move abs tol))[i]? = some t := by
        rw [List.getElem?_map, List.getElem?_map, hi, ht]; rfl
      split
      · rename_i hall
        obtain ⟨a, b⟩ := h4 (hall t (List.mem_of_getElem? hi'))
        exact ⟨t, hi', a, b⟩
      · unfold arraySecantLoop
        refine ⟨t.swap f, by rw [List.getElem?_map, hi']; rfl, ?_, h5 (by linarith)⟩
        unfold SecantPt.swap
        dsimp only
        rw [h3]
        linarith
  | succ n ih =>
    obtain ⟨t, ht⟩ : ∃ t, t = SecantPt.move abs tol { s with nz := decide (s.q1 ≠ s.q0) } := ⟨_, rfl⟩
    obtain ⟨h1, h2, h3, h4, h5⟩ := hs.move h abs habs htol ht
    rw [arraySecantLoop]
    dsimp only
    split
    · rename_i hall
      have hnz : s.q1 = s.q0 := by
        have := hall { s with nz := decide (s.q1 ≠ s.q0) } (List.mem_map.2 ⟨s, List.mem_of_getElem? hi, rfl⟩)
        simpa using this
      rcases hs.apart with hne | ⟨e1, e2, e3⟩
      · obtain ⟨hq, _⟩ := h.secant abs habs hs.near hs.near1 hne
        rw [← hs.q0, ← hs.q1] at hq
        exact absurd hnz hq
      · refine ⟨{ s with nz := decide (s.q1 ≠ s.q0), p := (s.p1 + s.p) / 2 }, ?_, ?_, e3⟩
        · rw [List.getElem?_map, List.getElem?_map, hi]; rfl
        · dsimp only
          rw [e1, e2, half_self, sub_self, norm_zero]
          positivity
    · have hi' : ((l.map fun s => { s with nz := decide (s.q1 ≠ s.q0) }).map (SecantPt.move abs tol))[i]? = some t := by
        rw [List.getElem?_map, List.getElem?_map, hi, ht]; rfl
      split
      · rename_i hall
        obtain ⟨a, b⟩ := h4 (hall t (List.mem_of_getElem? hi'))
        exact ⟨t, hi', a, b⟩
      · refine ih _ (t.swap f) (by rw [List.getElem?_map, hi']; rfl) h1 ?_
        have e : (t.swap f).p1 = t.p := rfl
        rw [e]
        rw [pow_succ] at hn
        have := mul_le_mul_of_nonneg_left h2 (pow_nonneg (show (0 : ℝ) ≤ 2 / 5 by norm_num) n)
        linarith

/-- `s` holds two consecutive points of the secant method -/
def Follows (f : Cx ℝ → Cx ℝ) (start : Cx ℝ → Prop) (dx : ℝ) (k : ℕ) (s : SecantPt ℝ) : Prop :=
  s.q0 = f s.p ∧ s.q1 = f s.p1 ∧ ∃ x, start x ∧ SecantAfter f x (secondStart dx x) k s.p s.p1

/-- each point makes steps of the secant method on its own -/
theorem arraySecantLoop_follows (abs : Cx ℝ → ℝ) (f : Cx ℝ → Cx ℝ) (tol dx : ℝ) (start : Cx ℝ → Prop) (n k : ℕ) (l : List (SecantPt ℝ)) (hl : ∀ s ∈ l, Follows f start dx k s) :
    ∀ t ∈ arraySecantLoop abs f tol n l, ∃ x, start x ∧ ∃ j ≤ k + n, ∃ a b, SecantAfter f x (secondStart dx x) j a b ∧ (t.p = a ∨ t.p = b) := by
  induction n generalizing l k with
  | zero =>
    intro t ht
    obtain ⟨_, _, x, h1, h2⟩ := hl t ht
    exact ⟨x, h1, k, by omega, _, _, h2, .inl rfl⟩
  | succ n ih =>
    have hmove : ∀ s, Follows f start dx k s → Follows f start dx (k + 1) ((SecantPt.move abs tol { s with nz := decide (s.q1 ≠ s.q0) }).swap f) ∧
        ∃ x, start x ∧ SecantAfter f x (secondStart dx x) (k + 1) s.p1 (SecantPt.move abs tol { s with nz := decide (s.q1 ≠ s.q0) }).p := by
      intro s ⟨e1, e2, x, h1, h2⟩
      by_cases hq : s.q1 = s.q0
      · by_cases ha : s.active = true
        · have hm : SecantPt.move abs tol { s with nz := decide (s.q1 ≠ s.q0) } = { s with nz := false, p := (s.p1 + s.p) / 2, active := false } := by
            unfold SecantPt.move
            simp [hq, ha]
          rw [hm]
          have := SecantAfter.middle h2 (by rw [← e1, ← e2, hq])
          exact ⟨⟨e2, rfl, x, h1, this⟩, x, h1, this⟩
        · have hm : SecantPt.move abs tol { s with nz := decide (s.q1 ≠ s.q0) } = { s with nz := false, active := false } := by
            unfold SecantPt.move
            simp [hq, ha]
          rw [hm]
          have := SecantAfter.stay h2 (by rw [← e1, ← e2, hq])
          exact ⟨⟨e2, rfl, x, h1, this⟩, x, h1, this⟩
      · have hm : SecantPt.move abs tol { s with nz := decide (s.q1 ≠ s.q0) } =
            { s with nz := true, p := s.p1 - s.q1 * (s.p1 - s.p) / (s.q1 - s.q0), failed := decide (tol ≤ abs (s.q1 * (s.p1 - s.p) / (s.q1 - s.q0))) } := by
          unfold SecantPt.move
          simp [hq]
        rw [hm]
        have := SecantAfter.step h2 (by rw [← e1, ← e2]; exact hq)
        rw [← e1, ← e2] at this
        exact ⟨⟨e2, rfl, x, h1, this⟩, x, h1, this⟩
    intro t ht
    rw [arraySecantLoop] at ht
    dsimp only at ht
    split at ht
    · rename_i hall
      obtain ⟨s', hs', rfl⟩ := List.mem_map.1 ht
      obtain ⟨s, hs, rfl⟩ := List.mem_map.1 hs'
      obtain ⟨e1, e2, x, h1, h2⟩ := hl s hs
      have hnz : s.q1 = s.q0 := by simpa using hall _ hs'
      exact ⟨x, h1, k + 1, by omega, _, _, SecantAfter.middle h2 (by rw [← e1, ← e2, hnz]), .inr rfl⟩
    · split at ht
      · obtain ⟨s', hs', rfl⟩ := List.mem_map.1 ht
        obtain ⟨s, hs, rfl⟩ := List.mem_map.1 hs'
        obtain ⟨_, x, h1, h2⟩ := hmove s (hl s hs)
        exact ⟨x, h1, k + 1, by omega, _, _, h2, .inr rfl⟩
      · obtain ⟨x, h1, j, hj, rest⟩ := ih (k + 1) _ (fun s hs => by
          obtain ⟨s2, hs2, rfl⟩ := List.mem_map.1 hs
          obtain ⟨s1, hs1, rfl⟩ := List.mem_map.1 hs2
          obtain ⟨s0, hs0, rfl⟩ := List.mem_map.1 hs1
          exact (hmove s0 (hl s0 hs0)).1) t ht
        exact ⟨x, h1, j, by omega, rest⟩

theorem arraySecantLoop_length (abs : Cx ℝ → ℝ) (f : Cx ℝ → Cx ℝ) (tol : ℝ) (n : ℕ) (l : List (SecantPt ℝ)) : (arraySecantLoop abs f tol n l).length = l.length := by
  induction n generalizing l with
  | zero => rfl
  | succ n ih =>
    rw [arraySecantLoop]
    dsimp only
    split
    · simp
    · split
      · simp
      · rw [ih]; simp

/-- the second start point is different from the first and close to it -/
theorem secondStart_near {dx : ℝ} (hdx : 0 < dx) (x : Cx ℝ) : x ≠ secondStart dx x ∧ ‖toC (secondStart dx x) - toC x‖ ≤ dx * (1 + ‖toC x‖) := by
  have e : toC (secondStart dx x) - toC x = dx * (toC x + if 0 < x.re ∨ (x.re = 0 ∧ 0 ≤ x.im) then 1 else -1) := by
    unfold secondStart
    rw [toC_add, toC_mul]
    have h1 : toC (⟨1 + dx, 0⟩ : Cx ℝ) = 1 + dx := by apply Complex.ext <;> simp [toC]
    rw [h1]
    split
    · have h2 : toC (⟨dx, 0⟩ : Cx ℝ) = dx := by apply Complex.ext <;> simp [toC]
      rw [h2]; ring
    · have h2 : toC (⟨-dx, 0⟩ : Cx ℝ) = -dx := by apply Complex.ext <;> simp [toC]
      rw [h2]; ring
  constructor
  · intro h
    rw [← h, sub_self] at e
    have h0 : toC x + (if 0 < x.re ∨ (x.re = 0 ∧ 0 ≤ x.im) then (1 : ℂ) else -1) = 0 := by
      rcases mul_eq_zero.1 e.symm with h | h
      · exact absurd (Complex.ofReal_eq_zero.1 h) hdx.ne'
      · exact h
    have hre := congrArg Complex.re h0
    split at hre
    · rename_i hp
      simp only [toC, Complex.add_re, Complex.one_re, Complex.zero_re] at hre
      rcases hp with hp | ⟨hp, _⟩ <;> linarith
    · rename_i hp
      simp only [toC, Complex.add_re, Complex.neg_re, Complex.one_re, Complex.zero_re] at hre
      exact hp (.inl (by linarith))
  · rw [e, norm_mul, Complex.norm_real, Real.norm_of_nonneg hdx.le]
    refine mul_le_mul_of_nonneg_left ?_ hdx.le
    refine (norm_add_le _ _).trans ?_
    have : ‖(if 0 < x.re ∨ (x.re = 0 ∧ 0 ≤ x.im) then (1 : ℂ) else -1)‖ = 1 := by split <;> simp
    linarith

/-- what the array version returns -/
theorem arraySecant_converges {f df : Cx ℝ → Cx ℝ} {c : Cx ℝ} {r : ℝ} (h : Steady f df c r) (abs : Cx ℝ → ℝ) (habs : ∀ z, abs z = ‖toC z‖) {dx tol : ℝ} (hdx : 0 < dx) (htol : 0 < tol)
    (n : ℕ) (p : List (Cx ℝ)) (i : ℕ) (x : Cx ℝ) (hi : p[i]? = some x) (h0 : ‖toC x - toC c‖ + dx * (1 + ‖toC x‖) ≤ r) (hn : 3 / 2 * ((2 / 5) ^ n * r) < tol) :
    ∃ out, arraySecant abs dx f tol (n + 1) p = some out ∧ ∃ y, out[i]? = some y ∧ ‖toC y - toC c‖ ≤ 2 / 3 * tol := by
  obtain ⟨b1, b2⟩ := secondStart_near hdx x
  have hx0 := mul_nonneg hdx.le (add_nonneg one_pos.le (norm_nonneg (toC x)))
  have hnear1 : ‖toC (secondStart dx x) - toC c‖ ≤ r := by
    have := norm_add_le (toC (secondStart dx x) - toC x) (toC x - toC c)
    rw [sub_add_sub_cancel] at this
    linarith
  obtain ⟨t, h1, h2, h3⟩ := arraySecantLoop_converges h abs habs htol n (p.map (SecantPt.start f dx)) i (SecantPt.start f dx x) (by rw [List.getElem?_map, hi]; rfl)
    ⟨rfl, rfl, by unfold SecantPt.start; dsimp only; linarith, hnear1, .inl b1⟩ (lt_of_le_of_lt (b := 3 / 2 * ((2 / 5) ^ n * r)) (by
      have := mul_le_mul_of_nonneg_left hnear1 (pow_nonneg (show (0 : ℝ) ≤ 2 / 5 by norm_num) n)
      unfold SecantPt.start
      dsimp only
      linarith) hn)
  have hget : ((arraySecantLoop abs f tol (n + 1) (p.map (SecantPt.start f dx))).map SecantPt.p)[i]? = some t.p := by rw [List.getElem?_map, h1]; rfl
  unfold arraySecant
  dsimp only
  split
  · exact ⟨_, rfl, _, hget, h2⟩
  · rw [if_neg (fun hall => by rw [hall t (List.mem_of_getElem? h1)] at h3; exact absurd h3 (by simp))]
    exact ⟨_, rfl, _, hget, h2⟩

theorem arraySecant_follows (abs : Cx ℝ → ℝ) (f : Cx ℝ → Cx ℝ) (tol dx : ℝ) (n : ℕ) (p : List (Cx ℝ)) (out : List (Cx ℝ)) (ho : arraySecant abs dx f tol n p = some out) :
    out.length = p.length ∧ ∀ y ∈ out, ∃ x ∈ p, ∃ k ≤ n, ∃ a b, SecantAfter f x (secondStart dx x) k a b ∧ (y = a ∨ y = b) := by
  have hout : out = (arraySecantLoop abs f tol n (p.map (SecantPt.start f dx))).map SecantPt.p := by
    unfold arraySecant at ho
    dsimp only at ho
    split at ho
    · exact (Option.some.inj ho).symm
    · split at ho
      · exact absurd ho (by simp)
      · exact (Option.some.inj ho).symm
  subst hout
  refine ⟨by simp [arraySecantLoop_length], fun y hy => ?_⟩
  obtain ⟨t, ht, rfl⟩ := List.mem_map.1 hy
  obtain ⟨x, hx, k, hk, rest⟩ := arraySecantLoop_follows abs f tol dx (· ∈ p) n 0 _ (fun s hs => by
    obtain ⟨x, hx, rfl⟩ := List.mem_map.1 hs
    exact ⟨rfl, rfl, x, hx, SecantAfter.start⟩) t ht
  exact ⟨x, hx, k, by omega, rest⟩

theorem beside_iff {dx : ℝ} {x y : Cx ℝ} : Beside dx x y ↔ y = secondStart dx x := by
  have e : toC (secondStart dx x) = toC x * (1 + dx) + (if 0 < x.re ∨ (x.re = 0 ∧ 0 ≤ x.im) then (dx : ℂ) else -(dx : ℂ)) := by
    unfold secondStart
    rw [toC_add, toC_mul]
    have h1 : toC (⟨1 + dx, 0⟩ : Cx ℝ) = 1 + dx := by apply Complex.ext <;> simp [toC]
    rw [h1]
    split
    · have h2 : toC (⟨dx, 0⟩ : Cx ℝ) = dx := by apply Complex.ext <;> simp [toC]
      rw [h2]
    · have h2 : toC (⟨-dx, 0⟩ : Cx ℝ) = -dx := by apply Complex.ext <;> simp [toC]
      rw [h2]
  constructor
  · intro h
    exact toC_injective ((show toC y = _ from h).trans e.symm)
  · rintro rfl
    exact e

end PyZeal
