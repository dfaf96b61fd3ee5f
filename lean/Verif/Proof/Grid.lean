import Verif.Proof.Cover
import Verif.Proof.Search

/-! # The grid of rectangles of a search -/

set_option linter.unusedSectionVars false

namespace PyZeal
open Spec

/-- the rectangle with number `(i, j)` at depth `k` -/
structure BoxAddr where
  k : ℕ
  i : ℕ
  j : ℕ
deriving DecidableEq

/-- the data of a grid: search rectangle and the number of splits of each side up to a given depth -/
structure Grid where
  X : ℝ
  Y : ℝ
  W : ℝ
  H : ℝ
  splits : ℕ → ℕ × ℕ
  posW : 0 < W
  posH : 0 < H
  mono : ∀ k, (splits k).1 ≤ (splits (k + 1)).1 ∧ (splits k).2 ≤ (splits (k + 1)).2

namespace Grid
variable (G : Grid)

/-- number of splits in direction `hz` (`true`: real axis) -/
def num (hz : Bool) (k : ℕ) : ℕ := if hz then (G.splits k).1 else (G.splits k).2

/-- coordinate of the `t`-th grid line at depth `k`; `hz = true`: real part -/
noncomputable def crd (hz : Bool) (k t : ℕ) : ℝ :=
  if hz then G.X + t * (G.W / 2 ^ (G.splits k).1) else G.Y + t * (G.H / 2 ^ (G.splits k).2)

theorem num_mono (hz : Bool) {k k' : ℕ} (h : k ≤ k') : G.num hz k ≤ G.num hz k' := by
  induction h with
  | refl => exact le_refl _
  | step _ ih =>
    refine ih.trans ?_
    unfold num
    cases hz
    · exact (G.mono _).2
    · exact (G.mono _).1

/-- grid coordinates in a common form -/
theorem crd_eq (hz : Bool) : ∃ O L : ℝ, 0 < L ∧ ∀ k t, G.crd hz k t = O + t * (L / 2 ^ G.num hz k) := by
  cases hz
  · exact ⟨G.Y, G.H, G.posH, fun k t => rfl⟩
  · exact ⟨G.X, G.W, G.posW, fun k t => rfl⟩

theorem crd_lt (hz : Bool) (k t : ℕ) : G.crd hz k t < G.crd hz k (t + 1) := by
  obtain ⟨O, L, hL, h⟩ := G.crd_eq hz
  rw [h, h]
  have : 0 < L / 2 ^ G.num hz k := by positivity
  push_cast
  nlinarith

theorem crd_inj (hz : Bool) {k k' s t : ℕ} (hk : k ≤ k') (h : G.crd hz k s = G.crd hz k' t) :
    s * 2 ^ (G.num hz k' - G.num hz k) = t := by
  obtain ⟨O, L, hL, e⟩ := G.crd_eq hz
  rw [e, e] at h
  have hm := G.num_mono hz hk
  have e2 : (2 : ℝ) ^ G.num hz k' = 2 ^ G.num hz k * 2 ^ (G.num hz k' - G.num hz k) := by
    rw [← pow_add]; congr 1; omega
  have h1 : (s : ℝ) * (L / 2 ^ G.num hz k) = t * (L / 2 ^ G.num hz k') := by linarith
  rw [e2] at h1
  have p1 : (0 : ℝ) < 2 ^ G.num hz k := by positivity
  have p2 : (0 : ℝ) < 2 ^ (G.num hz k' - G.num hz k) := by positivity
  field_simp at h1
  have : ((s * 2 ^ (G.num hz k' - G.num hz k) : ℕ) : ℝ) = (t : ℕ) := by push_cast; linarith
  exact_mod_cast this

theorem width_mono (hz : Bool) {k k' : ℕ} (hk : k ≤ k') (s t : ℕ) :
    G.crd hz k' (t + 1) - G.crd hz k' t ≤ G.crd hz k (s + 1) - G.crd hz k s := by
  obtain ⟨O, L, hL, e⟩ := G.crd_eq hz
  simp only [e]
  have hm := G.num_mono hz hk
  have : L / 2 ^ G.num hz k' ≤ L / 2 ^ G.num hz k := by
    apply div_le_div_of_nonneg_left hL.le (by positivity)
    exact pow_le_pow_right₀ (by norm_num) hm
  push_cast
  linarith

end Grid

/-- position of a node along / across direction `hz` -/
def BoxAddr.at (n : BoxAddr) (hz : Bool) : ℕ := if hz then n.i else n.j

namespace Grid
variable (G : Grid)

/-- the ancestor at depth `k` -/
def anc (k : ℕ) (q : BoxAddr) : BoxAddr :=
  ⟨k, q.i / 2 ^ (G.num true q.k - G.num true k), q.j / 2 ^ (G.num false q.k - G.num false k)⟩

/-- `p` is `q` or one of its ancestors -/
def Desc (p q : BoxAddr) : Prop := p.k ≤ q.k ∧ G.anc p.k q = p

theorem anc_self (q : BoxAddr) : G.anc q.k q = q := by simp [anc]

theorem anc_anc {k k' : ℕ} {q : BoxAddr} (h1 : k ≤ k') (h2 : k' ≤ q.k) : G.anc k (G.anc k' q) = G.anc k q := by
  have key : ∀ hz, 2 ^ (G.num hz q.k - G.num hz k') * 2 ^ (G.num hz k' - G.num hz k) = 2 ^ (G.num hz q.k - G.num hz k) := by
    intro hz
    have a := G.num_mono hz h1
    have b := G.num_mono hz h2
    rw [← pow_add]; congr 1; omega
  simp only [anc, Nat.div_div_eq_div_mul, key]

theorem Desc.refl (p : BoxAddr) : G.Desc p p := ⟨le_refl _, G.anc_self p⟩

theorem Desc.trans {p q r : BoxAddr} (h1 : G.Desc p q) (h2 : G.Desc q r) : G.Desc p r := by
  refine ⟨h1.1.trans h2.1, ?_⟩
  rw [← G.anc_anc h1.1 h2.1, h2.2, h1.2]

theorem Desc.laminar {m p q : BoxAddr} (h1 : G.Desc m q) (h2 : G.Desc p q) (h : m.k ≤ p.k) : G.Desc m p := by
  refine ⟨h, ?_⟩
  rw [← h2.2, G.anc_anc h h2.1, h1.2]

theorem Desc.eq {p q : BoxAddr} (h : G.Desc p q) (hk : p.k = q.k) : p = q := by
  rw [← h.2, hk, G.anc_self]

theorem anc_k (k : ℕ) (q : BoxAddr) : (G.anc k q).k = k := rfl

theorem anc_at (k : ℕ) (q : BoxAddr) (hz : Bool) : (G.anc k q).at hz = q.at hz / 2 ^ (G.num hz q.k - G.num hz k) := by
  cases hz <;> rfl

theorem node_ext {p q : BoxAddr} (hk : p.k = q.k) (hz : Bool) (h1 : p.at hz = q.at hz) (h2 : p.at (!hz) = q.at (!hz)) : p = q := by
  cases p; cases q
  cases hz <;> simp_all [BoxAddr.at]

theorem desc_anc {k : ℕ} {q : BoxAddr} (h : k ≤ q.k) : G.Desc (G.anc k q) q := ⟨h, rfl⟩

/-! ### edges -/

/-- the fixed coordinate of the edge `b` in direction `hz` -/
noncomputable def ez (n : BoxAddr) (hz b : Bool) : ℝ := G.crd (!hz) n.k (n.at (!hz) + b.toNat)
/-- lower and upper end of the edges in direction `hz` -/
noncomputable def elo (n : BoxAddr) (hz : Bool) : ℝ := G.crd hz n.k (n.at hz)
noncomputable def ehi (n : BoxAddr) (hz : Bool) : ℝ := G.crd hz n.k (n.at hz + 1)

theorem elo_lt (n : BoxAddr) (hz : Bool) : G.elo n hz < G.ehi n hz := G.crd_lt hz _ _

/-- a coarser edge with the same start (end) is at least as long -/
theorem coarse_start {p q : BoxAddr} {hz : Bool} (hk : q.k ≤ p.k) (h : G.elo q hz = G.elo p hz) : G.ehi p hz ≤ G.ehi q hz := by
  have := G.width_mono hz hk (q.at hz) (p.at hz)
  unfold elo ehi at *
  linarith

theorem coarse_stop {p q : BoxAddr} {hz : Bool} (hk : q.k ≤ p.k) (h : G.ehi q hz = G.ehi p hz) : G.elo q hz ≤ G.elo p hz := by
  have := G.width_mono hz hk (q.at hz) (p.at hz)
  unfold elo ehi at *
  linarith

/-- Finer edges at the start or end of an edge of `p` belong to descendants of `p`, or of the neighbour at this edge. -/
theorem finer {p q : BoxAddr} {hz b b' : Bool} (hk : p.k ≤ q.k) (h1 : G.ez q hz b' = G.ez p hz b)
    (h2 : G.elo q hz = G.elo p hz ∨ G.ehi q hz = G.ehi p hz) :
    G.Desc p q ∨ (b' = !b ∧ G.ez (G.anc p.k q) hz (!b) = G.ez p hz b ∧ G.elo (G.anc p.k q) hz = G.elo p hz ∧
      G.ehi (G.anc p.k q) hz = G.ehi p hz) := by
  have hz1 := G.crd_inj (!hz) hk h1.symm
  have hD : 0 < 2 ^ (G.num hz q.k - G.num hz p.k) := by positivity
  have hE : 0 < 2 ^ (G.num (!hz) q.k - G.num (!hz) p.k) := by positivity
  have along : (G.anc p.k q).at hz = p.at hz := by
    rw [G.anc_at]
    rcases h2 with h2 | h2
    · have := G.crd_inj hz hk h2.symm
      generalize 2 ^ (G.num hz q.k - G.num hz p.k) = D at *
      apply Nat.div_eq_of_lt_le <;> nlinarith
    · have := G.crd_inj hz hk h2.symm
      generalize 2 ^ (G.num hz q.k - G.num hz p.k) = D at *
      apply Nat.div_eq_of_lt_le <;> nlinarith
  have fin : ∀ t, (G.anc p.k q).at (!hz) = t → (t = p.at (!hz) → G.Desc p q) ∧
      (∀ c : Bool, t + c.toNat = p.at (!hz) + b.toNat → G.ez (G.anc p.k q) hz c = G.ez p hz b ∧
        G.elo (G.anc p.k q) hz = G.elo p hz ∧ G.ehi (G.anc p.k q) hz = G.ehi p hz) := by
    intro t ht
    refine ⟨fun e => ⟨hk, node_ext rfl hz along (by rw [ht, e])⟩, fun c hc => ⟨?_, ?_, ?_⟩⟩
    · unfold ez; rw [ht, hc]; rfl
    · unfold elo; rw [along]; rfl
    · unfold ehi; rw [along]; rfl
  rw [G.anc_at] at fin
  generalize 2 ^ (G.num (!hz) q.k - G.num (!hz) p.k) = E at *
  cases b <;> cases b'
  · simp only [Bool.toNat_false, add_zero] at hz1
    exact .inl ((fin (p.at (!hz)) (by apply Nat.div_eq_of_lt_le <;> nlinarith)).1 rfl)
  · simp only [Bool.toNat_false, add_zero, Bool.toNat_true] at hz1
    obtain ⟨t, ht⟩ : ∃ t, p.at (!hz) = t + 1 := ⟨p.at (!hz) - 1, by
      rcases Nat.eq_zero_or_pos (p.at (!hz)) with h0 | h0
      · rw [h0] at hz1; omega
      · omega⟩
    rw [ht] at hz1
    refine .inr ⟨rfl, (fin t (by apply Nat.div_eq_of_lt_le <;> nlinarith)).2 true (by simp [ht])⟩
  · simp only [Bool.toNat_false, add_zero, Bool.toNat_true] at hz1
    refine .inr ⟨rfl, (fin (p.at (!hz) + 1) (by apply Nat.div_eq_of_lt_le <;> nlinarith)).2 false (by simp)⟩
  · simp only [Bool.toNat_true] at hz1
    exact .inl ((fin (p.at (!hz)) (by apply Nat.div_eq_of_lt_le <;> nlinarith)).1 rfl)

end Grid

/-! ### oriented edges -/

/-- the point with moving coordinate `t` on the line with fixed coordinate `z`; `hz = true`: horizontal -/
def lpt (hz : Bool) (z t : ℝ) : Cx ℝ := if hz then ⟨t, z⟩ else ⟨z, t⟩

theorem lpt_isLine (hz : Bool) (z : ℝ) : IsLine (lpt hz z) := by
  cases hz
  · exact .inr ⟨z, rfl⟩
  · exact .inl ⟨z, rfl⟩

theorem lpt_inj {hz hz' : Bool} {z z' s s' t t' : ℝ} (h1 : lpt hz z s = lpt hz' z' s') (h2 : lpt hz z t = lpt hz' z' t')
    (hst : s ≠ t) : hz = hz' ∧ z = z' ∧ s = s' ∧ t = t' := by
  cases hz <;> cases hz' <;> simp only [lpt, Cx.mk.injEq, if_true, if_false, Bool.false_eq_true] at h1 h2
  · exact ⟨rfl, h1.1, h1.2, h2.2⟩
  · exact absurd (h1.2.trans h2.2.symm) hst
  · exact absurd (h1.1.trans h2.1.symm) hst
  · exact ⟨rfl, h1.2, h1.1, h2.1⟩

namespace Grid
variable (G : Grid)

/-- the oriented edge `(hz, b)` of a node: counterclockwise -/
noncomputable def own (n : BoxAddr) (hz b : Bool) : Cx ℝ × Cx ℝ :=
  if xor hz b then (lpt hz (G.ez n hz b) (G.elo n hz), lpt hz (G.ez n hz b) (G.ehi n hz))
  else (lpt hz (G.ez n hz b) (G.ehi n hz), lpt hz (G.ez n hz b) (G.elo n hz))

/-- equal oriented edges belong to nested rectangles -/
theorem own_eq {m p : BoxAddr} {hz b hz' b' : Bool} (h : G.own m hz' b' = G.own p hz b) :
    G.Desc m p ∨ G.Desc p m := by
  have hm := (G.elo_lt m hz').ne
  have hp := (G.elo_lt p hz).ne
  have key : hz' = hz ∧ G.ez m hz' b' = G.ez p hz b ∧ G.elo m hz' = G.elo p hz ∧ b' = b := by
    unfold own at h
    split at h <;> split at h <;> rename_i x1 x2 <;> rw [Prod.mk.injEq] at h
    · obtain ⟨e1, e2, e3, _⟩ := lpt_inj h.1 h.2 hm
      subst e1
      refine ⟨rfl, e2, e3, ?_⟩
      cases hz' <;> cases b <;> cases b' <;> simp_all
    · obtain ⟨e1, e2, e3, e4⟩ := lpt_inj h.1 h.2 hm
      subst e1
      have := G.elo_lt m hz'
      have := G.elo_lt p hz'
      linarith
    · obtain ⟨e1, e2, e3, e4⟩ := lpt_inj h.1 h.2 hm.symm
      subst e1
      have := G.elo_lt m hz'
      have := G.elo_lt p hz'
      linarith
    · obtain ⟨e1, e2, e3, e4⟩ := lpt_inj h.1 h.2 hm.symm
      subst e1
      refine ⟨rfl, e2, e4, ?_⟩
      cases hz' <;> cases b <;> cases b' <;> simp_all
  obtain ⟨rfl, h1, h2, rfl⟩ := key
  rcases le_total m.k p.k with hk | hk
  · rcases G.finer hk h1.symm (.inl h2.symm) with h | ⟨h, _⟩
    · exact .inl h
    · cases b' <;> simp at h
  · rcases G.finer hk h1 (.inl h2) with h | ⟨h, _⟩
    · exact .inr h
    · cases b' <;> simp at h

/-- the edge of the neighbour is the reversed edge -/
theorem own_swap {p q : BoxAddr} {hz b : Bool} (h1 : G.ez q hz (!b) = G.ez p hz b) (h2 : G.elo q hz = G.elo p hz)
    (h3 : G.ehi q hz = G.ehi p hz) : (G.own q hz (!b)).swap = G.own p hz b := by
  unfold own
  rw [h1, h2, h3]
  cases hz <;> cases b <;> rfl

end Grid
end PyZeal
