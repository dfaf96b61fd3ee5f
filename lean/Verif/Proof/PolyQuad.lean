import Verif.Proof.QuadMoment
import Verif.Proof.QuadSearch

/-! # Moments round a rectangle -/

set_option linter.unusedSectionVars false

namespace PyZeal
open Spec

/-- no interrupt is pending, and the cache entries of order `k` satisfy `P` -/
structure OrderOk {σ : Type} (k : ℤ) (P : Cx ℝ → Cx ℝ → Cx ℝ → Prop) (w : World σ ℝ) : Prop where
  wf : CacheWF w.cache
  fuse : w.fuse = none
  val : ∀ a b v, w.cache.look k a b = some v → P a b v

/-- nothing but cache entries of order `k` changed -/
structure OnlyOrder {σ : Type} (k : ℤ) (w w' : World σ ℝ) : Prop where
  look : ∀ k', k' ≠ k → ∀ a b, w'.cache.look k' a b = w.cache.look k' a b
  log : w'.log = w.log
  added : w'.added = w.added

theorem OnlyOrder.trans {σ : Type} {k : ℤ} {w w' w'' : World σ ℝ} (h1 : OnlyOrder k w w') (h2 : OnlyOrder k w' w'') : OnlyOrder k w w'' :=
  ⟨fun k' hk a b => (h2.look k' hk a b).trans (h1.look k' hk a b), h2.log.trans h1.log, h2.added.trans h1.added⟩

section
variable {σ : Type} {est : LineEst σ ℝ} {ctx : RCtx ℝ} {k : ℤ} {X : Cx ℝ → Cx ℝ → ℂ} {ε : ℝ}

theorem edge_moment {e : Cx ℝ × Cx ℝ} (hX : X e.2 e.1 = - X e.1 e.2) (hline : ∀ w : World σ ℝ, ∃ v, est k e.1 e.2 ctx w = (.ok v, w) ∧ ‖toC v - X e.1 e.2‖ ≤ ε)
    {w : World σ ℝ} (hw : OrderOk k (fun a b v => ‖toC v - X a b‖ ≤ ε) w) :
    ∃ v w', edgeMoment est k ctx e w = (.ok v, w') ∧ OrderOk k (fun a b v => ‖toC v - X a b‖ ≤ ε) w' ∧ ‖toC v - X e.1 e.2‖ ≤ ε ∧ OnlyOrder k w w' := by
  rw [edgeMoment_run]
  dsimp only
  have hw1 : OrderOk k (fun a b v => ‖toC v - X a b‖ ≤ ε) { w with cache := (w.cache.retrieve k e.1 e.2).2 } :=
    ⟨hw.wf.of_data (w.cache.retrieve_data _ _ _), hw.fuse, fun a b v hv => hw.val a b v ((EstCache.look_retrieve _ _ _ _ _ _ _).symm.trans hv)⟩
  have hcomp : ∃ v w', edgeMoment.compute est k ctx e { w with cache := (w.cache.retrieve k e.1 e.2).2 } = (.ok v, w') ∧
      OrderOk k (fun a b v => ‖toC v - X a b‖ ≤ ε) w' ∧ ‖toC v - X e.1 e.2‖ ≤ ε ∧ OnlyOrder k w w' := by
    obtain ⟨v, h1, h2⟩ := hline { w with cache := (w.cache.retrieve k e.1 e.2).2 }
    rw [compute_run, World.tick_none hw1.fuse]
    dsimp only
    rw [h1]
    dsimp only
    refine ⟨v, _, rfl, ⟨(hw1.wf.store _ _ _ _).store _ _ _ _, hw.fuse, ?_⟩, h2, ⟨?_, rfl, rfl⟩⟩
    · intro a b u hu
      dsimp only at hu
      rw [EstCache.look_store, EstCache.look_store] at hu
      split at hu
      · rename_i hk
        obtain ⟨_, rfl, rfl⟩ := hk
        simp only [Option.some.injEq] at hu
        rw [← hu, hX]
        have : toC (-v) - -X e.1 e.2 = -(toC v - X e.1 e.2) := by
          have : toC (-v) = - toC v := by apply Complex.ext <;> simp [toC]
          rw [this]; ring
        rw [this, norm_neg]
        exact h2
      · split at hu
        · rename_i hk
          obtain ⟨_, rfl, rfl⟩ := hk
          simp only [Option.some.injEq] at hu
          rw [← hu]
          exact h2
        · exact hw1.val a b u hu
    · intro k' hk a b
      dsimp only
      rw [EstCache.look_store, EstCache.look_store, if_neg fun h => hk h.1.symm, if_neg fun h => hk h.1.symm]
      exact EstCache.look_retrieve _ _ _ _ _ _ _
  rcases hv : w.cache.look k e.1 e.2 with _ | v
  · exact hcomp
  · dsimp only
    by_cases h0 : v ≠ 0
    · rw [if_pos h0]
      exact ⟨v, _, rfl, hw1, hw.val _ _ _ hv, ⟨fun k' _ a b => EstCache.look_retrieve _ _ _ _ _ _ _, rfl, rfl⟩⟩
    · rw [if_neg h0]
      exact hcomp

theorem sum_moment (es : List (Cx ℝ × Cx ℝ)) (hes : ∀ e ∈ es, X e.2 e.1 = - X e.1 e.2 ∧ ∀ w : World σ ℝ, ∃ v, est k e.1 e.2 ctx w = (.ok v, w) ∧ ‖toC v - X e.1 e.2‖ ≤ ε)
    (phi : Cx ℝ) {w : World σ ℝ} (hw : OrderOk k (fun a b v => ‖toC v - X a b‖ ≤ ε) w) :
    ∃ v w', sumEdges est k ctx es phi w = (.ok v, w') ∧ OrderOk k (fun a b v => ‖toC v - X a b‖ ≤ ε) w' ∧
      ‖toC v - (toC phi + (es.map fun e => X e.1 e.2).sum)‖ ≤ es.length * ε ∧ OnlyOrder k w w' := by
  induction es generalizing phi w with
  | nil => exact ⟨phi, w, rfl, hw, by simp, fun _ _ _ _ => rfl, rfl, rfl⟩
  | cons e es ih =>
    obtain ⟨d, w1, e1, i1, a1, l1⟩ := edge_moment (hes e (by simp)).1 (hes e (by simp)).2 hw
    obtain ⟨v, w2, e2, i2, a2, l2⟩ := ih (fun e' he' => hes e' (by simp [he'])) (phi + d) i1
    refine ⟨v, w2, ?_, i2, ?_, l1.trans l2⟩
    · unfold sumEdges
      rw [Py.bind_run, e1]
      exact e2
    · simp only [List.map_cons, List.sum_cons, List.length_cons, Nat.cast_add, Nat.cast_one]
      have e3 : toC v - (toC phi + (X e.1 e.2 + (es.map fun e => X e.1 e.2).sum)) =
          (toC v - (toC (phi + d) + (es.map fun e => X e.1 e.2).sum)) + (toC d - X e.1 e.2) := by
        have : toC (phi + d) = toC phi + toC d := by apply Complex.ext <;> simp [toC]
        rw [this]; ring
      rw [e3]
      refine (norm_add_le _ _).trans ?_
      rw [add_mul, one_mul]
      exact add_le_add a2 a1

theorem calc_moment {re im : ℝ × ℝ} (hes : ∀ e ∈ edges re im, X e.2 e.1 = - X e.1 e.2 ∧ ∀ w : World σ ℝ, ∃ v, est k e.1 e.2 ctx w = (.ok v, w) ∧ ‖toC v - X e.1 e.2‖ ≤ ε)
    {w : World σ ℝ} (hw : OrderOk k (fun a b v => ‖toC v - X a b‖ ≤ ε) w) :
    ∃ v w', calcMoment est k re im ctx w = (.ok v, w') ∧ OrderOk k (fun a b v => ‖toC v - X a b‖ ≤ ε) w' ∧
      ‖toC v - ((edges re im).map fun e => X e.1 e.2).sum‖ ≤ 4 * ε ∧ OnlyOrder k w w' := by
  obtain ⟨v, w', h1, h2, h3, h4⟩ := sum_moment (edges re im) hes 0 hw
  refine ⟨v, w', h1, h2, ?_, h4⟩
  have e0 : toC (0 : Cx ℝ) = 0 := by apply Complex.ext <;> simp [toC]
  rw [e0, zero_add] at h3
  exact_mod_cast h3

end

/-- the exact moment along a line (with the factor of the code) -/
noncomputable def momX (k : ℕ) (zeros : List (Cx ℝ)) (G : ℂ → ℂ) (a b : Cx ℝ) : ℂ :=
  -Complex.I * lineInt (fun z => z ^ k * logD (zeros.map toC) G z) (toC a) (toC b)

theorem momX_reverse (k : ℕ) (zeros : List (Cx ℝ)) (G : ℂ → ℂ) (a b : Cx ℝ) : momX k zeros G b a = - momX k zeros G a b := by
  unfold momX
  rw [lineInt_reverse]
  ring

theorem momX_around {re im : ℝ × ℝ} (hre : re.1 < re.2) (him : im.1 < im.2) {zeros : List (Cx ℝ)} {G : ℂ → ℂ}
    (hG : ∀ z, Cell.Has (⟨re, im, 0⟩ : Cell ℝ) z → AnalyticAt ℂ G (toC z)) (hoff : ∀ c ∈ zeros, ¬ Cell.Boundary ⟨re, im, 0⟩ c) (k : ℕ) :
    ((edges re im).map fun e => momX k zeros G e.1 e.2).sum = 2 * Real.pi * powerSum k zeros re im := by
  have h := around_moment hre him hG hoff k
  have e : ((edges re im).map fun e => momX k zeros G e.1 e.2).sum = -Complex.I * aroundRect (lineInt fun z => z ^ k * logD (zeros.map toC) G z) re im := by
    unfold aroundRect momX
    simp only [edges, List.map_cons, List.map_nil, List.sum_cons, List.sum_nil]
    ring
  rw [e, h]
  show _ = 2 * (Real.pi : ℂ) * ((zeros.filter fun c => decide (Cell.HasHalfOpen ⟨re, im, 0⟩ c)).map fun c => toC c ^ k).sum
  linear_combination (-2 * (Real.pi : ℂ) * ((zeros.filter fun c => decide (Cell.HasHalfOpen ⟨re, im, 0⟩ c)).map fun c => toC c ^ k).sum) * Complex.I_mul_I

/-- moments along the sides of a rectangle -/
theorem quad_edges {σ : Type} (cfg : QuadCfg ℝ) (hromb : cfg.romb = romberg) (habs : ∀ z, cfg.abs z = √(z.re ^ 2 + z.im ^ 2))
    (hev : ∀ n, 1 ≤ cfg.evals n) (hsteps : 13 ≤ cfg.steps) (df : Cx ℝ → Cx ℝ) (ctx : RCtx ℝ) (hdf : ctx.df = some df)
    {S : Cx ℝ → Prop} {zeros : List (Cx ℝ)} {G : ℂ → ℂ} {B V d B' R e : ℝ} (hf : AnalyticWith ctx.f df S zeros G B V) (hB : BoundedBy S G B' R) (hd : 0 < d)
    {re im : ℝ × ℝ} (hre : re.1 < re.2) (him : im.1 < im.2) (hS : ∀ z, Cell.Has ⟨re, im, 0⟩ z → S z) (hfar : ∀ z, Cell.Boundary ⟨re, im, 0⟩ z → Far d zeros z) (k : ℕ)
    (h1 : ∀ l, l = re.2 - re.1 ∨ l = im.2 - im.1 → momentError k zeros.length B' d R l ≤ e ∧ momentError k zeros.length B' d R l < 1 / 1250) :
    ∀ l ∈ edges re im, momX k zeros G l.2 l.1 = - momX k zeros G l.1 l.2 ∧
      ∀ w : World σ ℝ, ∃ v, quadLine cfg (k : ℤ) l.1 l.2 ctx w = (.ok v, w) ∧ ‖toC v - momX k zeros G l.1 l.2‖ ≤ 2 * e := by
  intro l hl
  refine ⟨momX_reverse _ _ _ _ _, fun w => ?_⟩
  obtain ⟨b1, b2, b3⟩ := edge_boundary hre him hl
  have hlen := h1 _ b2
  obtain ⟨v, h1, h2⟩ := quadLine_moment cfg hromb habs hev hsteps df ctx hdf hf hB hd b1 (fun t h0 h1 => ⟨hS _ (b3 t h0 h1).1, hfar _ (b3 t h0 h1)⟩) k
    hlen.2 w
  refine ⟨v, h1, ?_⟩
  unfold momX
  rw [neg_mul, sub_neg_eq_add]
  linarith [hlen.1]

theorem far_off {d : ℝ} (hd : 0 < d) {zeros : List (Cx ℝ)} {re im : ℝ × ℝ} (hfar : ∀ z, Cell.Boundary ⟨re, im, 0⟩ z → Far d zeros z) :
    ∀ c ∈ zeros, ¬ Cell.Boundary ⟨re, im, 0⟩ c := fun c hc hb => (hfar c hb).ne hd hc rfl

/-! ## The search with associated polynomials -/

theorem Spec.PolyReached.reached {p : ℤ × ℤ} {zeros : List (Cx ℝ)} {reRan imRan re im : ℝ × ℝ} (h : PolyReached p zeros reRan imRan re im) :
    Reached p zeros reRan imRan re im := by
  induction h with
  | whole => exact .whole
  | left _ h1 h2 h3 ih => exact .left ih h1 (by omega) h3
  | right _ h1 h2 h3 ih => exact .right ih h1 (by omega) h3
  | lower _ h1 h2 h3 ih => exact .lower ih h1 (by omega) h3
  | upper _ h1 h2 h3 ih => exact .upper ih h1 (by omega) h3

theorem poly_halves {p : ℤ × ℤ} {zeros : List (Cx ℝ)} {reRan imRan : ℝ × ℝ} {c : Cell ℝ} (h : PolyReached p zeros reRan imRan c.re c.im)
    (hs : ¬ Cell.Small p c) (hc : 4 ≤ Cell.count c zeros) (phi : ℝ) : PolyReached p zeros reRan imRan (half1 p c phi).re (half1 p c phi).im ∧
      PolyReached p zeros reRan imRan (half2 p c phi).re (half2 p c phi).im := by
  unfold half1 half2
  by_cases hd : SplitRe p c
  · rw [if_pos hd, if_pos hd]
    exact ⟨.left h hs hc hd, .right h hs hc hd⟩
  · rw [if_neg hd, if_neg hd]
    exact ⟨.lower h hs hc (not_lt.1 hd), .upper h hs hc (not_lt.1 hd)⟩

/-- where the search goes on, there are at least four zeros -/
theorem poly_open {p : ℤ × ℤ} {zeros : List (Cx ℝ)} {c : Cell ℝ} (hs : ¬ PolyStop Real.pi p c)
    (hphi : |c.phi - 2 * Real.pi * (Cell.count c zeros : ℝ)| < 2 / 10 * (2 * Real.pi)) : ¬ Cell.Small p c ∧ 4 ≤ Cell.count c zeros := by
  unfold PolyStop at hs
  push Not at hs
  obtain ⟨h1, h2⟩ := hs
  unfold Cell.Stop at h1
  push Not at h1
  obtain ⟨h1, h3⟩ := h1
  refine ⟨h3, ?_⟩
  have hpi := Real.pi_pos
  have hc : 1 ≤ Cell.count c zeros := (approx_cell hpi hphi).1.1 h1
  rw [abs_lt] at hphi
  by_contra hn
  apply h2
  have hc1 : (1 : ℝ) ≤ (Cell.count c zeros : ℝ) := by exact_mod_cast hc
  have hc3 : (Cell.count c zeros : ℝ) ≤ 3 := by exact_mod_cast (by omega : Cell.count c zeros ≤ 3)
  constructor <;> nlinarith

/-- few turns: at most three zeros -/
theorem poly_few {zeros : List (Cx ℝ)} {c : Cell ℝ} (hs : Cell.FewTurns Real.pi c)
    (hphi : |c.phi - 2 * Real.pi * (Cell.count c zeros : ℝ)| < 2 / 10 * (2 * Real.pi)) : Cell.count c zeros ≤ 3 := by
  by_contra hn
  have hc : (4 : ℝ) ≤ (Cell.count c zeros : ℝ) := by exact_mod_cast (by omega : 4 ≤ Cell.count c zeros)
  have hpi := Real.pi_pos
  rw [abs_lt] at hphi
  have := hs.2
  nlinarith

end PyZeal
