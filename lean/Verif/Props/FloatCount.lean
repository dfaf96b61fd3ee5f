import Verif.Proof.FloatCount
import Verif.Props.FloatSum

/-! # C108: the number of zeros inside a rectangle, computed in floating-point arithmetic -/

set_option linter.unusedSectionVars false

namespace PyZeal.Props
open Spec
open Real

/-- a bound for the distance of neighbouring sample points on sides of length at most `L` and coordinates of at most `R`:
the distance of exact sample points and the rounding of points -/
noncomputable def sampleGap (numPts : ℕ) (L u R : ℝ) : ℝ := L / ((numPts : ℝ) - 1) + 18 * u * R

/-- C108: let `f` be factored along the boundary of the rectangle, with all zeros at distance at least `d` from it and larger
than the distance of sample points, and such that `f` turns by at most 2 between neighbouring sample points. Then the phase
computed in floating-point arithmetic is one turn for each zero inside (counted with multiplicity) up to 1/4, nothing is
added to the result, the comparison with `TWO_PI` asks for a zero inside, and the order is the number of zeros inside. -/
theorem C108_count (A : FloatOps ℝ) (u : ℝ) (hA : Rounds A.fl u) (S : SumOps ℝ) (N : ℕ) (δ γ : ℝ)
    (hS : SumArith S N δ γ) (hlin : S.lin = linspaceF A) (hE : rectErr N δ γ u ≤ 1 / 4) (pi : ℝ) (hpi : |pi - π| ≤ u * π)
    (ctx : RCtx ℝ) (re im : ℝ × ℝ) (hre : re.1 < re.2) (him : im.1 < im.2)
    (hm : Cell.Machine A.fl ⟨re, im, 0⟩) (R : ℝ) (hR : Cell.Within R ⟨re, im, 0⟩)
    (zeros : List (Cx ℝ)) (r g : Cx ℝ → ℝ) (M d : ℝ) (hf : Factored ctx.f (Cell.Boundary ⟨re, im, 0⟩) zeros r g M)
    (hM : 0 ≤ M) (hd : 0 < d) (hfar : ∀ z, Cell.Boundary ⟨re, im, 0⟩ z → Far d zeros z)
    (hgap : sampleGap S.numPts (max (re.2 - re.1) (im.2 - im.1)) u R < d)
    (hturn : (π / 2 * (zeros.length / d) + M) * sampleGap S.numPts (max (re.2 - re.1) (im.2 - im.1)) u R ≤ 2)
    (w w' : World (SumState ℝ) ℝ) (hw : w.fuse = none) (hc : w.cache.data = [])
    (hH : ∀ y, y = im.1 ∨ y = im.2 → w.est.horizontal.get? (y, 0) = none)
    (hV : ∀ x, x = re.1 ∨ x = re.2 → w.est.vertical.get? (x, 0) = none) (phi : Cx ℝ)
    (h : calcMomentF A (sumLineF A S) 0 re im ctx w = (.ok phi, w')) :
    w'.added = w.added ∧ |phi.re - 2 * π * Cell.count ⟨re, im, 0⟩ zeros| ≤ 1 / 4 ∧
    (Cell.TurnsF A pi ⟨re, im, phi.re⟩ ↔ ∃ z ∈ zeros, Cell.Interior ⟨re, im, 0⟩ z) ∧
    roundHalfEven (A.fl (phi.re / A.fl (2 * pi))) = Cell.count ⟨re, im, 0⟩ zeros := by
  obtain ⟨x1, x2⟩ := re
  obtain ⟨y1, y2⟩ := im
  dsimp only at hre him hH hV hgap hturn
  have hn : (0 : ℝ) < (S.numPts : ℝ) - 1 := by
    have : (2 : ℝ) ≤ S.numPts := by exact_mod_cast hS.samples.numPts
    linarith
  have hle : ∀ x, x ≤ max (x2 - x1) (y2 - y1) →
      x / ((S.numPts : ℝ) - 1) + 18 * u * R ≤ sampleGap S.numPts (max (x2 - x1) (y2 - y1)) u R := by
    intro x hx
    unfold sampleGap
    have := div_le_div_of_nonneg_right hx hn.le
    linarith
  obtain ⟨a1, a2, a3, a4⟩ := (calcMomentF_count hA hS hlin hE ctx hre him hm R hR zeros r g M d hf hM hd hfar _
    (hle _ (le_max_left _ _)) (hle _ (le_max_right _ _)) hgap hturn w hw hc hH hV).1 phi w' h
  have hu0 := hA.u_nonneg
  have hN : (200 : ℝ) ≤ N := by
    have := hS.len0
    have := hS.samples.numPts
    exact_mod_cast (by omega : 200 ≤ N)
  have hδ := hS.δ0
  have hγ := hS.γ0
  have hl0 : 0 ≤ lineErr N δ γ := by unfold lineErr; positivity
  have hM8 : 800 ≤ lineMax N γ := by unfold lineMax; nlinarith
  have huM : 11 * u * lineMax N γ ≤ 1 / 4 := by unfold rectErr at hE; linarith
  have hu : u ≤ 1 / 1000 := by nlinarith
  have hn4 : |phi.re - 2 * π * ((Cell.count ⟨(x1, x2), (y1, y2), 0⟩ zeros : ℤ) : ℝ)| ≤ 1 / 4 := by
    push_cast
    exact a4.trans hE
  obtain ⟨t1, t2⟩ := turns_decide hA hpi hu a3 huM hn4
  refine ⟨a1, a4.trans hE, ?_, t2⟩
  refine Iff.trans (t1 : A.fl (A.fl (8 / 10) * A.fl (2 * pi)) ≤ phi.re ↔ _) ?_
  have hcount : 1 ≤ Cell.count ⟨(x1, x2), (y1, y2), 0⟩ zeros ↔ ∃ z ∈ zeros, Cell.HasHalfOpen ⟨(x1, x2), (y1, y2), 0⟩ z := by
    unfold Cell.count
    rw [Nat.one_le_iff_ne_zero, Ne, List.length_eq_zero_iff, List.filter_eq_nil_iff]
    push Not
    exact ⟨fun ⟨z, h1, h2⟩ => ⟨z, h1, of_decide_eq_true h2⟩, fun ⟨z, h1, h2⟩ => ⟨z, h1, decide_eq_true h2⟩⟩
  rw [show ((1 : ℤ) ≤ (Cell.count ⟨(x1, x2), (y1, y2), 0⟩ zeros : ℤ)) ↔ 1 ≤ Cell.count ⟨(x1, x2), (y1, y2), 0⟩ zeros by
    exact_mod_cast Iff.rfl, hcount]
  constructor
  · rintro ⟨z, hz, h1, h2, h3, h4⟩
    refine ⟨z, hz, ?_⟩
    by_contra hno
    have hb : Cell.Boundary ⟨(x1, x2), (y1, y2), 0⟩ z := ⟨⟨h1, h2.le, h3, h4.le⟩, hno⟩
    exact (hfar z hb).ne hd hz rfl
  · rintro ⟨z, hz, h1, h2, h3, h4⟩
    exact ⟨z, hz, h1.le, h2, h3.le, h4⟩

/-- C108: with the shipped settings in Python's floats, for a new algorithm object: the phase is computed, it is one turn
for each zero inside up to 1/4, nothing is added to the result, the comparison with `TWO_PI` asks for a zero inside, and
the order is the number of zeros inside -/
theorem C108_shipped (quot : Cx ℝ → Cx ℝ → Cx ℝ) (arctan : Cx ℝ → ℝ) (dist : Cx ℝ → Cx ℝ → ℝ) (tree : ℕ → SumTree)
    (evals : ℕ → ℕ) (hev : ∀ n, 1 ≤ evals n) (hq : QuotWithin quot ((1 / 2) ^ 49)) (ha : ArctanWithin arctan ((1 / 2) ^ 49))
    (ht : SumsAll tree) (ctx : RCtx ℝ) (re im : ℝ × ℝ) (hre : re.1 < re.2) (him : im.1 < im.2)
    (hm : Cell.Machine (double ℝ).fl ⟨re, im, 0⟩) (R : ℝ) (hR : Cell.Within R ⟨re, im, 0⟩)
    (zeros : List (Cx ℝ)) (r g : Cx ℝ → ℝ) (M d : ℝ) (hf : Factored ctx.f (Cell.Boundary ⟨re, im, 0⟩) zeros r g M)
    (hM : 0 ≤ M) (hd : 0 < d) (hfar : ∀ z, Cell.Boundary ⟨re, im, 0⟩ z → Far d zeros z)
    (hgap : sampleGap 6500 (max (re.2 - re.1) (im.2 - im.1)) ((1 / 2) ^ 53) R < d)
    (hturn : (π / 2 * (zeros.length / d) + M) * sampleGap 6500 (max (re.2 - re.1) (im.2 - im.1)) ((1 / 2) ^ 53) R ≤ 2)
    (w : World (SumState ℝ) ℝ) (hw : w.fuse = none) (hc : w.cache.data = []) (hs : w.est = SumState.fresh) :
    ∃ phi w', calcMomentF (double ℝ) (sumLineF (double ℝ) (SumOps.shipped quot arctan dist tree evals)) 0 re im ctx w =
        (.ok phi, w') ∧ w'.added = w.added ∧ |phi.re - 2 * π * Cell.count ⟨re, im, 0⟩ zeros| ≤ 1 / 4 ∧
      (Cell.TurnsF (double ℝ) ((double ℝ).fl π) ⟨re, im, phi.re⟩ ↔ ∃ z ∈ zeros, Cell.Interior ⟨re, im, 0⟩ z) ∧
      roundHalfEven ((double ℝ).fl (phi.re / (double ℝ).fl (2 * (double ℝ).fl π))) = Cell.count ⟨re, im, 0⟩ zeros := by
  have hS := shipped_arith (dist := dist) (evals := evals) hq ha ht
  have hH : ∀ y, y = im.1 ∨ y = im.2 → w.est.horizontal.get? (y, 0) = none := by
    intro y _; rw [hs]; rfl
  have hV : ∀ x, x = re.1 ∨ x = re.2 → w.est.vertical.get? (x, 0) = none := by
    intro y _; rw [hs]; rfl
  have hle : ∀ x, x ≤ max (re.2 - re.1) (im.2 - im.1) →
      x / (((6500 : ℕ) : ℝ) - 1) + 18 * (1 / 2) ^ 53 * R ≤ sampleGap 6500 (max (re.2 - re.1) (im.2 - im.1)) ((1 / 2) ^ 53) R := by
    intro x hx
    unfold sampleGap
    have := div_le_div_of_nonneg_right hx (show (0 : ℝ) ≤ ((6500 : ℕ) : ℝ) - 1 by norm_num)
    linarith
  obtain ⟨phi, w', h⟩ := (calcMomentF_count doubleR hS rfl shipped_err.1 ctx hre him hm R hR zeros r g M d hf hM hd hfar _
    (hle _ (le_max_left _ _)) (hle _ (le_max_right _ _)) hgap hturn w hw hc hH hV).2 hev
    (fun idx phi _ h => (factorF_bounds doubleR (by norm_num) idx phi).1 h) (by simp [SumOps.shipped])
  refine ⟨phi, w', h, C108_count _ _ doubleR _ _ _ _ hS rfl shipped_err.1 _ ?_ ctx re im hre him hm R hR zeros r g M d hf hM hd
    hfar hgap hturn w w' hw hc hH hV phi h⟩
  have := doubleR.near π
  rwa [abs_of_pos Real.pi_pos] at this

/-- non-vacuity of the theorems about C108: the function `z^2` with its double zero, around the square with corners `±1 ± i`,
computed with correctly rounded operations and sums from left to right: the order is 2 -/
example : ∃ phi w', calcMomentF (double ℝ) (sumLineF (double ℝ) (SumOps.shipped (fun b a => (double ℝ).cx (b / a))
      (fun z => (double ℝ).fl (Complex.arg ⟨z.re, z.im⟩)) (fun a b => Real.sqrt (a - b).normSq) leftTree fun _ => 1))
      0 (-1, 1) (-1, 1) (⟨fun z => z * z, none, (5, 5), (-1, 1), (-1, 1), false⟩ : RCtx ℝ)
      ⟨EstCache.init false, SumState.fresh, [], [], none, []⟩ = (.ok phi, w') ∧
    roundHalfEven ((double ℝ).fl (phi.re / (double ℝ).fl (2 * (double ℝ).fl π))) = 2 := by
  have m1 : Machine (double ℝ).fl 1 := doubleR.one
  have m2 : Machine (double ℝ).fl (-1) := by
    unfold Machine
    show flBin 53 (-1 : ℝ) = -1
    rw [flBin_neg]
    exact congrArg Neg.neg m1
  have hgap : sampleGap 6500 (max (1 - -1) (1 - -1)) ((1 / 2) ^ 53) 1 ≤ 1 / 3000 := by
    unfold sampleGap
    norm_num
  have h0 : sampleGap 6500 (max (1 - -1) (1 - -1)) ((1 / 2) ^ 53) 1 ≥ 0 := by
    unfold sampleGap
    norm_num
  have hpi := Real.pi_le_four
  have hfar : ∀ z : Cx ℝ, Cell.Boundary (⟨(-1, 1), (-1, 1), 0⟩ : Cell ℝ) z → Far 1 [(0 : Cx ℝ), 0] z := by
    rintro z ⟨⟨h1, h2, h3, h4⟩, h5⟩ c hc
    dsimp only at h1 h2 h3 h4
    have hc : c = 0 := by simpa using hc
    rw [hc]
    simp only [Cx.zero_re, Cx.zero_im, sub_zero]
    by_contra hno
    push Not at hno
    refine h5 ⟨?_, ?_, ?_, ?_⟩ <;> dsimp only <;> nlinarith [sq_nonneg z.re, sq_nonneg z.im]
  obtain ⟨phi, w', h, _, _, _, hn⟩ := C108_shipped _ _ (fun a b => Real.sqrt (a - b).normSq) leftTree (fun _ => 1)
    (fun _ => le_refl _) quot_rounded arctan_rounded leftTree_all
    (⟨fun z => z * z, none, (5, 5), (-1, 1), (-1, 1), false⟩ : RCtx ℝ) (-1, 1) (-1, 1) (by norm_num) (by norm_num)
    ⟨⟨m2, m1⟩, m2, m1⟩ 1 (by simp [Cell.Within]) [0, 0] (fun _ => 1) (fun _ => 0) 0 1
    ⟨fun _ _ => one_pos, fun z _ => by apply Cx.ext <;> simp, fun a b _ _ => by simp⟩ (le_refl _) one_pos hfar
    (lt_of_le_of_lt hgap (by norm_num)) (by
      simp only [List.length_cons, List.length_nil]
      norm_num only at hgap h0 ⊢
      nlinarith) ⟨EstCache.init false, SumState.fresh, [], [], none, []⟩ rfl rfl rfl
  refine ⟨phi, w', h, hn.trans ?_⟩
  have : Cell.HasHalfOpen (⟨(-1, 1), (-1, 1), 0⟩ : Cell ℝ) 0 := by simp [Cell.HasHalfOpen]
  unfold Cell.count
  rw [List.filter_cons_of_pos (by simpa using this), List.filter_cons_of_pos (by simpa using this)]
  rfl

end PyZeal.Props
