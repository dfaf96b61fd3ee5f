import Verif.Proof.SumTreeF
import Verif.Spec.FloatSearch

/-! # Searches with the summation estimator in floating point arithmetic -/

set_option linter.unusedSectionVars false

namespace PyZeal
open Spec
open Real

/-! ## Refinement: the strict estimator -/

section
variable {K : Type} {σ : Type} [Field K] [LinearOrder K] [IsStrictOrderedRing K] [FloorRing K]

theorem RefEst.phaseF {e₁ e₂ : LineEst σ K} {ctx : RCtx K} (h : RefEst e₁ e₂ ctx) (A : FloatOps K) (re im : K × K) :
    Ref (phaseOfF A e₁ re im ctx) (phaseOfF A e₂ re im ctx) := by
  have hs : ∀ es phi, Ref (sumEdgesF A e₁ 0 ctx es phi) (sumEdgesF A e₂ 0 ctx es phi) := by
    intro es
    induction es with
    | nil => intro phi; exact Ref.refl _
    | cons e es ih => intro phi; exact Ref.bind (h.edge 0 e) fun d => ih _
  exact Ref.bind (hs _ _) fun _ => Ref.refl _

theorem RefEst.searchF {e₁ e₂ : LineEst σ K} {ctx : RCtx K} (h : RefEst e₁ e₂ ctx) (A : FloatOps K) (pi : K) (limit : ℕ) :
    Ref (simpleArgumentF A e₁ pi limit ctx) (simpleArgumentF A e₂ pi limit ctx) := by
  have hd : ∀ limit c, Ref ((PyZeal.dispatch (simpleDecideF A e₁ pi) limit).at ctx c) ((PyZeal.dispatch (simpleDecideF A e₂ pi) limit).at ctx c) := by
    intro limit
    induction limit with
    | zero => intro c w a w' hr; simp [PyZeal.dispatch, Decide.at] at hr
    | succ limit ih =>
      intro c
      change Ref ((simpleDecideF A e₁ pi (PyZeal.dispatch (simpleDecideF A e₁ pi) limit)).at ctx c)
        ((simpleDecideF A e₂ pi (PyZeal.dispatch (simpleDecideF A e₂ pi) limit)).at ctx c)
      rw [simpleDecideF_eq, simpleDecideF_eq]
      by_cases hs : stopF A pi ctx.precision c
      · rw [if_pos hs, if_pos hs]; exact Ref.refl _
      · rw [if_neg hs, if_neg hs]
        unfold splitStepF
        exact Ref.bind (h.phaseF A _ _) fun _ => Ref.bind (ih _) fun _ => Ref.bind (Ref.refl _) fun _ => Ref.bind (h.phaseF A _ _) fun _ =>
          Ref.bind (ih _) fun _ => Ref.refl _
  exact Ref.bind (Ref.refl _) fun _ => Ref.bind (h.phaseF A _ _) fun phi => hd limit ⟨ctx.reRan, ctx.imRan, phi⟩

/-- the summation estimator only hands boundary zeros to the container -/
theorem sumLineF_hits (A : FloatOps K) (S : SumOps K) (ctx : RCtx K) : BoundaryHits (sumLineF A S) ctx := by
  intro order a b
  have hgen : ∀ a b n, OnlyHits ctx.f (genFuncArrF A S a b ctx n : Py (World (SumState K) K) _) := by
    intro a b n
    unfold genFuncArrF
    generalize lineShiftF A a b ctx.precision = sh
    generalize S.evals n = k
    generalize S.lin a b n = base
    induction k generalizing base with
    | zero => exact OnlyHits.throw _
    | succ n ih =>
      simp only [genFuncLoopF]
      split
      · exact OnlyHits.pure _
      · refine OnlyHits.bind (OnlyHits.addRoots ?_) fun _ => ih _
        intro r hr
        obtain ⟨z, hz, rfl⟩ := List.mem_map.1 hr
        have := (List.mem_filter.1 hz).2
        exact ⟨rfl, by simpa using this⟩
  have hrefine : ∀ n idx z p, OnlyHits ctx.f (refineLoopF A S ctx n idx z p) := by
    intro n
    induction n with
    | zero => intro idx z p; exact OnlyHits.throw _
    | succ n ih =>
      intro idx z p
      simp only [refineLoopF]
      split
      · exact OnlyHits.pure _
      · split
        · exact OnlyHits.pure _
        · split
          · exact OnlyHits.pure _
          · exact OnlyHits.bind (hgen _ _ _) fun _ => ih _ _ _
  have hphi : ∀ a b, OnlyHits ctx.f (genPhiArrF A S order a b ctx) := by
    intro a b
    unfold genPhiArrF
    split
    · exact OnlyHits.throw _
    · exact OnlyHits.bind (hgen _ _ _) fun _ => hrefine _ _ _ _
  have hslice : ∀ a b v, OnlyHits ctx.f (sliceOrSampleF A S order a b ctx v) := by
    intro a b v
    rcases v with _ | v
    · exact hphi _ _
    · exact OnlyHits.pure _
  unfold sumLineF
  split
  · unfold retrieveCachedHorizontalF
    refine OnlyHits.bind OnlyHits.get fun w => OnlyHits.bind (hslice _ _ _) fun v => ?_
    exact OnlyHits.bind (OnlyHits.modify (fun _ => rfl) (fun _ => rfl) (fun _ => rfl) fun _ => rfl)
      fun _ => OnlyHits.pure _
  · split
    · unfold retrieveCachedVerticalF
      refine OnlyHits.bind OnlyHits.get fun w => ?_
      have hlift : ∀ r : Except Err (Option (PhiLine K)), OnlyHits ctx.f (liftReuse r : Py (World (SumState K) K) _) := by
        intro r
        rcases r with _ | r
        · exact OnlyHits.throw _
        · exact OnlyHits.pure _
      refine OnlyHits.bind (hlift _) fun r => OnlyHits.bind (hslice _ _ _) fun v => ?_
      exact OnlyHits.bind (OnlyHits.modify (fun _ => rfl) (fun _ => rfl) (fun _ => rfl) fun _ => rfl)
        fun _ => OnlyHits.pure _
    · exact OnlyHits.throw _

end

/-! ## Actions -/

section
variable {A : FloatOps ℝ}

theorem actF_effect {σ : Type} {pi : ℝ} {ctx : RCtx ℝ} {c : Cell ℝ} {w w' : World σ ℝ} (h : actF A pi ctx c w = (.ok (), w')) :
    (w'.cache = w.cache ∧ w'.est = w.est ∧ (w.fuse = none → w'.fuse = none) ∧ w'.log = w.log) ∧
    ((¬ Cell.TurnsF A pi c ∧ w'.added = w.added) ∨ (Cell.TurnsF A pi c ∧ w'.added = w.added ++ [candF A pi c])) := by
  have hadv : ∀ a (w w' : World σ ℝ), World.advance ctx a w = (.ok (), w') → (w'.cache = w.cache ∧ w'.est = w.est ∧
      (w.fuse = none → w'.fuse = none) ∧ w'.log = w.log) ∧ w'.added = w.added := by
    intro a w w' h
    unfold World.advance at h
    split at h
    · rw [Py.bind_run] at h
      have h1 : ∀ w1, World.tick w = (.ok (), w1) → (w1.cache = w.cache ∧ w1.est = w.est ∧ (w.fuse = none → w1.fuse = none) ∧ w1.log = w.log) ∧
          w1.added = w.added := by
        intro w1 ht
        obtain ⟨t1, _, t3, t4, t5⟩ := World.tick_ok ht
        refine ⟨⟨t4, t5, fun hf => ?_, t3⟩, t1⟩
        rw [World.tick_none hf] at ht
        simp only [Prod.mk.injEq, true_and] at ht
        rw [← ht]; exact hf
      rcases ht : World.tick w with ⟨_ | _, w1⟩ <;> rw [ht] at h
      · simp at h
      · simp only [Py.modify_run, Prod.mk.injEq, true_and] at h
        rw [← h]
        exact h1 w1 ht
    · simp only [Py.pure_run, Prod.mk.injEq, true_and] at h
      rw [← h]
      exact ⟨⟨rfl, rfl, id, rfl⟩, rfl⟩
  unfold actF at h
  split at h
  · rename_i ht
    obtain ⟨a1, a2⟩ := hadv _ _ _ h
    exact ⟨a1, .inl ⟨ht, a2⟩⟩
  · rename_i htu
    rw [Py.bind_run] at h
    rcases ha : World.addRoot (candF A pi c) w with ⟨_ | _, w1⟩ <;> rw [ha] at h
    · simp at h
    · obtain ⟨⟨b1, b2, b3, b4⟩, b5⟩ := hadv _ _ _ h
      unfold World.addRoot at ha
      rw [Py.bind_run] at ha
      rcases ht : World.tick w with ⟨_ | _, w2⟩ <;> rw [ht] at ha
      · simp at ha
      · simp only [Py.modify_run, Prod.mk.injEq, true_and] at ha
        obtain ⟨t1, _, t3, t4, t5⟩ := World.tick_ok ht
        rw [← ha] at b1 b2 b3 b4 b5
        refine ⟨⟨b1.trans t4, b2.trans t5, fun hf => b3 ?_, b4.trans t3⟩, .inr ⟨not_not.1 htu, ?_⟩⟩
        · rw [World.tick_none hf] at ht
          simp only [Prod.mk.injEq, true_and] at ht
          rw [← ht]; exact hf
        · rw [b5]; dsimp only; rw [t1]

theorem quiet_actF {σ : Type} (A : FloatOps ℝ) (pi : ℝ) (ctx : RCtx ℝ) : Quiet (σ := σ) (actF A pi ctx) := fun _ _ _ h => (actF_effect h).1

theorem good_actF {σ : Type} (A : FloatOps ℝ) (pi : ℝ) (ctx : RCtx ℝ) :
    AddsGood (σ := σ) (fun r => ∃ c, Cell.TurnsF A pi c ∧ r = candF A pi c) (actF A pi ctx) := by
  intro c w w' h
  rcases (actF_effect h).2 with ⟨_, h2⟩ | ⟨h1, h2⟩
  · exact ⟨[], by simp [h2], by simp⟩
  · exact ⟨_, h2, fun r hr => ⟨c, h1, List.mem_singleton.1 hr⟩⟩

end

/-! ## The tree of a search -/

section
variable {A : FloatOps ℝ} {u : ℝ} {S : SumOps ℝ} {N : ℕ} {δ γ : ℝ} {ctx : RCtx ℝ} {zeros : List (Cx ℝ)} {r g : Cx ℝ → ℝ} {pi M d R h : ℝ}

/-- the tree of the rectangles of a search -/
noncomputable def treeOf (A : FloatOps ℝ) (p : ℤ × ℤ) (re im : ℝ × ℝ) (hre : re.1 < re.2) (him : im.1 < im.2) : TGrid where
  re := re
  im := im
  spl := fun re im => decide (SplitReF A p ⟨re, im, 0⟩)
  mid := fun a b => if a < A.mid a b ∧ A.mid a b < b then A.mid a b else (a + b) / 2
  hre := hre
  him := him
  hmid := by
    intro a b hab
    split
    · assumption
    · constructor <;> linarith

theorem treeOf_fits (p : ℤ × ℤ) (re im : ℝ × ℝ) (hre : re.1 < re.2) (him : im.1 < im.2) : (treeOf A p re im hre him).FitsF A p :=
  ⟨fun _ _ => rfl, fun _ _ h1 h2 => if_pos ⟨h1, h2⟩⟩

/-- a side which is not computed as small is split inside -/
theorem split_inside (hA : Rounds A.fl u) {e a b : ℝ} (he : Machine A.fl e) (hpos : 4 * u * R < e) (ha : |a| ≤ R) (hb : |b| ≤ R)
    (hbig : ¬ A.fl (b - a) < e) : a < A.mid a b ∧ A.mid a b < b := by
  have hR : 0 ≤ R := (abs_nonneg _).trans ha
  have hu := hA.u_nonneg
  have huR : 0 ≤ u * R := mul_nonneg hu hR
  have h1 : e / 2 < b - a := by
    by_contra hc
    push Not at hc
    have h2 := hA.mono _ _ hc
    rw [hA.half, he] at h2
    apply hbig
    linarith
  have h3 := hA.mid_err ha hb
  rw [abs_le] at h3
  constructor <;> linarith [h3.1, h3.2]

/-- the side which is split is not computed as small -/
theorem split_big (hA : Rounds A.fl u) {p : ℤ × ℤ} (hp : GoodPow A p) {c : Cell ℝ} (hc : OkCell A c) (hs : ¬ SmallF A p c) :
    (SplitReF A p c → ¬ A.fl (c.re.2 - c.re.1) < A.pow10 p.1) ∧ (¬ SplitReF A p c → ¬ A.fl (c.im.2 - c.im.1) < A.pow10 p.2) := by
  obtain ⟨⟨q1, q2⟩, q3, q4⟩ := hp
  obtain ⟨⟨⟨m1, m2⟩, m3, m4⟩, h1, h2⟩ := hc
  have dre : 0 ≤ A.fl (c.re.2 - c.re.1) := hA.fl_nonneg (by linarith)
  have dim : 0 ≤ A.fl (c.im.2 - c.im.1) := hA.fl_nonneg (by linarith)
  refine ⟨fun hsp hlt => ?_, fun hsp hlt => ?_⟩
  · have hlt2 : A.pow10 p.2 ≤ A.fl (c.im.2 - c.im.1) := by
      by_contra hc; push Not at hc; exact hs ⟨hlt, hc⟩
    have a1 := hA.quot _ _ dre hlt (hA.idem _) q1
    have a2 := hA.mono 1 (A.fl (c.im.2 - c.im.1) / A.pow10 p.2) ((one_le_div q4).2 hlt2)
    rw [hA.one] at a2
    have a3 := hsp
    unfold SplitReF at a3
    linarith
  · have hlt2 : A.pow10 p.1 ≤ A.fl (c.re.2 - c.re.1) := by
      by_contra hc; push Not at hc; exact hs ⟨hc, hlt⟩
    have a1 := hA.quot _ _ dim hlt (hA.idem _) q3
    have a2 := hA.mono 1 (A.fl (c.re.2 - c.re.1) / A.pow10 p.1) ((one_le_div q2).2 hlt2)
    rw [hA.one] at a2
    have a3 := hsp
    unfold SplitReF at a3
    push Not at a3
    linarith

/-- reached rectangles are non-degenerate as long as the accuracy is coarse enough for the arithmetic -/
structure ReadyF (A : FloatOps ℝ) (R : ℝ) (reRan imRan re im : ℝ × ℝ) : Prop where
  ok : OkCell A ⟨re, im, 0⟩
  inside : Cell.In ⟨re, im, 0⟩ (⟨reRan, imRan, 0⟩ : Cell ℝ)
  within : Cell.Within R ⟨re, im, 0⟩

theorem halfF_ready (hA : Rounds A.fl u) {p : ℤ × ℤ} {reRan imRan : ℝ × ℝ} {c : Cell ℝ} (h : ReadyF A R reRan imRan c.re c.im) (phi : ℝ) :
    ReadyF A R reRan imRan (halfF1 A p c phi).re (halfF1 A p c phi).im ∧ ReadyF A R reRan imRan (halfF2 A p c phi).re (halfF2 A p c phi).im := by
  obtain ⟨⟨k1, k2⟩, ⟨i1, i2⟩, _⟩ := halfF_ok hA (p := p) (c := c) h.ok phi phi
  exact ⟨⟨k1, Cell.In.trans (b := c) i1 h.inside, Cell.Within.of_in (c := c) h.within i1⟩, ⟨k2, Cell.In.trans (b := c) i2 h.inside, Cell.Within.of_in (c := c) h.within i2⟩⟩

theorem reachedF_halves {p : ℤ × ℤ} {reRan imRan : ℝ × ℝ} {c : Cell ℝ} (h : ReachedF A p zeros reRan imRan c.re c.im)
    (hs : ¬ SmallF A p c) (hc : 1 ≤ Cell.count c zeros) (phi : ℝ) : ReachedF A p zeros reRan imRan (halfF1 A p c phi).re (halfF1 A p c phi).im ∧
      ReachedF A p zeros reRan imRan (halfF2 A p c phi).re (halfF2 A p c phi).im := by
  unfold halfF1 halfF2
  by_cases hd : SplitReF A p c
  · rw [if_pos hd, if_pos hd]
    exact ⟨.left h hs hc hd, .right h hs hc hd⟩
  · rw [if_neg hd, if_neg hd]
    exact ⟨.lower h hs hc hd, .upper h hs hc hd⟩

theorem reachedF_ready (hA : Rounds A.fl u) {p : ℤ × ℤ} {reRan imRan : ℝ × ℝ} (h0 : ReadyF A R reRan imRan reRan imRan) {re im : ℝ × ℝ}
    (h : ReachedF A p zeros reRan imRan re im) : ReadyF A R reRan imRan re im := by
  have wide : ∀ re im : ℝ × ℝ, ComputedWide A p re im = SplitReF A p ⟨re, im, 0⟩ := fun _ _ => rfl
  induction h with
  | whole => exact h0
  | @left re im _ _ _ hw ih =>
    have := (halfF_ready hA (p := p) (c := ⟨re, im, 0⟩) ih 0).1
    rw [wide] at hw
    unfold halfF1 at this
    rw [if_pos hw] at this
    exact this
  | @right re im _ _ _ hw ih =>
    have := (halfF_ready hA (p := p) (c := ⟨re, im, 0⟩) ih 0).2
    rw [wide] at hw
    unfold halfF2 at this
    rw [if_pos hw] at this
    exact this
  | @lower re im _ _ _ hw ih =>
    have := (halfF_ready hA (p := p) (c := ⟨re, im, 0⟩) ih 0).1
    rw [wide] at hw
    unfold halfF1 at this
    rw [if_neg hw] at this
    exact this
  | @upper re im _ _ _ hw ih =>
    have := (halfF_ready hA (p := p) (c := ⟨re, im, 0⟩) ih 0).2
    rw [wide] at hw
    unfold halfF2 at this
    rw [if_neg hw] at this
    exact this

/-- the points of the edges of a rectangle are its boundary points -/
theorem boundary_edgeF (G : TGrid) (p : List Bool) (hz b : Bool) (t : ℝ) (h1 : G.elo p hz ≤ t) (h2 : t ≤ G.ehi p hz) :
    Cell.Boundary (G.cell p 0) (lpt hz (G.ez p hz b) t) := by
  have l1 := (G.elo_lt p true).le
  have l2 := (G.elo_lt p false).le
  cases hz <;> cases b <;> unfold Cell.Boundary Cell.Has Cell.Interior TGrid.cell
  · exact ⟨⟨le_rfl, l1, h1, h2⟩, fun h => lt_irrefl _ h.1⟩
  · exact ⟨⟨l1, le_rfl, h1, h2⟩, fun h => lt_irrefl _ h.2.1⟩
  · exact ⟨⟨h1, h2, le_rfl, l2⟩, fun h => lt_irrefl _ h.2.2.1⟩
  · exact ⟨⟨h1, h2, l2, le_rfl⟩, fun h => lt_irrefl _ h.2.2.2⟩

/-- the data of a search with a factored function in floating-point arithmetic -/
structure SumDataF (A : FloatOps ℝ) (u : ℝ) (S : SumOps ℝ) (N : ℕ) (δ γ pi : ℝ) (ctx : RCtx ℝ) (zeros : List (Cx ℝ)) (r g : Cx ℝ → ℝ)
    (M d R h : ℝ) : Prop where
  hA : Rounds A.fl u
  hS : SumArith S N δ γ
  hlin : S.lin = linspaceF A
  hE : rectErr N δ γ u ≤ 1 / 4
  hpi : |pi - π| ≤ u * π
  hpow : GoodPow A ctx.precision
  hcoarse1 : 4 * u * R < A.pow10 ctx.precision.1
  hcoarse2 : 4 * u * R < A.pow10 ctx.precision.2
  hre : ctx.reRan.1 < ctx.reRan.2
  him : ctx.imRan.1 < ctx.imRan.2
  hm : Cell.Machine A.fl ⟨ctx.reRan, ctx.imRan, 0⟩
  hR : Cell.Within R ⟨ctx.reRan, ctx.imRan, 0⟩
  hf : Factored ctx.f (Cell.Has ⟨ctx.reRan, ctx.imRan, 0⟩) zeros r g M
  hM : 0 ≤ M
  hd : 0 < d
  hw1 : (ctx.reRan.2 - ctx.reRan.1) / ((S.numPts : ℝ) - 1) + 18 * u * R ≤ h
  hw2 : (ctx.imRan.2 - ctx.imRan.1) / ((S.numPts : ℝ) - 1) + 18 * u * R ≤ h
  hhd : h < d
  hsmall : rectErr N δ γ u + 8 * ((π / 2 * (zeros.length / d) + M) * h) ≤ 9 / 10
  hfar : ∀ re im, ReachedF A ctx.precision zeros ctx.reRan ctx.imRan re im → ∀ z, Cell.Boundary ⟨re, im, 0⟩ z → Far d zeros z

namespace SumDataF
variable (X : SumDataF A u S N δ γ pi ctx zeros r g M d R h)
include X

theorem R0 : 0 ≤ R := (abs_nonneg _).trans X.hR.1.1

theorem n1 : (0 : ℝ) < (S.numPts : ℝ) - 1 := by
  have : (2 : ℝ) ≤ S.numPts := by exact_mod_cast X.hS.samples.numPts
  linarith

theorem h0 : 0 ≤ h := by
  have h1 := X.hw1
  have h2 : 0 ≤ (ctx.reRan.2 - ctx.reRan.1) / ((S.numPts : ℝ) - 1) := div_nonneg (sub_nonneg.2 X.hre.le) X.n1.le
  have h3 : 0 ≤ 18 * u * R := mul_nonneg (mul_nonneg (by norm_num) X.hA.u_nonneg) X.R0
  linarith

/-- bounds for the arithmetic -/
theorem bounds : u ≤ 1 / 1000 ∧ 11 * u * lineMax N γ ≤ 1 / 4 ∧ δ ≤ 1 / 4 ∧ 4 * u * N ≤ 1 ∧ 0 ≤ rectErr N δ γ u := by
  have hδ := X.hS.δ0
  have hγ := X.hS.γ0
  have hu0 := X.hA.u_nonneg
  have hE := X.hE
  have hN : (200 : ℝ) ≤ N := by
    have := X.hS.len0
    have := X.hS.samples.numPts
    exact_mod_cast (by omega : 200 ≤ N)
  have hle : 0 ≤ lineErr N δ γ := by unfold lineErr; positivity
  have hM0 : 0 ≤ 11 * u * lineMax N γ := by unfold lineMax; positivity
  have hM1 : 11 * u * lineMax N γ ≤ 1 / 4 := by unfold rectErr at hE; linarith
  have hM8 : 800 ≤ lineMax N γ := by unfold lineMax; nlinarith
  refine ⟨by nlinarith, hM1, ?_, ?_, by unfold rectErr; linarith⟩
  · have : lineErr N δ γ ≤ 1 / 16 := by unfold rectErr at hE; linarith
    unfold lineErr at this
    nlinarith
  · unfold lineMax at hM1
    have h1 : 11 * u * (4 * N * 1) ≤ 11 * u * (4 * N * (1 + γ)) := by gcongr; linarith
    nlinarith

theorem eta2 : (π / 2 * (zeros.length / d) + M) * h ≤ 2 := by
  have := X.hsmall
  have := X.bounds.2.2.2.2
  linarith

theorem fine : FineLine A u S N δ γ ctx.f (fun z => Cell.Has ⟨ctx.reRan, ctx.imRan, 0⟩ z ∧ Far d zeros z) (turn zeros g) h
    ((π / 2 * (zeros.length / d) + M) * h) := by
  obtain ⟨_, _, b3, b4, _⟩ := X.bounds
  have := Real.pi_gt_d2
  have h2 := X.eta2
  exact ⟨X.hA, X.hS, X.hlin, X.hf.turnSys X.hd X.hhd X.hM (by linarith), h2, b3, b4⟩

theorem ready0 : ReadyF A R ctx.reRan ctx.imRan ctx.reRan ctx.imRan :=
  ⟨⟨X.hm, X.hre.le, X.him.le⟩, ⟨le_rfl, X.hre.le, le_rfl, le_rfl, X.him.le, le_rfl⟩, X.hR⟩

/-- the tree of the search -/
noncomputable def tree : TGrid := treeOf A ctx.precision ctx.reRan ctx.imRan X.hre X.him

/-- the rectangles of the search -/
def Q (p : List Bool) : Prop := ReachedF A ctx.precision zeros ctx.reRan ctx.imRan (X.tree.cell p 0).re (X.tree.cell p 0).im

theorem root (phi : ℝ) : X.tree.cell [] phi = ⟨ctx.reRan, ctx.imRan, phi⟩ := rfl

theorem rootQ : X.Q [] := .whole

theorem ready (p : List Bool) (hp : X.Q p) : X.tree.Ready A S u R h (fun z => Cell.Has ⟨ctx.reRan, ctx.imRan, 0⟩ z ∧ Far d zeros z) p := by
  obtain ⟨⟨⟨⟨m1, m2⟩, m3, m4⟩, _, _⟩, ⟨a1, a2, a3, a4, a5, a6⟩, ⟨w1, w2⟩, w3, w4⟩ := reachedF_ready X.hA X.ready0 hp
  dsimp only at a1 a2 a3 a4 a5 a6 m1 m2 m3 m4 w1 w2 w3 w4
  refine ⟨fun hz => ?_, fun hz => ?_, fun hz => ?_, fun hz b t t1 t2 => ?_⟩
  · cases hz
    · exact ⟨m3, m4⟩
    · exact ⟨m1, m2⟩
  · cases hz
    · exact ⟨w3, w4⟩
    · exact ⟨w1, w2⟩
  · cases hz
    · refine le_trans ?_ X.hw2
      have : (X.tree.cell p 0).im.2 - (X.tree.cell p 0).im.1 ≤ ctx.imRan.2 - ctx.imRan.1 := by linarith
      have := div_le_div_of_nonneg_right this X.n1.le
      exact add_le_add this le_rfl
    · refine le_trans ?_ X.hw1
      have : (X.tree.cell p 0).re.2 - (X.tree.cell p 0).re.1 ≤ ctx.reRan.2 - ctx.reRan.1 := by linarith
      have := div_le_div_of_nonneg_right this X.n1.le
      exact add_le_add this le_rfl
  · have hb := boundary_edgeF X.tree p hz b t t1 t2
    refine ⟨?_, X.hfar _ _ hp _ hb⟩
    obtain ⟨b1, b2, b3, b4⟩ := hb.1
    exact ⟨a1.trans b1, b2.trans a3, a4.trans b3, b4.trans a6⟩

/-- the true turning round a rectangle of the search -/
theorem around (q : List Bool) (hq : X.Q q) (phi : ℝ) :
    X.tree.around (turn zeros g) q = 2 * π * (Cell.count (X.tree.cell q phi) zeros : ℝ) := by
  have hx := X.tree.elo_lt q true
  have hy := X.tree.elo_lt q false
  have hd := X.hd
  refine turn_around g hx hy ?_ phi
  intro z hz hbad
  have hb : Cell.Boundary (X.tree.cell q 0) z := by
    unfold Cell.Boundary Cell.Has Cell.Interior TGrid.cell
    dsimp only
    rcases hbad with ⟨h1 | h1, h2, h3⟩ | ⟨h1 | h1, h2, h3⟩
    · exact ⟨⟨h1.ge, h1.le.trans hx.le, h2, h3⟩, fun h => h.1.ne h1.symm⟩
    · exact ⟨⟨hx.le.trans h1.ge, h1.le, h2, h3⟩, fun h => h.2.1.ne h1⟩
    · exact ⟨⟨h2, h3, h1.ge, h1.le.trans hy.le⟩, fun h => h.2.2.1.ne h1.symm⟩
    · exact ⟨⟨h2, h3, hy.le.trans h1.ge, h1.le⟩, fun h => h.2.2.2.ne h1⟩
  have := X.hfar _ _ hq z hb z hz
  simp at this
  nlinarith

/-- decisions and orders of accurate phases are right -/
theorem decides (q : List Bool) (hq : X.Q q) (phi : ℝ) (hn : X.tree.Near (turn zeros g) N δ γ u ((π / 2 * (zeros.length / d) + M) * h) q phi) :
    |phi - 2 * π * (Cell.count (X.tree.cell q phi) zeros : ℝ)| ≤ rectErr N δ γ u + 8 * ((π / 2 * (zeros.length / d) + M) * h) ∧
    (Cell.TurnsF A pi (X.tree.cell q phi) ↔ 1 ≤ Cell.count (X.tree.cell q phi) zeros) ∧
    roundHalfEven (A.fl (phi / A.fl (2 * pi))) = Cell.count (X.tree.cell q phi) zeros := by
  obtain ⟨n1, n2⟩ := hn
  rw [X.around q hq phi] at n2
  obtain ⟨b1, b2, _⟩ := X.bounds
  obtain ⟨t1, t2⟩ := turns_decide_wide X.hA X.hpi b1 n1 b2 (n := (Cell.count (X.tree.cell q phi) zeros : ℤ)) (by
    push_cast
    exact n2.trans X.hsmall)
  refine ⟨n2, ?_, t2⟩
  refine Iff.trans (t1 : A.fl (A.fl (8 / 10) * A.fl (2 * pi)) ≤ phi ↔ _) ?_
  exact_mod_cast Iff.rfl

/-- the halves of a rectangle at which the search does not stop -/
theorem kid (p : List Bool) (phi : ℝ) (hp : X.Q p)
    (hA' : X.tree.Near (turn zeros g) N δ γ u ((π / 2 * (zeros.length / d) + M) * h) p phi) (hs : ¬ stopF A pi ctx.precision (X.tree.cell p phi)) :
    X.tree.Opens A p ∧ ∀ b, X.Q (b :: p) := by
  unfold stopF at hs
  push Not at hs
  obtain ⟨s1, s2⟩ := hs
  have hc := (X.decides p hp phi hA').2.1.1 s1
  have hfit : X.tree.FitsF A ctx.precision := treeOf_fits _ _ _ _ _
  obtain ⟨k1, k2, k3⟩ := reachedF_ready X.hA X.ready0 hp
  have hb := split_big X.hA X.hpow (c := X.tree.cell p 0) k1 s2
  have ho : X.tree.Opens A p := by
    unfold TGrid.Opens
    by_cases hd : SplitReF A ctx.precision (X.tree.cell p 0)
    · have e : X.tree.dir p = true := decide_eq_true hd
      rw [e]
      exact split_inside X.hA X.hpow.1.1 X.hcoarse1 k3.1.1 k3.1.2 (hb.1 hd)
    · have e : X.tree.dir p = false := decide_eq_false hd
      rw [e]
      exact split_inside X.hA X.hpow.2.1 X.hcoarse2 k3.2.1 k3.2.2 (hb.2 hd)
  refine ⟨ho, ?_⟩
  obtain ⟨o1, o2⟩ := reachedF_halves (c := X.tree.cell p 0) hp s2 hc 0
  obtain ⟨c1, c2⟩ := cell_halfF hfit ho 0 0
  rw [c1] at o1
  rw [c2] at o2
  intro b
  cases b
  · exact o1
  · exact o2

theorem start {w : World (SumState ℝ) ℝ} (hfuse : w.fuse = none) (hest : w.est = SumState.fresh)
    (hdata : w.cache.data = []) : SumInvE X.tree S ctx.f (fun z => Cell.Has ⟨ctx.reRan, ctx.imRan, 0⟩ z ∧ Far d zeros z) (turn zeros g) N δ γ h
      ((π / 2 * (zeros.length / d) + M) * h) (fun _ => False) (fun _ => False) (fun _ => False) w := by
  have glook : ∀ a b, w.cache.look 0 a b = none := by
    intro a b; unfold EstCache.look; rw [hdata]; rfl
  refine ⟨CacheWF.of_data (c := EstCache.init false) (CacheWF.init _) hdata, hfuse, fun q hq => hq.elim, fun q hq => hq, ?_, ?_,
    fun q hq => hq.elim, ?_⟩
  · intro hz z x s v hv
    rw [hest, ent_fresh] at hv
    simp at hv
  · intro a b v hv
    rw [glook] at hv
    simp at hv
  · rintro e ⟨v, hv⟩
    rw [glook] at hv
    simp at hv

/-- all phases of a completed search are accurate -/
theorem cells (limit : ℕ) (w w' : World (SumState ℝ) ℝ) (hfuse : w.fuse = none) (hest : w.est = SumState.fresh)
    (hr : simpleArgumentF A (strictLine (sumLineF A S)) pi limit ctx w = (.ok (), w')) :
    (∀ c ∈ newCells w w', |c.phi - 2 * π * (Cell.count c zeros : ℝ)| ≤ rectErr N δ γ u + 8 * ((π / 2 * (zeros.length / d) + M) * h) ∧
      (Cell.TurnsF A pi c ↔ 1 ≤ Cell.count c zeros) ∧ roundHalfEven (A.fl (c.phi / A.fl (2 * pi))) = Cell.count c zeros ∧
      ReachedF A ctx.precision zeros ctx.reRan ctx.imRan c.re c.im) ∧
    ∀ r ∈ newRoots w w', ∃ c, Cell.TurnsF A pi c ∧ r = candF A pi c := by
  have hhits := strict_hits (sumLineF_hits A S ctx)
  unfold simpleArgumentF at hr
  obtain ⟨w0, e0, g1, g0, g2, g3, g4⟩ := reset_world w
  rw [Py.bind_run, e0] at hr
  dsimp only at hr
  have hI := X.start (w := w0) (g3.trans hfuse) (g2.trans hest) g4
  rw [Py.bind_run] at hr
  rcases hp : phaseOfF A (strictLine (sumLineF A S)) ctx.reRan ctx.imRan ctx w0 with ⟨_ | phi, w1⟩ <;> rw [hp] at hr
  · simp at hr
  dsimp only at hr
  obtain ⟨i1, acc, n1⟩ := node_invF X.fine X.h0 (p := []) (fun q hq => hq.elim) (fun m hm => hm.elim) (fun n hn hne => absurd (List.suffix_nil.1 hn) hne)
    (X.ready _ X.rootQ) hI hp
  obtain ⟨VD', Done', _, _, _, _, _, ⟨B, a1, a2⟩, L, l1, l2⟩ := dispatchF_acc X.fine X.h0 (treeOf_fits _ _ _ _ _) hhits
    (body := simpleDecideF A (strictLine (sumLineF A S)) pi) (stop := stopF A pi ctx.precision) (act := actF A pi ctx)
    (fun self c => ⟨fun h => by rw [simpleDecideF_eq, if_pos h], fun h => by rw [simpleDecideF_eq, if_neg h]⟩)
    X.kid (quiet_actF A pi ctx) (good_actF A pi ctx) X.ready limit [] phi _ _ w1 w' i1 (.inr rfl)
    (by
      rintro q (hq | rfl) _
      · exact hq.elim
      · rfl)
    (fun m hm => hm.elim) X.rootQ acc hr
  have hlog := (phaseOfF_ok hhits hp).1
  have hcells : newCells w w' = ⟨ctx.reRan, ctx.imRan, phi⟩ :: L := by
    unfold newCells
    rw [l1, hlog, g1]
    simp
  have hall : ∀ c ∈ newCells w w', AccurateF X.tree (turn zeros g) N δ γ u ((π / 2 * (zeros.length / d) + M) * h) X.Q c := by
    intro c hc
    rw [hcells] at hc
    rcases List.mem_cons.1 hc with rfl | hc
    · exact ⟨[], rfl, X.rootQ, acc⟩
    · exact l2 c hc
  refine ⟨?_, ?_⟩
  · intro c hc
    obtain ⟨q, q1, q2, q3⟩ := hall c hc
    obtain ⟨d1, d2, d3⟩ := X.decides q q2 c.phi q3
    rw [← q1] at d1 d2 d3
    refine ⟨d1, d2, d3, ?_⟩
    rw [q1]
    exact q2
  · have : newRoots w w' = B := by unfold newRoots; rw [a1, n1, g0]; simp
    rw [this]; exact a2

end SumDataF
end
end PyZeal
