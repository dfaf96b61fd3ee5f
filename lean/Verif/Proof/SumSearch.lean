import Verif.Proof.SumTree
import Verif.Proof.Approx

/-! # Searches with the summation estimator -/

set_option linter.unusedSectionVars false

namespace PyZeal
open Spec

/-! ## Refinement: the strict estimator -/

section
variable {K : Type} {σ : Type} [Field K] [LinearOrder K] [IsStrictOrderedRing K] [FloorRing K]

/-- whenever `m₁` completes, `m₂` does, with the same result and effects -/
def Ref {α : Type} (m₁ m₂ : Py (World σ K) α) : Prop := ∀ w a w', m₁ w = (.ok a, w') → m₂ w = (.ok a, w')

theorem Ref.refl {α : Type} (m : Py (World σ K) α) : Ref m m := fun _ _ _ h => h

theorem Ref.bind {α β : Type} {m₁ m₂ : Py (World σ K) α} {k₁ k₂ : α → Py (World σ K) β} (hm : Ref m₁ m₂) (hk : ∀ a, Ref (k₁ a) (k₂ a)) :
    Ref (m₁ >>= k₁) (m₂ >>= k₂) := by
  intro w b w' h
  rw [Py.bind_run] at h ⊢
  rcases he : m₁ w with ⟨_ | a, w1⟩ <;> rw [he] at h
  · simp at h
  · rw [hm w a w1 he]
    exact hk a w1 b w' h

/-- pointwise refinement of estimators in a context -/
def RefEst (e₁ e₂ : LineEst σ K) (ctx : RCtx K) : Prop := ∀ o a b, Ref (e₁ o a b ctx) (e₂ o a b ctx)

theorem RefEst.strict (est : LineEst σ K) (ctx : RCtx K) : RefEst (strictLine est) est ctx := by
  intro o a b w d w' h
  unfold strictLine at h
  rcases he : est o a b ctx w with ⟨_ | d', w1⟩ <;> rw [he] at h
  · simp at h
  · dsimp only at h
    split at h
    · simp at h
    · exact h

theorem RefEst.edge {e₁ e₂ : LineEst σ K} {ctx : RCtx K} (h : RefEst e₁ e₂ ctx) (o : ℤ) (e : Cx K × Cx K) :
    Ref (edgeMoment e₁ o ctx e) (edgeMoment e₂ o ctx e) := by
  have hc : Ref (edgeMoment.compute e₁ o ctx e) (edgeMoment.compute e₂ o ctx e) := by
    unfold edgeMoment.compute
    exact Ref.bind (Ref.refl _) fun _ => Ref.bind (h o e.1 e.2) fun _ => Ref.refl _
  unfold edgeMoment
  refine Ref.bind (Ref.refl _) fun entry => ?_
  cases entry with
  | none => exact hc
  | some v =>
    dsimp only
    by_cases hv : v ≠ 0
    · rw [if_pos hv, if_pos hv]; exact Ref.refl _
    · rw [if_neg hv, if_neg hv]; exact hc

theorem RefEst.phase {e₁ e₂ : LineEst σ K} {ctx : RCtx K} (h : RefEst e₁ e₂ ctx) (re im : K × K) :
    Ref (phaseOf e₁ re im ctx) (phaseOf e₂ re im ctx) := by
  have hs : ∀ es phi, Ref (sumEdges e₁ 0 ctx es phi) (sumEdges e₂ 0 ctx es phi) := by
    intro es
    induction es with
    | nil => intro phi; exact Ref.refl _
    | cons e es ih => intro phi; exact Ref.bind (h.edge 0 e) fun d => ih _
  exact Ref.bind (hs _ _) fun _ => Ref.refl _

theorem RefEst.dispatch {e₁ e₂ : LineEst σ K} {ctx : RCtx K} (h : RefEst e₁ e₂ ctx) {b₁ b₂ : Decide σ K → Decide σ K}
    {stop : Cell K → Prop} {act : Cell K → Py (World σ K) Unit} (h1 : Stops e₁ ctx b₁ stop act) (h2 : Stops e₂ ctx b₂ stop act)
    (limit : ℕ) (c : Cell K) : Ref ((PyZeal.dispatch b₁ limit).at ctx c) ((PyZeal.dispatch b₂ limit).at ctx c) := by
  induction limit generalizing c with
  | zero => intro w a w' hr; simp [PyZeal.dispatch, Decide.at] at hr
  | succ limit ih =>
    change Ref ((b₁ (PyZeal.dispatch b₁ limit)).at ctx c) ((b₂ (PyZeal.dispatch b₂ limit)).at ctx c)
    by_cases hs : stop c
    · rw [(h1 _ c).1 hs, (h2 _ c).1 hs]; exact Ref.refl _
    · rw [(h1 _ c).2 hs, (h2 _ c).2 hs]
      unfold splitStep
      exact Ref.bind (h.phase _ _) fun _ => Ref.bind (ih _) fun _ => Ref.bind (Ref.refl _) fun _ => Ref.bind (h.phase _ _) fun _ =>
        Ref.bind (ih _) fun _ => Ref.refl _

theorem RefEst.calcRoots {e₁ e₂ : LineEst σ K} {ctx : RCtx K} (h : RefEst e₁ e₂ ctx) {b₁ b₂ : Decide σ K → Decide σ K}
    {stop : Cell K → Prop} {act : Cell K → Py (World σ K) Unit} (h1 : Stops e₁ ctx b₁ stop act) (h2 : Stops e₂ ctx b₂ stop act)
    (limit : ℕ) : Ref (PyZeal.calcRoots e₁ b₁ limit ctx) (PyZeal.calcRoots e₂ b₂ limit ctx) :=
  Ref.bind (Ref.refl _) fun _ => Ref.bind (h.phase _ _) fun phi => h.dispatch h1 h2 limit ⟨ctx.reRan, ctx.imRan, phi⟩

theorem strict_hits {est : LineEst σ K} {ctx : RCtx K} (h : BoundaryHits est ctx) : BoundaryHits (strictLine est) ctx := by
  intro o a b w
  have := h o a b w
  unfold strictLine
  generalize est o a b ctx w = r at this ⊢
  rcases r with ⟨_ | d, w1⟩
  · exact this
  · dsimp only
    split <;> exact this

end

/-! ## Actions -/

theorem quiet_simple {σ : Type} (pi : ℝ) (ctx : RCtx ℝ) : Quiet (σ := σ) (simpleAct pi ctx) := by
  have hadv : ∀ a (w w' : World σ ℝ), World.advance ctx a w = (.ok (), w') → w'.cache = w.cache ∧ w'.est = w.est ∧
      (w.fuse = none → w'.fuse = none) ∧ w'.log = w.log := by
    intro a w w' h
    unfold World.advance at h
    split at h
    · rw [Py.bind_run] at h
      have h1 : ∀ w1, World.tick w = (.ok (), w1) → w1.cache = w.cache ∧ w1.est = w.est ∧ (w.fuse = none → w1.fuse = none) ∧ w1.log = w.log := by
        intro w1 ht
        obtain ⟨_, _, t3, t4, t5⟩ := World.tick_ok ht
        refine ⟨t4, t5, fun hf => ?_, t3⟩
        rw [World.tick_none hf] at ht
        simp only [Prod.mk.injEq, true_and] at ht
        rw [← ht]; exact hf
      rcases ht : World.tick w with ⟨_ | _, w1⟩ <;> rw [ht] at h
      · simp at h
      · simp only [Py.modify_run, Prod.mk.injEq, true_and] at h
        rw [← h]
        exact h1 w1 ht
    · simp only [Py.pure_run, Prod.mk.injEq, true_and] at h
      rw [← h]
      exact ⟨rfl, rfl, id, rfl⟩
  intro c w w' h
  unfold simpleAct at h
  split at h
  · exact hadv _ _ _ h
  · rw [Py.bind_run] at h
    rcases ha : World.addRoot (candidate pi c) w with ⟨_ | _, w1⟩ <;> rw [ha] at h
    · simp at h
    · obtain ⟨b1, b2, b3, b4⟩ := hadv _ _ _ h
      unfold World.addRoot at ha
      rw [Py.bind_run] at ha
      rcases ht : World.tick w with ⟨_ | _, w2⟩ <;> rw [ht] at ha
      · simp at ha
      · simp only [Py.modify_run, Prod.mk.injEq, true_and] at ha
        obtain ⟨_, _, t3, t4, t5⟩ := World.tick_ok ht
        rw [← ha] at b1 b2 b3 b4
        refine ⟨b1.trans t4, b2.trans t5, fun hf => b3 ?_, b4.trans t3⟩
        rw [World.tick_none hf] at ht
        simp only [Prod.mk.injEq, true_and] at ht
        rw [← ht]; exact hf

theorem good_simple {σ : Type} {pi : ℝ} (hpi : 0 < pi) (ctx : RCtx ℝ) : AddsGood (σ := σ) (fun r => r.2 ≠ 0) (simpleAct pi ctx) := by
  have hadv : ∀ a (w w' : World σ ℝ), World.advance ctx a w = (.ok (), w') → w'.added = w.added := by
    intro a w w' h
    unfold World.advance at h
    split at h
    · rw [Py.bind_run] at h
      rcases ht : World.tick w with ⟨_ | _, w1⟩ <;> rw [ht] at h
      · simp at h
      · simp only [Py.modify_run, Prod.mk.injEq, true_and] at h
        rw [← h]
        exact (World.tick_ok ht).1
    · simp only [Py.pure_run, Prod.mk.injEq, true_and] at h
      rw [← h]
  intro c w w' h
  unfold simpleAct at h
  split at h
  · exact ⟨[], by simp [hadv _ _ _ h], by simp⟩
  · rename_i hturn
    rw [Py.bind_run] at h
    rcases ha : World.addRoot (candidate pi c) w with ⟨_ | _, w1⟩ <;> rw [ha] at h
    · simp at h
    · have b1 := hadv _ _ _ h
      unfold World.addRoot at ha
      rw [Py.bind_run] at ha
      rcases ht : World.tick w with ⟨_ | _, w2⟩ <;> rw [ht] at ha
      · simp at ha
      · simp only [Py.modify_run, Prod.mk.injEq, true_and] at ha
        refine ⟨[candidate pi c], ?_, ?_⟩
        · rw [b1, ← ha]
          dsimp only
          rw [(World.tick_ok ht).1]
        · intro r hr
          rw [List.mem_singleton] at hr
          subst hr
          have := one_le_order hpi (not_not.1 hturn)
          unfold candidate
          dsimp only
          omega

/-! ## The search -/

theorem cell_root (p : ℤ × ℤ) (re im : ℝ × ℝ) (hre : re.1 < re.2) (him : im.1 < im.2) (phi : ℝ) :
    (gridOf p re im hre him).cell ⟨0, 0, 0⟩ phi = ⟨re, im, phi⟩ := by
  simp [Grid.cell, Grid.elo, Grid.ehi, Grid.crd, gridOf, levels, BoxAddr.at]

theorem reached_in {p : ℤ × ℤ} {zeros : List (Cx ℝ)} {reRan imRan re im : ℝ × ℝ} (hre : reRan.1 ≤ reRan.2) (him : imRan.1 ≤ imRan.2)
    (h : Reached p zeros reRan imRan re im) : Cell.In ⟨re, im, 0⟩ (⟨reRan, imRan, 0⟩ : Cell ℝ) := by
  induction h with
  | whole => exact ⟨le_rfl, hre, le_rfl, le_rfl, him, le_rfl⟩
  | left _ _ _ _ ih | right _ _ _ _ ih | lower _ _ _ _ ih | upper _ _ _ _ ih =>
    obtain ⟨a1, a2, a3, a4, a5, a6⟩ := ih
    dsimp only at a1 a2 a3 a4 a5 a6
    refine ⟨?_, ?_, ?_, ?_, ?_, ?_⟩ <;> dsimp only <;> linarith

/-- the points of the edges of a rectangle are its boundary points -/
theorem boundary_edge (G : Grid) (p : BoxAddr) (hz b : Bool) (t : ℝ) (h1 : G.elo p hz ≤ t) (h2 : t ≤ G.ehi p hz) :
    Cell.Boundary (G.cell p 0) (lpt hz (G.ez p hz b) t) := by
  have l1 := (G.elo_lt p true).le
  have l2 := (G.elo_lt p false).le
  cases hz <;> cases b <;> unfold Cell.Boundary Cell.Has Cell.Interior Grid.cell
  · exact ⟨⟨le_rfl, l1, h1, h2⟩, fun h => lt_irrefl _ h.1⟩
  · exact ⟨⟨l1, le_rfl, h1, h2⟩, fun h => lt_irrefl _ h.2.1⟩
  · exact ⟨⟨h1, h2, le_rfl, l2⟩, fun h => lt_irrefl _ h.2.2.1⟩
  · exact ⟨⟨h1, h2, l2, le_rfl⟩, fun h => lt_irrefl _ h.2.2.2⟩

/-- the data of a search with a factored function -/
structure SumData (cfg : SumCfg ℝ) (ctx : RCtx ℝ) (zeros : List (Cx ℝ)) (r g : Cx ℝ → ℝ) (M d h : ℝ) : Prop where
  harg : ∀ z, cfg.arg z = Complex.arg (toC z)
  hδ : 0 < cfg.deltaPhi
  hn : 2 ≤ cfg.numPts
  hre : ctx.reRan.1 < ctx.reRan.2
  him : ctx.imRan.1 < ctx.imRan.2
  hf : Factored ctx.f (Cell.Has ⟨ctx.reRan, ctx.imRan, 0⟩) zeros r g M
  hM : 0 ≤ M
  hd : 0 < d
  hh : 0 ≤ h
  hhd : h < d
  hw1 : (ctx.reRan.2 - ctx.reRan.1) / ((cfg.numPts : ℝ) - 1) ≤ h
  hw2 : (ctx.imRan.2 - ctx.imRan.1) / ((cfg.numPts : ℝ) - 1) ≤ h
  hsmall : 8 * ((Real.pi / 2 * (zeros.length / d) + M) * h) < 2 / 10 * (2 * Real.pi)
  hfar : ∀ re im, Reached ctx.precision zeros ctx.reRan ctx.imRan re im → ∀ z, Cell.Boundary ⟨re, im, 0⟩ z → Far d zeros z

section
variable {cfg : SumCfg ℝ} {ctx : RCtx ℝ} {zeros : List (Cx ℝ)} {r g : Cx ℝ → ℝ} {M d h : ℝ}

/-- bound on the turn between neighbouring samples -/
noncomputable def SumData.eta (_ : SumData cfg ctx zeros r g M d h) : ℝ := (Real.pi / 2 * (zeros.length / d) + M) * h

/-- the points of lines which are sampled -/
def SumData.S (_ : SumData cfg ctx zeros r g M d h) : Cx ℝ → Prop := fun z => Cell.Has ⟨ctx.reRan, ctx.imRan, 0⟩ z ∧ Far d zeros z

/-- the grid of the search -/
noncomputable def SumData.G (D : SumData cfg ctx zeros r g M d h) : Grid := gridOf ctx.precision ctx.reRan ctx.imRan D.hre D.him

/-- the rectangles of the search -/
def SumData.R (D : SumData cfg ctx zeros r g M d h) (p : BoxAddr) : Prop :=
  Reached ctx.precision zeros ctx.reRan ctx.imRan (D.G.cell p 0).re (D.G.cell p 0).im

theorem SumData.hG (D : SumData cfg ctx zeros r g M d h) : D.G.Fits ctx.precision := gridOf_fits _ _ _ _ _

theorem SumData.root (D : SumData cfg ctx zeros r g M d h) (phi : ℝ) : D.G.cell ⟨0, 0, 0⟩ phi = ⟨ctx.reRan, ctx.imRan, phi⟩ := cell_root _ _ _ _ _ _

theorem SumData.rootR (D : SumData cfg ctx zeros r g M d h) : D.R ⟨0, 0, 0⟩ := by
  unfold SumData.R
  rw [D.root]; exact .whole

theorem SumData.clear (D : SumData cfg ctx zeros r g M d h) (p : BoxAddr) (hp : D.R p) : D.G.Clear D.S p := by
  intro hz b t t1 t2
  have hb := boundary_edge D.G p hz b t t1 t2
  refine ⟨?_, D.hfar _ _ hp _ hb⟩
  obtain ⟨a1, a2, a3, a4, a5, a6⟩ := reached_in D.hre.le D.him.le hp
  obtain ⟨b1, b2, b3, b4⟩ := hb.1
  exact ⟨a1.trans b1, b2.trans a3, a4.trans b3, b4.trans a6⟩

theorem SumData.setup (D : SumData cfg ctx zeros r g M d h) : SumSetup D.G D.S (turn zeros g) h D.eta cfg ctx := by
  have hN : (0 : ℝ) < (cfg.numPts : ℝ) - 1 := by
    have : (2 : ℝ) ≤ cfg.numPts := by exact_mod_cast D.hn
    linarith
  have hpi := Real.pi_pos
  have hs := D.hsmall
  refine ⟨D.hf.turnSys D.hd D.hhd D.hM (by linarith), D.hh, D.harg, D.hδ, D.hn, ?_⟩
  intro n hz
  have hW : D.G.W = ctx.reRan.2 - ctx.reRan.1 := rfl
  have hH : D.G.H = ctx.imRan.2 - ctx.imRan.1 := rfl
  refine le_trans ?_ (show (if hz then D.G.W else D.G.H) / ((cfg.numPts : ℝ) - 1) ≤ h by
    cases hz <;> simp only [hW, hH]
    · exact D.hw2
    · exact D.hw1)
  apply div_le_div_of_nonneg_right _ hN.le
  cases hz
  · rw [D.G.width_im]
    exact div_le_self D.G.posH.le (one_le_pow₀ (by norm_num))
  · rw [D.G.width_re]
    exact div_le_self D.G.posW.le (one_le_pow₀ (by norm_num))

/-- the true turning round a rectangle of the search -/
theorem SumData.around (D : SumData cfg ctx zeros r g M d h) (q : BoxAddr) (hq : D.R q) (phi : ℝ) :
    D.G.around (turn zeros g) q = 2 * Real.pi * (Cell.count (D.G.cell q phi) zeros : ℝ) := by
  have hx := D.G.elo_lt q true
  have hy := D.G.elo_lt q false
  have hd := D.hd
  refine turn_around g hx hy ?_ phi
  intro z hz hbad
  have hb : Cell.Boundary (D.G.cell q 0) z := by
    unfold Cell.Boundary Cell.Has Cell.Interior Grid.cell
    dsimp only
    rcases hbad with ⟨h1 | h1, h2, h3⟩ | ⟨h1 | h1, h2, h3⟩
    · exact ⟨⟨h1.ge, h1.le.trans hx.le, h2, h3⟩, fun h => h.1.ne h1.symm⟩
    · exact ⟨⟨hx.le.trans h1.ge, h1.le, h2, h3⟩, fun h => h.2.1.ne h1⟩
    · exact ⟨⟨h2, h3, h1.ge, h1.le.trans hy.le⟩, fun h => h.2.2.1.ne h1.symm⟩
    · exact ⟨⟨h2, h3, hy.le.trans h1.ge, h1.le⟩, fun h => h.2.2.2.ne h1⟩
  have := D.hfar _ _ hq z hb z hz
  simp at this
  nlinarith

/-- the halves of a rectangle at which the search does not stop -/
theorem SumData.kid (D : SumData cfg ctx zeros r g M d h) {stop : Cell ℝ → Prop}
    (hstop : ∀ c, ¬ stop c → Cell.Turns Real.pi c ∧ ¬ Cell.Small ctx.precision c) (p : BoxAddr) (phi : ℝ) (hp : D.R p)
    (hA : |phi - D.G.around (turn zeros g) p| ≤ 8 * D.eta) (hs : ¬ stop (D.G.cell p phi)) (b : Bool) :
    D.R (p.kid (decide (SplitRe ctx.precision (D.G.cell p phi))) b) := by
  obtain ⟨s1, s2⟩ := hstop _ hs
  have hsm := D.hsmall
  have hc : 1 ≤ Cell.count (D.G.cell p phi) zeros := by
    refine (approx_cell Real.pi_pos ?_).1.1 s1
    rw [← D.around p hp phi]
    exact lt_of_le_of_lt hA hsm
  obtain ⟨o1, o2⟩ := reached_halves (c := D.G.cell p phi) hp s2 hc 0
  rw [cell_half1 D.hG] at o1
  rw [cell_half2 D.hG] at o2
  cases b
  · exact o1
  · exact o2

theorem SumData.start (D : SumData cfg ctx zeros r g M d h) {w : World (SumState ℝ) ℝ} (hfuse : w.fuse = none) (hest : w.est = SumState.fresh)
    (hdata : w.cache.data = []) : SumInv D.G D.S (turn zeros g) h D.eta (fun _ => False) (fun _ => False) (fun _ => False) w := by
  have glook : ∀ a b, w.cache.look 0 a b = none := by
    intro a b; unfold EstCache.look; rw [hdata]; rfl
  refine ⟨CacheWF.of_data (c := EstCache.init false) (CacheWF.init _) hdata, hfuse, fun q hq => hq.elim, fun q hq => hq, ?_, ?_,
    fun q hq => hq.elim, ?_⟩
  · intro hz z x s v hv
    rw [hest, ent_fresh] at hv
    simp at hv
  · intro a b v hv
    rw [glook] at hv
    simp at hv
  · rintro e ⟨v, hv⟩
    rw [glook] at hv
    simp at hv

/-- the world after the reset of the cache -/
theorem reset_world {σ : Type} (w : World σ ℝ) : ∃ w0, (resetCache : Py (World σ ℝ) Unit) w = (.ok (), w0) ∧ w0.log = w.log ∧ w0.added = w.added ∧
    w0.est = w.est ∧ w0.fuse = w.fuse ∧ w0.cache.data = [] := by
  unfold resetCache
  rw [Py.modify_run]
  refine ⟨_, rfl, ?_, ?_, ?_, ?_, ?_⟩
  · split <;> rfl
  · split <;> rfl
  · split <;> rfl
  · split <;> rfl
  · split
    · rfl
    · rename_i hdirty
      unfold EstCache.dirty at hdirty
      simp only [Bool.not_eq_true, decide_eq_false_iff_not, not_lt, Nat.le_zero, List.length_eq_zero_iff] at hdirty
      exact hdirty

/-- all phases of a completed search are accurate -/
theorem sum_search_cells (D : SumData cfg ctx zeros r g M d h)
    {body : Decide (SumState ℝ) ℝ → Decide (SumState ℝ) ℝ} {stop : Cell ℝ → Prop} {act : Cell ℝ → Py (World (SumState ℝ) ℝ) Unit}
    (hstop : Stops (strictLine (sumLine cfg)) ctx body stop act) (hsm : ∀ c, ¬ stop c → Cell.Turns Real.pi c ∧ ¬ Cell.Small ctx.precision c)
    (hact : Quiet act) {P : Root ℝ → Prop} (hgood : AddsGood P act) (limit : ℕ) (w w' : World (SumState ℝ) ℝ) (hfuse : w.fuse = none) (hest : w.est = SumState.fresh)
    (hr : calcRoots (strictLine (sumLine cfg)) body limit ctx w = (.ok (), w')) :
    (∀ c ∈ newCells w w', Reached ctx.precision zeros ctx.reRan ctx.imRan c.re c.im ∧
      |c.phi - 2 * Real.pi * (Cell.count c zeros : ℝ)| ≤ 8 * ((Real.pi / 2 * (zeros.length / d) + M) * h)) ∧
    ∀ r ∈ newRoots w w', P r := by
  have hhits := strict_hits (sumLine_hits cfg ctx)
  unfold calcRoots at hr
  obtain ⟨w0, e0, g1, g0, g2, g3, g4⟩ := reset_world w
  rw [Py.bind_run, e0] at hr
  dsimp only at hr
  have hI := D.start (w := w0) (g3.trans hfuse) (g2.trans hest) g4
  rw [Py.bind_run] at hr
  rcases hp : phaseOf (strictLine (sumLine cfg)) ctx.reRan ctx.imRan ctx w0 with ⟨_ | phi, w1⟩ <;> rw [hp] at hr
  · simp at hr
  dsimp only at hr
  have hp' : phaseOf (strictLine (sumLine cfg)) (D.G.cell ⟨0, 0, 0⟩ 0).re (D.G.cell ⟨0, 0, 0⟩ 0).im ctx w0 = (.ok phi, w1) := by
    rw [D.root]; exact hp
  obtain ⟨i1, acc, n1⟩ := node_inv D.setup (fun q hq => hq.elim) (fun m hm => hm.elim) (fun k hk => absurd hk (Nat.not_lt_zero k))
    (D.clear _ D.rootR) hI hp'
  obtain ⟨VD', Done', _, _, _, _, _, ⟨A, a1, a2⟩, L, l1, l2⟩ := dispatch_acc D.setup D.hG hhits hstop (D.kid hsm) hact hgood D.clear limit ⟨0, 0, 0⟩ phi _ _ w1 w' i1 (.inr rfl)
    (by
      rintro q (hq | rfl) _
      · exact hq.elim
      · rfl)
    (fun m hm => hm.elim) D.rootR acc (by rw [D.root]; exact hr)
  have hlog := (phaseOf_ok hhits hp).1
  have hcells : newCells w w' = ⟨ctx.reRan, ctx.imRan, phi⟩ :: L := by
    unfold newCells
    rw [l1, hlog, g1]
    simp
  have hall : ∀ c ∈ newCells w w', Accurate D.G (turn zeros g) D.eta D.R c := by
    intro c hc
    rw [hcells] at hc
    rcases List.mem_cons.1 hc with rfl | hc
    · exact ⟨⟨0, 0, 0⟩, (D.root phi).symm, D.rootR, acc⟩
    · exact l2 c hc
  refine ⟨?_, ?_⟩
  swap
  · have : newRoots w w' = A := by unfold newRoots; rw [a1, n1, g0]; simp
    rw [this]; exact a2
  intro c hc
  obtain ⟨q, q1, q2, q3⟩ := hall c hc
  rw [D.around q q2 c.phi, ← q1] at q3
  refine ⟨?_, q3⟩
  rw [q1]
  exact q2

end

end PyZeal
