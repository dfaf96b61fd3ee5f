import Verif.Proof.SumSearch

/-! # Completed searches with the summation estimator -/

set_option linter.unusedSectionVars false

namespace PyZeal
open Spec

/-- an edge with a phase different from 0 is evaluated alike -/
theorem strict_edge {est : LineEst (SumState ℝ) ℝ} {ctx : RCtx ℝ} {a b d : Cx ℝ} {w w' : World (SumState ℝ) ℝ}
    (h : edgeMoment est 0 ctx (a, b) w = (.ok d, w')) (hc : w.cache.look 0 a b = none) {u v : Real.Angle}
    (hd : (d.re : Real.Angle) = u - v) (huv : u ≠ v) : edgeMoment (strictLine est) 0 ctx (a, b) w = (.ok d, w') := by
  have h0 : d ≠ 0 := by
    rintro rfl
    apply huv
    have : (((0 : Cx ℝ).re : ℝ) : Real.Angle) = 0 := by simp
    rw [this] at hd
    exact (sub_eq_zero.1 hd.symm)
  rw [edgeMoment_run, hc] at h ⊢
  dsimp only at h ⊢
  rw [compute_run] at h ⊢
  rcases ht : World.tick { w with cache := (w.cache.retrieve 0 a b).2 } with ⟨_ | _, w1⟩ <;> rw [ht] at h
  · simp at h
  dsimp only at h ⊢
  unfold strictLine
  rcases hs : est 0 a b ctx w1 with ⟨_ | d', w2⟩ <;> rw [hs] at h
  · simp at h
  dsimp only at h ⊢
  simp only [Prod.mk.injEq, Except.ok.injEq] at h
  obtain ⟨rfl, rfl⟩ := h
  rw [if_neg h0]

theorem strict_moment_defined (cfg : SumCfg ℝ) (harg : ∀ z, cfg.arg z = Complex.arg ⟨z.re, z.im⟩)
    (hδ : 0 < cfg.deltaPhi) (hn : 2 ≤ cfg.numPts) (ctx : RCtx ℝ) (re im : ℝ × ℝ)
    (hre : re.1 ≠ re.2) (him : im.1 ≠ im.2)
    (w : World (SumState ℝ) ℝ) (hw : w.fuse = none) (hc : w.cache.data = [])
    (hH : ∀ y, y = im.1 ∨ y = im.2 → w.est.horizontal.get? (y, 0) = none)
    (hV : ∀ x, x = re.1 ∨ x = re.2 → w.est.vertical.get? (x, 0) = none)
    (hf : ∀ z, OnBoundary re im z → ctx.f z ≠ 0)
    (hdef : ∀ u v (w : World (SumState ℝ) ℝ), w.fuse = none →
      ∃ r, (genPhiArr cfg 0 u v ctx w).1 = .ok r)
    (hne : ∀ e ∈ edges re im, (Complex.arg (toC (ctx.f e.2)) : Real.Angle) ≠ (Complex.arg (toC (ctx.f e.1)) : Real.Angle)) :
    ∃ phi w', calcMoment (strictLine (sumLine cfg)) 0 re im ctx w = (.ok phi, w') ∧ w'.fuse = none := by
  obtain ⟨x1, x2⟩ := re
  obtain ⟨y1, y2⟩ := im
  simp only at hre him hH hV
  have hlook : ∀ u v, w.cache.look 0 u v = none := by
    intro u v; unfold EstCache.look; rw [hc]; rfl
  unfold edges at hne
  dsimp only at hne
  unfold calcMoment edges
  simp only [sumEdges, Py.bind_run, Py.pure_run]
  -- bottom
  obtain ⟨d1, w1, h1⟩ := edge_defined cfg ctx hdef ⟨x1, y1⟩ ⟨x2, y1⟩
    (fun e => hre (congrArg Cx.re e)) (.inl rfl)
    w hw (hlook _ _) (fun _ => hH _ (.inl rfl))
    (fun e => absurd e hre)
  obtain ⟨a1, b1, c1, e1, f1, g1⟩ := edge_angle cfg harg hδ hn ctx ⟨x1, y1⟩ ⟨x2, y1⟩
    (fun e => hre (congrArg Cx.re e)) (.inl rfl) w w1 hw (hlook _ _) (fun _ => hH _ (.inl rfl))
    (fun e => absurd e hre) (by
      rintro z ⟨q1, q2, q3, q4⟩
      apply hf; right
      simp only [min_self, max_self] at q3 q4
      exact ⟨.inl (le_antisymm q4 q3), q1, q2⟩) d1 h1
  rw [strict_edge h1 (hlook _ _) b1 (hne (⟨x1, y1⟩, ⟨x2, y1⟩) (by simp))]; dsimp only
  -- right
  obtain ⟨d2, w2, h2⟩ := edge_defined cfg ctx hdef ⟨x2, y1⟩ ⟨x2, y2⟩
    (fun e => him (congrArg Cx.im e)) (.inr rfl)
    w1 c1
    (by rw [e1 _ _ (by simp [hre, hre.symm]) (by simp [him, him.symm])]; exact hlook _ _)
    (fun e => absurd e him)
    (fun _ => by rw [g1 _ (fun e => absurd e hre)]; exact hV _ (.inr rfl))
  obtain ⟨a2, b2, c2, e2, f2, g2⟩ := edge_angle cfg harg hδ hn ctx ⟨x2, y1⟩ ⟨x2, y2⟩
    (fun e => him (congrArg Cx.im e)) (.inr rfl) w1 w2 c1
    (by rw [e1 _ _ (by simp [hre, hre.symm]) (by simp [him, him.symm])]; exact hlook _ _)
    (fun e => absurd e him)
    (fun _ => by rw [g1 _ (fun e => absurd e hre)]; exact hV _ (.inr rfl)) (by
      rintro z ⟨q1, q2, q3, q4⟩
      apply hf; left
      simp only [min_self, max_self] at q1 q2
      exact ⟨.inr (le_antisymm q2 q1), q3, q4⟩) d2 h2
  rw [strict_edge h2 (by rw [e1 _ _ (by simp [hre, hre.symm]) (by simp [him, him.symm])]; exact hlook _ _) b2 (hne (⟨x2, y1⟩, ⟨x2, y2⟩) (by simp))]; dsimp only
  -- top
  obtain ⟨d3, w3, h3⟩ := edge_defined cfg ctx hdef ⟨x2, y2⟩ ⟨x1, y2⟩
    (fun e => hre (congrArg Cx.re e).symm) (.inl rfl)
    w2 c2
    (by rw [e2 _ _ (by simp [him, him.symm]) (by simp [hre, hre.symm]),
          e1 _ _ (by simp [hre, hre.symm]) (by simp [him, him.symm])]; exact hlook _ _)
    (fun _ => by
      rw [f2 _ (fun e => absurd e him), f1 _ (fun _ => him.symm)]; exact hH _ (.inr rfl))
    (fun e => absurd e hre.symm)
  obtain ⟨a3, b3, c3, e3, f3, g3⟩ := edge_angle cfg harg hδ hn ctx ⟨x2, y2⟩ ⟨x1, y2⟩
    (fun e => hre (congrArg Cx.re e).symm) (.inl rfl) w2 w3 c2
    (by rw [e2 _ _ (by simp [him, him.symm]) (by simp [hre, hre.symm]),
          e1 _ _ (by simp [hre, hre.symm]) (by simp [him, him.symm])]; exact hlook _ _)
    (fun _ => by
      rw [f2 _ (fun e => absurd e him), f1 _ (fun _ => him.symm)]; exact hH _ (.inr rfl))
    (fun e => absurd e hre.symm) (by
      rintro z ⟨q1, q2, q3, q4⟩
      apply hf; right
      simp only [min_self, max_self] at q3 q4
      rw [min_comm] at q1
      rw [max_comm] at q2
      exact ⟨.inr (le_antisymm q4 q3), q1, q2⟩) d3 h3
  rw [strict_edge h3 (by rw [e2 _ _ (by simp [him, him.symm]) (by simp [hre, hre.symm]),
          e1 _ _ (by simp [hre, hre.symm]) (by simp [him, him.symm])]; exact hlook _ _) b3 (hne (⟨x2, y2⟩, ⟨x1, y2⟩) (by simp))]; dsimp only
  -- left
  obtain ⟨d4, w4, h4⟩ := edge_defined cfg ctx hdef ⟨x1, y2⟩ ⟨x1, y1⟩
    (fun e => him (congrArg Cx.im e).symm) (.inr rfl)
    w3 c3
    (by rw [e3 _ _ (by simp [hre, hre.symm]) (by simp [him, him.symm]),
          e2 _ _ (by simp [hre, hre.symm]) (by simp [hre, hre.symm]),
          e1 _ _ (by simp [him, him.symm]) (by simp [hre, hre.symm])]; exact hlook _ _)
    (fun e => absurd e him.symm)
    (fun _ => by
      rw [g3 _ (fun e => absurd e hre.symm), g2 _ (fun _ => hre), g1 _ (fun e => absurd e hre)]
      exact hV _ (.inl rfl))
  obtain ⟨a4, b4, c4, e4, f4, g4⟩ := edge_angle cfg harg hδ hn ctx ⟨x1, y2⟩ ⟨x1, y1⟩
    (fun e => him (congrArg Cx.im e).symm) (.inr rfl) w3 w4 c3
    (by rw [e3 _ _ (by simp [hre, hre.symm]) (by simp [him, him.symm]),
          e2 _ _ (by simp [hre, hre.symm]) (by simp [hre, hre.symm]),
          e1 _ _ (by simp [him, him.symm]) (by simp [hre, hre.symm])]; exact hlook _ _)
    (fun e => absurd e him.symm)
    (fun _ => by
      rw [g3 _ (fun e => absurd e hre.symm), g2 _ (fun _ => hre), g1 _ (fun e => absurd e hre)]
      exact hV _ (.inl rfl)) (by
      rintro z ⟨q1, q2, q3, q4⟩
      apply hf; left
      simp only [min_self, max_self] at q1 q2
      rw [min_comm] at q3
      rw [max_comm] at q4
      exact ⟨.inl (le_antisymm q2 q1), q3, q4⟩) d4 h4
  rw [strict_edge h4 (by rw [e3 _ _ (by simp [hre, hre.symm]) (by simp [him, him.symm]),
          e2 _ _ (by simp [hre, hre.symm]) (by simp [hre, hre.symm]),
          e1 _ _ (by simp [him, him.symm]) (by simp [hre, hre.symm])]; exact hlook _ _) b4 (hne (⟨x1, y2⟩, ⟨x1, y1⟩) (by simp))]; dsimp only
  exact ⟨_, _, rfl, c4⟩

end PyZeal
