import Verif.Proof.SumInvF
import Verif.Proof.SumSearch

/-! # Accuracy of all phases in a search with the summation estimator in floating point arithmetic -/

set_option linter.unusedSectionVars false

namespace PyZeal
open Spec

variable {A : FloatOps ℝ} {u : ℝ} {S : SumOps ℝ} {N : ℕ} {δ γ : ℝ} {D : Cx ℝ → Prop} {T : Cx ℝ → Cx ℝ → ℝ} {h eta R : ℝ} {ctx : RCtx ℝ}
variable {G : TGrid} {VD Done : List Bool → Prop}

/-- the rectangle at an address -/
def TGrid.cell (G : TGrid) (p : List Bool) (phi : ℝ) : Cell ℝ := ⟨G.iv p true, G.iv p false, phi⟩

theorem TGrid.edges_eq (G : TGrid) (p : List Bool) (phi : ℝ) : edges (G.cell p phi).re (G.cell p phi).im =
    [(true, false), (false, true), (true, true), (false, false)].map fun e => G.own p e.1 e.2 := rfl

/-- the total change round a rectangle -/
noncomputable def TGrid.around (G : TGrid) (T : Cx ℝ → Cx ℝ → ℝ) (p : List Bool) : ℝ :=
  T (G.own p true false).1 (G.own p true false).2 + T (G.own p false true).1 (G.own p false true).2 +
    T (G.own p true true).1 (G.own p true true).2 + T (G.own p false false).1 (G.own p false false).2

/-- the invariant with the bounds for computed phases -/
abbrev SumInvE (G : TGrid) (S : SumOps ℝ) (f : Cx ℝ → Cx ℝ) (D : Cx ℝ → Prop) (T : Cx ℝ → Cx ℝ → ℝ) (N : ℕ) (δ γ h eta : ℝ)
    (VB VD Done : List Bool → Prop) (w : World (SumState ℝ) ℝ) : Prop :=
  SumInvF G S f D T N h (lineErr N δ γ + 2 * eta) (lineMax N γ) VB VD Done w

theorem sumEdgesF_inv (F : FineLine A u S N δ γ ctx.f D T h eta) (hh : 0 ≤ h) {p : List Bool}
    (hnew : ∀ q, VD q → ¬ p <:+ q) (hdone : ∀ m, Done m → ¬ m <:+ p) (hS : G.Ready A S u R h D p) (es : List (Bool × Bool))
    {phi : Cx ℝ} {w w' : World (SumState ℝ) ℝ} (hI : SumInvE G S ctx.f D T N δ γ h eta (fun q => VD q ∨ q = p) VD Done w) {m : Cx ℝ}
    (hr : sumEdgesF A (strictLine (sumLineF A S)) 0 ctx (es.map fun e => G.own p e.1 e.2) phi w = (.ok m, w')) :
    SumInvE G S ctx.f D T N δ γ h eta (fun q => VD q ∨ q = p) VD Done w' ∧
    (∃ ds : List ℝ, List.Forall₂ (fun (e : Bool × Bool) d => LineTurn (lineErr N δ γ + 2 * eta) (lineMax N γ) T (G.own p e.1 e.2).1 (G.own p e.1 e.2).2 d) es ds ∧
      m.re = ds.foldl (fun s d => A.fl (s + d)) phi.re) ∧
    (∀ i ∈ es, ∀ e, (e = G.own p i.1 i.2 ∨ e = (G.own p i.1 i.2).swap) → Has w'.cache e ∨ DoneEdgeF G Done e) ∧
    (∀ e, Has w.cache e → Has w'.cache e) ∧ w'.added = w.added := by
  induction es generalizing phi w with
  | nil =>
    simp only [List.map_nil, sumEdgesF, Py.pure_run, Prod.mk.injEq, Except.ok.injEq] at hr
    obtain ⟨rfl, rfl⟩ := hr
    exact ⟨hI, ⟨[], .nil, rfl⟩, by simp, fun e he => he, rfl⟩
  | cons i es ih =>
    simp only [List.map_cons, sumEdgesF, Py.bind_run] at hr
    rcases he : edgeMoment (strictLine (sumLineF A S)) 0 ctx (G.own p i.1 i.2) w with ⟨_ | d, w1⟩ <;> rw [he] at hr
    · simp at hr
    dsimp only at hr
    obtain ⟨a1, ⟨_, a2⟩, a3, a4, a5⟩ := edge_invF F hh hnew hdone hS i.1 i.2 hI he
    obtain ⟨b1, ⟨ds, b2, b6⟩, b3, b4, b5⟩ := ih a1 hr
    refine ⟨b1, ⟨d.re :: ds, .cons a2 b2, b6⟩, ?_, fun e he => b4 e (a4 e he), b5.trans a5⟩
    · intro j hj e hje
      rcases List.mem_cons.1 hj with rfl | hj
      · rcases a3 e hje with hh | hh
        · exact .inl (b4 _ hh)
        · exact .inr hh
      · exact b3 j hj e hje

section
variable {f : Cx ℝ → Cx ℝ} {E B : ℝ}

theorem SumInvF.congr {VB : List Bool → Prop} {w w' : World (SumState ℝ) ℝ} (hI : SumInvF G S f D T N h E B VB VD Done w) (h1 : w'.cache = w.cache)
    (h2 : w'.est = w.est) (h3 : w'.fuse = none) : SumInvF G S f D T N h E B VB VD Done w' := by
  refine ⟨by rw [h1]; exact hI.wf, h3, hI.up, hI.done, by rw [h2]; exact hI.line, by rw [h1]; exact hI.val, ?_, ?_⟩
  · rw [h1]; exact hI.kept
  · rw [h1]; exact hI.sym

/-- removing an edge of a completed rectangle -/
theorem SumInvF.remove {w : World (SumState ℝ) ℝ} (hI : SumInvF G S f D T N h E B VD VD Done w) {m : List Bool} (hm : Done m) (hz b : Bool) {x y : Cx ℝ}
    (he : (x, y) = G.own m hz b) : SumInvF G S f D T N h E B VD VD Done { w with cache := w.cache.remove 0 x y } := by
  have hHas : ∀ e, Has w.cache e → Has (w.cache.remove 0 x y) e ∨ DoneEdgeF G Done e := by
    rintro e ⟨v, hv⟩
    by_cases hxy : e = (x, y)
    · exact .inr ⟨m, hm, hz, b, hxy.trans he⟩
    · left
      refine ⟨v, ?_⟩
      rw [EstCache.look_remove hI.wf, if_neg]
      · exact hv
      · rintro ⟨_, rfl, rfl⟩; exact hxy rfl
  have hsub : ∀ a c v, (w.cache.remove 0 x y).look 0 a c = some v → w.cache.look 0 a c = some v := by
    intro a c v hv
    rw [EstCache.look_remove hI.wf] at hv
    split at hv
    · simp at hv
    · exact hv
  refine ⟨hI.wf.remove _ _ _, hI.fuse, hI.up, hI.done, hI.line, fun a c v hv => hI.val a c v (hsub _ _ _ hv), ?_, ?_⟩
  · intro q hq hz' b' e he
    rcases hI.kept q hq hz' b' e he with hh | hh
    · exact hHas e hh
    · exact .inr hh
  · rintro e ⟨v, hv⟩
    rcases hI.sym e ⟨v, hsub _ _ _ hv⟩ with hh | hh
    · exact hHas _ hh
    · exact .inr hh

theorem SumInvF.addDone {w : World (SumState ℝ) ℝ} (hI : SumInvF G S f D T N h E B VD VD Done w) {p : List Bool} (hp : VD p) :
    SumInvF G S f D T N h E B VD VD (fun q => Done q ∨ q = p) w := by
  have hd : ∀ e, DoneEdgeF G Done e → DoneEdgeF G (fun q => Done q ∨ q = p) e := by
    rintro e ⟨m, hm, r⟩; exact ⟨m, .inl hm, r⟩
  refine ⟨hI.wf, hI.fuse, hI.up, ?_, hI.line, hI.val, ?_, ?_⟩
  · rintro q (hq | rfl)
    · exact hI.done q hq
    · exact hp
  · intro q hq hz b e he; exact (hI.kept q hq hz b e he).imp_right (hd e)
  · intro e he; exact (hI.sym e he).imp_right (hd _)

end

/-- the computed phase of a rectangle is accurate -/
def TGrid.Near (G : TGrid) (T : Cx ℝ → Cx ℝ → ℝ) (N : ℕ) (δ γ u eta : ℝ) (p : List Bool) (phi : ℝ) : Prop :=
  |phi| ≤ 5 * lineMax N γ ∧ |phi - G.around T p| ≤ rectErr N δ γ u + 8 * eta

/-- evaluation of a rectangle -/
theorem node_invF (F : FineLine A u S N δ γ ctx.f D T h eta) (hh : 0 ≤ h) {p : List Bool}
    (hnew : ∀ q, VD q → ¬ p <:+ q) (hdone : ∀ m, Done m → ¬ m <:+ p) (hup : ∀ n, n <:+ p → n ≠ p → VD n) (hS : G.Ready A S u R h D p)
    {w w' : World (SumState ℝ) ℝ} (hI : SumInvE G S ctx.f D T N δ γ h eta VD VD Done w) {phi : ℝ}
    (hr : phaseOfF A (strictLine (sumLineF A S)) (G.cell p 0).re (G.cell p 0).im ctx w = (.ok phi, w')) :
    SumInvE G S ctx.f D T N δ γ h eta (fun q => VD q ∨ q = p) (fun q => VD q ∨ q = p) Done w' ∧ G.Near T N δ γ u eta p phi ∧
      w'.added = w.added := by
  unfold phaseOfF calcMomentF at hr
  rw [Py.bind_run, G.edges_eq] at hr
  have hI0 : SumInvE G S ctx.f D T N δ γ h eta (fun q => VD q ∨ q = p) VD Done w :=
    ⟨hI.wf, hI.fuse, hI.up, hI.done, fun hz z x s v hv => by
      obtain ⟨q, b, q1, q2⟩ := hI.line hz z x s v hv
      exact ⟨q, b, .inl q1, q2⟩, hI.val, hI.kept, hI.sym⟩
  rcases hm : sumEdgesF A (strictLine (sumLineF A S)) 0 ctx
    ([(true, false), (false, true), (true, true), (false, false)].map fun e => G.own p e.1 e.2) 0 w with ⟨_ | m, w1⟩ <;> rw [hm] at hr
  · simp at hr
  simp only [Py.bind_run, Py.modify_run, Py.pure_run, Prod.mk.injEq, Except.ok.injEq] at hr
  obtain ⟨rfl, rfl⟩ := hr
  obtain ⟨a1, ⟨ds, a2, a6⟩, a3, a4, a5⟩ := sumEdgesF_inv F hh hnew hdone hS _ hI0 hm
  refine ⟨⟨a1.wf, a1.fuse, ?_, fun q hq => .inl (a1.done q hq), a1.line, a1.val, ?_, a1.sym⟩, ?_, a5⟩
  · rintro q (hq | rfl) n hn
    · exact .inl (a1.up q hq n hn)
    · by_cases e : n = q
      · exact .inr e
      · exact .inl (hup n hn e)
  · rintro q (hq | rfl) hz b e he
    · exact a1.kept q hq hz b e he
    · exact a3 (hz, b) (by cases hz <;> cases b <;> simp) e he
  · rcases a2 with _ | ⟨⟨B1, l1⟩, a2⟩
    rcases a2 with _ | ⟨⟨B2, l2⟩, a2⟩
    rcases a2 with _ | ⟨⟨B3, l3⟩, a2⟩
    rcases a2 with _ | ⟨⟨B4, l4⟩, a2⟩
    cases a2
    have hA := F.rounds
    have hs := sum4_near hA.near hA.u_nonneg hA.u_small B1 B2 B3 B4
    have e : m.re = A.fl (A.fl (A.fl (A.fl (0 + _) + _) + _) + _) := a6
    rw [← e] at hs
    have hB : 0 ≤ lineMax N γ := le_trans (abs_nonneg _) B1
    have huB : u * lineMax N γ ≤ 1 / 16 * lineMax N γ := mul_le_mul_of_nonneg_right hA.u_small hB
    refine ⟨?_, ?_⟩
    · rw [abs_le] at B1 B2 B3 B4 hs ⊢
      constructor <;> linarith [B1.1, B1.2, B2.1, B2.2, B3.1, B3.2, B4.1, B4.2, hs.1, hs.2]
    · unfold rectErr TGrid.around
      dsimp only at l1 l2 l3 l4
      rw [abs_le] at l1 l2 l3 l4 hs ⊢
      constructor <;> linarith [l1.1, l1.2, l2.1, l2.2, l3.1, l3.2, l4.1, l4.2, hs.1, hs.2]

/-! ## The tree of a search -/

/-- the tree splits its rectangles as the search does -/
structure TGrid.FitsF (G : TGrid) (A : FloatOps ℝ) (p : ℤ × ℤ) : Prop where
  spl : ∀ re im, G.spl re im = decide (SplitReF A p ⟨re, im, 0⟩)
  mid : ∀ a b, a < A.mid a b → A.mid a b < b → G.mid a b = A.mid a b

/-- the computed split point is inside -/
def TGrid.Opens (G : TGrid) (A : FloatOps ℝ) (p : List Bool) : Prop :=
  A.mid (G.iv p (G.dir p)).1 (G.iv p (G.dir p)).2 ∈ Set.Ioo (G.iv p (G.dir p)).1 (G.iv p (G.dir p)).2

theorem cell_halfF {p : ℤ × ℤ} (hG : G.FitsF A p) {n : List Bool} (ho : G.Opens A n) (phi x : ℝ) :
    halfF1 A p (G.cell n phi) x = G.cell (false :: n) x ∧ halfF2 A p (G.cell n phi) x = G.cell (true :: n) x := by
  obtain ⟨o1, o2⟩ := ho
  have hm := hG.mid _ _ o1 o2
  have hd : G.dir n = decide (SplitReF A p (G.cell n phi)) := hG.spl _ _
  unfold halfF1 halfF2
  by_cases hs : SplitReF A p (G.cell n phi)
  · rw [decide_eq_true hs] at hd
    rw [hd] at hm
    rw [if_pos hs, if_pos hs]
    simp [hd, hm, TGrid.cell, G.iv_cons, TGrid.halfI]
  · rw [decide_eq_false hs] at hd
    rw [hd] at hm
    rw [if_neg hs, if_neg hs]
    simp [hd, hm, TGrid.cell, G.iv_cons, TGrid.halfI]

theorem own_cellF (p : List Bool) (phi : ℝ) :
    G.own p false false = (⟨(G.cell p phi).re.1, (G.cell p phi).im.2⟩, ⟨(G.cell p phi).re.1, (G.cell p phi).im.1⟩) ∧
    G.own p true false = (⟨(G.cell p phi).re.1, (G.cell p phi).im.1⟩, ⟨(G.cell p phi).re.2, (G.cell p phi).im.1⟩) ∧
    G.own p false true = (⟨(G.cell p phi).re.2, (G.cell p phi).im.1⟩, ⟨(G.cell p phi).re.2, (G.cell p phi).im.2⟩) ∧
    G.own p true true = (⟨(G.cell p phi).re.2, (G.cell p phi).im.2⟩, ⟨(G.cell p phi).re.1, (G.cell p phi).im.2⟩) :=
  ⟨rfl, rfl, rfl, rfl⟩

theorem dropF_own {p : ℤ × ℤ} (hG : G.FitsF A p) {n : List Bool} (ho : G.Opens A n) (phi : ℝ) :
    (∃ hz b, dropF1 A p (G.cell n phi) = G.own (false :: n) hz b) ∧ ∃ hz b, dropF2 A p (G.cell n phi) = G.own (true :: n) hz b := by
  obtain ⟨c1, c2⟩ := cell_halfF hG ho phi 0
  by_cases hs : SplitReF A p (G.cell n phi)
  · refine ⟨⟨false, false, ?_⟩, false, true, ?_⟩
    · rw [(own_cellF _ 0).1, ← c1]
      unfold dropF1 halfF1
      rw [if_pos hs, if_pos hs]
    · rw [(own_cellF _ 0).2.2.1, ← c2]
      unfold dropF2 halfF2
      rw [if_pos hs, if_pos hs]
  · refine ⟨⟨true, false, ?_⟩, true, true, ?_⟩
    · rw [(own_cellF _ 0).2.1, ← c1]
      unfold dropF1 halfF1
      rw [if_neg hs, if_neg hs]
    · rw [(own_cellF _ 0).2.2.2, ← c2]
      unfold dropF2 halfF2
      rw [if_neg hs, if_neg hs]

/-- An invariant of searches over the tree of rectangles: `VD` are the rectangles evaluated so far, `Done` the completed ones. All rectangles
considered satisfy `R`, their phases `P`. -/
structure TreeInvF {σ : Type} (G : TGrid) (A : FloatOps ℝ) (est : LineEst σ ℝ) (ctx : RCtx ℝ) (stop : Cell ℝ → Prop) (act : Cell ℝ → Py (World σ ℝ) Unit)
    (R : List Bool → Prop) (P : List Bool → ℝ → Prop)
    (Inv : (List Bool → Prop) → (List Bool → Prop) → World σ ℝ → Prop) : Prop where
  up : ∀ {VD Done w}, Inv VD Done w → ∀ q, VD q → ∀ n, n <:+ q → VD n
  sub : ∀ {VD Done w}, Inv VD Done w → ∀ q, Done q → VD q
  node : ∀ {VD Done w w' p phi}, Inv VD Done w → (∀ q, VD q → ¬ p <:+ q) → (∀ m, Done m → ¬ m <:+ p) →
    (∀ n, n <:+ p → n ≠ p → VD n) → R p →
    phaseOfF A est (G.cell p 0).re (G.cell p 0).im ctx w = (.ok phi, w') → Inv (fun q => VD q ∨ q = p) Done w' ∧ P p phi
  kid : ∀ {p phi}, R p → P p phi → ¬ stop (G.cell p phi) → G.Opens A p ∧ ∀ b, R (b :: p)
  act : ∀ {VD Done w w' c}, Inv VD Done w → act c w = (.ok (), w') → Inv VD Done w'
  remove : ∀ {VD Done w m hz b x y}, Inv VD Done w → Done m → (x, y) = G.own m hz b → Inv VD Done { w with cache := w.cache.remove 0 x y }
  finish : ∀ {VD Done w p}, Inv VD Done w → VD p → Inv VD (fun q => Done q ∨ q = p) w

theorem suffix_cons_ne {b : Bool} {p m : List Bool} (h : m <:+ b :: p) (hne : m ≠ b :: p) : m <:+ p :=
  (List.suffix_cons_iff.1 h).resolve_left hne

theorem not_suffix_self {b : Bool} {p : List Bool} : ¬ b :: p <:+ p := fun h => by
  have := h.length_le
  simp at this

theorem kids_apart {b b' : Bool} (hb : b ≠ b') {p r : List Bool} (h1 : b :: p <:+ r) (h2 : b' :: p <:+ r) : False := by
  rcases List.suffix_of_suffix_length_le h1 h2 (by simp) with h
  have := h.eq_of_length (by simp)
  injection this with e
  exact hb e

/-- invariants are preserved by the refinement of a rectangle -/
theorem TreeInvF.run {σ : Type} {est : LineEst σ ℝ} {body : Decide σ ℝ → Decide σ ℝ} {stop : Cell ℝ → Prop} {act : Cell ℝ → Py (World σ ℝ) Unit}
    {Inv : (List Bool → Prop) → (List Bool → Prop) → World σ ℝ → Prop} {R : List Bool → Prop} {P : List Bool → ℝ → Prop}
    (ti : TreeInvF G A est ctx stop act R P Inv) (hG : G.FitsF A ctx.precision)
    (hstop : ∀ (self : Decide σ ℝ) c, (stop c → (body self).at ctx c = act c) ∧
      (¬ stop c → (body self).at ctx c = splitStepF A est self ctx c (dropF1 A ctx.precision c) (dropF2 A ctx.precision c)))
    (limit : ℕ) (p : List Bool) (phi : ℝ) (VD Done : List Bool → Prop) (w w' : World σ ℝ)
    (hI : Inv VD Done w) (hp : VD p) (hopen : ∀ q, VD q → p <:+ q → q = p) (hdone : ∀ m, Done m → ¬ m <:+ p)
    (hob : R p) (hA : P p phi)
    (hr : (dispatch body limit).at ctx (G.cell p phi) w = (.ok (), w')) :
    ∃ VD' Done', Inv VD' Done' w' ∧ (∀ q, VD q → VD' q) ∧ (∀ q, VD' q → VD q ∨ p <:+ q) ∧
      (∀ q, Done' q → Done q ∨ p <:+ q) ∧ Done' p := by
  induction limit generalizing p phi VD Done w w' with
  | zero => simp [dispatch, Decide.at] at hr
  | succ limit ih =>
    have hd : (dispatch body (limit + 1)).at ctx (G.cell p phi) = (body (dispatch body limit)).at ctx (G.cell p phi) := rfl
    rw [hd] at hr
    by_cases hs : stop (G.cell p phi)
    · rw [(hstop _ _).1 hs] at hr
      refine ⟨VD, fun q => Done q ∨ q = p, ti.finish (ti.act hI hr) hp, fun q hq => hq, fun q hq => .inl hq, ?_, .inr rfl⟩
      rintro q (hq | rfl)
      · exact .inl hq
      · exact .inr (List.suffix_refl q)
    · rw [(hstop _ _).2 hs] at hr
      unfold splitStepF at hr
      obtain ⟨ho, hkid⟩ := ti.kid hob hA hs
      have hk1 := fun x => (cell_halfF hG ho phi x).1
      have hk2 := fun x => (cell_halfF hG ho phi x).2
      have o1 := hkid false
      have o2 := hkid true
      obtain ⟨⟨hz1, b1, hdrop1⟩, hz2, b2, hdrop2⟩ := dropF_own hG ho phi
      simp only [hk1, hk2] at hr
      rw [Py.bind_run] at hr
      rcases hp1 : phaseOfF A est (G.cell (false :: p) 0).re (G.cell (false :: p) 0).im ctx w with ⟨_ | phi1, w1⟩ <;> rw [hp1] at hr
      · simp at hr
      dsimp only at hr
      rw [Py.bind_run] at hr
      rcases hr1 : (dispatch body limit).at ctx (G.cell (false :: p) phi1) w1 with ⟨_ | _, w2⟩ <;> rw [hr1] at hr
      · simp at hr
      dsimp only at hr
      rw [Py.bind_run] at hr
      simp only [cacheRemove, Py.modify_run] at hr
      rw [Py.bind_run] at hr
      rcases hp2 : phaseOfF A est (G.cell (true :: p) 0).re (G.cell (true :: p) 0).im ctx
        { w2 with cache := w2.cache.remove 0 (dropF1 A ctx.precision (G.cell p phi)).1 (dropF1 A ctx.precision (G.cell p phi)).2 }
        with ⟨_ | phi2, w3⟩ <;> rw [hp2] at hr
      · simp at hr
      dsimp only at hr
      rw [Py.bind_run] at hr
      rcases hr2 : (dispatch body limit).at ctx (G.cell (true :: p) phi2) w3 with ⟨_ | _, w4⟩ <;> rw [hr2] at hr
      · simp at hr
      simp only [Py.modify_run, Prod.mk.injEq, true_and] at hr
      subst hr
      -- facts about ancestors
      have dk : ∀ b, p <:+ b :: p := fun b => List.suffix_cons b p
      have upk : ∀ b, ∀ V : List Bool → Prop, (∀ q, VD q → V q) → ∀ n, n <:+ b :: p → n ≠ b :: p → V n := by
        intro b V hV n hn hne
        exact hV _ (ti.up hI p hp n (suffix_cons_ne hn hne))
      have nodesc : ∀ b, ∀ q, VD q → ¬ b :: p <:+ q := by
        intro b q hq hcq
        have := hopen q hq ((dk b).trans hcq)
        subst this
        exact not_suffix_self hcq
      have noanc : ∀ b, ∀ m, Done m → ¬ m <:+ b :: p := by
        intro b m hm hmc
        by_cases hk : m = b :: p
        · subst hk
          exact nodesc b _ (ti.sub hI _ hm) (List.suffix_refl _)
        · exact hdone m hm (suffix_cons_ne hmc hk)
      -- first half
      obtain ⟨i1, acc1⟩ := ti.node hI (nodesc false) (noanc false) (upk false VD fun q hq => hq) o1 hp1
      obtain ⟨VD2, Done2, i2, j1, j2, j3, j4⟩ := ih (false :: p) phi1 _ _ w1 w2 i1 (.inr rfl)
        (by
          rintro q (hq | rfl) hdq
          · exact absurd hdq (nodesc false q hq)
          · rfl)
        (noanc false) o1 acc1 hr1
      have i3 := ti.remove (x := (dropF1 A ctx.precision (G.cell p phi)).1) (y := (dropF1 A ctx.precision (G.cell p phi)).2) i2 j4 hdrop1
      have new2 : ∀ q, VD2 q → ¬ true :: p <:+ q := by
        intro q hq hdq
        rcases j2 q hq with (hq | rfl) | hq
        · exact nodesc true q hq hdq
        · exact kids_apart (by simp) (List.suffix_refl _) hdq
        · exact kids_apart (by simp) hq hdq
      have done2 : ∀ m, Done2 m → ¬ m <:+ true :: p := by
        intro m hm hmc
        rcases j3 m hm with hm | hm
        · exact noanc true m hm hmc
        · exact kids_apart (by simp) (hm.trans hmc) (List.suffix_refl _)
      -- second half
      obtain ⟨i4, acc2⟩ := ti.node i3 new2 done2 (upk true VD2 fun q hq => j1 q (.inl hq)) o2 hp2
      obtain ⟨VD4, Done4, i5, l1, l2, l3, l4⟩ := ih (true :: p) phi2 _ _ w3 w4 i4 (.inr rfl)
        (by
          rintro q (hq | rfl) hdq
          · exact absurd hdq (new2 q hq)
          · rfl)
        done2 o2 acc2 hr2
      have i6 := ti.remove (x := (dropF2 A ctx.precision (G.cell p phi)).1) (y := (dropF2 A ctx.precision (G.cell p phi)).2) i5 l4 hdrop2
      have p4 : VD4 p := l1 p (.inl (j1 p (.inl hp)))
      refine ⟨VD4, fun q => Done4 q ∨ q = p, ti.finish i6 p4, fun q hq => l1 q (.inl (j1 q (.inl hq))), ?_, ?_, .inr rfl⟩
      · intro q hq
        rcases l2 q hq with (hq | rfl) | hq
        · rcases j2 q hq with (hq | rfl) | hq
          · exact .inl hq
          · exact .inr (dk _)
          · exact .inr ((dk _).trans hq)
        · exact .inr (dk _)
        · exact .inr ((dk _).trans hq)
      · rintro q (hq | rfl)
        · rcases l3 q hq with hq | hq
          · rcases j3 q hq with hq | hq
            · exact .inl hq
            · exact .inr ((dk _).trans hq)
          · exact .inr ((dk _).trans hq)
        · exact .inr (List.suffix_refl q)

/-- the evaluated rectangle is one of those looked at, and its phase accurate -/
def AccurateF (G : TGrid) (T : Cx ℝ → Cx ℝ → ℝ) (N : ℕ) (δ γ u eta : ℝ) (R : List Bool → Prop) (c : Cell ℝ) : Prop :=
  ∃ q, c = G.cell q c.phi ∧ R q ∧ G.Near T N δ γ u eta q c.phi

theorem dispatchF_acc (F : FineLine A u S N δ γ ctx.f D T h eta) (hh : 0 ≤ h) (hG : G.FitsF A ctx.precision)
    (hest : BoundaryHits (strictLine (sumLineF A S)) ctx)
    {body : Decide (SumState ℝ) ℝ → Decide (SumState ℝ) ℝ} {stop : Cell ℝ → Prop} {act : Cell ℝ → Py (World (SumState ℝ) ℝ) Unit}
    (hstop : ∀ (self : Decide (SumState ℝ) ℝ) c, (stop c → (body self).at ctx c = act c) ∧
      (¬ stop c → (body self).at ctx c = splitStepF A (strictLine (sumLineF A S)) self ctx c (dropF1 A ctx.precision c) (dropF2 A ctx.precision c)))
    {Q : List Bool → Prop}
    (hkid : ∀ p phi, Q p → G.Near T N δ γ u eta p phi → ¬ stop (G.cell p phi) → G.Opens A p ∧ ∀ b, Q (b :: p))
    (hact : Quiet act) {P : Root ℝ → Prop} (hgood : AddsGood P act)
    (hready : ∀ p, Q p → G.Ready A S u R h D p)
    (limit : ℕ) (p : List Bool) (phi : ℝ) (VD Done : List Bool → Prop) (w w' : World (SumState ℝ) ℝ)
    (hI : SumInvE G S ctx.f D T N δ γ h eta VD VD Done w) (hp : VD p) (hopen : ∀ q, VD q → p <:+ q → q = p) (hdone : ∀ m, Done m → ¬ m <:+ p)
    (hob : Q p) (hA : G.Near T N δ γ u eta p phi)
    (hr : (dispatch body limit).at ctx (G.cell p phi) w = (.ok (), w')) :
    ∃ VD' Done', SumInvE G S ctx.f D T N δ γ h eta VD' VD' Done' w' ∧ (∀ q, VD q → VD' q) ∧ (∀ q, VD' q → VD q ∨ p <:+ q) ∧
      (∀ q, Done' q → Done q ∨ p <:+ q) ∧ Done' p ∧
      (∃ B, w'.added = w.added ++ B ∧ ∀ r ∈ B, P r) ∧ ∃ L, w'.log = w.log ++ L ∧ ∀ c ∈ L, AccurateF G T N δ γ u eta Q c := by
  have ti : TreeInvF G A (strictLine (sumLineF A S)) ctx stop act Q (G.Near T N δ γ u eta) (fun VD Done w1 => SumInvE G S ctx.f D T N δ γ h eta VD VD Done w1 ∧
      (∃ B, w1.added = w.added ++ B ∧ ∀ r ∈ B, P r) ∧ ∃ L, w1.log = w.log ++ L ∧ ∀ c ∈ L, AccurateF G T N δ γ u eta Q c) := by
    refine ⟨fun h => h.1.up, fun h => h.1.done, ?_, fun h1 h2 h3 => hkid _ _ h1 h2 h3, ?_, fun h hm he => ⟨h.1.remove hm _ _ he, h.2⟩, fun h hp => ⟨h.1.addDone hp, h.2⟩⟩
    · rintro VD Done w1 w2 p phi ⟨i1, i2, L, i3, i4⟩ h1 h2 h3 h4 h5
      obtain ⟨a1, a2, a3⟩ := node_invF F hh h1 h2 h3 (hready p h4) i1 h5
      refine ⟨⟨a1, by rw [a3]; exact i2, L ++ [G.cell p phi], ?_, ?_⟩, a2⟩
      · rw [(phaseOfF_ok hest h5).1, i3]
        simp [TGrid.cell]
      · intro c hc
        rcases List.mem_append.1 hc with hc | hc
        · exact i4 c hc
        · rw [List.mem_singleton] at hc
          subst hc
          exact ⟨p, rfl, h4, a2⟩
    · rintro VD Done w1 w2 c ⟨i1, ⟨B, i2, i5⟩, L, i3, i4⟩ h1
      obtain ⟨a1, a2, a3, a4⟩ := hact _ _ _ h1
      obtain ⟨B', b1, b2⟩ := hgood _ _ _ h1
      refine ⟨i1.congr a1 a2 (a3 i1.fuse), ⟨B ++ B', by rw [b1, i2, List.append_assoc], ?_⟩, L, by rw [a4, i3], i4⟩
      intro r hr
      rcases List.mem_append.1 hr with hr | hr
      · exact i5 r hr
      · exact b2 r hr
  obtain ⟨VD', Done', ⟨b1, b2, b3⟩, b4, b5, b6, b7⟩ := ti.run hG hstop limit p phi VD Done w w' ⟨hI, ⟨[], by simp⟩, [], by simp⟩ hp hopen hdone hob hA hr
  exact ⟨VD', Done', b1, b4, b5, b6, b7, b2, b3⟩

end PyZeal
