import Verif.Proof.SumInv
import Verif.Proof.Exact

/-! # Accuracy of all phases in a search with the summation estimator -/

set_option linter.unusedSectionVars false

namespace PyZeal
open Spec

variable {G : Grid} {S : Cx ℝ → Prop} {T : Cx ℝ → Cx ℝ → ℝ} {h eta : ℝ} {cfg : SumCfg ℝ} {ctx : RCtx ℝ} {VD Done : BoxAddr → Prop}

/-- the rectangle of a node -/
noncomputable def Grid.cell (G : Grid) (p : BoxAddr) (phi : ℝ) : Cell ℝ :=
  ⟨(G.elo p true, G.ehi p true), (G.elo p false, G.ehi p false), phi⟩

theorem Grid.edges_eq (G : Grid) (p : BoxAddr) (phi : ℝ) : edges (G.cell p phi).re (G.cell p phi).im =
    [(true, false), (false, true), (true, true), (false, false)].map fun e => G.own p e.1 e.2 := rfl

/-- the total change round a rectangle -/
noncomputable def Grid.around (G : Grid) (T : Cx ℝ → Cx ℝ → ℝ) (p : BoxAddr) : ℝ :=
  T (G.own p true false).1 (G.own p true false).2 + T (G.own p false true).1 (G.own p false true).2 +
    T (G.own p true true).1 (G.own p true true).2 + T (G.own p false false).1 (G.own p false false).2

theorem sumEdges_inv (su : SumSetup G S T h eta cfg ctx) {p : BoxAddr}
    (hnew : ∀ q, VD q → ¬ G.Desc p q) (hdone : ∀ m, Done m → ¬ G.Desc m p) (hS : G.Clear S p) (es : List (Bool × Bool))
    {phi : Cx ℝ} {w w' : World (SumState ℝ) ℝ} (hI : SumInv G S T h eta (fun q => VD q ∨ q = p) VD Done w) {m : Cx ℝ}
    (hr : sumEdges (strictLine (sumLine cfg)) 0 ctx (es.map fun e => G.own p e.1 e.2) phi w = (.ok m, w')) :
    SumInv G S T h eta (fun q => VD q ∨ q = p) VD Done w' ∧
    |m.re - phi.re - (es.map fun e => T (G.own p e.1 e.2).1 (G.own p e.1 e.2).2).sum| ≤ 2 * eta * es.length ∧
    (∀ i ∈ es, ∀ e, (e = G.own p i.1 i.2 ∨ e = (G.own p i.1 i.2).swap) → Has w'.cache e ∨ DoneEdge G Done e) ∧
    (∀ e, Has w.cache e → Has w'.cache e) ∧ w'.added = w.added := by
  induction es generalizing phi w with
  | nil =>
    simp only [List.map_nil, sumEdges, Py.pure_run, Prod.mk.injEq, Except.ok.injEq] at hr
    obtain ⟨rfl, rfl⟩ := hr
    exact ⟨hI, by simp, by simp, fun e he => he, rfl⟩
  | cons i es ih =>
    simp only [List.map_cons, sumEdges, Py.bind_run] at hr
    rcases he : edgeMoment (strictLine (sumLine cfg)) 0 ctx (G.own p i.1 i.2) w with ⟨_ | d, w1⟩ <;> rw [he] at hr
    · simp at hr
    dsimp only at hr
    obtain ⟨a1, ⟨_, a2⟩, a3, a4, a5⟩ := edge_inv su hnew hdone hS i.1 i.2 hI he
    obtain ⟨b1, b2, b3, b4, b5⟩ := ih a1 hr
    refine ⟨b1, ?_, ?_, fun e he => b4 e (a4 e he), b5.trans a5⟩
    · simp only [List.map_cons, List.sum_cons, List.length_cons, Nat.cast_add, Nat.cast_one, Cx.add_re] at b2 ⊢
      have := abs_add_le (d.re - T (G.own p i.1 i.2).1 (G.own p i.1 i.2).2)
        (m.re - (phi.re + d.re) - (es.map fun e => T (G.own p e.1 e.2).1 (G.own p e.1 e.2).2).sum)
      have e : m.re - phi.re - (T (G.own p i.1 i.2).1 (G.own p i.1 i.2).2 +
          (es.map fun e => T (G.own p e.1 e.2).1 (G.own p e.1 e.2).2).sum) = (d.re - T (G.own p i.1 i.2).1 (G.own p i.1 i.2).2) +
        (m.re - (phi.re + d.re) - (es.map fun e => T (G.own p e.1 e.2).1 (G.own p e.1 e.2).2).sum) := by ring
      rw [e]
      linarith
    · intro j hj e hje
      rcases List.mem_cons.1 hj with rfl | hj
      · rcases a3 e hje with hh | hh
        · exact .inl (b4 _ hh)
        · exact .inr hh
      · exact b3 j hj e hje

theorem SumInv.congr {VB : BoxAddr → Prop} {w w' : World (SumState ℝ) ℝ} (hI : SumInv G S T h eta VB VD Done w) (h1 : w'.cache = w.cache)
    (h2 : w'.est = w.est) (h3 : w'.fuse = none) : SumInv G S T h eta VB VD Done w' := by
  refine ⟨by rw [h1]; exact hI.wf, h3, hI.up, hI.done, by rw [h2]; exact hI.line, by rw [h1]; exact hI.val, ?_, ?_⟩
  · rw [h1]; exact hI.kept
  · rw [h1]; exact hI.sym

/-- evaluation of a rectangle -/
theorem node_inv (su : SumSetup G S T h eta cfg ctx) {p : BoxAddr}
    (hnew : ∀ q, VD q → ¬ G.Desc p q) (hdone : ∀ m, Done m → ¬ G.Desc m p) (hup : ∀ k, k < p.k → VD (G.anc k p)) (hS : G.Clear S p)
    {w w' : World (SumState ℝ) ℝ} (hI : SumInv G S T h eta VD VD Done w) {phi : ℝ}
    (hr : phaseOf (strictLine (sumLine cfg)) (G.cell p 0).re (G.cell p 0).im ctx w = (.ok phi, w')) :
    SumInv G S T h eta (fun q => VD q ∨ q = p) (fun q => VD q ∨ q = p) Done w' ∧ |phi - G.around T p| ≤ 8 * eta ∧ w'.added = w.added := by
  unfold phaseOf calcMoment at hr
  rw [Py.bind_run, G.edges_eq] at hr
  have hI0 : SumInv G S T h eta (fun q => VD q ∨ q = p) VD Done w :=
    ⟨hI.wf, hI.fuse, hI.up, hI.done, fun hz z x s v hv => by
      obtain ⟨q, b, q1, q2⟩ := hI.line hz z x s v hv
      exact ⟨q, b, .inl q1, q2⟩, hI.val, hI.kept, hI.sym⟩
  rcases hm : sumEdges (strictLine (sumLine cfg)) 0 ctx
    ([(true, false), (false, true), (true, true), (false, false)].map fun e => G.own p e.1 e.2) 0 w with ⟨_ | m, w1⟩ <;> rw [hm] at hr
  · simp at hr
  simp only [Py.bind_run, Py.modify_run, Py.pure_run, Prod.mk.injEq, Except.ok.injEq] at hr
  obtain ⟨rfl, rfl⟩ := hr
  obtain ⟨a1, a2, a3, a4, a5⟩ := sumEdges_inv su hnew hdone hS _ hI0 hm
  refine ⟨⟨a1.wf, a1.fuse, ?_, fun q hq => .inl (a1.done q hq), a1.line, a1.val, ?_, a1.sym⟩, ?_, a5⟩
  · rintro q (hq | rfl) k hk
    · exact .inl (a1.up q hq k hk)
    · rcases hk.lt_or_eq with hk | rfl
      · exact .inl (hup k hk)
      · exact .inr (G.anc_self q)
  · rintro q (hq | rfl) hz b e he
    · exact a1.kept q hq hz b e he
    · exact a3 (hz, b) (by cases hz <;> cases b <;> simp) e he
  · simp only [Cx.zero_re, sub_zero, List.map_cons, List.map_nil, List.sum_cons, List.sum_nil, List.length_cons, List.length_nil] at a2
    have e : m.re - G.around T p = m.re - (T (G.own p true false).1 (G.own p true false).2 + (T (G.own p false true).1 (G.own p false true).2 +
      (T (G.own p true true).1 (G.own p true true).2 + (T (G.own p false false).1 (G.own p false false).2 + 0)))) := by
      unfold Grid.around; ring
    rw [e]
    refine a2.trans ?_
    norm_num
    linarith

/-- removing an edge of a completed rectangle -/
theorem SumInv.remove {w : World (SumState ℝ) ℝ} (hI : SumInv G S T h eta VD VD Done w) {m : BoxAddr} (hm : Done m) (hz b : Bool) {x y : Cx ℝ}
    (he : (x, y) = G.own m hz b) : SumInv G S T h eta VD VD Done { w with cache := w.cache.remove 0 x y } := by
  have hHas : ∀ e, Has w.cache e → Has (w.cache.remove 0 x y) e ∨ DoneEdge G Done e := by
    rintro e ⟨v, hv⟩
    by_cases hxy : e = (x, y)
    · exact .inr ⟨m, hm, hz, b, hxy.trans he⟩
    · left
      refine ⟨v, ?_⟩
      rw [EstCache.look_remove hI.wf, if_neg]
      · exact hv
      · rintro ⟨_, rfl, rfl⟩; exact hxy rfl
  have hsub : ∀ a c v, (w.cache.remove 0 x y).look 0 a c = some v → w.cache.look 0 a c = some v := by
    intro a c v hv
    rw [EstCache.look_remove hI.wf] at hv
    split at hv
    · simp at hv
    · exact hv
  refine ⟨hI.wf.remove _ _ _, hI.fuse, hI.up, hI.done, hI.line, fun a c v hv => hI.val a c v (hsub _ _ _ hv), ?_, ?_⟩
  · intro q hq hz' b' e he
    rcases hI.kept q hq hz' b' e he with hh | hh
    · exact hHas e hh
    · exact .inr hh
  · rintro e ⟨v, hv⟩
    rcases hI.sym e ⟨v, hsub _ _ _ hv⟩ with hh | hh
    · exact hHas _ hh
    · exact .inr hh

theorem SumInv.addDone {w : World (SumState ℝ) ℝ} (hI : SumInv G S T h eta VD VD Done w) {p : BoxAddr} (hp : VD p) :
    SumInv G S T h eta VD VD (fun q => Done q ∨ q = p) w := by
  have hd : ∀ e, DoneEdge G Done e → DoneEdge G (fun q => Done q ∨ q = p) e := by
    rintro e ⟨m, hm, r⟩; exact ⟨m, .inl hm, r⟩
  refine ⟨hI.wf, hI.fuse, hI.up, ?_, hI.line, hI.val, ?_, ?_⟩
  · rintro q (hq | rfl)
    · exact hI.done q hq
    · exact hp
  · intro q hq hz b e he; exact (hI.kept q hq hz b e he).imp_right (hd e)
  · intro e he; exact (hI.sym e he).imp_right (hd _)

/-! ## The grid of a search -/

/-- number of halvings of the two sides after `k` steps -/
noncomputable def levels (p : ℤ × ℤ) (W H : ℝ) : ℕ → ℕ × ℕ
  | 0 => (0, 0)
  | k + 1 =>
    let n := levels p W H k
    if (W / 2 ^ n.1) / eps10 ℝ p.1 > (H / 2 ^ n.2) / eps10 ℝ p.2 then (n.1 + 1, n.2) else (n.1, n.2 + 1)

/-- the grid of a search -/
noncomputable def gridOf (p : ℤ × ℤ) (re im : ℝ × ℝ) (hre : re.1 < re.2) (him : im.1 < im.2) : Grid where
  X := re.1
  Y := im.1
  W := re.2 - re.1
  H := im.2 - im.1
  splits := levels p (re.2 - re.1) (im.2 - im.1)
  posW := by linarith
  posH := by linarith
  mono := by
    intro k
    simp only [levels]
    split <;> simp

/-- the grid halves its rectangles as the search does -/
structure Grid.Fits (G : Grid) (p : ℤ × ℤ) : Prop where
  re : ∀ k, (G.W / 2 ^ (G.splits k).1) / eps10 ℝ p.1 > (G.H / 2 ^ (G.splits k).2) / eps10 ℝ p.2 →
    G.splits (k + 1) = ((G.splits k).1 + 1, (G.splits k).2)
  im : ∀ k, ¬ (G.W / 2 ^ (G.splits k).1) / eps10 ℝ p.1 > (G.H / 2 ^ (G.splits k).2) / eps10 ℝ p.2 →
    G.splits (k + 1) = ((G.splits k).1, (G.splits k).2 + 1)

theorem gridOf_fits (p : ℤ × ℤ) (re im : ℝ × ℝ) (hre : re.1 < re.2) (him : im.1 < im.2) : (gridOf p re im hre him).Fits p := by
  constructor <;> intro k hk
  · change levels p (re.2 - re.1) (im.2 - im.1) (k + 1) = _
    unfold levels
    dsimp only
    exact if_pos hk
  · change levels p (re.2 - re.1) (im.2 - im.1) (k + 1) = _
    unfold levels
    dsimp only
    exact if_neg hk

theorem Grid.width_re (G : Grid) (n : BoxAddr) : G.ehi n true - G.elo n true = G.W / 2 ^ (G.splits n.k).1 := by
  simp only [Grid.ehi, Grid.elo, Grid.crd, if_true]
  push_cast; ring

theorem Grid.width_im (G : Grid) (n : BoxAddr) : G.ehi n false - G.elo n false = G.H / 2 ^ (G.splits n.k).2 := by
  simp only [Grid.ehi, Grid.elo, Grid.crd, Bool.false_eq_true, if_false]
  push_cast; ring

/-- children -/
def BoxAddr.kid (p : BoxAddr) (re : Bool) (b : Bool) : BoxAddr :=
  if re then ⟨p.k + 1, 2 * p.i + b.toNat, p.j⟩ else ⟨p.k + 1, p.i, 2 * p.j + b.toNat⟩

theorem Grid.splitRe_iff (G : Grid) (p : ℤ × ℤ) (n : BoxAddr) (phi : ℝ) : SplitRe p (G.cell n phi) ↔
    (G.W / 2 ^ (G.splits n.k).1) / eps10 ℝ p.1 > (G.H / 2 ^ (G.splits n.k).2) / eps10 ℝ p.2 := by
  unfold SplitRe Grid.cell
  dsimp only
  rw [G.width_re, G.width_im]

theorem kid_k (p : BoxAddr) (re b : Bool) : (p.kid re b).k = p.k + 1 := by unfold BoxAddr.kid; split <;> rfl

theorem desc_kid (hG : G.Fits ctx.precision) (p : BoxAddr) (phi : ℝ) (b : Bool) :
    G.Desc p (p.kid (decide (SplitRe ctx.precision (G.cell p phi))) b) := by
  refine ⟨by rw [kid_k]; omega, ?_⟩
  unfold Grid.anc
  have hb : b.toNat < 2 := by cases b <;> simp
  by_cases hs : SplitRe ctx.precision (G.cell p phi)
  · have hl := hG.re p.k ((G.splitRe_iff _ _ _).1 hs)
    simp only [hs, decide_true, BoxAddr.kid, if_true, Grid.num, hl, Bool.false_eq_true, if_false]
    have : (2 * p.i + b.toNat) / 2 = p.i := by omega
    simp [this]
  · have hl := hG.im p.k (fun e => hs ((G.splitRe_iff _ _ _).2 e))
    simp only [hs, decide_false, BoxAddr.kid, if_true, Grid.num, hl, Bool.false_eq_true, if_false]
    have : (2 * p.j + b.toNat) / 2 = p.j := by omega
    simp [this]

theorem cell_half1 (hG : G.Fits ctx.precision) (p : BoxAddr) (phi phi1 : ℝ) :
    half1 ctx.precision (G.cell p phi) phi1 = G.cell (p.kid (decide (SplitRe ctx.precision (G.cell p phi))) false) phi1 := by
  unfold half1
  by_cases hs : SplitRe ctx.precision (G.cell p phi)
  · have hl := hG.re p.k ((G.splitRe_iff _ _ _).1 hs)
    rw [if_pos hs, decide_eq_true hs]
    simp only [BoxAddr.kid, if_true, Grid.cell, Grid.elo, Grid.ehi, Grid.crd, BoxAddr.at, hl, Bool.false_eq_true, if_false,
      Bool.toNat_false, Cell.mk.injEq, Prod.mk.injEq, and_true]
    push_cast
    exact ⟨by field_simp; ring, by field_simp; ring⟩
  · have hl := hG.im p.k (fun e => hs ((G.splitRe_iff _ _ _).2 e))
    rw [if_neg hs, decide_eq_false hs]
    simp only [BoxAddr.kid, if_true, Grid.cell, Grid.elo, Grid.ehi, Grid.crd, BoxAddr.at, hl, Bool.false_eq_true, if_false,
      Bool.toNat_false, Cell.mk.injEq, Prod.mk.injEq, and_true, true_and]
    push_cast
    exact ⟨by field_simp; ring, by field_simp; ring⟩

theorem cell_half2 (hG : G.Fits ctx.precision) (p : BoxAddr) (phi phi1 : ℝ) :
    half2 ctx.precision (G.cell p phi) phi1 = G.cell (p.kid (decide (SplitRe ctx.precision (G.cell p phi))) true) phi1 := by
  unfold half2
  by_cases hs : SplitRe ctx.precision (G.cell p phi)
  · have hl := hG.re p.k ((G.splitRe_iff _ _ _).1 hs)
    rw [if_pos hs, decide_eq_true hs]
    simp only [BoxAddr.kid, if_true, Grid.cell, Grid.elo, Grid.ehi, Grid.crd, BoxAddr.at, hl, Bool.false_eq_true, if_false,
      Bool.toNat_true, Cell.mk.injEq, Prod.mk.injEq, and_true]
    push_cast
    exact ⟨by field_simp; ring, by field_simp; ring⟩
  · have hl := hG.im p.k (fun e => hs ((G.splitRe_iff _ _ _).2 e))
    rw [if_neg hs, decide_eq_false hs]
    simp only [BoxAddr.kid, if_true, Grid.cell, Grid.elo, Grid.ehi, Grid.crd, BoxAddr.at, hl, Bool.false_eq_true, if_false,
      Bool.toNat_true, Cell.mk.injEq, Prod.mk.injEq, and_true, true_and]
    push_cast
    exact ⟨by field_simp; ring, by field_simp; ring⟩

theorem own_cell (p : BoxAddr) (phi : ℝ) :
    G.own p false false = (⟨(G.cell p phi).re.1, (G.cell p phi).im.2⟩, ⟨(G.cell p phi).re.1, (G.cell p phi).im.1⟩) ∧
    G.own p true false = (⟨(G.cell p phi).re.1, (G.cell p phi).im.1⟩, ⟨(G.cell p phi).re.2, (G.cell p phi).im.1⟩) ∧
    G.own p false true = (⟨(G.cell p phi).re.2, (G.cell p phi).im.1⟩, ⟨(G.cell p phi).re.2, (G.cell p phi).im.2⟩) ∧
    G.own p true true = (⟨(G.cell p phi).re.2, (G.cell p phi).im.2⟩, ⟨(G.cell p phi).re.1, (G.cell p phi).im.2⟩) :=
  ⟨rfl, rfl, rfl, rfl⟩

theorem drop1_own (hG : G.Fits ctx.precision) (p : BoxAddr) (phi : ℝ) : ∃ hz b, dropEdge1 ctx.precision (G.cell p phi) =
    G.own (p.kid (decide (SplitRe ctx.precision (G.cell p phi))) false) hz b := by
  have hc := cell_half1 hG p phi 0
  by_cases hs : SplitRe ctx.precision (G.cell p phi)
  · refine ⟨false, false, ?_⟩
    rw [(own_cell _ 0).1, ← hc]
    unfold dropEdge1 half1
    rw [if_pos hs, if_pos hs]
  · refine ⟨true, false, ?_⟩
    rw [(own_cell _ 0).2.1, ← hc]
    unfold dropEdge1 half1
    rw [if_neg hs, if_neg hs]

theorem drop2_own (hG : G.Fits ctx.precision) (p : BoxAddr) (phi : ℝ) : ∃ hz b, dropEdge2 ctx.precision (G.cell p phi) =
    G.own (p.kid (decide (SplitRe ctx.precision (G.cell p phi))) true) hz b := by
  have hc := cell_half2 hG p phi 0
  by_cases hs : SplitRe ctx.precision (G.cell p phi)
  · refine ⟨false, true, ?_⟩
    rw [(own_cell _ 0).2.2.1, ← hc]
    unfold dropEdge2 half2
    rw [if_pos hs, if_pos hs]
  · refine ⟨true, true, ?_⟩
    rw [(own_cell _ 0).2.2.2, ← hc]
    unfold dropEdge2 half2
    rw [if_neg hs, if_neg hs]

/-- the halves of a reached rectangle -/
theorem reached_halves {p : ℤ × ℤ} {zeros : List (Cx ℝ)} {reRan imRan : ℝ × ℝ} {c : Cell ℝ} (h : Reached p zeros reRan imRan c.re c.im)
    (hs : ¬ Cell.Small p c) (hc : 1 ≤ Cell.count c zeros) (phi : ℝ) : Reached p zeros reRan imRan (half1 p c phi).re (half1 p c phi).im ∧
      Reached p zeros reRan imRan (half2 p c phi).re (half2 p c phi).im := by
  unfold half1 half2
  by_cases hd : SplitRe p c
  · rw [if_pos hd, if_pos hd]
    exact ⟨.left h hs hc hd, .right h hs hc hd⟩
  · rw [if_neg hd, if_neg hd]
    exact ⟨.lower h hs hc (not_lt.1 hd), .upper h hs hc (not_lt.1 hd)⟩

/-- An invariant of searches over the tree of rectangles: `VD` are the rectangles evaluated so far, `Done` the completed ones. All rectangles
considered satisfy `R`, their phases `A`. -/
structure TreeInv {σ : Type} (G : Grid) (est : LineEst σ ℝ) (ctx : RCtx ℝ) (stop : Cell ℝ → Prop) (act : Cell ℝ → Py (World σ ℝ) Unit)
    (R : BoxAddr → Prop) (A : BoxAddr → ℝ → Prop)
    (Inv : (BoxAddr → Prop) → (BoxAddr → Prop) → World σ ℝ → Prop) : Prop where
  up : ∀ {VD Done w}, Inv VD Done w → ∀ q, VD q → ∀ k, k ≤ q.k → VD (G.anc k q)
  sub : ∀ {VD Done w}, Inv VD Done w → ∀ q, Done q → VD q
  node : ∀ {VD Done w w' p phi}, Inv VD Done w → (∀ q, VD q → ¬ G.Desc p q) → (∀ m, Done m → ¬ G.Desc m p) →
    (∀ k, k < p.k → VD (G.anc k p)) → R p →
    phaseOf est (G.cell p 0).re (G.cell p 0).im ctx w = (.ok phi, w') → Inv (fun q => VD q ∨ q = p) Done w' ∧ A p phi
  kid : ∀ {p phi}, R p → A p phi → ¬ stop (G.cell p phi) → ∀ b, R (p.kid (decide (SplitRe ctx.precision (G.cell p phi))) b)
  act : ∀ {VD Done w w' c}, Inv VD Done w → act c w = (.ok (), w') → Inv VD Done w'
  remove : ∀ {VD Done w m hz b x y}, Inv VD Done w → Done m → (x, y) = G.own m hz b → Inv VD Done { w with cache := w.cache.remove 0 x y }
  finish : ∀ {VD Done w p}, Inv VD Done w → VD p → Inv VD (fun q => Done q ∨ q = p) w

/-- invariants are preserved by the refinement of a rectangle -/
theorem TreeInv.run {σ : Type} {est : LineEst σ ℝ} {body : Decide σ ℝ → Decide σ ℝ} {stop : Cell ℝ → Prop} {act : Cell ℝ → Py (World σ ℝ) Unit}
    {Inv : (BoxAddr → Prop) → (BoxAddr → Prop) → World σ ℝ → Prop} {R : BoxAddr → Prop} {A : BoxAddr → ℝ → Prop}
    (ti : TreeInv G est ctx stop act R A Inv) (hG : G.Fits ctx.precision) (hstop : Stops est ctx body stop act)
    (limit : ℕ) (p : BoxAddr) (phi : ℝ) (VD Done : BoxAddr → Prop) (w w' : World σ ℝ)
    (hI : Inv VD Done w) (hp : VD p) (hopen : ∀ q, VD q → G.Desc p q → q = p) (hdone : ∀ m, Done m → ¬ G.Desc m p)
    (hob : R p) (hA : A p phi)
    (hr : (dispatch body limit).at ctx (G.cell p phi) w = (.ok (), w')) :
    ∃ VD' Done', Inv VD' Done' w' ∧ (∀ q, VD q → VD' q) ∧ (∀ q, VD' q → VD q ∨ G.Desc p q) ∧
      (∀ q, Done' q → Done q ∨ G.Desc p q) ∧ Done' p := by
  induction limit generalizing p phi VD Done w w' with
  | zero => simp [dispatch, Decide.at] at hr
  | succ limit ih =>
    have hd : (dispatch body (limit + 1)).at ctx (G.cell p phi) = (body (dispatch body limit)).at ctx (G.cell p phi) := rfl
    rw [hd] at hr
    by_cases hs : stop (G.cell p phi)
    · rw [(hstop _ _).1 hs] at hr
      refine ⟨VD, fun q => Done q ∨ q = p, ti.finish (ti.act hI hr) hp, fun q hq => hq, fun q hq => .inl hq, ?_, .inr rfl⟩
      rintro q (hq | rfl)
      · exact .inl hq
      · exact .inr (Grid.Desc.refl G q)
    · rw [(hstop _ _).2 hs] at hr
      unfold splitStep at hr
      rw [cell_half1 hG, cell_half2 hG] at hr
      have o1 := ti.kid hob hA hs false
      have o2 := ti.kid hob hA hs true
      obtain ⟨hz1, b1, hdrop1⟩ := drop1_own hG p phi
      obtain ⟨hz2, b2, hdrop2⟩ := drop2_own hG p phi
      have dk1 := desc_kid (ctx := ctx) hG p phi false
      have dk2 := desc_kid (ctx := ctx) hG p phi true
      have kk : ∀ b, (p.kid (decide (SplitRe ctx.precision (G.cell p phi))) b).k = p.k + 1 := fun b => kid_k _ _ _
      have kne : p.kid (decide (SplitRe ctx.precision (G.cell p phi))) false ≠ p.kid (decide (SplitRe ctx.precision (G.cell p phi))) true := by
        unfold BoxAddr.kid
        split <;> simp
      have hk1 := fun phi1 => cell_half1 (ctx := ctx) hG p phi phi1
      have hk2 := fun phi1 => cell_half2 (ctx := ctx) hG p phi phi1
      have k1 := kk false
      have k2 := kk true
      generalize p.kid (decide (SplitRe ctx.precision (G.cell p phi))) false = c1 at *
      generalize p.kid (decide (SplitRe ctx.precision (G.cell p phi))) true = c2 at *
      clear kk
      simp only [hk1, hk2] at hr
      rw [Py.bind_run] at hr
      rcases hp1 : phaseOf est (G.cell c1 0).re (G.cell c1 0).im ctx w with ⟨_ | phi1, w1⟩ <;> rw [hp1] at hr
      · simp at hr
      dsimp only at hr
      rw [Py.bind_run] at hr
      rcases hr1 : (dispatch body limit).at ctx (G.cell c1 phi1) w1 with ⟨_ | _, w2⟩ <;> rw [hr1] at hr
      · simp at hr
      dsimp only at hr
      rw [Py.bind_run] at hr
      simp only [cacheRemove, Py.modify_run] at hr
      rw [Py.bind_run] at hr
      rcases hp2 : phaseOf est (G.cell c2 0).re (G.cell c2 0).im ctx
        { w2 with cache := w2.cache.remove 0 (dropEdge1 ctx.precision (G.cell p phi)).1 (dropEdge1 ctx.precision (G.cell p phi)).2 }
        with ⟨_ | phi2, w3⟩ <;> rw [hp2] at hr
      · simp at hr
      dsimp only at hr
      rw [Py.bind_run] at hr
      rcases hr2 : (dispatch body limit).at ctx (G.cell c2 phi2) w3 with ⟨_ | _, w4⟩ <;> rw [hr2] at hr
      · simp at hr
      simp only [Py.modify_run, Prod.mk.injEq, true_and] at hr
      subst hr
      -- facts about ancestors
      have upk : ∀ c, G.Desc p c → c.k = p.k + 1 → ∀ V : BoxAddr → Prop, (∀ q, VD q → V q) → ∀ k, k < c.k → V (G.anc k c) := by
        intro c hc hck V hV k hk
        have : k ≤ p.k := by omega
        rw [← G.anc_anc this hc.1, hc.2]
        exact hV _ (ti.up hI p hp k this)
      have nodesc : ∀ c, G.Desc p c → c.k = p.k + 1 → ∀ q, VD q → ¬ G.Desc c q := by
        intro c hc hck q hq hcq
        have := hopen q hq (hc.trans G hcq)
        subst this
        have := hcq.1
        omega
      have noanc : ∀ c, G.Desc p c → c.k = p.k + 1 → ∀ m, Done m → ¬ G.Desc m c := by
        intro c hc hck m hm hmc
        by_cases hk : m.k ≤ p.k
        · exact hdone m hm (Grid.Desc.laminar G hmc hc hk)
        · have : m = c := Grid.Desc.eq G hmc (by have := hmc.1; omega)
          subst this
          exact nodesc m hc hck m (ti.sub hI m hm) (Grid.Desc.refl G m)
      -- first half
      obtain ⟨i1, acc1⟩ := ti.node hI (nodesc c1 dk1 k1) (noanc c1 dk1 k1) (upk c1 dk1 k1 VD fun q hq => hq) o1 hp1
      obtain ⟨VD2, Done2, i2, j1, j2, j3, j4⟩ := ih c1 phi1 _ _ w1 w2 i1 (.inr rfl)
        (by
          rintro q (hq | rfl) hdq
          · exact absurd hdq (nodesc c1 dk1 k1 q hq)
          · rfl)
        (noanc c1 dk1 k1) o1 acc1 hr1
      have i3 := ti.remove (x := (dropEdge1 ctx.precision (G.cell p phi)).1) (y := (dropEdge1 ctx.precision (G.cell p phi)).2) i2 j4 hdrop1
      have new2 : ∀ q, VD2 q → ¬ G.Desc c2 q := by
        intro q hq hdq
        have : ∀ r, G.Desc c1 r → ¬ G.Desc c2 r := by
          intro r h1 h2
          exact kne (Grid.Desc.eq G (Grid.Desc.laminar G h1 h2 (by omega)) (by omega))
        rcases j2 q hq with (hq | rfl) | hq
        · exact nodesc c2 dk2 k2 q hq hdq
        · exact this q (Grid.Desc.refl G q) hdq
        · exact this q hq hdq
      have done2 : ∀ m, Done2 m → ¬ G.Desc m c2 := by
        intro m hm hmc
        rcases j3 m hm with hm | hm
        · exact noanc c2 dk2 k2 m hm hmc
        · have e1 : m = c2 := Grid.Desc.eq G hmc (by have := hmc.1; have := hm.1; omega)
          have e2 : c1 = m := Grid.Desc.eq G hm (by rw [e1]; omega)
          exact kne (e2.trans e1)
      -- second half
      obtain ⟨i4, acc2⟩ := ti.node i3 new2 done2 (upk c2 dk2 k2 VD2 fun q hq => j1 q (.inl hq)) o2 hp2
      obtain ⟨VD4, Done4, i5, l1, l2, l3, l4⟩ := ih c2 phi2 _ _ w3 w4 i4 (.inr rfl)
        (by
          rintro q (hq | rfl) hdq
          · exact absurd hdq (new2 q hq)
          · rfl)
        done2 o2 acc2 hr2
      have i6 := ti.remove (x := (dropEdge2 ctx.precision (G.cell p phi)).1) (y := (dropEdge2 ctx.precision (G.cell p phi)).2) i5 l4 hdrop2
      have p4 : VD4 p := l1 p (.inl (j1 p (.inl hp)))
      refine ⟨VD4, fun q => Done4 q ∨ q = p, ti.finish i6 p4, fun q hq => l1 q (.inl (j1 q (.inl hq))), ?_, ?_, .inr rfl⟩
      · intro q hq
        rcases l2 q hq with (hq | rfl) | hq
        · rcases j2 q hq with (hq | rfl) | hq
          · exact .inl hq
          · exact .inr dk1
          · exact .inr (dk1.trans G hq)
        · exact .inr dk2
        · exact .inr (dk2.trans G hq)
      · rintro q (hq | rfl)
        · rcases l3 q hq with hq | hq
          · rcases j3 q hq with hq | hq
            · exact .inl hq
            · exact .inr (dk1.trans G hq)
          · exact .inr (dk2.trans G hq)
        · exact .inr (Grid.Desc.refl G q)

/-- the evaluated rectangle is one of those looked at, and its phase accurate -/
def Accurate (G : Grid) (T : Cx ℝ → Cx ℝ → ℝ) (eta : ℝ) (R : BoxAddr → Prop) (c : Cell ℝ) : Prop :=
  ∃ q, c = G.cell q c.phi ∧ R q ∧ |c.phi - G.around T q| ≤ 8 * eta

/-- an action which leaves caches and log alone -/
def Quiet {σ : Type} (act : Cell ℝ → Py (World σ ℝ) Unit) : Prop :=
  ∀ c w w', act c w = (.ok (), w') → w'.cache = w.cache ∧ w'.est = w.est ∧ (w.fuse = none → w'.fuse = none) ∧ w'.log = w.log

/-- all roots an action adds satisfy `P` -/
def AddsGood {σ : Type} (P : Root ℝ → Prop) (act : Cell ℝ → Py (World σ ℝ) Unit) : Prop :=
  ∀ c w w', act c w = (.ok (), w') → ∃ A, w'.added = w.added ++ A ∧ ∀ r ∈ A, P r

theorem dispatch_acc (su : SumSetup G S T h eta cfg ctx) (hG : G.Fits ctx.precision)
    (hest : BoundaryHits (strictLine (sumLine cfg)) ctx)
    {body : Decide (SumState ℝ) ℝ → Decide (SumState ℝ) ℝ} {stop : Cell ℝ → Prop} {act : Cell ℝ → Py (World (SumState ℝ) ℝ) Unit}
    (hstop : Stops (strictLine (sumLine cfg)) ctx body stop act) {R : BoxAddr → Prop}
    (hkid : ∀ p phi, R p → |phi - G.around T p| ≤ 8 * eta → ¬ stop (G.cell p phi) →
      ∀ b, R (p.kid (decide (SplitRe ctx.precision (G.cell p phi))) b))
    (hact : Quiet act) {P : Root ℝ → Prop} (hgood : AddsGood P act)
    (hclear : ∀ p, R p → G.Clear S p)
    (limit : ℕ) (p : BoxAddr) (phi : ℝ) (VD Done : BoxAddr → Prop) (w w' : World (SumState ℝ) ℝ)
    (hI : SumInv G S T h eta VD VD Done w) (hp : VD p) (hopen : ∀ q, VD q → G.Desc p q → q = p) (hdone : ∀ m, Done m → ¬ G.Desc m p)
    (hob : R p) (hA : |phi - G.around T p| ≤ 8 * eta)
    (hr : (dispatch body limit).at ctx (G.cell p phi) w = (.ok (), w')) :
    ∃ VD' Done', SumInv G S T h eta VD' VD' Done' w' ∧ (∀ q, VD q → VD' q) ∧ (∀ q, VD' q → VD q ∨ G.Desc p q) ∧
      (∀ q, Done' q → Done q ∨ G.Desc p q) ∧ Done' p ∧
      (∃ A, w'.added = w.added ++ A ∧ ∀ r ∈ A, P r) ∧ ∃ L, w'.log = w.log ++ L ∧ ∀ c ∈ L, Accurate G T eta R c := by
  have ti : TreeInv G (strictLine (sumLine cfg)) ctx stop act R (fun p phi => |phi - G.around T p| ≤ 8 * eta) (fun VD Done w1 => SumInv G S T h eta VD VD Done w1 ∧
      (∃ A, w1.added = w.added ++ A ∧ ∀ r ∈ A, P r) ∧ ∃ L, w1.log = w.log ++ L ∧ ∀ c ∈ L, Accurate G T eta R c) := by
    refine ⟨fun h => h.1.up, fun h => h.1.done, ?_, fun h1 h2 h3 => hkid _ _ h1 h2 h3, ?_, fun h hm he => ⟨h.1.remove hm _ _ he, h.2⟩, fun h hp => ⟨h.1.addDone hp, h.2⟩⟩
    · rintro VD Done w1 w2 p phi ⟨i1, i2, L, i3, i4⟩ h1 h2 h3 h4 h5
      obtain ⟨a1, a2, a3⟩ := node_inv su h1 h2 h3 (hclear p h4) i1 h5
      refine ⟨⟨a1, by rw [a3]; exact i2, L ++ [G.cell p phi], ?_, ?_⟩, a2⟩
      · rw [(phaseOf_ok hest h5).1, i3]
        simp [Grid.cell]
      · intro c hc
        rcases List.mem_append.1 hc with hc | hc
        · exact i4 c hc
        · rw [List.mem_singleton] at hc
          subst hc
          exact ⟨p, rfl, h4, a2⟩
    · rintro VD Done w1 w2 c ⟨i1, ⟨A, i2, i5⟩, L, i3, i4⟩ h1
      obtain ⟨a1, a2, a3, a4⟩ := hact _ _ _ h1
      obtain ⟨B, b1, b2⟩ := hgood _ _ _ h1
      refine ⟨i1.congr a1 a2 (a3 i1.fuse), ⟨A ++ B, by rw [b1, i2, List.append_assoc], ?_⟩, L, by rw [a4, i3], i4⟩
      intro r hr
      rcases List.mem_append.1 hr with hr | hr
      · exact i5 r hr
      · exact b2 r hr
  obtain ⟨VD', Done', ⟨b1, b2, b3⟩, b4, b5, b6, b7⟩ := ti.run hG hstop limit p phi VD Done w w' ⟨hI, ⟨[], by simp⟩, [], by simp⟩ hp hopen hdone hob hA hr
  exact ⟨VD', Done', b1, b4, b5, b6, b7, b2, b3⟩

end PyZeal
