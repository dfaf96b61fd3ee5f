import Verif.Proof.SumSearch
import Verif.Proof.Completes

/-! # Completion of searches with the summation estimator -/

set_option linter.unusedSectionVars false

namespace PyZeal
open Spec

section
variable {G : Grid} {S : Cx ℝ → Prop} {T : Cx ℝ → Cx ℝ → ℝ} {h eta : ℝ} {cfg : SumCfg ℝ} {ctx : RCtx ℝ} {VD Done : BoxAddr → Prop}

/-- data for a line which is not shorter than the distance of samples has a sample in each end piece of length `h` -/
theorem Cover.late {pt : ℝ → Cx ℝ} {lo hi x : ℝ} {v : PhiLine ℝ} (hc : Cover S T h pt lo hi v) (hx : h ≤ hi - x) (h0 : 0 ≤ h) :
    ∃ t, pt t ∈ v.1 ∧ x ≤ t := by
  obtain ⟨us, n, A, B, first, last, c1, c2, c3, c4, c5, c6, c7, c8, c9, c10, c11, c12, c13, c14, c15, c16, c17, c18, c19⟩ := hc
  rcases eq_or_lt_of_le c5 with hn | hn
  · refine ⟨last, ?_, by linarith⟩
    rw [c2, hn, List.take_length]
    exact List.mem_map_of_mem (List.mem_of_getLast? c15)
  · have hlen : us.length = n + 1 := by omega
    have hlast : us[n]? = some last := by
      rw [List.getLast?_eq_getElem?, hlen] at c15
      simpa using c15
    have hlt : n - 1 < us.length := by omega
    have hn1 : us[n - 1]? = some us[n - 1] := List.getElem?_eq_getElem hlt
    have hst : Step h us[n - 1] us[n] := by
      have := (List.isChain_iff_getElem.1 c1) (n - 1) (by omega)
      have e : n - 1 + 1 = n := by omega
      simp only [e] at this
      exact this
    have hl : us[n] = last := by
      rw [List.getElem?_eq_getElem (by omega)] at hlast
      exact Option.some.inj hlast
    refine ⟨us[n - 1], ?_, by rw [hl] at hst; linarith [hst.2]⟩
    rw [c2]
    refine List.mem_map_of_mem ?_
    rw [List.mem_take_iff_getElem]
    exact ⟨n - 1, by omega, rfl⟩

theorem whereFrom_ne_nil {α : Type} {p : α → Bool} {l : List α} {a : α} (ha : a ∈ l) (hp : p a = true) (i : ℕ) : whereFrom p i l ≠ [] := by
  induction l generalizing i with
  | nil => simp at ha
  | cons b l ih =>
    unfold whereFrom
    split
    · simp
    · rename_i hb
      rcases List.mem_cons.1 ha with rfl | ha
      · exact absurd hp hb
      · exact ih ha _

/-- evaluation of a line succeeds if every sampling does and the line is not shorter than the distance of samples -/
theorem line_ok (hdef : ∀ u v (w : World (SumState ℝ) ℝ), w.fuse = none → ∃ r, (genPhiArr cfg 0 u v ctx w).1 = .ok r) (hh : 0 ≤ h)
    {hz : Bool} {z lo hi x1 x2 : ℝ} (hlo : lo < hi) (hx : (x1 = lo ∧ x2 = hi) ∨ (x1 = hi ∧ x2 = lo)) (hlong : hz = false → h ≤ hi - lo)
    {w : World (SumState ℝ) ℝ} (hw : w.fuse = none)
    (hstop : ∀ v, ent hz w.est z (hi, .stop) = some v → ∃ lo', lo' ≤ lo ∧ Cover S T h (lpt hz z) lo' hi v) :
    ∃ d w', sumLine cfg 0 (lpt hz z x1) (lpt hz z x2) ctx w = (.ok d, w') := by
  have hmin : min x1 x2 = lo := by rcases hx with ⟨rfl, rfl⟩ | ⟨rfl, rfl⟩ <;> simp [hlo.le]
  have hmax : max x1 x2 = hi := by rcases hx with ⟨rfl, rfl⟩ | ⟨rfl, rfl⟩ <;> simp [hlo.le]
  have hslice : ∀ r a b, ∃ v w1, sliceOrSample cfg 0 a b ctx r w = (.ok v, w1) := by
    intro r a b
    cases r with
    | some v => exact ⟨v, w, rfl⟩
    | none =>
      obtain ⟨v, hv⟩ := hdef a b w hw
      exact ⟨v, _, Prod.ext hv rfl⟩
  cases hz with
  | true =>
    have e : sumLine cfg 0 (lpt true z x1) (lpt true z x2) ctx w = retrieveCachedHorizontal cfg 0 x1 x2 z ctx w := by
      unfold sumLine; rw [if_pos (show (lpt true z x1).im = (lpt true z x2).im from rfl)]; rfl
    rw [e, horizontal_run, hmin, hmax]
    obtain ⟨v, w1, hs⟩ := hslice (reuseH w.est.horizontal 0 lo hi z) ⟨lo, z⟩ ⟨hi, z⟩
    rw [hs]
    exact ⟨_, _, rfl⟩
  | false =>
    have e : sumLine cfg 0 (lpt false z x1) (lpt false z x2) ctx w = retrieveCachedVertical cfg 0 x1 x2 z ctx w := by
      unfold sumLine
      rw [if_neg, if_pos (show (lpt false z x1).re = (lpt false z x2).re from rfl)]
      · rfl
      · rcases hx with ⟨rfl, rfl⟩ | ⟨rfl, rfl⟩
        · exact hlo.ne
        · exact hlo.ne'
    rw [e, vertical_run, hmin, hmax]
    have hre : ∃ r, reuseV w.est.vertical 0 lo hi z = .ok r := by
      unfold reuseV
      rcases hc : cachedLine w.est.vertical z 0 lo hi with _ | ⟨s, c⟩
      · exact ⟨_, rfl⟩
      · obtain ⟨inner, i1, i2⟩ := cachedLine_some hc
        have i3 : ent false w.est z (s.pick lo hi, s) = some c := by
          unfold ent; rw [if_neg Bool.false_ne_true, i1]; exact i2
        cases s with
        | start => exact ⟨_, rfl⟩
        | stop =>
          obtain ⟨lo', j1, j2⟩ := hstop _ i3
          obtain ⟨t, t1, t2⟩ := j2.late (hlong rfl) hh
          dsimp only
          unfold cutStartV
          split
          · exact ⟨_, rfl⟩
          · have := whereFrom_ne_nil (p := fun z : Cx ℝ => decide (lo ≤ z.im)) t1 (by simpa [lpt] using t2) 0
            rcases hl : whereFrom (fun z : Cx ℝ => decide (lo ≤ z.im)) 0 c.1 with _ | ⟨m, l⟩
            · exact absurd hl this
            · exact ⟨_, rfl⟩
    obtain ⟨r, hr⟩ := hre
    rw [hr]
    obtain ⟨v, w1, hs⟩ := hslice r ⟨z, lo⟩ ⟨z, hi⟩
    dsimp only
    rw [hs]
    exact ⟨_, _, rfl⟩

/-- evaluation of an edge succeeds -/
theorem edge_ok (su : SumSetup G S T h eta cfg ctx) (hdef : ∀ u v (w : World (SumState ℝ) ℝ), w.fuse = none → ∃ r, (genPhiArr cfg 0 u v ctx w).1 = .ok r)
    {p : BoxAddr} (hnew : ∀ q, VD q → ¬ G.Desc p q) (hdone : ∀ m, Done m → ¬ G.Desc m p) (hS : G.Clear S p) (hz b : Bool)
    (hlong : hz = false → h ≤ G.ehi p hz - G.elo p hz) (hT : 2 * eta < |T (G.own p hz b).1 (G.own p hz b).2|)
    {w : World (SumState ℝ) ℝ} (hI : SumInv G S T h eta (fun q => VD q ∨ q = p) VD Done w) :
    ∃ d w', edgeMoment (strictLine (sumLine cfg)) 0 ctx (G.own p hz b) w = (.ok d, w') := by
  rw [edgeMoment_run]
  dsimp only
  have hlook : ∀ o x y, (w.cache.retrieve 0 (G.own p hz b).1 (G.own p hz b).2).2.look o x y = w.cache.look o x y :=
    fun o x y => EstCache.look_retrieve _ _ _ _ _ _ _
  rcases hv : w.cache.look 0 (G.own p hz b).1 (G.own p hz b).2 with _ | v
  swap
  · obtain ⟨v1, v2, v3⟩ := hI.val _ _ _ hv
    dsimp only
    rw [if_pos v1]
    exact ⟨_, _, rfl⟩
  · have hI1 : SumInv G S T h eta (fun q => VD q ∨ q = p) VD Done
        { w with cache := (w.cache.retrieve 0 (G.own p hz b).1 (G.own p hz b).2).2 } := by
      refine ⟨hI.wf.of_data (w.cache.retrieve_data _ _ _), hI.fuse, hI.up, hI.done, hI.line, ?_, ?_, ?_⟩
      · intro x y v hv; exact hI.val x y v ((hlook _ _ _).symm.trans hv)
      · intro q hq hz' b' e he
        rcases hI.kept q hq hz' b' e he with ⟨v, hv⟩ | h
        · exact .inl ⟨v, (hlook _ _ _).trans hv⟩
        · exact .inr h
      · rintro e ⟨v, hv⟩
        rcases hI.sym e ⟨v, (hlook _ _ _).symm.trans hv⟩ with ⟨u, hu⟩ | h
        · exact .inl ⟨u, (hlook _ _ _).trans hu⟩
        · exact .inr h
    have hmiss : ¬ Has ({ w with cache := (w.cache.retrieve 0 (G.own p hz b).1 (G.own p hz b).2).2 } : World (SumState ℝ) ℝ).cache (G.own p hz b) := by
      rintro ⟨v, hv'⟩; have := (hlook _ _ _).symm.trans hv'; rw [hv] at this; simp at this
    generalize hw1 : ({ w with cache := (w.cache.retrieve 0 (G.own p hz b).1 (G.own p hz b).2).2 } : World (SumState ℝ) ℝ) = w1 at *
    dsimp only
    rw [compute_run, World.tick_none hI1.fuse]
    dsimp only
    obtain ⟨x1, x2, e1, e2⟩ := own_ends G p hz b
    have hlt := G.elo_lt p hz
    have hnf := fun (q : BoxAddr) (b' : Bool) => hI1.no_finer hnew hdone (b' := b') hmiss (q := q)
    have hstop : ∀ v, ent hz w1.est (G.ez p hz b) (G.ehi p hz, .stop) = some v →
        ∃ lo', lo' ≤ G.elo p hz ∧ Cover S T h (lpt hz (G.ez p hz b)) lo' (G.ehi p hz) v := by
      intro v hv
      obtain ⟨q, b', q1, q2, q3, q4⟩ := hI1.line _ _ _ _ _ hv
      refine ⟨G.elo q hz, G.coarse_stop (hnf q b' q1 q2.symm (.inr q3.symm)) q3.symm, ?_⟩
      rw [show G.ehi p hz = G.ehi q hz from q3]
      exact q4
    obtain ⟨d, w2, hs⟩ := line_ok (cfg := cfg) (ctx := ctx) hdef su.hh hlt e2 hlong hI1.fuse hstop
    have step := line_step su.ts su.hh cfg su.harg su.hδ su.hn ctx rfl hlt e2 (su.hstep p hz) (hS hz b) hI1.fuse
      (by
        intro v hv
        obtain ⟨q, b', q1, q2, q3, q4⟩ := hI1.line _ _ _ _ _ hv
        refine ⟨G.ehi q hz, G.coarse_start (hnf q b' q1 q2.symm (.inl q3.symm)) q3.symm, ?_⟩
        rw [show G.elo p hz = G.elo q hz from q3]
        exact q4) hstop hs
    obtain ⟨s1, s2, _⟩ := step
    have hd0 : d ≠ 0 := by
      rintro rfl
      rw [e1] at hT
      simp only [Cx.zero_re, zero_sub, abs_neg] at s2
      dsimp only at hT
      linarith
    unfold strictLine
    rw [e1]
    dsimp only
    rw [hs]
    dsimp only
    rw [if_neg hd0]
    exact ⟨_, _, rfl⟩

theorem sumEdges_ok (su : SumSetup G S T h eta cfg ctx) (hdef : ∀ u v (w : World (SumState ℝ) ℝ), w.fuse = none → ∃ r, (genPhiArr cfg 0 u v ctx w).1 = .ok r)
    {p : BoxAddr} (hnew : ∀ q, VD q → ¬ G.Desc p q) (hdone : ∀ m, Done m → ¬ G.Desc m p) (hS : G.Clear S p)
    (hlong : h ≤ G.ehi p false - G.elo p false) (hT : ∀ hz b, 2 * eta < |T (G.own p hz b).1 (G.own p hz b).2|) (es : List (Bool × Bool))
    {phi : Cx ℝ} {w : World (SumState ℝ) ℝ} (hI : SumInv G S T h eta (fun q => VD q ∨ q = p) VD Done w) :
    ∃ d w', sumEdges (strictLine (sumLine cfg)) 0 ctx (es.map fun e => G.own p e.1 e.2) phi w = (.ok d, w') := by
  induction es generalizing phi w with
  | nil => exact ⟨_, _, rfl⟩
  | cons i es ih =>
    simp only [List.map_cons, sumEdges, Py.bind_run]
    obtain ⟨d, w1, hd⟩ := edge_ok su hdef hnew hdone hS i.1 i.2 (by intro e; rw [e]; exact hlong) (hT _ _) hI
    rw [hd]
    exact ih (edge_inv su hnew hdone hS i.1 i.2 hI hd).1

/-- evaluation of a rectangle succeeds -/
theorem node_ok (su : SumSetup G S T h eta cfg ctx) (hdef : ∀ u v (w : World (SumState ℝ) ℝ), w.fuse = none → ∃ r, (genPhiArr cfg 0 u v ctx w).1 = .ok r)
    {p : BoxAddr} (hnew : ∀ q, VD q → ¬ G.Desc p q) (hdone : ∀ m, Done m → ¬ G.Desc m p) (hS : G.Clear S p)
    (hlong : h ≤ G.ehi p false - G.elo p false) (hT : ∀ hz b, 2 * eta < |T (G.own p hz b).1 (G.own p hz b).2|)
    {w : World (SumState ℝ) ℝ} (hI : SumInv G S T h eta VD VD Done w) :
    ∃ phi w', phaseOf (strictLine (sumLine cfg)) (G.cell p 0).re (G.cell p 0).im ctx w = (.ok phi, w') := by
  unfold phaseOf calcMoment
  rw [Py.bind_run, G.edges_eq]
  have hI0 : SumInv G S T h eta (fun q => VD q ∨ q = p) VD Done w :=
    ⟨hI.wf, hI.fuse, hI.up, hI.done, fun hz z x s v hv => by
      obtain ⟨q, b, q1, q2⟩ := hI.line hz z x s v hv
      exact ⟨q, b, .inl q1, q2⟩, hI.val, hI.kept, hI.sym⟩
  obtain ⟨d, w1, hd⟩ := sumEdges_ok su hdef hnew hdone hS hlong hT [(true, false), (false, true), (true, true), (false, false)] (phi := 0) hI0
  rw [hd]
  exact ⟨_, _, rfl⟩

/-- If every evaluation and every final action succeeds, so does the refinement. -/
theorem TreeInv.completes {σ : Type} {est : LineEst σ ℝ} {body : Decide σ ℝ → Decide σ ℝ} {stop : Cell ℝ → Prop} {act : Cell ℝ → Py (World σ ℝ) Unit}
    {Inv : (BoxAddr → Prop) → (BoxAddr → Prop) → World σ ℝ → Prop} {R : BoxAddr → Prop} {A : BoxAddr → ℝ → Prop}
    (ti : TreeInv G est ctx stop act R A Inv) (hG : G.Fits ctx.precision) (hstop : Stops est ctx body stop act)
    (hsmall : ∀ c, ¬ stop c → ¬ Cell.Small ctx.precision c)
    (hnode : ∀ {VD Done w p}, Inv VD Done w → (∀ q, VD q → ¬ G.Desc p q) → (∀ m, Done m → ¬ G.Desc m p) → R p →
      ∃ phi w', phaseOf est (G.cell p 0).re (G.cell p 0).im ctx w = (.ok phi, w'))
    (hact : ∀ {VD Done w c}, Inv VD Done w → ∃ w', act c w = (.ok (), w'))
    (limit m n : ℕ) (p : BoxAddr) (phi : ℝ) (hb : Cell.Below ctx.precision m n (G.cell p phi)) (hl : m + n < limit)
    (VD Done : BoxAddr → Prop) (w : World σ ℝ)
    (hI : Inv VD Done w) (hp : VD p) (hopen : ∀ q, VD q → G.Desc p q → q = p) (hdone : ∀ m, Done m → ¬ G.Desc m p)
    (hob : R p) (hA : A p phi) :
    ∃ w', (dispatch body limit).at ctx (G.cell p phi) w = (.ok (), w') := by
  induction limit generalizing p phi VD Done w m n with
  | zero => omega
  | succ limit ih =>
    have hd : (dispatch body (limit + 1)).at ctx (G.cell p phi) = (body (dispatch body limit)).at ctx (G.cell p phi) := rfl
    rw [hd]
    by_cases hs : stop (G.cell p phi)
    · rw [(hstop _ _).1 hs]
      exact hact hI
    · rw [(hstop _ _).2 hs]
      obtain ⟨m', n', hmn, hb'⟩ := below_halves (hsmall _ hs) hb
      unfold splitStep
      rw [cell_half1 hG, cell_half2 hG]
      have o1 := ti.kid hob hA hs false
      have o2 := ti.kid hob hA hs true
      obtain ⟨hz1, b1, hdrop1⟩ := drop1_own hG p phi
      have dk1 := desc_kid (ctx := ctx) hG p phi false
      have dk2 := desc_kid (ctx := ctx) hG p phi true
      have kk : ∀ b, (p.kid (decide (SplitRe ctx.precision (G.cell p phi))) b).k = p.k + 1 := fun b => kid_k _ _ _
      have kne : p.kid (decide (SplitRe ctx.precision (G.cell p phi))) false ≠ p.kid (decide (SplitRe ctx.precision (G.cell p phi))) true := by
        unfold BoxAddr.kid
        split <;> simp
      have hk1 := fun phi1 => cell_half1 (ctx := ctx) hG p phi phi1
      have hk2 := fun phi1 => cell_half2 (ctx := ctx) hG p phi phi1
      have k1 := kk false
      have k2 := kk true
      generalize p.kid (decide (SplitRe ctx.precision (G.cell p phi))) false = c1 at *
      generalize p.kid (decide (SplitRe ctx.precision (G.cell p phi))) true = c2 at *
      clear kk
      simp only [hk1, hk2] at hb' ⊢
      have upk : ∀ c, G.Desc p c → c.k = p.k + 1 → ∀ V : BoxAddr → Prop, (∀ q, VD q → V q) → ∀ k, k < c.k → V (G.anc k c) := by
        intro c hc hck V hV k hk
        have : k ≤ p.k := by omega
        rw [← G.anc_anc this hc.1, hc.2]
        exact hV _ (ti.up hI p hp k this)
      have nodesc : ∀ c, G.Desc p c → c.k = p.k + 1 → ∀ q, VD q → ¬ G.Desc c q := by
        intro c hc hck q hq hcq
        have := hopen q hq (hc.trans G hcq)
        subst this
        have := hcq.1
        omega
      have noanc : ∀ c, G.Desc p c → c.k = p.k + 1 → ∀ m, Done m → ¬ G.Desc m c := by
        intro c hc hck m hm hmc
        by_cases hk : m.k ≤ p.k
        · exact hdone m hm (Grid.Desc.laminar G hmc hc hk)
        · have : m = c := Grid.Desc.eq G hmc (by have := hmc.1; omega)
          subst this
          exact nodesc m hc hck m (ti.sub hI m hm) (Grid.Desc.refl G m)
      -- first half
      obtain ⟨phi1, w1, hp1⟩ := hnode hI (nodesc c1 dk1 k1) (noanc c1 dk1 k1) o1
      obtain ⟨i1, acc1⟩ := ti.node hI (nodesc c1 dk1 k1) (noanc c1 dk1 k1) (upk c1 dk1 k1 VD fun q hq => hq) o1 hp1
      have hopen1 : ∀ q, (VD q ∨ q = c1) → G.Desc c1 q → q = c1 := by
        rintro q (hq | rfl) hdq
        · exact absurd hdq (nodesc c1 dk1 k1 q hq)
        · rfl
      obtain ⟨w2, hr1⟩ := ih m' n' c1 phi1 (hb' phi1).1 (by omega) _ _ w1 i1 (.inr rfl) hopen1 (noanc c1 dk1 k1) o1 acc1
      obtain ⟨VD2, Done2, i2, j1, j2, j3, j4⟩ := ti.run hG hstop limit c1 phi1 _ _ w1 w2 i1 (.inr rfl) hopen1 (noanc c1 dk1 k1) o1 acc1 hr1
      have i3 := ti.remove (x := (dropEdge1 ctx.precision (G.cell p phi)).1) (y := (dropEdge1 ctx.precision (G.cell p phi)).2) i2 j4 hdrop1
      have new2 : ∀ q, VD2 q → ¬ G.Desc c2 q := by
        intro q hq hdq
        have : ∀ r, G.Desc c1 r → ¬ G.Desc c2 r := by
          intro r h1 h2
          exact kne (Grid.Desc.eq G (Grid.Desc.laminar G h1 h2 (by omega)) (by omega))
        rcases j2 q hq with (hq | rfl) | hq
        · exact nodesc c2 dk2 k2 q hq hdq
        · exact this q (Grid.Desc.refl G q) hdq
        · exact this q hq hdq
      have done2 : ∀ m, Done2 m → ¬ G.Desc m c2 := by
        intro m hm hmc
        rcases j3 m hm with hm | hm
        · exact noanc c2 dk2 k2 m hm hmc
        · have e1 : m = c2 := Grid.Desc.eq G hmc (by have := hmc.1; have := hm.1; omega)
          have e2 : c1 = m := Grid.Desc.eq G hm (by rw [e1]; omega)
          exact kne (e2.trans e1)
      -- second half
      obtain ⟨phi2, w3, hp2⟩ := hnode i3 new2 done2 o2
      obtain ⟨i4, acc2⟩ := ti.node i3 new2 done2 (upk c2 dk2 k2 VD2 fun q hq => j1 q (.inl hq)) o2 hp2
      have hopen2 : ∀ q, (VD2 q ∨ q = c2) → G.Desc c2 q → q = c2 := by
        rintro q (hq | rfl) hdq
        · exact absurd hdq (new2 q hq)
        · rfl
      obtain ⟨w4, hr2⟩ := ih m' n' c2 phi2 (hb' phi2).2 (by omega) _ _ w3 i4 (.inr rfl) hopen2 done2 o2 acc2
      rw [Py.bind_run, hp1]
      dsimp only
      rw [Py.bind_run, hr1]
      dsimp only
      rw [Py.bind_run]
      simp only [cacheRemove, Py.modify_run]
      rw [Py.bind_run, hp2]
      dsimp only
      rw [Py.bind_run, hr2]
      exact ⟨_, rfl⟩

end

section
variable {cfg : SumCfg ℝ} {ctx : RCtx ℝ} {zeros : List (Cx ℝ)} {r g : Cx ℝ → ℝ} {M d h : ℝ}

theorem abs_arg_le {z : ℂ} {T : ℝ} (h : (Complex.arg z : Real.Angle) = (T : Real.Angle)) : |Complex.arg z| ≤ |T| := by
  obtain ⟨k, hk⟩ := Real.Angle.angle_eq_iff_two_pi_dvd_sub.1 h
  have l := Complex.neg_pi_lt_arg z
  have u := Complex.arg_le_pi z
  have hpi := Real.pi_pos
  rcases lt_trichotomy k 0 with hk0 | hk0 | hk0
  · have : (k : ℝ) ≤ -1 := by exact_mod_cast (show k ≤ -1 by omega)
    have : T ≥ Real.pi := by nlinarith
    rw [abs_le, abs_of_nonneg (by linarith : (0 : ℝ) ≤ T)]
    constructor <;> linarith
  · rw [hk0] at hk
    simp at hk
    rw [sub_eq_zero.1 hk]
  · have : (1 : ℝ) ≤ k := by exact_mod_cast (show 1 ≤ k by omega)
    have : T ≤ -Real.pi := by nlinarith
    rw [abs_le, abs_of_nonpos (by linarith : T ≤ 0)]
    constructor <;> linarith

/-- searches complete if no line turns too little and no rectangle is too small for the samples -/
theorem sum_search_completes (D : SumData cfg ctx zeros r g M d h)
    (hdef : ∀ u v (w : World (SumState ℝ) ℝ), w.fuse = none → ∃ r, (genPhiArr cfg 0 u v ctx w).1 = .ok r)
    (hlong : ∀ re im, Reached ctx.precision zeros ctx.reRan ctx.imRan re im → h ≤ im.2 - im.1)
    (hturn : ∀ re im, Reached ctx.precision zeros ctx.reRan ctx.imRan re im → ∀ e ∈ edges re im, 2 * D.eta < |cfg.arg (ctx.f e.2 / ctx.f e.1)|)
    {body : Decide (SumState ℝ) ℝ → Decide (SumState ℝ) ℝ} {stop : Cell ℝ → Prop} {act : Cell ℝ → Py (World (SumState ℝ) ℝ) Unit}
    (hstop : Stops (strictLine (sumLine cfg)) ctx body stop act) (hsm : ∀ c, ¬ stop c → Cell.Turns Real.pi c ∧ ¬ Cell.Small ctx.precision c)
    (hact : Quiet act) (hfin : ∀ c, Finishes (act c)) (limit m n : ℕ)
    (hb : Cell.Below ctx.precision m n ⟨ctx.reRan, ctx.imRan, 0⟩) (hl : m + n < limit)
    (w : World (SumState ℝ) ℝ) (hfuse : w.fuse = none) (hest : w.est = SumState.fresh) :
    ∃ w', calcRoots (strictLine (sumLine cfg)) body limit ctx w = (.ok (), w') := by
  have hT : ∀ p, D.R p → ∀ hz b, 2 * D.eta < |turn zeros g (D.G.own p hz b).1 (D.G.own p hz b).2| := by
    intro p hp hz b
    have hmem : D.G.own p hz b ∈ edges (D.G.cell p 0).re (D.G.cell p 0).im := by
      rw [D.G.edges_eq]
      exact List.mem_map.2 ⟨(hz, b), by cases hz <;> cases b <;> simp, rfl⟩
    refine lt_of_lt_of_le (hturn _ _ hp _ hmem) ?_
    obtain ⟨x1, x2, e1, e2⟩ := own_ends D.G p hz b
    have hlt := (D.G.elo_lt p hz).le
    have hS := D.clear p hp hz b
    have s1 : D.S (D.G.own p hz b).1 := by
      rw [e1]; rcases e2 with ⟨rfl, rfl⟩ | ⟨rfl, rfl⟩
      · exact hS _ le_rfl hlt
      · exact hS _ hlt le_rfl
    have s2 : D.S (D.G.own p hz b).2 := by
      rw [e1]; rcases e2 with ⟨rfl, rfl⟩ | ⟨rfl, rfl⟩
      · exact hS _ hlt le_rfl
      · exact hS _ le_rfl hlt
    have ha := D.setup.ts.angle _ _ s1 s2
    have n1 := fun h => D.setup.ts.ne _ s1 (toC_eq_zero.1 h)
    have n2 := fun h => D.setup.ts.ne _ s2 (toC_eq_zero.1 h)
    rw [D.harg, toC_div]
    refine abs_arg_le ?_
    rw [ha, Complex.arg_div_coe_angle n2 n1]
  have ti : TreeInv D.G (strictLine (sumLine cfg)) ctx stop act D.R (fun p phi => |phi - D.G.around (turn zeros g) p| ≤ 8 * D.eta)
      (fun VD Done w => SumInv D.G D.S (turn zeros g) h D.eta VD VD Done w) := by
    refine ⟨fun h => h.up, fun h => h.done, ?_, fun h1 h2 h3 => D.kid hsm _ _ h1 h2 h3, ?_, fun h hm he => h.remove hm _ _ he, fun h hp => h.addDone hp⟩
    · rintro VD Done w1 w2 p phi i1 h1 h2 h3 h4 h5
      obtain ⟨a1, a2, _⟩ := node_inv D.setup h1 h2 h3 (D.clear p h4) i1 h5
      exact ⟨a1, a2⟩
    · rintro VD Done w1 w2 c i1 h1
      obtain ⟨a1, a2, a3, a4⟩ := hact _ _ _ h1
      exact i1.congr a1 a2 (a3 i1.fuse)
  have hnode : ∀ {VD Done : BoxAddr → Prop} {w : World (SumState ℝ) ℝ} {p : BoxAddr}, SumInv D.G D.S (turn zeros g) h D.eta VD VD Done w →
      (∀ q, VD q → ¬ D.G.Desc p q) → (∀ m, Done m → ¬ D.G.Desc m p) → D.R p →
      ∃ phi w', phaseOf (strictLine (sumLine cfg)) (D.G.cell p 0).re (D.G.cell p 0).im ctx w = (.ok phi, w') :=
    fun hI h1 h2 h3 => node_ok D.setup hdef h1 h2 (D.clear _ h3) (hlong _ _ h3) (hT _ h3) hI
  unfold calcRoots
  obtain ⟨w0, e0, g1, g0, g2, g3, g4⟩ := reset_world w
  rw [Py.bind_run, e0]
  dsimp only
  have hI := D.start (w := w0) (g3.trans hfuse) (g2.trans hest) g4
  obtain ⟨phi, w1, hp⟩ := hnode hI (fun q hq => hq.elim) (fun m hm => hm.elim) D.rootR
  obtain ⟨i1, acc⟩ := ti.node hI (fun q hq => hq.elim) (fun m hm => hm.elim) (fun k hk => absurd hk (Nat.not_lt_zero k)) D.rootR hp
  rw [D.root] at hp
  rw [Py.bind_run, hp]
  dsimp only
  obtain ⟨w', hw'⟩ := ti.completes D.hG hstop (fun c hc => (hsm c hc).2) hnode
    (fun hI => by
      obtain ⟨_, a, ha⟩ := hfin _ _ hI.fuse
      exact ⟨_, Prod.ext ha rfl⟩) limit m n ⟨0, 0, 0⟩ phi (by rw [D.root]; exact hb) hl _ _ w1 i1 (.inr rfl)
    (by
      rintro q (hq | rfl) _
      · exact hq.elim
      · rfl)
    (fun m hm => hm.elim) D.rootR acc
  rw [D.root] at hw'
  exact ⟨w', hw'⟩

end
end PyZeal
