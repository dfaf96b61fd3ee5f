import Verif.Proof.SumSearchF
import Verif.Proof.SumTotal

/-! # Completion of searches with the summation estimator in floating point arithmetic -/

set_option linter.unusedSectionVars false

namespace PyZeal
open Spec
open Real

/-- the final action of a rectangle succeeds -/
theorem Finishes.actF {σ : Type} (A : FloatOps ℝ) (pi : ℝ) (ctx : RCtx ℝ) (c : Cell ℝ) : Finishes (actF A pi ctx c : Py (World σ ℝ) Unit) := by
  unfold PyZeal.actF
  split
  · exact Finishes.advance _ _
  · exact Finishes.bind (Finishes.addRoot _) fun _ => Finishes.advance _ _

section
variable {A : FloatOps ℝ} {u : ℝ} {S : SumOps ℝ} {N : ℕ} {δ γ : ℝ} {D : Cx ℝ → Prop} {T : Cx ℝ → Cx ℝ → ℝ} {h eta R : ℝ} {ctx : RCtx ℝ}
variable {G : TGrid} {VD Done : List Bool → Prop}

/-- data for a line which is not shorter than the distance of samples has a sample in each end piece of length `h` -/
theorem CoverF.late {f : Cx ℝ → Cx ℝ} {pt : ℝ → Cx ℝ} {lo hi x : ℝ} {v : PhiLine ℝ} (hc : CoverF S f D N h pt lo hi v) (hx : h ≤ hi - x) (h0 : 0 ≤ h) :
    ∃ t, pt t ∈ v.1 ∧ x ≤ t := by
  obtain ⟨us, n, A, B, first, last, c1, c2, c3, c4, c5, c6, c7, c8, c9, c10, c11, c12, c13, c14, c15, c16, c17, c18, c19, c20⟩ := hc
  rcases eq_or_lt_of_le c5 with hn | hn
  · refine ⟨last, ?_, by linarith⟩
    rw [c2, hn, List.take_length]
    exact List.mem_map_of_mem (List.mem_of_getLast? c15)
  · have hlen : us.length = n + 1 := by omega
    have hlast : us[n]? = some last := by
      rw [List.getLast?_eq_getElem?, hlen] at c15
      simpa using c15
    have hlt : n - 1 < us.length := by omega
    have hst : us[n - 1] ≤ us[n] ∧ us[n] - us[n - 1] ≤ h := by
      have := (List.isChain_iff_getElem.1 c1) (n - 1) (by omega)
      have e : n - 1 + 1 = n := by omega
      simp only [e] at this
      exact this
    have hl : us[n] = last := by
      rw [List.getElem?_eq_getElem (by omega)] at hlast
      exact Option.some.inj hlast
    refine ⟨us[n - 1], ?_, by rw [hl] at hst; linarith [hst.2]⟩
    rw [c2]
    refine List.mem_map_of_mem ?_
    rw [List.mem_take_iff_getElem]
    exact ⟨n - 1, by omega, rfl⟩

/-- evaluation of a line succeeds if every sampling does and the line is not shorter than the distance of samples -/
theorem line_okF (hh : 0 ≤ h) {hz : Bool} {z lo hi x1 x2 : ℝ} (hends : SideEnds A S ctx (lpt hz z lo) (lpt hz z hi))
    (hlo : lo < hi) (hx : (x1 = lo ∧ x2 = hi) ∨ (x1 = hi ∧ x2 = lo)) (hlong : hz = false → h ≤ hi - lo)
    {w : World (SumState ℝ) ℝ}
    (hstop : ∀ v, ent hz w.est z (hi, .stop) = some v → ∃ lo', lo' ≤ lo ∧ CoverF S ctx.f D N h (lpt hz z) lo' hi v) :
    ∃ d w', sumLineF A S 0 (lpt hz z x1) (lpt hz z x2) ctx w = (.ok d, w') := by
  have hmin : min x1 x2 = lo := by rcases hx with ⟨rfl, rfl⟩ | ⟨rfl, rfl⟩ <;> simp [hlo.le]
  have hmax : max x1 x2 = hi := by rcases hx with ⟨rfl, rfl⟩ | ⟨rfl, rfl⟩ <;> simp [hlo.le]
  have hslice : ∀ r, ∃ v w1, sliceOrSampleF A S 0 (lpt hz z lo) (lpt hz z hi) ctx r w = (.ok v, w1) := by
    intro r
    cases r with
    | some v => exact ⟨v, w, rfl⟩
    | none => exact hends w
  cases hz with
  | true =>
    have e : sumLineF A S 0 (lpt true z x1) (lpt true z x2) ctx w = retrieveCachedHorizontalF A S 0 x1 x2 z ctx w := by
      unfold sumLineF; rw [if_pos (show (lpt true z x1).im = (lpt true z x2).im from rfl)]; rfl
    rw [e, horizontalF_run, hmin, hmax]
    obtain ⟨v, w1, hs⟩ := hslice (reuseH w.est.horizontal 0 lo hi z)
    have hs : sliceOrSampleF A S 0 ⟨lo, z⟩ ⟨hi, z⟩ ctx (reuseH w.est.horizontal 0 lo hi z) w = (.ok v, w1) := hs
    rw [hs]
    exact ⟨_, _, rfl⟩
  | false =>
    have e : sumLineF A S 0 (lpt false z x1) (lpt false z x2) ctx w = retrieveCachedVerticalF A S 0 x1 x2 z ctx w := by
      unfold sumLineF
      rw [if_neg, if_pos (show (lpt false z x1).re = (lpt false z x2).re from rfl)]
      · rfl
      · rcases hx with ⟨rfl, rfl⟩ | ⟨rfl, rfl⟩
        · exact hlo.ne
        · exact hlo.ne'
    rw [e, verticalF_run, hmin, hmax]
    have hre : ∃ r, reuseV w.est.vertical 0 lo hi z = .ok r := by
      unfold reuseV
      rcases hc : cachedLine w.est.vertical z 0 lo hi with _ | ⟨s, c⟩
      · exact ⟨_, rfl⟩
      · obtain ⟨inner, i1, i2⟩ := cachedLine_some hc
        have i3 : ent false w.est z (s.pick lo hi, s) = some c := by
          unfold ent; rw [if_neg Bool.false_ne_true, i1]; exact i2
        cases s with
        | start => exact ⟨_, rfl⟩
        | stop =>
          obtain ⟨lo', j1, j2⟩ := hstop _ i3
          obtain ⟨t, t1, t2⟩ := j2.late (hlong rfl) hh
          dsimp only
          unfold cutStartV
          split
          · exact ⟨_, rfl⟩
          · have := whereFrom_ne_nil (p := fun z : Cx ℝ => decide (lo ≤ z.im)) t1 (by simpa [lpt] using t2) 0
            rcases hl : whereFrom (fun z : Cx ℝ => decide (lo ≤ z.im)) 0 c.1 with _ | ⟨m, l⟩
            · exact absurd hl this
            · exact ⟨_, rfl⟩
    obtain ⟨r, hr⟩ := hre
    rw [hr]
    obtain ⟨v, w1, hs⟩ := hslice r
    have hs : sliceOrSampleF A S 0 ⟨z, lo⟩ ⟨z, hi⟩ ctx r w = (.ok v, w1) := hs
    dsimp only
    rw [hs]
    exact ⟨_, _, rfl⟩

/-- the bounds of the loops are large enough -/
structure LoopsF (S : SumOps ℝ) : Prop where
  evals : ∀ n, 1 ≤ S.evals n
  factor : ∀ idx phi, 1 ≤ idx → S.deltaPhi ≤ |phi| → 99 * idx ≤ S.factor idx phi
  steps : 198 * S.numPts < 97 * ((S.steps - 1) * S.steps)

/-- evaluation of an edge succeeds -/
theorem edge_okF (F : FineLine A u S N δ γ ctx.f D T h eta) (hh : 0 ≤ h) (hL : LoopsF S)
    {p : List Bool} (hnew : ∀ q, VD q → ¬ p <:+ q) (hdone : ∀ m, Done m → ¬ m <:+ p) (hS : G.Ready A S u R h D p) (hz b : Bool)
    (hlong : hz = false → h ≤ G.ehi p hz - G.elo p hz) (hT : lineErr N δ γ + 2 * eta < |T (G.own p hz b).1 (G.own p hz b).2|)
    {w : World (SumState ℝ) ℝ} (hI : SumInvE G S ctx.f D T N δ γ h eta (fun q => VD q ∨ q = p) VD Done w) :
    ∃ d w', edgeMoment (strictLine (sumLineF A S)) 0 ctx (G.own p hz b) w = (.ok d, w') := by
  rw [edgeMoment_run]
  dsimp only
  have hlook : ∀ o x y, (w.cache.retrieve 0 (G.own p hz b).1 (G.own p hz b).2).2.look o x y = w.cache.look o x y :=
    fun o x y => EstCache.look_retrieve _ _ _ _ _ _ _
  rcases hv : w.cache.look 0 (G.own p hz b).1 (G.own p hz b).2 with _ | v
  swap
  · obtain ⟨v1, v2, v3⟩ := hI.val _ _ _ hv
    dsimp only
    rw [if_pos v1]
    exact ⟨_, _, rfl⟩
  · have hI1 : SumInvE G S ctx.f D T N δ γ h eta (fun q => VD q ∨ q = p) VD Done
        { w with cache := (w.cache.retrieve 0 (G.own p hz b).1 (G.own p hz b).2).2 } := by
      refine ⟨hI.wf.of_data (w.cache.retrieve_data _ _ _), hI.fuse, hI.up, hI.done, hI.line, ?_, ?_, ?_⟩
      · intro x y v hv; exact hI.val x y v ((hlook _ _ _).symm.trans hv)
      · intro q hq hz' b' e he
        rcases hI.kept q hq hz' b' e he with ⟨v, hv⟩ | h
        · exact .inl ⟨v, (hlook _ _ _).trans hv⟩
        · exact .inr h
      · rintro e ⟨v, hv⟩
        rcases hI.sym e ⟨v, (hlook _ _ _).symm.trans hv⟩ with ⟨u, hu⟩ | h
        · exact .inl ⟨u, (hlook _ _ _).trans hu⟩
        · exact .inr h
    have hmiss : ¬ Has ({ w with cache := (w.cache.retrieve 0 (G.own p hz b).1 (G.own p hz b).2).2 } : World (SumState ℝ) ℝ).cache (G.own p hz b) := by
      rintro ⟨v, hv'⟩; have := (hlook _ _ _).symm.trans hv'; rw [hv] at this; simp at this
    generalize hw1 : ({ w with cache := (w.cache.retrieve 0 (G.own p hz b).1 (G.own p hz b).2).2 } : World (SumState ℝ) ℝ) = w1 at *
    dsimp only
    rw [compute_run, World.tick_none hI1.fuse]
    dsimp only
    obtain ⟨x1, x2, e1, e2⟩ := G.own_ends p hz b
    have hlt := G.elo_lt p hz
    have hnf := fun (q : List Bool) (b' : Bool) => hI1.no_finer hnew hdone (b' := b') hmiss (q := q)
    have hstop : ∀ v, ent hz w1.est (G.ez p hz b) (G.ehi p hz, .stop) = some v →
        ∃ lo', lo' ≤ G.elo p hz ∧ CoverF S ctx.f D N h (lpt hz (G.ez p hz b)) lo' (G.ehi p hz) v := by
      intro v hv
      obtain ⟨q, b', q1, q2, q3, q4⟩ := hI1.line _ _ _ _ _ hv
      refine ⟨G.elo q hz, (hnf q b' q1 q2.symm (.inr q3.symm)).1, ?_⟩
      rw [show G.ehi p hz = G.ehi q hz from q3]
      exact q4
    have hends := (genPhiArrF_fine F (ctx := ctx) (lpt_machine hz (hS.mez hz b)) hlt.le (hS.mach hz).1 (hS.mach hz).2 (hS.bound hz).1
      (hS.bound hz).2 (hS.step hz) (hS.clear hz b)).2 hL.evals hL.factor hL.steps
    obtain ⟨d, w2, hs⟩ := line_okF hh hends hlt e2 hlong hstop
    have step := line_stepF F hh hlt e2 (hS.step hz) (hS.mez hz b) (hS.mach hz).1 (hS.mach hz).2 (hS.bound hz).1 (hS.bound hz).2 (hS.clear hz b) hI1.fuse
      (by
        intro v hv
        obtain ⟨q, b', q1, q2, q3, q4⟩ := hI1.line _ _ _ _ _ hv
        refine ⟨G.ehi q hz, (hnf q b' q1 q2.symm (.inl q3.symm)).2, ?_⟩
        rw [show G.elo p hz = G.elo q hz from q3]
        exact q4) hstop hs
    obtain ⟨s1, s2, _⟩ := step
    have hd0 : d ≠ 0 := by
      rintro rfl
      rw [e1] at hT
      have s2 := s2.2
      simp only [Cx.zero_re, zero_sub, abs_neg] at s2
      dsimp only at hT
      linarith
    unfold strictLine
    rw [e1]
    dsimp only
    rw [hs]
    dsimp only
    rw [if_neg hd0]
    exact ⟨_, _, rfl⟩

theorem sumEdgesF_ok (F : FineLine A u S N δ γ ctx.f D T h eta) (hh : 0 ≤ h) (hL : LoopsF S)
    {p : List Bool} (hnew : ∀ q, VD q → ¬ p <:+ q) (hdone : ∀ m, Done m → ¬ m <:+ p) (hS : G.Ready A S u R h D p)
    (hlong : h ≤ G.ehi p false - G.elo p false) (hT : ∀ hz b, lineErr N δ γ + 2 * eta < |T (G.own p hz b).1 (G.own p hz b).2|) (es : List (Bool × Bool))
    {phi : Cx ℝ} {w : World (SumState ℝ) ℝ} (hI : SumInvE G S ctx.f D T N δ γ h eta (fun q => VD q ∨ q = p) VD Done w) :
    ∃ d w', sumEdgesF A (strictLine (sumLineF A S)) 0 ctx (es.map fun e => G.own p e.1 e.2) phi w = (.ok d, w') := by
  induction es generalizing phi w with
  | nil => exact ⟨_, _, rfl⟩
  | cons i es ih =>
    simp only [List.map_cons, sumEdgesF, Py.bind_run]
    obtain ⟨d, w1, hd⟩ := edge_okF F hh hL hnew hdone hS i.1 i.2 (by intro e; rw [e]; exact hlong) (hT _ _) hI
    rw [hd]
    exact ih (edge_invF F hh hnew hdone hS i.1 i.2 hI hd).1

/-- evaluation of a rectangle succeeds -/
theorem node_okF (F : FineLine A u S N δ γ ctx.f D T h eta) (hh : 0 ≤ h) (hL : LoopsF S)
    {p : List Bool} (hnew : ∀ q, VD q → ¬ p <:+ q) (hdone : ∀ m, Done m → ¬ m <:+ p) (hS : G.Ready A S u R h D p)
    (hlong : h ≤ G.ehi p false - G.elo p false) (hT : ∀ hz b, lineErr N δ γ + 2 * eta < |T (G.own p hz b).1 (G.own p hz b).2|)
    {w : World (SumState ℝ) ℝ} (hI : SumInvE G S ctx.f D T N δ γ h eta VD VD Done w) :
    ∃ phi w', phaseOfF A (strictLine (sumLineF A S)) (G.cell p 0).re (G.cell p 0).im ctx w = (.ok phi, w') := by
  unfold phaseOfF calcMomentF
  rw [Py.bind_run, G.edges_eq]
  have hI0 : SumInvE G S ctx.f D T N δ γ h eta (fun q => VD q ∨ q = p) VD Done w :=
    ⟨hI.wf, hI.fuse, hI.up, hI.done, fun hz z x s v hv => by
      obtain ⟨q, b, q1, q2⟩ := hI.line hz z x s v hv
      exact ⟨q, b, .inl q1, q2⟩, hI.val, hI.kept, hI.sym⟩
  obtain ⟨d, w1, hd⟩ := sumEdgesF_ok F hh hL hnew hdone hS hlong hT [(true, false), (false, true), (true, true), (false, false)] (phi := 0) hI0
  rw [hd]
  exact ⟨_, _, rfl⟩

/-- If every evaluation and every final action succeeds, so does the refinement. -/
theorem TreeInvF.completes {σ : Type} {est : LineEst σ ℝ} {body : Decide σ ℝ → Decide σ ℝ} {stop : Cell ℝ → Prop} {act : Cell ℝ → Py (World σ ℝ) Unit}
    {Inv : (List Bool → Prop) → (List Bool → Prop) → World σ ℝ → Prop} {Q : List Bool → Prop} {P : List Bool → ℝ → Prop}
    (ti : TreeInvF G A est ctx stop act Q P Inv) (hG : G.FitsF A ctx.precision)
    (hstop : ∀ (self : Decide σ ℝ) c, (stop c → (body self).at ctx c = act c) ∧
      (¬ stop c → (body self).at ctx c = splitStepF A est self ctx c (dropF1 A ctx.precision c) (dropF2 A ctx.precision c)))
    {Below : ℕ → ℕ → Cell ℝ → Prop}
    (hbelow : ∀ p phi m n, Q p → ¬ stop (G.cell p phi) → Below m n (G.cell p phi) → ∃ m' n', m' + n' + 1 = m + n ∧
      ∀ x, Below m' n' (halfF1 A ctx.precision (G.cell p phi) x) ∧ Below m' n' (halfF2 A ctx.precision (G.cell p phi) x))
    (hnode : ∀ {VD Done w p}, Inv VD Done w → (∀ q, VD q → ¬ p <:+ q) → (∀ m, Done m → ¬ m <:+ p) → Q p →
      ∃ phi w', phaseOfF A est (G.cell p 0).re (G.cell p 0).im ctx w = (.ok phi, w'))
    (hact : ∀ {VD Done w c}, Inv VD Done w → ∃ w', act c w = (.ok (), w'))
    (limit m n : ℕ) (p : List Bool) (phi : ℝ) (hb : Below m n (G.cell p phi)) (hl : m + n < limit)
    (VD Done : List Bool → Prop) (w : World σ ℝ)
    (hI : Inv VD Done w) (hp : VD p) (hopen : ∀ q, VD q → p <:+ q → q = p) (hdone : ∀ m, Done m → ¬ m <:+ p)
    (hob : Q p) (hA : P p phi) :
    ∃ w', (dispatch body limit).at ctx (G.cell p phi) w = (.ok (), w') := by
  induction limit generalizing p phi VD Done w m n with
  | zero => omega
  | succ limit ih =>
    have hd : (dispatch body (limit + 1)).at ctx (G.cell p phi) = (body (dispatch body limit)).at ctx (G.cell p phi) := rfl
    rw [hd]
    by_cases hs : stop (G.cell p phi)
    · rw [(hstop _ _).1 hs]
      exact hact hI
    · rw [(hstop _ _).2 hs]
      obtain ⟨m', n', hmn, hb'⟩ := hbelow p phi m n hob hs hb
      unfold splitStepF
      obtain ⟨ho, hkid⟩ := ti.kid hob hA hs
      have hk1 := fun x => (cell_halfF hG ho phi x).1
      have hk2 := fun x => (cell_halfF hG ho phi x).2
      have o1 := hkid false
      have o2 := hkid true
      obtain ⟨⟨hz1, b1, hdrop1⟩, hz2, b2, hdrop2⟩ := dropF_own hG ho phi
      simp only [hk1, hk2] at hb' ⊢
      have dk : ∀ b, p <:+ b :: p := fun b => List.suffix_cons b p
      have upk : ∀ b, ∀ V : List Bool → Prop, (∀ q, VD q → V q) → ∀ n, n <:+ b :: p → n ≠ b :: p → V n := by
        intro b V hV n hn hne
        exact hV _ (ti.up hI p hp n (suffix_cons_ne hn hne))
      have nodesc : ∀ b, ∀ q, VD q → ¬ b :: p <:+ q := by
        intro b q hq hcq
        have := hopen q hq ((dk b).trans hcq)
        subst this
        exact not_suffix_self hcq
      have noanc : ∀ b, ∀ m, Done m → ¬ m <:+ b :: p := by
        intro b m hm hmc
        by_cases hk : m = b :: p
        · subst hk
          exact nodesc b _ (ti.sub hI _ hm) (List.suffix_refl _)
        · exact hdone m hm (suffix_cons_ne hmc hk)
      -- first half
      obtain ⟨phi1, w1, hp1⟩ := hnode hI (nodesc false) (noanc false) o1
      obtain ⟨i1, acc1⟩ := ti.node hI (nodesc false) (noanc false) (upk false VD fun q hq => hq) o1 hp1
      have hopen1 : ∀ q, (VD q ∨ q = false :: p) → false :: p <:+ q → q = false :: p := by
        rintro q (hq | rfl) hdq
        · exact absurd hdq (nodesc false q hq)
        · rfl
      obtain ⟨w2, hr1⟩ := ih m' n' (false :: p) phi1 (hb' phi1).1 (by omega) _ _ w1 i1 (.inr rfl) hopen1 (noanc false) o1 acc1
      obtain ⟨VD2, Done2, i2, j1, j2, j3, j4⟩ := ti.run hG hstop limit (false :: p) phi1 _ _ w1 w2 i1 (.inr rfl) hopen1 (noanc false) o1 acc1 hr1
      have i3 := ti.remove (x := (dropF1 A ctx.precision (G.cell p phi)).1) (y := (dropF1 A ctx.precision (G.cell p phi)).2) i2 j4 hdrop1
      have new2 : ∀ q, VD2 q → ¬ true :: p <:+ q := by
        intro q hq hdq
        rcases j2 q hq with (hq | rfl) | hq
        · exact nodesc true q hq hdq
        · exact kids_apart (by simp) (List.suffix_refl _) hdq
        · exact kids_apart (by simp) hq hdq
      have done2 : ∀ m, Done2 m → ¬ m <:+ true :: p := by
        intro m hm hmc
        rcases j3 m hm with hm | hm
        · exact noanc true m hm hmc
        · exact kids_apart (by simp) (hm.trans hmc) (List.suffix_refl _)
      -- second half
      obtain ⟨phi2, w3, hp2⟩ := hnode i3 new2 done2 o2
      obtain ⟨i4, acc2⟩ := ti.node i3 new2 done2 (upk true VD2 fun q hq => j1 q (.inl hq)) o2 hp2
      have hopen2 : ∀ q, (VD2 q ∨ q = true :: p) → true :: p <:+ q → q = true :: p := by
        rintro q (hq | rfl) hdq
        · exact absurd hdq (new2 q hq)
        · rfl
      obtain ⟨w4, hr2⟩ := ih m' n' (true :: p) phi2 (hb' phi2).2 (by omega) _ _ w3 i4 (.inr rfl) hopen2 done2 o2 acc2
      rw [Py.bind_run, hp1]
      dsimp only
      rw [Py.bind_run, hr1]
      dsimp only
      rw [Py.bind_run]
      simp only [cacheRemove, Py.modify_run]
      rw [Py.bind_run, hp2]
      dsimp only
      rw [Py.bind_run, hr2]
      exact ⟨_, rfl⟩

end

section
variable {A : FloatOps ℝ} {u : ℝ} {S : SumOps ℝ} {N : ℕ} {δ γ : ℝ} {ctx : RCtx ℝ} {zeros : List (Cx ℝ)} {r g : Cx ℝ → ℝ} {pi M d R h : ℝ}

/-- searches complete if no line turns too little and no rectangle is too small for the samples -/
theorem SumDataF.completes (X : SumDataF A u S N δ γ pi ctx zeros r g M d R h) (hL : LoopsF S)
    (hlong : ∀ re im, ReachedF A ctx.precision zeros ctx.reRan ctx.imRan re im → h ≤ im.2 - im.1)
    (hturn : ∀ re im, ReachedF A ctx.precision zeros ctx.reRan ctx.imRan re im → ∀ e ∈ edges re im,
      lineErr N δ γ + 2 * ((π / 2 * (zeros.length / d) + M) * h) < |Complex.arg (toC (ctx.f e.2 / ctx.f e.1))|)
    (limit m n : ℕ) (hb : BelowF A ctx.precision (u * R) m n ⟨ctx.reRan, ctx.imRan, 0⟩) (hl : m + n < limit)
    (w : World (SumState ℝ) ℝ) (hfuse : w.fuse = none) (hest : w.est = SumState.fresh) :
    ∃ w', simpleArgumentF A (strictLine (sumLineF A S)) pi limit ctx w = (.ok (), w') := by
  have F := X.fine
  have hT : ∀ p, X.Q p → ∀ hz b, lineErr N δ γ + 2 * ((π / 2 * (zeros.length / d) + M) * h) <
      |turn zeros g (X.tree.own p hz b).1 (X.tree.own p hz b).2| := by
    intro p hp hz b
    have hmem : X.tree.own p hz b ∈ edges (X.tree.cell p 0).re (X.tree.cell p 0).im := by
      rw [X.tree.edges_eq]
      exact List.mem_map.2 ⟨(hz, b), by cases hz <;> cases b <;> simp, rfl⟩
    refine lt_of_lt_of_le (hturn _ _ hp _ hmem) ?_
    obtain ⟨x1, x2, e1, e2⟩ := X.tree.own_ends p hz b
    have hlt := (X.tree.elo_lt p hz).le
    have hS := (X.ready p hp).clear hz b
    have s1 : Cell.Has ⟨ctx.reRan, ctx.imRan, 0⟩ (X.tree.own p hz b).1 ∧ Far d zeros (X.tree.own p hz b).1 := by
      rw [e1]; rcases e2 with ⟨rfl, rfl⟩ | ⟨rfl, rfl⟩
      · exact hS _ le_rfl hlt
      · exact hS _ hlt le_rfl
    have s2 : Cell.Has ⟨ctx.reRan, ctx.imRan, 0⟩ (X.tree.own p hz b).2 ∧ Far d zeros (X.tree.own p hz b).2 := by
      rw [e1]; rcases e2 with ⟨rfl, rfl⟩ | ⟨rfl, rfl⟩
      · exact hS _ hlt le_rfl
      · exact hS _ le_rfl hlt
    have ha := F.turns.angle _ _ s1 s2
    have n1 := fun h => F.turns.ne _ s1 (toC_eq_zero.1 h)
    have n2 := fun h => F.turns.ne _ s2 (toC_eq_zero.1 h)
    rw [toC_div]
    refine abs_arg_le ?_
    rw [ha, Complex.arg_div_coe_angle n2 n1]
  have hhits := strict_hits (sumLineF_hits A S ctx)
  have hG : X.tree.FitsF A ctx.precision := treeOf_fits _ _ _ _ _
  have ti : TreeInvF X.tree A (strictLine (sumLineF A S)) ctx (stopF A pi ctx.precision) (actF A pi ctx) X.Q
      (X.tree.Near (turn zeros g) N δ γ u ((π / 2 * (zeros.length / d) + M) * h))
      (fun VD Done w => SumInvE X.tree S ctx.f (fun z => Cell.Has ⟨ctx.reRan, ctx.imRan, 0⟩ z ∧ Far d zeros z) (turn zeros g) N δ γ h
        ((π / 2 * (zeros.length / d) + M) * h) VD VD Done w) := by
    refine ⟨fun h => h.up, fun h => h.done, ?_, fun h1 h2 h3 => X.kid _ _ h1 h2 h3, ?_, fun h hm he => h.remove hm _ _ he, fun h hp => h.addDone hp⟩
    · rintro VD Done w1 w2 p phi i1 h1 h2 h3 h4 h5
      obtain ⟨a1, a2, _⟩ := node_invF F X.h0 h1 h2 h3 (X.ready p h4) i1 h5
      exact ⟨a1, a2⟩
    · rintro VD Done w1 w2 c i1 h1
      obtain ⟨a1, a2, a3, a4⟩ := quiet_actF A pi ctx _ _ _ h1
      exact i1.congr a1 a2 (a3 i1.fuse)
  have hnode : ∀ {VD Done : List Bool → Prop} {w : World (SumState ℝ) ℝ} {p : List Bool},
      SumInvE X.tree S ctx.f (fun z => Cell.Has ⟨ctx.reRan, ctx.imRan, 0⟩ z ∧ Far d zeros z) (turn zeros g) N δ γ h
        ((π / 2 * (zeros.length / d) + M) * h) VD VD Done w →
      (∀ q, VD q → ¬ p <:+ q) → (∀ m, Done m → ¬ m <:+ p) → X.Q p →
      ∃ phi w', phaseOfF A (strictLine (sumLineF A S)) (X.tree.cell p 0).re (X.tree.cell p 0).im ctx w = (.ok phi, w') :=
    fun hI h1 h2 h3 => node_okF F X.h0 hL h1 h2 (X.ready _ h3) (hlong _ _ h3) (hT _ h3) hI
  have hbelow : ∀ p phi m n, X.Q p → ¬ stopF A pi ctx.precision (X.tree.cell p phi) → BelowF A ctx.precision (u * R) m n (X.tree.cell p phi) →
      ∃ m' n', m' + n' + 1 = m + n ∧ ∀ x, BelowF A ctx.precision (u * R) m' n' (halfF1 A ctx.precision (X.tree.cell p phi) x) ∧
        BelowF A ctx.precision (u * R) m' n' (halfF2 A ctx.precision (X.tree.cell p phi) x) := by
    intro p phi m n hp hs hb
    obtain ⟨k1, k2, k3⟩ := reachedF_ready X.hA X.ready0 hp
    unfold stopF at hs
    push Not at hs
    exact belowF_halves X.hA X.hpow (c := X.tree.cell p phi) k1 k3 hs.2 hb
  unfold simpleArgumentF
  obtain ⟨w0, e0, g1, g0, g2, g3, g4⟩ := reset_world w
  rw [Py.bind_run, e0]
  dsimp only
  have hI := X.start (w := w0) (g3.trans hfuse) (g2.trans hest) g4
  obtain ⟨phi, w1, hp⟩ := hnode (p := []) hI (fun q hq => hq.elim) (fun m hm => hm.elim) X.rootQ
  obtain ⟨i1, acc⟩ := ti.node hI (fun q hq => hq.elim) (fun m hm => hm.elim) (fun n hn hne => absurd (List.suffix_nil.1 hn) hne) X.rootQ hp
  have hp : phaseOfF A (strictLine (sumLineF A S)) ctx.reRan ctx.imRan ctx w0 = (.ok phi, w1) := hp
  rw [Py.bind_run, hp]
  dsimp only
  obtain ⟨w', hw'⟩ := ti.completes hG
    (body := simpleDecideF A (strictLine (sumLineF A S)) pi)
    (fun self c => ⟨fun h => by rw [simpleDecideF_eq, if_pos h], fun h => by rw [simpleDecideF_eq, if_neg h]⟩)
    (Below := fun m n => BelowF A ctx.precision (u * R) m n) hbelow hnode
    (fun hI => by
      obtain ⟨_, a, ha⟩ := Finishes.actF A pi ctx _ _ hI.fuse
      exact ⟨_, Prod.ext ha rfl⟩) limit m n [] phi hb hl _ _ w1 i1 (.inr rfl)
    (by
      rintro q (hq | rfl) _
      · exact hq.elim
      · rfl)
    (fun m hm => hm.elim) X.rootQ acc
  exact ⟨w', hw'⟩

end
end PyZeal
