import Verif.Proof.SumSearch
import Verif.Proof.Completes

/-! # Searches with an accurate estimator -/

set_option linter.unusedSectionVars false

namespace PyZeal
open Spec

/-- `Rch` are the rectangles the search comes to look at. Along each side of each of them the estimator returns the change `T` of the argument up to a twentieth of a turn, and has no effects;
round these rectangles the changes add up to one turn per zero. -/
structure Good {σ : Type} (est : LineEst σ ℝ) (ctx : RCtx ℝ) (zeros : List (Cx ℝ)) (Rch : ℝ × ℝ → ℝ × ℝ → Prop) (T : Cx ℝ → Cx ℝ → ℝ) : Prop where
  line : ∀ re im, Rch re im → ∀ e ∈ edges re im, ∀ w, ∃ v,
    est 0 e.1 e.2 ctx w = (.ok v, w) ∧ |v.re - T e.1 e.2| < Real.pi / 10 ∧ T e.2 e.1 = - T e.1 e.2
  around : ∀ re im, Rch re im →
    ((edges re im).map fun e => T e.1 e.2).sum = 2 * Real.pi * (Cell.count ⟨re, im, 0⟩ zeros : ℝ)

/-- no interrupt is pending, the phases in the cache are accurate, and its other entries satisfy `P` -/
structure CacheOk {σ : Type} (T : Cx ℝ → Cx ℝ → ℝ) (P : ℤ → Cx ℝ → Cx ℝ → Cx ℝ → Prop) (w : World σ ℝ) : Prop where
  wf : CacheWF w.cache
  fuse : w.fuse = none
  val : ∀ a b v, w.cache.look 0 a b = some v → |v.re - T a b| < Real.pi / 10
  other : ∀ k, k ≠ 0 → ∀ a b v, w.cache.look k a b = some v → P k a b v

section
variable {σ : Type} {est : LineEst σ ℝ} {ctx : RCtx ℝ} {zeros : List (Cx ℝ)} {Rch : ℝ × ℝ → ℝ × ℝ → Prop} {T : Cx ℝ → Cx ℝ → ℝ}
  {P : ℤ → Cx ℝ → Cx ℝ → Cx ℝ → Prop}

theorem Good.edge (hg : Good est ctx zeros Rch T) {re im : ℝ × ℝ} (hre : Rch re im)
    {e : Cx ℝ × Cx ℝ} (he : e ∈ edges re im) {w : World σ ℝ} (hw : CacheOk T P w) :
    ∃ v w', edgeMoment est 0 ctx e w = (.ok v, w') ∧ CacheOk T P w' ∧ |v.re - T e.1 e.2| < Real.pi / 10 ∧ w'.log = w.log ∧ w'.added = w.added := by
  rw [edgeMoment_run]
  dsimp only
  have hw1 : CacheOk T P { w with cache := (w.cache.retrieve 0 e.1 e.2).2 } :=
    ⟨hw.wf.of_data (w.cache.retrieve_data _ _ _), hw.fuse, fun a b v hv => hw.val a b v ((EstCache.look_retrieve _ _ _ _ _ _ _).symm.trans hv),
      fun k hk a b v hv => hw.other k hk a b v ((EstCache.look_retrieve _ _ _ _ _ _ _).symm.trans hv)⟩
  have hcomp : ∃ v w', edgeMoment.compute est 0 ctx e { w with cache := (w.cache.retrieve 0 e.1 e.2).2 } = (.ok v, w') ∧ CacheOk T P w' ∧
      |v.re - T e.1 e.2| < Real.pi / 10 ∧ w'.log = w.log ∧ w'.added = w.added := by
    obtain ⟨v, h1, h2, h3⟩ := hg.line re im hre e he { w with cache := (w.cache.retrieve 0 e.1 e.2).2 }
    rw [compute_run, World.tick_none hw1.fuse]
    dsimp only
    rw [h1]
    dsimp only
    refine ⟨v, _, rfl, ⟨(hw1.wf.store _ _ _ _).store _ _ _ _, hw.fuse, ?_, ?_⟩, h2, rfl, rfl⟩
    swap
    · intro k hk a b u hu
      dsimp only at hu
      rw [EstCache.look_store, EstCache.look_store, if_neg fun h => hk h.1.symm, if_neg fun h => hk h.1.symm] at hu
      exact hw1.other k hk a b u hu
    intro a b u hu
    dsimp only at hu
    rw [EstCache.look_store, EstCache.look_store] at hu
    split at hu
    · rename_i hk
      obtain ⟨_, rfl, rfl⟩ := hk
      simp only [Option.some.injEq] at hu
      rw [← hu, h3, Cx.neg_re]
      have : -v.re - -T e.1 e.2 = -(v.re - T e.1 e.2) := by ring
      rw [this, abs_neg]
      exact h2
    · split at hu
      · rename_i hk
        obtain ⟨_, rfl, rfl⟩ := hk
        simp only [Option.some.injEq] at hu
        rw [← hu]
        exact h2
      · exact hw1.val a b u hu
  rcases hv : w.cache.look 0 e.1 e.2 with _ | v
  · exact hcomp
  · dsimp only
    by_cases h0 : v ≠ 0
    · rw [if_pos h0]
      exact ⟨v, _, rfl, hw1, hw.val _ _ _ hv, rfl, rfl⟩
    · rw [if_neg h0]
      exact hcomp

theorem Good.sum (hg : Good est ctx zeros Rch T) {re im : ℝ × ℝ} (hre : Rch re im)
    (es : List (Cx ℝ × Cx ℝ)) (hes : ∀ e ∈ es, e ∈ edges re im) (phi : Cx ℝ) {w : World σ ℝ} (hw : CacheOk T P w) :
    ∃ v w', sumEdges est 0 ctx es phi w = (.ok v, w') ∧ CacheOk T P w' ∧
      |v.re - (phi.re + (es.map fun e => T e.1 e.2).sum)| ≤ es.length * (Real.pi / 10) ∧ (es ≠ [] → |v.re - (phi.re + (es.map fun e => T e.1 e.2).sum)| <
        es.length * (Real.pi / 10)) ∧ w'.log = w.log ∧ w'.added = w.added := by
  induction es generalizing phi w with
  | nil => exact ⟨phi, w, rfl, hw, by simp, fun h => absurd rfl h, rfl, rfl⟩
  | cons e es ih =>
    obtain ⟨d, w1, e1, i1, a1, l1, r1⟩ := hg.edge hre (hes e (by simp)) hw
    obtain ⟨v, w2, e2, i2, a2, _, l2, r2⟩ := ih (fun e' he' => hes e' (by simp [he'])) (phi + d) i1
    have key : |v.re - (phi.re + ((e :: es).map fun e => T e.1 e.2).sum)| < (e :: es).length * (Real.pi / 10) := by
      simp only [List.map_cons, List.sum_cons, List.length_cons, Nat.cast_add, Nat.cast_one]
      have e3 : v.re - (phi.re + (T e.1 e.2 + (es.map fun e => T e.1 e.2).sum)) =
          (v.re - ((phi + d).re + (es.map fun e => T e.1 e.2).sum)) + (d.re - T e.1 e.2) := by rw [Cx.add_re]; ring
      rw [e3]
      refine lt_of_le_of_lt (abs_add_le _ _) ?_
      rw [add_mul, one_mul]
      exact add_lt_add_of_le_of_lt a2 a1
    refine ⟨v, w2, ?_, i2, key.le, fun _ => key, l2.trans l1, r2.trans r1⟩
    unfold sumEdges
    rw [Py.bind_run, e1]
    exact e2

theorem Good.node (hg : Good est ctx zeros Rch T) {re im : ℝ × ℝ} (hre : Rch re im) {w : World σ ℝ} (hw : CacheOk T P w) :
    ∃ phi w', phaseOf est re im ctx w = (.ok phi, w') ∧ CacheOk T P w' ∧
      |phi - 2 * Real.pi * (Cell.count ⟨re, im, 0⟩ zeros : ℝ)| < 2 / 10 * (2 * Real.pi) ∧ w'.log = w.log ++ [⟨re, im, phi⟩] ∧ w'.added = w.added := by
  obtain ⟨v, w1, e1, i1, _, a2, l1, r1⟩ := hg.sum hre (edges re im) (fun e he => he) 0 hw
  refine ⟨v.re, { w1 with log := w1.log ++ [⟨re, im, v.re⟩] }, ?_, ⟨i1.wf, i1.fuse, i1.val, i1.other⟩, ?_, by rw [l1], r1⟩
  · unfold phaseOf calcMoment
    rw [Py.bind_run, e1]
    rfl
  · have := a2 (by simp [edges])
    rw [hg.around re im hre, Cx.zero_re, zero_add] at this
    refine lt_of_lt_of_eq this ?_
    simp only [edges, List.length_cons, List.length_nil]
    push_cast
    ring

/-- The recursive search from a rectangle. At a final rectangle `c` the algorithm adds candidates `A` with `Q c A`. -/
theorem Good.runQ (hg : Good est ctx zeros Rch T) {body : Decide σ ℝ → Decide σ ℝ} {stop : Cell ℝ → Prop} {act : Cell ℝ → Py (World σ ℝ) Unit}
    (hstop : Stops est ctx body stop act) {Q : Cell ℝ → List (Root ℝ) → Prop}
    (hsm : ∀ c, ¬ stop c → Rch c.re c.im → |c.phi - 2 * Real.pi * (Cell.count c zeros : ℝ)| < 2 / 10 * (2 * Real.pi) → ¬ Cell.Small ctx.precision c ∧
      ∀ phi, Rch (half1 ctx.precision c phi).re (half1 ctx.precision c phi).im ∧ Rch (half2 ctx.precision c phi).re (half2 ctx.precision c phi).im)
    (hact : ∀ c w, stop c → Rch c.re c.im → |c.phi - 2 * Real.pi * (Cell.count c zeros : ℝ)| < 2 / 10 * (2 * Real.pi) → CacheOk T P w →
      ∃ w' A, act c w = (.ok (), w') ∧ CacheOk T P w' ∧ w'.log = w.log ∧ w'.added = w.added ++ A ∧ Q c A)
    (hQ : ∀ c phi1 phi2 A1 A2, Q (half1 ctx.precision c phi1) A1 → Q (half2 ctx.precision c phi2) A2 → Q c (A1 ++ A2))
    (limit m n : ℕ) (c : Cell ℝ)
    (hb : Cell.Below ctx.precision m n c) (hl : m + n < limit) (hre : Rch c.re c.im)
    (hphi : |c.phi - 2 * Real.pi * (Cell.count c zeros : ℝ)| < 2 / 10 * (2 * Real.pi)) (w : World σ ℝ) (hw : CacheOk T P w) :
    ∃ w' L A, (dispatch body limit).at ctx c w = (.ok (), w') ∧ CacheOk T P w' ∧ w'.log = w.log ++ L ∧
      (∀ c' ∈ L, Rch c'.re c'.im ∧ |c'.phi - 2 * Real.pi * (Cell.count c' zeros : ℝ)| < 2 / 10 * (2 * Real.pi)) ∧ w'.added = w.added ++ A ∧ Q c A := by
  induction limit generalizing c m n w with
  | zero => omega
  | succ limit ih =>
    have hd : (dispatch body (limit + 1)).at ctx c = (body (dispatch body limit)).at ctx c := rfl
    rw [hd]
    by_cases hs : stop c
    · rw [(hstop _ _).1 hs]
      obtain ⟨w', A, a1, a2, a3, a4, a5⟩ := hact c w hs hre hphi hw
      exact ⟨w', [], A, a1, a2, by simp [a3], by simp, a4, a5⟩
    · rw [(hstop _ _).2 hs]
      obtain ⟨t2, hrh⟩ := hsm c hs hre hphi
      obtain ⟨m', n', hmn, hb⟩ := below_halves t2 hb
      unfold splitStep
      have hp1 : ∀ phi, (half1 ctx.precision c phi).re = (half1 ctx.precision c 0).re ∧ (half1 ctx.precision c phi).im = (half1 ctx.precision c 0).im ∧
          (half1 ctx.precision c phi).phi = phi := by intro phi; unfold half1; split <;> exact ⟨rfl, rfl, rfl⟩
      have hp2 : ∀ phi, (half2 ctx.precision c phi).re = (half2 ctx.precision c 0).re ∧ (half2 ctx.precision c phi).im = (half2 ctx.precision c 0).im ∧
          (half2 ctx.precision c phi).phi = phi := by intro phi; unfold half2; split <;> exact ⟨rfl, rfl, rfl⟩
      have cell : ∀ (c' : Cell ℝ) re im phi, c'.re = re → c'.im = im → c'.phi = phi → c' = ⟨re, im, phi⟩ := by
        rintro ⟨_, _, _⟩ _ _ _ rfl rfl rfl; rfl
      have remove : ∀ (w : World σ ℝ) a b, CacheOk T P w → CacheOk T P { w with cache := w.cache.remove 0 a b } := by
        intro w a b hw
        refine ⟨hw.wf.remove _ _ _, hw.fuse, fun x y v hv => ?_, fun k hk x y v hv => ?_⟩ <;> dsimp only at hv <;> rw [EstCache.look_remove hw.wf] at hv <;>
          split at hv
        · simp at hv
        · exact hw.val x y v hv
        · simp at hv
        · exact hw.other k hk x y v hv
      obtain ⟨phi1, w1, e1, i1, a1, l1, r1⟩ := hg.node (hrh 0).1 hw
      obtain ⟨w2, L2, A2, e2, i2, l2, a2, r2, p2⟩ := ih m' n' (half1 ctx.precision c phi1) (hb phi1).1 (by omega) (hrh phi1).1 (by
        rw [(hp1 phi1).2.2]; exact cell (half1 ctx.precision c phi1) _ _ _ (hp1 phi1).1 (hp1 phi1).2.1 (hp1 phi1).2.2 ▸ a1) w1 i1
      have i3 := remove w2 (dropEdge1 ctx.precision c).1 (dropEdge1 ctx.precision c).2 i2
      obtain ⟨phi2, w4, e4, i4, a4, l4, r4⟩ := hg.node (hrh 0).2 i3
      obtain ⟨w5, L5, A5, e5, i5, l5, a5, r5, p5⟩ := ih m' n' (half2 ctx.precision c phi2) (hb phi2).2 (by omega) (hrh phi2).2 (by
        rw [(hp2 phi2).2.2]; exact cell (half2 ctx.precision c phi2) _ _ _ (hp2 phi2).1 (hp2 phi2).2.1 (hp2 phi2).2.2 ▸ a4) w4 i4
      have i6 := remove w5 (dropEdge2 ctx.precision c).1 (dropEdge2 ctx.precision c).2 i5
      refine ⟨_, ⟨(half1 ctx.precision c 0).re, (half1 ctx.precision c 0).im, phi1⟩ :: L2 ++
        ⟨(half2 ctx.precision c 0).re, (half2 ctx.precision c 0).im, phi2⟩ :: L5, A2 ++ A5, ?_, i6, ?_, ?_, ?_, hQ c _ _ _ _ p2 p5⟩
      · rw [Py.bind_run, e1]
        dsimp only
        rw [Py.bind_run, e2]
        dsimp only
        rw [Py.bind_run]
        simp only [cacheRemove, Py.modify_run]
        rw [Py.bind_run, e4]
        dsimp only
        rw [Py.bind_run, e5]
        rfl
      · dsimp only
        rw [l5, l4]
        dsimp only
        rw [l2, l1]
        simp
      · intro c' hc'
        simp only [List.cons_append, List.mem_cons, List.mem_append] at hc'
        rcases hc' with rfl | h | rfl | h
        · exact ⟨(hrh 0).1, a1⟩
        · exact a2 c' h
        · exact ⟨(hrh 0).2, a4⟩
        · exact a5 c' h
      · dsimp only
        rw [r5, r4]
        dsimp only
        rw [r2, r1]
        simp

/-- a whole search, from any state without a pending interrupt -/
theorem Good.searchQ (hg : Good est ctx zeros Rch T) {body : Decide σ ℝ → Decide σ ℝ} {stop : Cell ℝ → Prop} {act : Cell ℝ → Py (World σ ℝ) Unit}
    (hstop : Stops est ctx body stop act) {Q : Cell ℝ → List (Root ℝ) → Prop}
    (hsm : ∀ c, ¬ stop c → Rch c.re c.im → |c.phi - 2 * Real.pi * (Cell.count c zeros : ℝ)| < 2 / 10 * (2 * Real.pi) → ¬ Cell.Small ctx.precision c ∧
      ∀ phi, Rch (half1 ctx.precision c phi).re (half1 ctx.precision c phi).im ∧ Rch (half2 ctx.precision c phi).re (half2 ctx.precision c phi).im)
    (hact : ∀ c w, stop c → Rch c.re c.im → |c.phi - 2 * Real.pi * (Cell.count c zeros : ℝ)| < 2 / 10 * (2 * Real.pi) → CacheOk T P w →
      ∃ w' A, act c w = (.ok (), w') ∧ CacheOk T P w' ∧ w'.log = w.log ∧ w'.added = w.added ++ A ∧ Q c A)
    (hQ : ∀ c phi1 phi2 A1 A2, Q (half1 ctx.precision c phi1) A1 → Q (half2 ctx.precision c phi2) A2 → Q c (A1 ++ A2))
    (hwhole : Rch ctx.reRan ctx.imRan) (limit m n : ℕ)
    (hb : Cell.Below ctx.precision m n ⟨ctx.reRan, ctx.imRan, 0⟩) (hl : m + n < limit) (w : World σ ℝ) (hfuse : w.fuse = none) :
    ∃ w' phi, calcRoots est body limit ctx w = (.ok (), w') ∧ w'.fuse = none ∧
      (∀ c ∈ newCells w w', Rch c.re c.im ∧ |c.phi - 2 * Real.pi * (Cell.count c zeros : ℝ)| < 2 / 10 * (2 * Real.pi)) ∧
      Q ⟨ctx.reRan, ctx.imRan, phi⟩ (newRoots w w') := by
  obtain ⟨w0, e0, g1, g0, g2, g3, g4⟩ := reset_world w
  have hI : CacheOk T P w0 := by
    refine ⟨CacheWF.of_data (c := EstCache.init false) (CacheWF.init _) g4, g3.trans hfuse, fun a b v hv => ?_, fun k _ a b v hv => ?_⟩ <;>
    · unfold EstCache.look at hv
      rw [g4] at hv
      simp at hv
  obtain ⟨phi, w1, e1, i1, a1, l1, r1⟩ := hg.node hwhole hI
  obtain ⟨w2, L, A, e2, i2, l2, a2, r2, p2⟩ := hg.runQ hstop hsm hact hQ limit m n ⟨ctx.reRan, ctx.imRan, phi⟩ hb hl hwhole a1 w1 i1
  refine ⟨w2, phi, ?_, i2.fuse, ?_, ?_⟩
  · unfold calcRoots
    rw [Py.bind_run, e0]
    dsimp only
    rw [Py.bind_run, e1]
    exact e2
  · intro c hc
    unfold newCells at hc
    rw [l2, l1, g1] at hc
    simp only [List.append_assoc, List.drop_left, List.mem_append, List.mem_singleton] at hc
    rcases hc with rfl | h
    · exact ⟨hwhole, a1⟩
    · exact a2 c h
  · unfold newRoots
    rw [r2, r1, g0, List.drop_left]
    exact p2

end

section
variable {σ : Type} {est : LineEst σ ℝ} {ctx : RCtx ℝ} {zeros : List (Cx ℝ)} {T : Cx ℝ → Cx ℝ → ℝ}

/-- searches whose final steps do not use the estimator -/
theorem Good.search (hg : Good est ctx zeros (Reached ctx.precision zeros ctx.reRan ctx.imRan) T) {body : Decide σ ℝ → Decide σ ℝ} {stop : Cell ℝ → Prop}
    {act : Cell ℝ → Py (World σ ℝ) Unit}
    (hstop : Stops est ctx body stop act) (hsm : ∀ c, ¬ stop c → Cell.Turns Real.pi c ∧ ¬ Cell.Small ctx.precision c)
    (hact : Quiet act) (hfin : ∀ c, Finishes (act c)) {P : Root ℝ → Prop} (hgood : AddsGood P act) (limit m n : ℕ)
    (hb : Cell.Below ctx.precision m n ⟨ctx.reRan, ctx.imRan, 0⟩) (hl : m + n < limit) (w : World σ ℝ) (hfuse : w.fuse = none) :
    ∃ w', calcRoots est body limit ctx w = (.ok (), w') ∧ w'.fuse = none ∧
      (∀ c ∈ newCells w w', Reached ctx.precision zeros ctx.reRan ctx.imRan c.re c.im ∧ |c.phi - 2 * Real.pi * (Cell.count c zeros : ℝ)| < 2 / 10 * (2 * Real.pi)) ∧ ∀ r ∈ newRoots w w', P r := by
  obtain ⟨w', phi, h1, h2, h3, h4⟩ := hg.searchQ (P := fun _ _ _ _ => True) hstop (Q := fun _ A => ∀ r ∈ A, P r) (fun c hs hre hphi => by
      obtain ⟨t1, t2⟩ := hsm c hs
      exact ⟨t2, fun phi => reached_halves hre t2 ((approx_cell Real.pi_pos hphi).1.1 t1) phi⟩) (fun c w _ _ _ hw => by
      obtain ⟨f1, _, f2⟩ := hfin c w hw.fuse
      rcases he : act c w with ⟨e, w'⟩
      rw [he] at f1 f2
      dsimp only at f1 f2
      subst f2
      obtain ⟨q1, q2, q3, q4⟩ := hact c w w' he
      obtain ⟨A, a1, a2⟩ := hgood c w w' he
      exact ⟨w', A, rfl, ⟨q1 ▸ hw.wf, f1, fun a b v hv => hw.val a b v (q1 ▸ hv), fun _ _ _ _ _ _ => trivial⟩, q4, a1, a2⟩)
    (fun c _ _ A1 A2 h1 h2 r hr => (List.mem_append.1 hr).elim (h1 r) (h2 r)) .whole limit m n hb hl w hfuse
  exact ⟨w', h1, h2, h3, h4⟩

end
end PyZeal
