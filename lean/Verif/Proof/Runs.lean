import Verif.Proof.Search
import Verif.Proof.Closure

/-! # Runs of the search with any outcome: depth, justification of candidates -/

set_option linter.unusedSectionVars false

namespace PyZeal
open Spec
variable {K : Type} {σ : Type} [Field K] [LinearOrder K] [IsStrictOrderedRing K] [FloorRing K]

/-! ## Depth -/

theorem below_halves {p : ℤ × ℤ} {c : Cell K} (hs : ¬ Cell.Small p c) {m n : ℕ} (h : Cell.Below p m n c) :
    ∃ m' n', m' + n' + 1 = m + n ∧
      ∀ phi, Cell.Below p m' n' (half1 p c phi) ∧ Cell.Below p m' n' (half2 p c phi) := by
  have hm : c.re.2 - c.re.1 < 2 ^ m * eps10 K p.1 := h.1
  have hn : c.im.2 - c.im.1 < 2 ^ n * eps10 K p.2 := h.2
  have e1 := eps10_pos (K := K) p.1
  have e2 := eps10_pos (K := K) p.2
  by_cases hsp : SplitRe p c
  · have hw : eps10 K p.1 ≤ c.re.2 - c.re.1 := by
      by_contra hlt
      push Not at hlt
      have : (c.re.2 - c.re.1) / eps10 K p.1 < 1 := (div_lt_one e1).2 hlt
      exact hs ⟨hlt, (div_lt_one e2).1 (lt_trans hsp this)⟩
    rcases m with _ | m
    · simp at hm; linarith
    · refine ⟨m, n, by omega, fun phi => ?_⟩
      have u : ∀ q : ℤ, (10 : K) ^ (-q) = eps10 K q := fun _ => rfl
      simp only [Cell.Below, half1, half2, if_pos hsp, u]
      rw [pow_succ] at hm
      exact ⟨⟨by linarith, hn⟩, by linarith, hn⟩
  · have hw : eps10 K p.2 ≤ c.im.2 - c.im.1 := by
      by_contra hlt
      push Not at hlt
      have : (c.im.2 - c.im.1) / eps10 K p.2 < 1 := (div_lt_one e2).2 hlt
      exact hs ⟨(div_lt_one e1).1 (lt_of_le_of_lt (not_lt.1 hsp) this), hlt⟩
    rcases n with _ | n
    · simp at hn; linarith
    · refine ⟨m, n, by omega, fun phi => ?_⟩
      have u : ∀ q : ℤ, (10 : K) ^ (-q) = eps10 K q := fun _ => rfl
      simp only [Cell.Below, half1, half2, if_neg hsp, u]
      rw [pow_succ] at hn
      exact ⟨⟨hm, by linarith⟩, hm, by linarith⟩

theorem splitStep_congr {est : LineEst σ K} {s1 s2 : Decide σ K} {ctx : RCtx K} {c : Cell K}
    (h1 : ∀ phi, s1.at ctx (half1 ctx.precision c phi) = s2.at ctx (half1 ctx.precision c phi))
    (h2 : ∀ phi, s1.at ctx (half2 ctx.precision c phi) = s2.at ctx (half2 ctx.precision c phi))
    (e1 e2 : Cx K × Cx K) : splitStep est s1 ctx c e1 e2 = splitStep est s2 ctx c e1 e2 := by
  unfold splitStep
  simp only [h1, h2]

/-- beyond the depth bound the recursion limit does not matter: that deep the recursion never goes -/
theorem dispatch_limit {est : LineEst σ K} {ctx : RCtx K} {body : Decide σ K → Decide σ K}
    {stop : Cell K → Prop} {act : Cell K → Py (World σ K) Unit} (hstop : Stops est ctx body stop act)
    (hsmall : ∀ c, ¬ stop c → ¬ Cell.Small ctx.precision c) (l1 l2 m n : ℕ) (c : Cell K)
    (hc : Cell.Below ctx.precision m n c) (h1 : m + n < l1) (h2 : m + n < l2) :
    (dispatch body l1).at ctx c = (dispatch body l2).at ctx c := by
  induction l1 generalizing l2 m n c with
  | zero => omega
  | succ l1 ih =>
    rcases l2 with _ | l2
    · omega
    · have hd1 : (dispatch body (l1 + 1)).at ctx c = (body (dispatch body l1)).at ctx c := rfl
      have hd2 : (dispatch body (l2 + 1)).at ctx c = (body (dispatch body l2)).at ctx c := rfl
      rw [hd1, hd2]
      by_cases hs : stop c
      · rw [(hstop _ c).1 hs, (hstop _ c).1 hs]
      · rw [(hstop _ c).2 hs, (hstop _ c).2 hs]
        obtain ⟨m', n', hmn, hb⟩ := below_halves (hsmall c hs) hc
        exact splitStep_congr (fun phi => ih l2 m' n' _ (hb phi).1 (by omega) (by omega))
          (fun phi => ih l2 m' n' _ (hb phi).2 (by omega) (by omega)) _ _

theorem phaseOf_never {est : LineEst σ K} {ctx : RCtx K}
    (hest : ∀ order a b, Never .recursionError (est order a b ctx)) (re im : K × K) :
    Never .recursionError (phaseOf est re im ctx) := by
  have hcl := Never.closed (σ := σ) ctx.f .recursionError (by simp [Err.ofEstimator]) (by simp)
  unfold phaseOf
  refine Never.bind (hcl.calcMoment hest 0 re im) fun m => ?_
  exact Never.bind (fun w => by simp) fun _ => Never.pure _

theorem dispatch_never {est : LineEst σ K} {ctx : RCtx K} {body : Decide σ K → Decide σ K}
    {stop : Cell K → Prop} {act : Cell K → Py (World σ K) Unit} (hstop : Stops est ctx body stop act)
    (hsmall : ∀ c, ¬ stop c → ¬ Cell.Small ctx.precision c)
    (hest : ∀ order a b, Never .recursionError (est order a b ctx))
    (hact : ∀ c, stop c → Never .recursionError (act c)) (limit m n : ℕ) (c : Cell K)
    (hc : Cell.Below ctx.precision m n c) (h1 : m + n < limit) :
    Never .recursionError ((dispatch body limit).at ctx c) := by
  induction limit generalizing m n c with
  | zero => omega
  | succ l ih =>
    have hd1 : (dispatch body (l + 1)).at ctx c = (body (dispatch body l)).at ctx c := rfl
    rw [hd1]
    by_cases hs : stop c
    · rw [(hstop _ c).1 hs]; exact hact c hs
    · rw [(hstop _ c).2 hs]
      obtain ⟨m', n', hmn, hb⟩ := below_halves (hsmall c hs) hc
      unfold splitStep
      refine Never.bind (phaseOf_never hest _ _) fun phi1 => ?_
      refine Never.bind (ih m' n' _ (hb phi1).1 (by omega)) fun _ => ?_
      refine Never.bind (fun w => by simp [cacheRemove]) fun _ => ?_
      refine Never.bind (phaseOf_never hest _ _) fun phi2 => ?_
      exact Never.bind (ih m' n' _ (hb phi2).2 (by omega)) fun _ w => by simp [cacheRemove]

/-- depth bound for the whole search -/
theorem calcRoots_limit {est : LineEst σ K} {ctx : RCtx K} {body : Decide σ K → Decide σ K}
    {stop : Cell K → Prop} {act : Cell K → Py (World σ K) Unit} (hstop : Stops est ctx body stop act)
    (hsmall : ∀ c, ¬ stop c → ¬ Cell.Small ctx.precision c) (l1 l2 m n : ℕ)
    (hm : ctx.reRan.2 - ctx.reRan.1 < 2 ^ m * eps10 K ctx.precision.1)
    (hn : ctx.imRan.2 - ctx.imRan.1 < 2 ^ n * eps10 K ctx.precision.2)
    (h1 : m + n < l1) (h2 : m + n < l2) : calcRoots est body l1 ctx = calcRoots est body l2 ctx := by
  unfold calcRoots
  congr 1
  funext _
  congr 1
  funext phi
  exact dispatch_limit hstop hsmall l1 l2 m n ⟨ctx.reRan, ctx.imRan, phi⟩ ⟨hm, hn⟩ h1 h2

theorem calcRoots_never {est : LineEst σ K} {ctx : RCtx K} {body : Decide σ K → Decide σ K}
    {stop : Cell K → Prop} {act : Cell K → Py (World σ K) Unit} (hstop : Stops est ctx body stop act)
    (hsmall : ∀ c, ¬ stop c → ¬ Cell.Small ctx.precision c)
    (hest : ∀ order a b, Never .recursionError (est order a b ctx))
    (hact : ∀ c, stop c → Never .recursionError (act c)) (limit m n : ℕ)
    (hm : ctx.reRan.2 - ctx.reRan.1 < 2 ^ m * eps10 K ctx.precision.1)
    (hn : ctx.imRan.2 - ctx.imRan.1 < 2 ^ n * eps10 K ctx.precision.2) (h1 : m + n < limit) :
    Never .recursionError (calcRoots est body limit ctx) := by
  unfold calcRoots
  refine Never.bind (fun w => by simp [resetCache]) fun _ => ?_
  refine Never.bind (phaseOf_never hest _ _) fun phi => ?_
  exact dispatch_never hstop hsmall hest hact limit m n ⟨ctx.reRan, ctx.imRan, phi⟩ ⟨hm, hn⟩ h1

/-! ## Justification -/

theorem Spec.Cell.In.trans {a b c : Cell K} (h1 : Cell.In a b) (h2 : Cell.In b c) : Cell.In a c := by
  obtain ⟨a1, a2, a3, a4, a5, a6⟩ := h1
  obtain ⟨b1, b2, b3, b4, b5, b6⟩ := h2
  exact ⟨le_trans b1 a1, a2, le_trans a3 b3, le_trans b4 a4, a5, le_trans a6 b6⟩

theorem in_halves {p : ℤ × ℤ} {c : Cell K} (h : c.Proper) (phi1 phi2 : K) :
    Cell.In (half1 p c phi1) c ∧ Cell.In (half2 p c phi2) c := by
  obtain ⟨h1, h2⟩ := h
  unfold Cell.In half1 half2
  split <;> dsimp only <;> refine ⟨⟨?_, ?_, ?_, ?_, ?_, ?_⟩, ?_, ?_, ?_, ?_, ?_, ?_⟩ <;> linarith

/-- effect of the action at a final cell, whatever its outcome -/
def ActJust (f : Cx K → Cx K) (stop : Cell K → Prop) (act : Cell K → Py (World σ K) Unit)
    (Just : Cell K → Root K → Prop) : Prop :=
  ∀ c w, stop c → (act c w).2.log = w.log ∧ ∃ A, (act c w).2.added = w.added ++ A ∧
    ∀ r ∈ A, (r.2 = 0 ∧ f r.1 = 0) ∨ Just c r

/-- what a step of the search may do: evaluate rectangles inside `c`, add boundary zeros and candidates belonging
to evaluated rectangles -/
def Justified (f : Cx K → Cx K) (stop : Cell K → Prop) (Just : Cell K → Root K → Prop) (c : Cell K)
    (w w' : World σ K) : Prop :=
  ∃ L A, w'.log = w.log ++ L ∧ w'.added = w.added ++ A ∧ (∀ l ∈ L, Cell.In l c) ∧
    ∀ r ∈ A, (r.2 = 0 ∧ f r.1 = 0) ∨ ∃ l ∈ c :: L, stop l ∧ Just l r

theorem phaseOf_any {est : LineEst σ K} {ctx : RCtx K} (hest : BoundaryHits est ctx) (re im : K × K)
    (w : World σ K) :
    (∃ zs, (phaseOf est re im ctx w).2.added = w.added ++ zs ∧ ∀ r ∈ zs, r.2 = 0 ∧ ctx.f r.1 = 0) ∧
    match (phaseOf est re im ctx w).1 with
    | .ok phi => (phaseOf est re im ctx w).2.log = w.log ++ [⟨re, im, phi⟩]
    | .error _ => (phaseOf est re im ctx w).2.log = w.log := by
  unfold phaseOf
  rw [Py.bind_run]
  have hm := calcMoment_hits hest 0 re im w
  rcases hc : calcMoment est 0 re im ctx w with ⟨_ | m, w1⟩ <;> rw [hc] at hm <;>
    obtain ⟨h1, h2, h3, zs, h4, h5⟩ := hm
  · exact ⟨⟨zs, h4, h5⟩, h2⟩
  · dsimp only at h1 h2 h3 h4
    simp only [Py.bind_run, Py.modify_run, Py.pure_run]
    exact ⟨⟨zs, h4, h5⟩, by rw [h2]⟩

theorem dispatch_justified {est : LineEst σ K} {ctx : RCtx K} (hest : BoundaryHits est ctx)
    {body : Decide σ K → Decide σ K} {stop : Cell K → Prop} {act : Cell K → Py (World σ K) Unit}
    (hstop : Stops est ctx body stop act) {Just : Cell K → Root K → Prop} (hact : ActJust ctx.f stop act Just)
    (limit : ℕ) (c : Cell K) (hc : c.Proper) (w : World σ K) :
    Justified ctx.f stop Just c w ((dispatch body limit).at ctx c w).2 := by
  induction limit generalizing c w with
  | zero => exact ⟨[], [], by simp [dispatch, Decide.at], by simp [dispatch, Decide.at], by simp, by simp⟩
  | succ limit ih =>
    have hd : (dispatch body (limit + 1)).at ctx c = (body (dispatch body limit)).at ctx c := rfl
    rw [hd]
    by_cases hs : stop c
    · rw [(hstop _ c).1 hs]
      obtain ⟨h1, A, h2, h3⟩ := hact c w hs
      refine ⟨[], A, by simpa using h1, h2, by simp, fun r hr => ?_⟩
      rcases h3 r hr with h | h
      · exact Or.inl h
      · exact Or.inr ⟨c, by simp, hs, h⟩
    · rw [(hstop _ c).2 hs]
      unfold splitStep
      rw [Py.bind_run]
      obtain ⟨⟨z1, a1, a2⟩, a3⟩ := phaseOf_any hest (half1 ctx.precision c 0).re (half1 ctx.precision c 0).im w
      rcases hp1 : phaseOf est (half1 ctx.precision c 0).re (half1 ctx.precision c 0).im ctx w
        with ⟨e | phi1, w1⟩ <;> rw [hp1] at a1 a3
      · exact ⟨[], z1, by simpa using a3, a1, by simp, fun r hr => Or.inl (a2 r hr)⟩
      dsimp only at a1 a3 ⊢
      have e1 : (⟨(half1 ctx.precision c 0).re, (half1 ctx.precision c 0).im, phi1⟩ : Cell K) =
          half1 ctx.precision c phi1 := by unfold half1; split <;> rfl
      rw [e1] at a3
      rw [Py.bind_run]
      obtain ⟨L1, A1, b1, b2, b3, b4⟩ := ih (half1 ctx.precision c phi1) (proper_halves _ phi1 0 hc).1 w1
      have i1 := (in_halves (p := ctx.precision) hc phi1 0).1
      have J1 : ∀ l ∈ half1 ctx.precision c phi1 :: L1, Cell.In l c := by
        intro l hl
        rcases List.mem_cons.1 hl with rfl | hl
        · exact i1
        · exact (b3 l hl).trans i1
      have K1 : ∀ r ∈ z1 ++ A1, (r.2 = 0 ∧ ctx.f r.1 = 0) ∨
          ∃ l ∈ c :: half1 ctx.precision c phi1 :: L1, stop l ∧ Just l r := by
        intro r hr
        rcases List.mem_append.1 hr with hr | hr
        · exact Or.inl (a2 r hr)
        · rcases b4 r hr with h | ⟨l, hl, h⟩
          · exact Or.inl h
          · exact Or.inr ⟨l, List.mem_cons_of_mem _ hl, h⟩
      rcases hr1 : (dispatch body limit).at ctx (half1 ctx.precision c phi1) w1 with ⟨e | _, w2⟩ <;>
        rw [hr1] at b1 b2
      · refine ⟨half1 ctx.precision c phi1 :: L1, z1 ++ A1, ?_, ?_, J1, K1⟩
        · dsimp only at b1 ⊢; rw [b1, a3]; simp
        · dsimp only at b2 ⊢; rw [b2, a1]; simp
      dsimp only at b1 b2 ⊢
      rw [Py.bind_run]
      simp only [cacheRemove, Py.modify_run]
      rw [Py.bind_run]
      obtain ⟨⟨z2, c1, c2⟩, c3⟩ := phaseOf_any hest (half2 ctx.precision c 0).re (half2 ctx.precision c 0).im
        { w2 with cache := w2.cache.remove 0 (dropEdge1 ctx.precision c).1 (dropEdge1 ctx.precision c).2 }
      rcases hp2 : phaseOf est (half2 ctx.precision c 0).re (half2 ctx.precision c 0).im ctx
        { w2 with cache := w2.cache.remove 0 (dropEdge1 ctx.precision c).1 (dropEdge1 ctx.precision c).2 }
        with ⟨e | phi2, w3⟩ <;> rw [hp2] at c1 c3
      · refine ⟨half1 ctx.precision c phi1 :: L1, (z1 ++ A1) ++ z2, ?_, ?_, J1, ?_⟩
        · dsimp only at c3 ⊢; rw [c3, b1, a3]; simp
        · dsimp only at c1 ⊢; rw [c1, b2, a1]; simp
        · intro r hr
          rcases List.mem_append.1 hr with hr | hr
          · exact K1 r hr
          · exact Or.inl (c2 r hr)
      dsimp only at c1 c3 ⊢
      have e2 : (⟨(half2 ctx.precision c 0).re, (half2 ctx.precision c 0).im, phi2⟩ : Cell K) =
          half2 ctx.precision c phi2 := by unfold half2; split <;> rfl
      rw [e2] at c3
      rw [Py.bind_run]
      obtain ⟨L2, A2, d1, d2, d3, d4⟩ := ih (half2 ctx.precision c phi2) (proper_halves _ 0 phi2 hc).2 w3
      have i2 := (in_halves (p := ctx.precision) hc 0 phi2).2
      refine ⟨(half1 ctx.precision c phi1 :: L1) ++ (half2 ctx.precision c phi2 :: L2),
        (z1 ++ A1) ++ (z2 ++ A2), ?_, ?_, ?_, ?_⟩
      · rcases hr2 : (dispatch body limit).at ctx (half2 ctx.precision c phi2) w3 with ⟨e | _, w4⟩ <;>
          rw [hr2] at d1 <;> dsimp only [Py.modify_run] at d1 ⊢ <;> rw [d1, c3, b1, a3] <;> simp
      · rcases hr2 : (dispatch body limit).at ctx (half2 ctx.precision c phi2) w3 with ⟨e | _, w4⟩ <;>
          rw [hr2] at d2 <;> dsimp only [Py.modify_run] at d2 ⊢ <;> rw [d2, c1, b2, a1] <;> simp
      · intro l hl
        rcases List.mem_append.1 hl with hl | hl
        · exact J1 l hl
        · rcases List.mem_cons.1 hl with rfl | hl
          · exact i2
          · exact (d3 l hl).trans i2
      · intro r hr
        rcases List.mem_append.1 hr with hr | hr
        · rcases K1 r hr with h | ⟨l, hl, h⟩
          · exact Or.inl h
          · refine Or.inr ⟨l, ?_, h⟩
            simp only [List.mem_cons, List.mem_append] at hl ⊢
            tauto
        · rcases List.mem_append.1 hr with hr | hr
          · exact Or.inl (c2 r hr)
          · rcases d4 r hr with h | ⟨l, hl, h⟩
            · exact Or.inl h
            · refine Or.inr ⟨l, ?_, h⟩
              simp only [List.mem_cons, List.mem_append] at hl ⊢
              tauto

/-- the whole search, any outcome -/
theorem calcRoots_justified {est : LineEst σ K} {ctx : RCtx K} (hest : BoundaryHits est ctx)
    {body : Decide σ K → Decide σ K} {stop : Cell K → Prop} {act : Cell K → Py (World σ K) Unit}
    (hstop : Stops est ctx body stop act) {Just : Cell K → Root K → Prop} (hact : ActJust ctx.f stop act Just)
    (limit : ℕ) (hre : ctx.reRan.1 ≤ ctx.reRan.2) (him : ctx.imRan.1 ≤ ctx.imRan.2) (w : World σ K) :
    ∃ L A, (calcRoots est body limit ctx w).2.log = w.log ++ L ∧
      (calcRoots est body limit ctx w).2.added = w.added ++ A ∧
      (∀ l ∈ L, Cell.In l ⟨ctx.reRan, ctx.imRan, 0⟩) ∧
      ∀ r ∈ A, (r.2 = 0 ∧ ctx.f r.1 = 0) ∨ ∃ l ∈ L, stop l ∧ Just l r := by
  unfold calcRoots resetCache
  rw [Py.bind_run, Py.modify_run]
  dsimp only
  generalize hw0 : (if w.cache.dirty = true then { w with cache := w.cache.reset } else w) = w0
  have g1 : w0.log = w.log := by rw [← hw0]; split <;> rfl
  have g3 : w0.added = w.added := by rw [← hw0]; split <;> rfl
  rw [Py.bind_run]
  obtain ⟨⟨z1, a1, a2⟩, a3⟩ := phaseOf_any hest ctx.reRan ctx.imRan w0
  rcases hp : phaseOf est ctx.reRan ctx.imRan ctx w0 with ⟨e | phi, w1⟩ <;> rw [hp] at a1 a3 <;>
    dsimp only at a1 a3 ⊢
  · exact ⟨[], z1, by simp [a3, g1], by rw [a1, g3], by simp, fun r hr => Or.inl (a2 r hr)⟩
  · obtain ⟨L, A, b1, b2, b3, b4⟩ :=
      dispatch_justified hest hstop hact limit ⟨ctx.reRan, ctx.imRan, phi⟩ ⟨hre, him⟩ w1
    refine ⟨⟨ctx.reRan, ctx.imRan, phi⟩ :: L, z1 ++ A, ?_, ?_, ?_, ?_⟩
    · have : (dispatch body limit ctx.reRan ctx.imRan phi ctx w1).2.log = _ := b1
      rw [this, a3, g1]; simp
    · have : (dispatch body limit ctx.reRan ctx.imRan phi ctx w1).2.added = _ := b2
      rw [this, a1, g3]; simp
    · intro l hl
      rcases List.mem_cons.1 hl with rfl | hl
      · exact ⟨le_refl _, hre, le_refl _, le_refl _, him, le_refl _⟩
      · exact b3 l hl
    · intro r hr
      rcases List.mem_append.1 hr with hr | hr
      · exact Or.inl (a2 r hr)
      · exact b4 r hr

end PyZeal
