import Verif.Proof.Exact
import Verif.Proof.SumLine

/-! # The associated polynomial algorithm with the summation estimator -/

set_option linter.unusedSectionVars false

namespace PyZeal
open Spec
variable {K : Type} [Field K] [LinearOrder K] [IsStrictOrderedRing K] [FloorRing K]

/-- nothing of non-zero order is stored anywhere -/
def NoHigher (w : World (SumState K) K) : Prop :=
  OnlyOrderZero w.est ∧ CacheWF w.cache ∧ ∀ o a b, o ≠ 0 → w.cache.look o a b = none

theorem sumLine_cache (cfg : SumCfg K) (o : ℤ) (a b : Cx K) (ctx : RCtx K) (w : World (SumState K) K) :
    (sumLine cfg o a b ctx w).2.cache = w.cache := by
  unfold sumLine
  split
  · rw [horizontal_run]
    have h := (sliceOrSample_est cfg o ⟨min a.re b.re, a.im⟩ ⟨max a.re b.re, a.im⟩ ctx
      (reuseH w.est.horizontal o (min a.re b.re) (max a.re b.re) a.im) w).2
    rcases hs : sliceOrSample cfg o ⟨min a.re b.re, a.im⟩ ⟨max a.re b.re, a.im⟩ ctx
      (reuseH w.est.horizontal o (min a.re b.re) (max a.re b.re) a.im) w with ⟨e | v, w1⟩ <;> rw [hs] at h <;> exact h
  · split
    · rw [vertical_run]
      rcases reuseV w.est.vertical o (min a.im b.im) (max a.im b.im) a.re with e | r
      · rfl
      · dsimp only
        have h := (sliceOrSample_est cfg o ⟨a.re, min a.im b.im⟩ ⟨a.re, max a.im b.im⟩ ctx r w).2
        rcases hs : sliceOrSample cfg o ⟨a.re, min a.im b.im⟩ ⟨a.re, max a.im b.im⟩ ctx r w with ⟨e | v, w1⟩ <;>
          rw [hs] at h <;> exact h
    · rfl

theorem NoHigher.edge (cfg : SumCfg K) (ctx : RCtx K) (e : Cx K × Cx K) {w : World (SumState K) K}
    (hw : NoHigher w) : NoHigher (edgeMoment (sumLine cfg) 0 ctx e w).2 := by
  have hc : ∀ w : World (SumState K) K, NoHigher w → NoHigher (edgeMoment.compute (sumLine cfg) 0 ctx e w).2 := by
    intro w hw
    rw [compute_run]
    have t1 := World.tick_cache w
    have t2 := World.tick_est w
    rcases ht : World.tick w with ⟨_ | _, w1⟩ <;> rw [ht] at t1 t2 <;> dsimp only at t1 t2 ⊢
    · unfold NoHigher; rw [t1, t2]; exact hw
    · have s1 := sumLine_cache cfg 0 e.1 e.2 ctx w1
      have s2 := OnlyOrderZero.sumLine cfg 0 e.1 e.2 ctx w1 (by rw [t2]; exact hw.1)
      rcases hs : sumLine cfg 0 e.1 e.2 ctx w1 with ⟨_ | d, w2⟩ <;> rw [hs] at s1 s2 <;> dsimp only at s1 s2 ⊢
      · refine ⟨s2, ?_⟩
        rw [s1, t1]
        exact hw.2
      · refine ⟨s2, ?_, ?_⟩
        · rw [s1, t1]
          exact (hw.2.1.store _ _ _ _).store _ _ _ _
        · intro o a b ho
          rw [EstCache.look_store, EstCache.look_store, if_neg (fun h => ho h.1.symm), if_neg (fun h => ho h.1.symm),
            s1, t1]
          exact hw.2.2 o a b ho
  rw [edgeMoment_run]
  have hw1 : NoHigher ({ w with cache := (w.cache.retrieve 0 e.1 e.2).2 } : World (SumState K) K) := by
    refine ⟨hw.1, hw.2.1.of_data (w.cache.retrieve_data _ _ _), fun o a b ho => ?_⟩
    dsimp only
    rw [EstCache.look_retrieve]
    exact hw.2.2 o a b ho
  dsimp only
  split
  · split
    · exact hw1
    · exact hc _ hw1
  · exact hc _ hw1

theorem NoHigher.moment (cfg : SumCfg K) (ctx : RCtx K) (re im : K × K) {w : World (SumState K) K}
    (hw : NoHigher w) : NoHigher (calcMoment (sumLine cfg) 0 re im ctx w).2 := by
  have : ∀ (es : List (Cx K × Cx K)) (phi : Cx K) (w : World (SumState K) K), NoHigher w →
      NoHigher (sumEdges (sumLine cfg) 0 ctx es phi w).2 := by
    intro es
    induction es with
    | nil => intro phi w hw; exact hw
    | cons e es ih =>
      intro phi w hw
      simp only [sumEdges, Py.bind_run]
      have h := NoHigher.edge cfg ctx e hw
      rcases he : edgeMoment (sumLine cfg) 0 ctx e w with ⟨_ | d, w1⟩ <;> rw [he] at h
      · exact h
      · exact ih _ _ h
  exact this _ _ w hw

theorem NoHigher.phase (cfg : SumCfg K) (ctx : RCtx K) (re im : K × K) {w : World (SumState K) K}
    (hw : NoHigher w) : NoHigher (phaseOf (sumLine cfg) re im ctx w).2 := by
  unfold phaseOf
  rw [Py.bind_run]
  have h := NoHigher.moment cfg ctx re im hw
  rcases hc : calcMoment (sumLine cfg) 0 re im ctx w with ⟨_ | m, w1⟩ <;> rw [hc] at h <;> exact h

theorem KeepsCache.simpleAct_est {σ : Type} (pi : K) (ctx : RCtx K) (c : Cell K) (w : World σ K) :
    (PyZeal.simpleAct pi ctx c w).2.est = w.est := by
  have tick : ∀ (g : World σ K → World σ K) (_ : ∀ w, (g w).est = w.est) (w : World σ K),
      ((World.tick >>= fun _ => Py.modify g) w).2.est = w.est := by
    intro g hg w
    rw [Py.bind_run]
    have := World.tick_est w
    rcases ht : World.tick w with ⟨_ | _, w1⟩ <;> rw [ht] at this
    · exact this
    · exact (hg w1).trans this
  have adv : ∀ a (w : World σ K), (World.advance ctx a w).2.est = w.est := by
    intro a w
    unfold World.advance
    split
    · exact tick (fun w => { w with advances := w.advances ++ [a] }) (fun _ => rfl) w
    · rfl
  have add : ∀ r (w : World σ K), (World.addRoot r w).2.est = w.est :=
    fun r w => tick (fun w => { w with added := w.added ++ [r] }) (fun _ => rfl) w
  unfold PyZeal.simpleAct
  split
  · exact adv _ _
  · rw [Py.bind_run]
    have := add (candidate pi c) w
    rcases ha : World.addRoot (candidate pi c) w with ⟨_ | _, w1⟩ <;> rw [ha] at this
    · exact this
    · exact (adv _ _).trans this

/-- the polynomial block fails: the moment of order 1 is not available -/
theorem polyBlock_fails (polyRoots : List (Cx K) → List (Cx K)) (cfg : SumCfg K) (pi : K) (hpi : 0 < pi) (ctx : RCtx K)
    (c : Cell K) (hc : Cell.FewTurns pi c) (w : World (SumState K) K) (hw : NoHigher w) :
    let r := polyBlock polyRoots (sumLine cfg) pi ctx c w
    (r.1 = .error .notImplementedError ∨ r.1 = .error .keyboardInterrupt) ∧ r.2.log = w.log ∧ r.2.added = w.added := by
  have hturn : 1 ≤ roundHalfEven (c.phi / (2 * pi)) := one_le_order hpi (le_of_lt hc.1)
  obtain ⟨n, hn⟩ : ∃ n : ℕ, (roundHalfEven (c.phi / (2 * pi))).toNat = n + 1 :=
    ⟨(roundHalfEven (c.phi / (2 * pi))).toNat - 1, by omega⟩
  intro r
  have hr : r = polyBlock polyRoots (sumLine cfg) pi ctx c w := rfl
  unfold polyBlock at hr
  rw [hn, List.range_succ_eq_map, List.map_cons] at hr
  have he : edgeMoment (sumLine cfg) (((0 : ℕ) : ℤ) + 1) ctx (⟨c.re.1, c.im.1⟩, ⟨c.re.2, c.im.1⟩) w =
      (.error (if (World.tick w).1.toOption.isSome then .notImplementedError else .keyboardInterrupt),
        (World.tick { w with cache := (w.cache.retrieve 1 ⟨c.re.1, c.im.1⟩ ⟨c.re.2, c.im.1⟩).2 }).2) := by
    rw [edgeMoment_run]
    simp only [Nat.cast_zero, zero_add]
    rw [hw.2.2 1 _ _ (by norm_num)]
    dsimp only
    rw [compute_run]
    have ho : ∀ w' : World (SumState K) K, w'.est = w.est →
        sumLine cfg 1 ⟨c.re.1, c.im.1⟩ ⟨c.re.2, c.im.1⟩ ctx w' = (.error .notImplementedError, w') :=
      fun w' h => sumLine_order cfg 1 (by norm_num) ⟨c.re.1, c.im.1⟩ ⟨c.re.2, c.im.1⟩ (Or.inl rfl) ctx w' (by rw [h]; exact hw.1)
    unfold World.tick
    rcases hf : w.fuse with _ | _ | k <;> simp only [hf]
    · rw [ho]
      · simp [Except.toOption]
      · rfl
    · simp [Except.toOption]
    · rw [ho]
      · simp [Except.toOption]
      · rfl
  have hm : ∀ rest, moments (sumLine cfg) pi c.re c.im ctx ((((0 : ℕ) : ℤ) + 1) :: rest) w =
      (.error (if (World.tick w).1.toOption.isSome then .notImplementedError else .keyboardInterrupt),
        (World.tick { w with cache := (w.cache.retrieve 1 ⟨c.re.1, c.im.1⟩ ⟨c.re.2, c.im.1⟩).2 }).2) := by
    intro rest
    change (calcMoment (sumLine cfg) (((0 : ℕ) : ℤ) + 1) c.re c.im ctx >>= fun m =>
      moments (sumLine cfg) pi c.re c.im ctx rest >>= fun ms => pure (Cx.divK m (2 * pi) :: ms)) w = _
    unfold calcMoment edges
    simp only [sumEdges]
    rw [Py.bind_run, Py.bind_run, he]
  rw [Py.bind_run, hm] at hr
  have ta := World.tick_any { w with cache := (w.cache.retrieve 1 ⟨c.re.1, c.im.1⟩ ⟨c.re.2, c.im.1⟩).2 }
  rw [hr]
  dsimp only
  split
  · exact ⟨Or.inl rfl, ta.2.2, ta.1⟩
  · exact ⟨Or.inr rfl, ta.2.2, ta.1⟩

/-- the outcomes once a rectangle with few turns was met -/
def Spec.Stuck (r : Except Err Unit) : Prop :=
  r = .error .notImplementedError ∨ r = .error .keyboardInterrupt ∨ r = .error .recursionError

/-- a rectangle the summation estimator cannot serve -/
def Hard (pi : K) (p : ℤ × ℤ) (c : Cell K) : Prop := Cell.FewTurns pi c ∧ ¬ Cell.Small p c

theorem Hard.iff {pi : K} {p : ℤ × ℤ} {c : Cell K} : Hard pi p c ↔ ¬ Cell.Stop pi p c ∧ Cell.FewTurns pi c := by
  unfold Hard Cell.Stop
  constructor
  · rintro ⟨h1, h2⟩
    refine ⟨?_, h1⟩
    rintro (h | h)
    · exact h (le_of_lt h1.1)
    · exact h2 h
  · rintro ⟨h1, h2⟩
    exact ⟨h2, fun h => h1 (Or.inr h)⟩

/-- from a state without higher orders: the search of `c` ends with the first hard rectangle -/
theorem dispatch_stuck (polyRoots : List (Cx K) → List (Cx K)) (cfg : SumCfg K) (pi : K) (hpi : 0 < pi) (ctx : RCtx K)
    (hdf : ctx.df.isSome) (limit : ℕ) (c : Cell K) (w : World (SumState K) K) (hw : NoHigher w) :
    let r := (dispatch (polynomialDecide polyRoots (sumLine cfg) pi) limit).at ctx c w
    (r.1 = .ok () → NoHigher r.2) ∧ ∃ L, r.2.log = w.log ++ L ∧
      ∀ l ∈ c :: L, Hard pi ctx.precision l → Stuck r.1 ∧ (c :: L).getLast? = some l := by
  induction limit generalizing c w with
  | zero =>
    refine ⟨by simp [dispatch, Decide.at], [], by simp [dispatch, Decide.at], ?_⟩
    intro l hl _
    simp only [List.mem_singleton] at hl
    subst hl
    exact ⟨Or.inr (Or.inr rfl), rfl⟩
  | succ limit ih =>
    have hd : (dispatch (polynomialDecide polyRoots (sumLine cfg) pi) (limit + 1)).at ctx c =
      (polynomialDecide polyRoots (sumLine cfg) pi (dispatch (polynomialDecide polyRoots (sumLine cfg) pi) limit)).at
        ctx c := rfl
    intro r
    have hr : r = (dispatch (polynomialDecide polyRoots (sumLine cfg) pi) (limit + 1)).at ctx c w := rfl
    rw [hd] at hr
    by_cases hs : PolyStop pi ctx.precision c
    · rw [(poly_stops polyRoots (sumLine cfg) pi ctx hdf _ c).1 hs] at hr
      unfold polyAct at hr
      by_cases hst : Cell.Stop pi ctx.precision c
      · rw [if_pos hst] at hr
        have h1 := KeepsCache.simpleAct pi ctx c w
        have h2 := KeepsCache.simpleAct_est pi ctx c w
        obtain ⟨h3, _⟩ := simple_actJust pi hpi ctx c w hst
        rw [← hr] at h1 h2 h3
        refine ⟨fun _ => ?_, [], by simpa using h3, ?_⟩
        · unfold NoHigher; rw [h1, h2]; exact hw
        · intro l hl hh
          simp only [List.mem_singleton] at hl
          subst hl
          exact absurd hst (Hard.iff.1 hh).1
      · rw [if_neg hst] at hr
        have hf : Cell.FewTurns pi c := hs.resolve_left hst
        obtain ⟨h1, h2, h3⟩ := polyBlock_fails polyRoots cfg pi hpi ctx c hf w hw
        rw [← hr] at h1 h2
        refine ⟨?_, [], by simpa using h2, ?_⟩
        · intro h; rw [h] at h1; simp at h1
        · intro l hl hh
          simp only [List.mem_singleton] at hl
          subst hl
          refine ⟨?_, rfl⟩
          rcases h1 with h | h
          · exact Or.inl h
          · exact Or.inr (Or.inl h)
    · rw [(poly_stops polyRoots (sumLine cfg) pi ctx hdf _ c).2 hs] at hr
      have hnc : ¬ Hard pi ctx.precision c := fun h => hs (Or.inr h.1)
      unfold splitStep at hr
      rw [Py.bind_run] at hr
      have p1 := phaseOf_any (sumLine_hits cfg ctx) (half1 ctx.precision c 0).re (half1 ctx.precision c 0).im w
      have n1 := NoHigher.phase cfg ctx (half1 ctx.precision c 0).re (half1 ctx.precision c 0).im hw
      obtain ⟨_, p1⟩ := p1
      rcases hp1 : phaseOf (sumLine cfg) (half1 ctx.precision c 0).re (half1 ctx.precision c 0).im ctx w
        with ⟨e | phi1, w1⟩ <;> rw [hp1] at hr p1 n1 <;> dsimp only at hr p1 n1
      · rw [hr]
        refine ⟨by simp, [], by simpa using p1, ?_⟩
        intro l hl hh
        simp only [List.mem_singleton] at hl
        subst hl
        exact absurd hh hnc
      have e1 : (⟨(half1 ctx.precision c 0).re, (half1 ctx.precision c 0).im, phi1⟩ : Cell K) =
          half1 ctx.precision c phi1 := by unfold half1; split <;> rfl
      rw [e1] at p1
      rw [Py.bind_run] at hr
      obtain ⟨b1, L1, b2, b3⟩ := ih (half1 ctx.precision c phi1) w1 n1
      rcases hr1 : (dispatch (polynomialDecide polyRoots (sumLine cfg) pi) limit).at ctx
        (half1 ctx.precision c phi1) w1 with ⟨e | _, w2⟩ <;> rw [hr1] at hr b1 b2 b3 <;> dsimp only at hr b1 b2 b3
      · rw [hr]
        refine ⟨by simp, half1 ctx.precision c phi1 :: L1, by dsimp only; rw [b2, p1]; simp, ?_⟩
        intro l hl hh
        rcases List.mem_cons.1 hl with rfl | hl
        · exact absurd hh hnc
        · obtain ⟨g1, g2⟩ := b3 l hl hh
          exact ⟨g1, by rw [List.getLast?_cons_cons]; exact g2⟩
      have no1 : ∀ l ∈ half1 ctx.precision c phi1 :: L1, ¬ Hard pi ctx.precision l := by
        intro l hl hh
        have := (b3 l hl hh).1
        unfold Stuck at this
        simp at this
      have b1 := b1 rfl
      rw [Py.bind_run] at hr
      simp only [cacheRemove, Py.modify_run] at hr
      rw [Py.bind_run] at hr
      have hw2 : NoHigher { w2 with cache := w2.cache.remove 0 (dropEdge1 ctx.precision c).1 (dropEdge1 ctx.precision c).2 } := by
        refine ⟨b1.1, b1.2.1.remove _ _ _, fun o a b ho => ?_⟩
        dsimp only
        rw [EstCache.look_remove b1.2.1]
        split
        · rfl
        · exact b1.2.2 o a b ho
      have p2 := phaseOf_any (sumLine_hits cfg ctx) (half2 ctx.precision c 0).re (half2 ctx.precision c 0).im
        { w2 with cache := w2.cache.remove 0 (dropEdge1 ctx.precision c).1 (dropEdge1 ctx.precision c).2 }
      have n2 := NoHigher.phase cfg ctx (half2 ctx.precision c 0).re (half2 ctx.precision c 0).im hw2
      obtain ⟨_, p2⟩ := p2
      rcases hp2 : phaseOf (sumLine cfg) (half2 ctx.precision c 0).re (half2 ctx.precision c 0).im ctx
        { w2 with cache := w2.cache.remove 0 (dropEdge1 ctx.precision c).1 (dropEdge1 ctx.precision c).2 }
        with ⟨e | phi2, w3⟩ <;> rw [hp2] at hr p2 n2 <;> dsimp only at hr p2 n2
      · rw [hr]
        refine ⟨by simp, half1 ctx.precision c phi1 :: L1, by dsimp only; rw [p2, b2, p1]; simp, ?_⟩
        intro l hl hh
        rcases List.mem_cons.1 hl with rfl | hl
        · exact absurd hh hnc
        · exact absurd hh (no1 l hl)
      have e2 : (⟨(half2 ctx.precision c 0).re, (half2 ctx.precision c 0).im, phi2⟩ : Cell K) =
          half2 ctx.precision c phi2 := by unfold half2; split <;> rfl
      rw [e2] at p2
      rw [Py.bind_run] at hr
      obtain ⟨d1, L2, d2, d3⟩ := ih (half2 ctx.precision c phi2) w3 n2
      have fin : ∀ x : Except Err Unit, (∀ l ∈ half2 ctx.precision c phi2 :: L2, Hard pi ctx.precision l →
          Stuck x ∧ (half2 ctx.precision c phi2 :: L2).getLast? = some l) →
          ∀ l ∈ c :: ((half1 ctx.precision c phi1 :: L1) ++ (half2 ctx.precision c phi2 :: L2)),
            Hard pi ctx.precision l → Stuck x ∧
            (c :: ((half1 ctx.precision c phi1 :: L1) ++ (half2 ctx.precision c phi2 :: L2))).getLast? = some l := by
        intro x hx l hl hh
        rcases List.mem_cons.1 hl with rfl | hl
        · exact absurd hh hnc
        · rcases List.mem_append.1 hl with hl | hl
          · exact absurd hh (no1 l hl)
          · obtain ⟨g1, g2⟩ := hx l hl hh
            refine ⟨g1, ?_⟩
            rw [← List.cons_append, List.getLast?_append, g2]
            rfl
      rcases hr2 : (dispatch (polynomialDecide polyRoots (sumLine cfg) pi) limit).at ctx
        (half2 ctx.precision c phi2) w3 with ⟨e | _, w4⟩ <;> rw [hr2] at hr d1 d2 d3 <;>
        dsimp only [Py.modify_run] at hr d1 d2 d3
      · rw [hr]
        exact ⟨by simp, (half1 ctx.precision c phi1 :: L1) ++ (half2 ctx.precision c phi2 :: L2),
          by dsimp only; rw [d2, p2, b2, p1]; simp, fin _ d3⟩
      · have d1 := d1 rfl
        rw [hr]
        refine ⟨fun _ => ⟨d1.1, d1.2.1.remove _ _ _, fun o a b ho => ?_⟩,
          (half1 ctx.precision c phi1 :: L1) ++ (half2 ctx.precision c phi2 :: L2),
          by dsimp only; rw [d2, p2, b2, p1]; simp, fin _ d3⟩
        dsimp only
        rw [EstCache.look_remove d1.2.1]
        split
        · rfl
        · exact d1.2.2 o a b ho

end PyZeal
