import Verif.Proof.Winding
import Verif.Spec.Summation

/-! # Lemmas about `calcMomentAlongLine` of the summation estimator -/

set_option linter.unusedSectionVars false

namespace PyZeal
open Spec

section
variable {K : Type} [Field K] [LinearOrder K] [FloorRing K]

/-- storing into the horizontal cache -/
def putH (y : K) (o : ℤ) (lo hi : K) (v : PhiLine K) (w : World (SumState K) K) :
    World (SumState K) K :=
  { w with est := { w.est with horizontal := storeCache w.est.horizontal y o lo hi v } }

/-- storing into the vertical cache -/
def putV (x : K) (o : ℤ) (lo hi : K) (v : PhiLine K) (w : World (SumState K) K) :
    World (SumState K) K :=
  { w with est := { w.est with vertical := storeCache w.est.vertical x o lo hi v } }

theorem horizontal_run (cfg : SumCfg K) (o : ℤ) (x1 x2 y : K) (ctx : RCtx K)
    (w : World (SumState K) K) :
    retrieveCachedHorizontal cfg o x1 x2 y ctx w =
      match sliceOrSample cfg o ⟨min x1 x2, y⟩ ⟨max x1 x2, y⟩ ctx
          (reuseH w.est.horizontal o (min x1 x2) (max x1 x2) y) w with
      | (.error e, w1) => (.error e, w1)
      | (.ok v, w1) => (.ok (Cx.ofK (lineSign x1 x2 * v.2.sum)),
          putH y o (min x1 x2) (max x1 x2) v w1) := by
  unfold retrieveCachedHorizontal
  simp only [Py.bind_run, Py.get_run]
  rcases sliceOrSample cfg o ⟨min x1 x2, y⟩ ⟨max x1 x2, y⟩ ctx
          (reuseH w.est.horizontal o (min x1 x2) (max x1 x2) y) w with ⟨_ | _, _⟩ <;> rfl

theorem vertical_run (cfg : SumCfg K) (o : ℤ) (y1 y2 x : K) (ctx : RCtx K)
    (w : World (SumState K) K) :
    retrieveCachedVertical cfg o y1 y2 x ctx w =
      match reuseV w.est.vertical o (min y1 y2) (max y1 y2) x with
      | .error e => (.error e, w)
      | .ok r =>
        match sliceOrSample cfg o ⟨x, min y1 y2⟩ ⟨x, max y1 y2⟩ ctx r w with
        | (.error e, w1) => (.error e, w1)
        | (.ok v, w1) => (.ok (Cx.ofK (lineSign y1 y2 * v.2.sum)),
            putV x o (min y1 y2) (max y1 y2) v w1) := by
  unfold retrieveCachedVertical
  simp only [Py.bind_run, Py.get_run]
  rcases reuseV w.est.vertical o (min y1 y2) (max y1 y2) x with e | r
  · rfl
  · simp only [liftReuse, Py.pure_run]
    rcases sliceOrSample cfg o ⟨x, min y1 y2⟩ ⟨x, max y1 y2⟩ ctx r w with ⟨_ | _, _⟩ <;> rfl

theorem reuseH_miss {c : LineCache K} {y : K} {o : ℤ} (h : c.get? (y, o) = none) (lo hi : K) :
    reuseH c o lo hi y = none := by
  unfold reuseH cachedLine; rw [h]

theorem reuseV_miss {c : LineCache K} {x : K} {o : ℤ} (h : c.get? (x, o) = none) (lo hi : K) :
    reuseV c o lo hi x = .ok none := by
  unfold reuseV cachedLine; rw [h]

theorem storeCache_get (c : LineCache K) (z : K) (o : ℤ) (lo hi : K) (v : PhiLine K) (k : K × ℤ) :
    (storeCache c z o lo hi v).get? k =
      if (z, o) = k then
        some ((((c.get? (z, o)).getD []).set (lo, .start) v).set (hi, .stop) v)
      else c.get? k := by
  unfold storeCache; rw [Dict.get?_set]

/-! ## orientation -/

theorem lineSign_swap {a b : K} [IsStrictOrderedRing K] (h : a ≠ b) :
    lineSign b a = -lineSign a b := by
  unfold lineSign
  rcases lt_or_gt_of_ne h with h | h
  · rw [if_pos h, if_neg (not_lt.2 h.le)]
  · rw [if_neg (not_lt.2 h.le), if_pos h, neg_neg]

theorem sumLine_reverse [IsStrictOrderedRing K] (cfg : SumCfg K) (o : ℤ) (a b : Cx K) (hab : a ≠ b)
    (ctx : RCtx K) (w : World (SumState K) K) :
    (sumLine cfg o b a ctx w).2 = (sumLine cfg o a b ctx w).2 ∧
    (∀ v, (sumLine cfg o a b ctx w).1 = .ok v → (sumLine cfg o b a ctx w).1 = .ok (-v)) ∧
    (∀ e, (sumLine cfg o a b ctx w).1 = .error e → (sumLine cfg o b a ctx w).1 = .error e) := by
  unfold sumLine
  by_cases h1 : a.im = b.im
  · have h2 : a.re ≠ b.re := fun e => hab (Cx.ext e h1)
    rw [if_pos h1, if_pos h1.symm, horizontal_run, horizontal_run, min_comm b.re, max_comm b.re,
      ← h1]
    rcases sliceOrSample cfg o ⟨min a.re b.re, a.im⟩ ⟨max a.re b.re, a.im⟩ ctx
          (reuseH w.est.horizontal o (min a.re b.re) (max a.re b.re) a.im) w with ⟨e | v, w1⟩
    · exact ⟨rfl, by simp, fun _ h => h⟩
    · refine ⟨rfl, ?_, by simp⟩
      intro u hu
      simp only [Except.ok.injEq] at hu ⊢
      subst hu
      rw [lineSign_swap h2]
      ext <;> simp
  · rw [if_neg h1, if_neg (Ne.symm h1)]
    by_cases h2 : a.re = b.re
    · rw [if_pos h2, if_pos h2.symm, vertical_run, vertical_run, min_comm b.im, max_comm b.im, ← h2]
      rcases reuseV w.est.vertical o (min a.im b.im) (max a.im b.im) a.re with e | r
      · exact ⟨rfl, by simp, fun _ h => h⟩
      · dsimp only
        rcases sliceOrSample cfg o ⟨a.re, min a.im b.im⟩ ⟨a.re, max a.im b.im⟩ ctx r w
          with ⟨e | v, w1⟩
        · exact ⟨rfl, by simp, fun _ h => h⟩
        · refine ⟨rfl, ?_, by simp⟩
          intro u hu
          simp only [Except.ok.injEq] at hu ⊢
          subst hu
          rw [lineSign_swap h1]
          ext <;> simp
    · rw [if_neg h2, if_neg (Ne.symm h2)]
      exact ⟨rfl, by simp, fun _ h => h⟩

/-! ## only order zero is ever cached -/

/-- the internal caches contain only lines of order 0 -/
def OnlyOrderZero (s : SumState K) : Prop :=
  ∀ z o, o ≠ 0 → s.horizontal.get? (z, o) = none ∧ s.vertical.get? (z, o) = none

theorem OnlyOrderZero.fresh : OnlyOrderZero (SumState.fresh : SumState K) := fun _ _ _ => ⟨rfl, rfl⟩

theorem genPhiArr_order (cfg : SumCfg K) {o : ℤ} (ho : o ≠ 0) (a b : Cx K) (ctx : RCtx K)
    (w : World (SumState K) K) : genPhiArr cfg o a b ctx w = (.error .notImplementedError, w) := by
  unfold genPhiArr; rw [if_pos ho]; rfl

theorem sumLine_order (cfg : SumCfg K) (o : ℤ) (ho : o ≠ 0) (a b : Cx K)
    (hpar : a.im = b.im ∨ a.re = b.re) (ctx : RCtx K) (w : World (SumState K) K)
    (h : OnlyOrderZero w.est) : sumLine cfg o a b ctx w = (.error .notImplementedError, w) := by
  unfold sumLine
  by_cases h1 : a.im = b.im
  · rw [if_pos h1, horizontal_run, reuseH_miss (h _ o ho).1]
    simp only [sliceOrSample, genPhiArr_order cfg ho]
  · rw [if_neg h1, if_pos (hpar.resolve_left h1), vertical_run, reuseV_miss (h _ o ho).2]
    simp only [sliceOrSample, genPhiArr_order cfg ho]

theorem sliceOrSample_est (cfg : SumCfg K) (o : ℤ) (a b : Cx K) (ctx : RCtx K)
    (r : Option (PhiLine K)) (w : World (SumState K) K) :
    (sliceOrSample cfg o a b ctx r w).2.est = w.est ∧
    (sliceOrSample cfg o a b ctx r w).2.cache = w.cache := by
  cases r with
  | some v => exact ⟨rfl, rfl⟩
  | none =>
    have := AddsOnly.genPhiArr cfg o a b ctx w
    exact ⟨this.2.1, this.1⟩

theorem OnlyOrderZero.sumLine (cfg : SumCfg K) (o : ℤ) (a b : Cx K) (ctx : RCtx K)
    (w : World (SumState K) K) (h : OnlyOrderZero w.est) :
    OnlyOrderZero (sumLine cfg o a b ctx w).2.est := by
  by_cases ho : o = 0
  · subst ho
    unfold PyZeal.sumLine
    split
    · rw [horizontal_run]
      have he := (sliceOrSample_est cfg 0 ⟨min a.re b.re, a.im⟩ ⟨max a.re b.re, a.im⟩ ctx
          (reuseH w.est.horizontal 0 (min a.re b.re) (max a.re b.re) a.im) w).1
      rcases hs : sliceOrSample cfg 0 ⟨min a.re b.re, a.im⟩ ⟨max a.re b.re, a.im⟩ ctx
          (reuseH w.est.horizontal 0 (min a.re b.re) (max a.re b.re) a.im) w with ⟨e | v, w1⟩
      · rw [hs] at he; dsimp only at he ⊢; rw [he]; exact h
      · rw [hs] at he
        dsimp only at he ⊢
        intro z o ho
        refine ⟨?_, by simp only [putH]; rw [he]; exact (h z o ho).2⟩
        simp only [putH]
        rw [storeCache_get, if_neg (by simp [ho, Ne.symm ho]), he]
        exact (h z o ho).1
    · split
      · rw [vertical_run]
        rcases reuseV w.est.vertical 0 (min a.im b.im) (max a.im b.im) a.re with e | r
        · exact h
        · dsimp only
          have he := (sliceOrSample_est cfg 0 ⟨a.re, min a.im b.im⟩ ⟨a.re, max a.im b.im⟩ ctx r w).1
          rcases hs : sliceOrSample cfg 0 ⟨a.re, min a.im b.im⟩ ⟨a.re, max a.im b.im⟩ ctx r w
            with ⟨e | v, w1⟩
          · rw [hs] at he; dsimp only at he ⊢; rw [he]; exact h
          · rw [hs] at he
            dsimp only at he ⊢
            intro z o ho
            refine ⟨by simp only [putV]; rw [he]; exact (h z o ho).1, ?_⟩
            simp only [putV]
            rw [storeCache_get, if_neg (by simp [ho, Ne.symm ho]), he]
            exact (h z o ho).2
      · exact h
  · by_cases hpar : a.im = b.im ∨ a.re = b.re
    · rw [sumLine_order cfg o ho a b hpar ctx w h]; exact h
    · push Not at hpar
      unfold PyZeal.sumLine
      rw [if_neg hpar.1, if_neg hpar.2]; exact h

/-! ## fresh lines -/

theorem sumLine_fresh (cfg : SumCfg K) (o : ℤ) (a b : Cx K) (ctx : RCtx K) (w : World (SumState K) K)
    (hH : a.im = b.im → w.est.horizontal.get? (a.im, o) = none)
    (hV : a.re = b.re → w.est.vertical.get? (a.re, o) = none) :
    (sumLine cfg o a b ctx w).1 =
      (sumLine cfg o a b ctx { w with est := SumState.fresh, cache := EstCache.init false }).1 ∧
    (sumLine cfg o a b ctx w).2.added =
      (sumLine cfg o a b ctx
        { w with est := SumState.fresh, cache := EstCache.init false }).2.added := by
  unfold sumLine
  by_cases h1 : a.im = b.im
  · rw [if_pos h1, horizontal_run, horizontal_run, reuseH_miss (hH h1), reuseH_miss (by rfl)]
    simp only [sliceOrSample]
    rw [CacheFree.genPhiArr cfg o _ _ ctx w (EstCache.init false) SumState.fresh]
    rcases genPhiArr cfg o ⟨min a.re b.re, a.im⟩ ⟨max a.re b.re, a.im⟩ ctx w with ⟨_ | _, _⟩ <;>
      exact ⟨rfl, rfl⟩
  · rw [if_neg h1]
    by_cases h2 : a.re = b.re
    · rw [if_pos h2, vertical_run, vertical_run, reuseV_miss (hV h2), reuseV_miss (by rfl)]
      simp only [sliceOrSample]
      rw [CacheFree.genPhiArr cfg o _ _ ctx w (EstCache.init false) SumState.fresh]
      rcases genPhiArr cfg o ⟨a.re, min a.im b.im⟩ ⟨a.re, max a.im b.im⟩ ctx w with ⟨_ | _, _⟩ <;>
        exact ⟨rfl, rfl⟩
    · rw [if_neg h2]; exact ⟨rfl, rfl⟩

end

section
variable {K : Type} [Field K] [LinearOrder K] [IsStrictOrderedRing K] [FloorRing K]

/-- closed boxes are closed under equidistant sampling -/
theorem linspace_onSegment (a b : Cx K) (u v : Cx K) (n : ℕ) (hu : OnSegment a b u)
    (hv : OnSegment a b v) : ∀ z ∈ linspace u v n, OnSegment a b z := by
  intro z hz
  obtain ⟨t, t0, t1, hre, him⟩ := mem_linspace hz
  obtain ⟨u1, u2, u3, u4⟩ := hu
  obtain ⟨v1, v2, v3, v4⟩ := hv
  refine ⟨?_, ?_, ?_, ?_⟩
  · rw [hre]; nlinarith
  · rw [hre]; nlinarith
  · rw [him]; nlinarith
  · rw [him]; nlinarith

theorem onSegment_left (a b : Cx K) : OnSegment a b a :=
  ⟨min_le_left _ _, le_max_left _ _, min_le_left _ _, le_max_left _ _⟩
theorem onSegment_right (a b : Cx K) : OnSegment a b b :=
  ⟨min_le_right _ _, le_max_right _ _, min_le_right _ _, le_max_right _ _⟩

/-- splitting a sorted array -/
theorem sorted_split (proj : Cx K → K) (m : K) (zs : List (Cx K))
    (hs : (zs.map proj).Pairwise (· < ·)) (hm : ∀ z ∈ zs, proj z ≠ m) :
    zs = zs.filter (fun z => decide (proj z < m)) ++ zs.filter (fun z => decide (m < proj z)) := by
  induction zs with
  | nil => rfl
  | cons a t ih =>
    rw [List.map_cons, List.pairwise_cons] at hs
    have iht := ih hs.2 fun z hz => hm z (by simp [hz])
    rcases lt_or_gt_of_ne (hm a (by simp)) with h | h
    · rw [List.filter_cons_of_pos (by simpa using h),
        List.filter_cons_of_neg (by simpa using h.le)]
      rw [List.cons_append, ← iht]
    · have hall : ∀ z ∈ t, m < proj z := fun z hz => h.trans (hs.1 _ (List.mem_map_of_mem hz))
      rw [List.filter_cons_of_neg (by simpa using h.le), List.filter_cons_of_pos (by simpa using h)]
      rw [List.filter_eq_nil_iff.2 (by intro z hz; simpa using (hall z hz).le),
        List.filter_eq_self.2 (by intro z hz; simpa using hall z hz)]
      rfl

theorem cutEnd_eq (proj : Cx K → K) (m : K) (zs Z1 Z2 : List (Cx K)) (ps : List K)
    (hz : zs = Z1 ++ Z2) (h1 : ∀ z ∈ Z1, proj z ≤ m) (h2 : ∀ z ∈ Z2, m < proj z)
    (hl : 3 ≤ Z1.length) : cutEnd proj (zs, ps) m = some (Z1, ps.take Z1.length) := by
  unfold cutEnd
  simp only
  rw [hz, whereFrom_prefix (by simpa using h1) (by intro z hz; simpa using h2 z hz),
    List.length_range', if_neg (by omega)]
  obtain ⟨n, hn⟩ : ∃ n, Z1.length = n + 1 := ⟨Z1.length - 1, by omega⟩
  have hlast : (List.range' 0 Z1.length).getLastD 0 = n := by
    rw [hn, List.range'_concat]; simp
  rw [hlast, ← hn]
  simp

theorem cutStartH_eq (m : K) (zs Z1 Z2 : List (Cx K)) (ps : List K)
    (hz : zs = Z1 ++ Z2) (h1 : ∀ z ∈ Z1, z.re < m) (h2 : ∀ z ∈ Z2, m ≤ z.re)
    (hl : 3 ≤ Z2.length) : cutStartH (zs, ps) m = some (Z2, ps.drop Z1.length) := by
  unfold cutStartH
  simp only
  rw [hz, whereFrom_suffix (by intro z hz; simpa using h1 z hz) (by simpa using h2),
    List.length_range', if_neg (by omega)]
  obtain ⟨n, hn⟩ : ∃ n, Z2.length = n + 1 := ⟨Z2.length - 1, by omega⟩
  have hlast : (List.range' (0 + Z1.length) Z2.length).headD 0 = Z1.length := by
    rw [hn, List.range'_succ]; simp
  rw [hlast]
  simp

theorem cutStartV_eq (m hi : K) (zs Z1 Z2 : List (Cx K)) (ps : List K)
    (hz : zs = Z1 ++ Z2) (h1 : ∀ z ∈ Z1, z.im < m) (h2 : ∀ z ∈ Z2, m ≤ z.im)
    (hle : ∀ z ∈ zs, z.im ≤ hi) (hl : 3 ≤ Z2.length) :
    cutStartV (zs, ps) m hi = .ok (some (Z2, ps.drop Z1.length)) := by
  unfold cutStartV
  simp only
  have e1 : whereFrom (fun z : Cx K => decide (z.im ≤ hi)) 0 zs = List.range' 0 zs.length := by
    have := whereFrom_prefix (p := fun z : Cx K => decide (z.im ≤ hi)) (i := 0) (l₁ := zs) (l₂ := [])
      (by simpa using hle) (by simp)
    simpa using this
  rw [e1, List.length_range', if_neg (by rw [hz]; simp; omega)]
  rw [hz, whereFrom_suffix (by intro z hz; simpa using h1 z hz) (by simpa using h2)]
  obtain ⟨n, hn⟩ : ∃ n, Z2.length = n + 1 := ⟨Z2.length - 1, by omega⟩
  rw [hn, List.range'_succ]
  simp

theorem ofK_add (a b : K) : Cx.ofK a + Cx.ofK b = Cx.ofK (a + b) := by ext <;> simp

theorem split_horizontal (cfg : SumCfg K) (hδ : 0 < cfg.deltaPhi) (hn : 2 ≤ cfg.numPts)
    (ctx : RCtx K) (lo m hi y : K) (w w1 : World (SumState K) K)
    (hw : w.fuse = none) (hmiss : w.est.horizontal.get? (y, 0) = none) (h1 : lo < m) (h2 : m < hi)
    (hf : ∀ z, OnSegment ⟨lo, y⟩ ⟨hi, y⟩ z → ctx.f z ≠ 0)
    (S : Cx K) (hS : sumLine cfg 0 ⟨lo, y⟩ ⟨hi, y⟩ ctx w = (.ok S, w1))
    (zs : List (Cx K)) (ps : List K) (hzs : (genPhiArr cfg 0 ⟨lo, y⟩ ⟨hi, y⟩ ctx w).1 = .ok (zs, ps))
    (hm : ∀ z ∈ zs, z.re ≠ m) (hl : 3 ≤ (zs.filter fun z => decide (z.re < m)).length)
    (hr : 3 ≤ (zs.filter fun z => decide (m < z.re)).length) :
    ∃ (S1 S2 : Cx K) (w2 w3 : World (SumState K) K),
      sumLine cfg 0 ⟨lo, y⟩ ⟨m, y⟩ ctx w1 = (.ok S1, w2) ∧
      sumLine cfg 0 ⟨m, y⟩ ⟨hi, y⟩ ctx w2 = (.ok S2, w3) ∧ S1 + S2 = S ∧ w3.added = w.added := by
  have h12 := h1.trans h2
  rcases hg : genPhiArr cfg 0 ⟨lo, y⟩ ⟨hi, y⟩ ctx w with ⟨_ | v, w0⟩
  · rw [hg] at hzs; simp at hzs
  rw [hg] at hzs
  simp only [Except.ok.injEq] at hzs
  subst hzs
  obtain ⟨hadd, _⟩ := genPhiArr_noZeros cfg ctx hδ (by omega) _ _ w hw (OnSegment ⟨lo, y⟩ ⟨hi, y⟩)
    (fun u v n hu hv => linspace_onSegment _ _ u v n hu hv) (onSegment_left _ _)
    (onSegment_right _ _) hf zs ps w0 hg
  have hsort := genPhiArr_sorted cfg ctx hδ hn _ _ Cx.re (by intros; simp) h12 w hw zs ps w0 hg hadd
  have hsplit := sorted_split Cx.re m zs hsort hm
  have hest : w0.est = w.est := by
    have := (AddsOnly.genPhiArr cfg 0 ⟨lo, y⟩ ⟨hi, y⟩ ctx w).2.1
    rw [hg] at this; exact this
  simp only [sumLine, if_true] at hS ⊢
  rw [horizontal_run, min_eq_left h12.le, max_eq_right h12.le, reuseH_miss hmiss] at hS
  simp only [sliceOrSample, hg, Prod.mk.injEq, Except.ok.injEq] at hS
  obtain ⟨rfl, rfl⟩ := hS
  set Z1 := zs.filter fun z => decide (z.re < m) with hZ1
  set Z2 := zs.filter fun z => decide (m < z.re) with hZ2
  have hZ1m : ∀ z ∈ Z1, z.re < m := by intro z hz; simpa using (List.mem_filter.1 hz).2
  have hZ2m : ∀ z ∈ Z2, m < z.re := by intro z hz; simpa using (List.mem_filter.1 hz).2
  have hget0 : (putH y 0 lo hi (zs, ps) w0).est.horizontal.get? (y, 0) =
      some [((lo, .start), (zs, ps)), ((hi, .stop), (zs, ps))] := by
    simp only [putH]
    rw [storeCache_get, if_pos rfl, hest, hmiss]
    simp [Dict.set]
  have hre1 : reuseH (putH y 0 lo hi (zs, ps) w0).est.horizontal 0 lo m y =
      some (Z1, ps.take Z1.length) := by
    unfold reuseH cachedLine
    rw [hget0]
    simp only [Dict.get?_cons, if_true]
    exact cutEnd_eq Cx.re m zs Z1 Z2 ps hsplit (fun z hz => (hZ1m z hz).le) hZ2m hl
  rw [horizontal_run, min_eq_left h1.le, max_eq_right h1.le, hre1]
  simp only [sliceOrSample, Py.pure_run]
  have hget1 : (putH y 0 lo m (Z1, ps.take Z1.length)
      (putH y 0 lo hi (zs, ps) w0)).est.horizontal.get? (y, 0) =
      some [((lo, .start), (Z1, ps.take Z1.length)), ((hi, .stop), (zs, ps)),
        ((m, .stop), (Z1, ps.take Z1.length))] := by
    have : (putH y 0 lo m (Z1, ps.take Z1.length)
      (putH y 0 lo hi (zs, ps) w0)).est.horizontal.get? (y, 0) = some
        ((Dict.set ([((lo, .start), (zs, ps)), ((hi, .stop), (zs, ps))] : Dict (K × Side) (PhiLine K))
          (lo, .start) (Z1, ps.take Z1.length)).set (m, .stop) (Z1, ps.take Z1.length)) := by
      conv_lhs => simp only [putH]
      rw [storeCache_get, if_pos rfl]
      have := hget0
      simp only [putH] at this
      rw [this]; rfl
    rw [this]
    simp [Dict.set, h2.ne, h2.ne', Ne.symm]
  have hre2 : reuseH (putH y 0 lo m (Z1, ps.take Z1.length)
      (putH y 0 lo hi (zs, ps) w0)).est.horizontal 0 m hi y = some (Z2, ps.drop Z1.length) := by
    unfold reuseH cachedLine
    rw [hget1]
    simp only [Dict.get?_cons, Prod.mk.injEq, h1.ne, h2.ne, h2.ne', h1.ne', false_and, and_false,
      reduceCtorEq, if_false, Dict.get?_nil, true_and, if_true, Option.map_some]
    exact cutStartH_eq m zs Z1 Z2 ps hsplit hZ1m (fun z hz => (hZ2m z hz).le) hr
  refine ⟨_, Cx.ofK (lineSign m hi * (ps.drop Z1.length).sum), _,
    putH y 0 m hi (Z2, ps.drop Z1.length) (putH y 0 lo m (Z1, ps.take Z1.length)
      (putH y 0 lo hi (zs, ps) w0)), rfl, ?_, ?_, hadd⟩
  · rw [horizontal_run, min_eq_left h2.le, max_eq_right h2.le, hre2]
    simp only [sliceOrSample, Py.pure_run]
  simp only [lineSign, h1, h2, h12, if_true, one_mul]
  rw [ofK_add, List.sum_take_add_sum_drop]

theorem split_vertical (cfg : SumCfg K) (hδ : 0 < cfg.deltaPhi) (hn : 2 ≤ cfg.numPts)
    (ctx : RCtx K) (lo m hi x : K) (w w1 : World (SumState K) K)
    (hw : w.fuse = none) (hmiss : w.est.vertical.get? (x, 0) = none) (h1 : lo < m) (h2 : m < hi)
    (hf : ∀ z, OnSegment ⟨x, lo⟩ ⟨x, hi⟩ z → ctx.f z ≠ 0)
    (S : Cx K) (hS : sumLine cfg 0 ⟨x, lo⟩ ⟨x, hi⟩ ctx w = (.ok S, w1))
    (zs : List (Cx K)) (ps : List K) (hzs : (genPhiArr cfg 0 ⟨x, lo⟩ ⟨x, hi⟩ ctx w).1 = .ok (zs, ps))
    (hm : ∀ z ∈ zs, z.im ≠ m) (hl : 3 ≤ (zs.filter fun z => decide (z.im < m)).length)
    (hr : 3 ≤ (zs.filter fun z => decide (m < z.im)).length) :
    ∃ (S1 S2 : Cx K) (w2 w3 : World (SumState K) K),
      sumLine cfg 0 ⟨x, lo⟩ ⟨x, m⟩ ctx w1 = (.ok S1, w2) ∧
      sumLine cfg 0 ⟨x, m⟩ ⟨x, hi⟩ ctx w2 = (.ok S2, w3) ∧ S1 + S2 = S ∧ w3.added = w.added := by
  have h12 := h1.trans h2
  rcases hg : genPhiArr cfg 0 ⟨x, lo⟩ ⟨x, hi⟩ ctx w with ⟨_ | v, w0⟩
  · rw [hg] at hzs; simp at hzs
  rw [hg] at hzs
  simp only [Except.ok.injEq] at hzs
  subst hzs
  obtain ⟨hadd, hseg⟩ := genPhiArr_noZeros cfg ctx hδ (by omega) _ _ w hw
    (OnSegment ⟨x, lo⟩ ⟨x, hi⟩)
    (fun u v n hu hv => linspace_onSegment _ _ u v n hu hv) (onSegment_left _ _)
    (onSegment_right _ _) hf zs ps w0 hg
  have hsort := genPhiArr_sorted cfg ctx hδ hn _ _ Cx.im (by intros; simp) h12 w hw zs ps w0 hg hadd
  have hsplit := sorted_split Cx.im m zs hsort hm
  have hest : w0.est = w.est := by
    have := (AddsOnly.genPhiArr cfg 0 ⟨x, lo⟩ ⟨x, hi⟩ ctx w).2.1
    rw [hg] at this; exact this
  simp only [sumLine, if_true, h12.ne, h1.ne, h2.ne, if_false] at hS ⊢
  rw [vertical_run, min_eq_left h12.le, max_eq_right h12.le, reuseV_miss hmiss] at hS
  simp only [sliceOrSample, hg, Prod.mk.injEq, Except.ok.injEq] at hS
  obtain ⟨rfl, rfl⟩ := hS
  set Z1 := zs.filter fun z => decide (z.im < m) with hZ1
  set Z2 := zs.filter fun z => decide (m < z.im) with hZ2
  have hZ1m : ∀ z ∈ Z1, z.im < m := by intro z hz; simpa using (List.mem_filter.1 hz).2
  have hZ2m : ∀ z ∈ Z2, m < z.im := by intro z hz; simpa using (List.mem_filter.1 hz).2
  have hget0 : (putV x 0 lo hi (zs, ps) w0).est.vertical.get? (x, 0) =
      some [((lo, .start), (zs, ps)), ((hi, .stop), (zs, ps))] := by
    simp only [putV]
    rw [storeCache_get, if_pos rfl, hest, hmiss]
    simp [Dict.set]
  have hre1 : reuseV (putV x 0 lo hi (zs, ps) w0).est.vertical 0 lo m x =
      .ok (some (Z1, ps.take Z1.length)) := by
    unfold reuseV cachedLine
    rw [hget0]
    simp only [Dict.get?_cons, if_true]
    rw [cutEnd_eq Cx.im m zs Z1 Z2 ps hsplit (fun z hz => (hZ1m z hz).le) hZ2m hl]
  rw [vertical_run, min_eq_left h1.le, max_eq_right h1.le, hre1]
  simp only [sliceOrSample, Py.pure_run]
  have hget1 : (putV x 0 lo m (Z1, ps.take Z1.length)
      (putV x 0 lo hi (zs, ps) w0)).est.vertical.get? (x, 0) =
      some [((lo, .start), (Z1, ps.take Z1.length)), ((hi, .stop), (zs, ps)),
        ((m, .stop), (Z1, ps.take Z1.length))] := by
    have : (putV x 0 lo m (Z1, ps.take Z1.length)
      (putV x 0 lo hi (zs, ps) w0)).est.vertical.get? (x, 0) = some
        ((Dict.set ([((lo, .start), (zs, ps)), ((hi, .stop), (zs, ps))] : Dict (K × Side) (PhiLine K))
          (lo, .start) (Z1, ps.take Z1.length)).set (m, .stop) (Z1, ps.take Z1.length)) := by
      conv_lhs => simp only [putV]
      rw [storeCache_get, if_pos rfl]
      have := hget0
      simp only [putV] at this
      rw [this]; rfl
    rw [this]
    simp [Dict.set, h2.ne, h2.ne', Ne.symm]
  have hre2 : reuseV (putV x 0 lo m (Z1, ps.take Z1.length)
      (putV x 0 lo hi (zs, ps) w0)).est.vertical 0 m hi x = .ok (some (Z2, ps.drop Z1.length)) := by
    unfold reuseV cachedLine
    rw [hget1]
    simp only [Dict.get?_cons, Prod.mk.injEq, h1.ne, h2.ne, h2.ne', h1.ne', false_and, and_false,
      reduceCtorEq, if_false, Dict.get?_nil, true_and, if_true, Option.map_some]
    refine cutStartV_eq m hi zs Z1 Z2 ps hsplit hZ1m (fun z hz => (hZ2m z hz).le) ?_ hr
    intro z hz
    have := (hseg z hz).2.2.2
    simpa [max_eq_right h12.le] using this
  refine ⟨_, Cx.ofK (lineSign m hi * (ps.drop Z1.length).sum), _,
    putV x 0 m hi (Z2, ps.drop Z1.length) (putV x 0 lo m (Z1, ps.take Z1.length)
      (putV x 0 lo hi (zs, ps) w0)), rfl, ?_, ?_, hadd⟩
  · rw [vertical_run, min_eq_left h2.le, max_eq_right h2.le, hre2]
    simp only [sliceOrSample, Py.pure_run]
  simp only [lineSign, h1, h2, h12, if_true, one_mul]
  rw [ofK_add, List.sum_take_add_sum_drop]

/-! ## even grids -/

theorem dyadic_support (a b : Cx K) (hab : a ≠ b) (n : ℕ) (hn : Even n) (j k : ℕ)
    (h : a + Cx.smul ((j : K) / 2 ^ k) (b - a) ∈ linspace a b n) :
    a + Cx.smul ((j : K) / 2 ^ k) (b - a) = a ∨ a + Cx.smul ((j : K) / 2 ^ k) (b - a) = b := by
  unfold linspace at h
  obtain ⟨i, hi, he⟩ := List.mem_map.1 h
  rw [List.mem_range] at hi
  have heq : (i : K) / ((n : K) - 1) = (j : K) / 2 ^ k := by
    by_contra hne
    apply hab
    have r := congrArg Cx.re he
    have s := congrArg Cx.im he
    simp only [Cx.add_re, Cx.add_im, Cx.smul_re, Cx.smul_im, Cx.sub_re, Cx.sub_im] at r s
    have hs : (i : K) / ((n : K) - 1) - (j : K) / 2 ^ k ≠ 0 := sub_ne_zero.2 hne
    ext
    · have : ((i : K) / ((n : K) - 1) - (j : K) / 2 ^ k) * (b.re - a.re) = 0 := by linarith
      linarith [(mul_eq_zero.1 this).resolve_left hs]
    · have : ((i : K) / ((n : K) - 1) - (j : K) / 2 ^ k) * (b.im - a.im) = 0 := by linarith
      linarith [(mul_eq_zero.1 this).resolve_left hs]
  have hn2 : 2 ≤ n := by
    obtain ⟨q, hq⟩ := hn; omega
  obtain ⟨N, rfl⟩ : ∃ N, n = N + 1 := ⟨n - 1, by omega⟩
  have hN : (N : K) ≠ 0 := by
    have : N ≠ 0 := by omega
    exact_mod_cast this
  have heq2 : i * 2 ^ k = j * N := by
    have : (i : K) * 2 ^ k = j * N := by
      have h3 : ((N + 1 : ℕ) : K) - 1 = N := by push_cast; ring
      rw [h3, div_eq_div_iff hN (by positivity)] at heq
      exact heq
    exact_mod_cast this
  have hodd : Nat.Coprime (2 ^ k) N := by
    apply Nat.Coprime.pow_left
    rw [Nat.coprime_two_left]
    rw [Nat.odd_iff]
    obtain ⟨q, hq⟩ := hn; omega
  have hdvd : 2 ^ k ∣ j := by
    apply hodd.dvd_of_dvd_mul_right
    rw [← heq2]; exact Dvd.intro_left i rfl
  obtain ⟨q, rfl⟩ := hdvd
  have hi2 : i = q * N := by
    have : 2 ^ k * i = 2 ^ k * (q * N) := by rw [mul_comm, heq2]; ring
    exact Nat.eq_of_mul_eq_mul_left (by positivity) this
  have hq1 : q ≤ 1 := by
    by_contra hq
    have hN0 : 0 < N := by omega
    have : 2 * N ≤ q * N := Nat.mul_le_mul_right N (by omega)
    omega
  have hval : ((2 ^ k * q : ℕ) : K) / 2 ^ k = q := by
    push_cast; field_simp
  rw [hval]
  rcases Nat.le_one_iff_eq_zero_or_eq_one.1 hq1 with rfl | rfl
  · left; ext <;> simp
  · right; ext <;> simp


/-- three consecutive grid points passing a test -/
theorem three_le_filter (a b : Cx K) (n i0 : ℕ) (h : i0 + 2 < n) (q : Cx K → Bool)
    (hq : ∀ i : ℕ, i0 ≤ i → i ≤ i0 + 2 → q (a + Cx.smul ((i : K) / ((n : K) - 1)) (b - a)) = true) :
    3 ≤ ((linspace a b n).filter q).length := by
  have hsub : (((linspace a b n).drop i0).take 3).Sublist (linspace a b n) :=
    (List.take_sublist _ _).trans (List.drop_sublist _ _)
  have hlen := (hsub.filter q).length_le
  rw [List.filter_eq_self.2] at hlen
  · simp at hlen; omega
  · intro z hz
    obtain ⟨i, hi, rfl⟩ := List.getElem_of_mem hz
    simp only [List.length_take, List.length_drop, length_linspace] at hi
    rw [List.getElem_take, List.getElem_drop, linspace_getElem]
    exact hq (i0 + i) (by omega) (by omega)

theorem halving (cfg : SumCfg K) (hδ : 0 < cfg.deltaPhi) (hn : 6 ≤ cfg.numPts)
    (heven : Even cfg.numPts) (ctx : RCtx K) (lo hi y : K) (w w1 : World (SumState K) K)
    (hw : w.fuse = none) (hmiss : w.est.horizontal.get? (y, 0) = none) (h1 : lo < hi)
    (hf : ∀ z, OnSegment ⟨lo, y⟩ ⟨hi, y⟩ z → ctx.f z ≠ 0)
    (S : Cx K) (hS : sumLine cfg 0 ⟨lo, y⟩ ⟨hi, y⟩ ctx w = (.ok S, w1))
    (hsmall : ∀ p ∈ phases cfg.arg ((linspace (⟨lo, y⟩ : Cx K) ⟨hi, y⟩ cfg.numPts).map ctx.f),
      |p| < cfg.deltaPhi) :
    ∃ (S1 S2 : Cx K) (w2 w3 : World (SumState K) K),
      sumLine cfg 0 ⟨lo, y⟩ ⟨(lo + hi) / 2, y⟩ ctx w1 = (.ok S1, w2) ∧
      sumLine cfg 0 ⟨(lo + hi) / 2, y⟩ ⟨hi, y⟩ ctx w2 = (.ok S2, w3) ∧ S1 + S2 = S := by
  have hsum : ∃ ps, (genPhiArr cfg 0 ⟨lo, y⟩ ⟨hi, y⟩ ctx w).1 =
      .ok (linspace ⟨lo, y⟩ ⟨hi, y⟩ cfg.numPts, ps) := by
    simp only [sumLine, if_true] at hS
    rw [horizontal_run, min_eq_left h1.le, max_eq_right h1.le, reuseH_miss hmiss] at hS
    simp only [sliceOrSample] at hS
    rcases hg : genPhiArr cfg 0 ⟨lo, y⟩ ⟨hi, y⟩ ctx w with ⟨_ | v, w0⟩
    · rw [hg] at hS; simp at hS
    refine ⟨v.2, ?_⟩
    rw [genPhiArr_zero, Py.bind_run] at hg
    rcases hs : genFuncArr cfg.evals ⟨lo, y⟩ ⟨hi, y⟩ ctx cfg.numPts w with ⟨_ | r, w2⟩
    · rw [hs] at hg; simp at hg
    · rw [hs] at hg
      have hfst : (genFuncArr cfg.evals ⟨lo, y⟩ ⟨hi, y⟩ ctx cfg.numPts w).1 = .ok r := by rw [hs]
      obtain ⟨j, _, hr2, _, hr1⟩ := genFuncArr_ok hw hfst
      have hadd := genFuncArr_noZeros hw hfst fun z hz =>
        hf z (linspace_onSegment _ _ _ _ _ (onSegment_left _ _) (onSegment_right _ _) z hz)
      have hr1' := hr1 hadd
      dsimp only at hg
      rw [hr2, hr1'] at hg
      rcases hst : cfg.steps with _ | s
      · rw [hst] at hg; simp [refineLoop] at hg
      · rw [hst] at hg
        unfold refineLoop at hg
        simp only [whereFrom_nil.2 (show ∀ p ∈ phases cfg.arg
          ((linspace (⟨lo, y⟩ : Cx K) ⟨hi, y⟩ cfg.numPts).map ctx.f),
          decide (cfg.deltaPhi ≤ |p|) = false by intro p hp; simpa using hsmall p hp)] at hg
        simp only [Py.pure_run, Prod.mk.injEq, Except.ok.injEq] at hg
        rw [← hg.1]
  obtain ⟨ps, hzs⟩ := hsum
  obtain ⟨M, hM⟩ : ∃ M, cfg.numPts = 2 * M := by
    obtain ⟨q, hq⟩ := heven; exact ⟨q, by omega⟩
  have hMpos : (0 : K) < (cfg.numPts : K) - 1 := by
    have : (6 : K) ≤ cfg.numPts := by exact_mod_cast hn
    linarith
  have hMK : (cfg.numPts : K) = 2 * M := by rw [hM]; push_cast; ring
  have hab : (⟨lo, y⟩ : Cx K) ≠ ⟨hi, y⟩ := fun e => h1.ne (congrArg Cx.re e)
  have key := split_horizontal cfg hδ (by omega) ctx lo
    ((lo + hi) / 2) hi y w w1 hw hmiss (by linarith) (by linarith) hf S hS _ ps hzs ?_ ?_ ?_
  · obtain ⟨S1, S2, w2, w3, a1, a2, a3, _⟩ := key
    exact ⟨S1, S2, w2, w3, a1, a2, a3⟩
  · intro z hz e
    have him : z.im = y := by
      obtain ⟨t, _, _, _, h4⟩ := mem_linspace hz
      simpa using h4
    have hz' : z = (⟨lo, y⟩ : Cx K) + Cx.smul (((1 : ℕ) : K) / 2 ^ 1) (⟨hi, y⟩ - ⟨lo, y⟩) := by
      ext
      · rw [e]; simp; ring
      · rw [him]; simp
    rw [hz'] at hz
    rcases dyadic_support _ _ hab _ heven 1 1 hz with h | h
    · rw [← hz'] at h
      rw [h] at e; simp at e; linarith
    · rw [← hz'] at h
      rw [h] at e; simp at e; linarith
  · apply three_le_filter _ _ _ 0 (by omega)
    intro i _ hi2
    have hiK : (i : K) ≤ 2 := by exact_mod_cast hi2
    have hM3 : (3 : K) ≤ M := by exact_mod_cast (by omega : 3 ≤ M)
    have : (i : K) / ((cfg.numPts : K) - 1) < 1 / 2 := by
      rw [div_lt_div_iff₀ hMpos (by norm_num), hMK]; linarith
    refine decide_eq_true ?_
    simp only [Cx.add_re, Cx.smul_re, Cx.sub_re]
    nlinarith
  · apply three_le_filter _ _ _ (cfg.numPts - 3) (by omega)
    intro i hi2 _
    have hiK : (cfg.numPts : K) - 3 ≤ i := by
      have : cfg.numPts ≤ i + 3 := by omega
      have : (cfg.numPts : K) ≤ i + 3 := by exact_mod_cast this
      linarith
    have hM3 : (3 : K) ≤ M := by exact_mod_cast (by omega : 3 ≤ M)
    have : 1 / 2 < (i : K) / ((cfg.numPts : K) - 1) := by
      rw [div_lt_div_iff₀ (by norm_num) hMpos]
      linarith
    refine decide_eq_true ?_
    simp only [Cx.add_re, Cx.smul_re, Cx.sub_re]
    nlinarith

end

/-! ## whole turns -/

/-- a line that is not served from the internal caches -/
theorem sumLine_angle (cfg : SumCfg ℝ) (harg : ∀ z, cfg.arg z = Complex.arg ⟨z.re, z.im⟩)
    (hδ : 0 < cfg.deltaPhi) (hn : 2 ≤ cfg.numPts) (ctx : RCtx ℝ) (a b : Cx ℝ) (hab : a ≠ b)
    (hpar : a.im = b.im ∨ a.re = b.re)
    (w w' : World (SumState ℝ) ℝ) (hw : w.fuse = none)
    (hH : a.im = b.im → w.est.horizontal.get? (a.im, 0) = none)
    (hV : a.re = b.re → w.est.vertical.get? (a.re, 0) = none)
    (hf : ∀ z, OnSegment a b z → ctx.f z ≠ 0) (phi : Cx ℝ)
    (h : sumLine cfg 0 a b ctx w = (.ok phi, w')) :
    phi.im = 0 ∧ (phi.re : Real.Angle) = (Complex.arg (toC (ctx.f b)) : Real.Angle) -
      (Complex.arg (toC (ctx.f a)) : Real.Angle) ∧ w'.added = w.added ∧ w'.fuse = none ∧
    w'.cache = w.cache ∧
    (∀ y, (a.im = b.im → y ≠ a.im) → w'.est.horizontal.get? (y, 0) = w.est.horizontal.get? (y, 0)) ∧
    (∀ x, (a.re = b.re → x ≠ a.re) → w'.est.vertical.get? (x, 0) = w.est.vertical.get? (x, 0)) := by
  have core : ∀ (u v : Cx ℝ) (z : List (Cx ℝ)) (p : List ℝ) (w1 : World (SumState ℝ) ℝ),
      (∀ z, OnSegment u v z → OnSegment a b z) →
      genPhiArr cfg 0 u v ctx w = (.ok (z, p), w1) →
      ((p.sum : ℝ) : Real.Angle) = (Complex.arg (toC (ctx.f v)) : Real.Angle) -
        (Complex.arg (toC (ctx.f u)) : Real.Angle) ∧ w1.added = w.added ∧ w1.fuse = none ∧
      w1.cache = w.cache ∧ w1.est = w.est := by
    intro u v z p w1 huv hg
    obtain ⟨hadd, _⟩ := genPhiArr_noZeros cfg ctx hδ (by omega) u v w hw (OnSegment a b)
      (fun u v n hu hv => linspace_onSegment _ _ u v n hu hv) (huv _ (onSegment_left _ _))
      (huv _ (onSegment_right _ _)) hf z p w1 hg
    have ha := AddsOnly.genPhiArr cfg 0 u v ctx w
    rw [hg] at ha
    exact ⟨genPhiArr_angle cfg harg ctx hδ hn u v w hw z p w1 hg hadd, hadd, ha.2.2.2.2 hw, ha.1,
      ha.2.1⟩
  unfold sumLine at h
  by_cases h1 : a.im = b.im
  · have hre : a.re ≠ b.re := fun e => hab (Cx.ext e h1)
    rw [if_pos h1, horizontal_run, reuseH_miss (hH h1)] at h
    simp only [sliceOrSample] at h
    rcases hg : genPhiArr cfg 0 ⟨min a.re b.re, a.im⟩ ⟨max a.re b.re, a.im⟩ ctx w
      with ⟨_ | ⟨z, p⟩, w1⟩
    · rw [hg] at h; simp at h
    rw [hg] at h
    simp only [Prod.mk.injEq, Except.ok.injEq] at h
    obtain ⟨rfl, rfl⟩ := h
    obtain ⟨c1, c2, c3, c4, c5⟩ := core _ _ z p w1 (by
      rintro q ⟨q1, q2, q3, q4⟩
      refine ⟨?_, ?_, ?_, ?_⟩ <;> simp_all [min_eq_left, max_eq_right]) hg
    refine ⟨by simp, ?_, c2, c3, c4, ?_, ?_⟩
    · simp only [Cx.ofK_re, lineSign]
      rcases lt_or_gt_of_ne hre with hlt | hlt
      · rw [if_pos hlt, one_mul, c1, min_eq_left hlt.le, max_eq_right hlt.le]
        conv_rhs => rw [show b = ⟨b.re, a.im⟩ from Cx.ext rfl h1.symm]
      · rw [if_neg (not_lt.2 hlt.le), neg_one_mul, Real.Angle.coe_neg, c1, min_eq_right hlt.le,
          max_eq_left hlt.le, neg_sub]
        conv_rhs => rw [show b = ⟨b.re, a.im⟩ from Cx.ext rfl h1.symm]
    · intro y hy
      simp only [putH]
      rw [storeCache_get, if_neg (by simp [Ne.symm (hy h1)]), c5]
    · intro x _
      simp only [putH]; rw [c5]
  · have h2 := hpar.resolve_left h1
    rw [if_neg h1, if_pos h2, vertical_run, reuseV_miss (hV h2)] at h
    simp only [sliceOrSample] at h
    rcases hg : genPhiArr cfg 0 ⟨a.re, min a.im b.im⟩ ⟨a.re, max a.im b.im⟩ ctx w
      with ⟨_ | ⟨z, p⟩, w1⟩
    · rw [hg] at h; simp at h
    rw [hg] at h
    simp only [Prod.mk.injEq, Except.ok.injEq] at h
    obtain ⟨rfl, rfl⟩ := h
    obtain ⟨c1, c2, c3, c4, c5⟩ := core _ _ z p w1 (by
      rintro q ⟨q1, q2, q3, q4⟩
      refine ⟨?_, ?_, ?_, ?_⟩ <;> simp_all [min_eq_left, max_eq_right]) hg
    refine ⟨by simp, ?_, c2, c3, c4, ?_, ?_⟩
    · simp only [Cx.ofK_re, lineSign]
      rcases lt_or_gt_of_ne h1 with hlt | hlt
      · rw [if_pos hlt, one_mul, c1, min_eq_left hlt.le, max_eq_right hlt.le]
        conv_rhs => rw [show b = ⟨a.re, b.im⟩ from Cx.ext h2.symm rfl]
      · rw [if_neg (not_lt.2 hlt.le), neg_one_mul, Real.Angle.coe_neg, c1, min_eq_right hlt.le,
          max_eq_left hlt.le, neg_sub]
        conv_rhs => rw [show b = ⟨a.re, b.im⟩ from Cx.ext h2.symm rfl]
    · intro x _
      simp only [putV]; rw [c5]
    · intro x hx
      simp only [putV]
      rw [storeCache_get, if_neg (by simp [Ne.symm (hx h2)]), c5]

/-- one edge of a rectangle -/
theorem edge_angle (cfg : SumCfg ℝ) (harg : ∀ z, cfg.arg z = Complex.arg ⟨z.re, z.im⟩)
    (hδ : 0 < cfg.deltaPhi) (hn : 2 ≤ cfg.numPts) (ctx : RCtx ℝ) (a b : Cx ℝ) (hab : a ≠ b)
    (hpar : a.im = b.im ∨ a.re = b.re)
    (w w' : World (SumState ℝ) ℝ) (hw : w.fuse = none) (hc : w.cache.look 0 a b = none)
    (hH : a.im = b.im → w.est.horizontal.get? (a.im, 0) = none)
    (hV : a.re = b.re → w.est.vertical.get? (a.re, 0) = none)
    (hf : ∀ z, OnSegment a b z → ctx.f z ≠ 0) (phi : Cx ℝ)
    (h : edgeMoment (sumLine cfg) 0 ctx (a, b) w = (.ok phi, w')) :
    phi.im = 0 ∧ (phi.re : Real.Angle) = (Complex.arg (toC (ctx.f b)) : Real.Angle) -
      (Complex.arg (toC (ctx.f a)) : Real.Angle) ∧ w'.fuse = none ∧
    (∀ u v, (u, v) ≠ (a, b) → (u, v) ≠ (b, a) → w'.cache.look 0 u v = w.cache.look 0 u v) ∧
    (∀ y, (a.im = b.im → y ≠ a.im) → w'.est.horizontal.get? (y, 0) = w.est.horizontal.get? (y, 0)) ∧
    (∀ x, (a.re = b.re → x ≠ a.re) → w'.est.vertical.get? (x, 0) = w.est.vertical.get? (x, 0)) := by
  rw [edgeMoment_run, hc] at h
  dsimp only at h
  rw [compute_run, World.tick_none (by exact hw)] at h
  dsimp only at h
  rcases hs : sumLine cfg 0 a b ctx { w with cache := (w.cache.retrieve 0 a b).2 } with ⟨_ | d, w2⟩
  · rw [hs] at h; simp at h
  rw [hs] at h
  simp only [Prod.mk.injEq, Except.ok.injEq] at h
  obtain ⟨rfl, rfl⟩ := h
  obtain ⟨g1, g2, g3, g4, g5, g6, g7⟩ := sumLine_angle cfg harg hδ hn ctx a b hab hpar
    { w with cache := (w.cache.retrieve 0 a b).2 } w2 hw hH hV hf d hs
  refine ⟨g1, g2, g4, ?_, g6, g7⟩
  intro u v h1 h2
  simp only
  rw [EstCache.look_store, EstCache.look_store, g5, EstCache.look_retrieve]
  rw [if_neg, if_neg]
  · intro e; apply h1; simp_all
  · intro e; apply h2; simp_all

theorem calcMoment_angle (cfg : SumCfg ℝ) (harg : ∀ z, cfg.arg z = Complex.arg ⟨z.re, z.im⟩)
    (hδ : 0 < cfg.deltaPhi) (hn : 2 ≤ cfg.numPts) (ctx : RCtx ℝ) (re im : ℝ × ℝ)
    (hre : re.1 ≠ re.2) (him : im.1 ≠ im.2)
    (w : World (SumState ℝ) ℝ) (hw : w.fuse = none) (hc : w.cache.data = [])
    (hH : ∀ y, y = im.1 ∨ y = im.2 → w.est.horizontal.get? (y, 0) = none)
    (hV : ∀ x, x = re.1 ∨ x = re.2 → w.est.vertical.get? (x, 0) = none)
    (hf : ∀ z, OnBoundary re im z → ctx.f z ≠ 0) (phi : Cx ℝ)
    (h : (calcMoment (sumLine cfg) 0 re im ctx w).1 = .ok phi) :
    ∃ n : ℤ, phi = ⟨2 * Real.pi * n, 0⟩ := by
  obtain ⟨x1, x2⟩ := re
  obtain ⟨y1, y2⟩ := im
  simp only at hre him hH hV
  have hlook : ∀ u v, w.cache.look 0 u v = none := by
    intro u v; unfold EstCache.look; rw [hc]; rfl
  unfold calcMoment edges at h
  simp only [sumEdges, Py.bind_run, Py.pure_run] at h
  -- bottom
  rcases h1 : edgeMoment (sumLine cfg) 0 ctx (⟨x1, y1⟩, ⟨x2, y1⟩) w with ⟨_ | d1, w1⟩
  · rw [h1] at h; simp at h
  rw [h1] at h; dsimp only at h
  obtain ⟨a1, b1, c1, e1, f1, g1⟩ := edge_angle cfg harg hδ hn ctx ⟨x1, y1⟩ ⟨x2, y1⟩
    (fun e => hre (congrArg Cx.re e)) (.inl rfl) w w1 hw (hlook _ _) (fun _ => hH _ (.inl rfl))
    (fun e => absurd e hre) (by
      rintro z ⟨q1, q2, q3, q4⟩
      apply hf; right
      simp only [min_self, max_self] at q3 q4
      exact ⟨.inl (le_antisymm q4 q3), q1, q2⟩) d1 h1
  -- right
  rcases h2 : edgeMoment (sumLine cfg) 0 ctx (⟨x2, y1⟩, ⟨x2, y2⟩) w1 with ⟨_ | d2, w2⟩
  · rw [h2] at h; simp at h
  rw [h2] at h; dsimp only at h
  obtain ⟨a2, b2, c2, e2, f2, g2⟩ := edge_angle cfg harg hδ hn ctx ⟨x2, y1⟩ ⟨x2, y2⟩
    (fun e => him (congrArg Cx.im e)) (.inr rfl) w1 w2 c1
    (by rw [e1 _ _ (by simp [hre, hre.symm]) (by simp [him, him.symm])]; exact hlook _ _)
    (fun e => absurd e him)
    (fun _ => by rw [g1 _ (fun e => absurd e hre)]; exact hV _ (.inr rfl)) (by
      rintro z ⟨q1, q2, q3, q4⟩
      apply hf; left
      simp only [min_self, max_self] at q1 q2
      exact ⟨.inr (le_antisymm q2 q1), q3, q4⟩) d2 h2
  -- top
  rcases h3 : edgeMoment (sumLine cfg) 0 ctx (⟨x2, y2⟩, ⟨x1, y2⟩) w2 with ⟨_ | d3, w3⟩
  · rw [h3] at h; simp at h
  rw [h3] at h; dsimp only at h
  obtain ⟨a3, b3, c3, e3, f3, g3⟩ := edge_angle cfg harg hδ hn ctx ⟨x2, y2⟩ ⟨x1, y2⟩
    (fun e => hre (congrArg Cx.re e).symm) (.inl rfl) w2 w3 c2
    (by rw [e2 _ _ (by simp [him, him.symm]) (by simp [hre, hre.symm]),
          e1 _ _ (by simp [hre, hre.symm]) (by simp [him, him.symm])]; exact hlook _ _)
    (fun _ => by
      rw [f2 _ (fun e => absurd e him), f1 _ (fun _ => him.symm)]; exact hH _ (.inr rfl))
    (fun e => absurd e hre.symm) (by
      rintro z ⟨q1, q2, q3, q4⟩
      apply hf; right
      simp only [min_self, max_self] at q3 q4
      rw [min_comm] at q1
      rw [max_comm] at q2
      exact ⟨.inr (le_antisymm q4 q3), q1, q2⟩) d3 h3
  -- left
  rcases h4 : edgeMoment (sumLine cfg) 0 ctx (⟨x1, y2⟩, ⟨x1, y1⟩) w3 with ⟨_ | d4, w4⟩
  · rw [h4] at h; simp at h
  rw [h4] at h; dsimp only at h
  obtain ⟨a4, b4, c4, e4, f4, g4⟩ := edge_angle cfg harg hδ hn ctx ⟨x1, y2⟩ ⟨x1, y1⟩
    (fun e => him (congrArg Cx.im e).symm) (.inr rfl) w3 w4 c3
    (by rw [e3 _ _ (by simp [hre, hre.symm]) (by simp [him, him.symm]),
          e2 _ _ (by simp [hre, hre.symm]) (by simp [hre, hre.symm]),
          e1 _ _ (by simp [him, him.symm]) (by simp [hre, hre.symm])]; exact hlook _ _)
    (fun e => absurd e him.symm)
    (fun _ => by
      rw [g3 _ (fun e => absurd e hre.symm), g2 _ (fun _ => hre), g1 _ (fun e => absurd e hre)]
      exact hV _ (.inl rfl)) (by
      rintro z ⟨q1, q2, q3, q4⟩
      apply hf; left
      simp only [min_self, max_self] at q1 q2
      rw [min_comm] at q3
      rw [max_comm] at q4
      exact ⟨.inl (le_antisymm q2 q1), q3, q4⟩) d4 h4
  simp only [Except.ok.injEq] at h
  subst h
  have hang : (((0 + d1 + d2 + d3 + d4 : Cx ℝ).re : ℝ) : Real.Angle) = 0 := by
    simp only [Cx.add_re, Cx.zero_re, Real.Angle.coe_add, b1, b2, b3, b4, Real.Angle.coe_zero]
    abel
  obtain ⟨n, hn⟩ := Real.Angle.coe_eq_zero_iff.1 hang
  refine ⟨n, ?_⟩
  ext
  · rw [← hn]; simp; ring
  · simp [a1, a2, a3, a4]

/-- an edge that is not cached can be evaluated -/
theorem edge_defined (cfg : SumCfg ℝ) (ctx : RCtx ℝ)
    (hdef : ∀ u v (w : World (SumState ℝ) ℝ), w.fuse = none →
      ∃ r, (genPhiArr cfg 0 u v ctx w).1 = .ok r) (a b : Cx ℝ) (hab : a ≠ b)
    (hpar : a.im = b.im ∨ a.re = b.re)
    (w : World (SumState ℝ) ℝ) (hw : w.fuse = none) (hc : w.cache.look 0 a b = none)
    (hH : a.im = b.im → w.est.horizontal.get? (a.im, 0) = none)
    (hV : a.re = b.re → w.est.vertical.get? (a.re, 0) = none) :
    ∃ d w', edgeMoment (sumLine cfg) 0 ctx (a, b) w = (.ok d, w') := by
  rw [edgeMoment_run, hc]
  dsimp only
  rw [compute_run, World.tick_none (by exact hw)]
  dsimp only
  have hs : ∃ d w2, sumLine cfg 0 a b ctx { w with cache := (w.cache.retrieve 0 a b).2 } =
      (.ok d, w2) := by
    unfold sumLine
    by_cases h1 : a.im = b.im
    · rw [if_pos h1, horizontal_run, reuseH_miss (by exact hH h1)]
      simp only [sliceOrSample]
      obtain ⟨r, hr⟩ := hdef ⟨min a.re b.re, a.im⟩ ⟨max a.re b.re, a.im⟩
        { w with cache := (w.cache.retrieve 0 a b).2 } hw
      rcases hg : genPhiArr cfg 0 ⟨min a.re b.re, a.im⟩ ⟨max a.re b.re, a.im⟩ ctx
        { w with cache := (w.cache.retrieve 0 a b).2 } with ⟨_ | v, w1⟩
      · rw [hg] at hr; simp at hr
      · exact ⟨_, _, rfl⟩
    · have h2 := hpar.resolve_left h1
      rw [if_neg h1, if_pos h2, vertical_run, reuseV_miss (by exact hV h2)]
      simp only [sliceOrSample]
      obtain ⟨r, hr⟩ := hdef ⟨a.re, min a.im b.im⟩ ⟨a.re, max a.im b.im⟩
        { w with cache := (w.cache.retrieve 0 a b).2 } hw
      rcases hg : genPhiArr cfg 0 ⟨a.re, min a.im b.im⟩ ⟨a.re, max a.im b.im⟩ ctx
        { w with cache := (w.cache.retrieve 0 a b).2 } with ⟨_ | v, w1⟩
      · rw [hg] at hr; simp at hr
      · exact ⟨_, _, rfl⟩
  obtain ⟨d, w2, hs⟩ := hs
  rw [hs]
  exact ⟨_, _, rfl⟩

theorem calcMoment_defined (cfg : SumCfg ℝ) (harg : ∀ z, cfg.arg z = Complex.arg ⟨z.re, z.im⟩)
    (hδ : 0 < cfg.deltaPhi) (hn : 2 ≤ cfg.numPts) (ctx : RCtx ℝ) (re im : ℝ × ℝ)
    (hre : re.1 ≠ re.2) (him : im.1 ≠ im.2)
    (w : World (SumState ℝ) ℝ) (hw : w.fuse = none) (hc : w.cache.data = [])
    (hH : ∀ y, y = im.1 ∨ y = im.2 → w.est.horizontal.get? (y, 0) = none)
    (hV : ∀ x, x = re.1 ∨ x = re.2 → w.est.vertical.get? (x, 0) = none)
    (hf : ∀ z, OnBoundary re im z → ctx.f z ≠ 0)
    (hdef : ∀ u v (w : World (SumState ℝ) ℝ), w.fuse = none →
      ∃ r, (genPhiArr cfg 0 u v ctx w).1 = .ok r) :
    ∃ phi, (calcMoment (sumLine cfg) 0 re im ctx w).1 = .ok phi := by
  obtain ⟨x1, x2⟩ := re
  obtain ⟨y1, y2⟩ := im
  simp only at hre him hH hV
  have hlook : ∀ u v, w.cache.look 0 u v = none := by
    intro u v; unfold EstCache.look; rw [hc]; rfl
  unfold calcMoment edges
  simp only [sumEdges, Py.bind_run, Py.pure_run]
  -- bottom
  obtain ⟨d1, w1, h1⟩ := edge_defined cfg ctx hdef ⟨x1, y1⟩ ⟨x2, y1⟩
    (fun e => hre (congrArg Cx.re e)) (.inl rfl)
    w hw (hlook _ _) (fun _ => hH _ (.inl rfl))
    (fun e => absurd e hre)
  rw [h1]; dsimp only
  obtain ⟨a1, b1, c1, e1, f1, g1⟩ := edge_angle cfg harg hδ hn ctx ⟨x1, y1⟩ ⟨x2, y1⟩
    (fun e => hre (congrArg Cx.re e)) (.inl rfl) w w1 hw (hlook _ _) (fun _ => hH _ (.inl rfl))
    (fun e => absurd e hre) (by
      rintro z ⟨q1, q2, q3, q4⟩
      apply hf; right
      simp only [min_self, max_self] at q3 q4
      exact ⟨.inl (le_antisymm q4 q3), q1, q2⟩) d1 h1
  -- right
  obtain ⟨d2, w2, h2⟩ := edge_defined cfg ctx hdef ⟨x2, y1⟩ ⟨x2, y2⟩
    (fun e => him (congrArg Cx.im e)) (.inr rfl)
    w1 c1
    (by rw [e1 _ _ (by simp [hre, hre.symm]) (by simp [him, him.symm])]; exact hlook _ _)
    (fun e => absurd e him)
    (fun _ => by rw [g1 _ (fun e => absurd e hre)]; exact hV _ (.inr rfl))
  rw [h2]; dsimp only
  obtain ⟨a2, b2, c2, e2, f2, g2⟩ := edge_angle cfg harg hδ hn ctx ⟨x2, y1⟩ ⟨x2, y2⟩
    (fun e => him (congrArg Cx.im e)) (.inr rfl) w1 w2 c1
    (by rw [e1 _ _ (by simp [hre, hre.symm]) (by simp [him, him.symm])]; exact hlook _ _)
    (fun e => absurd e him)
    (fun _ => by rw [g1 _ (fun e => absurd e hre)]; exact hV _ (.inr rfl)) (by
      rintro z ⟨q1, q2, q3, q4⟩
      apply hf; left
      simp only [min_self, max_self] at q1 q2
      exact ⟨.inr (le_antisymm q2 q1), q3, q4⟩) d2 h2
  -- top
  obtain ⟨d3, w3, h3⟩ := edge_defined cfg ctx hdef ⟨x2, y2⟩ ⟨x1, y2⟩
    (fun e => hre (congrArg Cx.re e).symm) (.inl rfl)
    w2 c2
    (by rw [e2 _ _ (by simp [him, him.symm]) (by simp [hre, hre.symm]),
          e1 _ _ (by simp [hre, hre.symm]) (by simp [him, him.symm])]; exact hlook _ _)
    (fun _ => by
      rw [f2 _ (fun e => absurd e him), f1 _ (fun _ => him.symm)]; exact hH _ (.inr rfl))
    (fun e => absurd e hre.symm)
  rw [h3]; dsimp only
  obtain ⟨a3, b3, c3, e3, f3, g3⟩ := edge_angle cfg harg hδ hn ctx ⟨x2, y2⟩ ⟨x1, y2⟩
    (fun e => hre (congrArg Cx.re e).symm) (.inl rfl) w2 w3 c2
    (by rw [e2 _ _ (by simp [him, him.symm]) (by simp [hre, hre.symm]),
          e1 _ _ (by simp [hre, hre.symm]) (by simp [him, him.symm])]; exact hlook _ _)
    (fun _ => by
      rw [f2 _ (fun e => absurd e him), f1 _ (fun _ => him.symm)]; exact hH _ (.inr rfl))
    (fun e => absurd e hre.symm) (by
      rintro z ⟨q1, q2, q3, q4⟩
      apply hf; right
      simp only [min_self, max_self] at q3 q4
      rw [min_comm] at q1
      rw [max_comm] at q2
      exact ⟨.inr (le_antisymm q4 q3), q1, q2⟩) d3 h3
  -- left
  obtain ⟨d4, w4, h4⟩ := edge_defined cfg ctx hdef ⟨x1, y2⟩ ⟨x1, y1⟩
    (fun e => him (congrArg Cx.im e).symm) (.inr rfl)
    w3 c3
    (by rw [e3 _ _ (by simp [hre, hre.symm]) (by simp [him, him.symm]),
          e2 _ _ (by simp [hre, hre.symm]) (by simp [hre, hre.symm]),
          e1 _ _ (by simp [him, him.symm]) (by simp [hre, hre.symm])]; exact hlook _ _)
    (fun e => absurd e him.symm)
    (fun _ => by
      rw [g3 _ (fun e => absurd e hre.symm), g2 _ (fun _ => hre), g1 _ (fun e => absurd e hre)]
      exact hV _ (.inl rfl))
  rw [h4]; dsimp only
  obtain ⟨a4, b4, c4, e4, f4, g4⟩ := edge_angle cfg harg hδ hn ctx ⟨x1, y2⟩ ⟨x1, y1⟩
    (fun e => him (congrArg Cx.im e).symm) (.inr rfl) w3 w4 c3
    (by rw [e3 _ _ (by simp [hre, hre.symm]) (by simp [him, him.symm]),
          e2 _ _ (by simp [hre, hre.symm]) (by simp [hre, hre.symm]),
          e1 _ _ (by simp [him, him.symm]) (by simp [hre, hre.symm])]; exact hlook _ _)
    (fun e => absurd e him.symm)
    (fun _ => by
      rw [g3 _ (fun e => absurd e hre.symm), g2 _ (fun _ => hre), g1 _ (fun e => absurd e hre)]
      exact hV _ (.inl rfl)) (by
      rintro z ⟨q1, q2, q3, q4⟩
      apply hf; left
      simp only [min_self, max_self] at q1 q2
      rw [min_comm] at q3
      rw [max_comm] at q4
      exact ⟨.inl (le_antisymm q2 q1), q3, q4⟩) d4 h4
  exact ⟨_, rfl⟩

end PyZeal
