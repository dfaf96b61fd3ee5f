import Verif.Model.FloatSum
import Verif.Spec.FloatSum
import Verif.Spec.Float
import Verif.Proof.Float
import Verif.Proof.SumLine

/-! # Lemmas about the summation estimator in floating-point arithmetic -/

set_option linter.unusedSectionVars false
set_option linter.unusedSimpArgs false

namespace PyZeal
open Spec

section
variable {K : Type} {σ : Type} [Field K] [LinearOrder K] [IsStrictOrderedRing K] [FloorRing K]

@[simp] theorem phasesOf_length (ph : Cx K → Cx K → K) (fs : List (Cx K)) :
    (phasesOf ph fs).length = fs.length - 1 := by simp [phasesOf]

theorem phasesOf_cons_cons (ph : Cx K → Cx K → K) (a b : Cx K) (l : List (Cx K)) :
    phasesOf ph (a :: b :: l) = ph a b :: phasesOf ph (b :: l) := rfl

theorem phasesOf_append (ph : Cx K → Cx K → K) (A C : List (Cx K)) (u : Cx K) :
    phasesOf ph (A ++ u :: C) = phasesOf ph (A ++ [u]) ++ phasesOf ph (u :: C) := by
  induction A with
  | nil => simp [phasesOf]
  | cons a A ih =>
    cases A with
    | nil => simp [phasesOf]
    | cons b B =>
      simp only [List.cons_append] at ih ⊢
      rw [phasesOf_cons_cons, phasesOf_cons_cons, ih, List.cons_append]

theorem AddsOnly.genFuncLoopF (A : FloatOps K) (f : Cx K → Cx K) (s : Cx K) (n : ℕ) (base : List (Cx K)) :
    AddsOnly (genFuncLoopF A f s n base : Py (World σ K) _) := by
  induction n generalizing base with
  | zero => exact AddsOnly.throw _
  | succ n ih =>
    simp only [PyZeal.genFuncLoopF]
    split
    · exact AddsOnly.pure _
    · exact AddsOnly.bind (AddsOnly.addRoots _) fun _ => ih _

theorem AddsOnly.genFuncArrF (A : FloatOps K) (S : SumOps K) (a b : Cx K) (ctx : RCtx K) (n : ℕ) :
    AddsOnly (genFuncArrF A S a b ctx n : Py (World σ K) _) := AddsOnly.genFuncLoopF _ _ _ _ _

theorem AddsOnly.refineLoopF (A : FloatOps K) (S : SumOps K) (ctx : RCtx K) (n idx : ℕ) (z : List (Cx K)) (p : List K) :
    AddsOnly (refineLoopF A S ctx n idx z p) := by
  induction n generalizing idx z p with
  | zero => exact AddsOnly.throw _
  | succ n ih =>
    unfold PyZeal.refineLoopF
    split
    · exact AddsOnly.pure _
    · dsimp only
      split
      · exact AddsOnly.pure _
      · split
        · exact AddsOnly.pure _
        · exact AddsOnly.bind (AddsOnly.genFuncArrF _ _ _ _ _ _) fun _ => ih _ _ _

theorem AddsOnly.genPhiArrF (A : FloatOps K) (S : SumOps K) (o : ℤ) (a b : Cx K) (ctx : RCtx K) :
    AddsOnly (genPhiArrF A S o a b ctx) := by
  unfold PyZeal.genPhiArrF
  split
  · exact AddsOnly.throw _
  · exact AddsOnly.bind (AddsOnly.genFuncArrF _ _ _ _ _ _) fun _ => AddsOnly.refineLoopF _ _ _ _ _ _ _

/-- what `genFuncArr` returns -/
theorem genFuncLoopF_ok (A : FloatOps K) (f : Cx K → Cx K) (s : Cx K) (n : ℕ) (base : List (Cx K)) (w w' : World σ K)
    (r : List (Cx K) × List (Cx K)) (h : genFuncLoopF A f s n base w = (.ok r, w')) :
    r.2 = r.1.map f ∧ (∀ z ∈ r.1, f z ≠ 0) ∧ r.1.length = base.length ∧ (w'.added = w.added → r.1 = base) := by
  induction n generalizing base w with
  | zero => simp [genFuncLoopF] at h
  | succ n ih =>
    simp only [genFuncLoopF] at h
    split at h
    · rename_i he
      simp only [Py.pure_run, Prod.mk.injEq, Except.ok.injEq] at h
      obtain ⟨rfl, rfl⟩ := h
      refine ⟨rfl, ?_, rfl, fun _ => rfl⟩
      intro z hz h0
      rw [List.isEmpty_iff, List.filter_eq_nil_iff] at he
      exact he z hz (decide_eq_true h0)
    · rename_i he
      rw [Py.bind_run] at h
      rcases ha : World.addRoots ((base.filter fun z => decide (f z = 0)).map fun z => (z, (0 : ℤ))) w with ⟨_ | _, w1⟩
      · rw [ha] at h; simp at h
      · rw [ha] at h
        dsimp only at h
        obtain ⟨h1, h2, h3, _⟩ := ih _ _ h
        refine ⟨h1, h2, by simpa using h3, fun hadd => ?_⟩
        exfalso
        have hp : w1.added <+: w'.added := by
          have := (AddsOnly.genFuncLoopF (σ := σ) A f s n (base.map fun z => A.cx (z + s)) w1).2.2.2.1
          rwa [h] at this
        have h4 := (addRoots_ok ha).1
        rw [hadd, h4] at hp
        have := hp.length_le
        rw [List.isEmpty_iff] at he
        have h5 : (base.filter fun z => decide (f z = 0)).length ≠ 0 := by
          intro e; exact he (List.length_eq_zero_iff.1 e)
        simp only [List.length_append, List.length_map] at this
        omega

theorem genFuncArrF_ok {A : FloatOps K} {S : SumOps K} (hS : Samples S) {a b : Cx K} {ctx : RCtx K} {n : ℕ}
    {w w' : World σ K} {r : List (Cx K) × List (Cx K)} (h : genFuncArrF A S a b ctx n w = (.ok r, w')) :
    r.2 = r.1.map ctx.f ∧ (∀ z ∈ r.1, ctx.f z ≠ 0) ∧ r.1.length = n ∧ (w'.added = w.added → r.1 = S.lin a b n) := by
  obtain ⟨h1, h2, h3, h4⟩ := genFuncLoopF_ok A _ _ _ _ w w' r h
  exact ⟨h1, h2, by rw [h3, hS.length], h4⟩

/-- the points `z` lead from `a` to `b` without meeting a zero of `f`, and `p` are the phases between them -/
def Chain (S : SumOps K) (f : Cx K → Cx K) (a b : Cx K) (z : List (Cx K)) (p : List K) : Prop :=
  p = phasesOf S.phase (z.map f) ∧ (∀ x ∈ z, f x ≠ 0) ∧ z.head? = some a ∧ z.getLast? = some b

/-- refining one interval keeps the chain -/
theorem Chain.refine {S : SumOps K} {f : Cx K → Cx K} {a b : Cx K} {z : List (Cx K)} {p : List K}
    (h : Chain S f a b z p) {k : ℕ} (hk1 : k + 1 < z.length) {r : List (Cx K)} (hr2 : 2 ≤ r.length)
    (hr3 : ∀ x ∈ r, f x ≠ 0) (hh : r.head? = some (z.getD k 0)) (hl : r.getLast? = some (z.getD (k + 1) 0)) :
    Chain S f a b (z.take (k + 1) ++ (r.drop 1).dropLast ++ z.drop (k + 1))
      (p.take k ++ phasesOf S.phase (r.map f) ++ p.drop (k + 1)) := by
  obtain ⟨g1, g2, g3, g4⟩ := h
  refine ⟨?_, ?_, (splice_head hk1).trans g3, (splice_last hk1).trans g4⟩
  · obtain ⟨A, B, hz, hA, ht, hd⟩ := split_at hk1
    have hmid := eq_cons_mid_concat hr2 hh hl
    generalize (r.drop 1).dropLast = M at hmid ⊢
    rw [ht, hd]
    have hp1 : p = phasesOf S.phase ((A ++ [z.getD k 0]).map f) ++
        (S.phase (f (z.getD k 0)) (f (z.getD (k+1) 0)) ::
          phasesOf S.phase ((z.getD (k+1) 0 :: B).map f)) := by
      rw [g1]
      conv_lhs => rw [hz]
      simp only [List.map_append, List.map_cons, List.map_nil]
      rw [phasesOf_append, phasesOf_cons_cons]
    have hlen : (phasesOf S.phase ((A ++ [z.getD k 0]).map f)).length = k := by simp [hA]
    have t1 : p.take k = phasesOf S.phase ((A ++ [z.getD k 0]).map f) := by
      rw [hp1, List.take_append_of_le_length (by omega), List.take_of_length_le (by omega)]
    have t2 : p.drop (k + 1) = phasesOf S.phase ((z.getD (k+1) 0 :: B).map f) := by
      rw [hp1, List.drop_append, List.drop_of_length_le (by omega), hlen]
      simp
    rw [t1, t2]
    conv_lhs => rw [hmid]
    simp only [List.map_append, List.map_cons, List.map_nil, List.append_assoc,
      List.cons_append, List.nil_append]
    have q1 := phasesOf_append S.phase (A.map f)
      (M.map f ++ f (z.getD (k+1) 0) :: B.map f) (f (z.getD k 0))
    have q2 := phasesOf_append S.phase (f (z.getD k 0) :: M.map f) (B.map f)
      (f (z.getD (k+1) 0))
    simp only [List.cons_append] at q2
    rw [q1, q2]
  · intro x hx
    simp only [List.mem_append] at hx
    rcases hx with (hx | hx) | hx
    · exact g2 x (List.mem_of_mem_take hx)
    · exact hr3 x (List.mem_of_mem_drop (List.mem_of_mem_dropLast hx))
    · exact g2 x (List.mem_of_mem_drop hx)

/-- what the refinement loop returns: if no zero was met, the phases between points leading from `a` to `b` -/
theorem refineLoopF_ok {A : FloatOps K} {S : SumOps K} (hS : Samples S) {ctx : RCtx K} {a b : Cx K} (F : ℕ)
    (hF : ∀ idx phi, idx ≤ S.steps → |phi| ≤ 4 → S.factor idx phi ≤ F)
    (hph : ∀ u v, u ≠ 0 → v ≠ 0 → |S.phase u v| ≤ 4) (n : ℕ) :
    ∀ (idx : ℕ) (z : List (Cx K)) (p : List K) (w w' : World (SumState K) K) (v : PhiLine K),
      idx + n ≤ S.steps → p.length + 1 = z.length → (∀ x ∈ p, |x| ≤ 4) →
      refineLoopF A S ctx n idx z p w = (.ok v, w') →
      z.length ≤ 100 * S.numPts + F → 
      (v.2.length + 1 = v.1.length ∧ v.1.length ≤ 100 * S.numPts + F) ∧
      (Chain S ctx.f a b z p → w'.added = w.added → Chain S ctx.f a b v.1 v.2) := by
  induction n with
  | zero => intro idx z p w w' v _ _ _ h; simp [refineLoopF] at h
  | succ n ih =>
    intro idx z p w w' v hidx hlen hp4 h hN
    unfold refineLoopF at h
    rcases hw : whereFrom (fun p => decide (S.deltaPhi ≤ |p|)) 0 p with _ | ⟨k, t⟩
    · rw [hw] at h
      dsimp only at h
      simp only [Py.pure_run, Prod.mk.injEq, Except.ok.injEq] at h
      obtain ⟨rfl, rfl⟩ := h
      exact ⟨⟨hlen, hN⟩, fun hc _ => hc⟩
    · rw [hw] at h
      dsimp only at h
      split at h
      · simp only [Py.pure_run, Prod.mk.injEq, Except.ok.injEq] at h
        obtain ⟨rfl, rfl⟩ := h
        exact ⟨⟨hlen, hN⟩, fun hc _ => hc⟩
      split at h
      · simp only [Py.pure_run, Prod.mk.injEq, Except.ok.injEq] at h
        obtain ⟨rfl, rfl⟩ := h
        exact ⟨⟨hlen, hN⟩, fun hc _ => hc⟩
      rename_i hmax
      obtain ⟨_, hk, hbig, _⟩ := whereFrom_cons hw
      simp only [Nat.sub_zero, decide_eq_true_eq] at hk hbig
      have hk1 : k + 1 < z.length := by omega
      have hgd : p.getD k 0 = p[k] := List.getD_eq_getElem _ _ hk
      have hfac2 : 2 ≤ S.factor (idx + 1) (p.getD k 0) := hS.factor _ _ (by omega) (by rw [hgd]; exact hbig)
      have hfacF : S.factor (idx + 1) (p.getD k 0) ≤ F :=
        hF _ _ (by omega) (by rw [hgd]; exact hp4 _ (List.getElem_mem hk))
      rw [Py.bind_run] at h
      rcases hg : genFuncArrF A S (z.getD k 0) (z.getD (k + 1) 0) ctx (S.factor (idx + 1) (p.getD k 0)) w with ⟨_ | r, w1⟩
      · rw [hg] at h; simp at h
      rw [hg] at h
      dsimp only at h
      obtain ⟨r1, r2, r3, r4⟩ := genFuncArrF_ok hS hg
      have hpre : w.added <+: w1.added := by
        have := (AddsOnly.genFuncArrF (σ := SumState K) A S (z.getD k 0) (z.getD (k + 1) 0) ctx
          (S.factor (idx + 1) (p.getD k 0)) w).2.2.2.1
        rwa [hg] at this
      have hpre2 : w1.added <+: w'.added := by
        have := (AddsOnly.refineLoopF A S ctx n (idx + 1)
          (z.take (k + 1) ++ (r.1.drop 1).dropLast ++ z.drop (k + 1))
          (p.take k ++ phasesOf S.phase r.2 ++ p.drop (k + 1)) w1).2.2.2.1
        rwa [h] at this
      have hmax' : z.length ≤ 100 * S.numPts := not_lt.1 hmax
      have hr2len : r.2.length = S.factor (idx + 1) (p.getD k 0) := by rw [r1]; simp [r3]
      have hp4' : ∀ x ∈ p.take k ++ phasesOf S.phase r.2 ++ p.drop (k + 1), |x| ≤ 4 := by
        intro x hx
        simp only [List.mem_append] at hx
        rcases hx with (hx | hx) | hx
        · exact hp4 x (List.mem_of_mem_take hx)
        · unfold phasesOf at hx
          obtain ⟨i, hi, rfl⟩ := List.getElem_of_mem hx
          simp only [List.getElem_zipWith]
          have hne : ∀ y ∈ r.2, y ≠ 0 := by
            intro y hy
            rw [r1] at hy
            obtain ⟨q, hq, rfl⟩ := List.mem_map.1 hy
            exact r2 q hq
          exact hph _ _ (hne _ (List.getElem_mem _)) (hne _ (List.mem_of_mem_tail (List.getElem_mem _)))
        · exact hp4 x (List.mem_of_mem_drop hx)
      obtain ⟨i1, i2⟩ := ih (idx + 1) _ _ w1 w' v (by omega)
        (by
          simp only [List.length_append, List.length_take, List.length_drop, List.length_dropLast, phasesOf_length, hr2len, r3]
          omega) hp4' h (by
          simp only [List.length_append, List.length_take, List.length_drop, List.length_dropLast, r3]
          omega)
      refine ⟨i1, fun hc hadd => ?_⟩
      have e1 : w1.added = w.added := added_eq_of_prefix hpre hpre2 hadd
      refine i2 ?_ (hadd.trans e1.symm)
      have hr := r4 e1
      rw [r1]
      refine hc.refine hk1 (by rw [r3]; exact hfac2) r2 ?_ ?_
      · rw [hr]; exact hS.first _ _ _ (by omega)
      · rw [hr]; exact hS.last _ _ _ hfac2

theorem genPhiArrF_ok {A : FloatOps K} {S : SumOps K} (hS : Samples S) {ctx : RCtx K} {a b : Cx K} (F : ℕ)
    (hF : ∀ idx phi, idx ≤ S.steps → |phi| ≤ 4 → S.factor idx phi ≤ F)
    (hph : ∀ u v, u ≠ 0 → v ≠ 0 → |S.phase u v| ≤ 4) (w w' : World (SumState K) K) (v : PhiLine K)
    (h : genPhiArrF A S 0 a b ctx w = (.ok v, w')) :
    (v.2.length + 1 = v.1.length ∧ v.1.length ≤ 100 * S.numPts + F) ∧
    (w'.added = w.added → Chain S ctx.f a b v.1 v.2) := by
  unfold genPhiArrF at h
  rw [if_neg (by simp), Py.bind_run] at h
  rcases hg : genFuncArrF A S a b ctx S.numPts w with ⟨_ | r, w1⟩
  · rw [hg] at h; simp at h
  rw [hg] at h
  dsimp only at h
  obtain ⟨r1, r2, r3, r4⟩ := genFuncArrF_ok hS hg
  have hpre : w.added <+: w1.added := by
    have := (AddsOnly.genFuncArrF (σ := SumState K) A S a b ctx S.numPts w).2.2.2.1
    rwa [hg] at this
  have hpre2 : w1.added <+: w'.added := by
    have := (AddsOnly.refineLoopF A S ctx S.steps 0 r.1 (phasesOf S.phase r.2) w1).2.2.2.1
    rwa [h] at this
  have h2 := hS.numPts
  have hne : ∀ y ∈ r.2, y ≠ 0 := by
    intro y hy
    rw [r1] at hy
    obtain ⟨q, hq, rfl⟩ := List.mem_map.1 hy
    exact r2 q hq
  obtain ⟨i1, i2⟩ := refineLoopF_ok (A := A) hS (a := a) (b := b) F hF hph S.steps 0 r.1 (phasesOf S.phase r.2) w1 w' v
    (by omega) (by rw [r1]; simp [r3]; omega) (by
      intro x hx
      unfold phasesOf at hx
      obtain ⟨i, hi, rfl⟩ := List.getElem_of_mem hx
      simp only [List.getElem_zipWith]
      exact hph _ _ (hne _ (List.getElem_mem _)) (hne _ (List.mem_of_mem_tail (List.getElem_mem _)))) h
    (by rw [r3]; omega)
  refine ⟨i1, fun hadd => ?_⟩
  have e1 : w1.added = w.added := added_eq_of_prefix hpre hpre2 hadd
  refine i2 ?_ (hadd.trans e1.symm)
  have hr := r4 e1
  refine ⟨by rw [r1], r2, ?_, ?_⟩
  · rw [hr]; exact hS.first _ _ _ (by omega)
  · rw [hr]; exact hS.last _ _ _ h2

end

section
variable {K : Type} [Field K] [LinearOrder K] [IsStrictOrderedRing K] [FloorRing K]

theorem horizontalF_run (A : FloatOps K) (S : SumOps K) (o : ℤ) (x1 x2 y : K) (ctx : RCtx K)
    (w : World (SumState K) K) :
    retrieveCachedHorizontalF A S o x1 x2 y ctx w =
      match sliceOrSampleF A S o ⟨min x1 x2, y⟩ ⟨max x1 x2, y⟩ ctx
          (reuseH w.est.horizontal o (min x1 x2) (max x1 x2) y) w with
      | (.error e, w1) => (.error e, w1)
      | (.ok v, w1) => (.ok (Cx.ofK (lineSign x1 x2 * S.sum v.2)),
          putH y o (min x1 x2) (max x1 x2) v w1) := by
  unfold retrieveCachedHorizontalF
  simp only [Py.bind_run, Py.get_run]
  rcases sliceOrSampleF A S o ⟨min x1 x2, y⟩ ⟨max x1 x2, y⟩ ctx
          (reuseH w.est.horizontal o (min x1 x2) (max x1 x2) y) w with ⟨_ | _, _⟩ <;> rfl

theorem verticalF_run (A : FloatOps K) (S : SumOps K) (o : ℤ) (y1 y2 x : K) (ctx : RCtx K)
    (w : World (SumState K) K) :
    retrieveCachedVerticalF A S o y1 y2 x ctx w =
      match reuseV w.est.vertical o (min y1 y2) (max y1 y2) x with
      | .error e => (.error e, w)
      | .ok r =>
        match sliceOrSampleF A S o ⟨x, min y1 y2⟩ ⟨x, max y1 y2⟩ ctx r w with
        | (.error e, w1) => (.error e, w1)
        | (.ok v, w1) => (.ok (Cx.ofK (lineSign y1 y2 * S.sum v.2)),
            putV x o (min y1 y2) (max y1 y2) v w1) := by
  unfold retrieveCachedVerticalF
  simp only [Py.bind_run, Py.get_run]
  rcases reuseV w.est.vertical o (min y1 y2) (max y1 y2) x with e | r
  · rfl
  · simp only [liftReuse, Py.pure_run]
    rcases sliceOrSampleF A S o ⟨x, min y1 y2⟩ ⟨x, max y1 y2⟩ ctx r w with ⟨_ | _, _⟩ <;> rfl

end

section
open Real

/-- the sum of the phases along a chain -/
theorem phasesOf_angle {S : SumOps ℝ} {δ : ℝ} (hph : PhaseWithin S δ) (l : List (Cx ℝ)) (u v : Cx ℝ)
    (hne : ∀ x ∈ l, x ≠ 0) (hu : l.head? = some u) (hv : l.getLast? = some v) :
    (∃ k : ℤ, |(phasesOf S.phase l).sum - (Complex.arg (toC v) - Complex.arg (toC u) + 2 * π * k)| ≤
      (phasesOf S.phase l).length * δ) ∧
    ((phasesOf S.phase l).map abs).sum ≤ 4 * (phasesOf S.phase l).length := by
  induction l generalizing u with
  | nil => simp at hu
  | cons a t ih =>
    simp only [List.head?_cons, Option.some.injEq] at hu
    subst hu
    cases t with
    | nil =>
      simp only [List.getLast?_singleton, Option.some.injEq] at hv
      subst hv
      exact ⟨⟨0, by simp [phasesOf]⟩, by simp [phasesOf]⟩
    | cons b t =>
      obtain ⟨⟨k, hk⟩, hs⟩ := ih b (fun x hx => hne x (by simp at hx ⊢; tauto)) rfl (by simpa using hv)
      obtain ⟨h4, m, hm⟩ := hph a b (hne a (by simp)) (hne b (by simp))
      rw [phasesOf_cons_cons]
      refine ⟨⟨m + k, ?_⟩, ?_⟩
      · rw [List.sum_cons, List.length_cons]
        push_cast
        rw [abs_le] at hk hm ⊢
        unfold toC at hk ⊢
        constructor <;> nlinarith [hk.1, hk.2, hm.1, hm.2]
      · rw [List.map_cons, List.sum_cons, List.length_cons]
        push_cast
        linarith

theorem abs_list_sum_le (l : List ℝ) : |l.sum| ≤ (l.map abs).sum := by
  induction l with
  | nil => simp
  | cons a t ih =>
    simp only [List.sum_cons, List.map_cons]
    exact le_trans (abs_add_le _ _) (by linarith)

/-- `v` is the phase from `f a` to `f b` up to the error of a computed line -/
def LineWithin (E B : ℝ) (f : Cx ℝ → Cx ℝ) (a b : Cx ℝ) (v : ℝ) : Prop :=
  |v| ≤ B ∧ ∃ k : ℤ, |v - (Complex.arg (toC (f b)) - Complex.arg (toC (f a)) + 2 * π * k)| ≤ E

theorem LineWithin.neg {E B : ℝ} {f : Cx ℝ → Cx ℝ} {a b : Cx ℝ} {v : ℝ} (h : LineWithin E B f a b v) :
    LineWithin E B f b a (-v) := by
  obtain ⟨h1, k, h2⟩ := h
  refine ⟨by rwa [abs_neg], -k, ?_⟩
  rw [← abs_neg]
  convert h2 using 2
  push_cast
  ring

theorem chain_line {S : SumOps ℝ} {δ γ : ℝ} (hδ : 0 ≤ δ) (hγ : 0 ≤ γ) (hph : PhaseWithin S δ) {N : ℕ} (hsum : SumWithin S N γ)
    {f : Cx ℝ → Cx ℝ} {a b : Cx ℝ} {z : List (Cx ℝ)} {p : List ℝ} (hN : p.length ≤ N) (h : Chain S f a b z p) :
    LineWithin (lineErr N δ γ) (lineMax N γ) f a b (S.sum p) := by
  obtain ⟨h1, h2, h3, h4⟩ := h
  have hs := hsum p hN
  obtain ⟨⟨k, hk⟩, ha⟩ := phasesOf_angle hph (z.map f) (f a) (f b) (by
    intro x hx
    obtain ⟨q, hq, rfl⟩ := List.mem_map.1 hx
    exact h2 q hq) (by simp [h3]) (by simp [h4])
  rw [← h1] at hk ha
  have hN' : (p.length : ℝ) ≤ N := by exact_mod_cast hN
  have hle := abs_list_sum_le p
  have hγs : γ * (p.map abs).sum ≤ γ * (4 * N) := mul_le_mul_of_nonneg_left (by linarith) hγ
  have hδs : (p.length : ℝ) * δ ≤ N * δ := mul_le_mul_of_nonneg_right hN' hδ
  unfold lineErr lineMax
  rw [abs_le] at hs hle
  refine ⟨?_, k, ?_⟩
  · rw [abs_le]
    constructor <;> nlinarith [hs.1, hs.2, hle.1, hle.2]
  · rw [abs_le] at hk ⊢
    constructor <;> nlinarith [hs.1, hs.2, hk.1, hk.2]

theorem sumLineF_angle {A : FloatOps ℝ} {S : SumOps ℝ} {N : ℕ} {δ γ : ℝ} (hS : SumArith S N δ γ) (ctx : RCtx ℝ) (a b : Cx ℝ)
    (hab : a ≠ b) (hpar : a.im = b.im ∨ a.re = b.re) (w w' : World (SumState ℝ) ℝ) (hw : w.fuse = none)
    (hH : a.im = b.im → w.est.horizontal.get? (a.im, 0) = none)
    (hV : a.re = b.re → w.est.vertical.get? (a.re, 0) = none) (phi : Cx ℝ)
    (h : sumLineF A S 0 a b ctx w = (.ok phi, w')) :
    phi.im = 0 ∧ (w'.added = w.added → LineWithin (lineErr N δ γ) (lineMax N γ) ctx.f a b phi.re) ∧
    w.added <+: w'.added ∧ w'.fuse = none ∧ w'.cache = w.cache ∧
    (∀ y, (a.im = b.im → y ≠ a.im) → w'.est.horizontal.get? (y, 0) = w.est.horizontal.get? (y, 0)) ∧
    (∀ x, (a.re = b.re → x ≠ a.re) → w'.est.vertical.get? (x, 0) = w.est.vertical.get? (x, 0)) := by
  have core : ∀ (u v : Cx ℝ) (z : List (Cx ℝ)) (p : List ℝ) (w1 : World (SumState ℝ) ℝ),
      genPhiArrF A S 0 u v ctx w = (.ok (z, p), w1) →
      (w1.added = w.added → LineWithin (lineErr N δ γ) (lineMax N γ) ctx.f u v (S.sum p)) ∧
      w.added <+: w1.added ∧ w1.fuse = none ∧ w1.cache = w.cache ∧ w1.est = w.est := by
    intro u v z p w1 hg
    have ha := AddsOnly.genPhiArrF A S 0 u v ctx w
    rw [hg] at ha
    refine ⟨fun hadd => ?_, ha.2.2.2.1, ha.2.2.2.2 hw, ha.1, ha.2.1⟩
    obtain ⟨⟨l1, l2⟩, l3⟩ := genPhiArrF_ok hS.samples (N - 100 * S.numPts)
      (fun idx phi h1 h2 => by have := hS.len idx phi h1 h2; omega)
      (fun a b ha hb => (hS.phase a b ha hb).1) w w1 (z, p) hg
    have := hS.len0
    exact chain_line hS.δ0 hS.γ0 hS.phase hS.sum (by dsimp only at l1 l2; omega) (l3 hadd)
  unfold sumLineF at h
  by_cases h1 : a.im = b.im
  · have hre : a.re ≠ b.re := fun e => hab (Cx.ext e h1)
    rw [if_pos h1, horizontalF_run, reuseH_miss (hH h1)] at h
    simp only [sliceOrSampleF] at h
    rcases hg : genPhiArrF A S 0 ⟨min a.re b.re, a.im⟩ ⟨max a.re b.re, a.im⟩ ctx w
      with ⟨_ | ⟨z, p⟩, w1⟩
    · rw [hg] at h; simp at h
    rw [hg] at h
    simp only [Prod.mk.injEq, Except.ok.injEq] at h
    obtain ⟨rfl, rfl⟩ := h
    obtain ⟨c1, c2, c3, c4, c5⟩ := core _ _ z p w1 hg
    refine ⟨by simp, fun hadd => ?_, c2, c3, c4, ?_, ?_⟩
    · have c1 := c1 hadd
      simp only [Cx.ofK_re, lineSign]
      rcases lt_or_gt_of_ne hre with hlt | hlt
      · rw [if_pos hlt, one_mul]
        rw [min_eq_left hlt.le, max_eq_right hlt.le] at c1
        rwa [show b = ⟨b.re, a.im⟩ from Cx.ext rfl h1.symm]
      · rw [if_neg (not_lt.2 hlt.le), neg_one_mul]
        rw [min_eq_right hlt.le, max_eq_left hlt.le] at c1
        rw [show b = ⟨b.re, a.im⟩ from Cx.ext rfl h1.symm]
        exact c1.neg
    · intro y hy
      simp only [putH]
      rw [storeCache_get, if_neg (by simp [Ne.symm (hy h1)]), c5]
    · intro x _
      simp only [putH]; rw [c5]
  · have h2 := hpar.resolve_left h1
    rw [if_neg h1, if_pos h2, verticalF_run, reuseV_miss (hV h2)] at h
    simp only [sliceOrSampleF] at h
    rcases hg : genPhiArrF A S 0 ⟨a.re, min a.im b.im⟩ ⟨a.re, max a.im b.im⟩ ctx w
      with ⟨_ | ⟨z, p⟩, w1⟩
    · rw [hg] at h; simp at h
    rw [hg] at h
    simp only [Prod.mk.injEq, Except.ok.injEq] at h
    obtain ⟨rfl, rfl⟩ := h
    obtain ⟨c1, c2, c3, c4, c5⟩ := core _ _ z p w1 hg
    refine ⟨by simp, fun hadd => ?_, c2, c3, c4, ?_, ?_⟩
    · have c1 := c1 hadd
      simp only [Cx.ofK_re, lineSign]
      rcases lt_or_gt_of_ne h1 with hlt | hlt
      · rw [if_pos hlt, one_mul]
        rw [min_eq_left hlt.le, max_eq_right hlt.le] at c1
        rwa [show b = ⟨a.re, b.im⟩ from Cx.ext h2.symm rfl]
      · rw [if_neg (not_lt.2 hlt.le), neg_one_mul]
        rw [min_eq_right hlt.le, max_eq_left hlt.le] at c1
        rw [show b = ⟨a.re, b.im⟩ from Cx.ext h2.symm rfl]
        exact c1.neg
    · intro x _
      simp only [putV]; rw [c5]
    · intro x hx
      simp only [putV]
      rw [storeCache_get, if_neg (by simp [Ne.symm (hx h2)]), c5]

theorem edgeF_angle {A : FloatOps ℝ} {S : SumOps ℝ} {N : ℕ} {δ γ : ℝ} (hS : SumArith S N δ γ) (ctx : RCtx ℝ) (a b : Cx ℝ)
    (hab : a ≠ b) (hpar : a.im = b.im ∨ a.re = b.re) (w w' : World (SumState ℝ) ℝ) (hw : w.fuse = none)
    (hc : w.cache.look 0 a b = none)
    (hH : a.im = b.im → w.est.horizontal.get? (a.im, 0) = none)
    (hV : a.re = b.re → w.est.vertical.get? (a.re, 0) = none) (phi : Cx ℝ)
    (h : edgeMoment (sumLineF A S) 0 ctx (a, b) w = (.ok phi, w')) :
    phi.im = 0 ∧ (w'.added = w.added → LineWithin (lineErr N δ γ) (lineMax N γ) ctx.f a b phi.re) ∧
    w.added <+: w'.added ∧ w'.fuse = none ∧
    (∀ u v, (u, v) ≠ (a, b) → (u, v) ≠ (b, a) → w'.cache.look 0 u v = w.cache.look 0 u v) ∧
    (∀ y, (a.im = b.im → y ≠ a.im) → w'.est.horizontal.get? (y, 0) = w.est.horizontal.get? (y, 0)) ∧
    (∀ x, (a.re = b.re → x ≠ a.re) → w'.est.vertical.get? (x, 0) = w.est.vertical.get? (x, 0)) := by
  rw [edgeMoment_run, hc] at h
  dsimp only at h
  rw [compute_run, World.tick_none (by exact hw)] at h
  dsimp only at h
  rcases hs : sumLineF A S 0 a b ctx { w with cache := (w.cache.retrieve 0 a b).2 } with ⟨_ | d, w2⟩
  · rw [hs] at h; simp at h
  rw [hs] at h
  simp only [Prod.mk.injEq, Except.ok.injEq] at h
  obtain ⟨rfl, rfl⟩ := h
  obtain ⟨g1, g2, g3, g4, g5, g6, g7⟩ := sumLineF_angle hS ctx a b hab hpar
    { w with cache := (w.cache.retrieve 0 a b).2 } w2 hw hH hV d hs
  refine ⟨g1, g2, g3, g4, ?_, g6, g7⟩
  intro u v h1 h2
  simp only
  rw [EstCache.look_store, EstCache.look_store, g5, EstCache.look_retrieve]
  rw [if_neg, if_neg]
  · intro e; apply h1; simp_all
  · intro e; apply h2; simp_all

/-- adding four numbers with rounding -/
theorem sum4_near {fl : ℝ → ℝ} {u B d1 d2 d3 d4 : ℝ} (near : ∀ x, |fl x - x| ≤ u * |x|) (hu0 : 0 ≤ u) (hu : u ≤ 1 / 16)
    (h1 : |d1| ≤ B) (h2 : |d2| ≤ B) (h3 : |d3| ≤ B) (h4 : |d4| ≤ B) :
    |fl (fl (fl (fl (0 + d1) + d2) + d3) + d4) - (d1 + d2 + d3 + d4)| ≤ 11 * u * B := by
  have hB : 0 ≤ B := le_trans (abs_nonneg _) h1
  have step : ∀ x c : ℝ, |x| ≤ c → |fl x - x| ≤ u * c ∧ |fl x| ≤ 17 / 16 * c := by
    intro x c hx
    have hc : 0 ≤ c := le_trans (abs_nonneg _) hx
    have e1 : |fl x - x| ≤ u * c := le_trans (near x) (mul_le_mul_of_nonneg_left hx hu0)
    have e2 : u * c ≤ 1 / 16 * c := mul_le_mul_of_nonneg_right hu hc
    refine ⟨e1, ?_⟩
    rw [abs_le] at e1 hx ⊢
    constructor <;> linarith [e1.1, e1.2, hx.1, hx.2]
  have add : ∀ x y c d : ℝ, |x| ≤ c → |y| ≤ d → |x + y| ≤ c + d := fun x y c d hx hy =>
    le_trans (abs_add_le x y) (add_le_add hx hy)
  rw [zero_add]
  obtain ⟨a1, b1⟩ := step d1 B h1
  obtain ⟨a2, b2⟩ := step _ _ (add _ _ _ _ b1 h2)
  obtain ⟨a3, b3⟩ := step _ _ (add _ _ _ _ b2 h3)
  obtain ⟨a4, b4⟩ := step _ _ (add _ _ _ _ b3 h4)
  have huB : 0 ≤ u * B := mul_nonneg hu0 hB
  rw [abs_le] at a1 a2 a3 a4 ⊢
  constructor <;> linarith [a1.1, a1.2, a2.1, a2.2, a3.1, a3.2, a4.1, a4.2]

/-- the phase computed around a rectangle -/
theorem calcMomentF_angle {A : FloatOps ℝ} {u : ℝ} (hA : Rounds A.fl u) {S : SumOps ℝ} {N : ℕ} {δ γ : ℝ} (hS : SumArith S N δ γ)
    (ctx : RCtx ℝ) (re im : ℝ × ℝ)
    (hre : re.1 ≠ re.2) (him : im.1 ≠ im.2)
    (w w' : World (SumState ℝ) ℝ) (hw : w.fuse = none) (hc : w.cache.data = [])
    (hH : ∀ y, y = im.1 ∨ y = im.2 → w.est.horizontal.get? (y, 0) = none)
    (hV : ∀ x, x = re.1 ∨ x = re.2 → w.est.vertical.get? (x, 0) = none) (phi : Cx ℝ)
    (h : calcMomentF A (sumLineF A S) 0 re im ctx w = (.ok phi, w')) (hadd : w'.added = w.added) :
    phi.im = 0 ∧ |phi.re| ≤ 5 * lineMax N γ ∧
      ∃ n : ℤ, |phi.re - 2 * π * n| ≤ rectErr N δ γ u := by
  unfold rectErr
  obtain ⟨x1, x2⟩ := re
  obtain ⟨y1, y2⟩ := im
  simp only at hre him hH hV
  have hlook : ∀ u v, w.cache.look 0 u v = none := by
    intro u v; unfold EstCache.look; rw [hc]; rfl
  unfold calcMomentF edges at h
  simp only [sumEdgesF, Py.bind_run, Py.pure_run] at h
  -- bottom
  rcases h1 : edgeMoment (sumLineF A S) 0 ctx (⟨x1, y1⟩, ⟨x2, y1⟩) w with ⟨_ | d1, w1⟩
  · rw [h1] at h; simp at h
  rw [h1] at h; dsimp only at h
  obtain ⟨a1, b1, p1, c1, e1, f1, g1⟩ := edgeF_angle hS ctx ⟨x1, y1⟩ ⟨x2, y1⟩
    (fun e => hre (congrArg Cx.re e)) (.inl rfl) w w1 hw (hlook _ _) (fun _ => hH _ (.inl rfl))
    (fun e => absurd e hre) d1 h1
  -- right
  rcases h2 : edgeMoment (sumLineF A S) 0 ctx (⟨x2, y1⟩, ⟨x2, y2⟩) w1 with ⟨_ | d2, w2⟩
  · rw [h2] at h; simp at h
  rw [h2] at h; dsimp only at h
  obtain ⟨a2, b2, p2, c2, e2, f2, g2⟩ := edgeF_angle hS ctx ⟨x2, y1⟩ ⟨x2, y2⟩
    (fun e => him (congrArg Cx.im e)) (.inr rfl) w1 w2 c1
    (by rw [e1 _ _ (by simp [hre, hre.symm]) (by simp [him, him.symm])]; exact hlook _ _)
    (fun e => absurd e him)
    (fun _ => by rw [g1 _ (fun e => absurd e hre)]; exact hV _ (.inr rfl)) d2 h2
  -- top
  rcases h3 : edgeMoment (sumLineF A S) 0 ctx (⟨x2, y2⟩, ⟨x1, y2⟩) w2 with ⟨_ | d3, w3⟩
  · rw [h3] at h; simp at h
  rw [h3] at h; dsimp only at h
  obtain ⟨a3, b3, p3, c3, e3, f3, g3⟩ := edgeF_angle hS ctx ⟨x2, y2⟩ ⟨x1, y2⟩
    (fun e => hre (congrArg Cx.re e).symm) (.inl rfl) w2 w3 c2
    (by rw [e2 _ _ (by simp [him, him.symm]) (by simp [hre, hre.symm]),
          e1 _ _ (by simp [hre, hre.symm]) (by simp [him, him.symm])]; exact hlook _ _)
    (fun _ => by
      rw [f2 _ (fun e => absurd e him), f1 _ (fun _ => him.symm)]; exact hH _ (.inr rfl))
    (fun e => absurd e hre.symm) d3 h3
  -- left
  rcases h4 : edgeMoment (sumLineF A S) 0 ctx (⟨x1, y2⟩, ⟨x1, y1⟩) w3 with ⟨_ | d4, w4⟩
  · rw [h4] at h; simp at h
  rw [h4] at h; dsimp only at h
  obtain ⟨a4, b4, p4, c4, e4, f4, g4⟩ := edgeF_angle hS ctx ⟨x1, y2⟩ ⟨x1, y1⟩
    (fun e => him (congrArg Cx.im e).symm) (.inr rfl) w3 w4 c3
    (by rw [e3 _ _ (by simp [hre, hre.symm]) (by simp [him, him.symm]),
          e2 _ _ (by simp [hre, hre.symm]) (by simp [hre, hre.symm]),
          e1 _ _ (by simp [him, him.symm]) (by simp [hre, hre.symm])]; exact hlook _ _)
    (fun e => absurd e him.symm)
    (fun _ => by
      rw [g3 _ (fun e => absurd e hre.symm), g2 _ (fun _ => hre), g1 _ (fun e => absurd e hre)]
      exact hV _ (.inl rfl)) d4 h4
  simp only [Prod.mk.injEq, Except.ok.injEq] at h
  obtain ⟨rfl, rfl⟩ := h
  have q3 : w3.added = w.added := added_eq_of_prefix (p1.trans (p2.trans p3)) p4 hadd
  have q2 : w2.added = w.added := added_eq_of_prefix (p1.trans p2) p3 q3
  have q1 : w1.added = w.added := added_eq_of_prefix p1 p2 q2
  obtain ⟨m1, k1, l1⟩ := b1 q1
  obtain ⟨m2, k2, l2⟩ := b2 (q2.trans q1.symm)
  obtain ⟨m3, k3, l3⟩ := b3 (q3.trans q2.symm)
  obtain ⟨m4, k4, l4⟩ := b4 (hadd.trans q3.symm)
  have h0 : A.fl 0 = 0 := hA.zero
  have hs := sum4_near hA.near hA.u_nonneg hA.u_small m1 m2 m3 m4
  have hu16 := hA.u_small
  have hB : 0 ≤ lineMax N γ := le_trans (abs_nonneg _) m1
  have huB : u * lineMax N γ ≤ 1 / 16 * lineMax N γ := mul_le_mul_of_nonneg_right hu16 hB
  simp only [FloatOps.cx, Cx.add_re, Cx.add_im, Cx.zero_re, Cx.zero_im, a1, a2, a3, a4, add_zero, h0]
  refine ⟨trivial, ?_, k1 + k2 + k3 + k4, ?_⟩
  · rw [abs_le] at m1 m2 m3 m4 hs ⊢
    constructor <;> linarith [m1.1, m1.2, m2.1, m2.2, m3.1, m3.2, m4.1, m4.2, hs.1, hs.2]
  · push_cast
    rw [abs_le] at l1 l2 l3 l4 hs ⊢
    constructor <;> linarith [l1.1, l1.2, l2.1, l2.2, l3.1, l3.2, l4.1, l4.2, hs.1, hs.2]

end
end PyZeal
