import Verif.Proof.Cover
import Verif.Proof.FloatCount

/-! # Lines sampled in floating point arithmetic, and their slices -/

set_option linter.unusedSectionVars false

namespace PyZeal
open Spec Real

/-- `v` is data for the segment `[lo, hi]` of the line `pt`: its phases belong to support points `us` which start at most `h` after `lo`
and end at most `h` behind `hi`; `v.1` consists of the support points up to `hi`. -/
def CoverF (S : SumOps ℝ) (f : Cx ℝ → Cx ℝ) (D : Cx ℝ → Prop) (N : ℕ) (h : ℝ) (pt : ℝ → Cx ℝ) (lo hi : ℝ) (v : PhiLine ℝ) : Prop :=
  ∃ (us : List ℝ) (n : ℕ) (A B first last : ℝ),
    us.IsChain (fun s t => s ≤ t ∧ t - s ≤ h) ∧ v.1 = (us.take n).map pt ∧ v.2 = phasesOf S.phase ((us.map pt).map f) ∧
    1 ≤ n ∧ n ≤ us.length ∧ us.length ≤ n + 1 ∧
    (∀ t, A ≤ t → t ≤ B → D (pt t)) ∧ (∀ u ∈ us, A ≤ u ∧ u ≤ B) ∧ A ≤ lo ∧ hi ≤ B ∧ lo ≤ hi ∧
    us.head? = some first ∧ lo ≤ first ∧ first ≤ lo + h ∧ us.getLast? = some last ∧ hi ≤ last ∧ last ≤ hi + h ∧
    (∀ u ∈ us.take n, u ≤ hi) ∧ (∀ u ∈ us, lo ≤ u) ∧ v.2.length ≤ N

theorem chainF_pairwise {h : ℝ} {us : List ℝ} (hc : us.IsChain (fun s t => s ≤ t ∧ t - s ≤ h)) : us.Pairwise (· ≤ ·) := by
  have : us.IsChain (· ≤ ·) := hc.imp fun a b hab => hab.1
  exact List.isChain_iff_pairwise.1 this

theorem phasesOf_take (ph : Cx ℝ → Cx ℝ → ℝ) (fs : List (Cx ℝ)) (m : ℕ) :
    (phasesOf ph fs).take m = phasesOf ph (fs.take (m + 1)) := by
  induction fs generalizing m with
  | nil => simp [phasesOf]
  | cons a us ih =>
    cases us with
    | nil => simp [phasesOf]
    | cons b us =>
      cases m with
      | zero => simp [phasesOf]
      | succ m =>
        have := ih m
        simp only [phasesOf, List.tail_cons, List.zipWith_cons_cons, List.take_succ_cons, List.cons.injEq, true_and] at this ⊢
        exact this

theorem phasesOf_drop (ph : Cx ℝ → Cx ℝ → ℝ) (fs : List (Cx ℝ)) (m : ℕ) :
    (phasesOf ph fs).drop m = phasesOf ph (fs.drop m) := by
  induction fs generalizing m with
  | nil => simp [phasesOf]
  | cons a us ih =>
    cases m with
    | zero => simp
    | succ m =>
      cases us with
      | nil => simp [phasesOf]
      | cons b us =>
        have := ih m
        simp only [phasesOf, List.tail_cons, List.zipWith_cons_cons, List.drop_succ_cons] at this ⊢
        exact this

section
variable {S : SumOps ℝ} {f : Cx ℝ → Cx ℝ} {D : Cx ℝ → Prop} {N : ℕ} {T : Cx ℝ → Cx ℝ → ℝ} {h eta : ℝ} {pt : ℝ → Cx ℝ}

/-- the sum of the phases is close to the change along the segment -/
theorem CoverF.close {A : FloatOps ℝ} {u δ γ : ℝ} (F : FineLine A u S N δ γ f D T h eta) (hpt : IsLine pt) {lo hi : ℝ} {v : PhiLine ℝ}
    (hc : CoverF S f D N h pt lo hi v) : LineTurn (lineErr N δ γ + 2 * eta) (lineMax N γ) T (pt lo) (pt hi) (S.sum v.2) := by
  obtain ⟨us, n, A, B, first, last, c1, c2, c3, c4, c5, c6, c7, c8, c9, c10, c11, c12, c13, c14, c15, c16, c17, c18, c19, c20⟩ := hc
  have ts := F.turns
  have hlast : last ∈ us := List.mem_of_getLast? c15
  have hfirst : first ∈ us := List.mem_of_head? c12
  obtain ⟨f1, f2⟩ := c8 first hfirst
  obtain ⟨l1, l2⟩ := c8 last hlast
  have hsort := chainF_pairwise c1
  have hin : ∀ t ∈ us, first ≤ t ∧ t ≤ last := by
    intro t ht
    constructor
    · cases us with
      | nil => simp at ht
      | cons a us =>
        simp only [List.head?_cons, Option.some.injEq] at c12
        subst c12
        rcases List.mem_cons.1 ht with rfl | ht
        · exact le_rfl
        · exact (List.pairwise_cons.1 hsort).1 t ht
    · rcases List.eq_nil_or_concat us with rfl | ⟨l, x, rfl⟩
      · simp at ht
      · rw [List.concat_eq_append] at *
        rw [List.getLast?_concat, Option.some.injEq] at c15
        subst c15
        rcases List.mem_append.1 ht with ht | ht
        · exact (List.pairwise_append.1 hsort).2.2 t ht x (by simp)
        · rw [List.mem_singleton.1 ht]
  have hfine : Fine id first last h us := ⟨fun t ht => ⟨(hin t ht).1, (hin t ht).2, rfl⟩, c1, c12, c15⟩
  obtain ⟨k1, k2⟩ := fine_line F.arith.δ0 F.arith.γ0 F.arith.phase F.arith.sum ts F.eta2 F.δ4 hpt
    (fun t t1 t2 => c7 t (f1.trans t1) (t2.trans l2)) hfine c3 c20
  refine ⟨k1, ?_⟩
  have e1 := ts.add pt hpt A B c7 lo first last c9 (by linarith) f1 f2 l1 l2
  have e2 := ts.add pt hpt A B c7 lo last hi c9 (by linarith) l1 l2 (by linarith) c10
  have b1 := ts.bound pt hpt lo first (c7 lo c9 (by linarith)) (c7 first f1 f2) (by rw [abs_le]; constructor <;> linarith)
  have b2 := ts.bound pt hpt last hi (c7 last l1 l2) (c7 hi (by linarith) c10) (by rw [abs_le]; constructor <;> linarith)
  rw [abs_le] at *
  constructor <;> linarith

/-- cutting data at the end -/
theorem CoverF.cutEnd {proj : Cx ℝ → ℝ} (hproj : ∀ t, proj (pt t) = t) {lo hi hi' : ℝ} {v v' : PhiLine ℝ} (hh : 0 ≤ h)
    (hc : CoverF S f D N h pt lo hi v) (h1 : lo ≤ hi') (h2 : hi' ≤ hi) (hv : PyZeal.cutEnd proj v hi' = some v') :
    CoverF S f D N h pt lo hi' v' := by
  obtain ⟨us, n, A, B, first, last, c1, c2, c3, c4, c5, c6, c7, c8, c9, c10, c11, c12, c13, c14, c15, c16, c17, c18, c19, c20⟩ := hc
  have hsort := chainF_pairwise c1
  -- split the support points at the new end
  generalize hP : (us.take n).takeWhile (fun u => decide (u ≤ hi')) = P
  generalize hQ : (us.take n).dropWhile (fun u => decide (u ≤ hi')) = Q
  have hPQ : us.take n = P ++ Q := by rw [← hP, ← hQ, List.takeWhile_append_dropWhile]
  have hPle : ∀ u ∈ P, u ≤ hi' := by
    intro u hu; rw [← hP] at hu
    simpa using List.mem_takeWhile_imp hu
  have hQgt : ∀ u ∈ Q, hi' < u := by
    intro u hu
    have hsQ : Q.Pairwise (· ≤ ·) := (hPQ ▸ hsort.sublist (List.take_sublist n us)).sublist (List.sublist_append_right P Q)
    rcases hQ' : Q with _ | ⟨q, Q'⟩
    · rw [hQ'] at hu; simp at hu
    · have hq : hi' < q := by
        have := List.head?_dropWhile_not (fun u => decide (u ≤ hi')) (us.take n)
        rw [hQ, hQ'] at this
        simpa using this
      rw [hQ'] at hu hsQ
      rcases List.mem_cons.1 hu with rfl | hu
      · exact hq
      · exact lt_of_lt_of_le hq ((List.pairwise_cons.1 hsQ).1 u hu)
  have hv1 : v.1 = P.map pt ++ Q.map pt := by rw [c2, hPQ, List.map_append]
  have hpre : P = us.take P.length := by
    have : P <+: us := (hPQ ▸ List.prefix_append P Q : P <+: us.take n).trans (List.take_prefix n us)
    exact List.prefix_iff_eq_take.1 this
  have hPn : P.length ≤ n := by
    have := congrArg List.length hPQ
    rw [List.length_take, List.length_append] at this
    omega
  -- the result of the cut
  have hP3 : 3 ≤ P.length := by
    by_contra hlt
    unfold PyZeal.cutEnd at hv
    simp only at hv
    rw [hv1, whereFrom_prefix (p := fun z => decide (proj z ≤ hi'))
      (by intro z hz; obtain ⟨u, hu, rfl⟩ := List.mem_map.1 hz; rw [hproj]; simpa using hPle u hu)
      (by intro z hz; obtain ⟨u, hu, rfl⟩ := List.mem_map.1 hz; rw [hproj]; simpa using hQgt u hu),
      List.length_range', List.length_map, if_pos (by omega)] at hv
    simp at hv
  have hcut := cutEnd_eq proj hi' v.1 (P.map pt) (Q.map pt) v.2 hv1
    (by intro z hz; obtain ⟨u, hu, rfl⟩ := List.mem_map.1 hz; rw [hproj]; exact hPle u hu)
    (by intro z hz; obtain ⟨u, hu, rfl⟩ := List.mem_map.1 hz; rw [hproj]; exact hQgt u hu) (by simpa using hP3)
  have ev : v = (v.1, v.2) := rfl
  rw [ev, hcut, Option.some.injEq, List.length_map] at hv
  subst hv
  -- the element behind the end
  have hnext : ∃ x, (us.take (P.length + 1)).getLast? = some x ∧ hi' ≤ x ∧ x ≤ hi' + h := by
    rcases hx : us[P.length]? with _ | x
    · -- everything is below the new end
      rw [List.getElem?_eq_none_iff] at hx
      have e : us.take (P.length + 1) = us := List.take_of_length_le (by omega)
      have e' : us = P := by rw [hpre, List.take_of_length_le hx]
      refine ⟨last, by rw [e]; exact c15, h2.trans c16, ?_⟩
      have : last ∈ P := by rw [← e']; exact List.mem_of_getLast? c15
      linarith [hPle last this]
    · refine ⟨x, mem_take_succ_of_getElem? hx, ?_, ?_⟩
      · obtain ⟨hxl, hx'⟩ := List.getElem?_eq_some_iff.1 hx
        by_cases hlt : P.length < n
        · have : x ∈ Q := by
            have h3 : (us.take n)[P.length]? = some x := by rw [List.getElem?_take_of_lt hlt, hx]
            rw [hPQ, List.getElem?_append_right (le_refl _)] at h3
            exact List.mem_of_getElem? h3
          exact (hQgt x this).le
        · have : us.length = P.length + 1 := by omega
          have : us.getLast? = some x := by rw [List.getLast?_eq_getElem?, this]; simpa using hx
          rw [c15, Option.some.injEq] at this
          subst this
          exact h2.trans c16
      · -- the previous point is not beyond the end
        obtain ⟨hxl, hx'⟩ := List.getElem?_eq_some_iff.1 hx
        have hst := List.isChain_iff_getElem.1 c1 (P.length - 1) (by omega)
        have e : P.length - 1 + 1 = P.length := by omega
        simp only [e] at hst
        have hmem : us[P.length - 1]'(by omega) ∈ P := by
          have h3 : (us.take n)[P.length - 1]? = P[P.length - 1]? := by
            rw [hPQ, List.getElem?_append_left (by omega)]
          rw [List.getElem?_take_of_lt (by omega), List.getElem?_eq_getElem (by omega), List.getElem?_eq_getElem (by omega)] at h3
          rw [Option.some.injEq] at h3
          rw [h3]; exact List.getElem_mem _
        have := hPle _ hmem
        rw [hx'] at hst
        have := hst.2
        linarith
  obtain ⟨x, x1, x2, x3⟩ := hnext
  refine ⟨us.take (P.length + 1), P.length, A, B, first, x, c1.take _, ?_, ?_, by omega, ?_, ?_, c7,
    fun u hu => c8 u (List.mem_of_mem_take hu), c9, by linarith, h1, ?_, c13, c14, x1, x2, x3, ?_,
    fun u hu => c19 u (List.mem_of_mem_take hu), by dsimp only; rw [List.length_take]; omega⟩
  · rw [List.take_take, min_eq_left (by omega), ← hpre]
  · rw [c3, phasesOf_take, List.map_take, List.map_take]
  · rw [List.length_take]
    omega
  · rw [List.length_take]; omega
  · rw [List.head?_take]; simp [c12]
  · intro u hu
    rw [List.take_take, min_eq_left (by omega), ← hpre] at hu
    exact hPle u hu

theorem CoverF.cutStart {lo lo' hi : ℝ} {v : PhiLine ℝ} (hh : 0 ≤ h)
    (hc : CoverF S f D N h pt lo hi v) (h1 : lo ≤ lo') (h2 : lo' ≤ hi) :
    ∃ (P Q : List ℝ), v.1 = P.map pt ++ Q.map pt ∧ (∀ u ∈ P, u < lo') ∧ (∀ u ∈ Q, lo' ≤ u) ∧
      (Q ≠ [] → CoverF S f D N h pt lo' hi (Q.map pt, v.2.drop P.length)) := by
  obtain ⟨us, n, A, B, first, last, c1, c2, c3, c4, c5, c6, c7, c8, c9, c10, c11, c12, c13, c14, c15, c16, c17, c18, c19, c20⟩ := hc
  have hsort := chainF_pairwise c1
  generalize hP : (us.take n).takeWhile (fun u => decide (u < lo')) = P
  generalize hQ : (us.take n).dropWhile (fun u => decide (u < lo')) = Q
  have hPQ : us.take n = P ++ Q := by rw [← hP, ← hQ, List.takeWhile_append_dropWhile]
  have hPlt : ∀ u ∈ P, u < lo' := by
    intro u hu; rw [← hP] at hu
    simpa using List.mem_takeWhile_imp hu
  have hsQ : Q.Pairwise (· ≤ ·) := (hPQ ▸ hsort.sublist (List.take_sublist n us)).sublist (List.sublist_append_right P Q)
  have hQge : ∀ u ∈ Q, lo' ≤ u := by
    intro u hu
    rcases hQ' : Q with _ | ⟨q, Q'⟩
    · rw [hQ'] at hu; simp at hu
    · have hq : lo' ≤ q := by
        have := List.head?_dropWhile_not (fun u => decide (u < lo')) (us.take n)
        rw [hQ, hQ'] at this
        simpa using this
      rw [hQ'] at hu hsQ
      rcases List.mem_cons.1 hu with rfl | hu
      · exact hq
      · exact hq.trans ((List.pairwise_cons.1 hsQ).1 u hu)
  refine ⟨P, Q, by rw [c2, hPQ, List.map_append], hPlt, hQge, ?_⟩
  intro hne
  have hlen : P.length + Q.length = n := by
    have := congrArg List.length hPQ
    rw [List.length_take, List.length_append] at this
    omega
  have hQpos : 0 < Q.length := List.length_pos_iff.2 hne
  have hdrop : (us.drop P.length).take (n - P.length) = Q := by
    rw [← List.drop_take, hPQ, List.drop_left]
  have hlen' : us.length - P.length = (us.drop P.length).length := by simp
  obtain ⟨q, hq⟩ : ∃ q, Q.head? = some q := by
    cases Q with
    | nil => exact absurd rfl hne
    | cons q Q => exact ⟨q, rfl⟩
  have hqQ : q ∈ Q := List.mem_of_head? hq
  have hhead : (us.drop P.length).head? = some q := by
    have := congrArg List.head? hdrop
    rw [List.head?_take, if_neg (by omega), hq] at this
    exact this
  have hqus : us[P.length]? = some q := by rw [← hhead, List.head?_drop]
  have hq2 : q ≤ lo' + h := by
    rcases Nat.eq_zero_or_pos P.length with h0 | hpos
    · rw [h0] at hqus
      rw [List.head?_eq_getElem?] at c12
      rw [c12, Option.some.injEq] at hqus
      subst hqus
      linarith
    · obtain ⟨hxl, hx'⟩ := List.getElem?_eq_some_iff.1 hqus
      have hst := List.isChain_iff_getElem.1 c1 (P.length - 1) (by omega)
      have e : P.length - 1 + 1 = P.length := by omega
      simp only [e, hx'] at hst
      have hmem : us[P.length - 1]'(by omega) ∈ P := by
        have h3 : (us.take n)[P.length - 1]? = P[P.length - 1]? := by
          rw [hPQ, List.getElem?_append_left (by omega)]
        rw [List.getElem?_take_of_lt (by omega), List.getElem?_eq_getElem (by omega), List.getElem?_eq_getElem (by omega)] at h3
        rw [Option.some.injEq] at h3
        rw [h3]; exact List.getElem_mem _
      have := hPlt _ hmem
      have := hst.2
      linarith
  refine ⟨us.drop P.length, n - P.length, A, B, q, last, c1.drop _, ?_, ?_, by omega, by rw [List.length_drop]; omega,
    by rw [List.length_drop]; omega, c7, fun u hu => c8 u (List.mem_of_mem_drop hu), by linarith, c10, h2, hhead, hQge q hqQ,
    hq2, ?_, c16, c17, ?_, ?_, by dsimp only; rw [List.length_drop]; omega⟩
  · rw [hdrop]
  · rw [c3, phasesOf_drop, List.map_drop, List.map_drop]
  · rw [List.getLast?_drop, if_neg (by omega)]; exact c15
  · intro u hu
    rw [hdrop] at hu
    refine c18 u ?_
    rw [hPQ]; exact List.mem_append_right _ hu
  · intro u hu
    have hs' : (us.drop P.length).Pairwise (· ≤ ·) := hsort.sublist (List.drop_sublist _ _)
    rcases hd : us.drop P.length with _ | ⟨a, l⟩
    · rw [hd] at hu; simp at hu
    · rw [hd] at hu hs' hhead
      simp only [List.head?_cons, Option.some.injEq] at hhead
      subst hhead
      rcases List.mem_cons.1 hu with rfl | hu
      · exact hQge _ hqQ
      · exact (hQge _ hqQ).trans ((List.pairwise_cons.1 hs').1 u hu)

theorem CoverF.cutStartH {y lo lo' hi : ℝ} {v v' : PhiLine ℝ} (hh : 0 ≤ h) (hc : CoverF S f D N h (fun t => ⟨t, y⟩) lo hi v)
    (h1 : lo ≤ lo') (h2 : lo' ≤ hi) (hv : PyZeal.cutStartH v lo' = some v') : CoverF S f D N h (fun t => ⟨t, y⟩) lo' hi v' := by
  obtain ⟨P, Q, q1, q2, q3, q4⟩ := hc.cutStart hh h1 h2
  have k1 : ∀ z ∈ P.map (fun t => (⟨t, y⟩ : Cx ℝ)), z.re < lo' := by
    intro z hz; obtain ⟨u, hu, rfl⟩ := List.mem_map.1 hz; exact q2 u hu
  have k2 : ∀ z ∈ Q.map (fun t => (⟨t, y⟩ : Cx ℝ)), lo' ≤ z.re := by
    intro z hz; obtain ⟨u, hu, rfl⟩ := List.mem_map.1 hz; exact q3 u hu
  have hQ3 : 3 ≤ Q.length := by
    by_contra hlt
    unfold PyZeal.cutStartH at hv
    simp only at hv
    rw [q1, whereFrom_suffix (p := fun z : Cx ℝ => decide (lo' ≤ z.re)) (by intro z hz; simpa using k1 z hz) (by simpa using k2),
      List.length_range', List.length_map, if_pos (by omega)] at hv
    simp at hv
  have hcut := cutStartH_eq lo' v.1 _ _ v.2 q1 k1 k2 (by simpa using hQ3)
  have ev : v = (v.1, v.2) := rfl
  rw [ev, hcut, Option.some.injEq, List.length_map] at hv
  subst hv
  exact q4 (by rintro rfl; simp at hQ3)

theorem CoverF.cutStartV {x lo lo' hi hi' : ℝ} {v v' : PhiLine ℝ} (hh : 0 ≤ h) (hc : CoverF S f D N h (fun t => ⟨x, t⟩) lo hi v)
    (h1 : lo ≤ lo') (h2 : lo' ≤ hi) (hv : PyZeal.cutStartV v lo' hi' = .ok (some v')) :
    CoverF S f D N h (fun t => ⟨x, t⟩) lo' hi v' := by
  obtain ⟨P, Q, q1, q2, q3, q4⟩ := hc.cutStart hh h1 h2
  have k1 : ∀ z ∈ P.map (fun t => (⟨x, t⟩ : Cx ℝ)), z.im < lo' := by
    intro z hz; obtain ⟨u, hu, rfl⟩ := List.mem_map.1 hz; exact q2 u hu
  have k2 : ∀ z ∈ Q.map (fun t => (⟨x, t⟩ : Cx ℝ)), lo' ≤ z.im := by
    intro z hz; obtain ⟨u, hu, rfl⟩ := List.mem_map.1 hz; exact q3 u hu
  unfold PyZeal.cutStartV at hv
  split at hv
  · simp at hv
  · rw [q1, whereFrom_suffix (p := fun z : Cx ℝ => decide (lo' ≤ z.im)) (by intro z hz; simpa using k1 z hz) (by simpa using k2)] at hv
    cases Q with
    | nil => simp at hv
    | cons q Q =>
      simp only [List.map_cons, List.length_cons, List.length_map, List.range'_succ, Except.ok.injEq, Option.some.injEq,
        Nat.zero_add] at hv
      subst hv
      have e : (P.map (fun t => (⟨x, t⟩ : Cx ℝ)) ++ (⟨x, q⟩ :: Q.map (fun t => (⟨x, t⟩ : Cx ℝ)))).drop P.length =
          (q :: Q).map (fun t => (⟨x, t⟩ : Cx ℝ)) := by
        rw [List.drop_append_of_le_length (by simp), List.drop_of_length_le (by simp)]; rfl
      rw [e]
      exact q4 (by simp)

/-- a line sampled afresh -/
theorem CoverF.sample {A : FloatOps ℝ} {u δ γ : ℝ} {ctx : RCtx ℝ} (F : FineLine A u S N δ γ ctx.f D T h eta) (hpt : MachineLine A.fl pt)
    {lo hi R : ℝ} (hlh : lo ≤ hi) (hlo : Machine A.fl lo) (hhi : Machine A.fl hi) (hloR : |lo| ≤ R) (hhiR : |hi| ≤ R) (hh0 : 0 ≤ h)
    (hh : (hi - lo) / ((S.numPts : ℝ) - 1) + 18 * u * R ≤ h) (hD : ∀ t, lo ≤ t → t ≤ hi → D (pt t))
    {w w' : World (SumState ℝ) ℝ} {v : PhiLine ℝ} (hv : genPhiArrF A S 0 (pt lo) (pt hi) ctx w = (.ok v, w')) :
    w' = w ∧ CoverF S ctx.f D N h pt lo hi v := by
  have hn2 := F.arith.samples.numPts
  have hu0 := F.rounds.u_nonneg
  have hN : 4 * u * (S.numPts : ℝ) ≤ 1 := by
    have h1 : S.numPts ≤ N := by have := F.arith.len0; omega
    have h1 : (S.numPts : ℝ) ≤ N := by exact_mod_cast h1
    have := mul_le_mul_of_nonneg_left h1 (show 0 ≤ 4 * u by positivity)
    linarith [F.uN]
  have hne : ∀ t, lo ≤ t → t ≤ hi → ctx.f (pt t) ≠ 0 := fun t t1 t2 => F.turns.ne _ (hD t t1 t2)
  have hfine : Fine A.fl lo hi h (linT A lo hi S.numPts) := by
    obtain ⟨g1, g2, g3, g4⟩ := linT_fine F.rounds hlh hlo hhi hloR hhiR hn2 hN
    exact ⟨g1, g2.imp fun _ _ hxy => ⟨hxy.1, hxy.2.trans hh⟩, g3, g4⟩
  have hFu : 4 * u * ((N - 100 * S.numPts : ℕ) : ℝ) ≤ 1 := by
    have h1 : ((N - 100 * S.numPts : ℕ) : ℝ) ≤ N := by exact_mod_cast Nat.sub_le _ _
    have := mul_le_mul_of_nonneg_left h1 (show 0 ≤ 4 * u by positivity)
    linarith [F.uN]
  have hok := genPhiArrF_ok F.arith.samples (a := pt lo) (b := pt hi) (N - 100 * S.numPts)
    (fun idx phi h1 h2 => by have := F.arith.len idx phi h1 h2; omega)
    (fun a b ha hb => (F.arith.phase a b ha hb).1) w w' v hv
  unfold genPhiArrF at hv
  rw [if_neg (by simp), Py.bind_run, genFuncArrF_fine F.rounds F.lin hpt hlh hlo hhi hne hn2 hN] at hv
  by_cases he : S.evals S.numPts = 0
  · rw [if_pos he] at hv
    simp at hv
  rw [if_neg he] at hv
  dsimp only at hv
  obtain ⟨e, us, k1, k2⟩ := (refineLoopF_fine F.rounds F.lin F.arith.samples (ctx := ctx) hpt (h := h) hne (N - 100 * S.numPts)
    (fun idx phi h1 h2 => by have := F.arith.len idx phi h1 h2; omega) hFu
    (fun a b ha hb => (F.arith.phase a b ha hb).1) S.steps 0 (linT A lo hi S.numPts) w (by omega) hfine).1 v w' hv
  refine ⟨e, ?_⟩
  subst k2
  obtain ⟨g1, g2, g3, g4⟩ := k1
  have hpos : 1 ≤ us.length := by
    cases us with
    | nil => simp at g3
    | cons _ _ => simp
  have hl := hok.1
  have := F.arith.len0
  refine ⟨us, us.length, lo, hi, lo, hi, g2, by rw [List.take_length], rfl, hpos, le_rfl, by omega, hD,
    fun t ht => ⟨(g1 t ht).1, (g1 t ht).2.1⟩, le_rfl, le_rfl, hlh, g3, le_rfl, by linarith, g4, le_rfl, by linarith, ?_,
    fun t ht => (g1 t ht).1, by omega⟩
  rw [List.take_length]
  exact fun t ht => (g1 t ht).2.1

end

end PyZeal
