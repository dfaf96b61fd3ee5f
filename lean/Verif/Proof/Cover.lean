import Verif.Proof.Turn
import Verif.Proof.SumLine
import Mathlib.Data.List.TakeWhile

/-! # Sampled lines and their slices -/

set_option linter.unusedSectionVars false

namespace PyZeal
open Spec Real

/-- consecutive support points: increasing, at most `h` apart -/
def Step (h a b : ℝ) : Prop := a < b ∧ b ≤ a + h

/-- the changes `T` between consecutive support points -/
def increments (T : Cx ℝ → Cx ℝ → ℝ) (pt : ℝ → Cx ℝ) (us : List ℝ) : List ℝ :=
  List.zipWith (fun a b => T (pt a) (pt b)) us us.tail

/-- `v` is data for the segment `[lo, hi]` of the line `pt`: its increments belong to support points `us` which start at most `h` after `lo`
and end at most `h` behind `hi`; `v.1` consists of the support points up to `hi`. -/
def Cover (S : Cx ℝ → Prop) (T : Cx ℝ → Cx ℝ → ℝ) (h : ℝ) (pt : ℝ → Cx ℝ) (lo hi : ℝ) (v : PhiLine ℝ) : Prop :=
  ∃ (us : List ℝ) (n : ℕ) (A B first last : ℝ),
    us.IsChain (Step h) ∧ v.1 = (us.take n).map pt ∧ v.2 = increments T pt us ∧ 1 ≤ n ∧ n ≤ us.length ∧ us.length ≤ n + 1 ∧
    (∀ t, A ≤ t → t ≤ B → S (pt t)) ∧ (∀ u ∈ us, A ≤ u ∧ u ≤ B) ∧ A ≤ lo ∧ hi ≤ B ∧ lo ≤ hi ∧
    us.head? = some first ∧ lo ≤ first ∧ first ≤ lo + h ∧ us.getLast? = some last ∧ hi ≤ last ∧ last ≤ hi + h ∧
    (∀ u ∈ us.take n, u ≤ hi) ∧ (∀ u ∈ us, lo ≤ u)

theorem chain_pairwise {h : ℝ} {us : List ℝ} (hc : us.IsChain (Step h)) : us.Pairwise (· < ·) := by
  have : us.IsChain (· < ·) := hc.imp fun a b hab => hab.1
  exact List.isChain_iff_pairwise.1 this

theorem increments_take (T : Cx ℝ → Cx ℝ → ℝ) (pt : ℝ → Cx ℝ) (us : List ℝ) (m : ℕ) :
    (increments T pt us).take m = increments T pt (us.take (m + 1)) := by
  induction us generalizing m with
  | nil => simp [increments]
  | cons a us ih =>
    cases us with
    | nil => simp [increments]
    | cons b us =>
      cases m with
      | zero => simp [increments]
      | succ m =>
        have := ih m
        simp only [increments, List.tail_cons, List.zipWith_cons_cons, List.take_succ_cons, List.cons.injEq, true_and] at this ⊢
        exact this

theorem increments_drop (T : Cx ℝ → Cx ℝ → ℝ) (pt : ℝ → Cx ℝ) (us : List ℝ) (m : ℕ) :
    (increments T pt us).drop m = increments T pt (us.drop m) := by
  induction us generalizing m with
  | nil => simp [increments]
  | cons a us ih =>
    cases m with
    | zero => simp
    | succ m =>
      cases us with
      | nil => simp [increments]
      | cons b us =>
        have := ih m
        simp only [increments, List.tail_cons, List.zipWith_cons_cons, List.drop_succ_cons] at this ⊢
        exact this

section
variable {f : Cx ℝ → Cx ℝ} {S : Cx ℝ → Prop} {T : Cx ℝ → Cx ℝ → ℝ} {h eta : ℝ} {pt : ℝ → Cx ℝ}

theorem TurnSys.self (ts : TurnSys f S T h eta) (hpt : IsLine pt) {A B : ℝ} (hS : ∀ t, A ≤ t → t ≤ B → S (pt t)) {a : ℝ}
    (h1 : A ≤ a) (h2 : a ≤ B) : T (pt a) (pt a) = 0 := by
  have := ts.add pt hpt A B hS a a a h1 h2 h1 h2 h1 h2
  linarith

theorem TurnSys.swap (ts : TurnSys f S T h eta) (hpt : IsLine pt) {A B : ℝ} (hS : ∀ t, A ≤ t → t ≤ B → S (pt t)) {a b : ℝ}
    (h1 : A ≤ a) (h2 : a ≤ B) (h3 : A ≤ b) (h4 : b ≤ B) : T (pt b) (pt a) = -T (pt a) (pt b) := by
  have := ts.add pt hpt A B hS a b a h1 h2 h3 h4 h1 h2
  rw [ts.self hpt hS h1 h2] at this
  linarith

theorem increments_sum (ts : TurnSys f S T h eta) (hpt : IsLine pt) {A B : ℝ} (hS : ∀ t, A ≤ t → t ≤ B → S (pt t))
    (us : List ℝ) (hus : ∀ u ∈ us, A ≤ u ∧ u ≤ B) {first last : ℝ} (hf : us.head? = some first) (hl : us.getLast? = some last) :
    (increments T pt us).sum = T (pt first) (pt last) := by
  induction us generalizing first with
  | nil => simp at hf
  | cons a us ih =>
    simp only [List.head?_cons, Option.some.injEq] at hf
    subst hf
    obtain ⟨a1, a2⟩ := hus a (by simp)
    cases us with
    | nil =>
      simp only [List.getLast?_singleton, Option.some.injEq] at hl
      subst hl
      rw [ts.self hpt hS a1 a2]; simp [increments]
    | cons b us =>
      have hlm : last ∈ b :: us := by
        rw [List.getLast?_cons_cons] at hl
        exact List.mem_of_getLast? hl
      obtain ⟨b1, b2⟩ := hus b (by simp)
      obtain ⟨l1, l2⟩ := hus last (by simp at hlm ⊢; tauto)
      have := ih (first := b) (fun u hu => hus u (by simp at hu ⊢; tauto)) rfl (by simpa using hl)
      rw [← ts.add pt hpt A B hS a b last a1 a2 b1 b2 l1 l2, ← this]
      simp [increments]

/-- the sum of the increments is close to the change along the segment -/
theorem Cover.close (ts : TurnSys f S T h eta) (hpt : IsLine pt) {lo hi : ℝ} {v : PhiLine ℝ} (hc : Cover S T h pt lo hi v) :
    |v.2.sum - T (pt lo) (pt hi)| ≤ 2 * eta := by
  obtain ⟨us, n, A, B, first, last, c1, c2, c3, c4, c5, c6, c7, c8, c9, c10, c11, c12, c13, c14, c15, c16, c17, c18, c19⟩ := hc
  have hlast : last ∈ us := List.mem_of_getLast? c15
  have hfirst : first ∈ us := List.mem_of_head? c12
  obtain ⟨f1, f2⟩ := c8 first hfirst
  obtain ⟨l1, l2⟩ := c8 last hlast
  rw [c3, increments_sum ts hpt c7 us c8 c12 c15]
  have e1 := ts.add pt hpt A B c7 lo first last c9 (by linarith) f1 f2 l1 l2
  have e2 := ts.add pt hpt A B c7 lo last hi c9 (by linarith) l1 l2 (by linarith) c10
  have b1 := ts.bound pt hpt lo first (c7 lo c9 (by linarith)) (c7 first f1 f2) (by rw [abs_le]; constructor <;> linarith)
  have b2 := ts.bound pt hpt last hi (c7 last l1 l2) (c7 hi (by linarith) c10) (by rw [abs_le]; constructor <;> linarith)
  rw [abs_le] at *
  constructor <;> linarith

/-- a segment of a line with data is clear of zeros -/
theorem Cover.clear {lo hi : ℝ} {v : PhiLine ℝ} (hc : Cover S T h pt lo hi v) : ∀ t, lo ≤ t → t ≤ hi → S (pt t) := by
  obtain ⟨us, n, A, B, first, last, c1, c2, c3, c4, c5, c6, c7, c8, c9, c10, c11, _⟩ := hc
  exact fun t h1 h2 => c7 t (c9.trans h1) (h2.trans c10)

theorem mem_take_succ_of_getElem? {us : List ℝ} {m : ℕ} {x : ℝ} (hx : us[m]? = some x) :
    (us.take (m + 1)).getLast? = some x := by
  rw [List.take_add_one, hx]; simp

/-- cutting data at the end -/
theorem Cover.cutEnd {proj : Cx ℝ → ℝ} (hproj : ∀ t, proj (pt t) = t) {lo hi hi' : ℝ} {v v' : PhiLine ℝ} (hh : 0 ≤ h)
    (hc : Cover S T h pt lo hi v) (h1 : lo ≤ hi') (h2 : hi' ≤ hi) (hv : PyZeal.cutEnd proj v hi' = some v') :
    Cover S T h pt lo hi' v' := by
  obtain ⟨us, n, A, B, first, last, c1, c2, c3, c4, c5, c6, c7, c8, c9, c10, c11, c12, c13, c14, c15, c16, c17, c18, c19⟩ := hc
  have hsort := chain_pairwise c1
  -- split the support points at the new end
  generalize hP : (us.take n).takeWhile (fun u => decide (u ≤ hi')) = P
  generalize hQ : (us.take n).dropWhile (fun u => decide (u ≤ hi')) = Q
  have hPQ : us.take n = P ++ Q := by rw [← hP, ← hQ, List.takeWhile_append_dropWhile]
  have hPle : ∀ u ∈ P, u ≤ hi' := by
    intro u hu; rw [← hP] at hu
    simpa using List.mem_takeWhile_imp hu
  have hQgt : ∀ u ∈ Q, hi' < u := by
    intro u hu
    have hsQ : Q.Pairwise (· < ·) := (hPQ ▸ hsort.sublist (List.take_sublist n us)).sublist (List.sublist_append_right P Q)
    rcases hQ' : Q with _ | ⟨q, Q'⟩
    · rw [hQ'] at hu; simp at hu
    · have hq : hi' < q := by
        have := List.head?_dropWhile_not (fun u => decide (u ≤ hi')) (us.take n)
        rw [hQ, hQ'] at this
        simpa using this
      rw [hQ'] at hu hsQ
      rcases List.mem_cons.1 hu with rfl | hu
      · exact hq
      · exact hq.trans ((List.pairwise_cons.1 hsQ).1 u hu)
  have hv1 : v.1 = P.map pt ++ Q.map pt := by rw [c2, hPQ, List.map_append]
  have hpre : P = us.take P.length := by
    have : P <+: us := (hPQ ▸ List.prefix_append P Q : P <+: us.take n).trans (List.take_prefix n us)
    exact List.prefix_iff_eq_take.1 this
  have hPn : P.length ≤ n := by
    have := congrArg List.length hPQ
    rw [List.length_take, List.length_append] at this
    omega
  -- the result of the cut
  have hP3 : 3 ≤ P.length := by
    by_contra hlt
    unfold PyZeal.cutEnd at hv
    simp only at hv
    rw [hv1, whereFrom_prefix (p := fun z => decide (proj z ≤ hi'))
      (by intro z hz; obtain ⟨u, hu, rfl⟩ := List.mem_map.1 hz; rw [hproj]; simpa using hPle u hu)
      (by intro z hz; obtain ⟨u, hu, rfl⟩ := List.mem_map.1 hz; rw [hproj]; simpa using hQgt u hu),
      List.length_range', List.length_map, if_pos (by omega)] at hv
    simp at hv
  have hcut := cutEnd_eq proj hi' v.1 (P.map pt) (Q.map pt) v.2 hv1
    (by intro z hz; obtain ⟨u, hu, rfl⟩ := List.mem_map.1 hz; rw [hproj]; exact hPle u hu)
    (by intro z hz; obtain ⟨u, hu, rfl⟩ := List.mem_map.1 hz; rw [hproj]; exact hQgt u hu) (by simpa using hP3)
  have ev : v = (v.1, v.2) := rfl
  rw [ev, hcut, Option.some.injEq, List.length_map] at hv
  subst hv
  -- the element behind the end
  have hnext : ∃ x, (us.take (P.length + 1)).getLast? = some x ∧ hi' ≤ x ∧ x ≤ hi' + h := by
    rcases hx : us[P.length]? with _ | x
    · -- everything is below the new end
      rw [List.getElem?_eq_none_iff] at hx
      have e : us.take (P.length + 1) = us := List.take_of_length_le (by omega)
      have e' : us = P := by rw [hpre, List.take_of_length_le hx]
      refine ⟨last, by rw [e]; exact c15, h2.trans c16, ?_⟩
      have : last ∈ P := by rw [← e']; exact List.mem_of_getLast? c15
      linarith [hPle last this]
    · refine ⟨x, mem_take_succ_of_getElem? hx, ?_, ?_⟩
      · obtain ⟨hxl, hx'⟩ := List.getElem?_eq_some_iff.1 hx
        by_cases hlt : P.length < n
        · have : x ∈ Q := by
            have h3 : (us.take n)[P.length]? = some x := by rw [List.getElem?_take_of_lt hlt, hx]
            rw [hPQ, List.getElem?_append_right (le_refl _)] at h3
            exact List.mem_of_getElem? h3
          exact (hQgt x this).le
        · have : us.length = P.length + 1 := by omega
          have : us.getLast? = some x := by rw [List.getLast?_eq_getElem?, this]; simpa using hx
          rw [c15, Option.some.injEq] at this
          subst this
          exact h2.trans c16
      · -- the previous point is not beyond the end
        obtain ⟨hxl, hx'⟩ := List.getElem?_eq_some_iff.1 hx
        have hst := List.isChain_iff_getElem.1 c1 (P.length - 1) (by omega)
        have e : P.length - 1 + 1 = P.length := by omega
        simp only [e] at hst
        have hmem : us[P.length - 1]'(by omega) ∈ P := by
          have h3 : (us.take n)[P.length - 1]? = P[P.length - 1]? := by
            rw [hPQ, List.getElem?_append_left (by omega)]
          rw [List.getElem?_take_of_lt (by omega), List.getElem?_eq_getElem (by omega), List.getElem?_eq_getElem (by omega)] at h3
          rw [Option.some.injEq] at h3
          rw [h3]; exact List.getElem_mem _
        have := hPle _ hmem
        rw [hx'] at hst
        have := hst.2
        linarith
  obtain ⟨x, x1, x2, x3⟩ := hnext
  refine ⟨us.take (P.length + 1), P.length, A, B, first, x, c1.take _, ?_, ?_, by omega, ?_, ?_, c7,
    fun u hu => c8 u (List.mem_of_mem_take hu), c9, by linarith, h1, ?_, c13, c14, x1, x2, x3, ?_,
    fun u hu => c19 u (List.mem_of_mem_take hu)⟩
  · rw [List.take_take, min_eq_left (by omega), ← hpre]
  · rw [c3, increments_take]
  · rw [List.length_take]
    omega
  · rw [List.length_take]; omega
  · rw [List.head?_take]; simp [c12]
  · intro u hu
    rw [List.take_take, min_eq_left (by omega), ← hpre] at hu
    exact hPle u hu

theorem Cover.cutStart {lo lo' hi : ℝ} {v : PhiLine ℝ} (hh : 0 ≤ h)
    (hc : Cover S T h pt lo hi v) (h1 : lo ≤ lo') (h2 : lo' ≤ hi) :
    ∃ (P Q : List ℝ), v.1 = P.map pt ++ Q.map pt ∧ (∀ u ∈ P, u < lo') ∧ (∀ u ∈ Q, lo' ≤ u) ∧
      (Q ≠ [] → Cover S T h pt lo' hi (Q.map pt, v.2.drop P.length)) := by
  obtain ⟨us, n, A, B, first, last, c1, c2, c3, c4, c5, c6, c7, c8, c9, c10, c11, c12, c13, c14, c15, c16, c17, c18, c19⟩ := hc
  have hsort := chain_pairwise c1
  generalize hP : (us.take n).takeWhile (fun u => decide (u < lo')) = P
  generalize hQ : (us.take n).dropWhile (fun u => decide (u < lo')) = Q
  have hPQ : us.take n = P ++ Q := by rw [← hP, ← hQ, List.takeWhile_append_dropWhile]
  have hPlt : ∀ u ∈ P, u < lo' := by
    intro u hu; rw [← hP] at hu
    simpa using List.mem_takeWhile_imp hu
  have hsQ : Q.Pairwise (· < ·) := (hPQ ▸ hsort.sublist (List.take_sublist n us)).sublist (List.sublist_append_right P Q)
  have hQge : ∀ u ∈ Q, lo' ≤ u := by
    intro u hu
    rcases hQ' : Q with _ | ⟨q, Q'⟩
    · rw [hQ'] at hu; simp at hu
    · have hq : lo' ≤ q := by
        have := List.head?_dropWhile_not (fun u => decide (u < lo')) (us.take n)
        rw [hQ, hQ'] at this
        simpa using this
      rw [hQ'] at hu hsQ
      rcases List.mem_cons.1 hu with rfl | hu
      · exact hq
      · exact hq.trans ((List.pairwise_cons.1 hsQ).1 u hu).le
  refine ⟨P, Q, by rw [c2, hPQ, List.map_append], hPlt, hQge, ?_⟩
  intro hne
  have hlen : P.length + Q.length = n := by
    have := congrArg List.length hPQ
    rw [List.length_take, List.length_append] at this
    omega
  have hQpos : 0 < Q.length := List.length_pos_iff.2 hne
  have hdrop : (us.drop P.length).take (n - P.length) = Q := by
    rw [← List.drop_take, hPQ, List.drop_left]
  have hlen' : us.length - P.length = (us.drop P.length).length := by simp
  obtain ⟨q, hq⟩ : ∃ q, Q.head? = some q := by
    cases Q with
    | nil => exact absurd rfl hne
    | cons q Q => exact ⟨q, rfl⟩
  have hqQ : q ∈ Q := List.mem_of_head? hq
  have hhead : (us.drop P.length).head? = some q := by
    have := congrArg List.head? hdrop
    rw [List.head?_take, if_neg (by omega), hq] at this
    exact this
  have hqus : us[P.length]? = some q := by rw [← hhead, List.head?_drop]
  have hq2 : q ≤ lo' + h := by
    rcases Nat.eq_zero_or_pos P.length with h0 | hpos
    · rw [h0] at hqus
      rw [List.head?_eq_getElem?] at c12
      rw [c12, Option.some.injEq] at hqus
      subst hqus
      linarith
    · obtain ⟨hxl, hx'⟩ := List.getElem?_eq_some_iff.1 hqus
      have hst := List.isChain_iff_getElem.1 c1 (P.length - 1) (by omega)
      have e : P.length - 1 + 1 = P.length := by omega
      simp only [e, hx'] at hst
      have hmem : us[P.length - 1]'(by omega) ∈ P := by
        have h3 : (us.take n)[P.length - 1]? = P[P.length - 1]? := by
          rw [hPQ, List.getElem?_append_left (by omega)]
        rw [List.getElem?_take_of_lt (by omega), List.getElem?_eq_getElem (by omega), List.getElem?_eq_getElem (by omega)] at h3
        rw [Option.some.injEq] at h3
        rw [h3]; exact List.getElem_mem _
      have := hPlt _ hmem
      have := hst.2
      linarith
  refine ⟨us.drop P.length, n - P.length, A, B, q, last, c1.drop _, ?_, ?_, by omega, by rw [List.length_drop]; omega,
    by rw [List.length_drop]; omega, c7, fun u hu => c8 u (List.mem_of_mem_drop hu), by linarith, c10, h2, hhead, hQge q hqQ,
    hq2, ?_, c16, c17, ?_, ?_⟩
  · rw [hdrop]
  · rw [c3, increments_drop]
  · rw [List.getLast?_drop, if_neg (by omega)]; exact c15
  · intro u hu
    rw [hdrop] at hu
    refine c18 u ?_
    rw [hPQ]; exact List.mem_append_right _ hu
  · intro u hu
    have hs' : (us.drop P.length).Pairwise (· < ·) := hsort.sublist (List.drop_sublist _ _)
    rcases hd : us.drop P.length with _ | ⟨a, l⟩
    · rw [hd] at hu; simp at hu
    · rw [hd] at hu hs' hhead
      simp only [List.head?_cons, Option.some.injEq] at hhead
      subst hhead
      rcases List.mem_cons.1 hu with rfl | hu
      · exact hQge _ hqQ
      · exact (hQge _ hqQ).trans ((List.pairwise_cons.1 hs').1 u hu).le

theorem Cover.cutStartH {y lo lo' hi : ℝ} {v v' : PhiLine ℝ} (hh : 0 ≤ h) (hc : Cover S T h (fun t => ⟨t, y⟩) lo hi v)
    (h1 : lo ≤ lo') (h2 : lo' ≤ hi) (hv : PyZeal.cutStartH v lo' = some v') : Cover S T h (fun t => ⟨t, y⟩) lo' hi v' := by
  obtain ⟨P, Q, q1, q2, q3, q4⟩ := hc.cutStart hh h1 h2
  have k1 : ∀ z ∈ P.map (fun t => (⟨t, y⟩ : Cx ℝ)), z.re < lo' := by
    intro z hz; obtain ⟨u, hu, rfl⟩ := List.mem_map.1 hz; exact q2 u hu
  have k2 : ∀ z ∈ Q.map (fun t => (⟨t, y⟩ : Cx ℝ)), lo' ≤ z.re := by
    intro z hz; obtain ⟨u, hu, rfl⟩ := List.mem_map.1 hz; exact q3 u hu
  have hQ3 : 3 ≤ Q.length := by
    by_contra hlt
    unfold PyZeal.cutStartH at hv
    simp only at hv
    rw [q1, whereFrom_suffix (p := fun z : Cx ℝ => decide (lo' ≤ z.re)) (by intro z hz; simpa using k1 z hz) (by simpa using k2),
      List.length_range', List.length_map, if_pos (by omega)] at hv
    simp at hv
  have hcut := cutStartH_eq lo' v.1 _ _ v.2 q1 k1 k2 (by simpa using hQ3)
  have ev : v = (v.1, v.2) := rfl
  rw [ev, hcut, Option.some.injEq, List.length_map] at hv
  subst hv
  exact q4 (by rintro rfl; simp at hQ3)

theorem Cover.cutStartV {x lo lo' hi hi' : ℝ} {v v' : PhiLine ℝ} (hh : 0 ≤ h) (hc : Cover S T h (fun t => ⟨x, t⟩) lo hi v)
    (h1 : lo ≤ lo') (h2 : lo' ≤ hi) (hv : PyZeal.cutStartV v lo' hi' = .ok (some v')) :
    Cover S T h (fun t => ⟨x, t⟩) lo' hi v' := by
  obtain ⟨P, Q, q1, q2, q3, q4⟩ := hc.cutStart hh h1 h2
  have k1 : ∀ z ∈ P.map (fun t => (⟨x, t⟩ : Cx ℝ)), z.im < lo' := by
    intro z hz; obtain ⟨u, hu, rfl⟩ := List.mem_map.1 hz; exact q2 u hu
  have k2 : ∀ z ∈ Q.map (fun t => (⟨x, t⟩ : Cx ℝ)), lo' ≤ z.im := by
    intro z hz; obtain ⟨u, hu, rfl⟩ := List.mem_map.1 hz; exact q3 u hu
  unfold PyZeal.cutStartV at hv
  split at hv
  · simp at hv
  · rw [q1, whereFrom_suffix (p := fun z : Cx ℝ => decide (lo' ≤ z.im)) (by intro z hz; simpa using k1 z hz) (by simpa using k2)] at hv
    cases Q with
    | nil => simp at hv
    | cons q Q =>
      simp only [List.map_cons, List.length_cons, List.length_map, List.range'_succ, Except.ok.injEq, Option.some.injEq,
        Nat.zero_add] at hv
      subst hv
      have e : (P.map (fun t => (⟨x, t⟩ : Cx ℝ)) ++ (⟨x, q⟩ :: Q.map (fun t => (⟨x, t⟩ : Cx ℝ)))).drop P.length =
          (q :: Q).map (fun t => (⟨x, t⟩ : Cx ℝ)) := by
        rw [List.drop_append_of_le_length (by simp), List.drop_of_length_le (by simp)]; rfl
      rw [e]
      exact q4 (by simp)

/-! ## sampling -/

theorem genPhiArr_grid (cfg : SumCfg ℝ) (ctx : RCtx ℝ) (hδ : 0 < cfg.deltaPhi)
    (hn : 2 ≤ cfg.numPts) (a b : Cx ℝ) (w : World (SumState ℝ) ℝ) (hw : w.fuse = none)
    (z' : List (Cx ℝ)) (p' : List ℝ) (w' : World (SumState ℝ) ℝ)
    (hg : genPhiArr cfg 0 a b ctx w = (.ok (z', p'), w')) (hadd : w'.added = w.added) :
    ∀ x ∈ linspace a b cfg.numPts, x ∈ z' := by
  refine (fun key => ?_) (genPhiArr_inv cfg ctx hδ (by omega) a b w
    (fun _ z _ w1 => w.added <+: w1.added ∧ (w1.added = w.added → ∀ x ∈ linspace a b cfg.numPts, x ∈ z)) ?_ ?_ hw z' p' w' hg)
  · obtain ⟨⟨_, _, h1⟩, _⟩ := key
    exact h1 hadd
  · intro r hr
    obtain ⟨j, _, h2, h3, h4⟩ := genFuncArr_ok hw hr
    refine ⟨(AddsOnly.genFuncArr _ _ _ _ _ w).2.2.2.1, fun e => ?_⟩
    rw [h4 e]; exact fun x hx => hx
  · intro idx z p w1 k hP hw1 hl hk _ _ r n hn100 hr
    have hpre := (AddsOnly.genFuncArr (σ := SumState ℝ) cfg.evals (z.getD k 0) (z.getD (k+1) 0)
      ctx n w1).2.2.2.1
    refine ⟨hP.1.trans hpre, ?_⟩
    intro e x hx
    have e1 : w1.added = w.added := added_eq_of_prefix hP.1 hpre e
    have := hP.2 e1 x hx
    rw [← List.take_append_drop (k + 1) z, List.mem_append] at this
    simp only [List.mem_append]
    tauto

theorem chain_of_dense {h : ℝ} : ∀ (us : List ℝ), us.Pairwise (· < ·) → (∀ last, us.getLast? = some last →
    ∀ t ∈ us, t < last → ∃ u ∈ us, t < u ∧ u ≤ t + h) → us.IsChain (Step h)
  | [], _, _ => List.IsChain.nil
  | [a], _, _ => List.IsChain.singleton a
  | a :: b :: us, hs, hd => by
    rw [List.pairwise_cons] at hs
    have hlast : ∃ l, (b :: us).getLast? = some l := by
      rcases hl : (b :: us).getLast? with _ | l
      · simp at hl
      · exact ⟨l, rfl⟩
    obtain ⟨l, hl⟩ := hlast
    refine List.IsChain.cons_cons ⟨hs.1 b (by simp), ?_⟩ (chain_of_dense (b :: us) hs.2 ?_)
    · obtain ⟨u, hu, u1, u2⟩ := hd l (by simpa using hl) a (by simp) (hs.1 l (List.mem_of_getLast? hl))
      rcases List.mem_cons.1 hu with rfl | hu
      · linarith
      · rcases List.mem_cons.1 hu with rfl | hu
        · exact u2
        · linarith [(List.pairwise_cons.1 hs.2).1 u hu]
    · intro last hlast t ht htl
      obtain ⟨u, hu, u1, u2⟩ := hd last (by simpa using hlast) t (by simp at ht ⊢; tauto) htl
      rcases List.mem_cons.1 hu with rfl | hu
      · linarith [hs.1 t ht]
      · exact ⟨u, hu, u1, u2⟩

theorem linspace_dense (a b : Cx ℝ) (proj : Cx ℝ → ℝ)
    (hproj : ∀ (u v : Cx ℝ) (t : ℝ), proj (u + Cx.smul t (v - u)) = proj u + t * (proj v - proj u)) (n : ℕ) (hn : 2 ≤ n)
    (hab : proj a < proj b) (t : ℝ) (h1 : proj a ≤ t) (h2 : t < proj b) :
    ∃ z ∈ linspace a b n, t < proj z ∧ proj z ≤ t + (proj b - proj a) / ((n : ℝ) - 1) := by
  have hn1 : (0 : ℝ) < (n : ℝ) - 1 := by
    have : (2 : ℝ) ≤ n := by exact_mod_cast hn
    linarith
  have hlen : 0 < proj b - proj a := by linarith
  -- index of the last point not beyond t
  generalize hq : (t - proj a) / (proj b - proj a) * ((n : ℝ) - 1) = q
  have q0 : 0 ≤ q := by rw [← hq]; apply mul_nonneg (div_nonneg (by linarith) hlen.le) hn1.le
  have q1 : q < (n : ℝ) - 1 := by
    rw [← hq]
    have : (t - proj a) / (proj b - proj a) < 1 := by rw [div_lt_one hlen]; linarith
    nlinarith
  have ht : t = proj a + q / ((n : ℝ) - 1) * (proj b - proj a) := by
    rw [← hq]; field_simp; ring
  have f1 := Nat.floor_le q0
  have f2 := Nat.lt_floor_add_one q
  refine ⟨a + Cx.smul (((⌊q⌋₊ + 1 : ℕ) : ℝ) / ((n : ℝ) - 1)) (b - a), List.mem_map.2 ⟨⌊q⌋₊ + 1, ?_, rfl⟩, ?_, ?_⟩
  · rw [List.mem_range]
    have : ((⌊q⌋₊ : ℕ) : ℝ) + 1 < (n : ℝ) := by linarith
    exact_mod_cast this
  · rw [hproj, ht]
    push_cast
    have : q / ((n : ℝ) - 1) < ((⌊q⌋₊ : ℝ) + 1) / ((n : ℝ) - 1) := div_lt_div_of_pos_right f2 hn1
    nlinarith
  · rw [hproj, ht]
    push_cast
    have e : ((⌊q⌋₊ : ℝ) + 1) / ((n : ℝ) - 1) = (⌊q⌋₊ : ℝ) / ((n : ℝ) - 1) + 1 / ((n : ℝ) - 1) := by ring
    have : (⌊q⌋₊ : ℝ) / ((n : ℝ) - 1) ≤ q / ((n : ℝ) - 1) := div_le_div_of_nonneg_right f1 hn1.le
    rw [e]
    have e2 : (proj b - proj a) / ((n : ℝ) - 1) = 1 / ((n : ℝ) - 1) * (proj b - proj a) := by ring
    rw [e2]
    nlinarith

/-- a line sampled afresh -/
theorem Cover.sample (ts : TurnSys f S T h eta) (hpt : IsLine pt) {proj : Cx ℝ → ℝ} (hpp : ∀ t, proj (pt t) = t)
    (hproj : ∀ (u v : Cx ℝ) (t : ℝ), proj (u + Cx.smul t (v - u)) = proj u + t * (proj v - proj u))
    (cfg : SumCfg ℝ) (harg : ∀ z, cfg.arg z = Complex.arg (toC z)) (hδ : 0 < cfg.deltaPhi) (hn : 2 ≤ cfg.numPts)
    (ctx : RCtx ℝ) (hf : ctx.f = f) {lo hi : ℝ} (hlo : lo < hi) (hstep : (hi - lo) / ((cfg.numPts : ℝ) - 1) ≤ h) (hh : 0 ≤ h)
    (hS : ∀ t, lo ≤ t → t ≤ hi → S (pt t)) {w w' : World (SumState ℝ) ℝ} (hw : w.fuse = none) {v : PhiLine ℝ}
    (hg : genPhiArr cfg 0 (pt lo) (pt hi) ctx w = (.ok v, w')) : Cover S T h pt lo hi v ∧ w'.added = w.added := by
  subst hf
  obtain ⟨zs, ps⟩ := v
  -- the points of the segment
  have hseg : ∀ u v n, (∃ t, (lo ≤ t ∧ t ≤ hi) ∧ u = pt t) → (∃ t, (lo ≤ t ∧ t ≤ hi) ∧ v = pt t) →
      ∀ z ∈ linspace u v n, ∃ t, (lo ≤ t ∧ t ≤ hi) ∧ z = pt t := by
    rintro u v n ⟨s, ⟨s1, s2⟩, rfl⟩ ⟨t, ⟨t1, t2⟩, rfl⟩ z hz
    obtain ⟨l, l0, l1, hre, him⟩ := mem_linspace hz
    refine ⟨s + l * (t - s), ⟨by nlinarith, by nlinarith⟩, ?_⟩
    rcases hpt with ⟨y, rfl⟩ | ⟨x, rfl⟩
    · exact Cx.ext hre (by simpa using him)
    · exact Cx.ext (by simpa using hre) him
  obtain ⟨hadd, hon⟩ := genPhiArr_noZeros cfg ctx hδ (by omega) _ _ w hw _ hseg ⟨lo, ⟨le_refl _, hlo.le⟩, rfl⟩
    ⟨hi, ⟨hlo.le, le_refl _⟩, rfl⟩ (by rintro z ⟨t, ⟨t1, t2⟩, rfl⟩; exact ts.ne _ (hS t t1 t2)) zs ps w' hg
  have hlt : proj (pt lo) < proj (pt hi) := by rw [hpp, hpp]; exact hlo
  have hsort := genPhiArr_sorted cfg ctx hδ hn _ _ proj hproj hlt w hw zs ps w' hg hadd
  obtain ⟨p1, p2, p3, p4⟩ := genPhiArr_phases cfg ctx hδ hn _ _ w hw zs ps w' hg hadd
  have hgrid := genPhiArr_grid cfg ctx hδ hn _ _ w hw zs ps w' hg hadd
  generalize hus : zs.map proj = us at hsort
  have hzs : zs = us.map pt := by
    rw [← hus, List.map_map]
    conv_lhs => rw [← List.map_id zs]
    apply List.map_congr_left
    intro z hz
    obtain ⟨t, _, rfl⟩ := hon z hz
    simp [hpp]
  have hmem : ∀ u ∈ us, lo ≤ u ∧ u ≤ hi := by
    intro u hu
    rw [← hus] at hu
    obtain ⟨z, hz, rfl⟩ := List.mem_map.1 hu
    obtain ⟨t, ht, rfl⟩ := hon z hz
    rw [hpp]; exact ht
  have hhead : us.head? = some lo := by rw [← hus, List.head?_map, p3]; simp [hpp]
  have hlast : us.getLast? = some hi := by rw [← hus, List.getLast?_map, p4]; simp [hpp]
  have hchain : us.IsChain (Step h) := by
    refine chain_of_dense us hsort ?_
    intro last hl t ht htl
    rw [hlast, Option.some.injEq] at hl
    subst hl
    obtain ⟨z, hz, z1, z2⟩ := linspace_dense (pt lo) (pt hi) proj hproj cfg.numPts hn hlt t
      (by rw [hpp]; exact (hmem t ht).1) (by rw [hpp]; exact htl)
    refine ⟨proj z, by rw [← hus]; exact List.mem_map_of_mem (hgrid z hz), z1, z2.trans ?_⟩
    rw [hpp, hpp]; linarith
  have hpos : 1 ≤ us.length := by
    rcases us with _ | _
    · simp at hhead
    · simp
  refine ⟨⟨us, us.length, lo, hi, lo, hi, hchain, ?_, ?_, hpos, le_refl _, by omega, hS, hmem, le_refl _, le_refl _, hlo.le, hhead,
    le_refl _, by linarith, hlast, le_refl _, by linarith, ?_, fun u hu => (hmem u hu).1⟩, hadd⟩
  · rw [List.take_length]; exact hzs
  · dsimp only
    rw [p1, hzs]
    have key : ∀ us : List ℝ, us.IsChain (Step h) → (∀ u ∈ us, lo ≤ u ∧ u ≤ hi) →
        phases cfg.arg ((us.map pt).map ctx.f) = increments T pt us := by
      intro us
      induction us with
      | nil => intro _ _; rfl
      | cons a us ih =>
        intro hc hm
        cases us with
        | nil => rfl
        | cons b us =>
          have hst := (List.isChain_cons_cons.1 hc)
          have := ih hst.2 fun u hu => hm u (by simp at hu ⊢; tauto)
          simp only [List.map_cons] at this ⊢
          rw [phases_cons_cons, this]
          obtain ⟨a1, a2⟩ := hm a (by simp)
          obtain ⟨b1, b2⟩ := hm b (by simp)
          rw [harg, ts.arg hpt (hS a a1 a2) (hS b b1 b2) (by rw [abs_le]; constructor <;> linarith [hst.1.1, hst.1.2])]
          simp [increments]
    exact key us hchain hmem
  · rw [List.take_length]
    exact fun u hu => (hmem u hu).2

end

end PyZeal
