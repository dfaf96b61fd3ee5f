import Verif.Proof.PolyQuad
import Verif.Proof.Perturb
import Verif.Proof.Exact

/-! # Final steps of searches with associated polynomials -/

set_option linter.unusedSectionVars false

namespace PyZeal
open Spec

/-- cache entries are accurate moments -/
def MomentsOk (zeros : List (Cx ℝ)) (G : ℂ → ℂ) (E : ℕ → ℝ) (k : ℤ) (a b v : Cx ℝ) : Prop := ‖toC v - momX k.toNat zeros G a b‖ ≤ E k.toNat

section
variable {σ : Type} {est : LineEst σ ℝ} {ctx : RCtx ℝ} {zeros : List (Cx ℝ)} {G : ℂ → ℂ} {E : ℕ → ℝ} {T : Cx ℝ → Cx ℝ → ℝ}

theorem CacheOk.order {w : World σ ℝ} (hw : CacheOk T (MomentsOk zeros G E) w) (k : ℕ) (hk : k ≠ 0) :
    OrderOk (k : ℤ) (fun a b v => ‖toC v - momX k zeros G a b‖ ≤ E k) w :=
  ⟨hw.wf, hw.fuse, fun a b v hv => hw.other k (by exact_mod_cast hk) a b v hv⟩

theorem CacheOk.ofOrder {w w' : World σ ℝ} (hw : CacheOk T (MomentsOk zeros G E) w) {k : ℕ} (hk : k ≠ 0)
    (h : OrderOk (k : ℤ) (fun a b v => ‖toC v - momX k zeros G a b‖ ≤ E k) w') (ho : OnlyOrder (k : ℤ) w w') : CacheOk T (MomentsOk zeros G E) w' := by
  refine ⟨h.wf, h.fuse, fun a b v hv => hw.val a b v ?_, fun k' hk' a b v hv => ?_⟩
  · rw [← ho.look 0 (by exact_mod_cast hk.symm)]; exact hv
  · by_cases e : k' = k
    · subst e
      exact h.val a b v hv
    · rw [ho.look k' e] at hv
      exact hw.other k' hk' a b v hv

/-- the moments computed at a final rectangle -/
theorem moments_quad {re im : ℝ × ℝ} (os : List ℕ) (hes : ∀ k ∈ os, ∀ e ∈ edges re im, momX (k + 1) zeros G e.2 e.1 = - momX (k + 1) zeros G e.1 e.2 ∧
      ∀ w : World σ ℝ, ∃ v, est ((k + 1 : ℕ) : ℤ) e.1 e.2 ctx w = (.ok v, w) ∧ ‖toC v - momX (k + 1) zeros G e.1 e.2‖ ≤ E (k + 1))
    (har : ∀ k, ((edges re im).map fun e => momX k zeros G e.1 e.2).sum = 2 * Real.pi * powerSum k zeros re im)
    {w : World σ ℝ} (hw : CacheOk T (MomentsOk zeros G E) w) :
    ∃ ms w', moments est Real.pi re im ctx (os.map fun (k : ℕ) => (k : ℤ) + 1) w = (.ok ms, w') ∧ CacheOk T (MomentsOk zeros G E) w' ∧
      w'.log = w.log ∧ w'.added = w.added ∧ List.Forall₂ (fun k m => ‖toC m - powerSum (k + 1) zeros re im‖ ≤ E (k + 1)) os ms := by
  induction os generalizing w with
  | nil => exact ⟨[], w, rfl, hw, rfl, rfl, .nil⟩
  | cons k os ih =>
    obtain ⟨v, w1, h1, h2, h3, h4⟩ := calc_moment (hes k (by simp)) (hw.order (k + 1) (by omega))
    obtain ⟨ms, w2, e1, e2, e3, e4, e5⟩ := ih (fun k hk => hes k (by simp [hk])) (hw.ofOrder (by omega) h2 h4)
    refine ⟨Cx.divK v (2 * Real.pi) :: ms, w2, ?_, e2, e3.trans h4.log, e4.trans h4.added, .cons ?_ e5⟩
    · rw [List.map_cons]
      change (calcMoment est ((k : ℤ) + 1) re im ctx >>= fun m => moments est Real.pi re im ctx (os.map fun (k : ℕ) => (k : ℤ) + 1) >>= fun ms =>
        pure (Cx.divK m (2 * Real.pi) :: ms)) w = _
      have h1' : calcMoment est ((k : ℤ) + 1) re im ctx w = (.ok v, w1) := by exact_mod_cast h1
      rw [Py.bind_run, h1']
      dsimp only
      rw [Py.bind_run, e1]
      rfl
    · rw [har] at h3
      have hpi := Real.two_le_pi
      have hd : toC (Cx.divK v (2 * Real.pi)) = toC v / (2 * Real.pi) := by
        have : (2 * Real.pi : ℂ) = ((2 * Real.pi : ℝ) : ℂ) := by push_cast; ring
        rw [this]
        apply Complex.ext
        · rw [Complex.div_ofReal_re]; rfl
        · rw [Complex.div_ofReal_im]; rfl
      have hne : (2 * Real.pi : ℂ) ≠ 0 := by
        simp [Real.pi_pos.ne']
      have e : toC v / (2 * Real.pi) - powerSum (k + 1) zeros re im = (toC v - 2 * Real.pi * powerSum (k + 1) zeros re im) / (2 * Real.pi) := by
        field_simp
      have hn : ‖(2 * Real.pi : ℂ)‖ = 2 * Real.pi := by
        rw [norm_mul, Complex.norm_real, Real.norm_of_nonneg Real.pi_pos.le]; norm_num
      rw [hd, e, norm_div, hn, div_le_iff₀ (by linarith)]
      have h0 : 0 ≤ E (k + 1) := by
        have := (norm_nonneg _).trans h3
        linarith
      nlinarith
end

/-- the inverse of `toC` -/
def ofC (z : ℂ) : Cx ℝ := ⟨z.re, z.im⟩

theorem toC_ofC (z : ℂ) : toC (ofC z) = z := rfl

theorem toC_inj {a b : Cx ℝ} (h : toC a = toC b) : a = b := by
  have h1 := congrArg Complex.re h
  have h2 := congrArg Complex.im h
  ext
  · exact h1
  · exact h2

theorem toC_sum (l : List (Cx ℝ)) : toC l.sum = (l.map toC).sum := by
  induction l with
  | nil => rfl
  | cons a l ih =>
    have : toC (a + l.sum) = toC a + toC l.sum := rfl
    rw [List.sum_cons, this, ih, List.map_cons, List.sum_cons]

/-- the polynomial with given moments has zeros with these moments -/
theorem moments_zeros (ms : List (Cx ℝ)) (h : ms.length ≤ 3) :
    ∃ ws : List (Cx ℝ), ws.length = ms.length ∧ coefficientsFromMoments ms = coefficientsOf ws ∧
      ∀ k (hk : k < ms.length), ((ws.map toC).map fun w => w ^ (k + 1)).sum = toC (ms[k]) := by
  obtain ⟨us, h1, h2⟩ := exists_power_sums (ms.map toC) (by simpa using h)
  rw [List.length_map] at h1 h2
  have hms : ms = (List.range (us.map ofC).length).map fun (i : ℕ) => ((us.map ofC).map fun z => z ^ (i + 1)).sum := by
    have hinj : Function.Injective (List.map toC) := List.map_injective_iff.2 fun a b h => toC_inj h
    apply hinj
    rw [List.map_map, List.length_map, h1]
    refine h2.symm.trans ?_
    apply List.map_congr_left
    intro k _
    simp only [Function.comp]
    rw [toC_sum, List.map_map, List.map_map]
    congr 1
    apply List.map_congr_left
    intro z _
    simp [toC_pow, toC_ofC]
  refine ⟨us.map ofC, by simpa using h1, ?_, ?_⟩
  · conv_lhs => rw [hms]
    exact coefficientsFromMoments_eq _
  · intro k hk
    have := congrArg (fun l : List ℂ => l[k]?) h2
    simp only [List.getElem?_map] at this
    rw [List.getElem?_range hk, List.getElem?_eq_getElem hk] at this
    simp only [Option.map_some, Option.some.injEq] at this
    have e : (us.map ofC).map toC = us := by
      rw [List.map_map]
      have : toC ∘ ofC = id := funext toC_ofC
      rw [this, List.map_id]
    rw [← this, e]


theorem forall2_left {α β : Type} {R : α → β → Prop} {l : List α} {l' : List β} (h : List.Forall₂ R l l') : ∀ a ∈ l, ∃ b ∈ l', R a b := by
  induction h with
  | nil => simp
  | cons h _ ih =>
    intro a ha
    rcases List.mem_cons.1 ha with rfl | ha
    · exact ⟨_, by simp, h⟩
    · obtain ⟨b, h1, h2⟩ := ih a ha
      exact ⟨b, by simp [h1], h2⟩

theorem forall2_right {α β : Type} {R : α → β → Prop} {l : List α} {l' : List β} (h : List.Forall₂ R l l') : ∀ b ∈ l', ∃ a ∈ l, R a b := by
  induction h with
  | nil => simp
  | cons h _ ih =>
    intro a ha
    rcases List.mem_cons.1 ha with rfl | ha
    · exact ⟨_, by simp, h⟩
    · obtain ⟨b, h1, h2⟩ := ih a ha
      exact ⟨b, by simp [h1], h2⟩

theorem near_of_norm {a b : Cx ℝ} {e1 e2 : ℝ} (h1 : ‖toC a - toC b‖ < e1) (h2 : ‖toC a - toC b‖ < e2) : Near (e1, e2) a b :=
  ⟨lt_of_le_of_lt (Complex.abs_re_le_norm (toC a - toC b)) h1, lt_of_le_of_lt (Complex.abs_im_le_norm (toC a - toC b)) h2⟩

/-- what a search with associated polynomials adds for a rectangle -/
structure PolyAdds (p : ℤ × ℤ) (zeros : List (Cx ℝ)) (δ : ℝ) (c : Cell ℝ) (A : List (Root ℝ)) : Prop where
  found : ∀ z ∈ zeros, Cell.HasHalfOpen c z → ∃ r ∈ A, 1 ≤ r.2 ∧ Near (10 ^ (-p.1) + δ, 10 ^ (-p.2) + δ) z r.1
  just : ∀ r ∈ A, 1 ≤ r.2 ∧ ∃ z ∈ zeros, Cell.HasHalfOpen c z ∧ Near (max (10 ^ (-p.1) / 2) δ, max (10 ^ (-p.2) / 2) δ) z r.1
  sum : (A.map Prod.snd).sum = Cell.count c zeros

theorem PolyAdds.append {p : ℤ × ℤ} {zeros : List (Cx ℝ)} {δ : ℝ} (c : Cell ℝ) (phi1 phi2 : ℝ) (A1 A2 : List (Root ℝ)) (h1 : PolyAdds p zeros δ (half1 p c phi1) A1)
    (h2 : PolyAdds p zeros δ (half2 p c phi2) A2) : PolyAdds p zeros δ c (A1 ++ A2) := by
  refine ⟨fun z hz hc => ?_, fun r hr => ?_, ?_⟩
  · rcases (halfOpen_halves p c phi1 phi2 z).1.1 hc with h | h
    · obtain ⟨r, a, b⟩ := h1.found z hz h
      exact ⟨r, by simp [a], b⟩
    · obtain ⟨r, a, b⟩ := h2.found z hz h
      exact ⟨r, by simp [a], b⟩
  · rcases List.mem_append.1 hr with h | h
    · obtain ⟨a, z, hz, hc, b⟩ := h1.just r h
      exact ⟨a, z, hz, (halfOpen_halves p c phi1 phi2 z).1.2 (.inl hc), b⟩
    · obtain ⟨a, z, hz, hc, b⟩ := h2.just r h
      exact ⟨a, z, hz, (halfOpen_halves p c phi1 phi2 z).1.2 (.inr hc), b⟩
  · rw [List.map_append, List.sum_append, h1.sum, h2.sum, count_halves p c phi1 phi2]
    push_cast
    rfl

/-- the results of the polynomial block -/
theorem poly_results {p : ℤ × ℤ} {zeros : List (Cx ℝ)} {c : Cell ℝ} {polyRoots : List (Cx ℝ) → List (Cx ℝ)} {R η δ ρ : ℝ} (hR : 0 < R) (h0 : 0 ≤ η) (h1 : η ≤ 1 / 200)
    (hδ : 0 < δ) (hn : Cell.count c zeros ≤ 3) (hz : ∀ z, Cell.HasHalfOpen c z → ‖toC z‖ ≤ R)
    (hsm : 44 * η * R ^ Cell.count c zeros < δ ^ Cell.count c zeros) (hsolve : SolvesWithin polyRoots (R + δ) ρ) {ms : List (Cx ℝ)}
    (hms : List.Forall₂ (fun k m => ‖toC m - powerSum (k + 1) zeros c.re c.im‖ ≤ 2 * η * R ^ (k + 1)) (List.range (Cell.count c zeros)) ms) :
    PolyAdds p zeros (δ + ρ) c (polyResults polyRoots p ms) := by
  have hlen : ms.length = Cell.count c zeros := by rw [← hms.length_eq, List.length_range]
  obtain ⟨ws, w1, w2, w3⟩ := moments_zeros ms (by omega)
  have hins : ((Cell.inside c zeros).map toC).length = Cell.count c zeros := by rw [List.length_map]; rfl
  obtain ⟨c1, c2⟩ := power_sums_close (zs := (Cell.inside c zeros).map toC) (ws := ws.map toC) (R := R) (η := 2 * η) (δ := δ)
    (by rw [hins, List.length_map, w1, hlen]) (by rw [hins]; exact hn) hR (by linarith) (by linarith) hδ
    (by
      intro z hz'
      obtain ⟨z, hz1, rfl⟩ := List.mem_map.1 hz'
      exact hz z (by simpa using (List.mem_filter.1 hz1).2))
    (by
      intro k hk1 hk2
      rw [hins] at hk2
      obtain ⟨k, rfl⟩ : ∃ j, k = j + 1 := ⟨k - 1, by omega⟩
      rw [w3 k (by omega)]
      have := List.forall₂_iff_get.1 hms |>.2 k (by rw [List.length_range]; omega) (by omega)
      simp only [List.get_eq_getElem, List.getElem_range] at this
      have e : (((Cell.inside c zeros).map toC).map fun z => z ^ (k + 1)).sum = powerSum (k + 1) zeros c.re c.im := by
        rw [List.map_map]; rfl
      rw [e]
      exact this)
    (by rw [hins]; linarith)
  have hwn : ∀ w ∈ ws, ‖point w‖ ≤ R + δ := by
    intro w hw
    obtain ⟨z, hz1, hz2⟩ := c2 (toC w) (List.mem_map.2 ⟨w, hw, rfl⟩)
    obtain ⟨z, hz3, rfl⟩ := List.mem_map.1 hz1
    have := hz z (by simpa using (List.mem_filter.1 hz3).2)
    have h3 := norm_sub_norm_le (toC w) (toC z)
    have : ‖toC w‖ ≤ R + δ := by linarith
    exact this
  obtain ⟨l, l1, l2⟩ := hsolve ws (by omega) hwn
  rw [← w2] at l2
  have hroot : ∀ x ∈ polyRoots (coefficientsFromMoments ms), ∃ z ∈ zeros, Cell.HasHalfOpen c z ∧ ‖toC z - toC x‖ < δ + ρ := by
    intro x hx
    obtain ⟨w, hw, hxw⟩ := forall2_left l2 x hx
    obtain ⟨z, hz1, hz2⟩ := c2 (toC w) (List.mem_map.2 ⟨w, l1.mem_iff.1 hw, rfl⟩)
    obtain ⟨z, hz4, rfl⟩ := List.mem_map.1 hz1
    obtain ⟨hz1, hz3⟩ := List.mem_filter.1 hz4
    refine ⟨z, hz1, by simpa using hz3, ?_⟩
    have hxw : ‖toC x - toC w‖ ≤ ρ := hxw
    have e : toC z - toC x = -(toC w - toC z) - (toC x - toC w) := by ring
    rw [e]
    refine lt_of_le_of_lt (norm_sub_le _ _) ?_
    rw [norm_neg]
    linarith
  have hfind : ∀ z ∈ zeros, Cell.HasHalfOpen c z → ∃ x ∈ polyRoots (coefficientsFromMoments ms), ‖toC z - toC x‖ < δ + ρ := by
    intro z hz1 hz2
    obtain ⟨w, hw, hzw⟩ := c1 (toC z) (List.mem_map.2 ⟨z, List.mem_filter.2 ⟨hz1, by simpa using hz2⟩, rfl⟩)
    obtain ⟨w, hw', rfl⟩ := List.mem_map.1 hw
    obtain ⟨x, hx, hxw⟩ := forall2_right l2 w (l1.mem_iff.2 hw')
    refine ⟨x, hx, ?_⟩
    have hxw : ‖toC x - toC w‖ ≤ ρ := hxw
    have e : toC z - toC x = (toC z - toC w) - (toC x - toC w) := by ring
    rw [e]
    refine lt_of_le_of_lt (norm_sub_le _ _) ?_
    linarith
  have hrl : (polyRoots (coefficientsFromMoments ms)).length = Cell.count c zeros := by
    rw [l2.length_eq, l1.length_eq, w1, hlen]
  obtain ⟨s1, s2, ⟨new, s3, s4⟩, _, s5⟩ := clusterLoop_spec (eps := (eps10 ℝ p.1, eps10 ℝ p.2)) (eps10_pos _) (eps10_pos _) (polyRoots (coefficientsFromMoments ms)) []
    (by simp) (by simp)
  refine ⟨fun z hz1 hz2 => ?_, fun r hr => ⟨s1 r hr, ?_⟩, ?_⟩
  · obtain ⟨x, hx, hxz⟩ := hfind z hz1 hz2
    obtain ⟨r, hr, hn⟩ := s5 x hx
    refine ⟨r, hr, s1 r hr, ?_⟩
    obtain ⟨n1, n2⟩ := near_of_norm (a := z) (b := x) hxz hxz
    obtain ⟨m1, m2⟩ := hn
    have e10 : ∀ q : ℤ, eps10 ℝ q = 10 ^ (-q) := fun q => rfl
    simp only [e10] at m1 m2
    dsimp only at n1 n2
    constructor
    · have := abs_sub_le z.re x.re r.1.re
      show |z.re - r.1.re| < 10 ^ (-p.1) + (δ + ρ)
      linarith
    · have := abs_sub_le z.im x.im r.1.im
      show |z.im - r.1.im| < 10 ^ (-p.2) + (δ + ρ)
      linarith
  · have hm : r.1 ∈ polyRoots (coefficientsFromMoments ms) := by
      apply s4.subset
      have : r.1 ∈ (clusterLoop (eps10 ℝ p.1, eps10 ℝ p.2) (polyRoots (coefficientsFromMoments ms)) []).map Prod.fst := List.mem_map.2 ⟨r, hr, rfl⟩
      rw [s3] at this
      simpa using this
    obtain ⟨z, z1, z2, z3⟩ := hroot _ hm
    exact ⟨z, z1, z2, near_of_norm (lt_of_lt_of_le z3 (le_max_right _ _)) (lt_of_lt_of_le z3 (le_max_right _ _))⟩
  · show ((clusterLoop (eps10 ℝ p.1, eps10 ℝ p.2) (polyRoots (coefficientsFromMoments ms)) []).map Prod.snd).sum = _
    rw [s2, hrl]
    simp

section
variable {σ : Type} {ctx : RCtx ℝ} {zeros : List (Cx ℝ)} {T : Cx ℝ → Cx ℝ → ℝ} {P : ℤ → Cx ℝ → Cx ℝ → Cx ℝ → Prop}

/-- the step of the simple algorithm at a final rectangle -/
theorem simple_leaf {δ : ℝ} (hδ : 0 ≤ δ) {c : Cell ℝ} (hs : Cell.Stop Real.pi ctx.precision c)
    (hphi : |c.phi - 2 * Real.pi * (Cell.count c zeros : ℝ)| < 2 / 10 * (2 * Real.pi)) {w : World σ ℝ} (hw : CacheOk T P w) :
    ∃ w' A, simpleAct Real.pi ctx c w = (.ok (), w') ∧ CacheOk T P w' ∧ w'.log = w.log ∧ w'.added = w.added ++ A ∧ PolyAdds ctx.precision zeros δ c A := by
  obtain ⟨f1, _, f2⟩ := Finishes.simpleAct Real.pi ctx c w hw.fuse
  rcases he : simpleAct Real.pi ctx c w with ⟨e, w'⟩
  rw [he] at f1 f2
  dsimp only at f1 f2
  subst f2
  obtain ⟨q1, q2, q3, q4⟩ := quiet_simple Real.pi ctx c w w' he
  obtain ⟨_, _, A, a1, a2⟩ := simple_leafEffect Real.pi ctx c w w' he
  obtain ⟨t1, t2⟩ := approx_cell Real.pi_pos hphi
  refine ⟨w', A, rfl, ⟨q1 ▸ hw.wf, f1, fun a b v hv => hw.val a b v (q1 ▸ hv), fun k hk a b v hv => hw.other k hk a b v (q1 ▸ hv)⟩, q4, a1, ?_⟩
  have e1 : (0 : ℝ) < 10 ^ (-ctx.precision.1) := by positivity
  have e2 : (0 : ℝ) < 10 ^ (-ctx.precision.2) := by positivity
  by_cases ht : Cell.Turns Real.pi c
  · rw [if_pos ht] at a2
    have hsm : Cell.Small ctx.precision c := hs.resolve_left (not_not.2 ht)
    have hnear : ∀ z, Cell.HasHalfOpen c z → Near (10 ^ (-ctx.precision.1) / 2, 10 ^ (-ctx.precision.2) / 2) z (Cell.centre c) := by
      intro z hz
      obtain ⟨s1, s2⟩ := hsm
      obtain ⟨z1, z2, z3, z4⟩ := hz
      unfold Near Cell.centre
      dsimp only
      rw [abs_lt, abs_lt]
      refine ⟨⟨?_, ?_⟩, ?_, ?_⟩ <;> linarith
    have ho : (candidate Real.pi c).2 = (Cell.count c zeros : ℤ) := t2
    have hc1 : 1 ≤ Cell.count c zeros := t1.1 ht
    rw [a2]
    refine ⟨fun z _ hz => ⟨candidate Real.pi c, by simp, by rw [ho]; exact_mod_cast hc1, ?_⟩, fun r hr => ?_, by simp [ho]⟩
    · obtain ⟨n1, n2⟩ := hnear z hz
      dsimp only at n1 n2
      exact ⟨lt_of_lt_of_le n1 (by dsimp only; linarith), lt_of_lt_of_le n2 (by dsimp only; linarith)⟩
    · simp only [List.mem_singleton] at hr
      subst hr
      refine ⟨by rw [ho]; exact_mod_cast hc1, ?_⟩
      obtain ⟨z, hz⟩ := List.exists_mem_of_length_pos (l := zeros.filter fun z => decide (Cell.HasHalfOpen c z)) hc1
      obtain ⟨hz1, hz2⟩ := List.mem_filter.1 hz
      have hz2 : Cell.HasHalfOpen c z := by simpa using hz2
      obtain ⟨n1, n2⟩ := hnear z hz2
      exact ⟨z, hz1, hz2, lt_of_lt_of_le n1 (le_max_left _ _), lt_of_lt_of_le n2 (le_max_left _ _)⟩
  · rw [if_neg ht] at a2
    have hc0 : Cell.count c zeros = 0 := by
      by_contra h
      exact ht (t1.2 (by omega))
    rw [a2]
    refine ⟨fun z hz hc => ?_, by simp, by simp [hc0]⟩
    have : z ∈ zeros.filter fun z => decide (Cell.HasHalfOpen c z) := List.mem_filter.2 ⟨hz, by simpa using hc⟩
    rw [List.length_eq_zero_iff.1 hc0] at this
    simp at this

/-- the step at a final rectangle -/
theorem poly_leaf {est : LineEst σ ℝ} {G : ℂ → ℂ} {polyRoots : List (Cx ℝ) → List (Cx ℝ)} {R η δ ρ : ℝ} (hR : 0 < R) (h0 : 0 ≤ η) (h1 : η ≤ 1 / 200)
    (hδ : 0 < δ) (hρ : 0 ≤ ρ) (hsolve : SolvesWithin polyRoots (R + δ) ρ) {c : Cell ℝ} (hz : ∀ z, Cell.HasHalfOpen c z → ‖toC z‖ ≤ R)
    (hsm : ∀ n, 1 ≤ n → n ≤ 3 → n ≤ zeros.length → 44 * η * R ^ n < δ ^ n)
    (hes : Cell.count c zeros ≤ 3 → ∀ k, k < Cell.count c zeros → ∀ e ∈ edges c.re c.im, momX (k + 1) zeros G e.2 e.1 = - momX (k + 1) zeros G e.1 e.2 ∧
      ∀ w : World σ ℝ, ∃ v, est ((k + 1 : ℕ) : ℤ) e.1 e.2 ctx w = (.ok v, w) ∧ ‖toC v - momX (k + 1) zeros G e.1 e.2‖ ≤ 2 * (η * R ^ (k + 1)))
    (har : ∀ k, ((edges c.re c.im).map fun e => momX k zeros G e.1 e.2).sum = 2 * Real.pi * powerSum k zeros c.re c.im)
    (hs : PolyStop Real.pi ctx.precision c)
    (hphi : |c.phi - 2 * Real.pi * (Cell.count c zeros : ℝ)| < 2 / 10 * (2 * Real.pi)) {w : World σ ℝ}
    (hw : CacheOk T (MomentsOk zeros G fun k => 2 * (η * R ^ k)) w) :
    ∃ w' A, polyAct polyRoots est Real.pi ctx c w = (.ok (), w') ∧ CacheOk T (MomentsOk zeros G fun k => 2 * (η * R ^ k)) w' ∧ w'.log = w.log ∧
      w'.added = w.added ++ A ∧ PolyAdds ctx.precision zeros (δ + ρ) c A := by
  unfold polyAct
  by_cases hstop : Cell.Stop Real.pi ctx.precision c
  · rw [if_pos hstop]
    exact simple_leaf (by linarith) hstop hphi hw
  · rw [if_neg hstop]
    have hfew : Cell.FewTurns Real.pi c := hs.resolve_left hstop
    obtain ⟨t1, t2⟩ := approx_cell Real.pi_pos hphi
    have hn3 := poly_few hfew hphi
    have hn1 : 1 ≤ Cell.count c zeros := t1.1 hfew.1.le
    obtain ⟨ms, w1, e1, e2, e3, e4, e5⟩ := moments_quad (E := fun k => 2 * (η * R ^ k)) (List.range (Cell.count c zeros))
      (fun k hk => hes hn3 k (List.mem_range.1 hk)) har hw
    have hadd := poly_results (p := ctx.precision) hR h0 h1 hδ hn3 hz (hsm _ hn1 hn3 (List.length_filter_le _ _)) hsolve (ms := ms) (by
      refine e5.imp fun k m h => ?_
      rw [mul_assoc]
      exact h)
    have hnat : (roundHalfEven (c.phi / (2 * Real.pi))).toNat = Cell.count c zeros := by rw [t2]; rfl
    unfold polyBlock
    rw [hnat, Py.bind_run, e1]
    dsimp only
    rw [polyResults_zip, Py.bind_run, World.addRoots_none _ e2.fuse]
    dsimp only
    have hadv : ∀ w2 : World σ ℝ, w2.fuse = none → ∃ w3, World.advance ctx (Cell.area c) w2 = (.ok (), w3) ∧ w3.cache = w2.cache ∧ w3.fuse = none ∧ w3.log = w2.log ∧
        w3.added = w2.added := by
      intro w2 hw2
      unfold World.advance
      split
      · rw [Py.bind_run, World.tick_none hw2]
        exact ⟨_, rfl, rfl, hw2, rfl, rfl⟩
      · exact ⟨_, rfl, rfl, hw2, rfl, rfl⟩
    obtain ⟨w3, a1, a2, a3, a4, a5⟩ := hadv { w1 with added := w1.added ++ polyResults polyRoots ctx.precision ms } e2.fuse
    refine ⟨w3, _, a1, ⟨by rw [a2]; exact e2.wf, a3, fun a b v hv => e2.val a b v (a2 ▸ hv), fun k hk a b v hv => e2.other k hk a b v (a2 ▸ hv)⟩, a4.trans e3, ?_, hadd⟩
    rw [a5, ← e4]
end

end PyZeal
