import Verif.Proof.Exact

/-! # Searches with approximately correct phases -/

set_option linter.unusedSectionVars false

namespace PyZeal
open Spec
variable {K : Type} {σ : Type} [Field K] [LinearOrder K] [IsStrictOrderedRing K] [FloorRing K]

/-- a phase within 0.2 turns of the truth leads to the right decisions -/
theorem approx_cell {pi : K} (hpi : 0 < pi) {Z : List (Cx K)} {c : Cell K}
    (h : |c.phi - 2 * pi * (Cell.count c Z : K)| < 2 / 10 * (2 * pi)) :
    (Cell.Turns pi c ↔ 1 ≤ Cell.count c Z) ∧ roundHalfEven (c.phi / (2 * pi)) = (Cell.count c Z : ℤ) := by
  rw [abs_lt] at h
  constructor
  · unfold Cell.Turns
    constructor
    · intro ht
      by_contra hn
      have : Cell.count c Z = 0 := by omega
      rw [this] at h
      simp at h
      linarith [h.2]
    · intro hc
      have : (1 : K) ≤ (Cell.count c Z : K) := by exact_mod_cast hc
      nlinarith [h.1]
  · obtain ⟨g1, g2⟩ := roundHalfEven_spec (c.phi / (2 * pi))
    have hp : (0 : K) < 2 * pi := by positivity
    have hd : c.phi / (2 * pi) - (Cell.count c Z : K) = (c.phi - 2 * pi * (Cell.count c Z : K)) / (2 * pi) := by field_simp
    have h1 : |c.phi / (2 * pi) - (Cell.count c Z : K)| < 2 / 10 := by
      rw [hd, abs_div, abs_of_pos hp, div_lt_iff₀ hp, abs_lt]
      exact ⟨by linarith [h.1], h.2⟩
    refine nearest_int_unique g1 g2 ?_ ?_
    · push_cast; linarith
    · push_cast
      intro e
      linarith

theorem sum_filter_nonzero (A : List (Root K)) :
    ((A.filter fun r => decide (r.2 ≠ 0)).map Prod.snd).sum = (A.map Prod.snd).sum := by
  induction A with
  | nil => rfl
  | cons a A ih =>
    by_cases h : a.2 = 0
    · rw [List.filter_cons_of_neg (by simpa using h), ih]; simp [h]
    · rw [List.filter_cons_of_pos (by simpa using h), List.map_cons, List.sum_cons, ih]; simp

/-- the conclusions of a search with phases that are accurate to 0.2 turns -/
theorem approx_run {est : LineEst σ K} {pi : K} (hpi : 0 < pi) {limit : ℕ} {ctx : RCtx K}
    (hest : BoundaryHits est ctx) {w w' : World σ K} (h : simpleArgument est pi limit ctx w = (.ok (), w'))
    {zeros : List (Cx K)} (hex : ∀ c ∈ newCells w w', |c.phi - 2 * pi * (Cell.count c zeros : K)| < 2 / 10 * (2 * pi)) :
    (newRoots w w').filter (fun r => decide (r.2 ≠ 0)) =
      ((newCells w w').filter fun c => decide (Cell.Stop pi ctx.precision c ∧ 1 ≤ Cell.count c zeros)).map
        (fun c => (Cell.centre c, (Cell.count c zeros : ℤ))) ∧
    (∀ z ∈ zeros, Cell.HasHalfOpen ⟨ctx.reRan, ctx.imRan, 0⟩ z → ∃ r ∈ newRoots w w', 1 ≤ r.2 ∧
      Near (10 ^ (-ctx.precision.1) / 2, 10 ^ (-ctx.precision.2) / 2) z r.1) ∧
    (∀ r ∈ newRoots w w', r.2 ≠ 0 → ∃ z ∈ zeros,
      Near (10 ^ (-ctx.precision.1) / 2, 10 ^ (-ctx.precision.2) / 2) z r.1) ∧
    ((newRoots w w').map Prod.snd).sum = Cell.count ⟨ctx.reRan, ctx.imRan, 0⟩ zeros ∧
    ∀ m n, Cell.Below ctx.precision m n ⟨ctx.reRan, ctx.imRan, 0⟩ →
      (newCells w w').length ≤ 1 + 2 * Cell.count ⟨ctx.reRan, ctx.imRan, 0⟩ zeros * (m + n) := by
  obtain ⟨phi, t, A, h1, h2, _, h4, h5, _⟩ := simple_run hpi hest h
  have hcells : newCells w w' = ⟨ctx.reRan, ctx.imRan, phi⟩ :: t.log ctx.precision ⟨ctx.reRan, ctx.imRan, phi⟩ := by
    unfold newCells; rw [h2]; simp
  have hroots : newRoots w w' = A := by unfold newRoots; rw [h4]; simp
  have hleaf : ∀ l ∈ t.leaves ctx.precision ⟨ctx.reRan, ctx.imRan, phi⟩, l ∈ newCells w w' := fun l hl =>
    hcells ▸ t.leaves_subset_log _ _ l hl
  have hcand : A.filter (fun r => decide (r.2 ≠ 0)) = ((t.leaves ctx.precision ⟨ctx.reRan, ctx.imRan, phi⟩).filter
      fun c => decide (1 ≤ Cell.count c zeros)).map fun c => (Cell.centre c, (Cell.count c zeros : ℤ)) := by
    rw [h5]
    have : (t.leaves ctx.precision ⟨ctx.reRan, ctx.imRan, phi⟩).filter (fun c => decide (Cell.Turns pi c)) =
        (t.leaves ctx.precision ⟨ctx.reRan, ctx.imRan, phi⟩).filter fun c => decide (1 ≤ Cell.count c zeros) := by
      apply List.filter_congr
      intro c hc
      simp only [(approx_cell hpi (hex c (hleaf c hc))).1]
    rw [this]
    apply List.map_congr_left
    intro c hc
    unfold candidate
    rw [(approx_cell hpi (hex c (hleaf c (List.mem_filter.1 hc).1))).2]
  have near : ∀ (l : Cell K) (z : Cx K), Cell.Small ctx.precision l → Cell.HasHalfOpen l z →
      Near ((10 : K) ^ (-ctx.precision.1) / 2, (10 : K) ^ (-ctx.precision.2) / 2) z (Cell.centre l) := by
    intro l z hs hz
    obtain ⟨s1, s2⟩ := hs
    obtain ⟨z1, z2, z3, z4⟩ := hz
    unfold Near Cell.centre
    dsimp only
    rw [abs_lt, abs_lt]
    refine ⟨⟨?_, ?_⟩, ?_, ?_⟩ <;> linarith
  have small : ∀ l ∈ t.leaves ctx.precision ⟨ctx.reRan, ctx.imRan, phi⟩, 1 ≤ Cell.count l zeros → Cell.Small ctx.precision l := by
    intro l hl hc
    rcases t.leaves_stop _ _ _ h1 l hl with h | h
    · exact absurd ((approx_cell hpi (hex l (hleaf l hl))).1.2 hc) h
    · exact h
  have hsum : ∀ L : List (Cell K), (((L.filter fun c => decide (1 ≤ Cell.count c zeros)).map fun c =>
      (Cell.centre c, (Cell.count c zeros : ℤ))).map Prod.snd).sum = ((L.map fun c => Cell.count c zeros).sum : ℕ) := by
    intro L
    induction L with
    | nil => rfl
    | cons c L ih =>
      by_cases hc : 1 ≤ Cell.count c zeros
      · rw [List.filter_cons_of_pos (by simpa using hc)]
        simp only [List.map_cons, List.sum_cons, ih]
        push_cast; rfl
      · rw [List.filter_cons_of_neg (by simpa using hc), ih]
        have : Cell.count c zeros = 0 := by omega
        simp [this]
  have hfin : (newCells w w').filter (fun c => decide (Cell.Stop pi ctx.precision c)) =
      t.leaves ctx.precision ⟨ctx.reRan, ctx.imRan, phi⟩ := by
    rw [hcells]; exact t.leaves_eq_filter (Cell.Stop pi ctx.precision) _ _ h1
  rw [hroots]
  refine ⟨?_, ?_, ?_, ?_, ?_⟩
  · rw [hcand, ← hfin, List.filter_filter]
    congr 2
    funext c
    simp [Bool.and_comm]
  · intro z hz hzr
    obtain ⟨l, hl, hlz⟩ := t.halfOpen_leaf ctx.precision ⟨ctx.reRan, ctx.imRan, phi⟩ z hzr
    have hcount : 1 ≤ Cell.count l zeros := by
      unfold Cell.count
      exact List.length_pos_of_mem (List.mem_filter.2 ⟨hz, by simpa using hlz⟩)
    have hmem : (Cell.centre l, (Cell.count l zeros : ℤ)) ∈ A.filter (fun r => decide (r.2 ≠ 0)) := by
      rw [hcand]
      exact List.mem_map.2 ⟨l, List.mem_filter.2 ⟨hl, by simpa using hcount⟩, rfl⟩
    exact ⟨_, (List.mem_filter.1 hmem).1, (show (1 : ℤ) ≤ (Cell.count l zeros : ℤ) by exact_mod_cast hcount), near l z (small l hl hcount) hlz⟩
  · intro r hr h0
    have : r ∈ A.filter (fun r => decide (r.2 ≠ 0)) := List.mem_filter.2 ⟨hr, by simpa using h0⟩
    rw [hcand] at this
    obtain ⟨l, hl, rfl⟩ := List.mem_map.1 this
    obtain ⟨hl, hc⟩ := List.mem_filter.1 hl
    have hc : 1 ≤ Cell.count l zeros := by simpa using hc
    obtain ⟨z, hz⟩ := List.exists_mem_of_length_pos (l := zeros.filter fun z => decide (Cell.HasHalfOpen l z)) hc
    obtain ⟨hz, hlz⟩ := List.mem_filter.1 hz
    exact ⟨z, hz, near l z (small l hl hc) (by simpa using hlz)⟩
  · rw [← sum_filter_nonzero, hcand, hsum, t.count_leaves]
    rfl
  · intro m n hb
    rw [hcells] at hex ⊢
    have := t.log_length pi ctx.precision zeros ⟨ctx.reRan, ctx.imRan, phi⟩ (Cell.Stop pi ctx.precision)
      stop_turns h1 (fun l hl => (approx_cell hpi (hex l hl)).1.1) m n hb.1 hb.2
    have e : Cell.count ⟨ctx.reRan, ctx.imRan, phi⟩ zeros = Cell.count ⟨ctx.reRan, ctx.imRan, 0⟩ zeros := rfl
    rw [e] at this
    simp only [List.length_cons]
    omega

end PyZeal
