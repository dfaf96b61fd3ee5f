import Verif.Spec.Sampling
import Verif.Proof.Estimator
import Mathlib.Combinatorics.Pigeonhole
import Mathlib.Data.Finset.Prod

/-! # Lemmas about `genFuncArr` -/

set_option linter.unusedSectionVars false

namespace PyZeal
open Spec
variable {K : Type} [Field K] [DecidableEq K] {σ : Type}

theorem World.addRoot_none {w : World σ K} (h : w.fuse = none) (r : Root K) :
    World.addRoot r w = (.ok (), { w with added := w.added ++ [r] }) := by
  unfold World.addRoot
  rw [Py.bind_run, World.tick_none h]; rfl

theorem World.addRoots_none (rs : List (Root K)) {w : World σ K} (h : w.fuse = none) :
    World.addRoots rs w = (.ok (), { w with added := w.added ++ rs }) := by
  induction rs generalizing w with
  | nil => simp [World.addRoots]
  | cons r rs ih =>
    simp only [World.addRoots]
    rw [Py.bind_run, World.addRoot_none h]
    dsimp only
    rw [ih (by exact h)]
    simp

theorem shifted_zero (base : List (Cx K)) (s : Cx K) : shifted base s 0 = base := by
  unfold shifted
  conv_rhs => rw [← List.map_id base]
  apply List.map_congr_left
  intro z _; ext <;> simp

theorem shifted_succ (base : List (Cx K)) (s : Cx K) (j : ℕ) :
    shifted (base.map (· + s)) s j = shifted base s (j + 1) := by
  unfold shifted
  rw [List.map_map]
  apply List.map_congr_left
  intro z _; ext <;> simp <;> ring

theorem genFuncLoop_ok (f : Cx K → Cx K) (s : Cx K) (n : ℕ) (base : List (Cx K)) (w : World σ K)
    (zs fs : List (Cx K)) (h : (genFuncLoop f s n base w).1 = .ok (zs, fs)) :
    fs = zs.map f ∧ ∀ v ∈ fs, v ≠ 0 := by
  induction n generalizing base w with
  | zero => simp [genFuncLoop] at h
  | succ n ih =>
    simp only [genFuncLoop] at h
    split at h
    · rename_i he
      simp only [Py.pure_run, Except.ok.injEq, Prod.mk.injEq] at h
      obtain ⟨rfl, rfl⟩ := h
      refine ⟨rfl, ?_⟩
      intro v hv
      obtain ⟨z, hz, rfl⟩ := List.mem_map.1 hv
      intro e
      rw [List.isEmpty_iff, List.filter_eq_nil_iff] at he
      exact he z hz (by simpa using e)
    · rw [Py.bind_run] at h
      rcases hr : World.addRoots ((base.filter fun z => decide (f z = 0)).map fun z => (z, (0:ℤ))) w
        with ⟨_ | _, w1⟩
      · rw [hr] at h; simp at h
      · rw [hr] at h; exact ih _ _ h

theorem genFuncLoop_spec (f : Cx K → Cx K) (s : Cx K) (n : ℕ) (base : List (Cx K)) (w : World σ K)
    (hw : w.fuse = none) :
    (∃ j < n, (∀ i < j, zeroHits f (shifted base s i) ≠ []) ∧
      (∀ z ∈ shifted base s j, f z ≠ 0) ∧
      genFuncLoop f s n base w = (.ok (shifted base s j, (shifted base s j).map f),
        { w with added := w.added ++
          ((List.range j).map fun i => zeroHits f (shifted base s i)).flatten })) ∨
    ((∀ j < n, zeroHits f (shifted base s j) ≠ []) ∧
      (genFuncLoop f s n base w).1 = .error .outOfFuel) := by
  induction n generalizing base w with
  | zero => right; simp [genFuncLoop]
  | succ n ih =>
    simp only [genFuncLoop]
    by_cases he : (base.filter fun z => decide (f z = 0)).isEmpty = true
    · rw [if_pos he]
      left
      refine ⟨0, Nat.succ_pos n, by simp, ?_, ?_⟩
      · rw [shifted_zero]
        rw [List.isEmpty_iff, List.filter_eq_nil_iff] at he
        intro z hz e
        exact he z hz (by simpa using e)
      · rw [shifted_zero]; simp
    · rw [if_neg he]
      rw [Py.bind_run, World.addRoots_none _ hw]
      dsimp only
      have h0 : zeroHits f (shifted base s 0) ≠ [] := by
        rw [shifted_zero]
        unfold zeroHits
        intro e
        rw [List.map_eq_nil_iff] at e
        exact he (by rw [e]; rfl)
      rcases ih (base.map (· + s))
        { w with added := w.added ++ (base.filter fun z => decide (f z = 0)).map fun z => (z, (0:ℤ)) }
        hw with ⟨j, hj, h1, h2, h3⟩ | ⟨h1, h2⟩
      · left
        refine ⟨j + 1, by omega, ?_, ?_, ?_⟩
        · intro i hi
          rcases i with _ | i
          · exact h0
          · rw [← shifted_succ]; exact h1 i (by omega)
        · rw [← shifted_succ]; exact h2
        · rw [h3]
          simp only [shifted_succ]
          rw [List.range_succ_eq_map, List.map_cons, List.flatten_cons, List.map_map, shifted_zero]
          simp only [List.append_assoc]
          rfl
      · right
        refine ⟨?_, h2⟩
        intro j hj
        rcases j with _ | j
        · exact h0
        · rw [← shifted_succ]; exact h1 j (by omega)

/-- with finitely many zeros some shift is free of zeros -/
theorem exists_free_shift [CharZero K] (f : Cx K → Cx K) (s : Cx K) (hs : s ≠ 0)
    (base : List (Cx K)) (Z : List (Cx K)) (hZ : ∀ z, f z = 0 → z ∈ Z) :
    ∃ j < Z.length * base.length + 1, zeroHits f (shifted base s j) = [] := by
  by_contra hcon
  push Not at hcon
  have hex : ∀ j ∈ Finset.range (Z.length * base.length + 1),
      ∃ p : Cx K × ℕ, p ∈ (Z.toFinset ×ˢ Finset.range base.length) ∧
        ∃ h : p.2 < base.length, base[p.2] + Cx.smul (j : K) s = p.1 := by
    intro j hj
    have := hcon j (Finset.mem_range.1 hj)
    unfold zeroHits at this
    rw [Ne, List.map_eq_nil_iff, List.filter_eq_nil_iff] at this
    push Not at this
    obtain ⟨z, hz, hfz⟩ := this
    unfold shifted at hz
    obtain ⟨b, hb, rfl⟩ := List.mem_map.1 hz
    obtain ⟨i, hi, rfl⟩ := List.getElem_of_mem hb
    refine ⟨(base[i] + Cx.smul (j : K) s, i), ?_, hi, rfl⟩
    rw [Finset.mem_product]
    exact ⟨List.mem_toFinset.2 (hZ _ (by simpa using hfz)), Finset.mem_range.2 hi⟩
  choose! g hg using hex
  have hcard : (Z.toFinset ×ˢ Finset.range base.length).card <
      (Finset.range (Z.length * base.length + 1)).card := by
    rw [Finset.card_product, Finset.card_range, Finset.card_range]
    exact Nat.lt_succ_of_le (Nat.mul_le_mul_right _ (List.toFinset_card_le Z))
  obtain ⟨a, ha, b, hb, hne, he⟩ :=
    Finset.exists_ne_map_eq_of_card_lt_of_maps_to hcard (fun j hj => (hg j hj).1)
  obtain ⟨_, h1, e1⟩ := hg a ha
  obtain ⟨_, h2, e2⟩ := hg b hb
  have e3 : base[(g a).2] + Cx.smul (a : K) s = base[(g a).2] + Cx.smul (b : K) s := by
    rw [e1]
    have : base[(g a).2] = base[(g b).2] := by simp only [he]
    rw [this, e2, he]
  have e4 : Cx.smul (a : K) s = Cx.smul (b : K) s := add_left_cancel e3
  have hab : (a : K) = b := by
    by_contra hab
    apply hs
    have r := congrArg Cx.re e4
    have i := congrArg Cx.im e4
    simp only [Cx.smul_re, Cx.smul_im] at r i
    have hsub : ((a : K) - b) ≠ 0 := sub_ne_zero.2 hab
    ext
    · have : ((a : K) - b) * s.re = 0 := by rw [sub_mul, r, sub_self]
      exact (mul_eq_zero.1 this).resolve_left hsub
    · have : ((a : K) - b) * s.im = 0 := by rw [sub_mul, i, sub_self]
      exact (mul_eq_zero.1 this).resolve_left hsub
  exact hne (by exact_mod_cast hab)

theorem lineShift_ne_zero {K : Type} [Field K] [LinearOrder K] [IsStrictOrderedRing K]
    (a b : Cx K) (p : ℤ × ℤ) : lineShift a b p ≠ 0 := by
  have h1 := eps10_pos (K := K) p.1
  have h2 := eps10_pos (K := K) p.2
  unfold lineShift
  split
  · intro e
    have := congrArg Cx.im e
    simp at this
    exact h2.ne' this
  · intro e
    have := congrArg Cx.re e
    simp at this
    exact h1.ne' this

@[simp] theorem length_linspace (a b : Cx K) (n : ℕ) : (linspace a b n).length = n := by
  simp [linspace]

end PyZeal
