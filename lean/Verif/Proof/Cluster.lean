import Verif.Model.Algorithms
import Verif.Spec.Search
import Mathlib.Algebra.BigOperators.Group.List.Basic

/-! # Clustering of polynomial roots -/

set_option linter.unusedSectionVars false

namespace PyZeal
open Spec
variable {K : Type} [Field K] [LinearOrder K] [IsStrictOrderedRing K] [FloorRing K]

theorem Spec.Near.refl {eps : K × K} (h1 : 0 < eps.1) (h2 : 0 < eps.2) (a : Cx K) : Near eps a a := by
  unfold Near; simp [h1, h2]

theorem bump_none {eps : K × K} {root : Cx K} {acc : List (Cx K × ℤ)} (h : bump eps root acc = none) :
    ∀ r ∈ acc, ¬ Near eps root r.1 := by
  induction acc with
  | nil => simp
  | cons a acc ih =>
    obtain ⟨old, n⟩ := a
    simp only [bump] at h
    by_cases hc : |root.re - old.re| < eps.1 ∧ |root.im - old.im| < eps.2
    · rw [if_pos hc] at h; simp at h
    · rw [if_neg hc] at h
      rcases hb : bump eps root acc with _ | x
      · intro r hr
        rcases List.mem_cons.1 hr with rfl | hr
        · exact hc
        · exact ih hb r hr
      · rw [hb] at h; simp at h

theorem bump_some {eps : K × K} {root : Cx K} {acc acc' : List (Cx K × ℤ)} (h : bump eps root acc = some acc') :
    acc'.map Prod.fst = acc.map Prod.fst ∧ (acc'.map Prod.snd).sum = (acc.map Prod.snd).sum + 1 ∧
    ((∀ r ∈ acc, 1 ≤ r.2) → ∀ r ∈ acc', 1 ≤ r.2) ∧ ∃ r ∈ acc, Near eps root r.1 := by
  induction acc generalizing acc' with
  | nil => simp [bump] at h
  | cons a acc ih =>
    obtain ⟨old, n⟩ := a
    simp only [bump] at h
    by_cases hc : |root.re - old.re| < eps.1 ∧ |root.im - old.im| < eps.2
    · rw [if_pos hc] at h
      simp only [Option.some.injEq] at h
      subst h
      refine ⟨by simp, by simp; ring, ?_, (old, n), by simp, hc⟩
      intro hp r hr
      rcases List.mem_cons.1 hr with rfl | hr
      · have := hp (old, n) (by simp); dsimp only at this ⊢; omega
      · exact hp r (by simp [hr])
    · rw [if_neg hc] at h
      rcases hb : bump eps root acc with _ | x
      · rw [hb] at h; simp at h
      · rw [hb] at h
        simp only [Option.some.injEq] at h
        subst h
        obtain ⟨h1, h2, h3, r, h4, h5⟩ := ih hb
        refine ⟨by simp [h1], by simp [h2]; ring, ?_, r, by simp [h4], h5⟩
        intro hp r hr
        rcases List.mem_cons.1 hr with rfl | hr
        · exact hp _ (by simp)
        · exact h3 (fun r hr => hp r (by simp [hr])) r hr

theorem clusterLoop_spec {eps : K × K} (h1 : 0 < eps.1) (h2 : 0 < eps.2) (roots : List (Cx K))
    (acc : List (Cx K × ℤ)) (hpos : ∀ r ∈ acc, 1 ≤ r.2)
    (hsep : (acc.map Prod.fst).Pairwise fun a b => ¬ Near eps b a) :
    let out := clusterLoop eps roots acc
    (∀ r ∈ out, 1 ≤ r.2) ∧ (out.map Prod.snd).sum = (acc.map Prod.snd).sum + roots.length ∧
    (∃ new, out.map Prod.fst = acc.map Prod.fst ++ new ∧ new.Sublist roots) ∧
    (out.map Prod.fst).Pairwise (fun a b => ¬ Near eps b a) ∧
    ∀ z ∈ roots, ∃ r ∈ out, Near eps z r.1 := by
  induction roots generalizing acc with
  | nil => exact ⟨hpos, by simp [clusterLoop], ⟨[], by simp [clusterLoop], by simp⟩, hsep, by simp⟩
  | cons root roots ih =>
    simp only [clusterLoop]
    rcases hb : bump eps root acc with _ | acc'
    · have hn := bump_none hb
      obtain ⟨i1, i2, ⟨new, i3, i4⟩, i5, i6⟩ := ih (acc ++ [(root, 1)])
        (by
          intro r hr
          rcases List.mem_append.1 hr with hr | hr
          · exact hpos r hr
          · simp at hr; rw [hr])
        (by
          rw [List.map_append, List.pairwise_append]
          refine ⟨hsep, by simp, ?_⟩
          intro a ha b hb'
          obtain ⟨r, hr, rfl⟩ := List.mem_map.1 ha
          simp only [List.map_cons, List.map_nil, List.mem_singleton] at hb'
          subst hb'
          exact hn r hr)
      refine ⟨i1, ?_, ⟨root :: new, ?_, ?_⟩, i5, ?_⟩
      · rw [i2]; simp; ring
      · rw [i3]; simp
      · exact i4.cons_cons _
      · intro z hz
        rcases List.mem_cons.1 hz with rfl | hz
        · have : z ∈ (clusterLoop eps roots (acc ++ [(z, 1)])).map Prod.fst := by rw [i3]; simp
          obtain ⟨r, hr, hr'⟩ := List.mem_map.1 this
          exact ⟨r, hr, by rw [hr']; exact Near.refl h1 h2 z⟩
        · exact i6 z hz
    · obtain ⟨b1, b2, b3, r0, b4, b5⟩ := bump_some hb
      obtain ⟨i1, i2, ⟨new, i3, i4⟩, i5, i6⟩ := ih acc' (b3 hpos) (by rw [b1]; exact hsep)
      refine ⟨i1, ?_, ⟨new, by rw [i3, b1], i4.cons _⟩, i5, ?_⟩
      · rw [i2, b2]; simp; ring
      · intro z hz
        rcases List.mem_cons.1 hz with rfl | hz
        · have : r0.1 ∈ (clusterLoop eps roots acc').map Prod.fst := by
            rw [i3, b1]
            exact List.mem_append_left _ (List.mem_map.2 ⟨r0, b4, rfl⟩)
          obtain ⟨r, hr, hr'⟩ := List.mem_map.1 this
          exact ⟨r, hr, by rw [hr']; exact b5⟩
        · exact i6 z hz

theorem zip_map_fst_snd {α β : Type} (l : List (α × β)) : (l.map Prod.fst).zip (l.map Prod.snd) = l := by
  induction l with
  | nil => rfl
  | cons a l ih => simp [ih]

end PyZeal
