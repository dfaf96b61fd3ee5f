import Verif.Model.FloatParallel
import Verif.Proof.Float
import Verif.Proof.FloatContainer
import Verif.Proof.Jobs
import Mathlib.Tactic.Positivity
import Mathlib.Tactic.GCongr

/-! # The jobs of a parallel search in floating-point arithmetic -/

set_option linter.unusedSectionVars false

namespace PyZeal
open Spec
variable {K : Type} {σ : Type} [Field K] [LinearOrder K] [IsStrictOrderedRing K] [FloorRing K]
  {A : FloatOps K} {u : K}

/-- the `i`-th of `n + 1` computed points -/
def nodeF (A : FloatOps K) (r : K × K) (n i : ℕ) : K :=
  if i = 0 then r.1 else if i = n then r.2
  else A.fl (A.fl ((i : K) * A.fl (A.fl (r.2 - r.1) / (n : K))) + r.1)

theorem linspaceRF_length (A : FloatOps K) (a b : K) (n : ℕ) : (linspaceRF A a b (n + 1)).length = n + 1 := by
  cases n with
  | zero => rfl
  | succ n => simp [linspaceRF]

theorem linspaceRF_getD (A : FloatOps K) (a b : K) (n i : ℕ) (hi : i ≤ n) :
    (linspaceRF A a b (n + 1)).getD i 0 = nodeF A (a, b) n i := by
  unfold nodeF
  cases n with
  | zero =>
    obtain rfl : i = 0 := by omega
    rfl
  | succ n =>
    cases i with
    | zero => rfl
    | succ i =>
      rw [if_neg (by omega)]
      show (((List.range n).map fun k => A.fl (A.fl (((k + 1 : ℕ) : K) * A.fl (A.fl (b - a) / ((n + 1 : ℕ) : K))) + a)) ++ [b]).getD i 0 = _
      by_cases e : i = n
      · subst e
        rw [if_pos rfl, List.getD_append_right _ _ _ _ (by simp)]
        simp
      · rw [if_neg (by omega), List.getD_append _ _ _ _ (by simp; omega), List.getD_eq_getElem?_getD, List.getElem?_map,
          List.getElem?_range (by omega)]
        rfl

/-- the job at position `(i, j)` -/
def jobAtF (A : FloatOps K) (f : Cx K → Cx K) (df : Option (Cx K → Cx K)) (n : ℕ) (re im : K × K) (p : ℤ × ℤ) (prog : Bool)
    (i j : ℕ) : RCtx K :=
  { f := f, df := df, precision := p, reRan := (nodeF A re n i, nodeF A re n (i + 1)),
    imRan := (nodeF A im n j, nodeF A im n (j + 1)), progress := prog }

theorem createRootJobsF_eq (A : FloatOps K) (f : Cx K → Cx K) (df : Option (Cx K → Cx K)) (n : ℕ) (re im : K × K) (p : ℤ × ℤ)
    (prog : Bool) : createRootJobsF A f df n re im p prog =
      (List.range n).flatMap fun i => (List.range n).map fun j => jobAtF A f df n re im p prog i j := by
  unfold createRootJobsF
  dsimp only
  rw [linspaceRF_length, linspaceRF_length, Nat.add_sub_cancel]
  apply List.flatMap_congr
  intro i hi
  apply List.map_congr_left
  intro j hj
  have hi := List.mem_range.1 hi
  have hj := List.mem_range.1 hj
  unfold jobAtF
  rw [linspaceRF_getD _ _ _ _ _ (by omega), linspaceRF_getD _ _ _ _ _ (by omega), linspaceRF_getD _ _ _ _ _ (by omega),
    linspaceRF_getD _ _ _ _ _ (by omega)]

theorem mem_jobsF {f : Cx K → Cx K} {df : Option (Cx K → Cx K)} {n : ℕ} {re im : K × K} {p : ℤ × ℤ}
    {prog : Bool} {ctx : RCtx K} : ctx ∈ createRootJobsF A f df n re im p prog ↔
      ∃ i < n, ∃ j < n, ctx = jobAtF A f df n re im p prog i j := by
  rw [createRootJobsF_eq]
  simp only [List.mem_flatMap, List.mem_range, List.mem_map]
  constructor
  · rintro ⟨i, hi, j, hj, rfl⟩; exact ⟨i, hi, j, hj, rfl⟩
  · rintro ⟨i, hi, j, hj, rfl⟩; exact ⟨i, hi, j, hj, rfl⟩

theorem nodeF_zero (r : K × K) (n : ℕ) : nodeF A r n 0 = r.1 := rfl

theorem nodeF_last (r : K × K) {n : ℕ} (hn : 1 ≤ n) : nodeF A r n n = r.2 := by
  unfold nodeF
  rw [if_neg (by omega), if_pos rfl]

/-- an inner computed point, the largest one included, is at most `b` -/
theorem inner_le (hA : Rounds A.fl u) {a b : K} (hab : a ≤ b) {n k : ℕ} (hk : k < n) (hn : 4 * u * n ≤ 1) :
    A.fl ((k : K) * A.fl (A.fl (b - a) / (n : K))) ≤ b - a := by
  have hu0 := hA.u_nonneg
  have hu := hA.u_small
  have nonneg : ∀ x, 0 ≤ x → 0 ≤ A.fl x := fun x hx => hA.fl_nonneg hx
  have up : ∀ x, 0 ≤ x → A.fl x ≤ (1 + u) * x := fun x hx => by
    have := hA.near x
    rw [abs_of_nonneg hx, abs_le] at this
    linarith [this.1, this.2]
  generalize hL : b - a = L
  have hL0 : 0 ≤ L := by rw [← hL]; exact sub_nonneg.2 hab
  have hn1 : (0 : K) < (n : K) := by exact_mod_cast (by omega : 0 < n)
  have hk0 : (0 : K) ≤ (k : K) := by positivity
  generalize hq : (k : K) / (n : K) = q
  have hq0 : 0 ≤ q := by rw [← hq]; positivity
  have hq1 : q ≤ 1 - 4 * u := by
    rw [← hq, div_le_iff₀ hn1]
    have hk' : (k : K) + 1 ≤ n := by exact_mod_cast hk
    linarith
  have u1 := up L hL0
  have h1 := nonneg L hL0
  have hd0 : 0 ≤ A.fl L / (n : K) := by positivity
  have u2 := up _ hd0
  have h2 := nonneg _ hd0
  have u3 := up _ (mul_nonneg hk0 h2)
  have e : (k : K) * (A.fl L / (n : K)) = q * A.fl L := by rw [← hq]; ring
  have hup : A.fl ((k : K) * A.fl (A.fl L / (n : K))) ≤ (1 + u) ^ 3 * (q * L) := by
    calc _ ≤ (1 + u) * ((k : K) * A.fl (A.fl L / (n : K))) := u3
      _ ≤ (1 + u) * ((k : K) * ((1 + u) * (A.fl L / (n : K)))) := by gcongr
      _ = (1 + u) ^ 2 * (q * A.fl L) := by rw [← e]; ring
      _ ≤ (1 + u) ^ 2 * (q * ((1 + u) * L)) := by gcongr
      _ = _ := by ring
  have c1 : (1 + u) ^ 3 ≤ 1 + 4 * u := by nlinarith [mul_nonneg hu0 hu0]
  have hqL : 0 ≤ q * L := mul_nonneg hq0 hL0
  refine hup.trans ?_
  calc (1 + u) ^ 3 * (q * L) ≤ (1 + 4 * u) * (q * L) := by gcongr
    _ = (1 + 4 * u) * q * L := by ring
    _ ≤ 1 * L := by
      apply mul_le_mul_of_nonneg_right _ hL0
      nlinarith
    _ = L := one_mul L

theorem nodeF_step (hA : Rounds A.fl u) {r : K × K} (hr : r.1 ≤ r.2) (h1 : Machine A.fl r.1) (h2 : Machine A.fl r.2) {n : ℕ}
    (hn : 4 * u * n ≤ 1) {i : ℕ} (hi : i < n) : nodeF A r n i ≤ nodeF A r n (i + 1) := by
  have hs : 0 ≤ A.fl (A.fl (r.2 - r.1) / (n : K)) :=
    hA.fl_nonneg (div_nonneg (hA.fl_nonneg (sub_nonneg.2 hr)) (Nat.cast_nonneg n))
  have hlast : nodeF A r n i ≤ r.2 := by
    unfold nodeF
    split
    · exact hr
    · rw [if_neg (by omega)]
      have := hA.mono _ r.2 (by linarith [inner_le hA hr hi hn] :
        A.fl ((i : K) * A.fl (A.fl (r.2 - r.1) / (n : K))) + r.1 ≤ r.2)
      rwa [h2] at this
  by_cases e : i + 1 = n
  · rw [show nodeF A r n (i + 1) = r.2 by unfold nodeF; rw [if_neg (by omega), if_pos e]]
    exact hlast
  · rw [show nodeF A r n (i + 1) = A.fl (A.fl (((i + 1 : ℕ) : K) * A.fl (A.fl (r.2 - r.1) / (n : K))) + r.1) by
      unfold nodeF; rw [if_neg (by omega), if_neg e]]
    unfold nodeF
    split
    · rw [← (show A.fl r.1 = r.1 from h1)]
      apply hA.mono
      rw [show A.fl r.1 = r.1 from h1]
      have := hA.fl_nonneg (mul_nonneg (Nat.cast_nonneg (i + 1)) hs)
      linarith
    · rw [if_neg (by omega)]
      apply hA.mono
      have : A.fl ((i : K) * A.fl (A.fl (r.2 - r.1) / (n : K))) ≤
          A.fl (((i + 1 : ℕ) : K) * A.fl (A.fl (r.2 - r.1) / (n : K))) := by
        apply hA.mono
        apply mul_le_mul_of_nonneg_right _ hs
        exact_mod_cast Nat.le_succ i
      linarith

theorem nodeF_mono (hA : Rounds A.fl u) {r : K × K} (hr : r.1 ≤ r.2) (h1 : Machine A.fl r.1) (h2 : Machine A.fl r.2) {n : ℕ}
    (hn : 4 * u * n ≤ 1) {i j : ℕ} (hij : i ≤ j) (hj : j ≤ n) : nodeF A r n i ≤ nodeF A r n j := by
  induction j with
  | zero => obtain rfl : i = 0 := by omega
            exact le_rfl
  | succ j ih =>
    rcases Nat.lt_or_ge j i with h | h
    · obtain rfl : i = j + 1 := by omega
      exact le_rfl
    · exact (ih h (by omega)).trans (nodeF_step hA hr h1 h2 hn (by omega))

theorem nodeF_machine (hA : Rounds A.fl u) {r : K × K} (h1 : Machine A.fl r.1) (h2 : Machine A.fl r.2) (n i : ℕ) :
    Machine A.fl (nodeF A r n i) := by
  unfold nodeF
  split
  · exact h1
  · split
    · exact h2
    · exact hA.idem _

section
variable {f : Cx K → Cx K} {df : Option (Cx K → Cx K)} {n : ℕ} {re im : K × K} {p : ℤ × ℤ} {prog : Bool}

theorem jobsF_in (hA : Rounds A.fl u) (hn : 4 * u * n ≤ 1) (hm : Cell.Machine A.fl ⟨re, im, 0⟩) (hre : re.1 ≤ re.2)
    (him : im.1 ≤ im.2) {job : RCtx K} (hj : job ∈ createRootJobsF A f df n re im p prog) :
    Cell.In job.cell ⟨re, im, 0⟩ ∧ Cell.Machine A.fl job.cell := by
  obtain ⟨i, hi, j, hj, rfl⟩ := mem_jobsF.1 hj
  obtain ⟨⟨m1, m2⟩, m3, m4⟩ := hm
  have hR := fun {i j} => nodeF_mono hA hre m1 m2 hn (i := i) (j := j)
  have hI := fun {i j} => nodeF_mono hA him m3 m4 hn (i := i) (j := j)
  refine ⟨⟨?_, hR (i := i) (j := i + 1) (by omega) (by omega), ?_, ?_, hI (i := j) (j := j + 1) (by omega) (by omega), ?_⟩,
    ⟨nodeF_machine hA m1 m2 n i, nodeF_machine hA m1 m2 n (i + 1)⟩, nodeF_machine hA m3 m4 n j,
    nodeF_machine hA m3 m4 n (j + 1)⟩
  · exact hR (i := 0) (by omega) (by omega)
  · have := hR (i := i + 1) (j := n) (by omega) le_rfl
    rwa [nodeF_last _ (by omega)] at this
  · exact hI (i := 0) (by omega) (by omega)
  · have := hI (i := j + 1) (j := n) (by omega) le_rfl
    rwa [nodeF_last _ (by omega)] at this

theorem jobsF_cover (hn : 1 ≤ n) (z : Cx K) (hz : Cell.Has ⟨re, im, 0⟩ z) :
    ∃ job ∈ createRootJobsF A f df n re im p prog, Cell.Has job.cell z := by
  simp only [mem_jobsF]
  obtain ⟨h1, h2, h3, h4⟩ := hz
  obtain ⟨i, hi, hi1, hi2⟩ := find_closed (nodeF A re n) (x := z.re) n hn (by rw [nodeF_zero]; exact h1)
    (by rw [nodeF_last _ hn]; exact h2)
  obtain ⟨j, hj, hj1, hj2⟩ := find_closed (nodeF A im n) (x := z.im) n hn (by rw [nodeF_zero]; exact h3)
    (by rw [nodeF_last _ hn]; exact h4)
  exact ⟨_, ⟨i, hi, j, hj, rfl⟩, hi1, hi2, hj1, hj2⟩

theorem jobsF_halfOpen (hn : 1 ≤ n) (z : Cx K) (hz : Cell.HasHalfOpen ⟨re, im, 0⟩ z) :
    ∃ job ∈ createRootJobsF A f df n re im p prog, Cell.HasHalfOpen job.cell z := by
  simp only [mem_jobsF]
  obtain ⟨h1, h2, h3, h4⟩ := hz
  obtain ⟨i, hi, hi1, hi2⟩ := find_halfOpen (nodeF A re n) (x := z.re) n (by rw [nodeF_zero]; exact h1)
    (by rw [nodeF_last _ hn]; exact h2)
  obtain ⟨j, hj, hj1, hj2⟩ := find_halfOpen (nodeF A im n) (x := z.im) n (by rw [nodeF_zero]; exact h3)
    (by rw [nodeF_last _ hn]; exact h4)
  exact ⟨_, ⟨i, hi, j, hj, rfl⟩, hi1, hi2, hj1, hj2⟩

theorem jobsF_length : (createRootJobsF A f df n re im p prog).length = n * n := by
  rw [createRootJobsF_eq, List.length_flatMap]
  simp

theorem jobsF_disjoint (hA : Rounds A.fl u) (hn : 4 * u * n ≤ 1) (hm : Cell.Machine A.fl ⟨re, im, 0⟩) (hre : re.1 ≤ re.2)
    (him : im.1 ≤ im.2) : (createRootJobsF A f df n re im p prog).Pairwise
      fun a b => ∀ z, ¬ (Cell.Interior a.cell z ∧ Cell.Interior b.cell z) := by
  obtain ⟨⟨m1, m2⟩, m3, m4⟩ := hm
  rw [createRootJobsF_eq, List.pairwise_flatMap]
  refine ⟨fun i _ => ?_, ?_⟩
  · rw [List.pairwise_map]
    refine List.pairwise_lt_range.imp_of_mem ?_
    rintro j j' _ hj' h z ⟨⟨_, _, _, h1⟩, ⟨_, _, h2, _⟩⟩
    have := nodeF_mono hA him m3 m4 hn (i := j + 1) (j := j') h (List.mem_range.1 hj').le
    simp only [RCtx.cell, jobAtF] at h1 h2
    exact absurd (lt_of_lt_of_le h1 this) (not_lt.2 h2.le)
  · refine List.pairwise_lt_range.imp_of_mem ?_
    intro i i' _ hi' h a ha b hb z hz
    obtain ⟨j, _, rfl⟩ := List.mem_map.1 ha
    obtain ⟨j', _, rfl⟩ := List.mem_map.1 hb
    obtain ⟨⟨_, h1, _, _⟩, ⟨h2, _, _, _⟩⟩ := hz
    have := nodeF_mono hA hre m1 m2 hn (i := i + 1) (j := i') h (List.mem_range.1 hi').le
    simp only [RCtx.cell, jobAtF] at h1 h2
    exact absurd (lt_of_lt_of_le h1 this) (not_lt.2 h2.le)

end

/-! ## roots handed over by a search -/

/-- the computation only appends to the roots handed over -/
def GrowsF {α : Type} (m : Py (World σ K) α) : Prop := ∀ w, ∃ B, (m w).2.added = w.added ++ B

theorem GrowsF.bind {α β : Type} {m : Py (World σ K) α} {k : α → Py (World σ K) β} (hm : GrowsF m)
    (hk : ∀ a, GrowsF (k a)) : GrowsF (m >>= k) := by
  intro w
  rw [Py.bind_run]
  obtain ⟨B, hB⟩ := hm w
  rcases hmw : m w with ⟨e | a, w1⟩ <;> rw [hmw] at hB
  · exact ⟨B, hB⟩
  · obtain ⟨C, hC⟩ := hk a w1
    refine ⟨B ++ C, ?_⟩
    dsimp only at hB ⊢
    rw [hC, hB, List.append_assoc]

theorem GrowsF.same {α : Type} {m : Py (World σ K) α} (h : ∀ w, (m w).2.added = w.added) : GrowsF m :=
  fun w => ⟨[], by rw [h, List.append_nil]⟩

theorem GrowsF.pure {α : Type} (a : α) : GrowsF (pure a : Py (World σ K) α) := GrowsF.same fun _ => rfl

theorem GrowsF.modify {g : World σ K → World σ K} (h : ∀ w, (g w).added = w.added) : GrowsF (Py.modify g) :=
  GrowsF.same h

theorem GrowsF.tick : GrowsF (World.tick : Py (World σ K) Unit) := by
  apply GrowsF.same
  intro w
  unfold World.tick
  rcases w.fuse with _ | _ | _ <;> rfl

theorem GrowsF.addRoot (r : Root K) : GrowsF (World.addRoot r : Py (World σ K) Unit) :=
  GrowsF.bind GrowsF.tick fun _ => fun w => ⟨[r], rfl⟩

theorem GrowsF.advance (ctx : RCtx K) (a : K) : GrowsF (World.advance ctx a : Py (World σ K) Unit) := by
  unfold World.advance
  split
  · exact GrowsF.bind GrowsF.tick fun _ => GrowsF.modify fun _ => rfl
  · exact GrowsF.pure _

theorem phaseOfF_grows {est : LineEst σ K} {ctx : RCtx K} (hest : ∀ order a b, GrowsF (est order a b ctx))
    (re im : K × K) : GrowsF (phaseOfF A est re im ctx) := by
  unfold phaseOfF calcMomentF
  refine GrowsF.bind ?_ fun m => GrowsF.bind (GrowsF.modify fun _ => rfl) fun _ => GrowsF.pure _
  generalize (0 : Cx K) = phi
  generalize edges re im = es
  induction es generalizing phi with
  | nil => exact GrowsF.pure _
  | cons e es ih =>
    refine GrowsF.bind ?_ fun d => ih _
    have hc : GrowsF (edgeMoment.compute est 0 ctx e) :=
      GrowsF.bind GrowsF.tick fun _ => GrowsF.bind (hest _ _ _) fun d =>
        GrowsF.bind (GrowsF.modify fun _ => rfl) fun _ => GrowsF.pure _
    unfold edgeMoment
    refine GrowsF.bind (GrowsF.same fun w => rfl) fun v => ?_
    rcases v with _ | v
    · exact hc
    · dsimp only
      split
      · exact GrowsF.pure _
      · exact hc

theorem dispatchF_grows {est : LineEst σ K} {pi : K} {ctx : RCtx K} (hest : ∀ order a b, GrowsF (est order a b ctx))
    (limit : ℕ) (c : Cell K) : GrowsF ((dispatch (simpleDecideF A est pi) limit).at ctx c) := by
  induction limit generalizing c with
  | zero => exact GrowsF.same fun w => rfl
  | succ l ih =>
    have hd : (dispatch (simpleDecideF A est pi) (l + 1)).at ctx c =
      (simpleDecideF A est pi (dispatch (simpleDecideF A est pi) l)).at ctx c := rfl
    rw [hd, simpleDecideF_eq]
    split
    · unfold actF
      split
      · exact GrowsF.advance _ _
      · exact GrowsF.bind (GrowsF.addRoot _) fun _ => GrowsF.advance _ _
    · unfold splitStepF
      exact GrowsF.bind (phaseOfF_grows hest _ _) fun _ => GrowsF.bind (ih _) fun _ =>
        GrowsF.bind (GrowsF.modify fun _ => rfl) fun _ => GrowsF.bind (phaseOfF_grows hest _ _) fun _ =>
        GrowsF.bind (ih _) fun _ => GrowsF.modify fun _ => rfl

theorem simpleArgumentF_grows {est : LineEst σ K} {pi : K} {ctx : RCtx K} (hest : BoundaryHits est ctx) (limit : ℕ) :
    GrowsF (simpleArgumentF A est pi limit ctx) := by
  have he : ∀ order a b, GrowsF (est order a b ctx) := fun order a b w => by
    obtain ⟨_, _, _, zs, h, _⟩ := hest order a b w
    exact ⟨zs, h⟩
  unfold simpleArgumentF resetCache
  refine GrowsF.bind (GrowsF.modify fun w => by split <;> rfl) fun _ => ?_
  exact GrowsF.bind (phaseOfF_grows he _ _) fun phi => dispatchF_grows he limit ⟨ctx.reRan, ctx.imRan, phi⟩

end PyZeal
