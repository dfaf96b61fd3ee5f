import Verif.Proof.Finder
import Mathlib.Algebra.BigOperators.Group.List.Basic
import Mathlib.Tactic.Linarith
import Mathlib.Tactic.Ring
import Mathlib.Tactic.FieldSimp

/-! # The jobs of a parallel search -/

set_option linter.unusedSectionVars false

namespace PyZeal
open Spec
variable {K σ : Type} [Field K] [LinearOrder K] [IsStrictOrderedRing K] [FloorRing K]

/-- `i`-th of `n + 1` equidistant points -/
def node (r : K × K) (n i : ℕ) : K := r.1 + (i : K) / (n : K) * (r.2 - r.1)

/-- the job at position `(i, j)` -/
def jobAt (f : Cx K → Cx K) (df : Option (Cx K → Cx K)) (n : ℕ) (re im : K × K) (p : ℤ × ℤ) (prog : Bool)
    (i j : ℕ) : RCtx K :=
  { f := f, df := df, precision := p, reRan := (node re n i, node re n (i + 1)),
    imRan := (node im n j, node im n (j + 1)), progress := prog }

theorem linspaceR_getD (a b : K) (n i : ℕ) (hi : i ≤ n) : (linspaceR a b (n + 1)).getD i 0 = node (a, b) n i := by
  unfold linspaceR node
  rw [List.getD_eq_getElem?_getD, List.getElem?_map, List.getElem?_range (by omega)]
  simp

theorem createRootJobs_eq (f : Cx K → Cx K) (df : Option (Cx K → Cx K)) (n : ℕ) (re im : K × K) (p : ℤ × ℤ)
    (prog : Bool) : createRootJobs f df n re im p prog =
      (List.range n).flatMap fun i => (List.range n).map fun j => jobAt f df n re im p prog i j := by
  unfold createRootJobs
  have hl : ∀ r : K × K, (linspaceR r.1 r.2 (n + 1)).length - 1 = n := by intro r; simp [linspaceR]
  dsimp only
  rw [hl, hl]
  apply List.flatMap_congr
  intro i hi
  apply List.map_congr_left
  intro j hj
  have hi := List.mem_range.1 hi
  have hj := List.mem_range.1 hj
  unfold jobAt
  rw [linspaceR_getD _ _ _ _ (by omega), linspaceR_getD _ _ _ _ (by omega), linspaceR_getD _ _ _ _ (by omega),
    linspaceR_getD _ _ _ _ (by omega)]

theorem mem_jobs {f : Cx K → Cx K} {df : Option (Cx K → Cx K)} {n : ℕ} {re im : K × K} {p : ℤ × ℤ}
    {prog : Bool} {ctx : RCtx K} : ctx ∈ createRootJobs f df n re im p prog ↔
      ∃ i < n, ∃ j < n, ctx = jobAt f df n re im p prog i j := by
  rw [createRootJobs_eq]
  simp only [List.mem_flatMap, List.mem_range, List.mem_map]
  constructor
  · rintro ⟨i, hi, j, hj, rfl⟩; exact ⟨i, hi, j, hj, rfl⟩
  · rintro ⟨i, hi, j, hj, rfl⟩; exact ⟨i, hi, j, hj, rfl⟩

theorem node_zero (r : K × K) (n : ℕ) : node r n 0 = r.1 := by simp [node]

theorem node_last (r : K × K) {n : ℕ} (hn : 1 ≤ n) : node r n n = r.2 := by
  have : (n : K) ≠ 0 := by exact_mod_cast (by omega : n ≠ 0)
  unfold node; rw [div_self this]; ring

theorem node_succ (r : K × K) (n i : ℕ) : node r n (i + 1) - node r n i = (r.2 - r.1) / n := by
  unfold node; push_cast; ring

theorem node_mono {r : K × K} (hr : r.1 ≤ r.2) (n : ℕ) {i j : ℕ} (h : i ≤ j) : node r n i ≤ node r n j := by
  unfold node
  have h1 : (i : K) ≤ j := by exact_mod_cast h
  have h2 : (i : K) / n ≤ (j : K) / n := by
    rcases Nat.eq_zero_or_pos n with rfl | hn
    · simp
    · have : (0 : K) < n := by exact_mod_cast hn
      exact (div_le_div_iff_of_pos_right this).2 h1
  have := mul_le_mul_of_nonneg_right h2 (sub_nonneg.2 hr)
  linarith

theorem find_halfOpen (g : ℕ → K) {x : K} : ∀ n, g 0 ≤ x → x < g n → ∃ i < n, g i ≤ x ∧ x < g (i + 1)
  | 0, h0, h1 => absurd h1 (not_lt.2 h0)
  | n + 1, h0, h1 => by
    rcases lt_or_ge x (g n) with h | h
    · obtain ⟨i, hi, h2⟩ := find_halfOpen g n h0 h
      exact ⟨i, by omega, h2⟩
    · exact ⟨n, by omega, h, h1⟩

theorem find_closed (g : ℕ → K) {x : K} : ∀ n, 1 ≤ n → g 0 ≤ x → x ≤ g n → ∃ i < n, g i ≤ x ∧ x ≤ g (i + 1)
  | 0, h, _, _ => absurd h (by omega)
  | 1, _, h0, h1 => ⟨0, by omega, h0, h1⟩
  | n + 2, _, h0, h1 => by
    rcases le_or_gt x (g (n + 1)) with h | h
    · obtain ⟨i, hi, h2⟩ := find_closed g (n + 1) (by omega) h0 h
      exact ⟨i, by omega, h2⟩
    · exact ⟨n + 1, by omega, h.le, h1⟩

/-- the rectangle of a context -/
def RCtx.cell (ctx : RCtx K) : Cell K := ⟨ctx.reRan, ctx.imRan, 0⟩

section
variable {f : Cx K → Cx K} {df : Option (Cx K → Cx K)} {n : ℕ} {re im : K × K} {p : ℤ × ℤ} {prog : Bool}

theorem jobs_cover (hn : 1 ≤ n) (hre : re.1 ≤ re.2) (him : im.1 ≤ im.2) (z : Cx K) :
    Cell.Has ⟨re, im, 0⟩ z ↔ ∃ job ∈ createRootJobs f df n re im p prog, Cell.Has job.cell z := by
  simp only [mem_jobs]
  constructor
  · rintro ⟨h1, h2, h3, h4⟩
    obtain ⟨i, hi, hi1, hi2⟩ := find_closed (node re n) (x := z.re) n hn (by rw [node_zero]; exact h1)
      (by rw [node_last _ hn]; exact h2)
    obtain ⟨j, hj, hj1, hj2⟩ := find_closed (node im n) (x := z.im) n hn (by rw [node_zero]; exact h3)
      (by rw [node_last _ hn]; exact h4)
    exact ⟨_, ⟨i, hi, j, hj, rfl⟩, hi1, hi2, hj1, hj2⟩
  · rintro ⟨_, ⟨i, hi, j, hj, rfl⟩, h1, h2, h3, h4⟩
    refine ⟨?_, ?_, ?_, ?_⟩
    · exact le_trans (by rw [← node_zero re n]; exact node_mono hre n (by omega)) h1
    · exact le_trans h2 (by rw [← node_last re hn]; exact node_mono hre n (by omega))
    · exact le_trans (by rw [← node_zero im n]; exact node_mono him n (by omega)) h3
    · exact le_trans h4 (by rw [← node_last im hn]; exact node_mono him n (by omega))

theorem jobs_halfOpen (hn : 1 ≤ n) (z : Cx K) (hz : Cell.HasHalfOpen ⟨re, im, 0⟩ z) :
    ∃ job ∈ createRootJobs f df n re im p prog, Cell.HasHalfOpen job.cell z := by
  simp only [mem_jobs]
  obtain ⟨h1, h2, h3, h4⟩ := hz
  obtain ⟨i, hi, hi1, hi2⟩ := find_halfOpen (node re n) (x := z.re) n (by rw [node_zero]; exact h1)
    (by rw [node_last _ hn]; exact h2)
  obtain ⟨j, hj, hj1, hj2⟩ := find_halfOpen (node im n) (x := z.im) n (by rw [node_zero]; exact h3)
    (by rw [node_last _ hn]; exact h4)
  exact ⟨_, ⟨i, hi, j, hj, rfl⟩, hi1, hi2, hj1, hj2⟩

theorem jobs_in (hn : 1 ≤ n) (hre : re.1 ≤ re.2) (him : im.1 ≤ im.2) {job : RCtx K}
    (hj : job ∈ createRootJobs f df n re im p prog) : Cell.In job.cell ⟨re, im, 0⟩ := by
  obtain ⟨i, hi, j, hj, rfl⟩ := mem_jobs.1 hj
  refine ⟨?_, node_mono hre n (by omega), ?_, ?_, node_mono him n (by omega), ?_⟩
  · exact (node_zero re n) ▸ node_mono hre n (by omega)
  · have := node_mono hre n (i := i + 1) (j := n) (by omega)
    rwa [node_last _ hn] at this
  · exact (node_zero im n) ▸ node_mono him n (by omega)
  · have := node_mono him n (i := j + 1) (j := n) (by omega)
    rwa [node_last _ hn] at this

theorem jobs_length : (createRootJobs f df n re im p prog).length = n * n := by
  rw [createRootJobs_eq, List.length_flatMap]
  simp

theorem jobs_area (hn : 1 ≤ n) : ((createRootJobs f df n re im p prog).map fun j => Cell.area j.cell).sum =
    Cell.area ⟨re, im, 0⟩ := by
  have hc : ∀ j ∈ createRootJobs f df n re im p prog,
      Cell.area j.cell = (re.2 - re.1) / n * ((im.2 - im.1) / n) := by
    intro j hj
    obtain ⟨i, hi, j, hj, rfl⟩ := mem_jobs.1 hj
    simp only [Cell.area, RCtx.cell, jobAt, node_succ]
  rw [List.map_congr_left hc, List.map_const', List.sum_replicate, jobs_length, nsmul_eq_mul, Cell.area]
  have : (n : K) ≠ 0 := by exact_mod_cast (by omega : n ≠ 0)
  push_cast
  field_simp

theorem jobs_disjoint (hre : re.1 ≤ re.2) (him : im.1 ≤ im.2) : (createRootJobs f df n re im p prog).Pairwise
    fun a b => ∀ z, ¬ (Cell.Interior a.cell z ∧ Cell.Interior b.cell z) := by
  rw [createRootJobs_eq, List.pairwise_flatMap]
  refine ⟨fun i _ => ?_, ?_⟩
  · rw [List.pairwise_map]
    refine List.pairwise_lt_range.imp ?_
    rintro j j' h z ⟨⟨_, _, _, h1⟩, ⟨_, _, h2, _⟩⟩
    have := node_mono him n (i := j + 1) (j := j') h
    simp only [RCtx.cell, jobAt] at h1 h2
    exact absurd (lt_of_lt_of_le h1 this) (not_lt.2 h2.le)
  · refine List.pairwise_lt_range.imp ?_
    intro i i' h a ha b hb z hz
    obtain ⟨j, _, rfl⟩ := List.mem_map.1 ha
    obtain ⟨j', _, rfl⟩ := List.mem_map.1 hb
    obtain ⟨⟨_, h1, _, _⟩, ⟨h2, _, _, _⟩⟩ := hz
    have := node_mono hre n (i := i + 1) (j := i') h
    simp only [RCtx.cell, jobAt] at h1 h2
    exact absurd (lt_of_lt_of_le h1 this) (not_lt.2 h2.le)

end

/-! ## Pieces -/

/-- what a sequence of jobs adds: if every job started from some state adds something with a property, so does the
sequence -/
theorem runJobs_ok {alg : RCtx K → Py (World σ K) Unit} {jobs : List (RCtx K)} {w w' : World σ K}
    (hmono : ∀ ctx ∈ jobs, ∀ w, ∃ A, (alg ctx w).2.added = w.added ++ A)
    (h : runJobs alg jobs w = (.ok (), w')) {ctx : RCtx K} (hc : ctx ∈ jobs) :
    ∃ w1 w2, alg ctx w1 = (.ok (), w2) ∧ ∃ B, w'.added = w.added ++ B ∧ newRoots w1 w2 ⊆ B := by
  have hrun : ∀ (jobs : List (RCtx K)), (∀ ctx ∈ jobs, ∀ w, ∃ A, (alg ctx w).2.added = w.added ++ A) →
      ∀ w, ∃ A, (runJobs alg jobs w).2.added = w.added ++ A := by
    intro jobs
    induction jobs with
    | nil => intro _ w; exact ⟨[], by simp [runJobs]⟩
    | cons c jobs ih =>
      intro hmono w
      rw [runJobs, Py.bind_run]
      obtain ⟨A, hA⟩ := hmono c (by simp) w
      rcases hcw : alg c w with ⟨e | _, w1⟩ <;> rw [hcw] at hA
      · exact ⟨A, hA⟩
      · obtain ⟨B, hB⟩ := ih (fun ctx hc => hmono ctx (by simp [hc])) w1
        exact ⟨A ++ B, by dsimp only at hA ⊢; rw [hB, hA, List.append_assoc]⟩
  induction jobs generalizing w with
  | nil => simp at hc
  | cons c jobs ih =>
    rw [runJobs, Py.bind_run] at h
    obtain ⟨A, hA⟩ := hmono c (by simp) w
    rcases hcw : alg c w with ⟨e | ⟨⟩, w1⟩
    · rw [hcw] at h; simp at h
    · rw [hcw] at h hA
      dsimp only at h hA
      rcases List.mem_cons.1 hc with rfl | hc
      · refine ⟨w, w1, hcw, ?_⟩
        obtain ⟨B, hB⟩ := hrun jobs (fun ctx hc => hmono ctx (by simp [hc])) w1
        rw [h] at hB
        refine ⟨A ++ B, by dsimp only at hB; rw [hB, hA, List.append_assoc], ?_⟩
        unfold newRoots
        rw [hA, List.drop_left]
        exact List.subset_append_left _ _
      · obtain ⟨u1, u2, hu, B, hB, hs⟩ := ih (fun ctx hc => hmono ctx (by simp [hc])) h hc
        exact ⟨u1, u2, hu, A ++ B, by rw [hB, hA, List.append_assoc],
          fun x hx => List.mem_append_right _ (hs hx)⟩

/-- if the sequence completes, everything it adds is added by a completed job -/
theorem runJobs_each {alg : RCtx K → Py (World σ K) Unit} {jobs : List (RCtx K)} {w w' : World σ K}
    (hmono : ∀ ctx ∈ jobs, ∀ w, ∃ A, (alg ctx w).2.added = w.added ++ A)
    (h : runJobs alg jobs w = (.ok (), w')) {r : Root K} (hr : r ∈ w'.added) :
    r ∈ w.added ∨ ∃ ctx ∈ jobs, ∃ w1 w2, alg ctx w1 = (.ok (), w2) ∧ r ∈ newRoots w1 w2 := by
  induction jobs generalizing w with
  | nil =>
    left
    have h : ((.ok (), w) : Except Err Unit × World σ K) = (.ok (), w') := h
    cases h; exact hr
  | cons c jobs ih =>
    rw [runJobs, Py.bind_run] at h
    obtain ⟨A, hA⟩ := hmono c (by simp) w
    rcases hcw : alg c w with ⟨e | ⟨⟩, w1⟩ <;> rw [hcw] at h hA
    · simp at h
    · dsimp only at h hA
      rcases ih (fun ctx hc => hmono ctx (by simp [hc])) h with h1 | ⟨ctx, hc, w2, h1⟩
      · rw [hA] at h1
        rcases List.mem_append.1 h1 with h1 | h1
        · exact .inl h1
        · refine .inr ⟨c, by simp, w, w1, hcw, ?_⟩
          unfold newRoots
          rw [hA, List.drop_left]; exact h1
      · exact .inr ⟨ctx, by simp [hc], w2, h1⟩

/-- everything a sequence of jobs adds is added by one of the jobs -/
theorem runJobs_from {alg : RCtx K → Py (World σ K) Unit} {jobs : List (RCtx K)} {w : World σ K}
    (hmono : ∀ ctx ∈ jobs, ∀ w, ∃ A, (alg ctx w).2.added = w.added ++ A) {r : Root K}
    (hr : r ∈ (runJobs alg jobs w).2.added) :
    r ∈ w.added ∨ ∃ ctx ∈ jobs, ∃ w1, r ∈ newRoots w1 (alg ctx w1).2 := by
  induction jobs generalizing w with
  | nil => exact .inl (by simpa [runJobs] using hr)
  | cons c jobs ih =>
    rw [runJobs, Py.bind_run] at hr
    obtain ⟨A, hA⟩ := hmono c (by simp) w
    have key : ∀ x, x ∈ (alg c w).2.added → x ∈ w.added ∨ x ∈ newRoots w (alg c w).2 := by
      intro x hx
      unfold newRoots
      rw [hA, List.drop_left]
      rw [hA] at hx
      exact List.mem_append.1 hx
    rcases hcw : alg c w with ⟨e | ⟨⟩, w1⟩ <;> rw [hcw] at hr
    · rcases key r (by rw [hcw]; exact hr) with h | h
      · exact .inl h
      · exact .inr ⟨c, by simp, w, h⟩
    · rcases ih (fun ctx hc => hmono ctx (by simp [hc])) hr with h | ⟨ctx, hc, w2, h⟩
      · rcases key r (by rw [hcw]; exact h) with h | h
        · exact .inl h
        · exact .inr ⟨c, by simp, w, h⟩
      · exact .inr ⟨ctx, by simp [hc], w2, h⟩

/-! ## Serial searches -/

/-- the context a serial search works with -/
def Finder.ctx (fd : Finder σ K) (re im : K × K) (prec : Option (ℤ × ℤ)) : RCtx K where
  f := fd.f
  df := fd.df
  precision := searchPrecision prec fd.precision
  reRan := (desymmetrizeDomain re im (searchPrecision prec fd.precision)).1
  imRan := (desymmetrizeDomain re im (searchPrecision prec fd.precision)).2
  progress := fd.verbose

/-- the state in which the algorithm starts -/
def Finder.start (fd : Finder σ K) (interrupt : Option ℕ) : World σ K :=
  { cache := fd.cache, est := fd.est, added := [], advances := [], fuse := interrupt, log := [] }

theorem calculateRoots_container (fd : Finder σ K) (re im : K × K) (prec : Option (ℤ × ℤ)) (i : Option ℕ) :
    (fd.calculateRoots re im prec i).finder.container =
      fd.container.addRoots fd.info (fd.ctx re im prec).toFilter (fd.algorithm (fd.ctx re im prec) (fd.start i)).2.added := by
  simp only [Finder.calculateRoots]
  split <;> rfl

theorem calculateRoots_outcome (fd : Finder σ K) (re im : K × K) (prec : Option (ℤ × ℤ)) (i : Option ℕ) :
    let o := (fd.algorithm (fd.ctx re im prec) (fd.start i)).1
    (fd.calculateRoots re im prec i).outcome = (if o = .error .keyboardInterrupt then .ok () else o) ∧
    (fd.calculateRoots re im prec i).warned = decide (o = .error .keyboardInterrupt) := by
  intro o
  have key : ∀ o', o = o' → (fd.calculateRoots re im prec i).outcome =
      (if o' = .error .keyboardInterrupt then .ok () else o') ∧
    (fd.calculateRoots re im prec i).warned = decide (o' = .error .keyboardInterrupt) := by
    intro o' ho
    have ho : (fd.algorithm { f := fd.f, df := fd.df, precision := searchPrecision prec fd.precision
                              reRan := (desymmetrizeDomain re im (searchPrecision prec fd.precision)).1
                              imRan := (desymmetrizeDomain re im (searchPrecision prec fd.precision)).2
                              progress := fd.verbose }
        { cache := fd.cache, est := fd.est, added := [], advances := [], fuse := i, log := [] }).1 = o' := ho
    simp only [Finder.calculateRoots, ho]
    rcases o' with e | ⟨⟩
    · cases e <;> simp
    · simp
  exact key o rfl

theorem calculateRoots_done {fd : Finder σ K} {re im : K × K} {prec : Option (ℤ × ℤ)} {i : Option ℕ}
    (h1 : (fd.calculateRoots re im prec i).outcome = .ok ()) (h2 : (fd.calculateRoots re im prec i).warned = false) :
    (fd.algorithm (fd.ctx re im prec) (fd.start i)).1 = .ok () := by
  obtain ⟨e1, e2⟩ := calculateRoots_outcome fd re im prec i
  rw [e1] at h1
  rw [e2] at h2
  simp only [decide_eq_false_iff_not] at h2
  rwa [if_neg h2] at h1

theorem searchPrecision_asked {call : Option (ℤ × ℤ)} {stored p : ℤ × ℤ} (hp : Asked call stored p) :
    searchPrecision call stored = (p.1 + 1, p.2 + 1) := by
  rcases hp with rfl | ⟨rfl, rfl⟩ <;> rfl

end PyZeal
