import Verif.Proof.Jobs
import Verif.Props.Search

/-! # Properties C46-C53, C86: root finders -/

set_option linter.unusedSectionVars false

namespace PyZeal.Props
open Spec
variable {K : Type} [Field K] [LinearOrder K] [IsStrictOrderedRing K] [FloorRing K] {σ : Type}

/-! ## C46 -/

/-- C46. The searched rectangle contains the requested one in its interior, is not degenerate, and exceeds it by at most
`4 * 10^-p` on each side. -/
theorem C46_domain (reRan imRan : K × K) (p : ℤ × ℤ) :
    let d := desymmetrizeDomain reRan imRan p
    d.1.1 < d.1.2 ∧ d.2.1 < d.2.2 ∧ (∀ z, Requested reRan imRan z → Cell.Interior ⟨d.1, d.2, 0⟩ z) ∧
    Cell.In ⟨d.1, d.2, 0⟩ (Enlarged (4 * 10 ^ (-p.1), 4 * 10 ^ (-p.2)) reRan imRan) := by
  intro d
  have e1 : (0 : K) < 10 ^ (-p.1) := eps10_pos p.1
  have e2 : (0 : K) < 10 ^ (-p.2) := eps10_pos p.2
  have h1 := min_le_max (a := reRan.1) (b := reRan.2)
  have h2 := min_le_max (a := imRan.1) (b := imRan.2)
  simp only [d, desymmetrizeDomain, eps10, Enlarged, Cell.In, Cell.Interior, Requested]
  refine ⟨by linarith, by linarith, ?_, by linarith, by linarith, by linarith, by linarith, by linarith,
    by linarith⟩
  rintro z ⟨a1, a2, a3, a4⟩
  refine ⟨by linarith, by linarith, by linarith, by linarith⟩

/-- C46: the order of the end points does not matter -/
theorem C46_order (a b c d : K) (p : ℤ × ℤ) :
    desymmetrizeDomain (a, b) (c, d) p = desymmetrizeDomain (b, a) (c, d) p ∧
    desymmetrizeDomain (a, b) (c, d) p = desymmetrizeDomain (a, b) (d, c) p := by
  simp only [desymmetrizeDomain, min_comm, max_comm, and_self]

/-- non-vacuity: a degenerate request with reversed end points -/
example : desymmetrizeDomain ((1 : ℚ), 0) (2, 2) (1, 2) = ((-1 / 10, 12 / 10), (197 / 100, 204 / 100)) := by
  decide +kernel

/-! ## C47 -/

/-- C47. `createRootJobs` yields `n * n` jobs which tile the rectangle: together they cover exactly the rectangle, their
interiors are disjoint, their areas sum up to its area; all jobs share function, derivative, precision, progress bar. -/
theorem C47_jobs (f : Cx K → Cx K) (df : Option (Cx K → Cx K)) (n : ℕ) (hn : 1 ≤ n) (re im : K × K)
    (hre : re.1 ≤ re.2) (him : im.1 ≤ im.2) (p : ℤ × ℤ) (prog : Bool) :
    let jobs := createRootJobs f df n re im p prog
    jobs.length = n * n ∧
    (∀ z, Cell.Has ⟨re, im, 0⟩ z ↔ ∃ job ∈ jobs, Cell.Has ⟨job.reRan, job.imRan, 0⟩ z) ∧
    (∀ z, Cell.HasHalfOpen ⟨re, im, 0⟩ z → ∃ job ∈ jobs, Cell.HasHalfOpen ⟨job.reRan, job.imRan, 0⟩ z) ∧
    (jobs.Pairwise fun a b => ∀ z, ¬ (Cell.Interior ⟨a.reRan, a.imRan, 0⟩ z ∧ Cell.Interior ⟨b.reRan, b.imRan, 0⟩ z)) ∧
    (jobs.map fun j => Cell.area ⟨j.reRan, j.imRan, 0⟩).sum = Cell.area ⟨re, im, 0⟩ ∧
    ∀ job ∈ jobs, job.f = f ∧ job.df = df ∧ job.precision = p ∧ job.progress = prog := by
  intro jobs
  refine ⟨jobs_length, jobs_cover hn hre him, jobs_halfOpen hn, jobs_disjoint hre him, jobs_area hn, ?_⟩
  intro job hj
  obtain ⟨i, hi, j, hj, rfl⟩ := mem_jobs.1 hj
  exact ⟨rfl, rfl, rfl, rfl⟩

/-- non-vacuity: three processes, nine jobs -/
example : ((createRootJobs exF none 3 (0, 4) (0, 2) (0, 0) false).map fun j => (j.reRan, j.imRan))[5]? =
    some ((4 / 3, 8 / 3), (4 / 3, 2)) := by decide +kernel

/-! ## C48 -/

/-- C48. Two uninterrupted parallel searches from the same state, with any two schedules: both succeed or both raise;
in the first case the container holds the same roots afterwards (with the same multiplicities for plain containers), in
the second case it holds what it held before. -/
theorem C48_schedules (fd : Finder σ K) (hset : IsSet fd.container) (cpus : ℕ) (re im : K × K)
    (p : Option (ℤ × ℤ)) (s1 s2 : Schedule) (h1 : s1.interrupted = false) (h2 : s2.interrupted = false) :
    let a := fd.calculateRootsParallel cpus re im p s1
    let b := fd.calculateRootsParallel cpus re im p s2
    (a.outcome = .ok () ↔ b.outcome = .ok ()) ∧ a.warned = false ∧ b.warned = false ∧
    (held a.finder.container).Perm (held b.finder.container) ∧
    (a.outcome ≠ .ok () → held a.finder.container = held fd.container) := by
  intro a b
  have hff := fun (rs : List (Except Err Unit)) => firstFailure_eq_ok_iff s1 s2 rs
  simp only [a, b, Finder.calculateRootsParallel, h1, h2, Bool.false_eq_true, if_false]
  generalize (chunks cpus _ _).map (runPiece fd) = results
  have hp : ((deliver (results.map Prod.snd) s1.turns).1 ++ (deliver (results.map Prod.snd) s1.turns).2.flatten).Perm
      ((deliver (results.map Prod.snd) s2.turns).1 ++ (deliver (results.map Prod.snd) s2.turns).2.flatten) :=
    (deliver_perm _ _).trans (deliver_perm _ _).symm
  have hf := hff (results.map Prod.fst)
  rcases e1 : firstFailure s1 (results.map Prod.fst) with e | ⟨⟩
  · rcases e2 : firstFailure s2 (results.map Prod.fst) with e' | ⟨⟩
    · simp
    · rw [e1, e2] at hf; simp at hf
  · rcases e2 : firstFailure s2 (results.map Prod.fst) with e' | ⟨⟩
    · rw [e1, e2] at hf; simp at hf
    · simp only [ne_eq, not_true_eq_false, false_imp_iff, and_true, true_and, true_iff]
      exact held_perm _ _ _ hset hp

/-- the finder of the examples: an exact estimator, a new rounding container -/
def exFinder : Finder Unit ℚ :=
  Finder.init exF none (simpleArgument (crossEst exPi exZeros) exPi 20) (EstCache.init false) ()
    (fun p => .rounding (RContainer.init p (5, 5))) false (some (0, 0)) (some false) ⟨(5, 5), true⟩

/-- non-vacuity: two processes and two schedules, one of them delivering the last piece first -/
example : IsSet exFinder.container := by simp [exFinder, Finder.init, RContainer.init, IsSet]
example :
    held (exFinder.calculateRootsParallel 2 (0, 4) (0, 2) none ⟨[], false, 0⟩).finder.container =
      [(⟨0, 0⟩, 2), (⟨3, 1⟩, 1)] ∧
    held (exFinder.calculateRootsParallel 2 (0, 4) (0, 2) none ⟨[1, 1, 1, 0], false, 0⟩).finder.container =
      [(⟨3, 1⟩, 1), (⟨0, 0⟩, 2)] := by decide +kernel

/-! ## C49 -/

/-- C49, serial. Interrupt the search with any algorithm of the code at any point: either the interrupt came too late and
the result is that of the uninterrupted search, or the call returns normally with a warning, and every root available
is available after the uninterrupted search as well, or was available before. -/
theorem C49_serial_partial (fd : Finder (SumState K) K) (halg : ShippedAlgorithm fd.algorithm) (re im : K × K)
    (p : Option (ℤ × ℤ)) (n : ℕ) :
    let full := fd.calculateRoots re im p none
    let part := fd.calculateRoots re im p (some n)
    (part.outcome = full.outcome ∧ part.warned = full.warned ∧
      held part.finder.container = held full.finder.container) ∨
    (part.outcome = .ok () ∧ part.warned = true ∧
      ∀ r ∈ held part.finder.container, r ∈ held full.finder.container ∨ r ∈ held fd.container) := by
  intro full part
  obtain ⟨_, _, h3⟩ := halg.interruptible (fd.ctx re im p) (fd.start none) rfl
  obtain ⟨e1, e2⟩ := calculateRoots_outcome fd re im p none
  obtain ⟨f1, f2⟩ := calculateRoots_outcome fd re im p (some n)
  simp only [full, part]
  rw [calculateRoots_container, calculateRoots_container, e1, e2, f1, f2]
  rcases h3 n with ⟨k, h⟩ | ⟨h, h'⟩
  · left
    have h : fd.algorithm (fd.ctx re im p) (fd.start (some n)) = _ := h
    rw [h]
    exact ⟨rfl, rfl, rfl⟩
  · right
    have h : (fd.algorithm (fd.ctx re im p) (fd.start (some n))).1 = _ := h
    rw [h]
    refine ⟨by simp, by simp, fun r hr => ?_⟩
    exact held_mono fd.info _ fd.container h'.subset hr

/-- C49, serial: if the container is empty at the start, or was filled with the precision of this search (one more digit
than asked for), an interrupted search leaves only roots of the uninterrupted search. -/
theorem C49_serial_subset (fd : Finder (SumState K) K) (halg : ShippedAlgorithm fd.algorithm) (re im : K × K)
    (call : Option (ℤ × ℤ)) (p : ℤ × ℤ) (hp : Asked call fd.precision p) (n : ℕ)
    (hcont : IsEmpty fd.container ∨ FilledWith (p.1 + 1, p.2 + 1) fd.container) :
    let full := fd.calculateRoots re im call none
    let part := fd.calculateRoots re im call (some n)
    (part.outcome = full.outcome ∨ part.outcome = .ok ()) ∧
    ∀ r ∈ held part.finder.container, r ∈ held full.finder.container := by
  intro full part
  have hkeep : ∀ r ∈ held fd.container, r ∈ held full.finder.container := by
    intro r hr
    simp only [full, calculateRoots_container]
    refine held_keeps _ _ _ _ ?_ hr
    have : (fd.ctx re im call).toFilter.precision = (p.1 + 1, p.2 + 1) := searchPrecision_asked hp
    rwa [this]
  rcases C49_serial_partial fd halg re im call n with ⟨h1, _, h2⟩ | ⟨h1, _, h2⟩
  · exact ⟨.inl h1, fun r hr => h2 ▸ hr⟩
  · refine ⟨.inr h1, fun r hr => ?_⟩
    rcases h2 r hr with h | h
    · exact h
    · exact hkeep r h

/-- C49, parallel. Interrupt a parallel search at any point (any sequence of deliveries): the call returns normally with
a warning; if the uninterrupted search succeeds (under any schedule), then every root available after the interrupt
is available after the uninterrupted search as well, or was available before. -/
theorem C49_parallel_partial (fd : Finder σ K) (cpus : ℕ) (re im : K × K) (p : Option (ℤ × ℤ))
    (s s' : Schedule) (hs : s.interrupted = true) (hs' : s'.interrupted = false) :
    let part := fd.calculateRootsParallel cpus re im p s
    let full := fd.calculateRootsParallel cpus re im p s'
    part.outcome = .ok () ∧ part.warned = true ∧ (full.outcome = .ok () →
      ∀ r ∈ held part.finder.container, r ∈ held full.finder.container ∨ r ∈ held fd.container) := by
  intro part full
  simp only [part, full, Finder.calculateRootsParallel, hs, hs', Bool.false_eq_true, if_false, if_true, true_and]
  generalize (chunks cpus _ _).map (runPiece fd) = results
  intro hok r hr
  rcases hf : firstFailure s' (results.map Prod.fst) with e | ⟨⟩
  · rw [hf] at hok; simp at hok
  · refine held_mono _ _ _ ?_ hr
    intro x hx
    exact (deliver_perm _ _).mem_iff.2 (deliver_subset _ _ hx)

/-- a solver which finds one root -/
def exGrid : NewtonSolver ℚ :=
  ⟨fun _ _ _ _ => none, fun _ _ _ _ => none, fun _ _ _ => some [⟨1 / 4, 1 / 4⟩]⟩

/-- a finder whose container holds a root found earlier with another precision -/
def exUsed : Finder (SumState ℚ) ℚ :=
  Finder.init exF none
    (newtonGrid exGrid 3 false)
    (EstCache.init false) ⟨[], []⟩
    (fun p => .rounding ({ (RContainer.init p (5, 5)) with rootSet := [(⟨3, 1⟩, 1)] })) false (some (0, 0))
    (some false) ⟨(5, 5), true⟩

/-- C49 fails in general: here the interrupted search offers a root (found earlier with another precision)
which the uninterrupted search would have discarded. -/
theorem C49_counterexample : ShippedAlgorithm exUsed.algorithm ∧
    (exUsed.calculateRoots (0, 4) (0, 2) none (some 0)).outcome = .ok () ∧
    (exUsed.calculateRoots (0, 4) (0, 2) none (some 0)).warned = true ∧
    (⟨3, 1⟩, 1) ∈ held (exUsed.calculateRoots (0, 4) (0, 2) none (some 0)).finder.container ∧
    (⟨3, 1⟩, 1) ∉ held (exUsed.calculateRoots (0, 4) (0, 2) none none).finder.container :=
  ⟨ShippedAlgorithm.grid exGrid 3 false, by decide +kernel⟩

/-- non-vacuity: an interrupt after the first root was found -/
example : held (exFinder.calculateRoots (0, 4) (0, 2) none none).finder.container =
      [(⟨3 / 10, 1 / 5⟩, 2), (⟨16 / 5, 13 / 10⟩, 1)] ∧
    held (exFinder.calculateRoots (0, 4) (0, 2) none (some 75)).finder.container = [(⟨3 / 10, 1 / 5⟩, 2)] ∧
    (exFinder.calculateRoots (0, 4) (0, 2) none (some 75)).warned = true := by decide +kernel
example : held (exFinder.calculateRootsParallel 2 (0, 4) (0, 2) none ⟨[1], true, 0⟩).finder.container =
    [(⟨3, 1⟩, 1)] := by decide +kernel

/-! ## C50 -/

/-- shared part of C50 and C51: what one run of the simple argument search contributes -/
theorem search_near {est : LineEst σ K} {pi : K} (hpi : 0 < pi) {limit : ℕ} {ctx : RCtx K}
    {region : Cell K} {zeros : List (Cx K)} {L : ℤ → Cx K → Cx K → Cx K}
    (hest : GoodEstimator est ctx.f ctx.df ctx.precision region pi zeros L)
    (hin : Cell.In ⟨ctx.reRan, ctx.imRan, 0⟩ region) :
    (∀ w, ∃ A, (simpleArgument est pi limit ctx w).2.added = w.added ++ A) ∧
    (∀ w w', simpleArgument est pi limit ctx w = (.ok (), w') →
      (∀ z ∈ zeros, Cell.HasHalfOpen ⟨ctx.reRan, ctx.imRan, 0⟩ z → ∃ r ∈ newRoots w w', 1 ≤ r.2 ∧
        Near (10 ^ (-ctx.precision.1) / 2, 10 ^ (-ctx.precision.2) / 2) z r.1) ∧
      (∀ r ∈ newRoots w w', r.2 ≠ 0 → ∃ z ∈ zeros,
        Near (10 ^ (-ctx.precision.1) / 2, 10 ^ (-ctx.precision.2) / 2) z r.1)) ∧
    (∀ w, ∀ r ∈ newRoots w (simpleArgument est pi limit ctx w).2, (r.2 = 0 ∧ ctx.f r.1 = 0) ∨
      (1 ≤ r.2 ∧ Cell.Has ⟨ctx.reRan, ctx.imRan, 0⟩ r.1)) := by
  obtain ⟨hconf, hhits⟩ := hest ctx rfl rfl rfl hin
  have hre : ctx.reRan.1 ≤ ctx.reRan.2 := hin.2.1
  have him : ctx.imRan.1 ≤ ctx.imRan.2 := hin.2.2.2.2.1
  refine ⟨fun w => ?_, fun w w' h => ?_, fun w r hr => ?_⟩
  · obtain ⟨_, A, _, h2, _⟩ := calcRoots_justified hhits (simple_stops est pi ctx) (simple_actJust pi hpi ctx)
      limit hre him w
    exact ⟨A, h2⟩
  · exact C35_conforming est pi hpi limit ctx hre him hhits zeros L hconf w w' h
  · rcases C36_candidates_justified est pi hpi limit ctx hhits hre him w r hr with h | ⟨c, _, h1, _, _, h2, _, h3⟩
    · exact .inl h
    · obtain ⟨a1, a2, a3, a4, a5, a6⟩ := h1
      refine .inr ⟨h3, ?_⟩
      rw [h2]
      unfold Cell.Has Cell.centre
      dsimp only at a1 a2 a3 a4 a5 a6 ⊢
      refine ⟨?_, ?_, ?_, ?_⟩ <;> linarith

theorem abs_two {a b c d e : K} (h1 : |a - b| < d) (h2 : |b - c| ≤ e) : |a - c| < d + e := by
  have : a - c = (a - b) + (b - c) := by ring
  rw [this]
  exact lt_of_le_of_lt (abs_add_le _ _) (by linarith)

/-- what a serial search reports, given what its algorithm contributes -/
theorem serial_report (fd : Finder σ K) (hcont : RoundsFreely fd.container) (re im : K × K)
    (call : Option (ℤ × ℤ)) (p : ℤ × ℤ) (hp : Asked call fd.precision p) (interrupt : Option ℕ) (zeros : List (Cx K))
    (n2a : ∀ z ∈ zeros, Cell.HasHalfOpen ⟨(fd.ctx re im call).reRan, (fd.ctx re im call).imRan, 0⟩ z →
      ∃ r ∈ (fd.algorithm (fd.ctx re im call) (fd.start interrupt)).2.added, 1 ≤ r.2 ∧
        Near (10 ^ (-(fd.ctx re im call).precision.1) / 2, 10 ^ (-(fd.ctx re im call).precision.2) / 2) z r.1)
    (n2b : ∀ r ∈ (fd.algorithm (fd.ctx re im call) (fd.start interrupt)).2.added, r.2 ≠ 0 → ∃ z ∈ zeros,
        Near (10 ^ (-(fd.ctx re im call).precision.1) / 2, 10 ^ (-(fd.ctx re im call).precision.2) / 2) z r.1)
    (n3 : ∀ r ∈ (fd.algorithm (fd.ctx re im call) (fd.start interrupt)).2.added,
      (r.2 = 0 ∧ (fd.ctx re im call).f r.1 = 0) ∨
      (1 ≤ r.2 ∧ Cell.Has ⟨(fd.ctx re im call).reRan, (fd.ctx re im call).imRan, 0⟩ r.1)) :
    let s := fd.calculateRoots re im call interrupt
    (∀ z ∈ zeros, Requested re im z → ∃ r ∈ held s.finder.container, 1 ≤ r.2 ∧
      Near (10 ^ (-(p.1 + 1)), 10 ^ (-(p.2 + 1))) z r.1) ∧
    ∀ r ∈ held s.finder.container, r ∈ held fd.container ∨
      (∃ q ∈ (fd.algorithm (fd.ctx re im call) (fd.start interrupt)).2.added, q.2 = r.2) ∧ (
      (r.2 = 0 ∧ ∃ z, fd.f z = 0 ∧ RoundsTo (p.1 + 1, p.2 + 1) z r.1) ∨
      (1 ≤ r.2 ∧ RequestedWithin (5 * 10 ^ (-(p.1 + 1)), 5 * 10 ^ (-(p.2 + 1))) re im r.1 ∧
        ∃ z ∈ zeros, Near (10 ^ (-(p.1 + 1)), 10 ^ (-(p.2 + 1))) z r.1)) := by
  intro s
  have hc := calculateRoots_container fd re im call interrupt
  have hprec : (fd.ctx re im call).precision = (p.1 + 1, p.2 + 1) := searchPrecision_asked hp
  obtain ⟨_, _, d3, d4⟩ := C46_domain re im (p.1 + 1, p.2 + 1)
  have hd1 : (fd.ctx re im call).reRan = (desymmetrizeDomain re im (p.1 + 1, p.2 + 1)).1 := by
    rw [← searchPrecision_asked hp]; rfl
  have hd2 : (fd.ctx re im call).imRan = (desymmetrizeDomain re im (p.1 + 1, p.2 + 1)).2 := by
    rw [← searchPrecision_asked hp]; rfl
  rw [← hd1, ← hd2] at d3 d4
  generalize hctx : fd.ctx re im call = ctx at *
  have hf : ctx.f = fd.f := by rw [← hctx]; rfl
  generalize (fd.algorithm ctx (fd.start interrupt)).2.added = A at *
  have hkeep := fun r => keeps_of_free hcont ctx.toFilter r
  have hfp : ctx.toFilter.precision = (p.1 + 1, p.2 + 1) := hprec
  simp only [s]
  rw [hc]
  rw [hprec] at n2a n2b
  have near : ∀ (z : Cx K) (r : Root K), Near (10 ^ (-(p.1 + 1)) / 2, 10 ^ (-(p.2 + 1)) / 2) z r.1 →
      Near (10 ^ (-(p.1 + 1)), 10 ^ (-(p.2 + 1))) z (roundRoot r (p.1 + 1, p.2 + 1)).1 := by
    rintro z r ⟨h1, h2⟩
    refine ⟨?_, ?_⟩
    · have := abs_two h1 (pyRound_err r.1.re (p.1 + 1))
      simpa [eps10, roundRoot] using this
    · have := abs_two h2 (pyRound_err r.1.im (p.2 + 1))
      simpa [eps10, roundRoot] using this
  refine ⟨fun z hz hreq => ?_, fun r hr => ?_⟩
  · have hi := d3 z hreq
    obtain ⟨r, hr, h1, h2⟩ := n2a z hz ⟨hi.1.le, hi.2.1, hi.2.2.1.le, hi.2.2.2⟩
    refine ⟨roundRoot r (p.1 + 1, p.2 + 1), ?_, h1, near z r h2⟩
    rw [(mem_held_addRoots _ _ _ _ _).1 ⟨r, hr, (hkeep r).1⟩]
    exact .inl ⟨r, hr, (hkeep r).1, by rw [(hkeep r).2, hfp]⟩
  · by_cases hex : ∃ q ∈ A, fd.container.keeps ctx.toFilter q = true
    · rw [(mem_held_addRoots _ _ _ _ _).1 hex] at hr
      rcases hr with ⟨q, hq, _, rfl⟩ | ⟨_, hr⟩
      · right
        rw [(hkeep q).2, hfp]
        refine ⟨⟨q, hq, rfl⟩, ?_⟩
        by_cases h0 : q.2 = 0
        · left
          refine ⟨h0, q.1, ?_, roundsTo_roundRoot _ _⟩
          rcases n3 q hq with h | h
          · exact hf ▸ h.2
          · omega
        · right
          obtain ⟨z, hz, hzn⟩ := n2b q hq h0
          rcases n3 q hq with h | ⟨h1, h2⟩
          · exact absurd h.1 h0
          · refine ⟨h1, ?_, z, hz, near z q hzn⟩
            obtain ⟨a1, _, a3, a4, _, a6⟩ := d4
            obtain ⟨b1, b2, b3, b4⟩ := h2
            have r1 := abs_le.1 (pyRound_err q.1.re (p.1 + 1))
            have r2 := abs_le.1 (pyRound_err q.1.im (p.2 + 1))
            have e1 : (0 : K) < 10 ^ (-(p.1 + 1)) := eps10_pos (p.1 + 1)
            have e2 : (0 : K) < 10 ^ (-(p.2 + 1)) := eps10_pos (p.2 + 1)
            unfold eps10 at r1 r2
            simp only [Enlarged] at a1 a3 a4 a6
            dsimp only at b1 b2 b3 b4
            unfold RequestedWithin roundRoot
            dsimp only
            refine ⟨?_, ?_, ?_, ?_⟩ <;> linarith
      · exact .inl hr
    · rw [(mem_held_addRoots _ _ _ _ r).2 hex] at hr
      exact .inl hr

/-- C50. Serial search for the requested precision `p` with the simple argument algorithm, an estimator which conforms
near the requested rectangle, and a rounding container without filters. If the call returns without warning, then
every zero in the requested rectangle has a reported root of positive order closer than `10^-(p+1)` in each coordinate;
and every newly reported root is the rounding of an exact zero of the function (order 0, found on a line) or has
positive order, lies in the requested rectangle enlarged by `5 * 10^-(p+1)`, and is closer than `10^-(p+1)` to a zero. -/
theorem C50_serial (fd : Finder σ K) (est : LineEst σ K) (pi : K) (hpi : 0 < pi) (limit : ℕ)
    (halg : fd.algorithm = simpleArgument est pi limit) (hcont : RoundsFreely fd.container) (re im : K × K)
    (call : Option (ℤ × ℤ)) (p : ℤ × ℤ) (hp : Asked call fd.precision p) (interrupt : Option ℕ)
    (zeros : List (Cx K)) (L : ℤ → Cx K → Cx K → Cx K)
    (hest : GoodEstimator est fd.f fd.df (p.1 + 1, p.2 + 1)
      (Enlarged (4 * 10 ^ (-(p.1 + 1)), 4 * 10 ^ (-(p.2 + 1))) re im) pi zeros L) :
    let s := fd.calculateRoots re im call interrupt
    s.outcome = .ok () → s.warned = false →
    (∀ z ∈ zeros, Requested re im z → ∃ r ∈ held s.finder.container, 1 ≤ r.2 ∧
      Near (10 ^ (-(p.1 + 1)), 10 ^ (-(p.2 + 1))) z r.1) ∧
    ∀ r ∈ held s.finder.container, r ∈ held fd.container ∨
      (r.2 = 0 ∧ ∃ z, fd.f z = 0 ∧ RoundsTo (p.1 + 1, p.2 + 1) z r.1) ∨
      (1 ≤ r.2 ∧ RequestedWithin (5 * 10 ^ (-(p.1 + 1)), 5 * 10 ^ (-(p.2 + 1))) re im r.1 ∧
        ∃ z ∈ zeros, Near (10 ^ (-(p.1 + 1)), 10 ^ (-(p.2 + 1))) z r.1) := by
  intro s hok hwarn
  have hrun := calculateRoots_done hok hwarn
  have hprec : (fd.ctx re im call).precision = (p.1 + 1, p.2 + 1) := searchPrecision_asked hp
  obtain ⟨_, _, d3, d4⟩ := C46_domain re im (p.1 + 1, p.2 + 1)
  have hd1 : (fd.ctx re im call).reRan = (desymmetrizeDomain re im (p.1 + 1, p.2 + 1)).1 := by
    rw [← searchPrecision_asked hp]; rfl
  have hd2 : (fd.ctx re im call).imRan = (desymmetrizeDomain re im (p.1 + 1, p.2 + 1)).2 := by
    rw [← searchPrecision_asked hp]; rfl
  rw [← hd1, ← hd2] at d3 d4
  have hest' : GoodEstimator est (fd.ctx re im call).f (fd.ctx re im call).df (fd.ctx re im call).precision
      (Enlarged (4 * 10 ^ (-(p.1 + 1)), 4 * 10 ^ (-(p.2 + 1))) re im) pi zeros L := by rw [hprec]; exact hest
  obtain ⟨_, n2, n3⟩ := search_near hpi (limit := limit) hest' d4
  rw [halg] at hrun
  obtain ⟨n2a, n2b⟩ := n2 (fd.start interrupt) (simpleArgument est pi limit (fd.ctx re im call) (fd.start interrupt)).2
    (Prod.ext hrun rfl)
  have n3 := n3 (fd.start interrupt)
  have hnew : newRoots (fd.start interrupt) (simpleArgument est pi limit (fd.ctx re im call) (fd.start interrupt)).2 =
      (fd.algorithm (fd.ctx re im call) (fd.start interrupt)).2.added := by rw [halg]; rfl
  rw [hnew] at n2a n2b n3
  obtain ⟨a1, a2⟩ := serial_report fd hcont re im call p hp interrupt zeros n2a n2b n3
  exact ⟨a1, fun r hr => (a2 r hr).imp id And.right⟩

/-- the estimator of the examples conforms everywhere -/
theorem exFinder_good (p : ℤ × ℤ) (region : Cell ℚ) :
    GoodEstimator (crossEst exPi exZeros) exF none p region exPi exZeros (crossLine exPi exZeros) :=
  fun _ _ _ _ _ => ⟨crossEst_conforming _ _ _, crossEst_hits _ _ _⟩

/-- non-vacuity -/
example : ∃ r ∈ held (exFinder.calculateRoots (4, 0) (0, 2) none none).finder.container, 1 ≤ r.2 ∧
    Near ((10 : ℚ) ^ (-((0 : ℤ) + 1)), (10 : ℚ) ^ (-((0 : ℤ) + 1))) (⟨13 / 4, 5 / 4⟩ : Cx ℚ) r.1 :=
  (C50_serial exFinder (crossEst exPi exZeros) exPi (by unfold exPi; norm_num) 20 rfl rfl (4, 0) (0, 2) none (0, 0)
    (.inr ⟨rfl, rfl⟩) none exZeros _ (exFinder_good _ _) (by decide +kernel) (by decide +kernel)).1
    ⟨13 / 4, 5 / 4⟩ (by decide +kernel) (by unfold Requested; decide +kernel)

/-! ## C51 -/

/-- C51. The same for a parallel search with any number of processes and any schedule without interrupt: zeros in the
requested rectangle have a reported root closer than `0.55 * 10^-p`; every newly reported root is the rounding of an
exact zero (order 0) or has positive order, lies in the requested rectangle enlarged by `10^-p`, and is closer than
`0.55 * 10^-p` to a zero. -/
theorem C51_parallel (fd : Finder σ K) (est : LineEst σ K) (pi : K) (hpi : 0 < pi) (limit : ℕ)
    (halg : fd.algorithm = simpleArgument est pi limit) (hcont : RoundsFreely fd.container) (cpus : ℕ)
    (hcpus : 1 ≤ cpus) (re im : K × K) (call : Option (ℤ × ℤ)) (p : ℤ × ℤ) (hp : Asked call fd.precision p)
    (sched : Schedule) (hsched : sched.interrupted = false) (zeros : List (Cx K)) (L : ℤ → Cx K → Cx K → Cx K)
    (hest : GoodEstimator est fd.f fd.df (p.1 + 1, p.2 + 1)
      (Enlarged (4 * 10 ^ (-(p.1 + 1)), 4 * 10 ^ (-(p.2 + 1))) re im) pi zeros L) :
    let s := fd.calculateRootsParallel cpus re im call sched
    s.outcome = .ok () →
    (∀ z ∈ zeros, Requested re im z → ∃ r ∈ held s.finder.container, 1 ≤ r.2 ∧
      Near (55 / 100 * 10 ^ (-p.1), 55 / 100 * 10 ^ (-p.2)) z r.1) ∧
    ∀ r ∈ held s.finder.container, r ∈ held fd.container ∨
      (r.2 = 0 ∧ ∃ z, fd.f z = 0 ∧ RoundsTo p z r.1) ∨
      (1 ≤ r.2 ∧ RequestedWithin (10 ^ (-p.1), 10 ^ (-p.2)) re im r.1 ∧
        ∃ z ∈ zeros, Near (55 / 100 * 10 ^ (-p.1), 55 / 100 * 10 ^ (-p.2)) z r.1) := by
  intro s hok
  obtain ⟨d1, d2, d3, d4⟩ := C46_domain re im (p.1 + 1, p.2 + 1)
  simp only [s, Finder.calculateRootsParallel, hsched, Bool.false_eq_true, if_false, searchPrecision_asked hp] at hok ⊢
  generalize hdom : desymmetrizeDomain re im (p.1 + 1, p.2 + 1) = dom at *
  generalize hjobs : createRootJobs fd.f fd.df cpus dom.1 dom.2 (p.1 + 1, p.2 + 1) fd.verbose = jobs at *
  have hjob : ∀ job ∈ jobs, job.f = fd.f ∧ job.df = fd.df ∧ job.precision = (p.1 + 1, p.2 + 1) ∧
      Cell.In ⟨job.reRan, job.imRan, 0⟩ (Enlarged (4 * 10 ^ (-(p.1 + 1)), 4 * 10 ^ (-(p.2 + 1))) re im) := by
    intro job hj
    rw [← hjobs] at hj
    obtain ⟨h1, h2, h3, _⟩ := (C47_jobs fd.f fd.df cpus hcpus dom.1 dom.2 d1.le d2.le _ _).2.2.2.2.2 job hj
    exact ⟨h1, h2, h3, (jobs_in hcpus d1.le d2.le hj).trans d4⟩
  have hnear : ∀ job ∈ jobs, _ := fun job hj => search_near (est := est) hpi (limit := limit)
    (by rw [(hjob job hj).1, (hjob job hj).2.1, (hjob job hj).2.2.1]; exact hest) (hjob job hj).2.2.2
  generalize hres : (chunks cpus jobs.length jobs).map (runPiece fd) = results at *
  have hff : firstFailure sched (results.map Prod.fst) = .ok () := by
    rcases hf : firstFailure sched (results.map Prod.fst) with e | ⟨⟩
    · rw [hf] at hok; simp at hok
    · rfl
  rw [hff]
  dsimp only
  have hpieces := firstFailure_ok hff
  have hflat : ∀ x : Root K, x ∈ (deliver (results.map Prod.snd) sched.turns).1 ++
      (deliver (results.map Prod.snd) sched.turns).2.flatten ↔ ∃ piece ∈ chunks cpus jobs.length jobs,
        x ∈ (runPiece fd piece).2 := by
    intro x
    rw [(deliver_perm _ _).mem_iff, ← hres]
    simp only [List.mem_flatten, List.mem_map, exists_exists_and_eq_and]
  have hchunk : ∀ job, job ∈ jobs ↔ ∃ piece ∈ chunks cpus jobs.length jobs, job ∈ piece := by
    intro job
    have := chunks_flatten hcpus jobs.length jobs le_rfl
    rw [← List.mem_flatten, this]
  generalize (deliver (results.map Prod.snd) sched.turns).1 ++ (deliver (results.map Prod.snd) sched.turns).2.flatten
    = A at *
  -- what the children found
  have hfound : ∀ z ∈ zeros, Requested re im z → ∃ r ∈ A, 1 ≤ r.2 ∧
      Near (10 ^ (-(p.1 + 1)) / 2, 10 ^ (-(p.2 + 1)) / 2) z r.1 := by
    intro z hz hreq
    have hi := d3 z hreq
    obtain ⟨job, hj, hjz⟩ := (C47_jobs fd.f fd.df cpus hcpus dom.1 dom.2 d1.le d2.le (p.1 + 1, p.2 + 1)
      fd.verbose).2.2.1 z ⟨hi.1.le, hi.2.1, hi.2.2.1.le, hi.2.2.2⟩
    rw [hjobs] at hj
    obtain ⟨piece, hpc, hjp⟩ := (hchunk job).1 hj
    have hpok : (runPiece fd piece).1 = .ok () :=
      hpieces _ (by rw [← hres]; simp only [List.mem_map, exists_exists_and_eq_and]; exact ⟨piece, hpc, rfl⟩)
    have hrun : runJobs fd.algorithm piece (fd.start none) =
        (.ok (), (runJobs fd.algorithm piece (fd.start none)).2) := Prod.ext hpok rfl
    obtain ⟨w1, w2, h1, B, hB, hs⟩ := runJobs_ok (fun ctx hc w => by
      rw [halg]; exact (hnear ctx ((hchunk ctx).2 ⟨piece, hpc, hc⟩)).1 w) hrun hjp
    rw [halg] at h1
    obtain ⟨r, hr, hr1, hr2⟩ := ((hnear job hj).2.1 w1 w2 h1).1 z hz hjz
    rw [(hjob job hj).2.2.1] at hr2
    refine ⟨r, (hflat r).2 ⟨piece, hpc, ?_⟩, hr1, hr2⟩
    have : (runPiece fd piece).2 = (runJobs fd.algorithm piece (fd.start none)).2.added := rfl
    rw [this, hB]
    exact List.mem_append_right _ (hs hr)
  have hfrom : ∀ r ∈ A, (r.2 = 0 ∧ fd.f r.1 = 0) ∨ (1 ≤ r.2 ∧ Cell.Has ⟨dom.1, dom.2, 0⟩ r.1 ∧
      ∃ z ∈ zeros, Near (10 ^ (-(p.1 + 1)) / 2, 10 ^ (-(p.2 + 1)) / 2) z r.1) := by
    intro r hr
    obtain ⟨piece, hpc, hrp⟩ := (hflat r).1 hr
    have hpok : (runPiece fd piece).1 = .ok () :=
      hpieces _ (by rw [← hres]; simp only [List.mem_map, exists_exists_and_eq_and]; exact ⟨piece, hpc, rfl⟩)
    have hrun : runJobs fd.algorithm piece (fd.start none) =
        (.ok (), (runJobs fd.algorithm piece (fd.start none)).2) := Prod.ext hpok rfl
    have hmono : ∀ ctx ∈ piece, ∀ w, ∃ A, (fd.algorithm ctx w).2.added = w.added ++ A := fun ctx hc w => by
      rw [halg]; exact (hnear ctx ((hchunk ctx).2 ⟨piece, hpc, hc⟩)).1 w
    rcases runJobs_each hmono hrun hrp with h | ⟨job, hjp, w1, w2, h1, h2⟩
    · exact absurd h (by simp [Finder.start])
    · have hj := (hchunk job).2 ⟨piece, hpc, hjp⟩
      rw [halg] at h1
      have h3 := (hnear job hj).2.2 w1 r (by rw [h1]; exact h2)
      rw [(hjob job hj).1] at h3
      rcases h3 with h | ⟨h4, h5⟩
      · exact .inl h
      · right
        refine ⟨h4, ?_, ?_⟩
        · refine ((C47_jobs fd.f fd.df cpus hcpus dom.1 dom.2 d1.le d2.le (p.1 + 1, p.2 + 1) fd.verbose).2.1 r.1).2 ?_
          exact ⟨job, by rw [hjobs]; exact hj, h5⟩
        · have := ((hnear job hj).2.1 w1 w2 h1).2 r h2 (by omega)
          rwa [(hjob job hj).2.2.1] at this
  -- the container
  have e1 : (0 : K) < 10 ^ (-p.1) := eps10_pos p.1
  have e2 : (0 : K) < 10 ^ (-p.2) := eps10_pos p.2
  have t1 : (10 : K) ^ (-p.1) = 10 * 10 ^ (-(p.1 + 1)) := eps10_succ p.1
  have t2 : (10 : K) ^ (-p.2) = 10 * 10 ^ (-(p.2 + 1)) := eps10_succ p.2
  have near : ∀ (z : Cx K) (r : Root K), Near (10 ^ (-(p.1 + 1)) / 2, 10 ^ (-(p.2 + 1)) / 2) z r.1 →
      Near (55 / 100 * 10 ^ (-p.1), 55 / 100 * 10 ^ (-p.2)) z (roundRoot r p).1 := by
    rintro z r ⟨h1, h2⟩
    refine ⟨lt_of_lt_of_le (abs_two h1 (pyRound_err r.1.re p.1)) ?_,
      lt_of_lt_of_le (abs_two h2 (pyRound_err r.1.im p.2)) ?_⟩
    · unfold eps10; rw [t1]; linarith
    · unfold eps10; rw [t2]; linarith
  have hpp : ((p.1 + 1 - 1, p.2 + 1 - 1) : ℤ × ℤ) = p := by ext <;> simp
  rw [hpp]
  generalize hfc : ({ f := fd.f, reRan := dom.1, imRan := dom.2, precision := p } : FilterCtx K) = fc
  have hfp : fc.precision = p := by rw [← hfc]
  have hkeep := fun r => keeps_of_free hcont fc r
  refine ⟨fun z hz hreq => ?_, fun r hr => ?_⟩
  · obtain ⟨r, hr, h1, h2⟩ := hfound z hz hreq
    refine ⟨roundRoot r p, ?_, h1, near z r h2⟩
    rw [(mem_held_addRoots _ _ _ _ _).1 ⟨r, hr, (hkeep r).1⟩]
    exact .inl ⟨r, hr, (hkeep r).1, by rw [(hkeep r).2, hfp]⟩
  · by_cases hex : ∃ q ∈ A, fd.container.keeps fc q = true
    · rw [(mem_held_addRoots _ _ _ _ _).1 hex] at hr
      rcases hr with ⟨q, hq, _, rfl⟩ | ⟨_, hr⟩
      · right
        rw [(hkeep q).2, hfp]
        rcases hfrom q hq with h | ⟨h1, h2, z, hz, hzn⟩
        · exact .inl ⟨h.1, q.1, h.2, roundsTo_roundRoot _ _⟩
        · right
          refine ⟨h1, ?_, z, hz, near z q hzn⟩
          obtain ⟨a1, _, a3, a4, _, a6⟩ := d4
          obtain ⟨b1, b2, b3, b4⟩ := h2
          have r1 := abs_le.1 (pyRound_err q.1.re p.1)
          have r2 := abs_le.1 (pyRound_err q.1.im p.2)
          unfold eps10 at r1 r2
          simp only [Enlarged] at a1 a3 a4 a6
          dsimp only at b1 b2 b3 b4
          unfold RequestedWithin roundRoot
          dsimp only
          refine ⟨?_, ?_, ?_, ?_⟩ <;> linarith
      · exact .inl hr
    · rw [(mem_held_addRoots _ _ _ _ r).2 hex] at hr
      exact .inl hr

/-- non-vacuity: two processes -/
example : ∃ r ∈ held (exFinder.calculateRootsParallel 2 (0, 4) (0, 2) none ⟨[1, 0], false, 0⟩).finder.container, 1 ≤ r.2 ∧
    Near (55 / 100 * (10 : ℚ) ^ (-(0 : ℤ)), 55 / 100 * (10 : ℚ) ^ (-(0 : ℤ))) (⟨13 / 4, 5 / 4⟩ : Cx ℚ) r.1 :=
  (C51_parallel exFinder (crossEst exPi exZeros) exPi (by unfold exPi; norm_num) 20 rfl rfl 2 (by omega) (0, 4) (0, 2)
    none (0, 0) (.inr ⟨rfl, rfl⟩) ⟨[1, 0], false, 0⟩ rfl exZeros _ (exFinder_good _ _) (by decide +kernel)).1
    ⟨13 / 4, 5 / 4⟩ (by decide +kernel) (by unfold Requested; decide +kernel)

/-! ## C52 -/

/-- C52 fails for serial searches: asked for 0 decimals, the finder reports roots with one decimal. -/
theorem C52_counterexample : exFinder.precision = (0, 0) ∧
    ∃ r ∈ held (exFinder.calculateRoots (0, 4) (0, 2) none none).finder.container, ¬ HasDecimals 0 r.1.re := by
  refine ⟨rfl, (⟨3 / 10, 1 / 5⟩, 2), by decide +kernel, ?_⟩
  rintro ⟨n, hn⟩
  have h : (3 / 10 : ℚ) = n := by simpa using hn
  have h2 : (3 : ℚ) = 10 * n := by rw [← h]; norm_num
  have h3 : (3 : ℤ) = 10 * n := by exact_mod_cast h2
  omega

/-- C52, what holds for serial searches: newly reported roots have one decimal more than asked for, at most. -/
theorem C52_serial_partial (fd : Finder σ K) (c : RContainer K) (hc : fd.container = .rounding c) (re im : K × K)
    (call : Option (ℤ × ℤ)) (p : ℤ × ℤ) (hp : Asked call fd.precision p) (interrupt : Option ℕ) :
    ∀ r ∈ held (fd.calculateRoots re im call interrupt).finder.container, r ∈ held fd.container ∨
      (HasDecimals (p.1 + 1) r.1.re ∧ HasDecimals (p.2 + 1) r.1.im) := by
  intro r hr
  rw [calculateRoots_container, hc] at hr
  have hprec : (fd.ctx re im call).toFilter.precision = (p.1 + 1, p.2 + 1) := searchPrecision_asked hp
  rw [hc]
  by_cases hex : ∃ q ∈ (fd.algorithm (fd.ctx re im call) (fd.start interrupt)).2.added,
      (AnyContainer.rounding c).keeps (fd.ctx re im call).toFilter q = true
  · rw [(mem_held_addRoots _ _ _ _ _).1 hex] at hr
    rcases hr with ⟨q, _, _, rfl⟩ | ⟨_, hr⟩
    · right
      simp only [AnyContainer.form, roundRoot, hprec]
      exact ⟨pyRound_hasDecimals _ _, pyRound_hasDecimals _ _⟩
    · exact .inl hr
  · rw [(mem_held_addRoots _ _ _ _ r).2 hex] at hr
    exact .inl hr

/-- C52 for parallel searches: newly reported roots have at most the number of decimals asked for. -/
theorem C52_parallel (fd : Finder σ K) (c : RContainer K) (hc : fd.container = .rounding c) (cpus : ℕ) (re im : K × K)
    (call : Option (ℤ × ℤ)) (p : ℤ × ℤ) (hp : Asked call fd.precision p) (sched : Schedule) :
    ∀ r ∈ held (fd.calculateRootsParallel cpus re im call sched).finder.container, r ∈ held fd.container ∨
      (HasDecimals p.1 r.1.re ∧ HasDecimals p.2 r.1.im) := by
  intro r hr
  unfold Finder.calculateRootsParallel at hr
  simp only [searchPrecision_asked hp] at hr
  have hpp : ((p.1 + 1 - 1, p.2 + 1 - 1) : ℤ × ℤ) = p := by ext <;> simp
  rw [hpp] at hr
  split at hr
  · dsimp only at hr
    rw [hc] at hr ⊢
    generalize (if sched.interrupted = true then _ else _ : List (Root K)) = A at hr
    generalize hfc : ({ f := fd.f, reRan := _, imRan := _, precision := p } : FilterCtx K) = fc at hr
    have hfp : fc.precision = p := by rw [← hfc]
    by_cases hex : ∃ q ∈ A, (AnyContainer.rounding c).keeps fc q = true
    · rw [(mem_held_addRoots _ _ _ _ _).1 hex] at hr
      rcases hr with ⟨q, _, _, rfl⟩ | ⟨_, hr⟩
      · right
        simp only [AnyContainer.form, roundRoot, hfp]
        exact ⟨pyRound_hasDecimals _ _, pyRound_hasDecimals _ _⟩
      · exact .inl hr
    · rw [(mem_held_addRoots _ _ _ _ r).2 hex] at hr
      exact .inl hr
  · exact .inl hr

/-! ## C53 -/

/-- the precision a user gets: the argument of the call, or else of the constructor, or else of the settings -/
inductive Precedence (settings : ℤ × ℤ) : Option (ℤ × ℤ) → Option (ℤ × ℤ) → ℤ × ℤ → Prop
  | call (ctor : Option (ℤ × ℤ)) (p : ℤ × ℤ) : Precedence settings ctor (some p) p
  | ctor (p : ℤ × ℤ) : Precedence settings (some p) none p
  | settings : Precedence settings none none settings

/-- C53. For a new finder and a call of `calculateRoots`, let `p` be the precision given in the call, else in the
constructor, else in the settings. The search is the one with `p` given explicitly, and it depends on the algorithm only
through contexts with precision `p + 1`: an algorithm which behaves the same on those gives the same result. -/
theorem C53_precedence (f : Cx K → Cx K) (df : Option (Cx K → Cx K)) (alg : RCtx K → Py (World σ K) Unit)
    (cache : EstCache K) (est : σ) (newContainer : Option (ℤ × ℤ) → AnyContainer K) (info : Bool)
    (ctor call : Option (ℤ × ℤ)) (verbose : Option Bool) (settings : FinderSettings) (p : ℤ × ℤ)
    (hp : Precedence settings.precision ctor call p) (re im : K × K) (interrupt : Option ℕ) (cpus : ℕ)
    (sched : Schedule) :
    let fd := Finder.init f df alg cache est newContainer info ctor verbose settings
    fd.calculateRoots re im call interrupt = fd.calculateRoots re im (some p) interrupt ∧
    fd.calculateRootsParallel cpus re im call sched = fd.calculateRootsParallel cpus re im (some p) sched ∧
    ∀ alg' : RCtx K → Py (World σ K) Unit, (∀ ctx, ctx.precision = (p.1 + 1, p.2 + 1) → alg' ctx = alg ctx) →
      let fd' := Finder.init f df alg' cache est newContainer info ctor verbose settings
      let a := fd.calculateRoots re im call interrupt
      let b := fd'.calculateRoots re im call interrupt
      let c := fd.calculateRootsParallel cpus re im call sched
      let d := fd'.calculateRootsParallel cpus re im call sched
      b.outcome = a.outcome ∧ b.warned = a.warned ∧ b.finder.container = a.finder.container ∧
      d.outcome = c.outcome ∧ d.warned = c.warned ∧ d.finder.container = c.finder.container := by
  intro fd
  have hs : searchPrecision call fd.precision = (p.1 + 1, p.2 + 1) := by cases hp <;> rfl
  refine ⟨?_, ?_, fun alg' h => ?_⟩
  · unfold Finder.calculateRoots; rw [hs]; rfl
  · unfold Finder.calculateRootsParallel; rw [hs]; rfl
  intro fd' a b c d
  have hs' : searchPrecision call fd'.precision = (p.1 + 1, p.2 + 1) := hs
  have hctx : fd'.ctx re im call = fd.ctx re im call := rfl
  have halg : fd'.algorithm (fd'.ctx re im call) = fd.algorithm (fd.ctx re im call) := h _ hs
  have hst : fd'.start interrupt = fd.start interrupt := rfl
  obtain ⟨e1, e2⟩ := calculateRoots_outcome fd re im call interrupt
  obtain ⟨f1, f2⟩ := calculateRoots_outcome fd' re im call interrupt
  refine ⟨?_, ?_, ?_, ?_⟩
  · simp only [a, b]; rw [e1, f1, halg, hst]
  · simp only [a, b]; rw [e2, f2, halg, hst]
  · simp only [a, b]; rw [calculateRoots_container, calculateRoots_container, halg, hst, hctx]; rfl
  have hpiece : ∀ jobs : List (RCtx K), (∀ j ∈ jobs, j.precision = (p.1 + 1, p.2 + 1)) →
      runPiece fd' jobs = runPiece fd jobs := by
    intro jobs hj
    have : runJobs alg' jobs = runJobs alg jobs := by
      induction jobs with
      | nil => rfl
      | cons j jobs ih =>
        rw [runJobs, runJobs, h j (hj j (by simp)), ih fun j' h' => hj j' (by simp [h'])]
    unfold runPiece
    change (_, _) = (_, _)
    have e : fd'.algorithm = alg' := rfl
    have e' : fd.algorithm = alg := rfl
    rw [e, e', this]; rfl
  have hchunk : ∀ n (jobs : List (RCtx K)), ∀ piece ∈ chunks cpus n jobs, ∀ j ∈ piece, j ∈ jobs := by
    intro n
    induction n with
    | zero => intro jobs piece hp; simp [chunks] at hp
    | succ n ih =>
      intro jobs piece hp j hj
      rcases jobs with _ | ⟨x, jobs⟩
      · simp [chunks] at hp
      · rw [chunks] at hp
        rcases List.mem_cons.1 hp with rfl | hp
        · exact List.mem_of_mem_take hj
        · exact List.mem_of_mem_drop (ih _ piece hp j hj)
  have hres : ∀ jobs : List (RCtx K), (∀ j ∈ jobs, j.precision = (p.1 + 1, p.2 + 1)) →
      (chunks cpus jobs.length jobs).map (runPiece fd') = (chunks cpus jobs.length jobs).map (runPiece fd) := by
    intro jobs hj
    apply List.map_congr_left
    intro piece hp
    exact hpiece piece fun j h' => hj j (hchunk _ _ piece hp j h')
  have hj : ∀ re im, ∀ j ∈ createRootJobs f df cpus re im (p.1 + 1, p.2 + 1) fd.verbose,
      j.precision = (p.1 + 1, p.2 + 1) := by
    intro re im j hj
    obtain ⟨_, _, _, _, rfl⟩ := mem_jobs.1 hj
    rfl
  simp only [c, d, Finder.calculateRootsParallel, hs, hs']
  have e1 : fd'.f = f := rfl
  have e2 : fd'.df = df := rfl
  have e3 : fd.f = f := rfl
  have e4 : fd.df = df := rfl
  have e5 : fd'.verbose = fd.verbose := rfl
  rw [e1, e2, e3, e4, e5, hres _ (hj _ _)]
  split
  · exact ⟨rfl, rfl, rfl⟩
  · exact ⟨rfl, rfl, rfl⟩

/-- non-vacuity: a call without precision on a finder constructed without precision -/
example : Precedence (5, 5) none none (5, 5) := .settings

/-! ## C86 -/

/-- C86 fails: an exception leaves the progress bar running. -/
theorem C86_counterexample :
    let fd : Finder Unit ℚ := { exFinder with
      algorithm := simpleArgument (crossEst exPi exZeros) exPi 4
      verbose := true }
    (fd.calculateRoots (0, 4) (0, 2) none none).outcome = .error .recursionError ∧
    ((fd.calculateRoots (0, 4) (0, 2) none none).bar.map Bar.running) = some true := by decide +kernel

/-- C86, what holds: if the call returns (also after an interrupt), no progress bar is left running. -/
theorem C86_bar_stopped_partial (fd : Finder σ K) (re im : K × K) (p : Option (ℤ × ℤ)) (interrupt : Option ℕ)
    (h : (fd.calculateRoots re im p interrupt).outcome = .ok ()) :
    ∀ bar, (fd.calculateRoots re im p interrupt).bar = some bar → bar.running = false := by
  intro bar hb
  simp only [Finder.calculateRoots] at h hb
  split at hb
  · dsimp only at hb
    split at hb
    · cases hb; rfl
    · simp at hb
  · dsimp only at hb
    split at hb
    · cases hb; rfl
    · simp at hb
  · rename_i e hne heq
    rw [heq] at h
    exfalso
    rcases e <;> simp_all

/-- non-vacuity -/
example : ((({ exFinder with verbose := true } : Finder Unit ℚ).calculateRoots (0, 4) (0, 2) none none).bar.map
    fun b => (b.total, b.running)) = some (43 / 10 * (27 / 10), false) := by decide +kernel

/-! ## C87 -/

/-- a history of calls of `calculateRoots` on one finder, all with precision `p`; each may be interrupted or raise (the
caller catches the exception) -/
def searches (p : ℤ × ℤ) (fd : Finder σ K) : List ((K × K) × (K × K) × Option ℕ) → Finder σ K
  | [] => fd
  | (re, im, i) :: rest => searches p (fd.calculateRoots re im (some p) i).finder rest

/-- the same for a parallel finder -/
def searchesParallel (p : ℤ × ℤ) (cpus : ℕ) (fd : Finder σ K) : List ((K × K) × (K × K) × Schedule) → Finder σ K
  | [] => fd
  | (re, im, s) :: rest => searchesParallel p cpus (fd.calculateRootsParallel cpus re im (some p) s).finder rest

theorem addRoots_filled (info : Bool) (ctx : FilterCtx K) (c : AnyContainer K) (rs : List (Root K))
    (h : IsEmpty c ∨ FilledWith ctx.precision c) :
    IsEmpty (c.addRoots info ctx rs) ∨ FilledWith ctx.precision (c.addRoots info ctx rs) := by
  rcases c with c | c
  · rw [addRoots_rounding]
    have h' := foldl_add ctx (rs.map fun r => (info, r)) c
    dsimp only at h'
    obtain ⟨_, h2, h3⟩ := h'
    by_cases hex : ∃ r ∈ rs.map fun r => (info, r), c.accepts r.2 ctx = true
    · exact .inr (h2 hex).1
    · rw [h3 hex]; exact h
  · rw [addRoots_plain]; exact .inr trivial

/-- C87. Searches with one precision accumulate: whatever a finder (with a container that is empty, or was filled by
searches of this precision) holds at some time is still held after any further searches with the same precision. -/
theorem C87_accumulate (fd : Finder σ K) (p : ℤ × ℤ)
    (h : IsEmpty fd.container ∨ FilledWith (p.1 + 1, p.2 + 1) fd.container)
    (calls : List ((K × K) × (K × K) × Option ℕ)) :
    ∀ r ∈ held fd.container, r ∈ held (searches p fd calls).container := by
  induction calls generalizing fd with
  | nil => exact fun r hr => hr
  | cons c calls ih =>
    obtain ⟨re, im, i⟩ := c
    intro r hr
    have hc := calculateRoots_container fd re im (some p) i
    apply ih
    · rw [hc]; exact addRoots_filled _ (fd.ctx re im (some p)).toFilter _ _ h
    · rw [hc]; exact held_keeps _ (fd.ctx re im (some p)).toFilter _ _ h hr

/-- C87 for parallel finders -/
theorem C87_accumulate_parallel (fd : Finder σ K) (p : ℤ × ℤ) (cpus : ℕ)
    (h : IsEmpty fd.container ∨ FilledWith p fd.container)
    (calls : List ((K × K) × (K × K) × Schedule)) :
    ∀ r ∈ held fd.container, r ∈ held (searchesParallel p cpus fd calls).container := by
  induction calls generalizing fd with
  | nil => exact fun r hr => hr
  | cons c calls ih =>
    obtain ⟨re, im, s⟩ := c
    intro r hr
    have hpp : ((p.1 + 1 - 1, p.2 + 1 - 1) : ℤ × ℤ) = p := by ext <;> simp
    have hc : (fd.calculateRootsParallel cpus re im (some p) s).finder.container = fd.container ∨
        ∃ info ctx rs, ctx.precision = p ∧ (fd.calculateRootsParallel cpus re im (some p) s).finder.container =
          fd.container.addRoots info ctx rs := by
      simp only [Finder.calculateRootsParallel, searchPrecision, Option.getD_some, hpp]
      split
      · exact .inr ⟨_, _, _, rfl, rfl⟩
      · exact .inl rfl
    rcases hc with hc | ⟨info, ctx, rs, hp, hc⟩
    · apply ih
      · rw [hc]; exact h
      · rw [hc]; exact hr
    · apply ih
      · rw [hc, ← hp]; exact addRoots_filled _ _ _ _ (hp ▸ h)
      · rw [hc]; exact held_keeps _ _ _ _ (hp ▸ h) hr

/-- non-vacuity: the second search finds the second root -/
example : IsEmpty exFinder.container := rfl
example : held (searches (0, 0) exFinder [((0, 1), (0, 1), none), ((3, 4), (1, 2), none)]).container =
    [(⟨3 / 10, 3 / 10⟩, 2), (⟨33 / 10, 13 / 10⟩, 1)] := by decide +kernel

end PyZeal.Props
