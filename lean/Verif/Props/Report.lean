import Verif.Spec.Report
import Verif.Props.Finder
import Verif.Props.Variants

/-! # Properties C114, C115, C116: what finders report, whatever their algorithm -/

set_option linter.unusedSectionVars false

namespace PyZeal.Props
open Spec
variable {σ K : Type} [Field K] [LinearOrder K] [IsStrictOrderedRing K] [FloorRing K]

/-! ## Jobs of a child process -/

/-- completed jobs only add roots -/
theorem runJobs_prefix {alg : RCtx K → Py (World σ K) Unit} {jobs : List (RCtx K)}
    (hmono : ∀ ctx ∈ jobs, ∀ w w', alg ctx w = (.ok (), w') → w.added <+: w'.added) {w w' : World σ K}
    (h : runJobs alg jobs w = (.ok (), w')) : w.added <+: w'.added := by
  induction jobs generalizing w with
  | nil =>
    have h : ((.ok (), w) : Except Err Unit × World σ K) = (.ok (), w') := h
    cases h; exact List.prefix_refl _
  | cons c jobs ih =>
    rw [runJobs, Py.bind_run] at h
    rcases hcw : alg c w with ⟨e | ⟨⟩, w1⟩ <;> rw [hcw] at h
    · simp at h
    · exact (hmono c (by simp) w w1 hcw).trans (ih (fun ctx hc => hmono ctx (by simp [hc])) h)

/-- the roots of completed jobs are those of the single jobs -/
theorem runJobs_mem {alg : RCtx K → Py (World σ K) Unit} {jobs : List (RCtx K)}
    (hmono : ∀ ctx ∈ jobs, ∀ w w', alg ctx w = (.ok (), w') → w.added <+: w'.added) {w w' : World σ K}
    (h : runJobs alg jobs w = (.ok (), w')) (r : Root K) :
    (r ∈ w'.added → r ∈ w.added ∨ ∃ ctx ∈ jobs, ∃ w1 w2, alg ctx w1 = (.ok (), w2) ∧ r ∈ newRoots w1 w2) := by
  induction jobs generalizing w with
  | nil =>
    have h : ((.ok (), w) : Except Err Unit × World σ K) = (.ok (), w') := h
    cases h; exact .inl
  | cons c jobs ih =>
    intro hr
    rw [runJobs, Py.bind_run] at h
    rcases hcw : alg c w with ⟨e | ⟨⟩, w1⟩ <;> rw [hcw] at h
    · simp at h
    · rcases ih (fun ctx hc => hmono ctx (by simp [hc])) h hr with h1 | ⟨ctx, hc, w2, w3, h2, h3⟩
      · obtain ⟨A, hA⟩ := hmono c (by simp) w w1 hcw
        rw [← hA, List.mem_append] at h1
        rcases h1 with h1 | h1
        · exact .inl h1
        · refine .inr ⟨c, by simp, w, w1, hcw, ?_⟩
          unfold newRoots
          rw [← hA]
          simpa using h1
      · exact .inr ⟨ctx, by simp [hc], w2, w3, h2, h3⟩

/-- each job of a completed run contributes its roots -/
theorem runJobs_job {alg : RCtx K → Py (World σ K) Unit} {jobs : List (RCtx K)}
    (hmono : ∀ ctx ∈ jobs, ∀ w w', alg ctx w = (.ok (), w') → w.added <+: w'.added) {w w' : World σ K}
    (h : runJobs alg jobs w = (.ok (), w')) {ctx : RCtx K} (hc : ctx ∈ jobs) :
    ∃ w1 w2, alg ctx w1 = (.ok (), w2) ∧ ∀ r ∈ newRoots w1 w2, r ∈ w'.added := by
  induction jobs generalizing w with
  | nil => simp at hc
  | cons c jobs ih =>
    rw [runJobs, Py.bind_run] at h
    rcases hcw : alg c w with ⟨e | ⟨⟩, w1⟩ <;> rw [hcw] at h
    · simp at h
    · have hm : ∀ ctx ∈ jobs, ∀ w w', alg ctx w = (.ok (), w') → w.added <+: w'.added := fun ctx hc => hmono ctx (by simp [hc])
      rcases List.mem_cons.1 hc with rfl | hc
      · refine ⟨w, w1, hcw, fun r hr => (runJobs_prefix hm h).subset ?_⟩
        exact List.mem_of_mem_drop hr
      · exact ih hm h hc

/-! ## C114 -/

/-- rounding a candidate -/
theorem near_rounded {eps : K × K} {z : Cx K} {r : Root K} (h : Near eps z r.1) (p : ℤ × ℤ) :
    Near (eps.1 + 10 ^ (-p.1) / 2, eps.2 + 10 ^ (-p.2) / 2) z (roundRoot r p).1 :=
  ⟨abs_two h.1 (pyRound_err r.1.re p.1), abs_two h.2 (pyRound_err r.1.im p.2)⟩

/-- the container after the transfer of candidates -/
theorem report_of {c : AnyContainer K} (hc : RoundsFreely c) (info : Bool) (fc : FilterCtx K) (A : List (Root K)) :
    (∀ r ∈ A, roundRoot r fc.precision ∈ held (c.addRoots info fc A)) ∧
    ∀ r ∈ held (c.addRoots info fc A), r ∈ held c ∨ ∃ q ∈ A, r = roundRoot q fc.precision := by
  have hkeep := fun r => keeps_of_free hc fc r
  refine ⟨fun r hr => ?_, fun r hr => ?_⟩
  · rw [(mem_held_addRoots _ _ _ _ _).1 ⟨r, hr, (hkeep r).1⟩]
    exact .inl ⟨r, hr, (hkeep r).1, by rw [(hkeep r).2]⟩
  · by_cases hex : ∃ q ∈ A, c.keeps fc q = true
    · rw [(mem_held_addRoots _ _ _ _ _).1 hex] at hr
      rcases hr with ⟨q, hq, _, rfl⟩ | ⟨_, hr⟩
      · exact .inr ⟨q, hq, (hkeep q).2⟩
      · exact .inl hr
    · rw [(mem_held_addRoots _ _ _ _ r).2 hex] at hr
      exact .inl hr

/-- what is asked of one search (see `Sound`); the roots of order 0 satisfy `Z` -/
def SoundAt (alg : RCtx K → Py (World σ K) Unit) (ctx : RCtx K) (Z : Cx K → Prop) (zeros : List (Cx K)) (eps : K × K) : Prop :=
  ∀ w w', alg ctx w = (.ok (), w') →
    w.added <+: w'.added ∧
    (∀ z ∈ zeros, Cell.HasHalfOpen ⟨ctx.reRan, ctx.imRan, 0⟩ z → ∃ r ∈ newRoots w w', 1 ≤ r.2 ∧ Near eps z r.1) ∧
    ∀ r ∈ newRoots w w', (r.2 = 0 ∧ Z r.1) ∨
      (1 ≤ r.2 ∧ ∃ z ∈ zeros, Cell.HasHalfOpen ⟨ctx.reRan, ctx.imRan, 0⟩ z ∧ Near eps z r.1)

/-- the last two parts for the run from one state -/
def SoundFrom (alg : RCtx K → Py (World σ K) Unit) (ctx : RCtx K) (Z : Cx K → Prop) (zeros : List (Cx K)) (eps : K × K) (w : World σ K) : Prop :=
  ∀ w', alg ctx w = (.ok (), w') →
    (∀ z ∈ zeros, Cell.HasHalfOpen ⟨ctx.reRan, ctx.imRan, 0⟩ z → ∃ r ∈ newRoots w w', 1 ≤ r.2 ∧ Near eps z r.1) ∧
    ∀ r ∈ newRoots w w', (r.2 = 0 ∧ Z r.1) ∨
      (1 ≤ r.2 ∧ ∃ z ∈ zeros, Cell.HasHalfOpen ⟨ctx.reRan, ctx.imRan, 0⟩ z ∧ Near eps z r.1)

theorem serial_sound_from (fd : Finder σ K) (hcont : RoundsFreely fd.container) (re im : K × K) (call : Option (ℤ × ℤ)) (p : ℤ × ℤ)
    (hp : Asked call fd.precision p) (interrupt : Option ℕ) (Z : Cx K → Prop) (zeros : List (Cx K)) (eps : K × K)
    (halg : SoundFrom fd.algorithm (fd.ctx re im call) Z zeros eps (fd.start interrupt)) :
    let s := fd.calculateRoots re im call interrupt
    s.outcome = .ok () → s.warned = false →
    (∀ z ∈ zeros, Requested re im z → ∃ r ∈ held s.finder.container, 1 ≤ r.2 ∧
      Near (eps.1 + 10 ^ (-(p.1 + 1)) / 2, eps.2 + 10 ^ (-(p.2 + 1)) / 2) z r.1) ∧
    ∀ r ∈ held s.finder.container, r ∈ held fd.container ∨
      (r.2 = 0 ∧ ∃ z, Z z ∧ RoundsTo (p.1 + 1, p.2 + 1) z r.1) ∨
      (1 ≤ r.2 ∧ ∃ z ∈ zeros, Cell.Has (Enlarged (4 * 10 ^ (-(p.1 + 1)), 4 * 10 ^ (-(p.2 + 1))) re im) z ∧
        Near (eps.1 + 10 ^ (-(p.1 + 1)) / 2, eps.2 + 10 ^ (-(p.2 + 1)) / 2) z r.1) := by
  intro s hok hwarn
  have hrun := calculateRoots_done hok hwarn
  have hc := calculateRoots_container fd re im call interrupt
  have hprec : (fd.ctx re im call).precision = (p.1 + 1, p.2 + 1) := searchPrecision_asked hp
  obtain ⟨_, _, d3, d4⟩ := C46_domain re im (p.1 + 1, p.2 + 1)
  have hd1 : (fd.ctx re im call).reRan = (desymmetrizeDomain re im (p.1 + 1, p.2 + 1)).1 := by
    rw [← searchPrecision_asked hp]; rfl
  have hd2 : (fd.ctx re im call).imRan = (desymmetrizeDomain re im (p.1 + 1, p.2 + 1)).2 := by
    rw [← searchPrecision_asked hp]; rfl
  rw [← hd1, ← hd2] at d3 d4
  obtain ⟨n2, n3⟩ := halg _ (Prod.ext hrun rfl)
  have hnew : newRoots (fd.start interrupt) (fd.algorithm (fd.ctx re im call) (fd.start interrupt)).2 =
      (fd.algorithm (fd.ctx re im call) (fd.start interrupt)).2.added := rfl
  rw [hnew] at n2 n3
  obtain ⟨r1, r2⟩ := report_of hcont fd.info (fd.ctx re im call).toFilter (fd.algorithm (fd.ctx re im call) (fd.start interrupt)).2.added
  rw [← hc, show (fd.ctx re im call).toFilter.precision = (p.1 + 1, p.2 + 1) from hprec] at r1 r2
  refine ⟨fun z hz hreq => ?_, fun r hr => ?_⟩
  · have hi := d3 z hreq
    obtain ⟨r, hr, h1, h2⟩ := n2 z hz ⟨hi.1.le, hi.2.1, hi.2.2.1.le, hi.2.2.2⟩
    exact ⟨_, r1 r hr, h1, near_rounded h2 _⟩
  · rcases r2 r hr with h | ⟨q, hq, rfl⟩
    · exact .inl h
    · right
      rcases n3 q hq with ⟨h1, h2⟩ | ⟨h1, z, hz, hin, h2⟩
      · exact .inl ⟨h1, q.1, h2, roundsTo_roundRoot _ _⟩
      · refine .inr ⟨h1, z, hz, ?_, near_rounded h2 _⟩
        obtain ⟨a1, a2, a3, a4, a5, a6⟩ := d4
        obtain ⟨b1, b2, b3, b4⟩ := hin
        exact ⟨a1.trans b1, b2.le.trans a3, a4.trans b3, b4.le.trans a6⟩

theorem serial_sound (fd : Finder σ K) (hcont : RoundsFreely fd.container) (re im : K × K) (call : Option (ℤ × ℤ)) (p : ℤ × ℤ)
    (hp : Asked call fd.precision p) (interrupt : Option ℕ) (Z : Cx K → Prop) (zeros : List (Cx K)) (eps : K × K)
    (halg : SoundAt fd.algorithm (fd.ctx re im call) Z zeros eps) :
    let s := fd.calculateRoots re im call interrupt
    s.outcome = .ok () → s.warned = false →
    (∀ z ∈ zeros, Requested re im z → ∃ r ∈ held s.finder.container, 1 ≤ r.2 ∧
      Near (eps.1 + 10 ^ (-(p.1 + 1)) / 2, eps.2 + 10 ^ (-(p.2 + 1)) / 2) z r.1) ∧
    ∀ r ∈ held s.finder.container, r ∈ held fd.container ∨
      (r.2 = 0 ∧ ∃ z, Z z ∧ RoundsTo (p.1 + 1, p.2 + 1) z r.1) ∨
      (1 ≤ r.2 ∧ ∃ z ∈ zeros, Cell.Has (Enlarged (4 * 10 ^ (-(p.1 + 1)), 4 * 10 ^ (-(p.2 + 1))) re im) z ∧
        Near (eps.1 + 10 ^ (-(p.1 + 1)) / 2, eps.2 + 10 ^ (-(p.2 + 1)) / 2) z r.1) :=
  serial_sound_from fd hcont re im call p hp interrupt Z zeros eps fun w' h => (halg _ w' h).2

/-- C114, serial. Whatever algorithm the finder uses (also one provided by a plugin): if it is sound with tolerance `eps` near the requested rectangle
and the call returns without warning, then every zero in the requested rectangle has a reported root of positive order within
`eps + 0.5 * 10^-(p+1)`; and every newly reported root is the rounding of an exact zero (order 0) or has positive order and is that close to
a zero at most `4 * 10^-(p+1)` outside the requested rectangle. -/
theorem C114_serial (fd : Finder σ K) (hcont : RoundsFreely fd.container) (re im : K × K) (call : Option (ℤ × ℤ)) (p : ℤ × ℤ)
    (hp : Asked call fd.precision p) (interrupt : Option ℕ) (zeros : List (Cx K)) (eps : K × K)
    (halg : Sound fd.algorithm fd.f fd.df (p.1 + 1, p.2 + 1) (Enlarged (4 * 10 ^ (-(p.1 + 1)), 4 * 10 ^ (-(p.2 + 1))) re im) zeros eps) :
    let s := fd.calculateRoots re im call interrupt
    s.outcome = .ok () → s.warned = false →
    (∀ z ∈ zeros, Requested re im z → ∃ r ∈ held s.finder.container, 1 ≤ r.2 ∧
      Near (eps.1 + 10 ^ (-(p.1 + 1)) / 2, eps.2 + 10 ^ (-(p.2 + 1)) / 2) z r.1) ∧
    ∀ r ∈ held s.finder.container, r ∈ held fd.container ∨
      (r.2 = 0 ∧ ∃ z, fd.f z = 0 ∧ RoundsTo (p.1 + 1, p.2 + 1) z r.1) ∨
      (1 ≤ r.2 ∧ ∃ z ∈ zeros, Cell.Has (Enlarged (4 * 10 ^ (-(p.1 + 1)), 4 * 10 ^ (-(p.2 + 1))) re im) z ∧
        Near (eps.1 + 10 ^ (-(p.1 + 1)) / 2, eps.2 + 10 ^ (-(p.2 + 1)) / 2) z r.1) := by
  intro s hok hwarn
  have hprec : (fd.ctx re im call).precision = (p.1 + 1, p.2 + 1) := searchPrecision_asked hp
  obtain ⟨_, _, _, d4⟩ := C46_domain re im (p.1 + 1, p.2 + 1)
  have hd1 : (fd.ctx re im call).reRan = (desymmetrizeDomain re im (p.1 + 1, p.2 + 1)).1 := by
    rw [← searchPrecision_asked hp]; rfl
  have hd2 : (fd.ctx re im call).imRan = (desymmetrizeDomain re im (p.1 + 1, p.2 + 1)).2 := by
    rw [← searchPrecision_asked hp]; rfl
  rw [← hd1, ← hd2] at d4
  exact serial_sound fd hcont re im call p hp interrupt (fun z => fd.f z = 0) zeros eps
    (fun w w' h => halg (fd.ctx re im call) rfl rfl hprec d4 w w' h) hok hwarn

theorem parallel_sound (fd : Finder σ K) (hcont : RoundsFreely fd.container) (cpus : ℕ) (hcpus : 1 ≤ cpus) (re im : K × K)
    (call : Option (ℤ × ℤ)) (p : ℤ × ℤ) (hp : Asked call fd.precision p) (sched : Schedule) (hsched : sched.interrupted = false)
    (Z : Cx K → Prop) (zeros : List (Cx K)) (eps : K × K)
    (halg : ∀ job ∈ createRootJobs fd.f fd.df cpus (desymmetrizeDomain re im (p.1 + 1, p.2 + 1)).1 (desymmetrizeDomain re im (p.1 + 1, p.2 + 1)).2
      (p.1 + 1, p.2 + 1) fd.verbose, SoundAt fd.algorithm job Z zeros eps) :
    let s := fd.calculateRootsParallel cpus re im call sched
    s.outcome = .ok () →
    (∀ z ∈ zeros, Requested re im z → ∃ r ∈ held s.finder.container, 1 ≤ r.2 ∧
      Near (eps.1 + 10 ^ (-p.1) / 2, eps.2 + 10 ^ (-p.2) / 2) z r.1) ∧
    ∀ r ∈ held s.finder.container, r ∈ held fd.container ∨
      (r.2 = 0 ∧ ∃ z, Z z ∧ RoundsTo p z r.1) ∨
      (1 ≤ r.2 ∧ ∃ z ∈ zeros, Cell.Has (Enlarged (4 * 10 ^ (-(p.1 + 1)), 4 * 10 ^ (-(p.2 + 1))) re im) z ∧
        Near (eps.1 + 10 ^ (-p.1) / 2, eps.2 + 10 ^ (-p.2) / 2) z r.1) := by
  intro s hok
  obtain ⟨d1, d2, d3, d4⟩ := C46_domain re im (p.1 + 1, p.2 + 1)
  simp only [s, Finder.calculateRootsParallel, hsched, Bool.false_eq_true, if_false, searchPrecision_asked hp] at hok ⊢
  generalize hdom : desymmetrizeDomain re im (p.1 + 1, p.2 + 1) = dom at *
  generalize hjobs : createRootJobs fd.f fd.df cpus dom.1 dom.2 (p.1 + 1, p.2 + 1) fd.verbose = jobs at *
  have hjob : ∀ job ∈ jobs, job.f = fd.f ∧ job.df = fd.df ∧ job.precision = (p.1 + 1, p.2 + 1) ∧
      Cell.In ⟨job.reRan, job.imRan, 0⟩ (Enlarged (4 * 10 ^ (-(p.1 + 1)), 4 * 10 ^ (-(p.2 + 1))) re im) := by
    intro job hj
    rw [← hjobs] at hj
    obtain ⟨h1, h2, h3, _⟩ := (C47_jobs fd.f fd.df cpus hcpus dom.1 dom.2 d1.le d2.le _ _).2.2.2.2.2 job hj
    exact ⟨h1, h2, h3, (jobs_in hcpus d1.le d2.le hj).trans d4⟩
  have hsound := halg
  generalize hres : (chunks cpus jobs.length jobs).map (runPiece fd) = results at *
  have hff : firstFailure sched (results.map Prod.fst) = .ok () := by
    rcases hf : firstFailure sched (results.map Prod.fst) with e | ⟨⟩
    · rw [hf] at hok; simp at hok
    · rfl
  rw [hff]
  dsimp only
  have hpieces := firstFailure_ok hff
  have hflat : ∀ x : Root K, x ∈ (deliver (results.map Prod.snd) sched.turns).1 ++
      (deliver (results.map Prod.snd) sched.turns).2.flatten ↔ ∃ piece ∈ chunks cpus jobs.length jobs,
        x ∈ (runPiece fd piece).2 := by
    intro x
    rw [(deliver_perm _ _).mem_iff, ← hres]
    simp only [List.mem_flatten, List.mem_map, exists_exists_and_eq_and]
  have hchunk : ∀ job, job ∈ jobs ↔ ∃ piece ∈ chunks cpus jobs.length jobs, job ∈ piece := by
    intro job
    have := chunks_flatten hcpus jobs.length jobs le_rfl
    rw [← List.mem_flatten, this]
  generalize (deliver (results.map Prod.snd) sched.turns).1 ++ (deliver (results.map Prod.snd) sched.turns).2.flatten
    = A at *
  have hrun : ∀ piece ∈ chunks cpus jobs.length jobs, runJobs fd.algorithm piece (fd.start none) =
      (.ok (), (runJobs fd.algorithm piece (fd.start none)).2) := by
    intro piece hpc
    have hpok : (runPiece fd piece).1 = .ok () :=
      hpieces _ (by rw [← hres]; simp only [List.mem_map, exists_exists_and_eq_and]; exact ⟨piece, hpc, rfl⟩)
    exact Prod.ext hpok rfl
  have hmono : ∀ piece ∈ chunks cpus jobs.length jobs, ∀ ctx ∈ piece, ∀ w w', fd.algorithm ctx w = (.ok (), w') → w.added <+: w'.added :=
    fun piece hpc ctx hc w w' h => (hsound ctx ((hchunk ctx).2 ⟨piece, hpc, hc⟩) w w' h).1
  have hpp : ((p.1 + 1 - 1, p.2 + 1 - 1) : ℤ × ℤ) = p := by ext <;> simp
  rw [hpp]
  obtain ⟨r1, r2⟩ := report_of hcont fd.info { f := fd.f, reRan := dom.1, imRan := dom.2, precision := p } A
  dsimp only at r1 r2
  refine ⟨fun z hz hreq => ?_, fun r hr => ?_⟩
  · have hi := d3 z hreq
    obtain ⟨job, hj, hjz⟩ := (C47_jobs fd.f fd.df cpus hcpus dom.1 dom.2 d1.le d2.le (p.1 + 1, p.2 + 1)
      fd.verbose).2.2.1 z ⟨hi.1.le, hi.2.1, hi.2.2.1.le, hi.2.2.2⟩
    rw [hjobs] at hj
    obtain ⟨piece, hpc, hjp⟩ := (hchunk job).1 hj
    obtain ⟨w1, w2, h1, hs⟩ := runJobs_job (hmono piece hpc) (hrun piece hpc) hjp
    obtain ⟨r, hr, hr1, hr2⟩ := (hsound job hj w1 w2 h1).2.1 z hz hjz
    exact ⟨_, r1 r ((hflat r).2 ⟨piece, hpc, hs r hr⟩), hr1, near_rounded hr2 _⟩
  · rcases r2 r hr with h | ⟨q, hq, rfl⟩
    · exact .inl h
    · right
      obtain ⟨piece, hpc, hqp⟩ := (hflat q).1 hq
      rcases runJobs_mem (hmono piece hpc) (hrun piece hpc) q hqp with h | ⟨job, hjp, w1, w2, h1, h2⟩
      · exact absurd h (by simp [Finder.start])
      · have hj := (hchunk job).2 ⟨piece, hpc, hjp⟩
        obtain ⟨a1, a2, a3, a4, a5, a6⟩ := (hjob job hj).2.2.2
        rcases (hsound job hj w1 w2 h1).2.2 q h2 with ⟨h3, h4⟩ | ⟨h3, z, hz, ⟨b1, b2, b3, b4⟩, h4⟩
        · exact .inl ⟨h3, q.1, h4, roundsTo_roundRoot _ _⟩
        · exact .inr ⟨h3, z, hz, ⟨a1.trans b1, b2.le.trans a3, a4.trans b3, b4.le.trans a6⟩, near_rounded h4 _⟩

/-- C114, parallel. The same for a parallel search with any number of processes and any schedule without interrupt; reported roots are rounded to the
requested precision. -/
theorem C114_parallel (fd : Finder σ K) (hcont : RoundsFreely fd.container) (cpus : ℕ) (hcpus : 1 ≤ cpus) (re im : K × K)
    (call : Option (ℤ × ℤ)) (p : ℤ × ℤ) (hp : Asked call fd.precision p) (sched : Schedule) (hsched : sched.interrupted = false)
    (zeros : List (Cx K)) (eps : K × K)
    (halg : Sound fd.algorithm fd.f fd.df (p.1 + 1, p.2 + 1) (Enlarged (4 * 10 ^ (-(p.1 + 1)), 4 * 10 ^ (-(p.2 + 1))) re im) zeros eps) :
    let s := fd.calculateRootsParallel cpus re im call sched
    s.outcome = .ok () →
    (∀ z ∈ zeros, Requested re im z → ∃ r ∈ held s.finder.container, 1 ≤ r.2 ∧
      Near (eps.1 + 10 ^ (-p.1) / 2, eps.2 + 10 ^ (-p.2) / 2) z r.1) ∧
    ∀ r ∈ held s.finder.container, r ∈ held fd.container ∨
      (r.2 = 0 ∧ ∃ z, fd.f z = 0 ∧ RoundsTo p z r.1) ∨
      (1 ≤ r.2 ∧ ∃ z ∈ zeros, Cell.Has (Enlarged (4 * 10 ^ (-(p.1 + 1)), 4 * 10 ^ (-(p.2 + 1))) re im) z ∧
        Near (eps.1 + 10 ^ (-p.1) / 2, eps.2 + 10 ^ (-p.2) / 2) z r.1) := by
  refine parallel_sound fd hcont cpus hcpus re im call p hp sched hsched (fun z => fd.f z = 0) zeros eps fun job hj w w' h => ?_
  obtain ⟨d1, d2, _, d4⟩ := C46_domain re im (p.1 + 1, p.2 + 1)
  obtain ⟨h1, h2, h3, _⟩ := (C47_jobs fd.f fd.df cpus hcpus _ _ d1.le d2.le _ _).2.2.2.2.2 job hj
  exact halg job h1 h2 h3 ((jobs_in hcpus d1.le d2.le hj).trans d4) w w' h

/-! ## The algorithms of the code are sound -/

/-- C114, the simple variant with a conforming estimator is sound with tolerance `0.5 * 10^-p`. -/
theorem C114_simple (est : LineEst σ K) (pi : K) (hpi : 0 < pi) (limit : ℕ) (f : Cx K → Cx K) (df : Option (Cx K → Cx K)) (p : ℤ × ℤ) (region : Cell K)
    (zeros : List (Cx K)) (L : ℤ → Cx K → Cx K → Cx K) (hest : GoodEstimator est f df p region pi zeros L) :
    Sound (simpleArgument est pi limit) f df p region zeros (10 ^ (-p.1) / 2, 10 ^ (-p.2) / 2) := by
  rintro ctx rfl rfl rfl hin w w' h
  obtain ⟨hconf, hhits⟩ := hest ctx rfl rfl rfl hin
  have hre : ctx.reRan.1 ≤ ctx.reRan.2 := hin.2.1
  have him : ctx.imRan.1 ≤ ctx.imRan.2 := hin.2.2.2.2.1
  have hcells := exact_cells hconf hhits (simple_stops est pi ctx) (fun c => KeepsCache.simpleAct pi ctx c) (simple_leafEffect pi ctx) hre him limit w w' h
  obtain ⟨phi, t, h1, h2, _, A, h4, h5⟩ := calcRoots_tree hhits (simple_stops est pi ctx) (simple_leafEffect pi ctx) limit w w' h
  have hnew : newCells w w' = ⟨ctx.reRan, ctx.imRan, phi⟩ :: t.log ctx.precision ⟨ctx.reRan, ctx.imRan, phi⟩ := by
    unfold newCells; rw [h2]; simp
  have hroots : newRoots w w' = A := by unfold newRoots; rw [h4]; simp
  refine ⟨⟨A, h4.symm⟩, (C35_conforming est pi hpi limit ctx hre him hhits zeros L hconf w w' h).1, fun r hr => ?_⟩
  rw [hroots] at hr
  rcases h5.root_mem hr with h | ⟨c, hc, S, hS, hrS⟩
  · exact .inl h
  · right
    have hlog : c ∈ newCells w w' := hnew ▸ t.leaves_subset_log _ _ c hc
    obtain ⟨e1, e2⟩ := exact_turns hpi (hcells c hlog)
    have hstop := t.leaves_stop _ _ _ h1 c hc
    rw [hS] at hrS
    split at hrS
    · rename_i ht
      rw [List.mem_singleton] at hrS
      subst hrS
      have hsmall : Cell.Small ctx.precision c := by
        rcases hstop with h | h
        · exact absurd ht h
        · exact h
      refine ⟨one_le_order hpi ht, ?_⟩
      have hne : (Cell.inside c zeros) ≠ [] := fun h0 => e1.1 ht (by unfold Cell.count; unfold Cell.inside at h0; rw [h0]; rfl)
      obtain ⟨z, hz⟩ := List.exists_mem_of_ne_nil _ hne
      rw [mem_inside] at hz
      refine ⟨z, hz.1, Tree.halfOpen_rect ctx.precision t ⟨ctx.reRan, ctx.imRan, phi⟩ c z hc hz.2, ?_⟩
      obtain ⟨s1, s2⟩ := hsmall
      obtain ⟨z1, z2, z3, z4⟩ := hz.2
      unfold Near candidate Cell.centre
      dsimp only
      rw [abs_lt, abs_lt]
      refine ⟨⟨?_, ?_⟩, ?_, ?_⟩ <;> linarith
    · simp at hrS

/-! ## C115 -/

/-- C115. The associated polynomial variant with a conforming estimator and exact polynomial roots is sound with tolerance `10^-p`. -/
theorem C115_sound (polyRoots : List (Cx K) → List (Cx K)) (hroots : ∀ zs, (polyRoots (coefficientsOf zs)).Perm zs)
    (est : LineEst σ K) (pi : K) (hpi : 0 < pi) (limit : ℕ) (f : Cx K → Cx K) (df : Option (Cx K → Cx K)) (p : ℤ × ℤ) (region : Cell K)
    (zeros : List (Cx K)) (L : ℤ → Cx K → Cx K → Cx K) (hest : GoodEstimator est f df p region pi zeros L) :
    Sound (associatedPolynomial polyRoots est pi limit) f df p region zeros (10 ^ (-p.1), 10 ^ (-p.2)) := by
  rintro ctx rfl rfl rfl hin w w' h
  obtain ⟨hconf, hhits⟩ := hest ctx rfl rfl rfl hin
  obtain ⟨_, h2, h3, h4, h5⟩ := C43_exact polyRoots hroots est pi hpi limit ctx hin.2.1 hin.2.2.2.2.1 hhits zeros L hconf w w' h
  refine ⟨⟨_, h5.symm⟩, fun z hz hzr => ?_, fun r hr => ?_⟩
  · obtain ⟨r, hr, a, b⟩ := h2 z hz hzr
    exact ⟨r, hr, a, near_symm b⟩
  · by_cases h0 : r.2 = 0
    · exact .inl ⟨h0, h4 r hr h0⟩
    · obtain ⟨a, z, hz, b, c⟩ := h3 r hr h0
      exact .inr ⟨a, z, hz, b, near_symm c⟩

/-! ## C116 -/

/-- an exact phase of about one turn: there is exactly one zero -/
theorem inside_one {pi : K} (hpi : 0 < pi) {c : Cell K} {zeros : List (Cx K)} (h : c.phi = 2 * pi * (Cell.count c zeros : K))
    (h1 : Cell.OneTurn pi c) : ∃ z ∈ zeros, Cell.inside c zeros = [z] ∧ Cell.HasHalfOpen c z := by
  obtain ⟨a1, a2, _⟩ := h1
  rw [h] at a1 a2
  have b1 : Cell.count c zeros = 1 := by
    have c1 : (Cell.count c zeros : K) < 2 := by nlinarith
    have c2 : (0 : K) < Cell.count c zeros := by
      by_contra hn
      have : (Cell.count c zeros : K) = 0 := le_antisymm (not_lt.1 hn) (by positivity)
      rw [this] at a1
      linarith
    have d1 : Cell.count c zeros < 2 := by exact_mod_cast c1
    have d2 : 0 < Cell.count c zeros := by exact_mod_cast c2
    omega
  obtain ⟨z, hz⟩ := List.length_eq_one_iff.1 (show (Cell.inside c zeros).length = 1 from b1)
  have hm : z ∈ Cell.inside c zeros := by simp [hz]
  rw [mem_inside] at hm
  exact ⟨z, hm.1, hz, hm.2⟩

/-- C116. The Newton variant with a conforming estimator and a solver which finds single zeros is sound with tolerance `10^-p`. -/
theorem C116_sound (nt : NewtonSolver K) (est : LineEst σ K) (pi : K) (hpi : 0 < pi) (limit : ℕ) (f : Cx K → Cx K) (df : Option (Cx K → Cx K)) (p : ℤ × ℤ)
    (region : Cell K) (zeros : List (Cx K)) (L : ℤ → Cx K → Cx K → Cx K) (hest : GoodEstimator est f df p region pi zeros L)
    (hnt : SolverFinds nt f df p region zeros) :
    Sound (simpleArgumentNewton nt est pi limit) f df p region zeros (10 ^ (-p.1), 10 ^ (-p.2)) := by
  rintro ctx rfl rfl rfl hin w w' h
  obtain ⟨hconf, hhits⟩ := hest ctx rfl rfl rfl hin
  have hre : ctx.reRan.1 ≤ ctx.reRan.2 := hin.2.1
  have him : ctx.imRan.1 ≤ ctx.imRan.2 := hin.2.2.2.2.1
  have hcells := exact_cells hconf hhits (newton_stops nt est pi ctx) (fun c => KeepsCache.newtonAct nt pi ctx c) (newton_leafEffect nt pi ctx) hre him limit w w' h
  obtain ⟨phi, t, h1, h2, _, A, h4, h5⟩ := calcRoots_tree hhits (newton_stops nt est pi ctx) (newton_leafEffect nt pi ctx) limit w w' h
  obtain ⟨L', A', g1, _, g3, _⟩ := calcRoots_justified hhits (newton_stops nt est pi ctx) (newton_actJust nt pi hpi ctx) limit hre him w
  have hnew : newCells w w' = ⟨ctx.reRan, ctx.imRan, phi⟩ :: t.log ctx.precision ⟨ctx.reRan, ctx.imRan, phi⟩ := by
    unfold newCells; rw [h2]; simp
  have hL : newCells w w' = L' := by
    have h' : calcRoots est (newtonDecide nt est pi) limit ctx w = (.ok (), w') := h
    rw [h'] at g1
    unfold newCells; rw [g1]; simp
  have hroots : newRoots w w' = A := by unfold newRoots; rw [h4]; simp
  have hcellin : ∀ c ∈ newCells w w', Cell.In c region := fun c hc => (g3 c (hL ▸ hc)).trans hin
  have hlog : ∀ c ∈ t.leaves ctx.precision ⟨ctx.reRan, ctx.imRan, phi⟩, c ∈ newCells w w' :=
    fun c hc => hnew ▸ t.leaves_subset_log _ _ c hc
  have hfind : ∀ c ∈ newCells w w', Cell.OneTurn pi c → ∃ z ∈ zeros, Cell.inside c zeros = [z] ∧ Cell.HasHalfOpen c z ∧
      (∃ z', nt.secant ctx.f ⟨c.re.1, (Cell.centre c).im⟩ ⟨c.re.2, (Cell.centre c).im⟩
        (min (eps10 K ctx.precision.1) (eps10 K ctx.precision.2)) = some z' ∧ Near ((10 : K) ^ (-ctx.precision.1), (10 : K) ^ (-ctx.precision.2)) z z') ∧
      ∀ z', SolverResult nt ctx c z' → Near ((10 : K) ^ (-ctx.precision.1), (10 : K) ^ (-ctx.precision.2)) z z' := by
    intro c hc hone
    obtain ⟨z, hz, i1, i2⟩ := inside_one hpi (hcells c hc) hone
    obtain ⟨⟨z', s1, s2⟩, s3⟩ := hnt c (hcellin c hc) hone.2.2.1 hone.2.2.2 z hz i1
    refine ⟨z, hz, i1, i2, ⟨z', s1, s2⟩, fun z'' hs => ?_⟩
    rcases hs with hs | ⟨df, hdf, hs⟩
    · have hs : nt.secant ctx.f ⟨c.re.1, (c.im.1 + c.im.2) / 2⟩ ⟨c.re.2, (c.im.1 + c.im.2) / 2⟩
        (min ((10 : K) ^ (-ctx.precision.1)) (10 ^ (-ctx.precision.2))) = some z'' := hs
      rw [s1] at hs
      cases hs
      exact s2
    · exact s3 df z'' hdf hs
  refine ⟨⟨A, h4.symm⟩, fun z hz hzr => ?_, fun r hr => ?_⟩
  · obtain ⟨l, hl, hlz⟩ := t.halfOpen_leaf ctx.precision ⟨ctx.reRan, ctx.imRan, phi⟩ z hzr
    obtain ⟨e1, _⟩ := exact_turns hpi (hcells l (hlog l hl))
    have hin' : z ∈ Cell.inside l zeros := mem_inside.2 ⟨hz, hlz⟩
    have ht : Cell.Turns pi l := e1.2 (fun h0 => by
      have : (Cell.inside l zeros).length = 0 := h0
      rw [List.length_eq_zero_iff.1 this] at hin'
      simp at hin')
    obtain ⟨S, hS, hSA⟩ := h5.leaf_mem hl
    rw [hroots]
    by_cases hst : Cell.Stop pi ctx.precision l
    · rw [if_pos hst, if_pos ht] at hS
      have hs : Cell.Small ctx.precision l := by
        rcases hst with h | h
        · exact absurd ht h
        · exact h
      exact ⟨candidate pi l, hSA _ (by simp [hS]), one_le_order hpi ht, near_symm (near_centre hs hlz)⟩
    · have hone : Cell.OneTurn pi l := by
        rcases t.leaves_stop _ _ _ h1 l hl with h | h
        · exact absurd h hst
        · exact h
      obtain ⟨y, _, i1, _, ⟨z', s1, s2⟩, _⟩ := hfind l (hlog l hl) hone
      rw [i1, List.mem_singleton] at hin'
      subst hin'
      rw [if_neg hst] at hS
      have e1 : (1 / 2 * (l.im.1 + l.im.2) : K) = (Cell.centre l).im := by unfold Cell.centre; dsimp only; ring
      refine ⟨(z', 1), hSA _ ?_, le_refl _, s2⟩
      rw [hS]
      unfold newtonResults
      rw [e1]
      dsimp only
      rw [s1]
      simp
  · rw [hroots] at hr
    rcases h5.root_mem hr with h | ⟨c, hc, S, hS, hrS⟩
    · exact .inl h
    · right
      obtain ⟨e1, _⟩ := exact_turns hpi (hcells c (hlog c hc))
      rw [hS] at hrS
      by_cases hst : Cell.Stop pi ctx.precision c
      · rw [if_pos hst] at hrS
        by_cases ht : Cell.Turns pi c
        · rw [if_pos ht, List.mem_singleton] at hrS
          subst hrS
          have hs : Cell.Small ctx.precision c := by
            rcases hst with h | h
            · exact absurd ht h
            · exact h
          have hne : (Cell.inside c zeros) ≠ [] := fun h0 => e1.1 ht (by unfold Cell.count; unfold Cell.inside at h0; rw [h0]; rfl)
          obtain ⟨z, hz⟩ := List.exists_mem_of_ne_nil _ hne
          rw [mem_inside] at hz
          exact ⟨one_le_order hpi ht, z, hz.1, Tree.halfOpen_rect ctx.precision t ⟨ctx.reRan, ctx.imRan, phi⟩ c z hc hz.2, near_symm (near_centre hs hz.2)⟩
        · rw [if_neg ht] at hrS
          simp at hrS
      · rw [if_neg hst] at hrS
        have hone : Cell.OneTurn pi c := by
          rcases t.leaves_stop _ _ _ h1 c hc with h | h
          · exact absurd h hst
          · exact h
        obtain ⟨z, hz, _, i2, _, s3⟩ := hfind c (hlog c hc) hone
        obtain ⟨o1, o2⟩ := newtonResults_mem hrS
        exact ⟨by rw [o1], z, hz, Tree.halfOpen_rect ctx.precision t ⟨ctx.reRan, ctx.imRan, phi⟩ c z hc i2, s3 _ o2⟩

/-! ## Finders with these algorithms -/

/-- C115. A finder with the associated polynomial variant, a conforming estimator and exact polynomial roots: if the call returns without
warning, every zero in the requested rectangle has a reported root of positive order within `1.5 * 10^-(p+1)`; every newly reported root is the
rounding of an exact zero (order 0) or has positive order and is that close to a zero in the slightly enlarged rectangle. -/
theorem C115_serial (polyRoots : List (Cx K) → List (Cx K)) (hroots : ∀ zs, (polyRoots (coefficientsOf zs)).Perm zs) (est : LineEst σ K) (pi : K) (hpi : 0 < pi) (limit : ℕ)
    (fd : Finder σ K) (hcont : RoundsFreely fd.container) (hfd : fd.algorithm = associatedPolynomial polyRoots est pi limit) (re im : K × K) (call : Option (ℤ × ℤ)) (p : ℤ × ℤ)
    (hp : Asked call fd.precision p) (interrupt : Option ℕ) (zeros : List (Cx K)) (L : ℤ → Cx K → Cx K → Cx K)
    (hest : GoodEstimator est fd.f fd.df (p.1 + 1, p.2 + 1) (Enlarged (4 * 10 ^ (-(p.1 + 1)), 4 * 10 ^ (-(p.2 + 1))) re im) pi zeros L) :
    let s := fd.calculateRoots re im call interrupt
    s.outcome = .ok () → s.warned = false →
    (∀ z ∈ zeros, Requested re im z → ∃ r ∈ held s.finder.container, 1 ≤ r.2 ∧
      Near (10 ^ (-(p.1 + 1)) + 10 ^ (-(p.1 + 1)) / 2, 10 ^ (-(p.2 + 1)) + 10 ^ (-(p.2 + 1)) / 2) z r.1) ∧
    ∀ r ∈ held s.finder.container, r ∈ held fd.container ∨
      (r.2 = 0 ∧ ∃ z, fd.f z = 0 ∧ RoundsTo (p.1 + 1, p.2 + 1) z r.1) ∨
      (1 ≤ r.2 ∧ ∃ z ∈ zeros, Cell.Has (Enlarged (4 * 10 ^ (-(p.1 + 1)), 4 * 10 ^ (-(p.2 + 1))) re im) z ∧
        Near (10 ^ (-(p.1 + 1)) + 10 ^ (-(p.1 + 1)) / 2, 10 ^ (-(p.2 + 1)) + 10 ^ (-(p.2 + 1)) / 2) z r.1) :=
  C114_serial fd hcont re im call p hp interrupt zeros _ (hfd ▸ C115_sound polyRoots hroots est pi hpi limit _ _ _ _ zeros L hest)

/-- The same in parallel, with any number of processes and any schedule. -/
theorem C115_parallel (polyRoots : List (Cx K) → List (Cx K)) (hroots : ∀ zs, (polyRoots (coefficientsOf zs)).Perm zs) (est : LineEst σ K) (pi : K) (hpi : 0 < pi) (limit : ℕ)
    (fd : Finder σ K) (hcont : RoundsFreely fd.container) (hfd : fd.algorithm = associatedPolynomial polyRoots est pi limit) (cpus : ℕ) (hcpus : 1 ≤ cpus) (re im : K × K)
    (call : Option (ℤ × ℤ)) (p : ℤ × ℤ) (hp : Asked call fd.precision p) (sched : Schedule) (hsched : sched.interrupted = false)
    (zeros : List (Cx K)) (L : ℤ → Cx K → Cx K → Cx K)
    (hest : GoodEstimator est fd.f fd.df (p.1 + 1, p.2 + 1) (Enlarged (4 * 10 ^ (-(p.1 + 1)), 4 * 10 ^ (-(p.2 + 1))) re im) pi zeros L) :
    let s := fd.calculateRootsParallel cpus re im call sched
    s.outcome = .ok () →
    (∀ z ∈ zeros, Requested re im z → ∃ r ∈ held s.finder.container, 1 ≤ r.2 ∧
      Near (10 ^ (-(p.1 + 1)) + 10 ^ (-p.1) / 2, 10 ^ (-(p.2 + 1)) + 10 ^ (-p.2) / 2) z r.1) ∧
    ∀ r ∈ held s.finder.container, r ∈ held fd.container ∨
      (r.2 = 0 ∧ ∃ z, fd.f z = 0 ∧ RoundsTo p z r.1) ∨
      (1 ≤ r.2 ∧ ∃ z ∈ zeros, Cell.Has (Enlarged (4 * 10 ^ (-(p.1 + 1)), 4 * 10 ^ (-(p.2 + 1))) re im) z ∧
        Near (10 ^ (-(p.1 + 1)) + 10 ^ (-p.1) / 2, 10 ^ (-(p.2 + 1)) + 10 ^ (-p.2) / 2) z r.1) :=
  C114_parallel fd hcont cpus hcpus re im call p hp sched hsched zeros _ (hfd ▸ C115_sound polyRoots hroots est pi hpi limit _ _ _ _ zeros L hest)

/-- C116. A finder with the Newton variant, a conforming estimator and a solver which converges on small rectangles with a single zero: the
same guarantee. -/
theorem C116_serial (nt : NewtonSolver K) (est : LineEst σ K) (pi : K) (hpi : 0 < pi) (limit : ℕ)
    (fd : Finder σ K) (hcont : RoundsFreely fd.container) (hfd : fd.algorithm = simpleArgumentNewton nt est pi limit) (re im : K × K) (call : Option (ℤ × ℤ)) (p : ℤ × ℤ)
    (hp : Asked call fd.precision p) (interrupt : Option ℕ) (zeros : List (Cx K)) (L : ℤ → Cx K → Cx K → Cx K)
    (hest : GoodEstimator est fd.f fd.df (p.1 + 1, p.2 + 1) (Enlarged (4 * 10 ^ (-(p.1 + 1)), 4 * 10 ^ (-(p.2 + 1))) re im) pi zeros L)
    (hnt : SolverFinds nt fd.f fd.df (p.1 + 1, p.2 + 1) (Enlarged (4 * 10 ^ (-(p.1 + 1)), 4 * 10 ^ (-(p.2 + 1))) re im) zeros) :
    let s := fd.calculateRoots re im call interrupt
    s.outcome = .ok () → s.warned = false →
    (∀ z ∈ zeros, Requested re im z → ∃ r ∈ held s.finder.container, 1 ≤ r.2 ∧
      Near (10 ^ (-(p.1 + 1)) + 10 ^ (-(p.1 + 1)) / 2, 10 ^ (-(p.2 + 1)) + 10 ^ (-(p.2 + 1)) / 2) z r.1) ∧
    ∀ r ∈ held s.finder.container, r ∈ held fd.container ∨
      (r.2 = 0 ∧ ∃ z, fd.f z = 0 ∧ RoundsTo (p.1 + 1, p.2 + 1) z r.1) ∨
      (1 ≤ r.2 ∧ ∃ z ∈ zeros, Cell.Has (Enlarged (4 * 10 ^ (-(p.1 + 1)), 4 * 10 ^ (-(p.2 + 1))) re im) z ∧
        Near (10 ^ (-(p.1 + 1)) + 10 ^ (-(p.1 + 1)) / 2, 10 ^ (-(p.2 + 1)) + 10 ^ (-(p.2 + 1)) / 2) z r.1) :=
  C114_serial fd hcont re im call p hp interrupt zeros _ (hfd ▸ C116_sound nt est pi hpi limit _ _ _ _ zeros L hest hnt)

/-- The same in parallel, with any number of processes and any schedule. -/
theorem C116_parallel (nt : NewtonSolver K) (est : LineEst σ K) (pi : K) (hpi : 0 < pi) (limit : ℕ)
    (fd : Finder σ K) (hcont : RoundsFreely fd.container) (hfd : fd.algorithm = simpleArgumentNewton nt est pi limit) (cpus : ℕ) (hcpus : 1 ≤ cpus) (re im : K × K)
    (call : Option (ℤ × ℤ)) (p : ℤ × ℤ) (hp : Asked call fd.precision p) (sched : Schedule) (hsched : sched.interrupted = false)
    (zeros : List (Cx K)) (L : ℤ → Cx K → Cx K → Cx K)
    (hest : GoodEstimator est fd.f fd.df (p.1 + 1, p.2 + 1) (Enlarged (4 * 10 ^ (-(p.1 + 1)), 4 * 10 ^ (-(p.2 + 1))) re im) pi zeros L)
    (hnt : SolverFinds nt fd.f fd.df (p.1 + 1, p.2 + 1) (Enlarged (4 * 10 ^ (-(p.1 + 1)), 4 * 10 ^ (-(p.2 + 1))) re im) zeros) :
    let s := fd.calculateRootsParallel cpus re im call sched
    s.outcome = .ok () →
    (∀ z ∈ zeros, Requested re im z → ∃ r ∈ held s.finder.container, 1 ≤ r.2 ∧
      Near (10 ^ (-(p.1 + 1)) + 10 ^ (-p.1) / 2, 10 ^ (-(p.2 + 1)) + 10 ^ (-p.2) / 2) z r.1) ∧
    ∀ r ∈ held s.finder.container, r ∈ held fd.container ∨
      (r.2 = 0 ∧ ∃ z, fd.f z = 0 ∧ RoundsTo p z r.1) ∨
      (1 ≤ r.2 ∧ ∃ z ∈ zeros, Cell.Has (Enlarged (4 * 10 ^ (-(p.1 + 1)), 4 * 10 ^ (-(p.2 + 1))) re im) z ∧
        Near (10 ^ (-(p.1 + 1)) + 10 ^ (-p.1) / 2, 10 ^ (-(p.2 + 1)) + 10 ^ (-p.2) / 2) z r.1) :=
  C114_parallel fd hcont cpus hcpus re im call p hp sched hsched zeros _ (hfd ▸ C116_sound nt est pi hpi limit _ _ _ _ zeros L hest hnt)

/-! ## Examples -/

/-- a finder with the associated polynomial variant -/
noncomputable def polyFinder : Finder Unit ℚ :=
  Finder.init exF (some exF) (associatedPolynomial pRoots (crossEst exPi pZeros) exPi 20) (EstCache.init false) ()
    (fun p => .rounding (RContainer.init p (5, 5))) false (some (0, 0)) (some false) ⟨(5, 5), true⟩

theorem polyFinder_good (p : ℤ × ℤ) (region : Cell ℚ) :
    GoodEstimator (crossEst exPi pZeros) exF (some exF) p region exPi pZeros (crossLine exPi pZeros) :=
  fun _ _ _ _ _ => ⟨crossEst_conforming _ _ _, crossEst_hits _ _ _⟩

/-- non-vacuity of `C115_serial` -/
example : ∃ r ∈ held (polyFinder.calculateRoots (-1, 1) (-1, 1) none none).finder.container, 1 ≤ r.2 ∧
    Near ((10 : ℚ) ^ (-((0 : ℤ) + 1)) + 10 ^ (-((0 : ℤ) + 1)) / 2, (10 : ℚ) ^ (-((0 : ℤ) + 1)) + 10 ^ (-((0 : ℤ) + 1)) / 2) (⟨3 / 4, 1 / 2⟩ : Cx ℚ) r.1 :=
  (C115_serial pRoots pRoots_exact (crossEst exPi pZeros) exPi (by unfold exPi; norm_num) 20 polyFinder rfl rfl (-1, 1) (-1, 1) none (0, 0)
    (.inr ⟨rfl, rfl⟩) none pZeros _ (polyFinder_good _ _) (by decide +kernel) (by decide +kernel)).1
    ⟨3 / 4, 1 / 2⟩ (by decide +kernel) (by unfold Requested; decide +kernel)

/-- non-vacuity of `C115_parallel` -/
example : ∃ r ∈ held (polyFinder.calculateRootsParallel 1 (-1, 1) (-1, 1) none ⟨[0], false, 0⟩).finder.container, 1 ≤ r.2 ∧
    Near ((10 : ℚ) ^ (-((0 : ℤ) + 1)) + 10 ^ (-(0 : ℤ)) / 2, (10 : ℚ) ^ (-((0 : ℤ) + 1)) + 10 ^ (-(0 : ℤ)) / 2) (⟨3 / 4, 1 / 2⟩ : Cx ℚ) r.1 :=
  (C115_parallel pRoots pRoots_exact (crossEst exPi pZeros) exPi (by unfold exPi; norm_num) 20 polyFinder rfl rfl 1 (by omega) (-1, 1) (-1, 1) none (0, 0)
    (.inr ⟨rfl, rfl⟩) ⟨[0], false, 0⟩ rfl pZeros _ (polyFinder_good _ _) (by decide +kernel)).1
    ⟨3 / 4, 1 / 2⟩ (by decide +kernel) (by unfold Requested; decide +kernel)

/-- a solver which ends near a zero of `exF` close to where it starts, if there is one -/
def exSolver : NewtonSolver ℚ where
  secant := fun _ a b _ => (exZeros.find? fun z => decide (|z.re - (a.re + b.re) / 2| < 1 / 10 ∧ |z.im - a.im| < 1 / 10)).map fun z => ⟨z.re + 1 / 1000, z.im⟩
  newton := fun _ _ a _ => (exZeros.find? fun z => decide (|z.re - a.re| < 1 / 10 ∧ |z.im - a.im| < 1 / 10)).map fun z => ⟨z.re, z.im - 1 / 1000⟩
  grid := fun _ _ _ => none

/-- a finder with the Newton variant -/
def newtonFinder : Finder Unit ℚ :=
  Finder.init exF (some exF) (simpleArgumentNewton exSolver (crossEst exPi exZeros) exPi 30) (EstCache.init false) ()
    (fun p => .rounding (RContainer.init p (5, 5))) false (some (1, 1)) (some false) ⟨(5, 5), true⟩


theorem find_near {x y : ℚ} {z : Cx ℚ} (hz : z ∈ exZeros) (h : |z.re - x| < 1 / 10 ∧ |z.im - y| < 1 / 10) :
    (exZeros.find? fun z => decide (|z.re - x| < 1 / 10 ∧ |z.im - y| < 1 / 10)) = some z := by
  rcases hf : exZeros.find? fun z => decide (|z.re - x| < 1 / 10 ∧ |z.im - y| < 1 / 10) with _ | z'
  · have := List.find?_eq_none.1 hf z hz
    exact absurd (decide_eq_true h) this
  · have h1 := List.find?_some hf
    have h2 := List.mem_of_find?_eq_some hf
    have h1 := of_decide_eq_true h1
    refine hf.trans (congrArg some ?_)
    simp only [exZeros, List.mem_cons, List.not_mem_nil, or_false] at hz h2
    rw [abs_lt, abs_lt] at h h1
    rcases hz with rfl | rfl | rfl <;> rcases h2 with rfl | rfl | rfl <;> first | rfl | (exfalso; linarith [h.1.1, h.1.2, h1.1.1, h1.1.2])

theorem exSolver_finds (region : Cell ℚ) : SolverFinds exSolver exF (some exF) (2, 2) region exZeros := by
  intro c _ h1 h2 z hz hin
  have hm : z ∈ Cell.inside c exZeros := by simp [hin]
  rw [mem_inside] at hm
  obtain ⟨a1, a2, a3, a4⟩ := hm.2
  refine ⟨⟨⟨z.re + 1 / 1000, z.im⟩, ?_, ?_⟩, fun g z' _ hs => ?_⟩
  · unfold exSolver
    dsimp only
    rw [find_near hz]
    · rfl
    · rw [abs_lt, abs_lt]; refine ⟨⟨?_, ?_⟩, ?_, ?_⟩ <;> linarith
  · unfold Near; norm_num
  · unfold exSolver at hs
    dsimp only at hs
    rw [find_near hz] at hs
    · cases hs
      unfold Near; norm_num
    · rw [abs_lt, abs_lt]; refine ⟨⟨?_, ?_⟩, ?_, ?_⟩ <;> linarith

theorem newtonFinder_good (p : ℤ × ℤ) (region : Cell ℚ) :
    GoodEstimator (crossEst exPi exZeros) exF (some exF) p region exPi exZeros (crossLine exPi exZeros) :=
  fun _ _ _ _ _ => ⟨crossEst_conforming _ _ _, crossEst_hits _ _ _⟩

/-- non-vacuity of `C116_serial` and `C114_serial`; the solver's results are reported -/
example : ∃ r ∈ held (newtonFinder.calculateRoots (0, 4) (0, 2) none none).finder.container, 1 ≤ r.2 ∧
    Near ((10 : ℚ) ^ (-((1 : ℤ) + 1)) + 10 ^ (-((1 : ℤ) + 1)) / 2, (10 : ℚ) ^ (-((1 : ℤ) + 1)) + 10 ^ (-((1 : ℤ) + 1)) / 2) (⟨13 / 4, 5 / 4⟩ : Cx ℚ) r.1 :=
  (C116_serial exSolver (crossEst exPi exZeros) exPi (by unfold exPi; norm_num) 30 newtonFinder rfl rfl (0, 4) (0, 2) none (1, 1)
    (.inr ⟨rfl, rfl⟩) none exZeros _ (newtonFinder_good _ _) (exSolver_finds _) (by decide +kernel) (by decide +kernel)).1
    ⟨13 / 4, 5 / 4⟩ (by decide +kernel) (by unfold Requested; decide +kernel)

/-- non-vacuity of `C116_parallel` and `C114_parallel` -/
example : ∃ r ∈ held (newtonFinder.calculateRootsParallel 2 (0, 4) (0, 2) none ⟨[1, 0], false, 0⟩).finder.container, 1 ≤ r.2 ∧
    Near ((10 : ℚ) ^ (-((1 : ℤ) + 1)) + 10 ^ (-(1 : ℤ)) / 2, (10 : ℚ) ^ (-((1 : ℤ) + 1)) + 10 ^ (-(1 : ℤ)) / 2) (⟨13 / 4, 5 / 4⟩ : Cx ℚ) r.1 :=
  (C116_parallel exSolver (crossEst exPi exZeros) exPi (by unfold exPi; norm_num) 30 newtonFinder rfl rfl 2 (by omega) (0, 4) (0, 2) none (1, 1)
    (.inr ⟨rfl, rfl⟩) ⟨[1, 0], false, 0⟩ rfl exZeros _ (newtonFinder_good _ _) (exSolver_finds _) (by decide +kernel)).1
    ⟨13 / 4, 5 / 4⟩ (by decide +kernel) (by unfold Requested; decide +kernel)

end PyZeal.Props
