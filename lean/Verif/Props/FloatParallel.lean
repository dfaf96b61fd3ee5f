import Verif.Proof.FloatParallel
import Verif.Props.FloatContainer

/-! # C113: the parallel finder in floating-point arithmetic -/

set_option linter.unusedSectionVars false

namespace PyZeal.Props
open Spec
variable {K : Type} {σ : Type} [Field K] [LinearOrder K] [IsStrictOrderedRing K] [FloorRing K]

/-! ## jobs -/

/-- C113, jobs. In floating-point arithmetic with relative error `u`, for up to `1 / 4u` processes (`2^51` for doubles) and a
rectangle whose sides are machine numbers: the `n * n` jobs tile it without gaps. Every point is in a job, in the closed and
in the half-open sense; each job lies in the rectangle and has machine numbers as sides; interiors are disjoint. -/
theorem C113_jobs (A : FloatOps K) (u : K) (hA : Rounds A.fl u) (f : Cx K → Cx K) (df : Option (Cx K → Cx K)) (n : ℕ)
    (hn1 : 1 ≤ n) (hn : 4 * u * n ≤ 1) (re im : K × K) (hm : Cell.Machine A.fl ⟨re, im, 0⟩) (hre : re.1 ≤ re.2)
    (him : im.1 ≤ im.2) (p : ℤ × ℤ) (prog : Bool) :
    let jobs := createRootJobsF A f df n re im p prog
    jobs.length = n * n ∧
    (∀ z, Cell.Has ⟨re, im, 0⟩ z ↔ ∃ job ∈ jobs, Cell.Has ⟨job.reRan, job.imRan, 0⟩ z) ∧
    (∀ z, Cell.HasHalfOpen ⟨re, im, 0⟩ z → ∃ job ∈ jobs, Cell.HasHalfOpen ⟨job.reRan, job.imRan, 0⟩ z) ∧
    (jobs.Pairwise fun a b => ∀ z, ¬ (Cell.Interior ⟨a.reRan, a.imRan, 0⟩ z ∧ Cell.Interior ⟨b.reRan, b.imRan, 0⟩ z)) ∧
    ∀ job ∈ jobs, job.f = f ∧ job.df = df ∧ job.precision = p ∧ job.progress = prog ∧
      Cell.In ⟨job.reRan, job.imRan, 0⟩ ⟨re, im, 0⟩ ∧ Cell.Machine A.fl ⟨job.reRan, job.imRan, 0⟩ := by
  intro jobs
  refine ⟨jobsF_length, fun z => ⟨jobsF_cover hn1 z, ?_⟩, jobsF_halfOpen hn1, jobsF_disjoint hA hn hm hre him, ?_⟩
  · rintro ⟨job, hj, h1, h2, h3, h4⟩
    obtain ⟨⟨a1, _, a2, a3, _, a4⟩, _⟩ := jobsF_in hA hn hm hre him hj
    exact ⟨a1.trans h1, h2.trans a2, a3.trans h3, h4.trans a4⟩
  · intro job hj
    obtain ⟨k1, k2⟩ := jobsF_in hA hn hm hre him hj
    obtain ⟨i, hi, j, hj, rfl⟩ := mem_jobsF.1 hj
    exact ⟨rfl, rfl, rfl, rfl, k1, k2⟩

/-- non-vacuity: three processes in doubles; the inner points are not thirds, but shared by the neighbouring jobs -/
example : ((createRootJobsF (double ℚ) (fun z => z) none 3 (0, 1) (0, 2) (0, 0) false).map fun j => (j.reRan, j.imRan))[4]? =
      some ((flBin 53 (1 / 3), flBin 53 (2 / 3)), (flBin 53 (2 / 3), flBin 53 (4 / 3))) ∧
    flBin 53 (1 / 3 : ℚ) ≠ 1 / 3 := by decide +kernel

/-! ## filling the container -/

/-- what a rounding container holds after a sequence of `addRoot` calls: the rounded accepted roots, and what it held
before unless that was dropped because of another precision -/
theorem mem_addRootsF (fl : K → K) (kind : Root K → NumKind) (info : Bool) (ctx : FilterCtx K) (B : List (Root K)) :
    ∀ (c : RContainer K) (r : Root K), r ∈ held ((AnyContainer.rounding c).addRootsF fl kind info ctx B) ↔
      (∃ q ∈ B, c.accepts q ctx = true ∧ r = roundRootF fl (kind q) q ctx.precision) ∨
      (r ∈ c.rootSet ∧ (c.precision = ctx.precision ∨ ∀ q ∈ B, c.accepts q ctx ≠ true)) := by
  induction B with
  | nil => intro c r; simp [AnyContainer.addRootsF, held]
  | cons q B ih =>
    intro c r
    have e : (AnyContainer.rounding c).addRootsF fl kind info ctx (q :: B) =
        (AnyContainer.rounding (c.addRootF fl info (kind q) q ctx)).addRootsF fl kind info ctx B := rfl
    rw [e, ih]
    have hacc : ∀ s, (c.addRootF fl info (kind q) q ctx).accepts s ctx = c.accepts s ctx := by
      intro s
      unfold RContainer.addRootF
      split
      · dsimp only
        split
        · split <;> rfl
        · split <;> rfl
      · rfl
    by_cases ha : c.accepts q ctx = true
    · have key : (c.addRootF fl info (kind q) q ctx).precision = ctx.precision ∧
          ∀ s, s ∈ (c.addRootF fl info (kind q) q ctx).rootSet ↔
            s = roundRootF fl (kind q) q ctx.precision ∨ (s ∈ c.rootSet ∧ c.precision = ctx.precision) := by
        unfold RContainer.addRootF
        rw [if_pos ha]
        by_cases hp : ctx.precision ≠ c.precision
        · rw [if_pos hp]
          dsimp only
          rw [if_neg (fun h => List.not_mem_nil h.2)]
          refine ⟨rfl, fun s => ?_⟩
          have hp' : ¬ c.precision = ctx.precision := fun h => hp h.symm
          simp [setAdd, RContainer.clear, hp']
        · rw [if_neg hp]
          have hp' : ctx.precision = c.precision := not_not.1 hp
          rw [hp']
          dsimp only
          split
          · rename_i h
            refine ⟨rfl, fun s => ⟨fun h' => .inr ⟨h', rfl⟩, ?_⟩⟩
            rintro (rfl | ⟨h', _⟩)
            · exact h.2
            · exact h'
          · refine ⟨rfl, fun s => ?_⟩
            unfold setAdd
            split
            · rename_i h
              refine ⟨fun h' => .inr ⟨h', rfl⟩, ?_⟩
              rintro (rfl | ⟨h', _⟩)
              · exact h
              · exact h'
            · rw [List.mem_append, List.mem_singleton]
              constructor
              · rintro (h | h)
                · exact .inr ⟨h, rfl⟩
                · exact .inl h
              · rintro (h | ⟨h, _⟩)
                · exact .inr h
                · exact .inl h
      obtain ⟨k1, k2⟩ := key
      simp only [hacc, k1, true_or, and_true, k2]
      constructor
      · rintro (⟨s, hs, h⟩ | h | ⟨h1, h2⟩)
        · exact .inl ⟨s, List.mem_cons_of_mem _ hs, h⟩
        · exact .inl ⟨q, List.mem_cons_self, ha, h⟩
        · exact .inr ⟨h1, .inl h2⟩
      · rintro (⟨s, hs, h1, h2⟩ | ⟨h1, h2 | h2⟩)
        · rcases List.mem_cons.1 hs with rfl | hs
          · exact .inr (.inl h2)
          · exact .inl ⟨s, hs, h1, h2⟩
        · exact .inr (.inr ⟨h1, h2⟩)
        · exact absurd ha (h2 q List.mem_cons_self)
    · have he : c.addRootF fl info (kind q) q ctx = c := by unfold RContainer.addRootF; rw [if_neg ha]
      rw [he]
      constructor
      · rintro (⟨s, hs, h⟩ | ⟨h1, h2⟩)
        · exact .inl ⟨s, List.mem_cons_of_mem _ hs, h⟩
        · refine .inr ⟨h1, h2.imp id fun h s hs => ?_⟩
          rcases List.mem_cons.1 hs with rfl | hs
          · exact ha
          · exact h s hs
      · rintro (⟨s, hs, h1, h2⟩ | ⟨h1, h2⟩)
        · rcases List.mem_cons.1 hs with rfl | hs
          · exact absurd h1 ha
          · exact .inl ⟨s, hs, h1, h2⟩
        · exact .inr ⟨h1, h2.imp id fun h s hs => h s (List.mem_cons_of_mem _ hs)⟩

/-- C113, schedules. In any arithmetic, with any algorithm, any filters and whatever the classes of the numbers: two
uninterrupted parallel searches from the same state, with any two schedules, both succeed or both raise. A rounding
container holds the same roots afterwards; if the search raises, those it held before. -/
theorem C113_schedules (A : FloatOps K) (kind : Root K → NumKind) (fd : Finder σ K) (c : RContainer K)
    (hc : fd.container = .rounding c) (cpus : ℕ) (re im : K × K) (p : Option (ℤ × ℤ)) (s1 s2 : Schedule)
    (h1 : s1.interrupted = false) (h2 : s2.interrupted = false) :
    let a := fd.calculateRootsParallelF A kind cpus re im p s1
    let b := fd.calculateRootsParallelF A kind cpus re im p s2
    (a.outcome = .ok () ↔ b.outcome = .ok ()) ∧ a.warned = false ∧ b.warned = false ∧
    (∀ r, r ∈ held a.finder.container ↔ r ∈ held b.finder.container) ∧
    (a.outcome ≠ .ok () → held a.finder.container = held fd.container) := by
  intro a b
  have hff := fun (rs : List (Except Err Unit)) => firstFailure_eq_ok_iff s1 s2 rs
  simp only [a, b, Finder.calculateRootsParallelF, h1, h2, Bool.false_eq_true, if_false]
  generalize (chunks cpus _ _).map (runPiece fd) = results
  have hp : ((deliver (results.map Prod.snd) s1.turns).1 ++ (deliver (results.map Prod.snd) s1.turns).2.flatten).Perm
      ((deliver (results.map Prod.snd) s2.turns).1 ++ (deliver (results.map Prod.snd) s2.turns).2.flatten) :=
    (deliver_perm _ _).trans (deliver_perm _ _).symm
  have hf := hff (results.map Prod.fst)
  rcases e1 : firstFailure s1 (results.map Prod.fst) with e | ⟨⟩
  · rcases e2 : firstFailure s2 (results.map Prod.fst) with e' | ⟨⟩
    · simp
    · rw [e1, e2] at hf; simp at hf
  · rcases e2 : firstFailure s2 (results.map Prod.fst) with e' | ⟨⟩
    · rw [e1, e2] at hf; simp at hf
    · simp only [ne_eq, not_true_eq_false, false_imp_iff, and_true, true_and, true_iff]
      intro r
      rw [hc, mem_addRootsF, mem_addRootsF]
      simp only [hp.mem_iff]

/-! ## conformance -/

/-- C113. Parallel search for the requested precision `p ≥ 0` in doubles, from the computed search rectangle and jobs to the
rounded roots in the container: up to `2^51` processes, any schedule without interrupt, the simple argument algorithm, an
estimator which sees the zeros near the requested rectangle, a rounding container without filters, whatever the class of the
numbers handed over. The end points of the ranges are doubles with at most 14 significant digits down to the last decimal
(of the search). If the call returns, then every zero in the requested rectangle has a reported root of positive order closer
than `10^-p` in each coordinate; and every newly reported root is the computed rounding of an exact zero of the function
(order 0) or has positive order, lies in the requested rectangle enlarged by `1.5 * 10^-p`, and is closer than `10^-p` to a
zero. -/
theorem C113_parallel (fd : Finder σ K) (est : LineEst σ K) (pi : K) (hpi : 0 < pi) (limit : ℕ)
    (halg : fd.algorithm = simpleArgumentF (double K) est pi limit) (hcont : RoundsFreely fd.container)
    (kind : Root K → NumKind) (cpus : ℕ) (hcpus : 1 ≤ cpus) (hmany : cpus ≤ 2 ^ 51) (re im : K × K)
    (call : Option (ℤ × ℤ)) (p : ℤ × ℤ) (hp : Asked call fd.precision p) (hp1 : 0 ≤ p.1) (hp2 : 0 ≤ p.2)
    (h1 : EndPoint (double K).fl (p.1 + 1) re.1) (h2 : EndPoint (double K).fl (p.1 + 1) re.2)
    (h3 : EndPoint (double K).fl (p.2 + 1) im.1) (h4 : EndPoint (double K).fl (p.2 + 1) im.2)
    (sched : Schedule) (hsched : sched.interrupted = false) (zeros : List (Cx K)) (L : ℤ → Cx K → Cx K → Cx K)
    (hest : GoodEstimatorF (double K) est fd.f fd.df (p.1 + 1, p.2 + 1)
      (Enlarged (5 * 10 ^ (-(p.1 + 1)), 5 * 10 ^ (-(p.2 + 1))) re im) pi zeros L) :
    let s := fd.calculateRootsParallelF (double K) kind cpus re im call sched
    s.outcome = .ok () →
    (∀ z ∈ zeros, Requested re im z → ∃ r ∈ held s.finder.container, 1 ≤ r.2 ∧ Near (10 ^ (-p.1), 10 ^ (-p.2)) z r.1) ∧
    ∀ r ∈ held s.finder.container, r ∈ held fd.container ∨
      (r.2 = 0 ∧ ∃ z k, fd.f z = 0 ∧ r.1 = ⟨roundF (double K).fl k z.re p.1, roundF (double K).fl k z.im p.2⟩) ∨
      (1 ≤ r.2 ∧ RequestedWithin (3 / 2 * 10 ^ (-p.1), 3 / 2 * 10 ^ (-p.2)) re im r.1 ∧
        ∃ z ∈ zeros, Near (10 ^ (-p.1), 10 ^ (-p.2)) z r.1) := by
  intro s hok
  have hA := double_rounds (K := K)
  obtain ⟨d1, d2, d3⟩ := domainF (P := (p.1 + 1, p.2 + 1)) h1 h2 h3 h4
  simp only [s, Finder.calculateRootsParallelF, hsched, Bool.false_eq_true, if_false, searchPrecision_asked hp] at hok ⊢
  generalize hdom : desymmetrizeDomainF (double K) re im (p.1 + 1, p.2 + 1) = dom at *
  have hdre : dom.1.1 ≤ dom.1.2 := d3.2.1
  have hdim : dom.2.1 ≤ dom.2.2 := d3.2.2.2.2.1
  have hn : 4 * ((1 : K) / 2) ^ 53 * (cpus : K) ≤ 1 := by
    have : (cpus : K) ≤ 2 ^ 51 := by exact_mod_cast hmany
    calc 4 * ((1 : K) / 2) ^ 53 * (cpus : K) ≤ 4 * (1 / 2) ^ 53 * 2 ^ 51 := by
          apply mul_le_mul_of_nonneg_left this; positivity
      _ = 1 := by norm_num
  obtain ⟨_, _, j3, _, j5⟩ := C113_jobs (double K) _ hA fd.f fd.df cpus hcpus hn dom.1 dom.2 d1 hdre hdim
    (p.1 + 1, p.2 + 1) fd.verbose
  generalize hjobs : createRootJobsF (double K) fd.f fd.df cpus dom.1 dom.2 (p.1 + 1, p.2 + 1) fd.verbose = jobs at *
  have hjob : ∀ job ∈ jobs, SeesZeros (double K) est job pi zeros L ∧ BoundaryHits est job := by
    intro job hj
    obtain ⟨a1, a2, a3, _, a5, _⟩ := j5 job hj
    exact hest job a1 a2 a3 (a5.trans d3)
  generalize hres : (chunks cpus jobs.length jobs).map (runPiece fd) = results at *
  have hff : firstFailure sched (results.map Prod.fst) = .ok () := by
    rcases hf : firstFailure sched (results.map Prod.fst) with e | ⟨⟩
    · rw [hf] at hok; simp at hok
    · rfl
  rw [hff]
  dsimp only
  have hpieces := firstFailure_ok hff
  have hflat : ∀ x : Root K, x ∈ (deliver (results.map Prod.snd) sched.turns).1 ++
      (deliver (results.map Prod.snd) sched.turns).2.flatten ↔ ∃ piece ∈ chunks cpus jobs.length jobs,
        x ∈ (runPiece fd piece).2 := by
    intro x
    rw [(deliver_perm _ _).mem_iff, ← hres]
    simp only [List.mem_flatten, List.mem_map, exists_exists_and_eq_and]
  have hchunk : ∀ job, job ∈ jobs ↔ ∃ piece ∈ chunks cpus jobs.length jobs, job ∈ piece := by
    intro job
    have := chunks_flatten hcpus jobs.length jobs le_rfl
    rw [← List.mem_flatten, this]
  generalize (deliver (results.map Prod.snd) sched.turns).1 ++ (deliver (results.map Prod.snd) sched.turns).2.flatten
    = B at *
  have hpok : ∀ piece ∈ chunks cpus jobs.length jobs, (runPiece fd piece).1 = .ok () := fun piece hpc =>
    hpieces _ (by rw [← hres]; simp only [List.mem_map, exists_exists_and_eq_and]; exact ⟨piece, hpc, rfl⟩)
  have hrun : ∀ piece ∈ chunks cpus jobs.length jobs, runJobs fd.algorithm piece (fd.start none) =
      (.ok (), (runJobs fd.algorithm piece (fd.start none)).2) := fun piece hpc => Prod.ext (hpok piece hpc) rfl
  have hmono : ∀ piece ∈ chunks cpus jobs.length jobs, ∀ ctx ∈ piece, ∀ w, ∃ B, (fd.algorithm ctx w).2.added = w.added ++ B :=
    fun piece hpc ctx hc w => by
      rw [halg]
      exact simpleArgumentF_grows (hjob ctx ((hchunk ctx).2 ⟨piece, hpc, hc⟩)).2 limit w
  have hconf : ∀ job ∈ jobs, ∀ w w', simpleArgumentF (double K) est pi limit job w = (.ok (), w') → _ ∧ _ :=
    fun job hj w w' h =>
      ⟨C104_conforming (double K) _ hA est pi hpi limit job (hjob job hj).2 (double_good _)
        (j5 job hj).2.2.2.2.2 (j5 job hj).2.2.2.2.1.2.1 (j5 job hj).2.2.2.2.1.2.2.2.2.1 zeros L (hjob job hj).1 w w' h,
       C104_inside (double K) _ hA est pi hpi limit job (hjob job hj).2 (double_good _)
        (j5 job hj).2.2.2.2.2 (j5 job hj).2.2.2.2.1.2.1 (j5 job hj).2.2.2.2.1.2.2.2.2.1 w w' h⟩
  -- what the children found
  have hfound : ∀ z ∈ zeros, Requested re im z → ∃ r ∈ B, 1 ≤ r.2 ∧
      Near ((double K).pow10 (p.1 + 1), (double K).pow10 (p.2 + 1)) r.1 z := by
    intro z hz hreq
    have hi := d2 z hreq
    obtain ⟨job, hj, hjz⟩ := j3 z ⟨hi.1.le, hi.2.1, hi.2.2.1.le, hi.2.2.2⟩
    obtain ⟨piece, hpc, hjp⟩ := (hchunk job).1 hj
    obtain ⟨w1, w2, g1, C, hC, hs⟩ := runJobs_ok (hmono piece hpc) (hrun piece hpc) hjp
    rw [halg] at g1
    obtain ⟨r, hr, hr1, hr2⟩ := (hconf job hj w1 w2 g1).1.1 z hz hjz
    rw [(j5 job hj).2.2.1] at hr2
    refine ⟨r, (hflat r).2 ⟨piece, hpc, ?_⟩, hr1, hr2⟩
    have : (runPiece fd piece).2 = (runJobs fd.algorithm piece (fd.start none)).2.added := rfl
    rw [this, hC]
    exact List.mem_append_right _ (hs hr)
  have hfrom : ∀ r ∈ B, (r.2 = 0 ∧ fd.f r.1 = 0) ∨ (1 ≤ r.2 ∧ Cell.Has ⟨dom.1, dom.2, 0⟩ r.1 ∧
      ∃ z ∈ zeros, Near ((double K).pow10 (p.1 + 1), (double K).pow10 (p.2 + 1)) r.1 z) := by
    intro r hr
    obtain ⟨piece, hpc, hrp⟩ := (hflat r).1 hr
    rcases runJobs_each (hmono piece hpc) (hrun piece hpc) hrp with h | ⟨job, hjp, w1, w2, g1, g2⟩
    · exact absurd h (by simp [Finder.start])
    · have hj := (hchunk job).2 ⟨piece, hpc, hjp⟩
      rw [halg] at g1
      obtain ⟨⟨_, k2⟩, i1, i2⟩ := hconf job hj w1 w2 g1
      obtain ⟨a1, _, a3, _, a5, _⟩ := j5 job hj
      rcases k2 r g2 with h | ⟨h5, h6⟩
      · rw [a1] at h; exact .inl h
      · refine .inr ⟨h5, ?_, by rw [a3] at h6; exact h6⟩
        rcases i2 r g2 with ⟨h, _⟩ | ⟨_, _, _, c, hc, _, ⟨t1, t2, t3, t4⟩, _⟩
        · omega
        · obtain ⟨b1, _, b2, b3, _, b4⟩ := (i1 c hc).1
          obtain ⟨e1, _, e2, e3, _, e4⟩ := a5
          exact ⟨e1.trans (b1.trans t1), t2.trans (b2.trans e2), e3.trans (b3.trans t3), t4.trans (b4.trans e4)⟩
  -- the container
  have u1 := ten_pos (K := K) (-p.1)
  have u2 := ten_pos (K := K) (-p.2)
  have t1 : (10 : K) ^ (-p.1) = 10 * 10 ^ (-(p.1 + 1)) := eps10_succ p.1
  have t2 : (10 : K) ^ (-p.2) = 10 * 10 ^ (-(p.2 + 1)) := eps10_succ p.2
  have weaker : ∀ {P : ℤ} {x : K}, 0 ≤ P → InRange (P + 1) x → InRange P x := by
    rintro P x hP ⟨_, i2, i3⟩
    refine ⟨hP, by omega, le_trans ?_ i3⟩
    apply mul_le_mul_of_nonneg_left _ (abs_nonneg x)
    rw [zpow_add₀ (by norm_num), zpow_one]
    have := ten_pos (K := K) P
    linarith
  have cand : ∀ q : Root K, Cell.Has ⟨dom.1, dom.2, 0⟩ q.1 →
      (min re.1 re.2 - 5 * 10 ^ (-(p.1 + 1)) ≤ q.1.re ∧ q.1.re ≤ max re.1 re.2 + 5 * 10 ^ (-(p.1 + 1)) ∧
       min im.1 im.2 - 5 * 10 ^ (-(p.2 + 1)) ≤ q.1.im ∧ q.1.im ≤ max im.1 im.2 + 5 * 10 ^ (-(p.2 + 1))) ∧
      |(roundRootF (double K).fl (kind q) q p).1.re - q.1.re| ≤ 3 / 4 * (10 : K) ^ (-p.1) ∧
      |(roundRootF (double K).fl (kind q) q p).1.im - q.1.im| ≤ 3 / 4 * (10 : K) ^ (-p.2) := by
    rintro q ⟨a1, a2, a3, a4⟩
    obtain ⟨e1, _, e2, e3, _, e4⟩ := d3
    have k : min re.1 re.2 - 5 * 10 ^ (-(p.1 + 1)) ≤ q.1.re ∧ q.1.re ≤ max re.1 re.2 + 5 * 10 ^ (-(p.1 + 1)) ∧
        min im.1 im.2 - 5 * 10 ^ (-(p.2 + 1)) ≤ q.1.im ∧ q.1.im ≤ max im.1 im.2 + 5 * 10 ^ (-(p.2 + 1)) :=
      ⟨e1.trans a1, a2.trans e2, e3.trans a3, a4.trans e4⟩
    exact ⟨k, (roundF_dec (kind q) (weaker hp1 (candidate_range h1 h2 k.1 k.2.1))).2,
      (roundF_dec (kind q) (weaker hp2 (candidate_range h3 h4 k.2.2.1 k.2.2.2))).2⟩
  have near : ∀ q : Root K, Cell.Has ⟨dom.1, dom.2, 0⟩ q.1 → ∀ z,
      Near ((double K).pow10 (p.1 + 1), (double K).pow10 (p.2 + 1)) q.1 z →
      Near (10 ^ (-p.1), 10 ^ (-p.2)) z (roundRootF (double K).fl (kind q) q p).1 := by
    rintro q hq z ⟨n1, n2⟩
    obtain ⟨_, m1, m2⟩ := cand q hq
    have w : ∀ P : ℤ, (double K).pow10 P ≤ 5 / 4 * (10 : K) ^ (-P) := by
      intro P
      have hp := (abs_le.1 (le_trans (double_pow_near (K := K) P)
        (mul_le_mul_of_nonneg_right (by norm_num : ((1 : K) / 2) ^ 53 ≤ 1 / 4) (ten_pos (-P)).le))).2
      linarith
    have w1 := w (p.1 + 1)
    have w2 := w (p.2 + 1)
    have n1 := abs_lt.1 n1
    have n2 := abs_lt.1 n2
    have m1 := abs_le.1 m1
    have m2 := abs_le.1 m2
    dsimp only at n1 n2
    exact ⟨abs_lt.2 ⟨by linarith [n1.1, n1.2, m1.1, m1.2], by linarith [n1.1, n1.2, m1.1, m1.2]⟩,
      abs_lt.2 ⟨by linarith [n2.1, n2.2, m2.1, m2.2], by linarith [n2.1, n2.2, m2.1, m2.2]⟩⟩
  have hpp : ((p.1 + 1 - 1, p.2 + 1 - 1) : ℤ × ℤ) = p := by ext <;> simp
  rw [hpp]
  generalize hfc : ({ f := fd.f, reRan := dom.1, imRan := dom.2, precision := p } : FilterCtx K) = fc
  have hfp : fc.precision = p := by rw [← hfc]
  obtain ⟨a1, a2, _⟩ := addRootsF_free (double K).fl kind fd.info fc B fd.container hcont
  rw [hfp] at a1 a2
  refine ⟨fun z hz hreq => ?_, fun r hr => ?_⟩
  · obtain ⟨q, hq, hq1, hn⟩ := hfound z hz hreq
    rcases hfrom q hq with ⟨h, _⟩ | ⟨_, hin, _⟩
    · omega
    · exact ⟨_, a2 q hq, hq1, near q hin z hn⟩
  · rcases a1 r hr with h | ⟨q, hq, rfl⟩
    · exact Or.inl h
    · right
      rcases hfrom q hq with ⟨h, hf⟩ | ⟨hq1, hin, z, hz, hn⟩
      · exact Or.inl ⟨h, q.1, kind q, hf, rfl⟩
      · obtain ⟨⟨k1, k2, k3, k4⟩, m1, m2⟩ := cand q hin
        have m1 := abs_le.1 m1
        have m2 := abs_le.1 m2
        exact Or.inr ⟨hq1, ⟨by linarith [m1.1, m1.2], by linarith [m1.1, m1.2], by linarith [m2.1, m2.2],
          by linarith [m2.1, m2.2]⟩, z, hz, near q hin z hn⟩

/-! ### example -/

/-- non-vacuity: hypotheses on the end points and the estimator as for C110; what two processes report for Python numbers: the
doubles closest to 0.33 and 0.67, whichever piece delivers first -/
example : (thirdFinder.calculateRootsParallelF (double ℚ) (fun _ => .python) 2 (0, 1) (0, 1) none ⟨[1], false, 0⟩).outcome = .ok () ∧
    held (thirdFinder.calculateRootsParallelF (double ℚ) (fun _ => .python) 2 (0, 1) (0, 1) none ⟨[1], false, 0⟩).finder.container =
      [(⟨flBin 53 (33 / 100), flBin 53 (67 / 100)⟩, 1)] := by decide +kernel
example : ∃ r ∈ held (thirdFinder.calculateRootsParallelF (double ℚ) (fun _ => .numpy) 2 (0, 1) (0, 1) none
    ⟨[1], false, 0⟩).finder.container, 1 ≤ r.2 ∧ Near ((10 : ℚ) ^ (-(2 : ℤ)), (10 : ℚ) ^ (-(2 : ℤ))) (⟨1 / 3, 2 / 3⟩ : Cx ℚ) r.1 :=
  (C113_parallel thirdFinder (crossEst 3 [⟨1 / 3, 2 / 3⟩]) 3 (by norm_num) 40 rfl rfl (fun _ => .numpy) 2 (by omega) (by omega)
    (0, 1) (0, 1) none (2, 2) (.inr ⟨rfl, rfl⟩) (by decide) (by decide)
    (by unfold EndPoint Machine; decide +kernel) (by unfold EndPoint Machine; decide +kernel)
    (by unfold EndPoint Machine; decide +kernel) (by unfold EndPoint Machine; decide +kernel) ⟨[1], false, 0⟩ rfl
    [⟨1 / 3, 2 / 3⟩] (crossLine 3 [⟨1 / 3, 2 / 3⟩])
    (fun ctx _ _ _ _ => ⟨crossEst_sees double_rounds (by norm_num) (by unfold Machine; decide +kernel) _ ctx, crossEst_hits _ _ _⟩)
    (by decide +kernel)).1 ⟨1 / 3, 2 / 3⟩ (by simp) (by unfold Requested; decide +kernel)

end PyZeal.Props
