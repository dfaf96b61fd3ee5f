import Verif.Proof.NewtonDouble
import Verif.Props.NewtonFloat
import Verif.Props.FloatParallel

/-! # C155: finders with the Newton variant in doubles -/

set_option linter.unusedSectionVars false

namespace PyZeal.Props
open Spec
section
variable {K : Type} {σ : Type} [Field K] [LinearOrder K] [IsStrictOrderedRing K] [FloorRing K]

/-- numbers a little outside the searched ranges -/
theorem near_range {P : ℤ} {a b x : K} (ha : EndPoint (double K).fl P a) (hb : EndPoint (double K).fl P b)
    (h1 : min a b - 7 * 10 ^ (-P) ≤ x) (h2 : x ≤ max a b + 7 * 10 ^ (-P)) : InRange P x := by
  obtain ⟨m1, m2⟩ := endPoint_min ha hb
  obtain ⟨_, p0, p22, s1⟩ := m1
  obtain ⟨_, _, _, s2⟩ := m2
  have hT := ten_pos (K := K) P
  have hc := zpow_cancel (K := K) P
  refine ⟨p0, p22, ?_⟩
  have e1 : |min a b * (10 : K) ^ P| ≤ 2 ^ 49 := by rw [abs_mul, abs_of_pos hT]; exact s1
  have e2 : |max a b * (10 : K) ^ P| ≤ 2 ^ 49 := by rw [abs_mul, abs_of_pos hT]; exact s2
  have f1 := mul_le_mul_of_nonneg_right h1 hT.le
  have f2 := mul_le_mul_of_nonneg_right h2 hT.le
  have g : (7 : K) * 10 ^ (-P) * 10 ^ P = 7 := by rw [mul_assoc, mul_comm ((10 : K) ^ (-P)), hc, mul_one]
  rw [sub_mul, g] at f1
  rw [add_mul, g] at f2
  rw [show |x| * (10 : K) ^ P = |x * (10 : K) ^ P| by rw [abs_mul, abs_of_pos hT]]
  have q : (2 : K) ^ 49 + 5 ≤ 2 ^ 50 := by norm_num
  have a1 := (abs_le.1 e1).1
  have a2 := (abs_le.1 e2).2
  exact abs_le.2 ⟨by linarith, by linarith⟩

/-- C155, serial. As C110, for SIMPLE_ARGUMENT_NEWTON with a solver which finds the zeros for which this search starts it: if the call returns without warning, then every zero in the requested rectangle
has a reported root of positive order closer than `2 * 10^-(p+1)` in each coordinate; and every newly reported root is the computed rounding of an exact zero of the function (order 0) or has positive order, lies in the
requested rectangle enlarged by `7 * 10^-(p+1)`, and is closer than `2 * 10^-(p+1)` to a zero. -/
theorem C155_serial (fd : Finder σ K) (nt : NewtonSolver K) (est : LineEst σ K) (pi : K) (hpi : 0 < pi) (limit : ℕ)
    (halg : fd.algorithm = simpleArgumentNewtonF (double K) nt est pi limit) (hcont : RoundsFreely fd.container)
    (kind : Root K → NumKind) (re im : K × K) (call : Option (ℤ × ℤ)) (p : ℤ × ℤ) (hp : Asked call fd.precision p)
    (h1 : EndPoint (double K).fl (p.1 + 1) re.1) (h2 : EndPoint (double K).fl (p.1 + 1) re.2)
    (h3 : EndPoint (double K).fl (p.2 + 1) im.1) (h4 : EndPoint (double K).fl (p.2 + 1) im.2) (interrupt : Option ℕ)
    (zeros : List (Cx K)) (L : ℤ → Cx K → Cx K → Cx K)
    (hest : GoodEstimatorF (double K) est fd.f fd.df (p.1 + 1, p.2 + 1)
      (Enlarged (5 * 10 ^ (-(p.1 + 1)), 5 * 10 ^ (-(p.2 + 1))) re im) pi zeros L)
    (hsol : SolverFindsF (double K) nt est pi limit (Finder.ctxF (double K) fd re im (p.1 + 1, p.2 + 1)) zeros) :
    let s := fd.calculateRootsF (double K) kind re im call interrupt
    s.outcome = .ok () → s.warned = false →
    (∀ z ∈ zeros, Requested re im z → ∃ r ∈ held s.finder.container, 1 ≤ r.2 ∧
      Near (2 * 10 ^ (-(p.1 + 1)), 2 * 10 ^ (-(p.2 + 1))) z r.1) ∧
    ∀ r ∈ held s.finder.container, r ∈ held fd.container ∨
      (r.2 = 0 ∧ ∃ z k, fd.f z = 0 ∧ r.1 = ⟨roundF (double K).fl k z.re (p.1 + 1), roundF (double K).fl k z.im (p.2 + 1)⟩) ∨
      (1 ≤ r.2 ∧ RequestedWithin (7 * 10 ^ (-(p.1 + 1)), 7 * 10 ^ (-(p.2 + 1))) re im r.1 ∧
        ∃ z ∈ zeros, Near (2 * 10 ^ (-(p.1 + 1)), 2 * 10 ^ (-(p.2 + 1))) z r.1) := by
  intro s hok hwarn
  obtain ⟨hrun, hcon⟩ := calculateRootsF_done hok hwarn
  obtain ⟨d1, d2, d3⟩ := domainF (P := (p.1 + 1, p.2 + 1)) h1 h2 h3 h4
  have hprec : searchPrecision call fd.precision = (p.1 + 1, p.2 + 1) := searchPrecision_asked hp
  generalize hP1 : p.1 + 1 = P1 at *
  generalize hP2 : p.2 + 1 = P2 at *
  rw [halg] at hrun hcon
  rw [hprec] at hrun hcon
  generalize hc : Finder.ctxF (double K) fd re im (P1, P2) = ctx at hrun hcon hsol
  have c1 : ctx.precision = (P1, P2) := by rw [← hc]; rfl
  have c2 : ctx.f = fd.f := by rw [← hc]; rfl
  have c3 : ctx.df = fd.df := by rw [← hc]; rfl
  have d1' : Cell.Machine (double K).fl ⟨ctx.reRan, ctx.imRan, 0⟩ := by rw [← hc]; exact d1
  have d2' : ∀ z, Requested re im z → Cell.Interior ⟨ctx.reRan, ctx.imRan, 0⟩ z := by rw [← hc]; exact d2
  have d3' : Cell.In ⟨ctx.reRan, ctx.imRan, 0⟩ (Enlarged (5 * 10 ^ (-P1), 5 * 10 ^ (-P2)) re im) := by
    rw [← hc]; exact d3
  obtain ⟨hs, hb⟩ := hest ctx c2 c3 c1 d3'
  obtain ⟨r1, r2⟩ := C153_conforming (double K) _ double_rounds nt est pi hpi limit ctx hb (double_good _) d1'
    d3'.2.1 d3'.2.2.2.2.1 zeros L hs (fd.start interrupt) _ (Prod.ext hrun rfl) (hsol _ _ (Prod.ext hrun rfl))
  have hnew : newRoots (fd.start interrupt) (simpleArgumentNewtonF (double K) nt est pi limit ctx (fd.start interrupt)).2 =
      (simpleArgumentNewtonF (double K) nt est pi limit ctx (fd.start interrupt)).2.added := rfl
  rw [hnew] at r1 r2
  obtain ⟨a1, a2, _⟩ := addRootsF_free (double K).fl kind fd.info ctx.toFilter
    (simpleArgumentNewtonF (double K) nt est pi limit ctx (fd.start interrupt)).2.added fd.container hcont
  rw [← hcon] at a1 a2
  have cp : ctx.toFilter.precision = (P1, P2) := c1
  rw [cp] at a1 a2
  have w : ∀ P : ℤ, (double K).pow10 P ≤ 5 / 4 * (10 : K) ^ (-P) := by
    intro P
    have hp := (abs_le.1 (le_trans (double_pow_near (K := K) P)
      (mul_le_mul_of_nonneg_right (by norm_num : ((1 : K) / 2) ^ 53 ≤ 1 / 4) (ten_pos (-P)).le))).2
    linarith
  have w1 := w P1
  have w2 := w P2
  have u1 := ten_pos (K := K) (-P1)
  have u2 := ten_pos (K := K) (-P2)
  rw [c1] at r1 r2
  -- a root near a zero in the search rectangle
  have cand : ∀ q : Root K, ∀ z, Cell.HasHalfOpen ⟨ctx.reRan, ctx.imRan, 0⟩ z → Near ((double K).pow10 P1, (double K).pow10 P2) q.1 z →
      Near (2 * 10 ^ (-P1), 2 * 10 ^ (-P2)) z (roundRootF (double K).fl (kind q) q (P1, P2)).1 ∧
      RequestedWithin (7 * 10 ^ (-P1), 7 * 10 ^ (-P2)) re im (roundRootF (double K).fl (kind q) q (P1, P2)).1 := by
    rintro q z ⟨t1, t2, t3, t4⟩ ⟨n1, n2⟩
    obtain ⟨e1, _, e2, e3, _, e4⟩ := d3'
    have n1 := abs_lt.1 n1
    have n2 := abs_lt.1 n2
    dsimp only at n1 n2 t1 t2 t3 t4 e1 e2 e3 e4
    have e1 : min re.1 re.2 - 5 * 10 ^ (-P1) ≤ ctx.reRan.1 := e1
    have e2 : ctx.reRan.2 ≤ max re.1 re.2 + 5 * 10 ^ (-P1) := e2
    have e3 : min im.1 im.2 - 5 * 10 ^ (-P2) ≤ ctx.imRan.1 := e3
    have e4 : ctx.imRan.2 ≤ max im.1 im.2 + 5 * 10 ^ (-P2) := e4
    have m1 := abs_le.1 (roundF_dec (kind q) (near_range h1 h2 (x := q.1.re) (by linarith [n1.1]) (by linarith [n1.2]))).2
    have m2 := abs_le.1 (roundF_dec (kind q) (near_range h3 h4 (x := q.1.im) (by linarith [n2.1]) (by linarith [n2.2]))).2
    change _ ≤ (roundRootF (double K).fl (kind q) q (P1, P2)).1.re - q.1.re ∧ (roundRootF (double K).fl (kind q) q (P1, P2)).1.re - q.1.re ≤ _ at m1
    change _ ≤ (roundRootF (double K).fl (kind q) q (P1, P2)).1.im - q.1.im ∧ (roundRootF (double K).fl (kind q) q (P1, P2)).1.im - q.1.im ≤ _ at m2
    refine ⟨⟨abs_lt.2 ⟨?_, ?_⟩, abs_lt.2 ⟨?_, ?_⟩⟩, ?_, ?_, ?_, ?_⟩ <;> dsimp only <;> linarith [n1.1, n1.2, m1.1, m1.2, n2.1, n2.2, m2.1, m2.2]
  constructor
  · intro z hz hreq
    obtain ⟨g1, g2, g3, g4⟩ := d2' z hreq
    obtain ⟨q, hq, hq1, hn⟩ := r1 z hz ⟨g1.le, g2, g3.le, g4⟩
    exact ⟨_, a2 q hq, hq1, (cand q z ⟨g1.le, g2, g3.le, g4⟩ hn).1⟩
  · intro r hr
    rcases a1 r hr with h | ⟨q, hq, rfl⟩
    · exact Or.inl h
    · right
      rcases r2 q hq with ⟨h, hf⟩ | ⟨hq1, z, hz, hzr, hn⟩
      · exact Or.inl ⟨h, q.1, kind q, by rw [← c2]; exact hf, rfl⟩
      · exact Or.inr ⟨hq1, (cand q z hzr hn).2, z, hz, (cand q z hzr hn).1⟩

/-- C155, parallel. As C113, for SIMPLE_ARGUMENT_NEWTON with a solver which finds the zeros for which the jobs start it. -/
theorem C155_parallel (fd : Finder σ K) (nt : NewtonSolver K) (est : LineEst σ K) (pi : K) (hpi : 0 < pi) (limit : ℕ)
    (halg : fd.algorithm = simpleArgumentNewtonF (double K) nt est pi limit) (hcont : RoundsFreely fd.container)
    (kind : Root K → NumKind) (cpus : ℕ) (hcpus : 1 ≤ cpus) (hmany : cpus ≤ 2 ^ 51) (re im : K × K)
    (call : Option (ℤ × ℤ)) (p : ℤ × ℤ) (hp : Asked call fd.precision p) (hp1 : 0 ≤ p.1) (hp2 : 0 ≤ p.2)
    (h1 : EndPoint (double K).fl (p.1 + 1) re.1) (h2 : EndPoint (double K).fl (p.1 + 1) re.2)
    (h3 : EndPoint (double K).fl (p.2 + 1) im.1) (h4 : EndPoint (double K).fl (p.2 + 1) im.2)
    (sched : Schedule) (hsched : sched.interrupted = false) (zeros : List (Cx K)) (L : ℤ → Cx K → Cx K → Cx K)
    (hest : GoodEstimatorF (double K) est fd.f fd.df (p.1 + 1, p.2 + 1)
      (Enlarged (5 * 10 ^ (-(p.1 + 1)), 5 * 10 ^ (-(p.2 + 1))) re im) pi zeros L)
    (hsol : ∀ job ∈ createRootJobsF (double K) fd.f fd.df cpus (desymmetrizeDomainF (double K) re im (p.1 + 1, p.2 + 1)).1
      (desymmetrizeDomainF (double K) re im (p.1 + 1, p.2 + 1)).2 (p.1 + 1, p.2 + 1) fd.verbose, SolverFindsF (double K) nt est pi limit job zeros) :
    let s := fd.calculateRootsParallelF (double K) kind cpus re im call sched
    s.outcome = .ok () →
    (∀ z ∈ zeros, Requested re im z → ∃ r ∈ held s.finder.container, 1 ≤ r.2 ∧ Near (10 ^ (-p.1), 10 ^ (-p.2)) z r.1) ∧
    ∀ r ∈ held s.finder.container, r ∈ held fd.container ∨
      (r.2 = 0 ∧ ∃ z k, fd.f z = 0 ∧ r.1 = ⟨roundF (double K).fl k z.re p.1, roundF (double K).fl k z.im p.2⟩) ∨
      (1 ≤ r.2 ∧ RequestedWithin (3 / 2 * 10 ^ (-p.1), 3 / 2 * 10 ^ (-p.2)) re im r.1 ∧
        ∃ z ∈ zeros, Near (10 ^ (-p.1), 10 ^ (-p.2)) z r.1) := by
  intro s hok
  have hA := double_rounds (K := K)
  obtain ⟨d1, d2, d3⟩ := domainF (P := (p.1 + 1, p.2 + 1)) h1 h2 h3 h4
  simp only [s, Finder.calculateRootsParallelF, hsched, Bool.false_eq_true, if_false, searchPrecision_asked hp] at hok ⊢
  generalize hdom : desymmetrizeDomainF (double K) re im (p.1 + 1, p.2 + 1) = dom at *
  have hdre : dom.1.1 ≤ dom.1.2 := d3.2.1
  have hdim : dom.2.1 ≤ dom.2.2 := d3.2.2.2.2.1
  have hn : 4 * ((1 : K) / 2) ^ 53 * (cpus : K) ≤ 1 := by
    have : (cpus : K) ≤ 2 ^ 51 := by exact_mod_cast hmany
    calc 4 * ((1 : K) / 2) ^ 53 * (cpus : K) ≤ 4 * (1 / 2) ^ 53 * 2 ^ 51 := by
          apply mul_le_mul_of_nonneg_left this; positivity
      _ = 1 := by norm_num
  obtain ⟨_, _, j3, _, j5⟩ := C113_jobs (double K) _ hA fd.f fd.df cpus hcpus hn dom.1 dom.2 d1 hdre hdim
    (p.1 + 1, p.2 + 1) fd.verbose
  generalize hjobs : createRootJobsF (double K) fd.f fd.df cpus dom.1 dom.2 (p.1 + 1, p.2 + 1) fd.verbose = jobs at *
  have hjob : ∀ job ∈ jobs, SeesZeros (double K) est job pi zeros L ∧ BoundaryHits est job := by
    intro job hj
    obtain ⟨a1, a2, a3, _, a5, _⟩ := j5 job hj
    exact hest job a1 a2 a3 (a5.trans d3)
  generalize hres : (chunks cpus jobs.length jobs).map (runPiece fd) = results at *
  have hff : firstFailure sched (results.map Prod.fst) = .ok () := by
    rcases hf : firstFailure sched (results.map Prod.fst) with e | ⟨⟩
    · rw [hf] at hok; simp at hok
    · rfl
  rw [hff]
  dsimp only
  have hpieces := firstFailure_ok hff
  have hflat : ∀ x : Root K, x ∈ (deliver (results.map Prod.snd) sched.turns).1 ++
      (deliver (results.map Prod.snd) sched.turns).2.flatten ↔ ∃ piece ∈ chunks cpus jobs.length jobs,
        x ∈ (runPiece fd piece).2 := by
    intro x
    rw [(deliver_perm _ _).mem_iff, ← hres]
    simp only [List.mem_flatten, List.mem_map, exists_exists_and_eq_and]
  have hchunk : ∀ job, job ∈ jobs ↔ ∃ piece ∈ chunks cpus jobs.length jobs, job ∈ piece := by
    intro job
    have := chunks_flatten hcpus jobs.length jobs le_rfl
    rw [← List.mem_flatten, this]
  generalize (deliver (results.map Prod.snd) sched.turns).1 ++ (deliver (results.map Prod.snd) sched.turns).2.flatten
    = B at *
  have hpok : ∀ piece ∈ chunks cpus jobs.length jobs, (runPiece fd piece).1 = .ok () := fun piece hpc =>
    hpieces _ (by rw [← hres]; simp only [List.mem_map, exists_exists_and_eq_and]; exact ⟨piece, hpc, rfl⟩)
  have hrun : ∀ piece ∈ chunks cpus jobs.length jobs, runJobs fd.algorithm piece (fd.start none) =
      (.ok (), (runJobs fd.algorithm piece (fd.start none)).2) := fun piece hpc => Prod.ext (hpok piece hpc) rfl
  have hmono : ∀ piece ∈ chunks cpus jobs.length jobs, ∀ ctx ∈ piece, ∀ w, ∃ B, (fd.algorithm ctx w).2.added = w.added ++ B :=
    fun piece hpc ctx hc w => by
      rw [halg]
      exact newtonF_grows nt (hjob ctx ((hchunk ctx).2 ⟨piece, hpc, hc⟩)).2 limit w
  have hconf : ∀ job ∈ jobs, ∀ w w', simpleArgumentNewtonF (double K) nt est pi limit job w = (.ok (), w') → _ ∧ _ :=
    fun job hj w w' h =>
      C153_conforming (double K) _ hA nt est pi hpi limit job (hjob job hj).2 (double_good _)
        (j5 job hj).2.2.2.2.2 (j5 job hj).2.2.2.2.1.2.1 (j5 job hj).2.2.2.2.1.2.2.2.2.1 zeros L (hjob job hj).1 w w' h (hsol job hj w w' h)
  -- what the children found
  have hfound : ∀ z ∈ zeros, Requested re im z → ∃ r ∈ B, 1 ≤ r.2 ∧
      Near ((double K).pow10 (p.1 + 1), (double K).pow10 (p.2 + 1)) r.1 z := by
    intro z hz hreq
    have hi := d2 z hreq
    obtain ⟨job, hj, hjz⟩ := j3 z ⟨hi.1.le, hi.2.1, hi.2.2.1.le, hi.2.2.2⟩
    obtain ⟨piece, hpc, hjp⟩ := (hchunk job).1 hj
    obtain ⟨w1, w2, g1, C, hC, hs⟩ := runJobs_ok (hmono piece hpc) (hrun piece hpc) hjp
    rw [halg] at g1
    obtain ⟨r, hr, hr1, hr2⟩ := (hconf job hj w1 w2 g1).1 z hz hjz
    rw [(j5 job hj).2.2.1] at hr2
    refine ⟨r, (hflat r).2 ⟨piece, hpc, ?_⟩, hr1, hr2⟩
    have : (runPiece fd piece).2 = (runJobs fd.algorithm piece (fd.start none)).2.added := rfl
    rw [this, hC]
    exact List.mem_append_right _ (hs hr)
  have hfrom : ∀ r ∈ B, (r.2 = 0 ∧ fd.f r.1 = 0) ∨ (1 ≤ r.2 ∧ ∃ z ∈ zeros, Cell.Has ⟨dom.1, dom.2, 0⟩ z ∧
      Near ((double K).pow10 (p.1 + 1), (double K).pow10 (p.2 + 1)) r.1 z) := by
    intro r hr
    obtain ⟨piece, hpc, hrp⟩ := (hflat r).1 hr
    rcases runJobs_each (hmono piece hpc) (hrun piece hpc) hrp with h | ⟨job, hjp, w1, w2, g1, g2⟩
    · exact absurd h (by simp [Finder.start])
    · have hj := (hchunk job).2 ⟨piece, hpc, hjp⟩
      rw [halg] at g1
      obtain ⟨_, k2⟩ := hconf job hj w1 w2 g1
      obtain ⟨a1, _, a3, _, a5, _⟩ := j5 job hj
      rcases k2 r g2 with h | ⟨h5, z, hz, ⟨t1, t2, t3, t4⟩, h6⟩
      · rw [a1] at h; exact .inl h
      · obtain ⟨e1, _, e2, e3, _, e4⟩ := a5
        exact .inr ⟨h5, z, hz, ⟨e1.trans t1, t2.le.trans e2, e3.trans t3, t4.le.trans e4⟩, by rw [a3] at h6; exact h6⟩
  -- the container
  have u1 := ten_pos (K := K) (-p.1)
  have u2 := ten_pos (K := K) (-p.2)
  have t1 : (10 : K) ^ (-p.1) = 10 * 10 ^ (-(p.1 + 1)) := eps10_succ p.1
  have t2 : (10 : K) ^ (-p.2) = 10 * 10 ^ (-(p.2 + 1)) := eps10_succ p.2
  have weaker : ∀ {P : ℤ} {x : K}, 0 ≤ P → InRange (P + 1) x → InRange P x := by
    rintro P x hP ⟨_, i2, i3⟩
    refine ⟨hP, by omega, le_trans ?_ i3⟩
    apply mul_le_mul_of_nonneg_left _ (abs_nonneg x)
    rw [zpow_add₀ (by norm_num), zpow_one]
    have := ten_pos (K := K) P
    linarith
  have w : ∀ P : ℤ, (double K).pow10 P ≤ 5 / 4 * (10 : K) ^ (-P) := by
    intro P
    have hp := (abs_le.1 (le_trans (double_pow_near (K := K) P)
      (mul_le_mul_of_nonneg_right (by norm_num : ((1 : K) / 2) ^ 53 ≤ 1 / 4) (ten_pos (-P)).le))).2
    linarith
  have w1 := w (p.1 + 1)
  have w2 := w (p.2 + 1)
  have cand : ∀ q : Root K, ∀ z, Cell.Has ⟨dom.1, dom.2, 0⟩ z → Near ((double K).pow10 (p.1 + 1), (double K).pow10 (p.2 + 1)) q.1 z →
      Near (10 ^ (-p.1), 10 ^ (-p.2)) z (roundRootF (double K).fl (kind q) q p).1 ∧
      RequestedWithin (3 / 2 * 10 ^ (-p.1), 3 / 2 * 10 ^ (-p.2)) re im (roundRootF (double K).fl (kind q) q p).1 := by
    rintro q z ⟨s1, s2, s3, s4⟩ ⟨n1, n2⟩
    obtain ⟨e1, _, e2, e3, _, e4⟩ := d3
    have n1 := abs_lt.1 n1
    have n2 := abs_lt.1 n2
    dsimp only at n1 n2 s1 s2 s3 s4
    have e1 : min re.1 re.2 - 5 * 10 ^ (-(p.1 + 1)) ≤ dom.1.1 := e1
    have e2 : dom.1.2 ≤ max re.1 re.2 + 5 * 10 ^ (-(p.1 + 1)) := e2
    have e3 : min im.1 im.2 - 5 * 10 ^ (-(p.2 + 1)) ≤ dom.2.1 := e3
    have e4 : dom.2.2 ≤ max im.1 im.2 + 5 * 10 ^ (-(p.2 + 1)) := e4
    have v1 := ten_pos (K := K) (-(p.1 + 1))
    have v2 := ten_pos (K := K) (-(p.2 + 1))
    have m1 := abs_le.1 (roundF_dec (kind q) (weaker hp1 (near_range h1 h2 (x := q.1.re) (by linarith [n1.1]) (by linarith [n1.2])))).2
    have m2 := abs_le.1 (roundF_dec (kind q) (weaker hp2 (near_range h3 h4 (x := q.1.im) (by linarith [n2.1]) (by linarith [n2.2])))).2
    change _ ≤ (roundRootF (double K).fl (kind q) q p).1.re - q.1.re ∧ (roundRootF (double K).fl (kind q) q p).1.re - q.1.re ≤ _ at m1
    change _ ≤ (roundRootF (double K).fl (kind q) q p).1.im - q.1.im ∧ (roundRootF (double K).fl (kind q) q p).1.im - q.1.im ≤ _ at m2
    refine ⟨⟨abs_lt.2 ⟨?_, ?_⟩, abs_lt.2 ⟨?_, ?_⟩⟩, ?_, ?_, ?_, ?_⟩ <;> dsimp only <;> linarith [n1.1, n1.2, m1.1, m1.2, n2.1, n2.2, m2.1, m2.2]
  have hpp : ((p.1 + 1 - 1, p.2 + 1 - 1) : ℤ × ℤ) = p := by ext <;> simp
  rw [hpp]
  generalize hfc : ({ f := fd.f, reRan := dom.1, imRan := dom.2, precision := p } : FilterCtx K) = fc
  have hfp : fc.precision = p := by rw [← hfc]
  obtain ⟨a1, a2, _⟩ := addRootsF_free (double K).fl kind fd.info fc B fd.container hcont
  rw [hfp] at a1 a2
  refine ⟨fun z hz hreq => ?_, fun r hr => ?_⟩
  · obtain ⟨q, hq, hq1, hn⟩ := hfound z hz hreq
    have hi := d2 z hreq
    exact ⟨_, a2 q hq, hq1, (cand q z ⟨hi.1.le, hi.2.1.le, hi.2.2.1.le, hi.2.2.2.le⟩ hn).1⟩
  · rcases a1 r hr with h | ⟨q, hq, rfl⟩
    · exact Or.inl h
    · right
      rcases hfrom q hq with ⟨h, hf⟩ | ⟨hq1, z, hz, hin, hn⟩
      · exact Or.inl ⟨h, q.1, kind q, hf, rfl⟩
      · exact Or.inr ⟨hq1, (cand q z hin hn).2, z, hz, (cand q z hin hn).1⟩

/-! ### example -/

/-- a finder in doubles for a function with the zero `(1 + 2i) / 3` -/
def thirdNewtonFinder : Finder Unit ℚ :=
  Finder.init (fun z => z - ⟨1 / 3, 2 / 3⟩) none (simpleArgumentNewtonF (double ℚ) thirdSolver (crossEst 3 [⟨1 / 3, 2 / 3⟩]) 3 40)
    (EstCache.init false) () (fun p => .rounding (RContainer.init p (5, 5))) false (some (2, 2)) (some false) ⟨(5, 5), true⟩

/-- non-vacuity (end points and estimator as for C110): the solver finds the zero in every search for three decimals -/
example (ctx : RCtx ℚ) (h1 : ctx.df = none) (h2 : ctx.precision = (3, 3)) (pi : ℚ) (est : LineEst Unit ℚ) (limit : ℕ) :
    SolverFindsF (double ℚ) thirdSolver est pi limit ctx [⟨1 / 3, 2 / 3⟩] := by
  intro w w' _ c _ _ z hz _
  rw [List.mem_singleton.1 hz]
  unfold FindsF
  rw [h1, h2]
  exact ⟨⟨_, rfl, by unfold Near; decide +kernel⟩, fun df h => by cases h⟩
/-- what is reported, by the serial and the parallel finder -/
example : (thirdNewtonFinder.calculateRootsF (double ℚ) (fun _ => .numpy) (0, 1) (0, 1) none none).outcome = .ok () ∧
    (thirdNewtonFinder.calculateRootsF (double ℚ) (fun _ => .numpy) (0, 1) (0, 1) none none).warned = false ∧
    held (thirdNewtonFinder.calculateRootsF (double ℚ) (fun _ => .numpy) (0, 1) (0, 1) none none).finder.container =
      [(⟨flBin 53 (333 / 1000), flBin 53 (667 / 1000)⟩, 1)] := by decide +kernel
example : (thirdNewtonFinder.calculateRootsParallelF (double ℚ) (fun _ => .python) 2 (0, 1) (0, 1) none ⟨[1], false, 0⟩).outcome = .ok () ∧
    held (thirdNewtonFinder.calculateRootsParallelF (double ℚ) (fun _ => .python) 2 (0, 1) (0, 1) none ⟨[1], false, 0⟩).finder.container =
      [(⟨flBin 53 (33 / 100), flBin 53 (67 / 100)⟩, 1)] := by decide +kernel

end

/-- C155, solver. scipy's solver with computed operations finds the zeros of every rectangle in which it is started, if the derivative is steady and the operations are accurate near them. -/
theorem C155_solver {σ : Type} (A : FloatOps ℝ) (u : ℝ) (hA : Rounds A.fl u) (O : SolverOps ℝ) (arr) (est : LineEst σ ℝ) (pi : ℝ) (limit : ℕ) (ctx : RCtx ℝ) (df : Cx ℝ → Cx ℝ)
    (hdf : ctx.df = some df) (hest : BoundaryHits est ctx) (hp : GoodPow A ctx.precision) (htol : 1 / 2 ≤ 10 ^ 17 * tolF A ctx.precision)
    (hm : Cell.Machine A.fl ⟨ctx.reRan, ctx.imRan, 0⟩) (hre : ctx.reRan.1 ≤ ctx.reRan.2) (him : ctx.imRan.1 ≤ ctx.imRan.2) (zeros : List (Cx ℝ))
    (htame : ∀ w w', simpleArgumentNewtonF A (roundedSolver O arr) est pi limit ctx w = (.ok (), w') → ∀ c ∈ newCells w w', Cell.OneTurnF A pi c → ∀ z ∈ zeros, Cell.HasHalfOpen c z →
      TameAt A O ctx.f df ctx.precision c z) :
    SolverFindsF A (roundedSolver O arr) est pi limit ctx zeros := by
  intro w w' h c hc ho z hz hcz
  obtain ⟨h1, _⟩ := newtonF_run hA (roundedSolver O arr) hest limit ⟨hm, hre, him⟩ w w' h
  exact C153_solver A u hA O arr ctx df hdf hp htol c (h1 c hc).2.1 ho.2.2.1 ho.2.2.2 z (has_of_halfOpen hcz) (htame w w' h c hc ho z hz hcz)

end PyZeal.Props
