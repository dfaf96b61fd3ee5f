import Verif.Spec.Report
import Verif.Props.Filters
import Verif.Props.Variants

/-! # Property C117: what finders with the Newton grid algorithm report -/

set_option linter.unusedSectionVars false

namespace PyZeal.Props
open Spec
variable {σ K : Type} [Field K] [LinearOrder K] [IsStrictOrderedRing K] [FloorRing K]

/-- what the solver returns for the grid on a rectangle -/
def iterates (nt : NewtonSolver K) (n : ℕ) (f : Cx K → Cx K) (df : Option (Cx K → Cx K)) (c : Cell K) : List (Cx K) :=
  (nt.grid f (gridPoints c.re c.im n) df).getD []

theorem newtonGrid_run (nt : NewtonSolver K) (n : ℕ) (truthy : Bool) (ctx : RCtx K) (w : World σ K) (hw : w.fuse = none) :
    ∃ adv, newtonGrid nt n truthy ctx w = (.ok (), { w with
      added := w.added ++ (iterates nt n ctx.f ctx.df ⟨ctx.reRan, ctx.imRan, 0⟩).map fun z => (z, 0), advances := adv }) := by
  unfold newtonGrid iterates
  dsimp only
  rcases hg : nt.grid ctx.f (gridPoints ctx.reRan ctx.imRan n) ctx.df with _ | roots
  · exact ⟨w.advances, by simp⟩
  · dsimp only
    have hadd : ∀ (rs : List (Root K)) (w : World σ K), w.fuse = none →
        World.addRoots rs w = (.ok (), { w with added := w.added ++ rs }) := by
      intro rs
      induction rs with
      | nil => intro w _; simp [World.addRoots]
      | cons r rs ih =>
        intro w hw
        unfold World.addRoots
        rw [Py.bind_run]
        have h1 : World.addRoot r w = (.ok (), { w with added := w.added ++ [r] }) := by
          unfold World.addRoot
          have ht : World.tick w = (.ok (), w) := by unfold World.tick; rw [hw]
          rw [Py.bind_run, ht]
          rfl
        rw [h1]
        dsimp only
        have h2 := ih { w with added := w.added ++ [r] } hw
        simpa using h2
    rw [Py.bind_run, hadd _ w hw]
    dsimp only
    cases truthy
    · exact ⟨w.advances, rfl⟩
    · simp only [if_true]
      unfold World.advance
      split
      · rw [Py.bind_run]
        unfold World.tick
        rw [hw]
        exact ⟨_, rfl⟩
      · exact ⟨w.advances, rfl⟩

theorem newtonGrid_jobs (nt : NewtonSolver K) (n : ℕ) (truthy : Bool) (jobs : List (RCtx K)) (w : World σ K) (hw : w.fuse = none) :
    ∃ adv, runJobs (newtonGrid nt n truthy) jobs w = (.ok (), { w with
      added := w.added ++ jobs.flatMap fun ctx => (iterates nt n ctx.f ctx.df ⟨ctx.reRan, ctx.imRan, 0⟩).map fun z => (z, 0), advances := adv }) := by
  induction jobs generalizing w with
  | nil => exact ⟨w.advances, by simp [runJobs]⟩
  | cons c jobs ih =>
    rw [runJobs, Py.bind_run]
    obtain ⟨a1, h1⟩ := newtonGrid_run nt n truthy c w hw
    rw [h1]
    dsimp only
    obtain ⟨a2, h2⟩ := ih { w with added := w.added ++ (iterates nt n c.f c.df ⟨c.reRan, c.imRan, 0⟩).map fun z => (z, 0), advances := a1 } hw
    rw [h2]
    exact ⟨a2, by simp⟩

theorem isGrid_points (c : Cell K) (hre : c.re.1 ≤ c.re.2) (him : c.im.1 ≤ c.im.2) {n : ℕ} (hn : 2 ≤ n) : IsGrid c n (gridPoints c.re c.im n) :=
  let h := C45_grid c.re c.im hre him n hn
  ⟨h.1, h.2.1⟩

theorem IsGrid.unique {c : Cell K} {n : ℕ} {a b : List (Cx K)} (ha : IsGrid c n a) (hb : IsGrid c n b) : a = b := by
  apply List.ext_getElem?
  intro k
  by_cases hk : k < n * n
  · have hn : 0 < n := by rcases n with _ | n <;> simp_all
    have h1 : k / n < n := Nat.div_lt_of_lt_mul hk
    have h2 : k % n < n := Nat.mod_lt _ hn
    have e : k = k / n * n + k % n := by rw [Nat.mul_comm]; exact (Nat.div_add_mod k n).symm
    rw [e, ha.2 _ _ h1 h2, hb.2 _ _ h1 h2]
  · rw [List.getElem?_eq_none (by rw [ha.1]; omega), List.getElem?_eq_none (by rw [hb.1]; omega)]

/-- C117, serial. A finder with the Newton grid algorithm and a new rounding container, with filters set: an uninterrupted search returns without
warning and reports exactly the roundings, with order 0, of those results of the solver, called once for the grid on the searched rectangle, which
satisfy the filters; nothing, if the solver raises `RuntimeError`. -/
theorem C117_serial (nt : NewtonSolver K) (n : ℕ) (hn : 2 ≤ n) (truthy : Bool) (fd : Finder σ K) (hfd : fd.algorithm = newtonGrid nt n truthy)
    (hc : RoundsFreely fd.container) (he : IsEmpty fd.container) (calls : List (FilterType × ℤ)) (re im : K × K) (call : Option (ℤ × ℤ)) (p : ℤ × ℤ)
    (hp : Asked call fd.precision p) :
    ∃ fd' pts, Finder.setRootFilters calls fd = (.ok (), fd') ∧ IsGrid (Searched re im (p.1 + 1, p.2 + 1)) n pts ∧
      let s := fd'.calculateRoots re im call none
      s.outcome = .ok () ∧ s.warned = false ∧
      ∀ r, r ∈ held s.finder.container ↔ r.2 = 0 ∧ ∃ roots, nt.grid fd.f pts fd.df = some roots ∧ ∃ z ∈ roots,
        RoundsTo (p.1 + 1, p.2 + 1) z r.1 ∧ Passes calls (Searched re im (p.1 + 1, p.2 + 1)) fd.f z := by
  obtain ⟨fd', h1, h2, h3, h4⟩ := C97_serial fd hc he calls re im call p hp none
  obtain ⟨d1, d2, _, _⟩ := C46_domain re im (p.1 + 1, p.2 + 1)
  have hcell := searched_eq re im (p.1 + 1, p.2 + 1)
  have hgrid := isGrid_points (⟨(desymmetrizeDomain re im (p.1 + 1, p.2 + 1)).1, (desymmetrizeDomain re im (p.1 + 1, p.2 + 1)).2, 0⟩ : Cell K) d1.le d2.le hn
  rw [hcell] at hgrid
  refine ⟨fd', _, h1, hgrid, ?_⟩
  have hb := calculateRoots_outcome { fd with container := .plain ⟨[], []⟩ } re im call none
  have hcont := calculateRoots_container { fd with container := .plain ⟨[], []⟩ } re im call none
  have hctx : Finder.ctx { fd with container := .plain ⟨[], []⟩ } re im call = fd.ctx re im call := rfl
  have hstart : Finder.start { fd with container := .plain ⟨[], []⟩ } none = fd.start none := rfl
  obtain ⟨adv, hrun⟩ := newtonGrid_run nt n truthy (fd.ctx re im call) (fd.start none) rfl
  have hreal : (⟨(fd.ctx re im call).reRan, (fd.ctx re im call).imRan, 0⟩ : Cell K) = Searched re im (p.1 + 1, p.2 + 1) := by
    rw [← hcell, ← searchPrecision_asked hp]; rfl
  rw [hreal] at hrun
  dsimp only at hb hcont
  rw [← hfd] at hrun
  rw [hctx, hstart, hrun] at hb hcont
  intro s
  refine ⟨h2.trans hb.1, h3.trans hb.2, fun r => ?_⟩
  rw [h4 r, hcont, addRoots_plain]
  simp only [held, List.nil_append, Finder.start, iterates, List.mem_map, Prod.mk.injEq]
  rw [show (fd.ctx re im call).f = fd.f from rfl, show (fd.ctx re im call).df = fd.df from rfl]
  rcases nt.grid fd.f (gridPoints (Searched re im (p.1 + 1, p.2 + 1)).re (Searched re im (p.1 + 1, p.2 + 1)).im n) fd.df with _ | roots
  · simp
  · simp only [Option.getD_some, Option.some.injEq, exists_eq_left']
    constructor
    · rintro ⟨z, ⟨y, hy, rfl, h0⟩, h5, h6⟩
      exact ⟨h0.symm, y, hy, h5, h6⟩
    · rintro ⟨h0, z, hz, h5, h6⟩
      exact ⟨z, ⟨z, hz, rfl, h0.symm⟩, h5, h6⟩

theorem firstFailure_all_ok (s : Schedule) (rs : List (Except Err Unit)) (h : ∀ r ∈ rs, r = .ok ()) : firstFailure s rs = .ok () := by
  unfold firstFailure
  have : rs.filterMap errorOf = [] := by
    rw [List.filterMap_eq_nil_iff]
    intro r hr
    rw [h r hr]
    rfl
  rw [this]

/-- C117, parallel. The same with any number of processes and any schedule without interrupt: the solver is called once for each of `cpus * cpus`
rectangles which tile the searched rectangle; a call which raises `RuntimeError` contributes nothing and does not disturb the others. -/
theorem C117_parallel (nt : NewtonSolver K) (n : ℕ) (hn : 2 ≤ n) (truthy : Bool) (fd : Finder σ K) (hfd : fd.algorithm = newtonGrid nt n truthy)
    (hc : RoundsFreely fd.container) (he : IsEmpty fd.container) (calls : List (FilterType × ℤ)) (cpus : ℕ) (hcpus : 1 ≤ cpus) (re im : K × K)
    (call : Option (ℤ × ℤ)) (p : ℤ × ℤ) (hp : Asked call fd.precision p) (sched : Schedule) (hsched : sched.interrupted = false) :
    ∃ fd' cells, Finder.setRootFilters calls fd = (.ok (), fd') ∧ Tiles cpus cells (Searched re im (p.1 + 1, p.2 + 1)) ∧
      let s := fd'.calculateRootsParallel cpus re im call sched
      s.outcome = .ok () ∧ s.warned = false ∧
      ∀ r, r ∈ held s.finder.container ↔ r.2 = 0 ∧ ∃ c ∈ cells, ∃ pts roots, IsGrid c n pts ∧ nt.grid fd.f pts fd.df = some roots ∧ ∃ z ∈ roots,
        RoundsTo p z r.1 ∧ Passes calls (Searched re im (p.1 + 1, p.2 + 1)) fd.f z := by
  obtain ⟨fd', h1, h2, h3, h4⟩ := C97_parallel fd hc he calls cpus re im call p hp sched
  obtain ⟨d1, d2, _, _⟩ := C46_domain re im (p.1 + 1, p.2 + 1)
  have hcell := searched_eq re im (p.1 + 1, p.2 + 1)
  generalize hdom : desymmetrizeDomain re im (p.1 + 1, p.2 + 1) = dom at *
  have hj := C47_jobs fd.f fd.df cpus hcpus dom.1 dom.2 d1.le d2.le (p.1 + 1, p.2 + 1) fd.verbose
  generalize hjobs : createRootJobs fd.f fd.df cpus dom.1 dom.2 (p.1 + 1, p.2 + 1) fd.verbose = jobs at *
  obtain ⟨j1, j2, _, j4, _, j6⟩ := hj
  have jin : ∀ job ∈ jobs, Cell.In ⟨job.reRan, job.imRan, 0⟩ ⟨dom.1, dom.2, 0⟩ := fun job hj => jobs_in hcpus d1.le d2.le (hjobs ▸ hj)
  refine ⟨fd', jobs.map fun j => ⟨j.reRan, j.imRan, 0⟩, h1, ⟨by simpa using j1, ?_, ?_, ?_⟩, ?_⟩
  · intro z
    rw [← hcell, j2 z]
    simp
  · rw [List.pairwise_map]; exact j4
  · rw [← hcell]
    simp only [List.mem_map]
    rintro l ⟨job, hjob, rfl⟩
    exact jin job hjob
  · intro s
    have hpiece : ∀ piece, runPiece { fd with container := .plain ⟨[], []⟩ } piece =
        (.ok (), piece.flatMap fun ctx => (iterates nt n ctx.f ctx.df ⟨ctx.reRan, ctx.imRan, 0⟩).map fun z => (z, 0)) := by
      intro piece
      obtain ⟨adv, h⟩ := newtonGrid_jobs nt n truthy piece (fd.start none) rfl
      unfold runPiece
      dsimp only
      rw [hfd]
      have h' : runJobs (newtonGrid nt n truthy) piece
        { cache := fd.cache, est := fd.est, added := [], advances := [], fuse := none, log := [] } = _ := h
      rw [h']
      simp [Finder.start]
    generalize hB : Finder.calculateRootsParallel { fd with container := .plain ⟨[], []⟩ } cpus re im call sched = b at *
    simp only [Finder.calculateRootsParallel, searchPrecision_asked hp, hdom, hjobs, hsched, Bool.false_eq_true, if_false] at hB
    generalize hres : (chunks cpus jobs.length jobs).map (runPiece { fd with container := .plain ⟨[], []⟩ }) = results at hB
    have hff : firstFailure sched (results.map Prod.fst) = .ok () := by
      apply firstFailure_all_ok
      intro r hr
      rw [← hres] at hr
      simp only [List.mem_map, exists_exists_and_eq_and] at hr
      obtain ⟨piece, _, rfl⟩ := hr
      rw [hpiece]
    rw [hff] at hB
    dsimp only at hB
    have hmem : ∀ x : Root K, x ∈ (deliver (results.map Prod.snd) sched.turns).1 ++ (deliver (results.map Prod.snd) sched.turns).2.flatten ↔
        ∃ job ∈ jobs, x.2 = 0 ∧ x.1 ∈ iterates nt n job.f job.df ⟨job.reRan, job.imRan, 0⟩ := by
      intro x
      rw [(deliver_perm _ _).mem_iff, ← hres]
      have hfl := chunks_flatten hcpus jobs.length jobs le_rfl
      constructor
      · intro hx
        simp only [List.mem_flatten, List.mem_map, exists_exists_and_eq_and] at hx
        obtain ⟨piece, hpc, hx⟩ := hx
        rw [hpiece] at hx
        obtain ⟨job, hjob, hx⟩ := List.mem_flatMap.1 hx
        obtain ⟨z, hz, rfl⟩ := List.mem_map.1 hx
        exact ⟨job, hfl ▸ List.mem_flatten.2 ⟨piece, hpc, hjob⟩, rfl, hz⟩
      · rintro ⟨job, hjob, h0, hz⟩
        rw [← hfl] at hjob
        obtain ⟨piece, hpc, hjp⟩ := List.mem_flatten.1 hjob
        simp only [List.mem_flatten, List.mem_map, exists_exists_and_eq_and]
        refine ⟨piece, hpc, ?_⟩
        rw [hpiece]
        exact List.mem_flatMap.2 ⟨job, hjp, List.mem_map.2 ⟨x.1, hz, Prod.ext rfl h0.symm⟩⟩
    subst hB
    refine ⟨h2, h3, fun r => ?_⟩
    rw [h4 r]
    dsimp only
    rw [addRoots_plain]
    simp only [held, List.nil_append, hmem]
    constructor
    · rintro ⟨z, ⟨job, hjob, h0, hz⟩, h5, h6⟩
      refine ⟨h0, ⟨job.reRan, job.imRan, 0⟩, List.mem_map.2 ⟨job, hjob, rfl⟩, _, iterates nt n job.f job.df ⟨job.reRan, job.imRan, 0⟩, isGrid_points _ (jin job hjob).2.1 (jin job hjob).2.2.2.2.1 hn, ?_⟩
      obtain ⟨e1, e2, _⟩ := j6 job hjob
      unfold iterates at hz ⊢
      rw [e1, e2] at hz ⊢
      dsimp only at hz ⊢
      rcases hg : nt.grid fd.f (gridPoints job.reRan job.imRan n) fd.df with _ | roots <;> rw [hg] at hz
      · simp at hz
      · exact ⟨rfl, z, hz, h5, h6⟩
    · rintro ⟨h0, c, hcm, pts, roots, hg, hgr, z, hz, h5, h6⟩
      obtain ⟨job, hjob, rfl⟩ := List.mem_map.1 hcm
      obtain ⟨e1, e2, _⟩ := j6 job hjob
      refine ⟨z, ⟨job, hjob, h0, ?_⟩, h5, h6⟩
      have hu := IsGrid.unique hg (isGrid_points _ (jin job hjob).2.1 (jin job hjob).2.2.2.2.1 hn)
      unfold iterates
      rw [e1, e2, ← hu, hgr]
      exact hz

/-- a solver which improves the start points, and one which fails left of the imaginary axis -/
def stepSolver : NewtonSolver ℚ := ⟨fun _ _ _ _ => none, fun _ _ _ _ => none,
  fun _ pts _ => if pts.any (fun z => decide (z.re < -1)) then none else some (pts.map fun z => ⟨z.re / 2, z.im / 2⟩)⟩

/-- a finder with the Newton grid algorithm -/
def gridFinder : Finder Unit ℚ :=
  Finder.init exF none (newtonGrid stepSolver 2 false) (EstCache.init false) ()
    (fun p => .rounding (RContainer.init p (5, 5))) false (some (0, 0)) (some false) ⟨(5, 5), true⟩

/-- non-vacuity of `C117_serial` -/
example : RoundsFreely gridFinder.container ∧ IsEmpty gridFinder.container ∧ gridFinder.algorithm = newtonGrid stepSolver 2 false := ⟨rfl, rfl, rfl⟩
example : held ((Finder.setRootFilters [(.zeroInBounds, 3)] gridFinder).2.calculateRoots (1, 4) (0, 2) none none).finder.container =
    [(⟨21 / 10, -1 / 5⟩, 0), (⟨21 / 10, 6 / 5⟩, 0)] := by decide +kernel
/-- non-vacuity of `C117_parallel`: the solver fails for half of the jobs -/
example : held ((Finder.setRootFilters [(.zeroInBounds, 3)] gridFinder).2.calculateRootsParallel 2 (-2, 2) (0, 2) none ⟨[1], false, 0⟩).finder.container =
    [(⟨0, 0⟩, 0), (⟨0, 1⟩, 0), (⟨1, 0⟩, 0), (⟨1, 1⟩, 0)] := by decide +kernel

end PyZeal.Props
